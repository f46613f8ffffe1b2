import Verif.Props.BadPixel
import Verif.Props.IntMaps
import Verif.Props.Stability
import Verif.Props.Converge
import Mathlib.Data.Int.Log

/-!
# C97: small errors of the maps and of the coefficients change the residual little
-/

namespace Verif.Props

open Verif Verif.Np Verif.Aperture Verif.MathFn Verif.Core Verif.Telgeometry Verif.Fs Verif.Sim Verif.AuxFn Filter Topology

/-! ## The normalisation -/

/-- **C97** two maps that differ by at most `ε` at every pixel: their normalised maps differ by at most `2 ε` over
the spread (largest minus smallest value) of one of them. -/
theorem C97_norm {ι : Type} [Fintype ι] [Nonempty ι] (p p' : ι → ℝ) (ε : ℝ) (h : ∀ q, |p q - p' q| ≤ ε) :
    ∃ n n', MathFn.norm (fun q => Fl.fin (p q)) = .ok n ∧ MathFn.norm (fun q => Fl.fin (p' q)) = .ok n' ∧
      ∀ q s t, |n q - n' q| * (p t - p s) ≤ 2 * ε := by
  obtain ⟨a, b, hle, hn⟩ := norm_fin p
  obtain ⟨a', b', hle', hn'⟩ := norm_fin p'
  refine ⟨_, _, hn, hn', fun q s t => ?_⟩
  have hε : 0 ≤ ε := (abs_nonneg _).trans (h q)
  have hD : 0 ≤ p b - p a := sub_nonneg.2 (hle b).1
  have hst : p t - p s ≤ p b - p a := by linarith [(hle t).2, (hle s).1]
  refine (mul_le_mul_of_nonneg_left hst (abs_nonneg _)).trans ?_
  rcases hD.lt_or_eq with hD | hD
  swap
  · rw [← hD, mul_zero]; linarith
  -- the weight of the other map
  set w := (p' q - p' a') / (p' b' - p' a') with hw
  have hD' : 0 ≤ p' b' - p' a' := sub_nonneg.2 (hle' b').1
  have hw0 : 0 ≤ w := div_nonneg (sub_nonneg.2 (hle' q).1) hD'
  have hw1 : w ≤ 1 := div_le_one_of_le₀ (by linarith [(hle' q).2]) hD'
  have hwD : w * (p' b' - p' a') = p' q - p' a' := by
    rcases hD'.lt_or_eq with h0 | h0
    · rw [hw, div_mul_cancel₀ _ h0.ne']
    · rw [← h0, mul_zero]
      linarith [(hle' q).1, (hle' q).2]
  -- smallest and largest values move by at most `ε`
  have ea : |p a - p' a'| ≤ ε := abs_le.2 ⟨by linarith [(abs_le.1 (h a)).1, (hle' a).1],
    by linarith [(abs_le.1 (h a')).2, (hle a').1]⟩
  have eb : |p b - p' b'| ≤ ε := abs_le.2 ⟨by linarith [(abs_le.1 (h b')).1, (hle b').2],
    by linarith [(abs_le.1 (h b)).2, (hle' b).2]⟩
  have key : ((p q - p a) / (p b - p a) - w) * (p b - p a) =
      (p q - p' q) - ((1 - w) * (p a - p' a') + w * (p b - p' b')) := by
    rw [sub_mul, div_mul_cancel₀ _ hD.ne']
    linear_combination -hwD
  have hbound : |(1 - w) * (p a - p' a') + w * (p b - p' b')| ≤ ε := by
    refine (abs_add_le _ _).trans ?_
    rw [abs_mul, abs_mul, abs_of_nonneg hw0, abs_of_nonneg (sub_nonneg.2 hw1)]
    nlinarith [mul_le_mul_of_nonneg_left ea (sub_nonneg.2 hw1), mul_le_mul_of_nonneg_left eb hw0]
  calc |(p q - p a) / (p b - p a) - w| * (p b - p a)
      = |((p q - p a) / (p b - p a) - w) * (p b - p a)| := by rw [abs_mul, abs_of_pos hD]
    _ ≤ |p q - p' q| + |(1 - w) * (p a - p' a') + w * (p b - p' b')| := by rw [key]; exact abs_sub _ _
    _ ≤ 2 * ε := by linarith [h q]

/-- The factor 2 cannot be improved: the peak is lowered and another pixel is raised. -/
example : ∃ (p p' : Fin 3 → ℝ) (n n' : Fin 3 → ℝ), (∀ q, |p q - p' q| ≤ 1 / 4) ∧
    MathFn.norm (fun q => Fl.fin (p q)) = .ok n ∧ MathFn.norm (fun q => Fl.fin (p' q)) = .ok n' ∧
    |n 1 - n' 1| * (p 2 - p 0) = 2 * (1 / 4) := by
  refine ⟨![0, 1 / 2, 1], ![0, 3 / 4, 3 / 4], _, _, ?_, C27_value _ 0 2 ?_ ?_ ?_, C27_value _ 0 2 ?_ ?_ ?_, ?_⟩
  all_goals have e1 : (![0, 1 / 2, 1] : Fin 3 → ℝ) 2 = 1 := rfl
  all_goals have e2 : (![0, 3 / 4, 3 / 4] : Fin 3 → ℝ) 2 = 3 / 4 := rfl
  · intro q; fin_cases q <;> norm_num [Matrix.cons_val, abs_le, e1, e2]
  · intro q; fin_cases q <;> norm_num [Matrix.cons_val, e1]
  · intro q; fin_cases q <;> norm_num [Matrix.cons_val, e1]
  · norm_num [e1]
  · intro q; fin_cases q <;> norm_num [Matrix.cons_val, e2]
  · intro q; fin_cases q <;> norm_num [Matrix.cons_val, e2]
  · norm_num [e2]
  · norm_num [e1, e2, abs_of_neg]

/-! ## The residual -/

variable {N M : ℕ}

/-- **C97** the factor 2 is reached: maps of every error `ε ≤ 1/2` and spread 1 whose normalised maps differ by `2 ε`. -/
theorem C97_factor (ε : ℝ) (h0 : 0 ≤ ε) (h1 : ε ≤ 1 / 2) :
    ∃ p p' n n' : Fin 3 → ℝ, (∀ q, |p q - p' q| ≤ ε) ∧ MathFn.norm (fun q => Fl.fin (p q)) = .ok n ∧
      MathFn.norm (fun q => Fl.fin (p' q)) = .ok n' ∧ |n 1 - n' 1| * (p 2 - p 0) = 2 * ε := by
  have e1 := C27_value ![0, 1, 1] 0 2 (by intro q; fin_cases q <;> simp) (by intro q; fin_cases q <;> simp) (by simp)
  have e2 := C27_value ![ε, 1 - ε, 1 + ε] 0 2 (by intro q; fin_cases q <;> simp <;> linarith)
    (by intro q; fin_cases q <;> simp <;> linarith) (by simp)
  refine ⟨_, _, _, _, fun q => ?_, e1, e2, ?_⟩
  · fin_cases q <;> simp [abs_of_nonneg h0]
  · have a2 : (![0, 1, 1] : Fin 3 → ℝ) 2 = 1 := rfl
    have b2 : (![ε, 1 - ε, 1 + ε] : Fin 3 → ℝ) 2 = 1 + ε := rfl
    simp only [a2, b2, Matrix.cons_val_one, Matrix.cons_val_zero, sub_zero, div_one, mul_one, add_sub_cancel_right]
    rw [show (1 : ℝ) - (1 - ε - ε) = 2 * ε by ring, abs_of_nonneg (by linarith)]

/-- **C97** an error of at most `ε i` in the pixels of the observed map `i` changes the residuals of that map by at
most `2 ε i` over the spread of the map; whether the residual can be computed does not depend on it. -/
theorem C97_data (params : List ℝ) (d d' : Fin 3 × Fin M → ℝ) (u v : Fin 3 × Fin M → ℝ) (dz : Fin 3 → ℝ) (wavel : ℝ)
    (illum : Illum (Fin N × Fin N)) (tel : TelGeo (Fin N × Fin N)) (bf : ℝ) (ε : Fin 3 → ℝ)
    (hd : ∀ q, |d q - d' q| ≤ ε q.1) (r : List ℝ)
    (h : residualTrue params (fun q => .fin (d q)) u v dz wavel illum tel bf = .ok r) :
    ∃ r', residualTrue params (fun q => .fin (d' q)) u v dz wavel illum tel bf = .ok r' ∧ r'.length = r.length ∧
      ∀ (i : Fin 3) (k : Fin M) (x x' : ℝ), r[(i : ℕ) * M + k]? = some x → r'[(i : ℕ) * M + k]? = some x' →
        ∀ s t, |x - x'| * (d (i, t) - d (i, s)) ≤ 2 * ε i := by
  obtain ⟨hM, hl, -, -⟩ := residual_layout params _ u v dz wavel illum tel bf r h
  obtain ⟨b, hb, nd, nm, h1, h2, rfl⟩ := residualTrue_ok.1 h
  obtain ⟨nd1, h3, h4⟩ := C27_axis1 hM fun q => Fl.fin (d q)
  obtain ⟨nd', h5, h6⟩ := C27_axis1 hM fun q => Fl.fin (d' q)
  rw [h1] at h3
  cases h3
  refine ⟨_, residualTrue_ok.2 ⟨b, hb, nd', nm, h5, h2, rfl⟩, by rw [flatten3_length, flatten3_length], ?_⟩
  intro i k x x' hx hx' s t
  rw [flatten3_getElem, Option.some.injEq] at hx hx'
  have : Nonempty (Fin M) := ⟨k⟩
  obtain ⟨n, n', e1, e2, e3⟩ := C97_norm (fun k => d (i, k)) (fun k => d' (i, k)) (ε i) fun k => hd (i, k)
  have e4 := h4 i
  have e5 := h6 i
  rw [e1] at e4
  rw [e2] at e5
  cases e4
  cases e5
  have := e3 k s t
  rw [← hx, ← hx', sub_sub_sub_cancel_right]
  exact this

/-- **C97** two models of the same data whose maps differ by at most `ε i` at the pixels of map `i`: the residuals
differ by at most `2 ε i` over the spread of the model map. -/
theorem C97_model {N' : ℕ} (params params' : List ℝ) (d : Fin 3 × Fin M → Fl) (u v u' v' : Fin 3 × Fin M → ℝ)
    (dz dz' : Fin 3 → ℝ) (wavel wavel' : ℝ) (illum : Illum (Fin N × Fin N)) (tel : TelGeo (Fin N × Fin N))
    (illum' : Illum (Fin N' × Fin N')) (tel' : TelGeo (Fin N' × Fin N')) (bf bf' : ℝ) (ε : Fin 3 → ℝ)
    (b b' : Fin 3 → Fin M → ℝ) (hb : ∀ i, Spec.Sampled params u v dz wavel illum tel bf i (b i))
    (hb' : ∀ i, Spec.Sampled params' u' v' dz' wavel' illum' tel' bf' i (b' i))
    (hε : ∀ i k, |b i k - b' i k| ≤ ε i) (r r' : List ℝ)
    (h : residualTrue params d u v dz wavel illum tel bf = .ok r)
    (h' : residualTrue params' d u' v' dz' wavel' illum' tel' bf' = .ok r')
    (i : Fin 3) (k : Fin M) (x x' : ℝ) (hx : r[(i : ℕ) * M + k]? = some x) (hx' : r'[(i : ℕ) * M + k]? = some x')
    (s t : Fin M) : |x - x'| * (b i t - b i s) ≤ 2 * ε i := by
  simp only [sampled_iff] at hb hb'
  obtain ⟨-, -, -, h1⟩ := residual_layout _ _ _ _ _ _ _ _ _ r h
  obtain ⟨-, -, -, h2⟩ := residual_layout _ _ _ _ _ _ _ _ _ r' h'
  obtain ⟨b1, nd, nm, a1, a2, a3, a4⟩ := h1 i
  obtain ⟨b2, nd', nm', c1, c2, c3, c4⟩ := h2 i
  rw [hb i] at a1
  rw [hb' i] at c1
  cases a1
  cases c1
  rw [a2] at c2
  cases c2
  have : Nonempty (Fin M) := ⟨k⟩
  obtain ⟨n, n', e1, e2, e3⟩ := C97_norm (b i) (b' i) (ε i) (hε i)
  rw [a3] at e1
  rw [c3] at e2
  cases e1
  cases e2
  rw [a4 k, Option.some.injEq] at hx
  rw [c4 k, Option.some.injEq] at hx'
  have := e3 k s t
  rw [← hx, ← hx', sub_sub_sub_cancel_left, abs_sub_comm]
  exact this

theorem lin_mono {f g : ℕ → ℝ} {i : ℕ} {s : ℝ} (h : ∀ j, f j ≤ g j) (hs : 0 ≤ s ∧ s ≤ 1) : lin f i s ≤ lin g i s := by
  unfold lin
  exact add_le_add (mul_le_mul_of_nonneg_right (h i) (by linarith [hs.2])) (mul_le_mul_of_nonneg_right (h _) hs.1)

theorem lin_close {f g : ℕ → ℝ} {i : ℕ} {s c : ℝ} (h : ∀ j, |f j - g j| ≤ c) (hs : 0 ≤ s ∧ s ≤ 1) :
    |lin f i s - lin g i s| ≤ c := by
  have e : lin f i s - lin g i s = (f i - g i) * (1 - s) + (f (i + 1) - g (i + 1)) * s := by unfold lin; ring
  rw [e]
  refine (abs_add_le _ _).trans ?_
  rw [abs_mul, abs_mul, abs_of_nonneg hs.1, abs_of_nonneg (by linarith [hs.2] : 0 ≤ 1 - s)]
  nlinarith [mul_le_mul_of_nonneg_right (h i) (by linarith [hs.2] : 0 ≤ 1 - s),
    mul_le_mul_of_nonneg_right (h (i + 1)) hs.1]

theorem valAt_close {n : ℕ} {V V' : Fin n × Fin n → ℝ} {c : ℝ} (hc : 0 ≤ c) (h : ∀ q, |V q - V' q| ≤ c) (i j : ℕ) :
    |valAt V i j - valAt V' i j| ≤ c := by
  unfold valAt
  split_ifs
  · exact h _
  · simpa using hc

theorem evalLinear_close {n : ℕ} (hn : 2 ≤ n) {g0 g1 : Fin n → ℝ} (m0 : StrictMono g0) (m1 : StrictMono g1)
    {V V' : Fin n × Fin n → ℝ} {c : ℝ} (hc : 0 ≤ c) (h : ∀ q, |V q - V' q| ≤ c) {x y : ℝ} (hx : inGrid g0 x)
    (hy : inGrid g1 y) : |evalLinear g0 g1 V x y - evalLinear g0 g1 V' x y| ≤ c := by
  rw [evalLinear_lin, evalLinear_lin]
  exact lin_close (fun i => lin_close (fun j => valAt_close hc h i j) (cellDist_mem hn g1 m1 y hy))
    (cellDist_mem hn g0 m0 x hx)

/-- **C97** the Zernike coefficients: for an aperture that is dark outside the dish the residuals of a map change by at
most `8π S²` times the sum of the changes of the coefficients, over the spread of the model map, `S` being the sum of
the amplitudes in the aperture. -/
theorem C97_coefficients (I K K' : List ℝ) (hI : I.length = 5) (d : Fin 3 × Fin M → Fl) (u v : Fin 3 × Fin M → ℝ)
    (dz : Fin 3 → ℝ) (wavel : ℝ) (illum : Illum (Fin N × Fin N)) (tel : TelGeo (Fin N × Fin N)) (bf : ℝ)
    (hpr : 0 < tel.pr) (hw : 0 < wavel) (hKK : K.length = K'.length) (i : Fin 3) (a phi : Fin N × Fin N → ℝ)
    (hp : Spec.Parts I K (dz i) wavel illum tel bf a phi)
    (hdark : ∀ q, tel.pr ^ 2 < Spec.gridPoint tel.pr bf N q.2 ^ 2 + Spec.gridPoint tel.pr bf N q.1 ^ 2 → a q = 0)
    (b : Fin M → ℝ) (hb : Spec.Sampled (I ++ K) u v dz wavel illum tel bf i b) (r r' : List ℝ)
    (h : residualTrue (I ++ K) d u v dz wavel illum tel bf = .ok r)
    (h' : residualTrue (I ++ K') d u v dz wavel illum tel bf = .ok r')
    (k : Fin M) (x x' : ℝ) (hx : r[(i : ℕ) * M + k]? = some x) (hx' : r'[(i : ℕ) * M + k]? = some x') (s t : Fin M) :
    |x - x'| * (b t - b s) ≤ 8 * Real.pi * (∑ i, ∑ j, |a (i, j)|) ^ 2 * Spec.dist K K' := by
  rw [sampled_iff] at hb
  obtain ⟨-, -, -, h1⟩ := residual_layout _ _ _ _ _ _ _ _ _ r h
  obtain ⟨-, -, -, h2⟩ := residual_layout _ _ _ _ _ _ _ _ _ r' h'
  obtain ⟨b1, nd, nm, a1, a2, a3, a4⟩ := h1 i
  obtain ⟨b', nd', nm', c1, c2, c3, c4⟩ := h2 i
  rw [hb] at a1
  cases a1
  rw [a2] at c2
  cases c2
  obtain ⟨P, e1, e2⟩ := modelRow_ok.1 hb
  obtain ⟨P', f1, f2⟩ := modelRow_ok.1 c1
  rw [← hI, List.take_left, List.drop_left] at e1 f1
  obtain ⟨hN, E, -, hPe⟩ := radiationPattern_ok e1
  obtain ⟨-, E', -, hPe'⟩ := radiationPattern_ok f1
  have hu : P'.u = P.u := by rw [hPe, hPe']
  have hv : P'.v = P.v := by rw [hPe, hPe']
  rw [hu, hv] at f2
  obtain ⟨⟨m0, m1⟩, hin, rfl⟩ := (interpolator_ok_iff _ _ _ _ _).1 e2
  obtain ⟨-, -, rfl⟩ := (interpolator_ok_iff _ _ _ _ _).1 f2
  set c := 4 * Real.pi * (∑ i, ∑ j, |a (i, j)|) ^ 2 * Spec.dist K K' with hc
  have hclose : ∀ q, |‖P.F q‖ ^ 2 - ‖P'.F q‖ ^ 2| ≤ c := by
    intro q
    have := C80_power I K K' (dz i) (dz i) wavel 0 N illum tel bf hpr hw P P' a phi hKK e1 f1 hp hdark
      (fun e e' g1 g2 q => by rw [g1] at g2; cases g2; simp) q
    simpa using this
  have hc0 : 0 ≤ c := (abs_nonneg _).trans (hclose (⟨0, by omega⟩, ⟨0, by omega⟩))
  have : Nonempty (Fin M) := ⟨k⟩
  obtain ⟨n, n', g1, g2, g3⟩ := C97_norm _ _ c fun k => evalLinear_close hN m0 m1 hc0
    (V := fun q => ‖P.F (q.2, q.1)‖ ^ 2) (V' := fun q => ‖P'.F (q.2, q.1)‖ ^ 2)
    (fun q => hclose (q.2, q.1)) (hin k).1 (hin k).2
  rw [a3] at g1
  rw [c3] at g2
  cases g1
  cases g2
  rw [a4 k, Option.some.injEq] at hx
  rw [c4 k, Option.some.injEq] at hx'
  rw [← hx, ← hx', sub_sub_sub_cancel_left, abs_sub_comm]
  exact (g3 k s t).trans (le_of_eq (by rw [hc]; ring))

/-- One coefficient changed by 0.01, in the maps and the telescope of the scripts; and data changed by at most 0.01. -/
example (d : Fin 3 × Fin M → ℝ) (e : Fin 3 × Fin M → ℝ) (he : ∀ q, |e q| ≤ 0.01) (u v : Fin 3 × Fin M → ℝ) (r r' : List ℝ)
    (b : Fin M → ℝ)
    (hb : Spec.Sampled [1, -14, 2, 0, 0, 0, 0.1, 0.2] u v ![-0.022, 0, 0.022] 0.009 illumGauss
      (manualTel 50 3.25 1 20 30 387.39435) 5 (N := 256) 1 b)
    (h : residualTrue [1, -14, 2, 0, 0, 0, 0.1, 0.2] (fun q => .fin (d q)) u v ![-0.022, 0, 0.022] 0.009 illumGauss
      (manualTel 50 3.25 1 20 30 387.39435) 5 (N := 256) = .ok r)
    (h' : residualTrue [1, -14, 2, 0, 0, 0, 0.1, 0.21] (fun q => .fin (d q)) u v ![-0.022, 0, 0.022] 0.009 illumGauss
      (manualTel 50 3.25 1 20 30 387.39435) 5 (N := 256) = .ok r')
    (k : Fin M) (x x' : ℝ) (hx : r[M + k]? = some x) (hx' : r'[M + k]? = some x') (s t : Fin M) :
    (∃ a : Fin 256 × Fin 256 → ℝ, |x - x'| * (b t - b s) ≤ 8 * Real.pi * (∑ i, ∑ j, |a (i, j)|) ^ 2 * 0.01) ∧
    ∃ r'', residualTrue [1, -14, 2, 0, 0, 0, 0.1, 0.2] (fun q => .fin (d q + e q)) u v ![-0.022, 0, 0.022] 0.009 illumGauss
      (manualTel 50 3.25 1 20 30 387.39435) 5 (N := 256) = .ok r'' ∧
      ∀ x'', r''[M + k]? = some x'' → |x - x''| * (d (1, t) - d (1, s)) ≤ 0.02 := by
  constructor
  · have ⟨P, e1, _⟩ := hb
    obtain ⟨a, phi, hp⟩ := C70_parts _ _ _ _ _ _ _ _ _ e1
    have := C97_coefficients [1, -14, 2, 0, 0] [0, 0.1, 0.2] [0, 0.1, 0.21] rfl _ u v ![-0.022, 0, 0.022] 0.009 illumGauss
      (manualTel 50 3.25 1 20 30 387.39435) 5 (by norm_num [manualTel]) (by norm_num) rfl 1 a phi hp
      (C80_manual _ _ _ _ _ _ _ _ _ _ 0.022 _ _ a phi hp).1 b hb r r' h h' k x x' (by simpa using hx) (by simpa using hx') s t
    refine ⟨a, this.trans (le_of_eq ?_)⟩
    congr 1
    norm_num [Spec.dist, abs_of_neg, abs_of_pos]
  · obtain ⟨r'', h1, -, h2⟩ := C97_data [1, -14, 2, 0, 0, 0, 0.1, 0.2] d (fun q => d q + e q) u v _ 0.009 _ _ 5
      (fun _ => 0.01) (fun q => by simpa [abs_sub_comm] using he q) r h
    refine ⟨r'', h1, fun x'' hx'' => ?_⟩
    have := h2 1 k x x'' (by simpa using hx) (by simpa using hx'') s t
    linarith

/-! ## Simulated maps with noise and in single precision -/

theorem lin_near {n : ℕ} (hn : 2 ≤ n) (g : Fin n → ℝ) (hg : StrictMono g) (a : ℕ) (h0 : 0 < a) (h1 : a + 1 < n)
    (h τ x A : ℝ) (hh : 0 < h) (gap : ∀ i j : Fin n, (j : ℕ) = (i : ℕ) + 1 → g j - g i = h)
    (hx : |x - g ⟨a, by omega⟩| ≤ τ) (hτ : τ ≤ h) (f : ℕ → ℝ) (hf : ∀ j, 0 ≤ f j ∧ f j ≤ A) :
    inGrid g x ∧ |lin f (cellIdx g x) (cellDist g x) - f a| ≤ τ / h * A := by
  have hA : 0 ≤ A := (hf 0).1.trans (hf 0).2
  have g1 := gap ⟨a, by omega⟩ ⟨a + 1, h1⟩ rfl
  have g2 := gap ⟨a - 1, by omega⟩ ⟨a, by omega⟩ (by dsimp only; omega)
  obtain ⟨hx1, hx2⟩ := abs_le.1 hx
  have hlo : g ⟨a - 1, by omega⟩ ≤ x := by linarith
  have hhi : x ≤ g ⟨a + 1, h1⟩ := by linarith
  refine ⟨⟨⟨_, hlo⟩, _, hhi⟩, ?_⟩
  have bound : ∀ p q w : ℝ, 0 ≤ p ∧ p ≤ A → 0 ≤ q ∧ q ≤ A → 0 ≤ w → w ≤ τ / h → |(p - q) * w| ≤ τ / h * A := by
    intro p q w hp hq hw hw'
    rw [abs_mul, abs_of_nonneg hw, mul_comm]
    exact mul_le_mul hw' (abs_le.2 ⟨by linarith, by linarith⟩) (abs_nonneg _) (hw.trans hw')
  rcases le_total (g ⟨a, by omega⟩) x with hc | hc
  · rw [lin_cell hn g hg x a h1 hc hhi, g1]
    have e : lin f a ((x - g ⟨a, by omega⟩) / h) - f a = (f (a + 1) - f a) * ((x - g ⟨a, by omega⟩) / h) := by
      unfold lin; ring
    rw [e]
    exact bound _ _ _ (hf _) (hf _) (div_nonneg (by linarith) hh.le) (by gcongr)
  · have hpre : a - 1 + 1 = a := by omega
    have hlt : a - 1 + 1 < n := by omega
    have hx3 : x ≤ g ⟨a - 1 + 1, hlt⟩ := by simpa only [hpre] using hc
    rw [lin_cell hn g hg x (a - 1) hlt hlo hx3]
    have g3 : g ⟨a - 1 + 1, hlt⟩ - g ⟨a - 1, by omega⟩ = h := gap _ _ rfl
    rw [g3]
    have e : lin f (a - 1) ((x - g ⟨a - 1, by omega⟩) / h) - f a =
        (f (a - 1) - f a) * ((g ⟨a, by omega⟩ - x) / h) := by
      unfold lin
      rw [hpre]
      field_simp
      linear_combination -(f (a - 1) - f a) * g2
    rw [e]
    exact bound _ _ _ (hf _) (hf _) (div_nonneg (by linarith) hh.le) (by gcongr; linarith)

theorem evalLinear_near {n : ℕ} (hn : 2 ≤ n) (g : Fin n → ℝ) (hg : StrictMono g) (h τ A : ℝ) (hh : 0 < h)
    (gap : ∀ i j : Fin n, (j : ℕ) = (i : ℕ) + 1 → g j - g i = h) (hτ : τ ≤ h) (V : Fin n × Fin n → ℝ)
    (hV : ∀ q, 0 ≤ V q ∧ V q ≤ A) (a b : Fin n) (ha : 0 < (a : ℕ)) (ha' : (a : ℕ) + 1 < n) (hb : 0 < (b : ℕ))
    (hb' : (b : ℕ) + 1 < n) (x y : ℝ) (hx : |x - g a| ≤ τ) (hy : |y - g b| ≤ τ) :
    inGrid g x ∧ inGrid g y ∧ |evalLinear g g V x y - V (a, b)| ≤ 2 * (τ / h * A) ∧
      0 ≤ evalLinear g g V x y ∧ evalLinear g g V x y ≤ A := by
  have hA : 0 ≤ A := (hV (a, b)).1.trans (hV (a, b)).2
  have hval : ∀ i j, 0 ≤ valAt V i j ∧ valAt V i j ≤ A := by
    intro i j
    unfold valAt
    split_ifs
    · exact hV _
    · exact ⟨le_rfl, hA⟩
  have hy1 := fun i => lin_near hn g hg b hb hb' h τ y A hh gap hy hτ (fun j => valAt V i j) (hval i)
  have hyg := (hy1 0).1
  have hs := cellDist_mem hn g hg y hyg
  have hin : ∀ i, 0 ≤ lin (fun j => valAt V i j) (cellIdx g y) (cellDist g y) ∧
      lin (fun j => valAt V i j) (cellIdx g y) (cellDist g y) ≤ A := fun i => by
    unfold lin
    exact convex_mem (hval i _) (hval i _) hs
  have hx1 := lin_near hn g hg a ha ha' h τ x A hh gap hx hτ
    (fun i => lin (fun j => valAt V i j) (cellIdx g y) (cellDist g y)) hin
  rw [evalLinear_lin]
  refine ⟨hx1.1, hyg, ?_, ?_⟩
  · have e1 := hx1.2
    have e2 := (hy1 a).2
    rw [valAt_lt V a.isLt b.isLt] at e2
    calc _ ≤ _ := abs_sub_le _ (lin (fun j => valAt V a j) (cellIdx g y) (cellDist g y)) _
      _ ≤ 2 * (τ / h * A) := by linarith
  · unfold lin at hin ⊢
    exact convex_mem (hin _) (hin _) (cellDist_mem hn g hg x hx1.1)

/-- **C97** simulated maps with noise, stored with limited precision, read with `extract_data_pyoof` and compared with
the model at the parameters of the simulation (converted to the type of the data): the residual of every pixel, times
the spread of the power in the simulated map, is at most a sum of terms linear in the noise and in the errors of
storing.  `δ` and `η` bound the relative and the absolute error of storing, `ν` the noise and `A` the power. -/
theorem C97_loop {N : ℕ} (a : Sim.Input N) (fs fs' fs'' : FS File) (l : List Hdu)
    (hw : Spec.Proper a.workDir) (h : (simulate a).run fs = (.ok l, fs')) (i : ℕ)
    (hi : fs (Spec.simFile a.workDir i) = none) (hj : ∀ j < i, fs (Spec.simFile a.workDir j) ≠ none)
    (hsame : fs'' (Spec.simFile a.workDir i) = fs' (Spec.simFile a.workDir i))
    (hI : a.I.length = 5) (hpr : 0 < a.tel.pr) (hbf : 0 < a.boxFactor) (hwl : 0 < a.wavel)
    (hN : 20 * a.boxFactor + 4 ≤ N) (δ η ν A : ℝ) (hδ : 0 ≤ δ) (hη : 0 ≤ η)
    (hf : ∀ x, |a.f32 x - x| ≤ δ * |x| + η) (hν : ∀ (k : Fin 3) (p q : ℕ), p < N → q < N → |a.noise * a.draws k p q| ≤ ν)
    (hA : ∀ (k : Fin 3) P, radiationPattern a.I a.K (a.dz k) a.wavel a.illum a.tel a.boxFactor = .ok P →
      ∀ q, ‖P.F q‖ ^ 2 ≤ A)
    (hstep : δ * Spec.limit a.wavel a.tel.pr + η ≤ a.wavel / (N * (2 * a.tel.pr * a.boxFactor / ((N : ℝ) - 1)))) :
    ∃ x M r, extractPyoof (fitsOpen fs'') (pathStr (Spec.simFile a.workDir i)) = .ok x ∧ 0 < M ∧
      (∀ k : Fin 3, (x.beam.getD k []).length = M ∧ (x.u.getD k []).length = M ∧
        (x.v.getD k []).length = M) ∧
      x.wavel = .fin a.wavel ∧
      residualTrueOf a.f32 (a.I ++ a.K) (fun q => .fin (Spec.maps M x.beam q)) (Spec.maps M x.u)
        (Spec.maps M x.v) (fun k => x.dz.getD k 0) a.wavel a.illum a.tel a.boxFactor = .ok r ∧
      r.length = 3 * M ∧
      ∀ (k : Fin 3) P, radiationPattern a.I a.K (a.dz k) a.wavel a.illum a.tel a.boxFactor = .ok P →
        ∀ (m : Fin M) (y : ℝ), r[(k : ℕ) * M + m]? = some y → ∀ p q p' q' : Fin N,
          (∀ c ∈ [p, q, p', q'], |P.u c| < Spec.limit a.wavel a.tel.pr) →
          |y| * (‖P.F (p, q)‖ ^ 2 - ‖P.F (p', q')‖ ^ 2) ≤
            2 * (ν + δ * (A + ν) + η) +
            2 * (2 * ((δ * Spec.limit a.wavel a.tel.pr + η) /
              (a.wavel / (N * (2 * a.tel.pr * a.boxFactor / ((N : ℝ) - 1)))) * A) + δ * A + η) := by
  obtain ⟨x, hx, -, -, -, -, hdz, hwv, -, -, -, -, hk⟩ := C57_extract a fs fs' fs'' l hw h i hi hj hsame
  choose P J hP hin hcol using hk
  have hu : ∀ k, (P k).u = (P 0).u := by
    intro k
    obtain ⟨-, _, -, e1⟩ := radiationPattern_ok (hP k)
    obtain ⟨-, _, -, e2⟩ := radiationPattern_ok (hP 0)
    rw [e1, e2]
  have hJ : ∀ k, J k = J 0 := fun k => inside_unique (hu k) (hin k) (hin 0)
  have hN2 : 2 ≤ N := (radiationPattern_ok (hP 0)).1
  set lim := Spec.limit a.wavel a.tel.pr with hlimdef
  set step := a.wavel / (N * (2 * a.tel.pr * a.boxFactor / ((N : ℝ) - 1))) with hstepdef
  have hlim : 0 < lim := by rw [hlimdef]; unfold Spec.limit; positivity
  have hcen : (⟨N / 2, by omega⟩ : Fin N) ∈ J 0 := by
    rw [(hin 0).2]
    obtain ⟨-, _, -, e2⟩ := radiationPattern_ok (hP 0)
    rw [e2]
    simpa using hlim
  set n := (J 0).length with hn
  have hn0 : 0 < n := List.length_pos_of_mem hcen
  have hlen : ∀ k, (J k).length = n := fun k => by rw [hJ k]
  have hdiv : ∀ m : Fin (n * n), (m : ℕ) / n < n := fun m => Nat.div_lt_of_lt_mul m.isLt
  have hmod : ∀ m : Fin (n * n), (m : ℕ) % n < n := fun m => Nat.mod_lt _ hn0
  have hnN : n ≤ N := by
    have : (J 0).Nodup := (hin 0).1.imp fun h => h.ne
    simpa using this.length_le_card
  -- the axes
  have hax := fun k => C14_axes _ _ _ _ _ _ _ _ _ hpr hbf hwl (hP k)
  have hN1 : (0 : ℝ) < (N : ℝ) - 1 := by
    have : (2 : ℝ) ≤ N := by exact_mod_cast hN2
    linarith
  have hstep0 : 0 < step := by rw [hstepdef]; positivity
  have hval : ∀ k (c : Fin N), (P k).u c = (((c : ℕ) : ℝ) - ((N / 2 : ℕ) : ℝ)) * step := by
    intro k c
    obtain ⟨-, _, -, e⟩ := radiationPattern_ok (hP k)
    rw [e, hstepdef]
    dsimp only
    rw [show 2 * a.tel.pr * a.boxFactor = 2 * (a.tel.pr * a.boxFactor) by ring]
    ring
  -- pixels inside the limit are not at the edge of the grid
  have hls : lim < (((N : ℝ) - 2) / 2) * step := by
    have hn0 : (0 : ℝ) < N := by linarith
    have e1 : lim = 9.76 * (a.boxFactor * N) * (a.wavel / (2 * a.tel.pr * a.boxFactor * N)) := by
      rw [hlimdef]
      unfold Spec.limit
      field_simp
      norm_num
    have e2 : step = ((N : ℝ) - 1) * (a.wavel / (2 * a.tel.pr * a.boxFactor * N)) := by
      rw [hstepdef]
      field_simp
    have e3 : (0 : ℝ) < a.wavel / (2 * a.tel.pr * a.boxFactor * N) := by positivity
    rw [e1, e2, ← mul_assoc (((N : ℝ) - 2) / 2)]
    exact mul_lt_mul_of_pos_right (by nlinarith) e3
  have hedge : ∀ k (c : Fin N), |(P k).u c| < lim → 0 < (c : ℕ) ∧ (c : ℕ) + 1 < N := by
    intro k c hc
    rw [hval, abs_mul, abs_of_pos hstep0] at hc
    have hc' := lt_of_mul_lt_mul_right (hc.trans hls) hstep0.le
    have hh : ((N / 2 : ℕ) : ℝ) ≤ N / 2 := Nat.cast_div_le
    have hh' : ((N : ℝ) - 1) / 2 ≤ ((N / 2 : ℕ) : ℝ) := by
      have : N ≤ 2 * (N / 2) + 1 := by omega
      have : (N : ℝ) ≤ 2 * ((N / 2 : ℕ) : ℝ) + 1 := by exact_mod_cast this
      linarith
    obtain ⟨c1, c2⟩ := abs_lt.1 hc'
    constructor
    · rcases Nat.eq_zero_or_pos (c : ℕ) with h0 | h0
      · rw [h0] at c1
        push_cast at c1
        linarith
      · exact h0
    · by_contra hcn
      have : (c : ℕ) + 1 = N := by omega
      have : ((c : ℕ) : ℝ) + 1 = N := by exact_mod_cast this
      linarith
  have hmem : ∀ k (m : ℕ) (hm : m < (J k).length), |(P k).u (J k)[m]| < lim := fun k m hm =>
    ((hin k).2 _).1 (List.getElem_mem hm)
  have hpow : ∀ k q, 0 ≤ ‖(P k).F q‖ ^ 2 ∧ ‖(P k).F q‖ ^ 2 ≤ A := fun k q => ⟨by positivity, hA k _ (hP k) q⟩
  have hA0 : 0 ≤ A := (hpow 0 (⟨0, by omega⟩, ⟨0, by omega⟩)).1.trans (hpow 0 _).2
  have hν0 : 0 ≤ ν := (abs_nonneg _).trans (hν 0 0 0 (by omega) (by omega))
  set τ := δ * lim + η with hτ
  -- the exact power
  let p : Fin 3 → Fin (n * n) → ℝ := fun k m =>
    ‖(P k).F ((J k)[(m : ℕ) / n]'(by rw [hlen]; exact hdiv m), (J k)[(m : ℕ) % n]'(by rw [hlen]; exact hmod m))‖ ^ 2
  have hread : ∀ (k : Fin 3) (m : Fin (n * n)),
      |Spec.maps (n * n) x.beam (k, m) - p k m| ≤ ν + δ * (A + ν) + η ∧
      |Spec.maps (n * n) x.u (k, m) - (P k).u ((J k)[(m : ℕ) % n]'(by rw [hlen]; exact hmod m))| ≤ τ ∧
      |Spec.maps (n * n) x.v (k, m) - (P k).u ((J k)[(m : ℕ) / n]'(by rw [hlen]; exact hdiv m))| ≤ τ := by
    intro k m
    obtain ⟨-, -, -, c4⟩ := hcol k
    have c := c4 ((m : ℕ) / n) ((m : ℕ) % n) (by rw [hlen]; exact hdiv m) (by rw [hlen]; exact hmod m)
    have em : (m : ℕ) / n * (J k).length + (m : ℕ) % n = m := by
      rw [hlen, Nat.div_add_mod']
    rw [em] at c
    have coord : ∀ y, |y| < lim → |a.f32 y - y| ≤ τ := fun y hy =>
      (hf y).trans (by rw [hτ]; nlinarith [mul_le_mul_of_nonneg_left hy.le hδ])
    refine ⟨?_, ?_, ?_⟩
    · have e : Spec.maps (n * n) x.beam (k, m) = a.f32 (p k m + a.noise * a.draws k ((m : ℕ) / n) ((m : ℕ) % n)) := by
        show ((x.beam.getD k []).getD m 0) = _
        rw [List.getD, c.1]; rfl
      rw [e]
      have hz := hν k ((m : ℕ) / n) ((m : ℕ) % n) ((hdiv m).trans_le hnN) ((hmod m).trans_le hnN)
      set z := a.noise * a.draws k ((m : ℕ) / n) ((m : ℕ) % n)
      have hp := hpow k ((J k)[(m : ℕ) / n]'(by rw [hlen]; exact hdiv m), (J k)[(m : ℕ) % n]'(by rw [hlen]; exact hmod m))
      change 0 ≤ p k m ∧ p k m ≤ A at hp
      have h1 := hf (p k m + z)
      have h2 : |p k m + z| ≤ A + ν := (abs_add_le _ _).trans (add_le_add (by rw [abs_of_nonneg hp.1]; exact hp.2) hz)
      have h3 : a.f32 (p k m + z) - p k m = (a.f32 (p k m + z) - (p k m + z)) + z := by ring
      rw [h3]
      refine (abs_add_le _ _).trans ?_
      nlinarith [mul_le_mul_of_nonneg_left h2 hδ]
    · have e : Spec.maps (n * n) x.u (k, m) = a.f32 ((P k).u ((J k)[(m : ℕ) % n]'(by rw [hlen]; exact hmod m))) := by
        show ((x.u.getD k []).getD m 0) = _
        rw [List.getD, c.2.1]; rfl
      rw [e]
      exact coord _ (hmem k _ _)
    · have e : Spec.maps (n * n) x.v (k, m) = a.f32 ((P k).u ((J k)[(m : ℕ) / n]'(by rw [hlen]; exact hdiv m))) := by
        show ((x.v.getD k []).getD m 0) = _
        rw [List.getD, c.2.2, (hax k).1]; rfl
      rw [e]
      exact coord _ (hmem k _ _)
  -- the model at the coordinates that were read
  have hnear := fun (k : Fin 3) (m : Fin (n * n)) => evalLinear_near hN2 (P k).u (hax k).2.1 step τ A hstep0 (hax k).2.2.2
    hstep (fun q => ‖(P k).F (q.2, q.1)‖ ^ 2) (fun q => hpow k _)
    ((J k)[(m : ℕ) % n]'(by rw [hlen]; exact hmod m)) ((J k)[(m : ℕ) / n]'(by rw [hlen]; exact hdiv m))
    (hedge k _ (hmem k _ _)).1 (hedge k _ (hmem k _ _)).2 (hedge k _ (hmem k _ _)).1 (hedge k _ (hmem k _ _)).2
    _ _ (hread k m).2.1 (hread k m).2.2
  have hdz' : (fun k : Fin 3 => x.dz.getD k 0) = a.dz := by
    funext k
    rw [hdz]
    fin_cases k <;> rfl
  have hrow : ∀ k, modelRow (a.I ++ a.K) (Spec.maps (n * n) x.u) (Spec.maps (n * n) x.v) a.dz a.wavel a.illum a.tel
      a.boxFactor k = .ok fun m => evalLinear (P k).u (P k).u (fun q => ‖(P k).F (q.2, q.1)‖ ^ 2)
        (Spec.maps (n * n) x.u (k, m)) (Spec.maps (n * n) x.v (k, m)) := by
    intro k
    refine modelRow_ok.2 ⟨P k, ?_, (interpolator_ok_iff _ _ _ _ _).2 ⟨?_, ?_, ?_⟩⟩
    · rw [← hI, List.take_left, List.drop_left]
      exact hP k
    · rw [← (hax k).1]
      exact ⟨(hax k).2.1, (hax k).2.1⟩
    · intro m
      rw [← (hax k).1]
      exact ⟨(hnear k m).1, (hnear k m).2.1⟩
    · rw [← (hax k).1]
  obtain ⟨nd, nm, hr, hnd, hnm⟩ := residualOf_rows a.f32 (Nat.mul_pos hn0 hn0)
    (beam := fun q => .fin (Spec.maps (n * n) x.beam q)) hrow
  refine ⟨x, n * n, _, hx, Nat.mul_pos hn0 hn0, fun k => ?_, hwv, by rw [hdz']; exact hr, flatten3_length _, ?_⟩
  · obtain ⟨c1, c2, c3, -⟩ := hcol k
    rw [hlen] at c1 c2 c3
    exact ⟨c1, c2, c3⟩
  intro k P' hP' m y hy c1 c2 c3 c4 hcs
  rw [hP k, Except.ok.injEq] at hP'
  subst hP'
  rw [flatten3_getElem, Option.some.injEq] at hy
  have : Nonempty (Fin (n * n)) := ⟨m⟩
  -- the two normalised maps are near that of the exact power
  obtain ⟨n1, n2, e1, e2, e3⟩ := C97_norm (p k) (fun m => Spec.maps (n * n) x.beam (k, m)) (ν + δ * (A + ν) + η)
    fun m => by rw [abs_sub_comm]; exact (hread k m).1
  obtain ⟨n1', n3, e1', e4, e5⟩ := C97_norm (p k) (fun m => a.f32 (evalLinear (P k).u (P k).u
      (fun q => ‖(P k).F (q.2, q.1)‖ ^ 2) (Spec.maps (n * n) x.u (k, m)) (Spec.maps (n * n) x.v (k, m))))
    (2 * (τ / step * A) + δ * A + η) fun m => by
      obtain ⟨-, -, f1, f2, f3⟩ := hnear k m
      generalize evalLinear (P k).u (P k).u (fun q => ‖(P k).F (q.2, q.1)‖ ^ 2) (Spec.maps (n * n) x.u (k, m))
        (Spec.maps (n * n) x.v (k, m)) = w at f1 f2 f3
      have g := hf w
      rw [abs_of_nonneg f2] at g
      rw [abs_sub_comm]
      refine (abs_sub_le _ w _).trans ?_
      change |w - p k m| ≤ _ at f1
      nlinarith [mul_le_mul_of_nonneg_left f3 hδ]
  rw [e1] at e1'
  cases e1'
  have e6 := hnd k
  have e7 := hnm k
  rw [e2, Except.ok.injEq] at e6
  rw [e4, Except.ok.injEq] at e7
  have hR1 : 0 ≤ ν + δ * (A + ν) + η := by positivity
  have hR2 : 0 ≤ 2 * (τ / step * A) + δ * A + η := by
    have : 0 ≤ τ := by rw [hτ]; positivity
    positivity
  -- the two pixels are pixels of the map
  have pix : ∀ c c' : Fin N, |(P k).u c| < lim → |(P k).u c'| < lim → ∃ m', p k m' = ‖(P k).F (c, c')‖ ^ 2 := by
    intro c c' h1 h2
    obtain ⟨s, hs, hs'⟩ := List.getElem_of_mem (((hin k).2 c).2 h1)
    obtain ⟨t, ht, ht'⟩ := List.getElem_of_mem (((hin k).2 c').2 h2)
    rw [hlen] at hs ht
    have hlt : s * n + t < n * n := by nlinarith
    refine ⟨⟨s * n + t, hlt⟩, ?_⟩
    have d1 : (s * n + t) / n = s := by
      rw [Nat.add_div_of_dvd_right (Dvd.intro_left s rfl), Nat.mul_div_cancel _ hn0, Nat.div_eq_of_lt ht, Nat.add_zero]
    have d2 : (s * n + t) % n = t := by
      rw [Nat.mul_add_mod_self_right, Nat.mod_eq_of_lt ht]
    dsimp only [p]
    simp only [d1, d2, hs', ht']
  obtain ⟨t, ht⟩ := pix c1 c2 (hcs _ (by simp)) (hcs _ (by simp))
  obtain ⟨s, hs⟩ := pix c3 c4 (hcs _ (by simp)) (hcs _ (by simp))
  rw [← ht, ← hs]
  rcases le_total (p k t - p k s) 0 with hneg | hpos
  · exact (mul_nonpos_of_nonneg_of_nonpos (abs_nonneg _) hneg).trans (by positivity)
  · have a1 := e3 m s t
    have a2 := e5 m s t
    have a3 : y = (n2 m - n1 m) + (n1 m - n3 m) := by
      rw [← hy, e6, e7]
      ring
    rw [a3]
    refine (mul_le_mul_of_nonneg_right (abs_add_le _ _) hpos).trans ?_
    rw [add_mul, abs_sub_comm (n2 m)]
    linarith

/-! ## The noise and the resolution -/

/-- **C97** the noise argument is a power on the scale of the computed pattern.  As the resolution grows, the noise
relative to the power on the axis falls with the fourth power of the resolution. -/
theorem C97_resolution (I K : List ℝ) (dz wavel pr bf noise : ℝ) (illum : ∀ ι : Type, Illum ι)
    (tel : ∀ ι : Type, TelGeo ι) (A : ℝ × ℝ → ℂ) (h0 : 0 < pr) (hbf : 0 < bf) (hw : wavel ≠ 0)
    (hpr : ∀ ι, (tel ι).pr = pr) (hA : Spec.IsAperture A I K dz wavel illum tel) (hR : Spec.Piecewise A (pr * bf))
    (hc : Spec.fourierField A wavel 0 0 ≠ 0) (N : ℕ → ℕ) (hN : Tendsto N atTop atTop) (P : ∀ k, Pattern (N k))
    (hP : ∀ k, radiationPattern I K dz wavel (illum _) (tel _) bf = .ok (P k)) (c : ∀ k, Fin (N k))
    (hcen : ∀ k, (c k : ℕ) = N k / 2) :
    Tendsto (fun k => ((N k : ℝ) - 1) ^ 4 * (noise / ‖(P k).F (c k, c k)‖ ^ 2)) atTop
      (𝓝 ((2 * (pr * bf)) ^ 4 * noise / ‖Spec.fourierField A wavel 0 0‖ ^ 2)) ∧
    Tendsto (fun k => noise / ‖(P k).F (c k, c k)‖ ^ 2) atTop (𝓝 0) := by
  have h1 := C96_pixel I K dz wavel pr bf illum tel A h0 hbf hw hpr hA hR N hN P hP c c 0 0
    (fun k => by rw [hcen]; simp) (fun k => by rw [hcen]; simp)
  simp only [Int.cast_zero, zero_mul, zero_div] at h1
  have hc2 : ‖Spec.fourierField A wavel 0 0‖ ^ 2 ≠ 0 := pow_ne_zero _ (norm_ne_zero_iff.2 hc)
  have h2 : Tendsto (fun k => ((N k : ℝ) - 1) ^ 4 * (noise / ‖(P k).F (c k, c k)‖ ^ 2)) atTop
      (𝓝 ((2 * (pr * bf)) ^ 4 * noise / ‖Spec.fourierField A wavel 0 0‖ ^ 2)) := by
    have h3 := (tendsto_const_nhds (x := (2 * (pr * bf)) ^ 4 * noise)).div h1 hc2
    refine h3.congr fun k => ?_
    have hN2 : (2 : ℝ) ≤ N k := by exact_mod_cast (radiationPattern_ok (hP k)).1
    have hN1 : (N k : ℝ) - 1 ≠ 0 := by linarith
    have hb : 2 * (pr * bf) ≠ 0 := by positivity
    rw [Pi.div_apply, div_pow]
    generalize ‖(P k).F (c k, c k)‖ ^ 2 = w
    rcases eq_or_ne w 0 with rfl | hw0
    · simp
    · field_simp
  refine ⟨h2, ?_⟩
  have h4 : Tendsto (fun k => ((N k : ℝ) - 1) ^ 4) atTop atTop :=
    (tendsto_pow_atTop (by norm_num)).comp
      (tendsto_atTop_add_const_right _ (-1) (tendsto_natCast_atTop_atTop.comp hN) |>.congr fun k => by simp [sub_eq_add_neg])
  have h5 := h2.div_atTop h4
  refine h5.congr fun k => ?_
  have hN2 : (2 : ℝ) ≤ N k := by exact_mod_cast (radiationPattern_ok (hP k)).1
  have hN1 : ((N k : ℝ) - 1) ^ 4 ≠ 0 := pow_ne_zero _ (by linarith)
  rw [mul_div_cancel_left₀ _ hN1]

/-- A noise of 1 on a disc without aberrations. -/
example : ∃ P : ∀ k, Pattern (k + 2),
    (∀ k, radiationPattern [1, -14, 0, 0] [0, 0, 0] 0 0.009 illumGauss (manualTel 50 0 0 0 30 387.39435) 5 = .ok (P k)) ∧
    Tendsto (fun k => 1 / ‖(P k).F (⟨(k + 2) / 2, by omega⟩, ⟨(k + 2) / 2, by omega⟩)‖ ^ 2) atTop (𝓝 0) := by
  obtain ⟨A, hA, hR, hc⟩ := disc_field
  have hex : ∀ k : ℕ, ∃ P : Pattern (k + 2), radiationPattern [1, -14, 0, 0] [0, 0, 0] 0 0.009 illumGauss
      (manualTel 50 0 0 0 30 387.39435) 5 = .ok P := fun k =>
    (C14_ok_iff _ _ 0 0.009 (k + 2) (by omega) illumGauss (manualTel 50 0 0 0 30 387.39435) 5).2 ⟨_, hA _ _ _⟩
  choose P hP using hex
  exact ⟨P, hP, (C97_resolution _ _ 0 0.009 50 5 1 (fun _ => illumGauss) (fun _ => manualTel 50 0 0 0 30 387.39435) A
    (by norm_num) (by norm_num) (by norm_num) (fun _ => rfl) hA hR hc (fun k => k + 2) (tendsto_add_atTop_nat 2) P hP
    (fun k => ⟨(k + 2) / 2, by omega⟩) fun _ => rfl).2⟩

/-! ## Single precision -/

/-- Rounding to the nearest number of single precision (24 binary digits, least exponent -126; overflow left out). -/
noncomputable def Spec.single (x : ℝ) : ℝ :=
  round (x / 2 ^ (max (Int.log 2 |x|) (-126) - 23)) * 2 ^ (max (Int.log 2 |x|) (-126) - 23)

/-- **C97** storing in single precision meets the condition of `C97_loop`. -/
theorem C97_single (x : ℝ) : |Spec.single x - x| ≤ 1 / 2 ^ 24 * |x| + 1 / 2 ^ 150 := by
  unfold Spec.single
  generalize he : max (Int.log 2 |x|) (-126) = e
  have hpos : (0 : ℝ) < 2 ^ (e - 23) := by positivity
  have h1 : |(round (x / 2 ^ (e - 23)) : ℝ) * 2 ^ (e - 23) - x| ≤ 2 ^ (e - 24) := by
    have h2 : (round (x / 2 ^ (e - 23)) : ℝ) * 2 ^ (e - 23) - x =
        -((x / 2 ^ (e - 23) - round (x / 2 ^ (e - 23))) * 2 ^ (e - 23)) := by
      rw [sub_mul, div_mul_cancel₀ _ hpos.ne']
      ring
    have h3 : (2 : ℝ) ^ (e - 24) = 1 / 2 * 2 ^ (e - 23) := by
      rw [show e - 23 = (e - 24) + 1 by ring, zpow_add_one₀ (by norm_num)]
      ring
    rw [h2, abs_neg, abs_mul, abs_of_pos hpos, h3]
    exact mul_le_mul_of_nonneg_right (abs_sub_round _) hpos.le
  rcases eq_or_ne x 0 with rfl | hx
  · simp
  refine h1.trans ?_
  have hx' : 0 < |x| := abs_pos.2 hx
  rcases le_total (Int.log 2 |x|) (-126) with h | h
  · rw [max_eq_right h] at he
    rw [← he]
    have : (2 : ℝ) ^ (-126 - 24 : ℤ) = 1 / 2 ^ 150 := by norm_num
    rw [this]
    have : 0 ≤ 1 / 2 ^ 24 * |x| := by positivity
    linarith
  · rw [max_eq_left h] at he
    rw [← he]
    have h2 : ((2 : ℕ) : ℝ) ^ Int.log 2 |x| ≤ |x| := Int.zpow_log_le_self (by norm_num) hx'
    rw [zpow_sub₀ (by norm_num)]
    have h3 : (2 : ℝ) ^ (24 : ℤ) = 2 ^ 24 := by norm_cast
    rw [h3]
    have h4 : (0 : ℝ) < 1 / 2 ^ 150 := by positivity
    push_cast at h2
    have h5 : (2 : ℝ) ^ Int.log 2 |x| / 2 ^ 24 ≤ |x| / 2 ^ 24 := by gcongr
    linarith [show 1 / 2 ^ 24 * |x| = |x| / 2 ^ 24 by ring]

/-- The sample with noise and in single precision. -/
noncomputable def noisyInput (noise : ℝ) (draws : ℕ → ℕ → ℕ → ℝ) : Sim.Input 512 :=
  { tieInput 512 5 with noise := noise, draws := draws, f32 := Spec.single }

/-- Noise of 0.01 and no draw beyond four standard deviations. -/
example (draws : ℕ → ℕ → ℕ → ℝ) (hd : ∀ k p q, |draws k p q| ≤ 4) : ∃ (A : ℝ) (P : Pattern 512) (fs' : FS File) (x : _) (M : ℕ)
    (r : List ℝ), (∀ q, ‖P.F q‖ ^ 2 ≤ A) ∧
    radiationPattern [1, -14, 2, 0, 0] [0, 0.1, 0.2] (-0.022) 0.009 (tieInput 512 5).illum (tieInput 512 5).tel 5 = .ok P ∧
    extractPyoof (fitsOpen fs') "/home/data_generated/test001.fits".toList = .ok x ∧
    residualTrueOf Spec.single [1, -14, 2, 0, 0, 0, 0.1, 0.2] (fun q => .fin (Spec.maps M x.beam q)) (Spec.maps M x.u)
      (Spec.maps M x.v) (fun k => x.dz.getD k 0) 0.009 (tieInput 512 5).illum (tieInput 512 5).tel 5 = .ok r ∧
    ∀ m < M, ∀ y, r[m]? = some y → |y| * (‖P.F (256, 256)‖ ^ 2 - ‖P.F (256, 257)‖ ^ 2) ≤
      2 * 0.041 + A / 10000 := by
  have hz : Spec.DzOk (noisyInput 0.01 draws).dz := by
    refine ⟨?_, ?_, ?_⟩ <;> simp [noisyInput, tieInput] <;> norm_num
  have hcomp : Spec.Computes (noisyInput 0.01 draws) := sample_computes
  obtain ⟨l, fs', h⟩ := C54_accepts (noisyInput 0.01 draws) hz hcomp (by norm_num [noisyInput])
    sampleSimFs (show isDir sampleSimFs ["home".toList] = true by decide)
    (.inr (show isDir sampleSimFs ["data_generated".toList, "home".toList] = true by decide))
    ⟨1, by norm_num, show sampleSimFs (Spec.simFile ["home".toList] 1) = none by decide⟩
  have hP := fun i => tie_pattern (N := 512) (by norm_num) 5 i
  choose P hP using hP
  let A := ∑ k, ∑ q, ‖(P k).F q‖ ^ 2
  have hA : ∀ k q, ‖(P k).F q‖ ^ 2 ≤ A := fun k q =>
    (Finset.single_le_sum (f := fun q => ‖(P k).F q‖ ^ 2) (fun q _ => sq_nonneg _) (Finset.mem_univ q)).trans
      (Finset.single_le_sum (f := fun k => ∑ q, ‖(P k).F q‖ ^ 2) (fun k _ => Finset.sum_nonneg fun q _ => sq_nonneg _)
        (Finset.mem_univ k))
  obtain ⟨x, M, r, h1, h2, -, -, h3, h4, h5⟩ := C97_loop (noisyInput 0.01 draws) sampleSimFs fs' fs' l (by
    intro f hf
    simp only [noisyInput, tieInput, List.mem_singleton] at hf
    subst hf
    exact ⟨by decide, by decide⟩) h 1 (show sampleSimFs (Spec.simFile ["home".toList] 1) = none by decide) (fun j hj => by
      have : j = 0 := by omega
      subst this
      show sampleSimFs (Spec.simFile ["home".toList] 0) ≠ none
      decide) rfl rfl (by norm_num [noisyInput, tieInput]) (by norm_num [noisyInput, tieInput])
      (by norm_num [noisyInput, tieInput]) (by norm_num [noisyInput, tieInput]) (1 / 2 ^ 24) (1 / 2 ^ 150) 0.04 A
      (by norm_num) (by positivity) C97_single (fun k p q _ _ => by
        show |0.01 * draws k p q| ≤ 0.04
        rw [abs_mul, abs_of_pos (by norm_num)]
        linarith [hd k p q]) (fun k P' hP' => by
        have : P' = P k := by
          have := (hP k).symm.trans hP'
          cases this
          rfl
        rw [this]
        exact hA k) (by
        show _ * Spec.limit 0.009 50 + _ ≤ 0.009 / (((512 : ℕ) : ℝ) * (2 * 50 * 5 / (((512 : ℕ) : ℝ) - 1)))
        unfold Spec.limit
        norm_num)
  refine ⟨A, P 0, fs', x, M, r, hA 0, ?_, h1, h3, fun m hm y hy => ?_⟩
  · have := hP 0
    simpa [tieInput] using this
  have h6 := h5 0 (P 0) (hP 0) ⟨m, hm⟩ y (by simpa using hy) 256 256 256 257 (by
    intro c hc
    obtain ⟨-, _, -, e⟩ := radiationPattern_ok (hP 0)
    have hval : (P 0).u c = (((c : ℕ) : ℝ) - 256) / (512 * (2 * (50 * 5) / (512 - 1))) * 0.009 := by
      rw [e]
      simp only [tieInput]
      norm_num
    show |(P 0).u c| < Spec.limit 0.009 50
    rw [hval]
    unfold Spec.limit
    simp only [List.mem_cons, List.not_mem_nil, or_false] at hc
    rcases hc with rfl | rfl | rfl | rfl
    all_goals
      first
        | rw [show (((256 : Fin 512) : ℕ) : ℝ) = 256 from rfl]
        | rw [show (((257 : Fin 512) : ℕ) : ℝ) = 257 from rfl]
      norm_num [abs_of_pos])
  refine h6.trans ?_
  have hA0 : 0 ≤ A := (by positivity : 0 ≤ ‖(P 0).F (0, 0)‖ ^ 2).trans (hA 0 (0, 0))
  show 2 * (0.04 + 1 / 2 ^ 24 * (A + 0.04) + 1 / 2 ^ 150) + 2 * (2 * ((1 / 2 ^ 24 * Spec.limit 0.009 50 + 1 / 2 ^ 150) /
    (0.009 / (((512 : ℕ) : ℝ) * (2 * 50 * 5 / (((512 : ℕ) : ℝ) - 1)))) * A) + 1 / 2 ^ 24 * A + 1 / 2 ^ 150) ≤ _
  unfold Spec.limit
  have hb : (1 / 2 ^ 24 * (8 * 1.22 * 0.009 / (2 * 50)) + 1 / 2 ^ 150) /
      (0.009 / (((512 : ℕ) : ℝ) * (2 * 50 * 5 / (((512 : ℕ) : ℝ) - 1)))) ≤ 1 / 100000 := by norm_num
  have hc := mul_le_mul_of_nonneg_right hb hA0
  have hd : (1 : ℝ) / 2 ^ 150 ≤ 1 / 100000 := by norm_num
  have he : (1 : ℝ) / 2 ^ 24 * (A + 0.04) ≤ 1 / 10000000 * (A + 0.04) :=
    mul_le_mul_of_nonneg_right (by norm_num) (by linarith)
  have hf : (1 : ℝ) / 2 ^ 24 * A ≤ 1 / 10000000 * A := mul_le_mul_of_nonneg_right (by norm_num) hA0
  linarith

end Verif.Props
