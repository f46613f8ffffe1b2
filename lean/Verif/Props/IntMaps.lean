import Verif.Model.ResidualCast
import Verif.Props.Residual
import Verif.Props.Optics

/-! # C85: maps of integers -/

namespace Verif.Props

open Verif Verif.Np Verif.Aperture Verif.MathFn Verif.Core Verif.Telgeometry

/-! ## Specification -/

/-- `r` is the flat list of the normalised data alone, map after map. -/
def Spec.DataOnly {M : ℕ} (beam : Fin 3 × Fin M → Fl) (r : List ℝ) : Prop :=
  r.length = 3 * M ∧ ∀ i : Fin 3, ∃ nd, MathFn.norm (fun k => beam (i, k)) = .ok nd ∧
    ∀ k : Fin M, r[(i : ℕ) * M + k]? = some (nd k)

/-! ## The residual with a conversion -/

variable {N M : ℕ}

theorem residualOf_rows (conv : ℝ → ℝ) (hM : 0 < M) {params : List ℝ} {beam : Fin 3 × Fin M → Fl}
    {u v : Fin 3 × Fin M → ℝ} {dz : Fin 3 → ℝ} {wavel : ℝ} {illum : Illum (Fin N × Fin N)}
    {tel : TelGeo (Fin N × Fin N)} {bf : ℝ} {b : Fin 3 → Fin M → ℝ}
    (hb : ∀ i, modelRow params u v dz wavel illum tel bf i = .ok (b i)) :
    ∃ nd nm : Fin 3 × Fin M → ℝ, residualTrueOf conv params beam u v dz wavel illum tel bf =
        .ok (flatten3 fun q => nd q - nm q) ∧
      (∀ i, MathFn.norm (fun k => beam (i, k)) = .ok fun k => nd (i, k)) ∧
      ∀ i, MathFn.norm (fun k => Fl.fin (conv (b i k))) = .ok fun k => nm (i, k) := by
  obtain ⟨nd, h1, h2⟩ := C27_axis1 hM beam
  obtain ⟨nm, h3, h4⟩ := C27_axis1 hM fun q : Fin 3 × Fin M => Fl.fin (conv (b q.1 q.2))
  refine ⟨nd, nm, ?_, h2, h4⟩
  unfold residualTrueOf
  have hfun : (fun q : Fin 3 × Fin M => Fl.fin (conv ((![b 0, b 1, b 2] q.1) q.2))) =
      fun q => Fl.fin (conv (b q.1 q.2)) := by
    funext q
    obtain ⟨i, k⟩ := q
    match i with
    | 0 => rfl
    | 1 => rfl
    | 2 => rfl
  rw [hb 0, hb 1, hb 2, h1]
  simp only [bind, Except.bind]
  rw [hfun, h3]
  rfl

/-- **C85** for maps of floats nothing is converted. -/
theorem C85_float (params : List ℝ) (beam : Fin 3 × Fin M → Fl)
    (u v : Fin 3 × Fin M → ℝ) (dz : Fin 3 → ℝ) (wavel : ℝ) (illum : Illum (Fin N × Fin N))
    (tel : TelGeo (Fin N × Fin N)) (bf : ℝ) :
    residualTrueOf id params beam u v dz wavel illum tel bf =
      residualTrue params beam u v dz wavel illum tel bf := rfl

theorem data_only {beam : Fin 3 × Fin M → Fl} {nd nm : Fin 3 × Fin M → ℝ}
    (h1 : ∀ i, MathFn.norm (fun k => beam (i, k)) = .ok fun k => nd (i, k)) (h2 : ∀ q, nm q = 0) :
    Spec.DataOnly beam (flatten3 fun q => nd q - nm q) := by
  refine ⟨flatten3_length _, fun i => ⟨_, h1 i, fun k => ?_⟩⟩
  rw [flatten3_getElem, h2, sub_zero]

/-- When the model power of each map stays between two consecutive integers, the residual for
maps of integers is the normalised data, whatever the parameters. -/
theorem int_flat (hM : 0 < M) (params : List ℝ) (beam : Fin 3 × Fin M → Fl)
    (u v : Fin 3 × Fin M → ℝ) (dz : Fin 3 → ℝ) (wavel : ℝ) (illum : Illum (Fin N × Fin N))
    (tel : TelGeo (Fin N × Fin N)) (bf : ℝ) (b : Fin 3 → Fin M → ℝ)
    (hb : ∀ i, modelRow params u v dz wavel illum tel bf i = .ok (b i))
    (n : Fin 3 → ℕ) (hn : ∀ i k, (n i : ℝ) ≤ b i k ∧ b i k < n i + 1) :
    ∃ r, residualTrueOf truncInt params beam u v dz wavel illum tel bf = .ok r ∧ Spec.DataOnly beam r := by
  obtain ⟨nd, nm, h1, h2, h3⟩ := residualOf_rows truncInt hM (beam := beam) hb
  refine ⟨_, h1, data_only h2 fun q => ?_⟩
  have : Nonempty (Fin M) := ⟨⟨0, hM⟩⟩
  have hc : ∀ k, truncInt (b q.1 k) = n q.1 := by
    intro k
    obtain ⟨l1, l2⟩ := hn q.1 k
    unfold truncInt
    rw [if_pos (le_trans (Nat.cast_nonneg _) l1), show ⌊b q.1 k⌋ = (n q.1 : ℤ) from
      Int.floor_eq_iff.2 ⟨by exact_mod_cast l1, by exact_mod_cast l2⟩]
    norm_cast
  have h4 := h3 q.1
  simp only [hc] at h4
  rw [C27_constant] at h4
  exact (congrFun (Except.ok.inj h4) q.2).symm

/-- **C85** when the model power of each map stays between two consecutive integers, the residual for
maps of integers is the normalised data, whatever the parameters. -/
theorem C85_flat (hM : 0 < M) (params : List ℝ) (beam : Fin 3 × Fin M → Fl)
    (u v : Fin 3 × Fin M → ℝ) (dz : Fin 3 → ℝ) (wavel : ℝ) (illum : Illum (Fin N × Fin N))
    (tel : TelGeo (Fin N × Fin N)) (bf : ℝ) (b : Fin 3 → Fin M → ℝ)
    (hb : ∀ i, Spec.Sampled params u v dz wavel illum tel bf i (b i))
    (n : Fin 3 → ℕ) (hn : ∀ i k, (n i : ℝ) ≤ b i k ∧ b i k < n i + 1) :
    ∃ r, residualTrueOf truncInt params beam u v dz wavel illum tel bf = .ok r ∧ Spec.DataOnly beam r :=
  int_flat hM params beam u v dz wavel illum tel bf b (fun i => sampled_iff.1 (hb i)) n hn

theorem modelRow_scale (i s : ℝ) (rest Ks : List ℝ) (hr : rest.length = 4)
    (u v : Fin 3 × Fin M → ℝ) (dz : Fin 3 → ℝ) (wavel : ℝ)
    (illum : Illum (Fin N × Fin N)) (tel : TelGeo (Fin N × Fin N)) (bf : ℝ)
    (hI : Spec.propAmp illum tel.pr rest) (j : Fin 3) (b : Fin M → ℝ)
    (hb : modelRow (i :: rest ++ Ks) u v dz wavel illum tel bf j = .ok b) :
    modelRow ((s * i) :: rest ++ Ks) u v dz wavel illum tel bf j = .ok fun k => s ^ 2 * b k := by
  obtain ⟨P, h1, h2⟩ := modelRow_ok.1 hb
  have t1 : ∀ c, (c :: rest ++ Ks).take 5 = c :: rest := fun c => by
    rw [show 5 = (c :: rest).length by simp [hr], List.take_left']; rfl
  have t2 : ∀ c, (c :: rest ++ Ks).drop 5 = Ks := fun c => by
    rw [show 5 = (c :: rest).length by simp [hr], List.drop_left']; rfl
  rw [t1, t2] at h1
  obtain ⟨P', h3, h4, h5, h6⟩ := C18_pattern _ _ _ s _ _ _ _ _ _ P (fun x y Ea h => hI x y i s Ea h) h1
  rw [modelRow_ok, t1, t2]
  refine ⟨P', h3, ?_⟩
  rw [interpolator_ok_iff] at h2 ⊢
  rw [h4, h5]
  refine ⟨h2.1, h2.2.1, ?_⟩
  funext k
  show s ^ 2 * b k = _
  rw [h2.2.2, ← evalLinear_smul]
  congr 1
  funext q
  rw [(h6 _).2]

/-- The model power is not negative. -/
theorem modelRow_nonneg {params : List ℝ} {u v : Fin 3 × Fin M → ℝ} {dz : Fin 3 → ℝ}
    {wavel : ℝ} {illum : Illum (Fin N × Fin N)} {tel : TelGeo (Fin N × Fin N)} {bf : ℝ} {i : Fin 3}
    {b : Fin M → ℝ} (h : modelRow params u v dz wavel illum tel bf i = .ok b) (k : Fin M) : 0 ≤ b k := by
  obtain ⟨P, h1, h2⟩ := modelRow_ok.1 h
  have hN := (radiationPattern_ok h1).1
  obtain ⟨⟨m0, m1⟩, h3, rfl⟩ := (interpolator_ok_iff _ _ _ _ _).1 h2
  obtain ⟨a1, a2⟩ := cellDist_mem hN _ m0 _ (h3 k).1
  obtain ⟨a3, a4⟩ := cellDist_mem hN _ m1 _ (h3 k).2
  have hv : ∀ i j, 0 ≤ valAt (fun q : Fin N × Fin N => ‖P.F (q.2, q.1)‖ ^ 2) i j := by
    intro i j
    unfold valAt
    split_ifs
    · positivity
    · exact le_rfl
  dsimp only
  unfold evalLinear
  dsimp only
  have w1 := sub_nonneg.2 a2
  have w2 := sub_nonneg.2 a4
  have e1 := mul_nonneg (hv (cellIdx P.u (u (i, k))) (cellIdx P.v (v (i, k)))) (mul_nonneg w1 w2)
  have e2 := mul_nonneg (hv (cellIdx P.u (u (i, k))) (cellIdx P.v (v (i, k)) + 1)) (mul_nonneg w1 a3)
  have e3 := mul_nonneg (hv (cellIdx P.u (u (i, k)) + 1) (cellIdx P.v (v (i, k)))) (mul_nonneg a1 w2)
  have e4 := mul_nonneg (hv (cellIdx P.u (u (i, k)) + 1) (cellIdx P.v (v (i, k)) + 1)) (mul_nonneg a1 a3)
  linarith

/-- **C85** the amplitude, which has no influence for maps of floats (C18), has one for maps of
integers: below some amplitude the residual is the normalised data and says nothing about any
parameter. -/
theorem C85_amplitude (hM : 0 < M) (rest Ks : List ℝ) (hr : rest.length = 4) (beam : Fin 3 × Fin M → Fl)
    (u v : Fin 3 × Fin M → ℝ) (dz : Fin 3 → ℝ) (wavel : ℝ) (illum : Illum (Fin N × Fin N))
    (tel : TelGeo (Fin N × Fin N)) (bf : ℝ) (hI : Spec.propAmp illum tel.pr rest) (r : List ℝ)
    (h : residualTrue (1 :: rest ++ Ks) beam u v dz wavel illum tel bf = .ok r) :
    ∃ a0 > 0, ∀ a, 0 < a → a ≤ a0 →
      residualTrue (a :: rest ++ Ks) beam u v dz wavel illum tel bf = .ok r ∧
      ∃ r', residualTrueOf truncInt (a :: rest ++ Ks) beam u v dz wavel illum tel bf = .ok r' ∧
        Spec.DataOnly beam r' := by
  obtain ⟨b, hb, -⟩ := residualTrue_ok.1 h
  -- a bound of all values
  obtain ⟨B, hB⟩ : ∃ B : ℝ, ∀ i k, b i k ≤ B := by
    obtain ⟨B, hB⟩ := (Set.finite_range fun q : Fin 3 × Fin M => b q.1 q.2).bddAbove
    exact ⟨B, fun i k => hB ⟨(i, k), rfl⟩⟩
  have hB0 : 0 ≤ B := (modelRow_nonneg (hb 0) ⟨0, hM⟩).trans (hB 0 ⟨0, hM⟩)
  refine ⟨1 / (B + 1), by positivity, fun a ha ha' => ⟨?_, ?_⟩⟩
  · have := C18_residual 1 a ha.ne' rest Ks hr beam u v dz wavel illum tel bf (fun x y Ea h => hI x y 1 a Ea h) r h
    rwa [mul_one] at this
  · have hb' : ∀ i, modelRow (a :: rest ++ Ks) u v dz wavel illum tel bf i = .ok fun k => a ^ 2 * b i k := by
      intro i
      have := modelRow_scale 1 a rest Ks hr u v dz wavel illum tel bf hI i (b i) (hb i)
      rwa [mul_one] at this
    refine int_flat hM _ beam u v dz wavel illum tel bf _ hb' (fun _ => 0) fun i k => ?_
    have h0 := modelRow_nonneg (hb i) k
    refine ⟨by simp only [Nat.cast_zero]; positivity, ?_⟩
    have h1 : a * (B + 1) ≤ 1 := by
      rw [le_div_iff₀ (by positivity)] at ha'
      exact ha'
    have h2 : a ≤ 1 := by nlinarith
    have h3 : a ^ 2 * b i k ≤ a * B := by
      rw [pow_two, mul_assoc]
      refine mul_le_mul_of_nonneg_left ?_ ha.le
      calc a * b i k ≤ 1 * b i k := mul_le_mul_of_nonneg_right h2 h0
        _ ≤ B := by rw [one_mul]; exact hB i k
    simp only [Nat.cast_zero, zero_add]
    nlinarith

theorem norm_conv_close {ι : Type} [Fintype ι] (conv : ℝ → ℝ) (hmono : Monotone conv) (δ : ℝ)
    (p : ι → ℝ) (hδ : ∀ q q', |(conv (p q) - conv (p q')) - (p q - p q')| ≤ δ)
    (lo hi : ι) (hlo : ∀ q, p lo ≤ p q) (hhi : ∀ q, p q ≤ p hi) (hR : p lo < p hi) (x y : ι → ℝ)
    (hx : MathFn.norm (fun q => Fl.fin (p q)) = .ok x)
    (hy : MathFn.norm (fun q => Fl.fin (conv (p q))) = .ok y) (q : ι) :
    |x q - y q| ≤ 2 * δ / (p hi - p lo) := by
  have hδ0 : 0 ≤ δ := (abs_nonneg _).trans (hδ lo lo)
  have hR' : 0 < p hi - p lo := by linarith
  rw [C27_value p lo hi hlo hhi hR] at hx
  cases hx
  have : Nonempty ι := ⟨q⟩
  rcases (hmono hR.le).lt_or_eq with hc | hc
  · rw [C27_value (fun q => conv (p q)) lo hi (fun q => hmono (hlo q)) (fun q => hmono (hhi q)) hc] at hy
    cases hy
    have hc' : 0 < conv (p hi) - conv (p lo) := by linarith
    have hy1 : |(conv (p q) - conv (p lo)) / (conv (p hi) - conv (p lo))| ≤ 1 := by
      have h0 := hmono (hlo q)
      have h1 := hmono (hhi q)
      rw [abs_of_nonneg (div_nonneg (by linarith) hc'.le)]
      exact div_le_one_of_le₀ (by linarith) hc'.le
    set y := (conv (p q) - conv (p lo)) / (conv (p hi) - conv (p lo)) with hyd
    have hy2 : y * (conv (p hi) - conv (p lo)) = conv (p q) - conv (p lo) := by
      rw [hyd]; field_simp
    have key : (p q - p lo) / (p hi - p lo) - y =
        ((p q - p lo) - (conv (p q) - conv (p lo)) +
          y * ((conv (p hi) - conv (p lo)) - (p hi - p lo))) / (p hi - p lo) := by
      rw [eq_div_iff hR'.ne', sub_mul, div_mul_cancel₀ _ hR'.ne']
      linarith
    dsimp only
    rw [key, abs_div, abs_of_pos hR']
    refine div_le_div_of_nonneg_right ?_ hR'.le
    refine (abs_add_le _ _).trans ?_
    have h1 := hδ q lo
    have h2 := hδ hi lo
    rw [abs_sub_comm] at h1
    rw [abs_mul]
    have h3 : |y| * |conv (p hi) - conv (p lo) - (p hi - p lo)| ≤ 1 * δ :=
      mul_le_mul hy1 h2 (abs_nonneg _) zero_le_one
    linarith
  · -- the converted model is flat
    have hflat : ∀ q, conv (p q) = conv (p lo) := fun q =>
      le_antisymm ((hmono (hhi q)).trans hc.symm.le) (hmono (hlo q))
    simp only [hflat] at hy
    rw [C27_constant] at hy
    cases hy
    have h2 := hδ hi lo
    rw [hflat hi, sub_self, zero_sub, abs_neg, abs_of_pos hR'] at h2
    have h3 := hlo q
    have h4 := hhi q
    rw [sub_zero, abs_of_nonneg (div_nonneg (by linarith) hR'.le)]
    exact div_le_div_of_nonneg_right (by linarith) hR'.le

theorem truncInt_mono : Monotone truncInt := by
  intro x y h
  unfold truncInt
  split_ifs with h1 h2 h2
  · exact_mod_cast Int.floor_le_floor h
  · exact absurd (h1.trans h) h2
  · have : ⌈x⌉ ≤ 0 := Int.ceil_le.2 (by push_cast; linarith)
    have h3 : 0 ≤ ⌊y⌋ := Int.floor_nonneg.2 h2
    exact_mod_cast this.trans h3
  · exact_mod_cast Int.ceil_le_ceil h

theorem truncInt_close {x y : ℝ} (hx : 0 ≤ x) (hy : 0 ≤ y) :
    |(truncInt x - truncInt y) - (x - y)| ≤ 1 := by
  unfold truncInt
  rw [if_pos hx, if_pos hy, abs_le]
  have h1 := Int.floor_le x
  have h2 := Int.lt_floor_add_one x
  have h3 := Int.floor_le y
  have h4 := Int.lt_floor_add_one y
  constructor <;> linarith

/-- **C85** the loss is small when the model power is large: where the power of map `i` ranges from
`lo` to `hi`, the residual for maps of integers differs from the one for the same maps as floats by
at most `2 / (hi - lo)`. -/
theorem C85_error (params : List ℝ) (beam : Fin 3 × Fin M → Fl)
    (u v : Fin 3 × Fin M → ℝ) (dz : Fin 3 → ℝ) (wavel : ℝ) (illum : Illum (Fin N × Fin N))
    (tel : TelGeo (Fin N × Fin N)) (bf : ℝ) (r r' : List ℝ)
    (h : residualTrue params beam u v dz wavel illum tel bf = .ok r)
    (h' : residualTrueOf truncInt params beam u v dz wavel illum tel bf = .ok r')
    (i : Fin 3) (b : Fin M → ℝ) (hb : Spec.Sampled params u v dz wavel illum tel bf i b)
    (lo hi : Fin M) (hlo : ∀ k, b lo ≤ b k) (hhi : ∀ k, b k ≤ b hi) (hR : b lo < b hi) (k : Fin M) :
    ∃ x x', r[(i : ℕ) * M + k]? = some x ∧ r'[(i : ℕ) * M + k]? = some x' ∧
      |x - x'| ≤ 2 / (b hi - b lo) := by
  rw [sampled_iff] at hb
  have hM := (residual_layout _ _ _ _ _ _ _ _ _ _ h).1
  obtain ⟨c, hc, -⟩ := residualTrue_ok.1 h
  have hci : c i = b := Except.ok.inj ((hc i).symm.trans hb)
  obtain ⟨nd, nm, h1, h2, h3⟩ := residualOf_rows id hM (beam := beam) hc
  obtain ⟨nd', nm', h1', h2', h3'⟩ := residualOf_rows truncInt hM (beam := beam) hc
  rw [C85_float, h] at h1
  rw [h'] at h1'
  cases h1
  cases h1'
  refine ⟨_, _, flatten3_getElem _ i k, flatten3_getElem _ i k, ?_⟩
  have hd : nd (i, k) = nd' (i, k) := congrFun (Except.ok.inj ((h2 i).symm.trans (h2' i))) k
  have e1 := h3 i
  have e2 := h3' i
  rw [hci] at e1 e2
  have := norm_conv_close truncInt truncInt_mono 1 b
    (fun q q' => truncInt_close (modelRow_nonneg hb q) (modelRow_nonneg hb q')) lo hi hlo hhi hR _ _ e1 e2 k
  rw [hd, show nd' (i, k) - nm (i, k) - (nd' (i, k) - nm' (i, k)) = -(nm (i, k) - nm' (i, k)) by ring, abs_neg]
  rw [mul_one] at this
  exact this

/-! ## The hypotheses are met -/

/-- A Gaussian illumination and the manual geometry: below some amplitude the fit sees the data alone. -/
example : ∃ (beam : Fin 3 × Fin 5 → Fl) (u v : Fin 3 × Fin 5 → ℝ), ∃ a0 > (0 : ℝ), ∀ a, 0 < a → a ≤ a0 →
    residualTrue (a :: [-14, 1.5, 0, 0] ++ [0.1, 0.2, 0.3]) beam u v ![-0.02, 0, 0.02] 0.009
      (N := 64) illumGauss (manualTel 50 3.25 1 20 30 387.4) 5 = .ok (List.replicate (3 * 5) 0) ∧
    ∃ r', residualTrueOf truncInt (a :: [-14, 1.5, 0, 0] ++ [0.1, 0.2, 0.3]) beam u v
        ![-0.02, 0, 0.02] 0.009 (N := 64) illumGauss (manualTel 50 3.25 1 20 30 387.4) 5 = .ok r' ∧
      Spec.DataOnly beam r' := by
  obtain ⟨P, row, col, -, h⟩ := residual_example
  exact ⟨_, _, _, C85_amplitude (by norm_num) [-14, 1.5, 0, 0] [0.1, 0.2, 0.3] rfl _ _ _ _ _ _ _ _
    (C18_illum _ _ rfl).1 _ h⟩

/-- A dish lit evenly and not blocked. -/
noncomputable def openTel (N : ℕ) : TelGeo (Fin N × Fin N) :=
  ⟨fun _ _ => .ok fun _ => 1, fun _ _ _ => .ok fun _ => 0, 50⟩

def evenIllum (N : ℕ) : Illum (Fin N × Fin N) := fun _ _ I _ => .ok fun _ => I.headD 0

/-- Its beam: `a N ^ 2` at the centre and nothing elsewhere. -/
theorem even_beam (N : ℕ) (hN : 2 ≤ N) (c : Fin N) (hc : (c : ℕ) = N / 2) (a : ℝ) (ha : 0 ≤ a) (dz : ℝ) :
    ∃ P : Pattern N,
      radiationPattern [a, 0, 0, 0, 0] [0, 0, 0] dz 0.009 (evenIllum N) (openTel N) 5 = .ok P ∧
      ‖P.F (c, c)‖ ^ 2 = (a * N ^ 2) ^ 2 ∧ ∀ q, q ≠ (c, c) → ‖P.F q‖ ^ 2 = 0 := by
  obtain ⟨P, hP⟩ : ∃ P : Pattern N, radiationPattern [a, 0, 0, 0, 0] [0, 0, 0] dz 0.009
      (evenIllum N) (openTel N) 5 = .ok P := by
    rw [C14_ok_iff _ _ _ _ _ hN]
    exact ⟨_, aperture_ok_iff.2 ⟨_, _, _, _, rfl, wavefront_ok _ _ _ 1 rfl, rfl, rfl, rfl⟩⟩
  have h1 := (C70_perfect [a, 0, 0, 0, 0] 1 dz 0.009 N (evenIllum N) (openTel N) 5 P (fun _ => 1)
    (fun _ => a) hP rfl rfl rfl (fun _ => by simpa using ha) c hc).1
  have hv : ‖P.F (c, c)‖ ^ 2 = (a * N ^ 2) ^ 2 := by
    rw [h1]
    simp only [Finset.sum_const, Finset.card_univ, Fintype.card_fin, nsmul_eq_mul]
    ring
  refine ⟨P, hP, hv, ?_⟩
  obtain ⟨B, Ea, h2, h3, h4⟩ := C16_power _ _ _ _ _ _ _ _ _ hP
  cases h2
  cases h3
  have h5 : ∑ q : Fin N × Fin N, ‖P.F q‖ ^ 2 = ‖P.F (c, c)‖ ^ 2 := by
    rw [h4, hv]
    simp only [List.headD_cons, one_mul, Finset.sum_const, Finset.card_univ, Fintype.card_prod,
      Fintype.card_fin, nsmul_eq_mul]
    push_cast
    ring
  rw [← Finset.add_sum_erase _ _ (Finset.mem_univ (c, c)), add_eq_left,
    Finset.sum_eq_zero_iff_of_nonneg fun _ _ => sq_nonneg _] at h5
  exact fun q hq => h5 q (Finset.mem_erase.2 ⟨hq, Finset.mem_univ q⟩)

/-- Two samples, a corner and the peak: the two residuals agree to `2 / (a N ^ 2) ^ 2`. -/
theorem even_error (N : ℕ) (hN : 2 ≤ N) (a : ℝ) (ha : 0 < a) (dz : Fin 3 → ℝ) (beam : Fin 3 × Fin 2 → Fl) :
    ∃ (u v : Fin 3 × Fin 2 → ℝ) (r r' : List ℝ),
    residualTrue [a, 0, 0, 0, 0, 0, 0, 0] beam u v dz 0.009 (evenIllum N) (openTel N) 5 = .ok r ∧
    residualTrueOf truncInt [a, 0, 0, 0, 0, 0, 0, 0] beam u v dz 0.009 (evenIllum N) (openTel N) 5 = .ok r' ∧
    ∀ (i : Fin 3) (k : Fin 2), ∃ x x', r[(i : ℕ) * 2 + k]? = some x ∧ r'[(i : ℕ) * 2 + k]? = some x' ∧
      |x - x'| ≤ 2 / (a * N ^ 2) ^ 2 := by
  have hN0 : 0 < N := by omega
  have hc2 : N / 2 < N := by omega
  choose P hP hc h0 using fun i : Fin 3 => even_beam N hN ⟨N / 2, hc2⟩ rfl a ha.le (dz i)
  obtain ⟨row, r0, r1⟩ : ∃ row : Fin 3 → Fin 2 → Fin N, (∀ i, row i 0 = ⟨0, hN0⟩) ∧
      ∀ i, row i 1 = ⟨N / 2, hc2⟩ :=
    ⟨fun _ k => if k = 0 then ⟨0, hN0⟩ else ⟨N / 2, hc2⟩, fun _ => if_pos rfl, fun _ => if_neg (by decide)⟩
  have hz := C41_nodes (M := 2) (by norm_num) [a, 0, 0, 0, 0, 0, 0, 0] dz 0.009 (evenIllum N) (openTel N) 5
    (by norm_num [openTel]) (by norm_num) (by norm_num) P hP row row (fun _ => 1) (fun _ => 0)
    (fun _ => by norm_num)
  obtain ⟨b, hb, _⟩ := residualTrue_ok.1 hz
  have hb' : ∀ i k, b i k = ‖(P i).F (row i k, row i k)‖ ^ 2 := fun i k =>
    row_node [a, 0, 0, 0, 0, 0, 0, 0] _ _ dz 0.009 (evenIllum N) (openTel N) 5 i (P i) (b i) (hP i) (hb i) k (row i k) (row i k)
      rfl rfl
  have hv : ∀ i, b i 0 = 0 ∧ b i 1 = (a * N ^ 2) ^ 2 := by
    intro i
    rw [hb', hb', r0, r1]
    refine ⟨h0 i _ ?_, hc i⟩
    rw [ne_eq, Prod.mk.injEq, Fin.mk.injEq]
    omega
  obtain ⟨nd, nm, h1, -, -⟩ := residualOf_rows id (by norm_num) (beam := beam) hb
  obtain ⟨nd', nm', h1', -, -⟩ := residualOf_rows truncInt (by norm_num) (beam := beam) hb
  rw [C85_float] at h1
  refine ⟨_, _, _, _, h1, h1', fun i k => ?_⟩
  have hp : 0 < (a * (N : ℝ) ^ 2) ^ 2 := by positivity
  have := C85_error _ _ _ _ _ _ _ _ _ _ _ h1 h1' i (b i) (sampled_iff.2 (hb i)) 0 1
    (fun k => by
      match k with
      | 0 => exact le_rfl
      | 1 => rw [(hv i).1, (hv i).2]; exact hp.le)
    (fun k => by
      match k with
      | 0 => rw [(hv i).1, (hv i).2]; exact hp.le
      | 1 => exact le_rfl)
    (by rw [(hv i).1, (hv i).2]; exact hp) k
  rwa [(hv i).1, (hv i).2, sub_zero] at this

end Verif.Props
