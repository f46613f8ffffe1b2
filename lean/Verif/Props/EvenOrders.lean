import Verif.Props.Ambiguity
import Verif.Props.Derivative
import Verif.Props.Docs
import Mathlib.Data.List.GetD

/-!
# C135: in focus the even orders show only in second order, out of focus with opposite signs
-/

namespace Verif.Props

open Verif Verif.Np Verif.Aperture Verif.MathFn Verif.Core Verif.Telgeometry Verif.Fourier Finset

/-! ## Specification -/

/-- The coefficients of the even orders are zero. -/
def Spec.OddOnly (K : List ℝ) : Prop :=
  ∀ n k, k ≤ n → Spec.place n n < K.length → n % 2 = 0 → K.getD (Spec.place n k) 0 = 0

/-- The coefficients of the odd orders are zero. -/
def Spec.EvenOnly (K : List ℝ) : Prop :=
  ∀ n k, k ≤ n → Spec.place n n < K.length → n % 2 ≠ 0 → K.getD (Spec.place n k) 0 = 0

/-! ## Proof -/

theorem place_le {n k : ℕ} (h : k ≤ n) : Spec.place n k ≤ Spec.place n n := by
  unfold Spec.place
  omega

theorem moved_getD (K D : List ℝ) (h : K.length = D.length) (t : ℝ) {i : ℕ} (hi : i < K.length) :
    (Spec.moved K D t).getD i 0 = K.getD i 0 + t * D.getD i 0 := by
  have hD : i < D.length := h ▸ hi
  have hm : i < (Spec.moved K D t).length := by rw [Spec.moved, List.length_zipWith]; omega
  rw [List.getD_eq_getElem _ _ hm, List.getD_eq_getElem _ _ hi, List.getD_eq_getElem _ _ hD]
  simp [Spec.moved]

theorem deriv_mirror {f : ℝ → ℝ} {g : ℝ} (h : HasDerivAt f g 0) : HasDerivAt (fun t => f (-t)) (-g) 0 := by
  have h' : HasDerivAt f g (-0) := by rwa [neg_zero]
  have := h'.comp (0 : ℝ) (hasDerivAt_neg (0 : ℝ))
  rw [mul_neg_one] at this
  exact this

theorem flipped_even {K D : List ℝ} (h : K.length = D.length) (hK : Spec.OddOnly K) (hD : Spec.EvenOnly D) (t : ℝ) :
    Spec.EvenFlipped (Spec.moved K D t) (Spec.moved K D (-t)) := by
  have l : ∀ t, (Spec.moved K D t).length = K.length := fun t => by rw [Spec.moved, List.length_zipWith]; omega
  refine ⟨by rw [l, l], fun n k hk hn => ?_⟩
  rw [l] at hn
  have hi := (place_le hk).trans_lt hn
  rw [moved_getD K D h _ hi, moved_getD K D h _ hi]
  by_cases he : n % 2 = 0
  · rw [if_pos he, hK n k hk hn he]
    ring
  · rw [if_neg he, hD n k hk (h ▸ hn) he]
    ring

theorem flipped_odd {K D : List ℝ} (h : K.length = D.length) (hK : Spec.OddOnly K) (hD : Spec.OddOnly D) (t : ℝ) :
    Spec.EvenFlipped (Spec.moved K D t) (Spec.moved K D t) := by
  have l : ∀ t, (Spec.moved K D t).length = K.length := fun t => by rw [Spec.moved, List.length_zipWith]; omega
  refine ⟨rfl, fun n k hk hn => ?_⟩
  rw [l] at hn
  have hi := (place_le hk).trans_lt hn
  rw [moved_getD K D h _ hi]
  by_cases he : n % 2 = 0
  · rw [if_pos he, hK n k hk hn he, hD n k hk (h ▸ hn) he]
    ring
  · rw [if_neg he]
    ring

/-- **C135** from a state without even orders: a step of the even orders changes the map at one radial offset as the
opposite step changes the one at the opposite offset; odd orders change both alike. -/
theorem C135_pair (I K D : List ℝ) (dz wavel : ℝ) (N : ℕ) (illum : Illum (Fin N × Fin N)) (tel : TelGeo (Fin N × Fin N))
    (bf : ℝ) (hpr : tel.pr ≠ 0) (hbf : bf ≠ 0) (hw : wavel ≠ 0) (hc : Spec.Central I illum tel bf)
    (hKD : K.length = D.length) (hK : Spec.OddOnly K) (P P' : ℝ → Pattern N)
    (h : ∀ t, radiationPattern I (Spec.moved K D t) dz wavel illum tel bf = .ok (P t))
    (h' : ∀ t, radiationPattern I (Spec.moved K D t) (-dz) wavel illum tel bf = .ok (P' t)) (t : ℝ) (q : Fin N × Fin N) :
    (Spec.EvenOnly D → ‖(P' (-t)).F q‖ = ‖(P t).F q‖) ∧ (Spec.OddOnly D → ‖(P' t).F q‖ = ‖(P t).F q‖) := by
  constructor
  · intro hD
    obtain ⟨Q, hQ, -, -, hF⟩ := C77_pattern I _ _ dz wavel N illum tel bf (P t) hpr hbf hw hc
      (flipped_even hKD hK hD t) (h t)
    rw [h' (-t), Except.ok.injEq] at hQ
    rw [hQ, hF]
  · intro hD
    obtain ⟨Q, hQ, -, -, hF⟩ := C77_pattern I _ _ dz wavel N illum tel bf (P t) hpr hbf hw hc
      (flipped_odd hKD hK hD t) (h t)
    rw [h' t, Except.ok.injEq] at hQ
    rw [hQ, hF]

/-- **C135** in focus, a step `t` of the even orders changes the power at a pixel by at most a constant times `t²`: the
derivative is zero. -/
theorem C135_focus (I K D : List ℝ) (wavel : ℝ) (N : ℕ) (illum : Illum (Fin N × Fin N)) (tel : TelGeo (Fin N × Fin N))
    (bf : ℝ) (hpr : 0 < tel.pr) (hbf : bf ≠ 0) (hw : 0 < wavel) (hc : Spec.Central I illum tel bf)
    (hKD : K.length = D.length) (hK : Spec.OddOnly K) (hD : Spec.EvenOnly D) (P : ℝ → Pattern N)
    (h : ∀ t, radiationPattern I (Spec.moved K D t) 0 wavel illum tel bf = .ok (P t)) (a phi : Fin N × Fin N → ℝ)
    (hp : Spec.Parts I K 0 wavel illum tel bf a phi)
    (hdark : ∀ q, tel.pr ^ 2 < Spec.gridPoint tel.pr bf N q.2 ^ 2 + Spec.gridPoint tel.pr bf N q.1 ^ 2 → a q = 0)
    (q : Fin N × Fin N) :
    HasDerivAt (fun t => ‖(P t).F q‖ ^ 2) 0 0 ∧
    ∀ t, |‖(P t).F q‖ ^ 2 - ‖(P 0).F q‖ ^ 2| ≤
      3 * t ^ 2 * (2 * Real.pi * (D.map (|·|)).sum * ∑ i, ∑ j, |a (i, j)|) ^ 2 := by
  have h0 : radiationPattern I K 0 wavel illum tel bf = .ok (P 0) := by
    have := h 0
    rwa [show Spec.moved K D 0 = K by
      apply List.ext_getElem
      · rw [Spec.moved, List.length_zipWith]; omega
      · intro i _ _
        simp [Spec.moved]] at this
  obtain ⟨V, hV, -⟩ := C121_field I K D 0 wavel N illum tel bf hpr (P 0) a phi hKD h0 hp hdark
  obtain ⟨h1, h2⟩ := C121_power I K D 0 wavel N illum tel bf hpr hw P a phi V hKD h hp hV hdark q
  set g := 2 * ((starRingEnd ℂ) ((P 0).F q) * Spec.slope a phi V q).re with hg
  have hev : ∀ t, ‖(P (-t)).F q‖ = ‖(P t).F q‖ := fun t =>
    (C135_pair I K D 0 wavel N illum tel bf hpr.ne' hbf hw.ne' hc hKD hK P P h (by simpa using h) t q).1 hD
  have hg0 : g = 0 := by
    have h3 : HasDerivAt (fun t => ‖(P (-t)).F q‖ ^ 2) (-g) 0 := deriv_mirror h1
    simp_rw [hev] at h3
    have := h1.unique h3
    linarith
  rw [hg0] at h1 h2
  refine ⟨h1, fun t => ?_⟩
  by_cases ht : t = 0
  · simp [ht]
  have h3 := h2 t ht
  rw [sub_zero, abs_div, div_le_iff₀ (abs_pos.2 ht)] at h3
  refine h3.trans (le_of_eq ?_)
  rw [← sq_abs t]
  ring

/-- **C135** out of focus: the first order changes of the maps at opposite offsets are opposite for even orders and equal
for odd orders. The difference of the two maps is, up to a constant times `t²`, twice the first order change by the even
orders, and exactly zero without them. -/
theorem C135_difference (I K D : List ℝ) (dz wavel : ℝ) (N : ℕ) (illum : Illum (Fin N × Fin N))
    (tel : TelGeo (Fin N × Fin N)) (bf : ℝ) (hpr : 0 < tel.pr) (hbf : bf ≠ 0) (hw : 0 < wavel)
    (hc : Spec.Central I illum tel bf) (hKD : K.length = D.length) (hK : Spec.OddOnly K) (P P' : ℝ → Pattern N)
    (h : ∀ t, radiationPattern I (Spec.moved K D t) dz wavel illum tel bf = .ok (P t))
    (h' : ∀ t, radiationPattern I (Spec.moved K D t) (-dz) wavel illum tel bf = .ok (P' t))
    (a phi : Fin N × Fin N → ℝ) (hp : Spec.Parts I K dz wavel illum tel bf a phi)
    (hdark : ∀ q, tel.pr ^ 2 < Spec.gridPoint tel.pr bf N q.2 ^ 2 + Spec.gridPoint tel.pr bf N q.1 ^ 2 → a q = 0)
    (q : Fin N × Fin N) :
    ∃ g, HasDerivAt (fun t => ‖(P t).F q‖ ^ 2) g 0 ∧
      (Spec.EvenOnly D → HasDerivAt (fun t => ‖(P' t).F q‖ ^ 2) (-g) 0 ∧
        ∀ t, |‖(P t).F q‖ ^ 2 - ‖(P' t).F q‖ ^ 2 - 2 * t * g| ≤
          6 * t ^ 2 * (2 * Real.pi * (D.map (|·|)).sum * ∑ i, ∑ j, |a (i, j)|) ^ 2) ∧
      (Spec.OddOnly D → HasDerivAt (fun t => ‖(P' t).F q‖ ^ 2) g 0 ∧ ∀ t, ‖(P t).F q‖ ^ 2 - ‖(P' t).F q‖ ^ 2 = 0) := by
  have h0 : radiationPattern I K dz wavel illum tel bf = .ok (P 0) := by
    have := h 0
    rwa [show Spec.moved K D 0 = K by
      apply List.ext_getElem
      · rw [Spec.moved, List.length_zipWith]; omega
      · intro i _ _
        simp [Spec.moved]] at this
  obtain ⟨V, hV, -⟩ := C121_field I K D dz wavel N illum tel bf hpr (P 0) a phi hKD h0 hp hdark
  obtain ⟨h1, h2⟩ := C121_power I K D dz wavel N illum tel bf hpr hw P a phi V hKD h hp hV hdark q
  set g := 2 * ((starRingEnd ℂ) ((P 0).F q) * Spec.slope a phi V q).re with hg
  refine ⟨g, h1, fun hD => ?_, fun hD => ?_⟩
  · have hev : ∀ t, ‖(P' t).F q‖ = ‖(P (-t)).F q‖ := fun t => by
      have := (C135_pair I K D dz wavel N illum tel bf hpr.ne' hbf hw.ne' hc hKD hK P P' h h' (-t) q).1 hD
      rwa [neg_neg] at this
    simp_rw [hev]
    constructor
    · exact deriv_mirror h1
    · have step : ∀ t, |‖(P t).F q‖ ^ 2 - ‖(P 0).F q‖ ^ 2 - t * g| ≤
          3 * t ^ 2 * (2 * Real.pi * (D.map (|·|)).sum * ∑ i, ∑ j, |a (i, j)|) ^ 2 := by
        intro t
        by_cases ht : t = 0
        · simp [ht]
        have h3 := h2 t ht
        rw [show (‖(P t).F q‖ ^ 2 - ‖(P 0).F q‖ ^ 2) / t - g = (‖(P t).F q‖ ^ 2 - ‖(P 0).F q‖ ^ 2 - t * g) / t by
          field_simp, abs_div, div_le_iff₀ (abs_pos.2 ht)] at h3
        refine h3.trans (le_of_eq ?_)
        rw [← sq_abs t]
        ring
      intro t
      have e1 := step t
      have e2 := step (-t)
      rw [show ‖(P t).F q‖ ^ 2 - ‖(P (-t)).F q‖ ^ 2 - 2 * t * g = (‖(P t).F q‖ ^ 2 - ‖(P 0).F q‖ ^ 2 - t * g) -
        (‖(P (-t)).F q‖ ^ 2 - ‖(P 0).F q‖ ^ 2 - -t * g) by ring]
      refine (abs_sub _ _).trans ?_
      rw [neg_sq] at e2
      linarith
  · have hev : ∀ t, ‖(P' t).F q‖ = ‖(P t).F q‖ := fun t =>
      (C135_pair I K D dz wavel N illum tel bf hpr.ne' hbf hw.ne' hc hKD hK P P' h h' t q).2 hD
    simp_rw [hev]
    exact ⟨h1, fun t => sub_self _⟩

/-- **C135** with all three maps in focus, the residual for a step of the even orders is that for the opposite step,
whatever the data; so a Jacobian with a column of derivatives along it has a zero column, and `co_matrices` ends in
`LinAlgError`. -/
theorem C135_jacobian {N M : ℕ} (I K D : List ℝ) (hI : I.length = 5) (beam : Fin 3 × Fin M → Fl)
    (u v : Fin 3 × Fin M → ℝ) (wavel : ℝ) (illum : Illum (Fin N × Fin N)) (tel : TelGeo (Fin N × Fin N)) (bf : ℝ)
    (hpr : tel.pr ≠ 0) (hbf : bf ≠ 0) (hw : wavel ≠ 0) (hc : Spec.Central I illum tel bf) (hKD : K.length = D.length)
    (hK : Spec.OddOnly K) (hD : Spec.EvenOnly D) (r : ℝ → List ℝ)
    (h : ∀ t, residualTrue (I ++ Spec.moved K D t) beam u v (fun _ => 0) wavel illum tel bf = .ok (r t)) :
    (∀ t, r (-t) = r t) ∧
    ∀ {m n : ℕ} (res : Fin m → ℝ) (J : Matrix (Fin m) (Fin n) ℝ) (nPars : ℕ) (c : Fin n),
      (∀ k : Fin m, HasDerivAt (fun t => (r t).getD k 0) (J k c) 0) → coMatrices res J nPars = .error .linAlgError := by
  have hev : ∀ t, r (-t) = r t := by
    intro t
    have := C77_no_defocus I _ _ hI beam u v wavel illum tel bf hpr hbf hw hc (flipped_even hKD hK hD t) (r t) (h t)
    rw [h (-t), Except.ok.injEq] at this
    exact this
  refine ⟨hev, fun res J nPars c hJ => C31_zero_column res J nPars c fun k => ?_⟩
  have h3 : HasDerivAt (fun t => (r (-t)).getD k 0) (-(J k c)) 0 := deriv_mirror (hJ k)
  simp_rw [hev] at h3
  have := (hJ k).unique h3
  linarith

/-! ## The derivative out of focus is not zero in general -/

/-- A slit of length two along `y = 0`; an offset `dz` makes the path `dz x² / 4` longer. -/
noncomputable def Spec.slit : TelGeo (Fin 3 × Fin 3) :=
  ⟨fun _ y => open Classical in .ok fun q => if y q = 0 then 1 else 0, fun x _ dz => .ok fun q => dz * x q ^ 2 / 4, 1⟩

theorem wf_defocus (t r theta : ℝ) : wfVal 2 [0, 0, 0, 0, t, 0] r theta = t * (2 * r ^ 2 - 1) := by
  have u : Uv 2 0 r theta = 2 * r ^ 2 - 1 :=
    Uv_of_ok ((C119_table r theta).1 ((2, 0), 2 * r ^ 2 - 1) (by simp [Spec.zernikeTable]))
  unfold wfVal
  simp only [Finset.sum_range_succ, Finset.sum_range_zero, zero_add, tri]
  norm_num
  rw [u]
  tauto

theorem order_le_two' {n : ℕ} (h : Spec.place n n < 6) : n ≤ 2 := by
  unfold Spec.place at h
  by_contra hn
  have h3 : 3 ≤ n := by omega
  have : 6 ≤ n * (n + 1) / 2 := by
    rw [Nat.le_div_iff_mul_le (by norm_num)]
    nlinarith
  omega

theorem even_only (k0 k3 k4 k5 : ℝ) : Spec.EvenOnly [k0, 0, 0, k3, k4, k5] := by
  intro n k hk hp h2
  have := order_le_two' hp
  have h : (n = 1 ∧ k = 0) ∨ (n = 1 ∧ k = 1) := by omega
  rcases h with ⟨rfl, rfl⟩ | ⟨rfl, rfl⟩ <;> simp [Spec.place]

theorem odd_only (k1 k2 : ℝ) : Spec.OddOnly [0, k1, k2, 0, 0, 0] := by
  intro n k hk hp h2
  have := order_le_two' hp
  have h : (n = 0 ∧ k = 0) ∨ (n = 2 ∧ k = 0) ∨ (n = 2 ∧ k = 1) ∨ (n = 2 ∧ k = 2) := by omega
  rcases h with ⟨rfl, rfl⟩ | ⟨rfl, rfl⟩ | ⟨rfl, rfl⟩ | ⟨rfl, rfl⟩ <;> simp [Spec.place]

theorem three_phases (x y : ℝ) :
    ‖Complex.exp (x * Complex.I) + Complex.exp (y * Complex.I) + Complex.exp (x * Complex.I)‖ ^ 2 =
      5 + 4 * Real.cos (x - y) := by
  rw [← Complex.normSq_eq_norm_sq, Complex.normSq_apply, Real.cos_sub]
  simp only [Complex.add_re, Complex.add_im, Complex.exp_ofReal_mul_I_re, Complex.exp_ofReal_mul_I_im]
  linear_combination 4 * Real.sin_sq_add_cos_sq x + Real.sin_sq_add_cos_sq y

/-- **C135** an instance in closed form. The power at the centre for the coefficient `t` of the polynomial `(2, 0)` is
`5 + 4 cos (4πt + dz π / 2)`: in focus flat at `t = 0`, and at `dz = ±1` of slope `∓16π`. -/
theorem C135_slit (dz t : ℝ) : ∃ P : Pattern 3,
    radiationPattern [] [0, 0, 0, 0, t, 0] dz 1 (fun _ _ _ _ => .ok fun _ => 1) Spec.slit 1 = .ok P ∧
    ‖P.F (1, 1)‖ ^ 2 = 5 + 4 * Real.cos (4 * Real.pi * t + dz * (Real.pi / 2)) := by
  classical
  have g : ∀ i : Fin 3, Spec.gridPoint 1 1 3 i = ((i : ℕ) : ℝ) - 1 := by
    intro i
    unfold Spec.gridPoint
    norm_num
    ring
  have hp : Spec.Parts (N := 3) [] [0, 0, 0, 0, t, 0] dz 1 (fun _ _ _ _ => .ok fun _ => 1) Spec.slit 1
      (fun q => if (q.1 : ℕ) = 1 then 1 else 0)
      (fun q => 2 * Real.pi * (wfVal 2 [0, 0, 0, 0, t, 0] (Real.sqrt (Spec.gridPoint 1 1 3 q.2 ^ 2 +
        Spec.gridPoint 1 1 3 q.1 ^ 2) / 1) (arctan2 (Spec.gridPoint 1 1 3 q.1) (Spec.gridPoint 1 1 3 q.2)) +
        dz * Spec.gridPoint 1 1 3 q.2 ^ 2 / 4 / 1)) := by
    refine ⟨_, _, _, _, rfl, rfl, rfl, wavefront_ok _ _ _ 2 rfl, fun q => ?_, fun q => rfl⟩
    rw [show Spec.slit.pr = 1 from rfl, mul_one]
    have hz : Spec.gridPoint 1 1 3 q.1 = 0 ↔ (q.1 : ℕ) = 1 := by rw [g, sub_eq_zero, Nat.cast_eq_one]
    simp only [hz]
  have hP : ∃ P : Pattern 3, radiationPattern [] [0, 0, 0, 0, t, 0] dz 1 (fun _ _ _ _ => .ok fun _ => 1) Spec.slit 1 =
      .ok P := by
    obtain ⟨B, W, delta, Ea, h1, h2, h3, h4, -⟩ := hp
    rw [radiationPattern_eq _ _ _ _ (by norm_num), linspace_grid, aperture_ok_iff.2 ⟨B, W, delta, Ea, h1, h4, h3, h2, rfl⟩]
    exact ⟨_, rfl⟩
  obtain ⟨P, hP⟩ := hP
  refine ⟨P, hP, ?_⟩
  rw [centre_value hP hp 1 rfl]
  rw [show 4 * Real.pi * t + dz * (Real.pi / 2) = 2 * Real.pi * (t + dz / 4) - 2 * Real.pi * -t by ring, ← three_phases]
  simp only [wf_defocus, Fin.sum_univ_three, g]
  norm_num

/-- The slopes at `t = 0` of the closed form: zero in focus, opposite and not zero at `dz = ±1`. -/
example (dz : ℝ) : HasDerivAt (fun t : ℝ => 5 + 4 * Real.cos (4 * Real.pi * t + dz * (Real.pi / 2)))
    (-(16 * Real.pi * Real.sin (dz * (Real.pi / 2)))) 0 := by
  have h : HasDerivAt (fun t : ℝ => 4 * Real.pi * t + dz * (Real.pi / 2)) (4 * Real.pi) 0 := by
    simpa using ((hasDerivAt_id (0 : ℝ)).const_mul (4 * Real.pi)).add_const (dz * (Real.pi / 2))
  have := (h.cos.const_mul 4).const_add 5
  rw [mul_zero, zero_add] at this
  rw [show -(16 * Real.pi * Real.sin (dz * (Real.pi / 2))) = 4 * (-Real.sin (dz * (Real.pi / 2)) * (4 * Real.pi)) by ring]
  exact this

theorem pattern_exists {N : ℕ} (hN : 2 ≤ N) (K : List ℝ) (n : ℕ) (hK : K.length = tri (n + 1)) (dz : ℝ) :
    ∃ P : Pattern N, radiationPattern [1, -14, 2, 0, 0] K dz 0.009 illumGauss
      (manualTel 50 3.25 1 20 30 387.39435) 5 = .ok P := by
  rw [C14_ok_iff _ _ _ _ _ hN]
  exact ⟨_, aperture_ok_iff.2 ⟨_, _, _, _, rfl, wavefront_ok _ _ _ n hK, rfl, rfl, rfl⟩⟩

/-- A dish with a tilt of the wavefront; a step in the constant term, the astigmatisms and the defocus term. -/
example : ∃ P P' Q : ℝ → Pattern 256,
    (∀ t, radiationPattern [1, -14, 2, 0, 0] [t, 0.1, 0.2, 2 * t, 3 * t, 4 * t] 0.022 0.009 illumGauss
      (manualTel 50 3.25 1 20 30 387.39435) 5 = .ok (P t)) ∧
    (∀ t, radiationPattern [1, -14, 2, 0, 0] [t, 0.1, 0.2, 2 * t, 3 * t, 4 * t] (-0.022) 0.009 illumGauss
      (manualTel 50 3.25 1 20 30 387.39435) 5 = .ok (P' t)) ∧
    (∀ t, radiationPattern [1, -14, 2, 0, 0] [t, 0.1, 0.2, 2 * t, 3 * t, 4 * t] 0 0.009 illumGauss
      (manualTel 50 3.25 1 20 30 387.39435) 5 = .ok (Q t)) ∧
    ∀ q, HasDerivAt (fun t => ‖(Q t).F q‖ ^ 2) 0 0 ∧
      ∃ g, HasDerivAt (fun t => ‖(P t).F q‖ ^ 2) g 0 ∧ HasDerivAt (fun t => ‖(P' t).F q‖ ^ 2) (-g) 0 := by
  have hm : ∀ t, Spec.moved [0, 0.1, 0.2, 0, 0, 0] [1, 0, 0, 2, 3, 4] t = [t, 0.1, 0.2, 2 * t, 3 * t, 4 * t] := by
    intro t
    simp [Spec.moved, mul_comm]
  choose P h1 using fun t : ℝ => pattern_exists (N := 256) (by norm_num) [t, 0.1, 0.2, 2 * t, 3 * t, 4 * t] 2 rfl 0.022
  choose P' h2 using fun t : ℝ => pattern_exists (N := 256) (by norm_num) [t, 0.1, 0.2, 2 * t, 3 * t, 4 * t] 2 rfl (-0.022)
  choose Q h3 using fun t : ℝ => pattern_exists (N := 256) (by norm_num) [t, 0.1, 0.2, 2 * t, 3 * t, 4 * t] 2 rfl 0
  have hpr : 0 < (manualTel (ι := Fin 256 × Fin 256) 50 3.25 1 20 30 387.39435).pr := by
    norm_num [manualTel]
  obtain ⟨R, hR⟩ := pattern_exists (N := 256) (by norm_num) [0, 0.1, 0.2, 0, 0, 0] 2 rfl 0.022
  obtain ⟨S, hS⟩ := pattern_exists (N := 256) (by norm_num) [0, 0.1, 0.2, 0, 0, 0] 2 rfl 0
  obtain ⟨a, phi, hp⟩ := C70_parts _ _ _ _ _ _ _ _ _ hR
  obtain ⟨a', phi', hp'⟩ := C70_parts _ _ _ _ _ _ _ _ _ hS
  have hc := C77_manual (N := 256) (by norm_num) 50 3.25 1 20 30 387.39435 5 1 (-14) 2 illumGauss (Or.inl rfl)
  refine ⟨P, P', Q, h1, h2, h3, fun q => ⟨?_, ?_⟩⟩
  · exact (C135_focus _ [0, 0.1, 0.2, 0, 0, 0] [1, 0, 0, 2, 3, 4] _ _ _ _ _ hpr (by norm_num) (by norm_num) hc rfl
      (odd_only _ _) (even_only _ _ _ _) Q (fun t => by rw [hm]; exact h3 t) a' phi' hp'
      (C80_manual _ _ _ _ _ _ _ _ _ _ 0 _ _ a' phi' hp').1 q).1
  · obtain ⟨g, e1, e2, -⟩ := C135_difference _ [0, 0.1, 0.2, 0, 0, 0] [1, 0, 0, 2, 3, 4] 0.022 _ _ _ _ _ hpr
      (by norm_num) (by norm_num) hc rfl (odd_only _ _) P P' (fun t => by rw [hm]; exact h1 t)
      (fun t => by rw [hm]; exact h2 t) a phi hp (C80_manual _ _ _ _ _ _ _ _ _ _ 0.022 _ _ a phi hp).1 q
    exact ⟨g, e1, (e2 (even_only _ _ _ _)).1⟩

/-- Three maps in focus at all 256 by 256 pixels, whatever their values: the residual does not tell `t` from `-t`, and no
error of the defocus coefficient comes out. -/
example (d : Fin 3 × Fin (256 * 256) → ℝ) : ∃ (u v : Fin 3 × Fin (256 * 256) → ℝ) (r : ℝ → List ℝ),
    (∀ t, residualTrue ([1, -14, 2, 0, 0] ++ [0, 0.1, 0.2, 0, t, 0]) (fun q => .fin (d q)) u v (fun _ => 0) 0.009 illumGauss
      (manualTel (ι := Fin 256 × Fin 256) 50 3.25 1 20 30 387.39435) 5 = .ok (r t)) ∧ (∀ t, r (-t) = r t) ∧
    ∀ {m n : ℕ} (res : Fin m → ℝ) (J : Matrix (Fin m) (Fin n) ℝ) (nPars : ℕ) (c : Fin n),
      (∀ k : Fin m, HasDerivAt (fun t => (r t).getD k 0) (J k c) 0) → coMatrices res J nPars = .error .linAlgError := by
  have hm : ∀ t, Spec.moved [0, 0.1, 0.2, 0, 0, 0] [0, 0, 0, 0, 1, 0] t = [0, 0.1, 0.2, 0, t, 0] := by
    intro t
    simp [Spec.moved]
  obtain ⟨P, hP⟩ := pattern_exists (N := 256) (by norm_num) [0] 0 rfl 0
  have hax := C14_axes _ _ _ _ _ _ _ _ P (by norm_num [manualTel]) (by norm_num) (by norm_num) hP
  have ok : ∀ t : ℝ, ∃ r, residualTrue ([1, -14, 2, 0, 0] ++ [0, 0.1, 0.2, 0, t, 0]) (fun q => .fin (d q))
      (fun q => P.u q.2.divNat) (fun q => P.v q.2.modNat) (fun _ => 0) 0.009 illumGauss
      (manualTel (ι := Fin 256 × Fin 256) 50 3.25 1 20 30 387.39435) 5 = .ok r := by
    intro t
    obtain ⟨Q, hQ⟩ := pattern_exists (N := 256) (by norm_num) [0, 0.1, 0.2, 0, t, 0] 2 rfl 0
    have same : Q.u = P.u ∧ Q.v = P.v := by
      obtain ⟨-, E, -, rfl⟩ := radiationPattern_ok hQ
      obtain ⟨-, E', -, rfl⟩ := radiationPattern_ok hP
      exact ⟨rfl, rfl⟩
    have hrow : ∀ i, ∃ b, modelRow ([1, -14, 2, 0, 0] ++ [0, 0.1, 0.2, 0, t, 0])
        (fun q : Fin 3 × Fin (256 * 256) => P.u q.2.divNat) (fun q => P.v q.2.modNat) (fun _ => 0) 0.009 illumGauss
        (manualTel (ι := Fin 256 × Fin 256) 50 3.25 1 20 30 387.39435) 5 i = .ok b := by
      intro i
      refine ⟨_, modelRow_ok.2 ⟨Q, hQ, (interpolator_ok_iff _ _ _ _ _).2 ⟨?_, fun k => ?_, rfl⟩⟩⟩
      · rw [same.1, same.2, ← hax.1]
        exact ⟨hax.2.1, hax.2.1⟩
      · rw [same.1, same.2]
        exact ⟨⟨⟨_, le_rfl⟩, _, le_rfl⟩, ⟨_, le_rfl⟩, _, le_rfl⟩
    choose b hb using hrow
    obtain ⟨nd, hd, -⟩ := C27_axis1 (by norm_num : 0 < 256 * 256) (fun q : Fin 3 × Fin (256 * 256) => Fl.fin (d q))
    obtain ⟨nm, hm, -⟩ := C27_axis1 (by norm_num : 0 < 256 * 256) (fun q : Fin 3 × Fin (256 * 256) => Fl.fin (b q.1 q.2))
    exact ⟨_, residualTrue_ok.2 ⟨b, hb, nd, nm, hd, hm, rfl⟩⟩
  choose r hr using ok
  obtain ⟨h1, h2⟩ := C135_jacobian [1, -14, 2, 0, 0] [0, 0.1, 0.2, 0, 0, 0] [0, 0, 0, 0, 1, 0] rfl (fun q => .fin (d q))
    (fun q => P.u q.2.divNat) (fun q => P.v q.2.modNat) 0.009 illumGauss (manualTel 50 3.25 1 20 30 387.39435) 5
    (by norm_num [manualTel]) (by norm_num) (by norm_num)
    (C77_manual (N := 256) (by norm_num) 50 3.25 1 20 30 387.39435 5 1 (-14) 2 illumGauss (Or.inl rfl)) rfl
    (odd_only _ _) (even_only _ _ _ _) r (fun t => by rw [hm]; exact hr t)
  exact ⟨_, _, r, hr, h1, h2⟩

end Verif.Props
