import Verif.Model.DoubleEffelsberg
import Verif.Props.DoubleIllum
import Verif.Props.Geometry
import Mathlib.Analysis.SpecialFunctions.Trigonometric.Bounds

/-! # C127: the corner of the shade in the arithmetic of doubles -/

namespace Verif.Props

open Verif Verif.Np Verif.Aperture

/-- What is needed of the libraries: as for the illuminations; the tangent of angles below a right angle is right to four units in the
last place. -/
structure Spec.AccurateT (L : Dbl.LibmT) : Prop where
  base : Spec.AccurateP L.toLibmP
  tan : ∀ x : ℝ, Spec.IsDouble x → 1 / 2 ^ 10 ≤ x → x ≤ 5 / 4 →
    ∃ t, L.tan (.fin x) = .fin t ∧ Spec.IsDouble t ∧ |t - Real.tan x| ≤ Real.tan x / 2 ^ 50

theorem rel_quot1 {s x d y A B : ℝ} (hx : 0 ≤ x) (hy : 0 < y) (hA : 0 ≤ A) (hB0 : 0 ≤ B) (hB : B ≤ 1 / 1000)
    (hs : |s - x| ≤ A * x) (hd : |d - y| ≤ B * y) : |s / d - x / y| ≤ 1.01 * (A + B) * (x / y) := by
  have hd1 : 0.999 * y ≤ d := by
    have := (abs_le.1 hd).1
    nlinarith
  have hd0 : 0 < d := by linarith
  have e : s / d - x / y = ((s - x) - x / y * (d - y)) / d := by
    field_simp
    ring
  have hxy : 0 ≤ x / y := by positivity
  have h1 : |(s - x) - x / y * (d - y)| ≤ A * x + x / y * (B * y) := by
    refine (abs_sub _ _).trans (add_le_add hs ?_)
    rw [abs_mul, abs_of_nonneg hxy]
    gcongr
  rw [e, abs_div, abs_of_pos hd0, div_le_iff₀ hd0]
  refine h1.trans ?_
  have h2 : A * x + x / y * (B * y) = (A + B) * (x / y) * y := by
    field_simp
  rw [h2]
  have h3 : 0 ≤ (A + B) * (x / y) := by positivity
  nlinarith

/-- Weaken a relative error. -/
theorem rel_le {x z A B : ℝ} (hx : 0 ≤ x) (h : |z - x| ≤ A * x) (hAB : A ≤ B) : |z - x| ≤ B * x :=
  h.trans (mul_le_mul_of_nonneg_right hAB hx)

theorem radians_near {rnd : ℝ → Fl} (h : Spec.Rounding rnd) {α : ℝ} (h1 : 1 ≤ α) (h2 : α ≤ 60) :
    ∃ t, Dbl.radians rnd (.fin α) = .fin t ∧ Spec.IsDouble t ∧ |t - α * (Real.pi / 180)| ≤ 1 / 2 ^ 50 * (α * (Real.pi / 180)) := by
  have hp3 := Real.pi_gt_three
  have hp4 := Real.pi_le_four
  have hp0 := Real.pi_pos
  obtain ⟨p, hp, -, hpe⟩ := round_pos h (y := Real.pi) (le_trans (by norm_num) hp3.le) (hp4.trans (by norm_num))
  have hpl := (abs_le.1 hpe)
  have hp1 : 2 ≤ p ∧ p ≤ 5 := by
    norm_num at hpl
    constructor <;> linarith
  obtain ⟨f, hf, -, hfe⟩ := round_pos h (y := p / 180) (by norm_num; linarith) (by norm_num; linarith)
  have hf1 : 1 / 100 ≤ f ∧ f ≤ 1 := by
    have := abs_le.1 hfe
    norm_num at this
    constructor <;> linarith
  obtain ⟨t, ht, htd, hte⟩ := round_pos h (y := α * f) (by norm_num; nlinarith) (by norm_num; nlinarith)
  refine ⟨t, ?_, htd, ?_⟩
  · unfold Dbl.radians
    rw [hp, div_fin_rnd _ _ (by norm_num), hf, mul_fin_rnd, ht]
  · have e1 : |p - Real.pi| ≤ 1 / 2 ^ 53 * Real.pi := by
      rw [one_div, inv_mul_eq_div]
      exact hpe
    have e2 : |p / 180 - Real.pi / 180| ≤ 1 / 2 ^ 53 * (Real.pi / 180) := by
      rw [← sub_div, abs_div, abs_of_pos (by norm_num : (0 : ℝ) < 180), ← mul_div_assoc]
      gcongr
    have e3 := rel_rnd e2 hfe
    have e4 := rel_mul (x := α) (z := α) (A := 0) (by linarith) (by positivity : 0 ≤ Real.pi / 180) le_rfl (by simp) e3
    have e5 := rel_rnd e4 hte
    exact rel_le (by positivity) e5 (by norm_num)

/-- The angle is between 0.017 and 1.05. -/
theorem radians_range {α : ℝ} (h1 : 1 ≤ α) (h2 : α ≤ 60) :
    Real.pi / 180 ≤ α * (Real.pi / 180) ∧ α * (Real.pi / 180) ≤ Real.pi / 3 := by
  have := Real.pi_pos
  constructor <;> nlinarith

theorem sin_radians {α : ℝ} (h1 : 1 ≤ α) (h2 : α ≤ 60) :
    1 / 90 ≤ Real.sin (α * (Real.pi / 180)) ∧ Real.sin (α * (Real.pi / 180)) ≤ 1 ∧ 1 / 2 ≤ Real.cos (α * (Real.pi / 180)) := by
  have hp := Real.pi_pos
  obtain ⟨i1, i2⟩ := radians_range h1 h2
  refine ⟨?_, Real.sin_le_one _, ?_⟩
  · have := Real.mul_le_sin (x := α * (Real.pi / 180)) (by linarith) (by linarith)
    refine le_trans ?_ this
    have e : 2 / Real.pi * (α * (Real.pi / 180)) = α / 90 := by
      field_simp
      norm_num
    rw [e]
    linarith
  · rw [← Real.cos_pi_div_three]
    exact Real.cos_le_cos_of_nonneg_of_le_pi (by linarith) (by linarith) i2

/-- The sine of the rounded angle. -/
theorem sinD_near {L : Dbl.LibmT} (hL : Spec.AccurateT L) {α t : ℝ} (h1 : 1 ≤ α) (h2 : α ≤ 60) (ht : Spec.IsDouble t)
    (hte : |t - α * (Real.pi / 180)| ≤ 1 / 2 ^ 50 * (α * (Real.pi / 180))) :
    ∃ s, L.sin (.fin t) = .fin s ∧ Spec.IsDouble s ∧
      |s - Real.sin (α * (Real.pi / 180))| ≤ 150 / 2 ^ 50 * Real.sin (α * (Real.pi / 180)) := by
  obtain ⟨s, hs, hsd, -, hse⟩ := hL.base.base.base.base.sin t ht
  refine ⟨s, hs, hsd, ?_⟩
  obtain ⟨i1, -, -⟩ := sin_radians h1 h2
  obtain ⟨-, j2⟩ := radians_range h1 h2
  have hlip : |Real.sin t - Real.sin (α * (Real.pi / 180))| ≤ |t - α * (Real.pi / 180)| := by
    have := Real.abs_sin_sub_sin_le t (α * (Real.pi / 180))
    exact this
  have hp := Real.pi_lt_d2
  have e : s - Real.sin (α * (Real.pi / 180)) = (s - Real.sin t) + (Real.sin t - Real.sin (α * (Real.pi / 180))) := by ring
  rw [e]
  refine (abs_add_le _ _).trans ((add_le_add hse (hlip.trans hte)).trans ?_)
  norm_num at hp ⊢
  linarith

/-- The tangent of the rounded angle. -/
theorem tanD_near {L : Dbl.LibmT} (hL : Spec.AccurateT L) {α t : ℝ} (h1 : 1 ≤ α) (h2 : α ≤ 60) (ht : Spec.IsDouble t)
    (hte : |t - α * (Real.pi / 180)| ≤ 1 / 2 ^ 50 * (α * (Real.pi / 180))) :
    ∃ T, L.tan (.fin t) = .fin T ∧ |T - Real.tan (α * (Real.pi / 180))| ≤ 300 / 2 ^ 50 * Real.tan (α * (Real.pi / 180)) := by
  obtain ⟨j1, j2⟩ := radians_range h1 h2
  obtain ⟨s1, s2, c1⟩ := sin_radians h1 h2
  have hp := Real.pi_lt_d2
  have hp3 := Real.pi_gt_three
  have htl := abs_le.1 hte
  norm_num at hp
  have t1 : 1 / 2 ^ 10 ≤ t := by norm_num at htl ⊢; linarith
  have t2 : t ≤ 5 / 4 := by norm_num at htl ⊢; linarith
  obtain ⟨T, hT, -, hTe⟩ := hL.tan t ht t1 t2
  refine ⟨T, hT, ?_⟩
  set θ := α * (Real.pi / 180) with hθ
  have c2 : 2 / 5 ≤ Real.cos t := by
    have := Real.abs_cos_sub_cos_le t θ
    have := abs_le.1 (this.trans hte)
    norm_num at this ⊢
    linarith
  have hs : |Real.sin (t - θ)| ≤ 1 / 2 ^ 50 * θ := (Real.abs_sin_le_abs).trans hte
  have e : Real.tan t - Real.tan θ = Real.sin (t - θ) / (Real.cos t * Real.cos θ) := by
    have n1 : Real.cos t ≠ 0 := by linarith
    have n2 : Real.cos θ ≠ 0 := by linarith
    rw [Real.tan_eq_sin_div_cos, Real.tan_eq_sin_div_cos, Real.sin_sub]
    field_simp
  have ht0 : 0 < Real.tan θ := by
    rw [Real.tan_eq_sin_div_cos]
    exact div_pos (by linarith) (by linarith)
  have hd : |Real.tan t - Real.tan θ| ≤ 290 / 2 ^ 50 * Real.tan θ := by
    have hcc : 0 < Real.cos t * Real.cos θ := mul_pos (by linarith) (by linarith)
    rw [e, abs_div, abs_of_pos hcc, div_le_iff₀ hcc, Real.tan_eq_sin_div_cos]
    have : 290 / 2 ^ 50 * (Real.sin θ / Real.cos θ) * (Real.cos t * Real.cos θ) = 290 / 2 ^ 50 * (Real.sin θ * Real.cos t) := by
      have n2 : Real.cos θ ≠ 0 := by linarith
      field_simp
    rw [this]
    refine hs.trans ?_
    have k1 : 1 / 90 * (2 / 5) ≤ Real.sin θ * Real.cos t := mul_le_mul s1 c2 (by norm_num) (by linarith)
    norm_num at k1 ⊢
    linarith
  have e2 : T - Real.tan θ = (T - Real.tan t) + (Real.tan t - Real.tan θ) := by ring
  rw [e2]
  refine (abs_add_le _ _).trans ((add_le_add hTe hd).trans ?_)
  have := (abs_le.1 hd).2
  norm_num at this ⊢
  linarith

/-- The squared cosecant of the rounded angle. -/
theorem csc2D_near {L : Dbl.LibmT} (hL : Spec.AccurateT L) {s σ : ℝ} (h1 : 1 / 90 ≤ σ) (h2 : σ ≤ 1) (hs : Spec.IsDouble s)
    (hse : |s - σ| ≤ 150 / 2 ^ 50 * σ) :
    ∃ k, L.powr (.fin s) (.fin (-2)) = .fin k ∧ |k - 1 / σ ^ 2| ≤ 310 / 2 ^ 50 * (1 / σ ^ 2) := by
  have hsl := abs_le.1 hse
  have s1 : 1 / 100 ≤ s := by norm_num at hsl ⊢; linarith
  have s2 : s ≤ 2 := by norm_num at hsl ⊢; linarith
  have e1 := rel_mul (by linarith : 0 ≤ σ) (by linarith : 0 ≤ σ) (by positivity) hse hse
  have e2 := rel_quot1 (s := 1) (x := 1) (d := s * s) (y := σ * σ) (A := 0) (by norm_num) (by nlinarith) le_rfl (by norm_num)
    (by norm_num) (by simp) e1
  have ep : s ^ (-2 : ℝ) = 1 / (s * s) := by
    rw [Real.rpow_neg (by linarith), Real.rpow_two, one_div, sq]
  have hss : 1 / 4 ≤ 1 / (s * s) ∧ 1 / (s * s) ≤ 10000 := by
    have h0 : 0 < s * s := by nlinarith
    constructor
    · rw [div_le_div_iff₀ (by norm_num) h0]
      nlinarith
    · rw [div_le_iff₀ h0]
      nlinarith
  obtain ⟨k, hk, -, -, hke⟩ := hL.base.powr s (-2) hs
    (by simpa using isDouble_int (z := -2) (by norm_num)) (by linarith) (by
      rw [ep]
      refine hss.2.trans (le_trans (by norm_num) (two_pow_le (show 20 ≤ 900 by norm_num))))
  refine ⟨k, hk, ?_⟩
  rw [ep] at hke
  have hτ := tiny_le (show (-1072 : ℤ) ≤ -100 by norm_num)
  rw [sq]
  have hk2 : 1 ≤ 1 / (σ * σ) := by
    rw [le_div_iff₀ (by nlinarith)]
    nlinarith
  have e : k - 1 / (σ * σ) = (k - 1 / (s * s)) + (1 / (s * s) - 1 / (σ * σ)) := by ring
  rw [e]
  refine (abs_add_le _ _).trans ((add_le_add hke e2).trans ?_)
  have e3 := (abs_le.1 e2).2
  generalize 1 / (s * s) = u at *
  generalize 1 / (σ * σ) = v at *
  generalize (2 : ℝ) ^ (-1072 : ℤ) = τ at *
  norm_num at e3 hτ ⊢
  linarith

theorem isDouble_2499 : Spec.IsDouble (-2499) := by simpa using isDouble_int (z := -2499) (by norm_num)

theorem isDouble_2500 : Spec.IsDouble 2500 := by simpa using isDouble_int (z := 2500) (by norm_num)

/-- The base of the triangle. -/
theorem shadeBase_near {rnd : ℝ → Fl} (h : Spec.Rounding rnd) {L : Dbl.LibmT} (hL : Spec.AccurateT L) {α : ℝ} (h1 : 1 ≤ α)
    (h2 : α ≤ 60) :
    ∃ d, Dbl.shadeBase rnd L (.fin 50) (.fin 1) (.fin α) = .fin d ∧
      |d - Spec.shadeD (α * (Real.pi / 180))| ≤ 640 / 2 ^ 50 * Spec.shadeD (α * (Real.pi / 180)) := by
  obtain ⟨t, ht, htd, hte⟩ := radians_near h h1 h2
  obtain ⟨s, hs, hsd, hse⟩ := sinD_near hL h1 h2 htd hte
  obtain ⟨i1, i2, -⟩ := sin_radians h1 h2
  set σ := Real.sin (α * (Real.pi / 180)) with hσ
  obtain ⟨k, hk, hke⟩ := csc2D_near hL i1 i2 hsd hse
  have hσ0 : 0 < σ := by linarith
  have hv : 1 ≤ 1 / σ ^ 2 ∧ 1 / σ ^ 2 ≤ 8100 := by
    constructor
    · rw [le_div_iff₀ (by positivity)]
      nlinarith
    · rw [div_le_iff₀ (by positivity)]
      nlinarith
  have ed : Spec.shadeD (α * (Real.pi / 180)) = (Real.sqrt (1 + 2499 * (1 / σ ^ 2)) - 1) / (1 / σ ^ 2) := by
    unfold Spec.shadeD
    rw [← hσ]
    field_simp
    ring
  rw [ed]
  set v := 1 / σ ^ 2 with hvd
  have hkl := abs_le.1 hke
  have hk1 : 1 / 2 ≤ k ∧ k ≤ 9000 := by
    norm_num at hkl
    constructor <;> linarith
  have hτ := tiny_le (show (-1075 : ℤ) ≤ -100 by norm_num)
  obtain ⟨z, hz, -, hze⟩ := round_rel h (y := -2499 * k) (by
    rw [abs_of_nonpos (by linarith)]
    exact le_trans (by linarith) (le_trans (by norm_num : (22491000 : ℝ) ≤ 2 ^ 30) (two_pow_le (by norm_num))))
  rw [abs_of_nonpos (by linarith : -2499 * k ≤ 0)] at hze
  have hz1 : |(1 - z) - (1 + 2499 * v)| ≤ 311 / 2 ^ 50 * (1 + 2499 * v) := by
    have e : (1 - z) - (1 + 2499 * v) = -(z - -2499 * k) + 2499 * (k - v) := by ring
    rw [e]
    refine (abs_add_le _ _).trans ?_
    rw [abs_neg, abs_mul, abs_of_pos (by norm_num : (0 : ℝ) < 2499)]
    refine (add_le_add hze (mul_le_mul_of_nonneg_left hke (by norm_num))).trans ?_
    generalize (2 : ℝ) ^ (-1075 : ℤ) = τ at *
    norm_num at hτ hkl ⊢
    linarith
  have hz1' := abs_le.1 hz1
  obtain ⟨w, hw, -, hwe⟩ := round_pos h (y := 1 - z) (by norm_num at hz1' ⊢; linarith) (by norm_num at hz1' ⊢; linarith)
  have hw1 := rel_rnd hz1 hwe
  have hw1' := abs_le.1 hw1
  have hw0 : 0 ≤ w := by norm_num at hw1'; linarith
  have hq0 : 0 < 1 + 2499 * v := by linarith
  have hq1 := rel_sqrt hq0 hw1 hw0
  have hS : 50 ≤ Real.sqrt (1 + 2499 * v) ∧ Real.sqrt (1 + 2499 * v) ≤ 5000 := by
    constructor
    · rw [Real.le_sqrt (by norm_num) hq0.le]
      linarith
    · rw [Real.sqrt_le_left (by norm_num)]
      linarith
  have hq1' := abs_le.1 hq1
  obtain ⟨S, hSr, -, hSe⟩ := round_pos h (y := Real.sqrt w) (by norm_num at hq1' ⊢; linarith) (by norm_num at hq1' ⊢; linarith)
  have hS1 := rel_rnd hq1 hSe
  set R := Real.sqrt (1 + 2499 * v) with hR
  have hm : |(-1 + S) - (R - 1)| ≤ 320 / 2 ^ 50 * (R - 1) := by
    have e : (-1 + S) - (R - 1) = S - R := by ring
    rw [e]
    refine hS1.trans ?_
    norm_num
    linarith
  have hm' := abs_le.1 hm
  obtain ⟨m, hmr, -, hme⟩ := round_pos h (y := -1 + S) (by norm_num at hm' ⊢; linarith) (by norm_num at hm' ⊢; linarith)
  have hm1 := rel_rnd hm hme
  have hd1 := rel_quot1 (by linarith : 0 ≤ R - 1) (by linarith : 0 < v) (by norm_num) (by norm_num) (by norm_num) hm1 hke
  have hx0 : 1 / 2 ^ 20 ≤ (R - 1) / v ∧ (R - 1) / v ≤ 5000 := by
    constructor
    · rw [le_div_iff₀ (by linarith)]
      norm_num
      linarith
    · rw [div_le_iff₀ (by linarith)]
      linarith
  have hd1' := abs_le.1 hd1
  obtain ⟨d, hdr, -, hde⟩ := round_pos h (y := m / k) (by norm_num at hd1' hx0 ⊢; linarith) (by norm_num at hd1' hx0 ⊢; linarith)
  refine ⟨d, ?_, rel_le (by linarith [hx0.1, show (0 : ℝ) < 1 / 2 ^ 20 by positivity]) (rel_rnd hd1 hde) (by norm_num)⟩
  unfold Dbl.shadeBase
  simp only [ht, hs, hk]
  have m1 : Dbl.mul rnd (.fin 1) (.fin 1) = .fin 1 := by
    rw [mul_fin_rnd, mul_one]
    exact round_self h isDouble_one
  have m2 : Dbl.mul rnd (.fin 50) (.fin 50) = .fin 2500 := by
    rw [mul_fin_rnd, show (50 : ℝ) * 50 = 2500 by norm_num]
    exact round_self h isDouble_2500
  have m3 : Dbl.sub rnd (.fin 1) (.fin 2500) = .fin (-2499) := by
    rw [Dbl.sub, Fl.sub_fin, Dbl.rop, show (1 : ℝ) - 2500 = -2499 by norm_num]
    exact round_self h isDouble_2499
  have m4 : Dbl.sub rnd (.fin 1) (.fin z) = .fin w := by
    rw [Dbl.sub, Fl.sub_fin, Dbl.rop]
    exact hw
  have m5 : Dbl.sqrt rnd (.fin w) = .fin S := by
    rw [Dbl.sqrt, show Fl.sqrt (.fin w) = .fin (Real.sqrt w) from if_neg (not_lt.2 hw0)]
    exact hSr
  rw [m1, m2, m3, mul_fin_rnd, hz, m4, m5]
  show Dbl.div rnd (Dbl.add rnd (.fin (-1)) (.fin S)) (.fin k) = _
  rw [add_fin_rnd, hmr, div_fin_rnd _ _ (by linarith), hdr]

/-- The exact corner. -/
theorem shade_corner_range {α : ℝ} (h1 : 1 ≤ α) (h2 : α ≤ 60) :
    24.25 ≤ Spec.shadeC (α * (Real.pi / 180)) ∧ Spec.shadeC (α * (Real.pi / 180)) ≤ 50 ∧
    0 < Spec.shadeD (α * (Real.pi / 180)) ∧ Spec.shadeD (α * (Real.pi / 180)) ≤ 49 := by
  obtain ⟨j1, j2⟩ := radians_range h1 h2
  have hp := Real.pi_pos
  obtain ⟨s1, s2, c1⟩ := sin_radians h1 h2
  obtain ⟨k1, k2, k3⟩ := C25_corner (α * (Real.pi / 180)) (by linarith) (by linarith)
  have hT : Real.tan (α * (Real.pi / 180)) ≤ 1.7321 := by
    rw [Real.tan_eq_sin_div_cos, div_le_iff₀ (by linarith)]
    have := Real.sin_sq_add_cos_sq (α * (Real.pi / 180))
    nlinarith
  have hT0 : 0 < Real.tan (α * (Real.pi / 180)) := by
    rw [Real.tan_eq_sin_div_cos]
    exact div_pos (by linarith) (by linarith)
  have hd : Spec.shadeD (α * (Real.pi / 180)) = Spec.shadeC (α * (Real.pi / 180)) * Real.tan (α * (Real.pi / 180)) := by
    unfold Spec.shadeC
    rw [div_mul_cancel₀ _ hT0.ne']
  refine ⟨?_, ?_, k3, ?_⟩
  · by_contra hc
    rw [not_le] at hc
    have : Spec.shadeD (α * (Real.pi / 180)) ≤ 24.25 * 1.7321 := by
      rw [hd]
      exact mul_le_mul hc.le hT hT0.le (by norm_num)
    norm_num at this hc
    nlinarith
  · nlinarith
  · nlinarith

/-- The corner of the shade in doubles. -/
theorem cornerD_near {rnd : ℝ → Fl} (h : Spec.Rounding rnd) {L : Dbl.LibmT} (hL : Spec.AccurateT L) {α : ℝ} (h1 : 1 ≤ α)
    (h2 : α ≤ 60) :
    ∃ d C D t T, Dbl.shadeBase rnd L (.fin 50) (.fin 1) (.fin α) = .fin d ∧ Dbl.radians rnd (.fin α) = .fin t ∧
      L.tan (.fin t) = .fin T ∧ Dbl.div rnd (.fin d) (.fin T) = .fin C ∧ Dbl.add rnd (.fin 1) (.fin d) = .fin D ∧
      |C - Spec.shadeC (α * (Real.pi / 180))| ≤ 1 / 2 ^ 34 ∧ |D - (1 + Spec.shadeD (α * (Real.pi / 180)))| ≤ 1 / 2 ^ 34 := by
  obtain ⟨d, hd, hde⟩ := shadeBase_near h hL h1 h2
  obtain ⟨t, ht, htd, hte⟩ := radians_near h h1 h2
  obtain ⟨T, hT, hTe⟩ := tanD_near hL h1 h2 htd hte
  obtain ⟨c1, c2, d1, d2⟩ := shade_corner_range h1 h2
  have hT0 : 0 < Real.tan (α * (Real.pi / 180)) := by
    obtain ⟨s1, s2, c1⟩ := sin_radians h1 h2
    rw [Real.tan_eq_sin_div_cos]
    exact div_pos (by linarith) (by linarith)
  have hC := rel_quot1 d1.le hT0 (by norm_num) (by norm_num) (by norm_num) hde hTe
  change |d / T - Spec.shadeC _| ≤ _ * Spec.shadeC _ at hC
  have hT' : T ≠ 0 := by
    have := (abs_le.1 hTe).1
    norm_num at this
    intro h0
    rw [h0] at this
    linarith
  have hC' := abs_le.1 hC
  have hd' := abs_le.1 hde
  obtain ⟨C, hCr, -, hCe⟩ := round_pos h (y := d / T) (by norm_num at hC' c1 ⊢; linarith) (by norm_num at hC' ⊢; linarith)
  obtain ⟨D, hDr, -, hDe⟩ := round_pos h (y := 1 + d) (by norm_num at hd' ⊢; linarith) (by norm_num at hd' ⊢; linarith)
  refine ⟨d, C, D, t, T, hd, ht, hT, ?_, ?_, ?_, ?_⟩
  · rw [div_fin_rnd _ _ hT', hCr]
  · rw [add_fin_rnd, hDr]
  · refine (rel_rnd hC hCe).trans ?_
    norm_num at c2 ⊢
    linarith
  · have e : D - (1 + Spec.shadeD (α * (Real.pi / 180))) = (D - (1 + d)) + (d - Spec.shadeD (α * (Real.pi / 180))) := by ring
    rw [e]
    refine (abs_add_le _ _).trans ((add_le_add hDe hde).trans ?_)
    norm_num at hd' ⊢
    linarith

end Verif.Props
