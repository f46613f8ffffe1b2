import Verif.Props.DoubleOptics
import Mathlib.Analysis.SpecialFunctions.Pow.Deriv
import Mathlib.Analysis.Calculus.MeanValue
import Mathlib.Analysis.SpecialFunctions.Exponential
import Mathlib.Analysis.SpecialFunctions.Log.Deriv
import Mathlib.Analysis.Complex.ExponentialBounds

/-! # C126: the illuminations in the arithmetic of doubles -/

namespace Verif.Props

open Verif Verif.Np Verif.Aperture

/-- What is needed of the libraries: as for the aperture; powers of positive numbers, squares and first powers, and the
exponential of numbers that are not positive are right to four units in the last place; other powers of small negative
numbers, with exponents from 1 to 2, are nan or finite. -/
structure Spec.AccurateP (L : Dbl.LibmP) : Prop where
  base : Spec.AccurateC L.toLibmC
  powr : ∀ x q : ℝ, Spec.IsDouble x → Spec.IsDouble q → 0 < x → x ^ q ≤ 2 ^ 900 →
    ∃ p, L.powr (.fin x) (.fin q) = .fin p ∧ Spec.IsDouble p ∧ 0 ≤ p ∧ |p - x ^ q| ≤ x ^ q / 2 ^ 50 + 2 ^ (-1072 : ℤ)
  powr_int : ∀ (x : ℝ) (q : ℕ), Spec.IsDouble x → q = 1 ∨ q = 2 → |x| ≤ 2 ^ 20 →
    ∃ p, L.powr (.fin x) (.fin q) = .fin p ∧ Spec.IsDouble p ∧ |p - x ^ q| ≤ |x| ^ q / 2 ^ 50 + 2 ^ (-1072 : ℤ)
  powr_neg : ∀ x q : ℝ, Spec.IsDouble x → Spec.IsDouble q → x ≤ 0 → |x| ≤ 2 ^ 20 → 1 ≤ q → q ≤ 2 →
    L.powr (.fin x) (.fin q) = .nan ∨ ∃ p, L.powr (.fin x) (.fin q) = .fin p ∧ Spec.IsDouble p ∧ |p| ≤ 2 ^ 50
  exp : ∀ x : ℝ, Spec.IsDouble x → x ≤ 0 →
    ∃ e, L.exp (.fin x) = .fin e ∧ Spec.IsDouble e ∧ 0 ≤ e ∧ |e - Real.exp x| ≤ Real.exp x / 2 ^ 50 + 2 ^ (-1072 : ℤ)

/-! ## Steps -/

theorem mul_fin_rnd (rnd : ℝ → Fl) (x y : ℝ) : Dbl.mul rnd (.fin x) (.fin y) = rnd (x * y) := rfl

theorem add_fin_rnd (rnd : ℝ → Fl) (x y : ℝ) : Dbl.add rnd (.fin x) (.fin y) = rnd (x + y) := rfl

theorem div_fin_rnd (rnd : ℝ → Fl) (x : ℝ) {y : ℝ} (hy : y ≠ 0) : Dbl.div rnd (.fin x) (.fin y) = rnd (x / y) := by
  rw [Dbl.div, Fl.div_fin _ hy, Dbl.rop]

/-- A rounding without underflow. -/
theorem round_pos {rnd : ℝ → Fl} (h : Spec.Rounding rnd) {y : ℝ} (h1 : 1 / 2 ^ 250 ≤ y) (h2 : y ≤ 2 ^ 250) :
    ∃ z, rnd y = .fin z ∧ Spec.IsDouble z ∧ |z - y| ≤ y / 2 ^ 53 := by
  have hy : 0 < y := lt_of_lt_of_le (by positivity) h1
  obtain ⟨z, i1, i2, -, i3⟩ := round_spec h (y := y) (by
    rw [abs_of_pos hy]
    exact h2.trans_lt (two_pow_lt_range (by norm_num)))
  rw [abs_of_pos hy] at i3
  refine ⟨z, i1, i2, ?_⟩
  rcases i3 with i | ⟨i, -⟩
  · exact i
  · exfalso
    have : (2 : ℝ) ^ (-1022 : ℤ) ≤ 2 ^ (-250 : ℤ) := zpow_le_zpow_right₀ one_le_two (by norm_num)
    have e : (2 : ℝ) ^ (-250 : ℤ) = 1 / 2 ^ 250 := by norm_num [zpow_neg]
    rw [e] at this
    exact absurd (h1.trans_lt i) (not_lt.2 this)

theorem rel_mul {x y z w A B : ℝ} (hx : 0 ≤ x) (hy : 0 ≤ y) (hA : 0 ≤ A) (hz : |z - x| ≤ A * x) (hw : |w - y| ≤ B * y) :
    |z * w - x * y| ≤ (A + B + A * B) * (x * y) := by
  have e : z * w - x * y = (z - x) * y + x * (w - y) + (z - x) * (w - y) := by ring
  rw [e]
  have h1 : |(z - x) * y| ≤ A * x * y := by
    rw [abs_mul, abs_of_nonneg hy]
    gcongr
  have h2 : |x * (w - y)| ≤ x * (B * y) := by
    rw [abs_mul, abs_of_nonneg hx]
    gcongr
  have h3 : |(z - x) * (w - y)| ≤ (A * x) * (B * y) := by
    rw [abs_mul]
    gcongr
  calc _ ≤ |(z - x) * y + x * (w - y)| + |(z - x) * (w - y)| := abs_add_le _ _
    _ ≤ (A * x * y + x * (B * y)) + (A * x) * (B * y) := add_le_add ((abs_add_le _ _).trans (add_le_add h1 h2)) h3
    _ = _ := by ring

/-- A rounded number near `x`. -/
theorem rel_rnd {x y z A : ℝ} (h1 : |y - x| ≤ A * x) (h2 : |z - y| ≤ y / 2 ^ 53) :
    |z - x| ≤ (A + (1 + A) / 2 ^ 53) * x := by
  have e : z - x = (z - y) + (y - x) := by ring
  have h3 := (abs_le.1 h1).2
  rw [e]
  refine (abs_add_le _ _).trans ((add_le_add h2 h1).trans ?_)
  have : y / 2 ^ 53 ≤ (1 + A) * x / 2 ^ 53 := by
    gcongr
    linarith
  calc y / 2 ^ 53 + A * x ≤ (1 + A) * x / 2 ^ 53 + A * x := by linarith
    _ = _ := by ring

theorem rel_sqrt {x z A : ℝ} (hx : 0 < x) (hz : |z - x| ≤ A * x) (hz0 : 0 ≤ z) : |Real.sqrt z - Real.sqrt x| ≤ A * Real.sqrt x := by
  have h1 : 0 < Real.sqrt x := Real.sqrt_pos.2 hx
  have h2 := Real.sqrt_nonneg z
  have e : (Real.sqrt z - Real.sqrt x) * (Real.sqrt z + Real.sqrt x) = z - x := by
    have i1 := Real.mul_self_sqrt hz0
    have i2 := Real.mul_self_sqrt hx.le
    linarith [i1, i2, show (Real.sqrt z - Real.sqrt x) * (Real.sqrt z + Real.sqrt x) =
      Real.sqrt z * Real.sqrt z - Real.sqrt x * Real.sqrt x by ring]
  have h3 : |Real.sqrt z - Real.sqrt x| * (Real.sqrt z + Real.sqrt x) ≤ A * x := by
    rw [← abs_of_nonneg (by linarith : 0 ≤ Real.sqrt z + Real.sqrt x), ← abs_mul, e]
    exact hz
  have h4 : |Real.sqrt z - Real.sqrt x| * Real.sqrt x ≤ A * Real.sqrt x * Real.sqrt x := by
    rw [mul_assoc, Real.mul_self_sqrt hx.le]
    refine le_trans ?_ h3
    exact mul_le_mul_of_nonneg_left (by linarith) (abs_nonneg _)
  exact le_of_mul_le_mul_right h4 h1

theorem rel_quot {s x d y A B τ : ℝ} (hx : 0 ≤ x) (hy : 0 < y) (hB0 : 0 ≤ B) (hB : B ≤ 1 / 2) (hA : 0 ≤ A) (hτ : 0 ≤ τ)
    (hs : |s - x| ≤ A * x + τ) (hd : |d - y| ≤ B * y) :
    |s / d - x / y| ≤ 2 * (A + B) * (x / y) + 2 * τ / y := by
  have hd1 : y / 2 ≤ d := by
    have := (abs_le.1 hd).1
    nlinarith
  have hd0 : 0 < d := by linarith
  have e : s / d - x / y = ((s - x) - x / y * (d - y)) / d := by
    field_simp
    ring
  rw [e, abs_div, abs_of_pos hd0, div_le_iff₀ hd0]
  have hxy : 0 ≤ x / y := by positivity
  have h1 : |(s - x) - x / y * (d - y)| ≤ (A * x + τ) + x / y * (B * y) := by
    refine (abs_sub _ _).trans (add_le_add hs ?_)
    rw [abs_mul, abs_of_nonneg hxy]
    gcongr
  refine h1.trans ?_
  have h2 : (2 * (A + B) * (x / y) + 2 * τ / y) * (y / 2) ≤ (2 * (A + B) * (x / y) + 2 * τ / y) * d := by
    gcongr
  refine le_trans (le_of_eq ?_) h2
  field_simp
  ring

theorem exp_sub_le (u : ℝ) : |Real.exp u - 1| ≤ |u| * Real.exp |u| := by
  have h1 := Real.add_one_le_exp u
  have h2 := Real.add_one_le_exp (-u)
  have h3 := Real.exp_pos u
  have h4 : Real.exp u * Real.exp (-u) = 1 := by rw [← Real.exp_add, add_neg_cancel, Real.exp_zero]
  rcases le_total 0 u with hu | hu
  · rw [abs_of_nonneg hu, abs_of_nonneg (by linarith)]
    nlinarith
  · rw [abs_of_nonpos hu, abs_of_nonpos (by linarith [Real.exp_le_one_iff.2 hu])]
    have h5 : 1 ≤ Real.exp (-u) := Real.one_le_exp (by linarith)
    nlinarith

/-- The exponential forgives relative errors. -/
theorem exp_near {t T ε τ : ℝ} (hT : 0 ≤ T) (hε0 : 0 ≤ ε) (hε : ε ≤ 1 / 2) (hτ0 : 0 ≤ τ) (hτ : τ ≤ 1 / 4)
    (h : |t - T| ≤ ε * T + τ) : |Real.exp (-t) - Real.exp (-T)| ≤ 4 * ε + 2 * τ := by
  have e : Real.exp (-t) - Real.exp (-T) = Real.exp (-T) * (Real.exp (T - t) - 1) := by
    rw [mul_sub, ← Real.exp_add, mul_one]
    ring_nf
  rw [e, abs_mul, abs_of_pos (Real.exp_pos _)]
  have hu : |T - t| ≤ ε * T + τ := by rwa [abs_sub_comm]
  have h1 : |Real.exp (T - t) - 1| ≤ (ε * T + τ) * Real.exp (T / 2 + 1 / 4) := by
    refine (exp_sub_le _).trans ?_
    have : |T - t| ≤ T / 2 + 1 / 4 := hu.trans (by nlinarith)
    exact mul_le_mul hu (Real.exp_le_exp.2 this) (Real.exp_pos _).le (by positivity)
  have h2 : Real.exp (-T) * |Real.exp (T - t) - 1| ≤ Real.exp (-T) * ((ε * T + τ) * Real.exp (T / 2 + 1 / 4)) :=
    mul_le_mul_of_nonneg_left h1 (Real.exp_pos _).le
  refine h2.trans ?_
  have e2 : Real.exp (-T) * ((ε * T + τ) * Real.exp (T / 2 + 1 / 4)) = (ε * T + τ) * Real.exp (-(T / 2)) * Real.exp (1 / 4) := by
    have : Real.exp (-T) * Real.exp (T / 2 + 1 / 4) = Real.exp (-(T / 2)) * Real.exp (1 / 4) := by
      rw [← Real.exp_add, ← Real.exp_add]
      ring_nf
    linear_combination (ε * T + τ) * this
  rw [e2]
  have h3 : T * Real.exp (-(T / 2)) ≤ 2 := by
    have i1 := Real.add_one_le_exp (T / 2)
    have i2 : Real.exp (T / 2) * Real.exp (-(T / 2)) = 1 := by rw [← Real.exp_add, add_neg_cancel, Real.exp_zero]
    have i3 := Real.exp_pos (-(T / 2))
    nlinarith
  have h4 : Real.exp (-(T / 2)) ≤ 1 := Real.exp_le_one_iff.2 (by linarith)
  have h5 : Real.exp (1 / 4) ≤ 2 := by
    have := exp_sub_le (1 / 4)
    rw [abs_of_nonneg (by norm_num : (0 : ℝ) ≤ 1 / 4)] at this
    have := (abs_le.1 this).2
    linarith
  have h6 : (ε * T + τ) * Real.exp (-(T / 2)) ≤ 2 * ε + τ := by
    have i1 := mul_le_mul_of_nonneg_left h3 hε0
    have i2 := mul_le_mul_of_nonneg_left h4 hτ0
    nlinarith
  have h7 : 0 ≤ 2 * ε + τ := by positivity
  calc (ε * T + τ) * Real.exp (-(T / 2)) * Real.exp (1 / 4) ≤ (2 * ε + τ) * 2 :=
        mul_le_mul h6 h5 (Real.exp_pos _).le h7
    _ = _ := by ring

/-- The bell curve has slope at most one. -/
theorem bell_lip (a b : ℝ) : |Real.exp (-(a ^ 2 / 2)) - Real.exp (-(b ^ 2 / 2))| ≤ |a - b| := by
  have hd : ∀ w : ℝ, HasDerivAt (fun w : ℝ => Real.exp (-(w ^ 2 / 2))) (-w * Real.exp (-(w ^ 2 / 2))) w := by
    intro w
    have h1 : HasDerivAt (fun w : ℝ => -(w ^ 2 / 2)) (-w) w := by
      refine HasDerivAt.congr_deriv (((hasDerivAt_pow 2 w).div_const 2).neg) ?_
      norm_num
    exact h1.exp.congr_deriv (by ring)
  have hb : ∀ w ∈ Set.univ, ‖-w * Real.exp (-(w ^ 2 / 2))‖ ≤ (1 : ℝ) := by
    intro w _
    rw [norm_mul, norm_neg, Real.norm_eq_abs, Real.norm_eq_abs, abs_of_pos (Real.exp_pos _)]
    have i1 := Real.add_one_le_exp (w ^ 2 / 2)
    have i2 : Real.exp (w ^ 2 / 2) * Real.exp (-(w ^ 2 / 2)) = 1 := by rw [← Real.exp_add, add_neg_cancel, Real.exp_zero]
    have i3 := Real.exp_pos (-(w ^ 2 / 2))
    have i4 : |w| ≤ w ^ 2 / 2 + 1 := by
      rw [← sq_abs w]
      nlinarith [sq_nonneg (|w| - 1)]
    nlinarith
  have := convex_univ.norm_image_sub_le_of_norm_hasDerivWithin_le (fun w _ => (hd w).hasDerivWithinAt) hb (Set.mem_univ b) (Set.mem_univ a)
  simpa [Real.norm_eq_abs] using this

/-! ## The taper -/

theorem log_ten_le : Real.log 10 ≤ 2.8 := by
  have h1 : Real.log 10 ≤ Real.log (2 ^ 4) := Real.log_le_log (by norm_num) (by norm_num)
  rw [Real.log_pow] at h1
  have := Real.log_two_lt_d9
  push_cast at h1
  linarith

/-- `10 ** (c / 20)` in doubles. -/
theorem taperD_near {rnd : ℝ → Fl} (h : Spec.Rounding rnd) {L : Dbl.LibmP} (hL : Spec.AccurateP L) {c : ℝ} (hc0 : c ≤ 0)
    (hc1 : -100 ≤ c) :
    ∃ C', Dbl.taper rnd L (.fin c) = .fin C' ∧ Spec.IsDouble C' ∧
      |C' - (10 : ℝ) ^ (c / 20)| ≤ 45 / 2 ^ 53 * (10 : ℝ) ^ (c / 20) := by
  obtain ⟨u, hu, hud, hue⟩ := round_rel h (y := c / 20) (by
    rw [abs_of_nonpos (by linarith)]
    refine le_trans (?_ : _ ≤ (5 : ℝ)) ?_
    · linarith
    · exact le_trans (by norm_num : (5 : ℝ) ≤ 2 ^ 3) (two_pow_le (by norm_num)))
  have hτ := tiny_le (show (-1075 : ℤ) ≤ -100 by norm_num)
  have hue' : |u - c / 20| ≤ 6 / 2 ^ 53 := by
    refine hue.trans ?_
    rw [abs_of_nonpos (by linarith : c / 20 ≤ 0)]
    generalize (2 : ℝ) ^ (-1075 : ℤ) = τ at *
    norm_num at hτ ⊢
    linarith
  set δ := u - c / 20 with hδ
  have eu : u = c / 20 + δ := by rw [hδ]; ring
  set C := (10 : ℝ) ^ (c / 20) with hC
  have hC0 : 0 < C := Real.rpow_pos_of_pos (by norm_num) _
  have hC1 : C ≤ 1 := Real.rpow_le_one_of_one_le_of_nonpos (by norm_num) (by linarith)
  have hCl : 1 / 100000 ≤ C := by
    have : (10 : ℝ) ^ (-5 : ℝ) ≤ C := Real.rpow_le_rpow_of_exponent_le (by norm_num) (by linarith)
    refine le_trans (le_of_eq ?_) this
    rw [show (-5 : ℝ) = ((-5 : ℤ) : ℝ) by norm_num, Real.rpow_intCast]
    norm_num [zpow_neg]
  have hl := log_ten_le
  have hl0 : 0 ≤ Real.log 10 := Real.log_nonneg (by norm_num)
  have hld : |Real.log 10 * δ| ≤ 16.8 / 2 ^ 53 := by
    rw [abs_mul, abs_of_nonneg hl0]
    refine (mul_le_mul hl hue' (abs_nonneg _) (by norm_num)).trans (le_of_eq (by norm_num))
  have hU : |(10 : ℝ) ^ u - C| ≤ 34 / 2 ^ 53 * C := by
    have e : (10 : ℝ) ^ u - C = C * (Real.exp (Real.log 10 * δ) - 1) := by
      rw [eu, Real.rpow_add (by norm_num), ← hC, Real.rpow_def_of_pos (by norm_num) δ]
      ring
    rw [e, abs_mul, abs_of_pos hC0, mul_comm]
    refine mul_le_mul_of_nonneg_right ?_ hC0.le
    refine (Real.abs_exp_sub_one_le (hld.trans (by norm_num))).trans ?_
    norm_num at hld ⊢
    linarith
  have hU2 := abs_le.1 hU
  have hUle : (10 : ℝ) ^ u ≤ 2 := by
    have := hU2.2
    norm_num at this
    linarith
  obtain ⟨C', i1, i2, -, i4⟩ := hL.powr 10 u (isDouble_nat (n := 10) (by norm_num)) hud (by norm_num)
    (hUle.trans (by
      refine le_trans (by norm_num : (2 : ℝ) ≤ 2 ^ 1) (two_pow_le (by norm_num))))
  refine ⟨C', ?_, i2, ?_⟩
  · unfold Dbl.taper
    rw [div_fin_rnd rnd c (by norm_num), hu, i1]
  · have hτ2 := tiny_le (show (-1072 : ℤ) ≤ -100 by norm_num)
    have e : C' - C = (C' - (10 : ℝ) ^ u) + ((10 : ℝ) ^ u - C) := by ring
    rw [e]
    refine (abs_add_le _ _).trans ((add_le_add i4 hU).trans ?_)
    have h3 := hU2.2
    generalize (2 : ℝ) ^ (-1072 : ℤ) = τ at *
    generalize (10 : ℝ) ^ u = U at *
    norm_num at h3 hτ2 ⊢
    linarith

theorem taper_range {c : ℝ} (hc0 : c ≤ 0) (hc1 : -100 ≤ c) : 1 / 2 ^ 17 ≤ (10 : ℝ) ^ (c / 20) ∧ (10 : ℝ) ^ (c / 20) ≤ 1 := by
  refine ⟨?_, Real.rpow_le_one_of_one_le_of_nonpos (by norm_num) (by linarith)⟩
  have : (10 : ℝ) ^ (-5 : ℝ) ≤ 10 ^ (c / 20) := Real.rpow_le_rpow_of_exponent_le (by norm_num) (by linarith)
  refine le_trans ?_ this
  rw [show (-5 : ℝ) = ((-5 : ℤ) : ℝ) by norm_num, Real.rpow_intCast]
  norm_num [zpow_neg]

/-- A difference of coordinates. -/
theorem shift_near {rnd : ℝ → Fl} (h : Spec.Rounding rnd) {p x g x0 : ℝ} (h1 : 1 / 2 ^ 90 ≤ p) (h2 : p ≤ 2 ^ 90)
    (hg : |g - x| ≤ 448 * p / 2 ^ 53) (hx : |x| ≤ 64 * p) (hx0 : |x0| ≤ p) :
    ∃ d, Dbl.sub rnd (.fin g) (.fin x0) = .fin d ∧ Spec.IsDouble d ∧ |d| ≤ 70 * p ∧
      (|x| ≤ p → |d - (x - x0)| ≤ 452 * p / 2 ^ 53) := by
  have hp0 : 0 < p := lt_of_lt_of_le (by positivity) h1
  have hgx : |g - x0| ≤ |x| + p + 448 * p / 2 ^ 53 := by
    have e : g - x0 = (g - x) + x - x0 := by ring
    rw [e]
    refine (abs_sub _ _).trans ?_
    have := abs_add_le (g - x) x
    linarith
  have hb : |g - x0| ≤ 2 ^ 900 := by
    refine le_trans (?_ : _ ≤ (2 : ℝ) ^ 7 * 2 ^ 90) ?_
    · norm_num at hgx h2 ⊢
      linarith
    · rw [← pow_add]
      exact two_pow_le (by norm_num)
  obtain ⟨d, i1, i2, i3⟩ := round_rel h hb
  have hτ := tiny_rel (le_trans (by norm_num) h1 : 1 / 2 ^ 100 ≤ p)
  refine ⟨d, by rw [sub_fin_rnd, i1], i2, ?_, ?_⟩
  · have e : |d| ≤ |d - (g - x0)| + |g - x0| := by
      have := abs_add_le (d - (g - x0)) (g - x0)
      rwa [sub_add_cancel] at this
    generalize (2 : ℝ) ^ (-1075 : ℤ) = τ at *
    norm_num at i3 hgx hτ ⊢
    linarith
  · intro hxp
    have e : d - (x - x0) = (d - (g - x0)) + (g - x) := by ring
    rw [e]
    refine (abs_add_le _ _).trans ((add_le_add i3 hg).trans ?_)
    generalize (2 : ℝ) ^ (-1075 : ℤ) = τ at *
    norm_num at hgx hτ ⊢
    linarith

/-! ## The Gaussian illumination -/

theorem gaussAmp_near {rnd : ℝ → Fl} (h : Spec.Rounding rnd) {L : Dbl.LibmP} (hL : Spec.AccurateP L) {σ σ' : ℝ}
    (h1 : 1 / 2 ^ 17 ≤ σ) (h2 : σ ≤ 1) (hd : Spec.IsDouble σ') (hσ : |σ' - σ| ≤ 45 / 2 ^ 53 * σ) :
    ∃ S, Dbl.sqrt rnd (Dbl.mul rnd (Dbl.mul rnd (.fin 2) (rnd Real.pi)) (L.powr (.fin σ') (.fin 2))) = .fin S ∧
      |S - Real.sqrt (2 * Real.pi * σ ^ 2)| ≤ 110 / 2 ^ 53 * Real.sqrt (2 * Real.pi * σ ^ 2) := by
  have hσ0 : 0 < σ := lt_of_lt_of_le (by positivity) h1
  have hπ1 := Real.pi_gt_three
  have hπ2 := Real.pi_lt_d2
  obtain ⟨π', a1, -, a2⟩ := round_pos h (y := Real.pi) (by norm_num; linarith) (by norm_num; linarith)
  have a3 := abs_le.1 a2
  have a4 : 2.9 ≤ π' ∧ π' ≤ 3.2 := by
    norm_num at a3
    constructor <;> linarith [a3.1, a3.2]
  obtain ⟨T, b1, -, b2⟩ := round_pos h (y := 2 * π') (by norm_num; linarith) (by norm_num; linarith)
  have b3 : |T - 2 * Real.pi| ≤ 3 / 2 ^ 53 * (2 * Real.pi) := by
    have : |2 * π' - 2 * Real.pi| ≤ 1 / 2 ^ 53 * (2 * Real.pi) := by
      rw [← mul_sub, abs_mul, abs_of_pos (by norm_num : (0 : ℝ) < 2)]
      linarith
    refine (rel_rnd this b2).trans ?_
    have : (0 : ℝ) < 2 * Real.pi := by positivity
    gcongr
    norm_num
  have hσ2 := abs_le.1 hσ
  have hσu : 0 ≤ σ' ∧ σ' ≤ 2 := by
    norm_num at hσ2
    constructor <;> linarith [hσ2.1, hσ2.2]
  obtain ⟨P, c1, -, c2⟩ := hL.powr_int σ' 2 hd (.inr rfl) (by
    rw [abs_of_nonneg hσu.1]
    exact hσu.2.trans (by norm_num))
  have c3 : |P - σ ^ 2| ≤ 100 / 2 ^ 53 * σ ^ 2 := by
    have i1 := rel_mul hσ0.le hσ0.le (by norm_num) hσ hσ
    have hτ := tiny_le (show (-1072 : ℤ) ≤ -100 by norm_num)
    have i2 : (1 / 2 ^ 17 : ℝ) ^ 2 ≤ σ ^ 2 := by gcongr
    have e : P - σ ^ 2 = (P - σ' ^ 2) + (σ' * σ' - σ * σ) := by ring
    rw [e]
    refine (abs_add_le _ _).trans ((add_le_add c2 i1).trans ?_)
    have i3 : |σ'| ^ 2 = σ' * σ' := by rw [sq_abs, sq]
    have i4 := (abs_le.1 i1).2
    rw [i3, ← sq]
    rw [← sq σ] at i4 ⊢
    generalize (2 : ℝ) ^ (-1072 : ℤ) = τ at *
    generalize σ ^ 2 = Q at *
    rw [← sq σ'] at i4
    generalize σ' ^ 2 = Q' at *
    norm_num at i2 i4 hτ ⊢
    linarith
  have hX : 0 < 2 * Real.pi * σ ^ 2 := by positivity
  have hXl : 1 / 2 ^ 34 ≤ 2 * Real.pi * σ ^ 2 := by
    have i2 : (1 / 2 ^ 17 : ℝ) ^ 2 ≤ σ ^ 2 := by gcongr
    have i3 : 1 * (1 / 2 ^ 17 : ℝ) ^ 2 ≤ (2 * Real.pi) * σ ^ 2 := mul_le_mul (by linarith) i2 (by positivity) (by positivity)
    refine le_trans (by norm_num) i3
  have hXu : 2 * Real.pi * σ ^ 2 ≤ 2 ^ 3 := by
    have i2 : σ ^ 2 ≤ 1 := pow_le_one₀ hσ0.le h2
    have : (2 * Real.pi) * σ ^ 2 ≤ (2 * 3.15) * 1 := mul_le_mul (by linarith) i2 (by positivity) (by norm_num)
    norm_num at this ⊢
    linarith
  have d1 := rel_mul (by positivity : 0 ≤ 2 * Real.pi) (by positivity : 0 ≤ σ ^ 2) (by norm_num) b3 c3
  set X := 2 * Real.pi * σ ^ 2 with hXd
  have d2 := abs_le.1 d1
  obtain ⟨Q, e1, -, e2⟩ := round_pos h (y := T * P) (by norm_num at d2 hXl ⊢; linarith [d2.1])
    (by norm_num at d2 hXu ⊢; linarith [d2.2])
  have e3 : |Q - X| ≤ 106 / 2 ^ 53 * X := by
    refine (rel_rnd d1 e2).trans ?_
    gcongr
    norm_num
  have e4 := abs_le.1 e3
  have hQ0 : 0 ≤ Q := by
    norm_num at e4
    linarith [e4.1]
  have f1 := rel_sqrt hX e3 hQ0
  have hs1 : 1 / 2 ^ 17 ≤ Real.sqrt X := by
    refine Real.le_sqrt_of_sq_le ?_
    refine le_trans (by norm_num) hXl
  have hs2 : Real.sqrt X ≤ 3 := by
    refine Real.sqrt_le_iff.2 ⟨by norm_num, ?_⟩
    linarith
  have f2 := abs_le.1 f1
  obtain ⟨S, g1, -, g2⟩ := round_pos h (y := Real.sqrt Q) (by norm_num at f2 hs1 ⊢; linarith [f2.1])
    (by norm_num at f2 ⊢; linarith [f2.2])
  refine ⟨S, ?_, ?_⟩
  · rw [show (2 : ℝ) = ((2 : ℕ) : ℝ) by norm_num, c1]
    push_cast
    rw [a1, mul_fin_rnd, b1, mul_fin_rnd, e1]
    unfold Dbl.sqrt
    rw [show Fl.sqrt (.fin Q) = .fin (Real.sqrt Q) from if_neg (not_lt.2 hQ0), Dbl.rop, g1]
  · refine (rel_rnd f1 g2).trans ?_
    gcongr
    norm_num

theorem gaussDen_near {rnd : ℝ → Fl} (h : Spec.Rounding rnd) {σ σ' p : ℝ} (h1 : 1 / 2 ^ 17 ≤ σ) (h2 : σ ≤ 1)
    (hσ : |σ' - σ| ≤ 45 / 2 ^ 53 * σ) (hp1 : 1 / 2 ^ 90 ≤ p) (hp2 : p ≤ 2 ^ 90) :
    ∃ sp den, Dbl.mul rnd (.fin σ') (.fin p) = .fin sp ∧
      Dbl.mul rnd (.fin 2) (Dbl.mul rnd (.fin sp) (.fin sp)) = .fin den ∧
      |den - 2 * (σ * p) ^ 2| ≤ 100 / 2 ^ 53 * (2 * (σ * p) ^ 2) := by
  have hσ0 : 0 < σ := lt_of_lt_of_le (by positivity) h1
  have hp0 : 0 < p := lt_of_lt_of_le (by positivity) hp1
  set m := σ * p with hm
  have hm0 : 0 < m := by positivity
  have hm1 : 1 / 2 ^ 107 ≤ m := by
    have : (1 / 2 ^ 17 : ℝ) * (1 / 2 ^ 90) ≤ σ * p := mul_le_mul h1 hp1 (by positivity) hσ0.le
    refine le_trans (by norm_num) this
  have hm2 : m ≤ 2 ^ 90 := by
    have : σ * p ≤ 1 * 2 ^ 90 := mul_le_mul h2 hp2 hp0.le (by norm_num)
    linarith
  have a1 : |σ' * p - m| ≤ 45 / 2 ^ 53 * m := by
    rw [hm, ← sub_mul, abs_mul, abs_of_pos hp0, ← mul_assoc]
    gcongr
  have a2 := abs_le.1 a1
  obtain ⟨sp, b1, -, b2⟩ := round_pos h (y := σ' * p) (by norm_num at a2 hm1 ⊢; linarith [a2.1])
    (by norm_num at a2 hm2 ⊢; linarith [a2.2])
  have b3 : |sp - m| ≤ 47 / 2 ^ 53 * m := by
    refine (rel_rnd a1 b2).trans ?_
    gcongr
    norm_num
  have c1 := rel_mul hm0.le hm0.le (by norm_num) b3 b3
  have c2 := abs_le.1 c1
  have hq1 : 1 / 2 ^ 214 ≤ m * m := by
    have := mul_le_mul hm1 hm1 (by positivity) hm0.le
    refine le_trans (by norm_num) this
  have hq2 : m * m ≤ 2 ^ 180 := by
    have := mul_le_mul hm2 hm2 hm0.le (by positivity)
    refine this.trans (by norm_num)
  have hq0 : 0 < m * m := by positivity
  obtain ⟨w, d1, -, d2⟩ := round_pos h (y := sp * sp) (by norm_num at c2 hq1 ⊢; linarith [c2.1])
    (by norm_num at c2 hq2 ⊢; linarith [c2.2])
  have d3 : |w - m * m| ≤ 97 / 2 ^ 53 * (m * m) := by
    refine (rel_rnd c1 d2).trans ?_
    gcongr
    norm_num
  have e1 : |2 * w - 2 * (m * m)| ≤ 97 / 2 ^ 53 * (2 * (m * m)) := by
    rw [← mul_sub, abs_mul, abs_of_pos (by norm_num : (0 : ℝ) < 2)]
    linarith
  have e2 := abs_le.1 e1
  obtain ⟨den, f1, -, f2⟩ := round_pos h (y := 2 * w) (by norm_num at e2 hq1 ⊢; linarith [e2.1])
    (by norm_num at e2 hq2 ⊢; linarith [e2.2])
  refine ⟨sp, den, by rw [mul_fin_rnd, b1], by rw [mul_fin_rnd, d1, mul_fin_rnd, f1], ?_⟩
  rw [sq]
  refine (rel_rnd e1 f2).trans ?_
  gcongr
  norm_num

/-- The exponential of the Gaussian illumination at displaced doubles. -/
theorem gaussExp_near {rnd : ℝ → Fl} (h : Spec.Rounding rnd) {L : Dbl.LibmP} (hL : Spec.AccurateP L) {m den dx dy p : ℝ}
    (hm1 : 1 / 2 ^ 107 ≤ m) (hden : |den - 2 * m ^ 2| ≤ 100 / 2 ^ 53 * (2 * m ^ 2)) (hp2 : p ≤ 2 ^ 90)
    (hx : |dx| ≤ 70 * p) (hy : |dy| ≤ 70 * p) :
    ∃ t E, Dbl.div rnd (Fl.neg (Dbl.sumSq rnd (.fin dx) (.fin dy))) (.fin den) = .fin t ∧ L.exp (.fin t) = .fin E ∧ 0 ≤ E ∧
      |E - Real.exp (-((Real.sqrt (dx ^ 2 + dy ^ 2) / m) ^ 2 / 2))| ≤ 850 / 2 ^ 53 := by
  have hm0 : 0 < m := lt_of_lt_of_le (by positivity) hm1
  obtain ⟨s, s1, -, s2, s3⟩ := sumSq_near h (B := 70 * p) (by
    refine (mul_le_mul_of_nonneg_left hp2 (by norm_num)).trans (le_trans ?_ (two_pow_le (show 100 ≤ 300 by norm_num)))
    norm_num) hx hy
  set N := dx ^ 2 + dy ^ 2 with hN
  have hN0 : 0 ≤ N := by positivity
  have hy0 : 0 < 2 * m ^ 2 := by positivity
  have hm2 : 1 / 2 ^ 214 ≤ m ^ 2 := by
    have : (1 / 2 ^ 107 : ℝ) ^ 2 ≤ m ^ 2 := by gcongr
    refine le_trans (by norm_num) this
  have q1 := rel_quot (A := 3 / 2 ^ 53) (B := 100 / 2 ^ 53) (τ := 4 * 2 ^ (-1075 : ℤ)) hN0 hy0 (by norm_num) (by norm_num)
    (by norm_num) (by positivity) (s3.trans (le_of_eq (by ring))) hden
  set T := N / (2 * m ^ 2) with hT
  have hT0 : 0 ≤ T := by positivity
  have hden2 := abs_le.1 hden
  have hden1 : m ^ 2 ≤ den := by
    norm_num at hden2
    linarith [hden2.1]
  have hden0 : 0 < den := lt_of_lt_of_le (by positivity) hden1
  have hτ1 : 2 * (4 * 2 ^ (-1075 : ℤ)) / (2 * m ^ 2) ≤ (1 : ℝ) / 2 ^ 100 := by
    rw [div_le_iff₀ hy0]
    have k1 : (2 : ℝ) ^ (-1075 : ℤ) ≤ 2 ^ (-400 : ℤ) := zpow_le_zpow_right₀ one_le_two (by norm_num)
    have k2 : (2 : ℝ) ^ (-400 : ℤ) = 1 / 2 ^ 200 * (1 / 2 ^ 200) := by
      rw [show (-400 : ℤ) = -200 + -200 by norm_num, zpow_add₀ two_ne_zero]
      norm_num [zpow_neg]
    have k3 : 2 * (4 * (1 / 2 ^ 200 * (1 / 2 ^ 200))) ≤ (1 : ℝ) / 2 ^ 100 * (2 * (1 / 2 ^ 214)) := by norm_num
    have k4 : (1 : ℝ) / 2 ^ 100 * (2 * (1 / 2 ^ 214)) ≤ 1 / 2 ^ 100 * (2 * m ^ 2) := by gcongr
    refine le_trans ?_ (k3.trans k4)
    rw [← k2]
    gcongr
  have q2 : |s / den - T| ≤ 206 / 2 ^ 53 * T + 1 / 2 ^ 100 := by
    refine q1.trans (add_le_add (le_of_eq ?_) hτ1)
    ring
  have hTu : T ≤ 2 ^ 600 := by
    rw [hT, div_le_iff₀ hy0]
    have k1 : N ≤ 2 * (70 * p) ^ 2 := by
      have := sq_le_sq' (abs_le.1 hx).1 (abs_le.1 hx).2
      have := sq_le_sq' (abs_le.1 hy).1 (abs_le.1 hy).2
      linarith
    have hp0 : 0 ≤ 70 * p := (abs_nonneg _).trans hx
    have k2 : (70 * p) ^ 2 ≤ (70 * 2 ^ 90) ^ 2 := by gcongr
    have k3 : (2 : ℝ) * (70 * 2 ^ 90) ^ 2 ≤ 2 ^ 200 := by norm_num
    have k4 : (2 : ℝ) ^ 200 ≤ 2 ^ 600 * (2 * (1 / 2 ^ 214)) := by
      rw [show (600 : ℕ) = 386 + 214 by norm_num, pow_add, show (2 : ℝ) ^ 386 * 2 ^ 214 * (2 * (1 / 2 ^ 214)) = 2 ^ 386 * 2 by
        field_simp]
      have := two_pow_le (show 200 ≤ 386 by norm_num)
      have h0 : (0 : ℝ) < 2 ^ 386 := by positivity
      generalize (2 : ℝ) ^ 386 = A at *
      linarith
    have k5 : (2 : ℝ) ^ 600 * (2 * (1 / 2 ^ 214)) ≤ 2 ^ 600 * (2 * m ^ 2) := by gcongr
    calc N ≤ 2 * (70 * p) ^ 2 := k1
      _ ≤ 2 * (70 * 2 ^ 90) ^ 2 := by gcongr
      _ ≤ _ := k3.trans (k4.trans k5)
  have hsd0 : 0 ≤ s / den := by positivity
  have q3 := (abs_le.1 q2).2
  have hsd : s / den ≤ 2 ^ 900 := by
    refine le_trans (?_ : _ ≤ (2 : ℝ) ^ 602) (two_pow_le (by norm_num))
    rw [show (602 : ℕ) = 600 + 2 by norm_num, pow_add]
    have h1 : (1 : ℝ) ≤ 2 ^ 600 := one_le_pow₀ one_le_two
    clear q1 hτ1 s3
    generalize (2 : ℝ) ^ 600 = A at *
    norm_num at q3 ⊢
    linarith
  obtain ⟨t, t1, t2, t3⟩ := round_rel h (y := -(s / den)) (by rw [abs_neg, abs_of_nonneg hsd0]; exact hsd)
  rw [abs_neg, abs_of_nonneg hsd0] at t3
  have ht0 : t ≤ 0 := by
    refine round_mono h (x := -(s / den)) (y := 0) (by linarith) ?_ ?_ t1 (rnd_zero h)
    · rw [abs_neg, abs_of_nonneg hsd0]
      exact hsd.trans_lt (two_pow_lt_range (by norm_num))
    · rw [abs_zero]
      exact lt_of_le_of_lt (by norm_num) (two_pow_lt_range (k := 1) (by norm_num))
  have hτ2 := tiny_le (show (-1075 : ℤ) ≤ -100 by norm_num)
  have q4 : |-t - T| ≤ 208 / 2 ^ 53 * T + 1 / 2 ^ 98 := by
    have e : -t - T = -(t - -(s / den)) + (s / den - T) := by ring
    rw [e]
    refine (abs_add_le _ _).trans ?_
    rw [abs_neg]
    refine (add_le_add t3 q2).trans ?_
    clear q1 hτ1 s3 hTu hsd
    generalize (2 : ℝ) ^ (-1075 : ℤ) = τ at *
    norm_num at q3 hτ2 ⊢
    linarith
  obtain ⟨E, u1, -, u2, u3⟩ := hL.exp t t2 ht0
  have v1 := exp_near hT0 (by norm_num) (by norm_num) (by norm_num) (by norm_num) q4
  rw [neg_neg] at v1
  have hwT : (Real.sqrt N / m) ^ 2 / 2 = T := by
    rw [div_pow, Real.sq_sqrt hN0, hT]
    field_simp
  rw [hwT]
  refine ⟨t, E, ?_, u1, u2, ?_⟩
  · rw [s1]
    show Dbl.div rnd (.fin (-s)) (.fin den) = _
    rw [div_fin_rnd rnd _ hden0.ne', neg_div, t1]
  · have hexp : Real.exp t ≤ 1 := Real.exp_le_one_iff.2 ht0
    have hτ3 := tiny_le (show (-1072 : ℤ) ≤ -100 by norm_num)
    have e : E - Real.exp (-T) = (E - Real.exp t) + (Real.exp t - Real.exp (-T)) := by ring
    rw [e]
    refine (abs_add_le _ _).trans ((add_le_add u3 v1).trans ?_)
    clear q1 hτ1 s3 hTu hsd
    generalize (2 : ℝ) ^ (-1072 : ℤ) = τ at *
    norm_num at hτ3 ⊢
    linarith

theorem gaussAt_eq (i c x0 y0 p x y : ℝ) (hc0 : c ≤ 0) (hc1 : -100 ≤ c) (hp : 0 < p) :
    Aperture.gaussAt i (.bare c) (.bare x0) (.bare y0) p x y =
      i * (Real.sqrt (2 * Real.pi * ((10 : ℝ) ^ (c / 20)) ^ 2) *
        Real.exp (-((Real.sqrt ((x - x0) ^ 2 + (y - y0) ^ 2) / ((10 : ℝ) ^ (c / 20) * p)) ^ 2 / 2))) := by
  have h0 := (taper_range hc0 hc1).1
  have hC : (0 : ℝ) < 10 ^ (c / 20) := lt_of_lt_of_le (by positivity) h0
  unfold Aperture.gaussAt
  simp only [Aperture.taper, Aperture.offset]
  rw [mul_assoc]
  congr 3
  rw [div_pow, Real.sq_sqrt (by positivity)]
  field_simp

/-- The Gaussian illumination in doubles. -/
theorem gaussD_near {rnd : ℝ → Fl} (h : Spec.Rounding rnd) {L : Dbl.LibmP} (hL : Spec.AccurateP L) {p i c x0 y0 x y g k : ℝ}
    (h1 : 1 / 2 ^ 90 ≤ p) (h2 : p ≤ 2 ^ 90) (hi : |i| ≤ 2 ^ 200) (hc0 : c ≤ 0) (hc1 : -100 ≤ c)
    (hx0 : |x0| ≤ p) (hy0 : |y0| ≤ p) (hg : |g - x| ≤ 448 * p / 2 ^ 53) (hk : |k - y| ≤ 448 * p / 2 ^ 53)
    (hx : |x| ≤ 64 * p) (hy : |y| ≤ 64 * p) :
    ∃ e, Dbl.gaussAt rnd L (.fin i) (.fin c) (.fin x0) (.fin y0) (.fin p) (.fin g) (.fin k) = .fin e ∧ Spec.IsDouble e ∧
      |e| ≤ 2 ^ 300 ∧ (|x| ≤ p → |y| ≤ p →
        |e - Aperture.gaussAt i (.bare c) (.bare x0) (.bare y0) p x y| ≤ |i| / 2 ^ 40 + 2 ^ (-1073 : ℤ)) := by
  have hp0 : 0 < p := lt_of_lt_of_le (by positivity) h1
  obtain ⟨σ', a1, a2, a3⟩ := taperD_near h hL hc0 hc1
  obtain ⟨b1, b2⟩ := taper_range hc0 hc1
  rw [gaussAt_eq i c x0 y0 p x y hc0 hc1 hp0]
  set σ := (10 : ℝ) ^ (c / 20) with hσ
  have hσ0 : 0 < σ := lt_of_lt_of_le (by positivity) b1
  obtain ⟨S', c1, c2⟩ := gaussAmp_near h hL b1 b2 a2 a3
  obtain ⟨sp, den, d1, d2, d3⟩ := gaussDen_near h b1 b2 a3 h1 h2
  obtain ⟨dx, e1, -, e2, e3⟩ := shift_near h h1 h2 hg hx hx0
  obtain ⟨dy, f1, -, f2, f3⟩ := shift_near h h1 h2 hk hy hy0
  have hm1 : 1 / 2 ^ 107 ≤ σ * p := by
    have : (1 / 2 ^ 17 : ℝ) * (1 / 2 ^ 90) ≤ σ * p := mul_le_mul b1 h1 (by positivity) hσ0.le
    refine le_trans (by norm_num) this
  have hm0 : 0 < σ * p := by positivity
  obtain ⟨t, E', g1, g2, g3, g4⟩ := gaussExp_near h hL hm1 d3 h2 e2 f2
  set S := Real.sqrt (2 * Real.pi * σ ^ 2) with hS
  have hS3 : S ≤ 3 * σ := by
    refine Real.sqrt_le_iff.2 ⟨by positivity, ?_⟩
    have := Real.pi_lt_d2
    have h0 : 0 < σ ^ 2 := by positivity
    nlinarith
  have hS0 : 0 ≤ S := Real.sqrt_nonneg _
  have hE1 : E' ≤ 1.01 := by
    have i1 := (abs_le.1 g4).2
    have i2 : Real.exp (-((Real.sqrt (dx ^ 2 + dy ^ 2) / (σ * p)) ^ 2 / 2)) ≤ 1 := Real.exp_le_one_iff.2 (by
      have : 0 ≤ (Real.sqrt (dx ^ 2 + dy ^ 2) / (σ * p)) ^ 2 / 2 := by positivity
      linarith)
    norm_num at i1
    linarith
  have hS'b : 0 ≤ S' ∧ S' ≤ 3.01 := by
    have i := abs_le.1 c2
    norm_num at i
    constructor <;> linarith [i.1, i.2]
  have hτ := tiny_le (show (-1075 : ℤ) ≤ -100 by norm_num)
  have hiS : |i * S'| ≤ 3.01 * |i| := by
    rw [abs_mul, abs_of_nonneg hS'b.1, mul_comm]
    exact mul_le_mul_of_nonneg_right hS'b.2 (abs_nonneg i)
  have hi0 := abs_nonneg i
  obtain ⟨am, k1, -, k3⟩ := round_rel h (y := i * S') (by
    refine hiS.trans (le_trans ?_ (two_pow_le (show 202 ≤ 900 by norm_num)))
    norm_num at hi ⊢
    linarith)
  have ham : |am| ≤ 3.02 * |i| + 2 ^ (-1075 : ℤ) := by
    have e : |am| ≤ |am - i * S'| + |i * S'| := by
      have := abs_add_le (am - i * S') (i * S')
      rwa [sub_add_cancel] at this
    generalize (2 : ℝ) ^ (-1075 : ℤ) = τ at *
    generalize |i * S'| = Q at *
    norm_num at k3 hiS ⊢
    linarith
  have hamE : |am * E'| ≤ 3.06 * |i| + 1.01 * 2 ^ (-1075 : ℤ) := by
    rw [abs_mul, abs_of_nonneg g3]
    have h0 : (0 : ℝ) < 2 ^ (-1075 : ℤ) := by positivity
    have := mul_le_mul ham hE1 g3 (by positivity)
    generalize (2 : ℝ) ^ (-1075 : ℤ) = τ at *
    linarith
  have hamb : |am * E'| ≤ 2 ^ 203 := by
    refine hamE.trans ?_
    generalize (2 : ℝ) ^ (-1075 : ℤ) = τ at *
    norm_num at hi hτ ⊢
    linarith
  obtain ⟨e, m1, m2, m3⟩ := round_rel h (hamb.trans (two_pow_le (show 203 ≤ 900 by norm_num)))
  refine ⟨e, ?_, m2, ?_, ?_⟩
  · unfold Dbl.gaussAt
    simp only [a1, c1, d1, d2, e1, f1, g1, g2]
    rw [mul_fin_rnd, k1, mul_fin_rnd, m1]
  · have e5 : |e| ≤ |e - am * E'| + |am * E'| := by
      have := abs_add_le (e - am * E') (am * E')
      rwa [sub_add_cancel] at this
    refine le_trans ?_ (two_pow_le (show 205 ≤ 300 by norm_num))
    generalize (2 : ℝ) ^ (-1075 : ℤ) = τ at *
    generalize |am * E'| = Q at *
    norm_num at m3 hamb hτ ⊢
    linarith
  · intro hxp hyp
    have n1 := bell_lip (Real.sqrt (dx ^ 2 + dy ^ 2) / (σ * p)) (Real.sqrt ((x - x0) ^ 2 + (y - y0) ^ 2) / (σ * p))
    set A := Real.exp (-((Real.sqrt (dx ^ 2 + dy ^ 2) / (σ * p)) ^ 2 / 2)) with hA
    set E := Real.exp (-((Real.sqrt ((x - x0) ^ 2 + (y - y0) ^ 2) / (σ * p)) ^ 2 / 2)) with hE
    have n2 : |A - E| ≤ 904 / 2 ^ 53 / σ := by
      refine n1.trans ?_
      rw [← sub_div, abs_div, abs_of_pos hm0, div_le_iff₀ hm0]
      have i1 := rad_lip (x - x0) (y - y0) dx dy
      have i2 := e3 hxp
      have i3 := f3 hyp
      have e6 : 904 / 2 ^ 53 / σ * (σ * p) = 904 * p / 2 ^ 53 := by field_simp
      rw [e6]
      linarith
    have hE01 : 0 ≤ E := (Real.exp_pos _).le
    have n3 : |E' - E| ≤ 850 / 2 ^ 53 + 904 / 2 ^ 53 / σ := by
      have e7 : E' - E = (E' - A) + (A - E) := by ring
      rw [e7]
      exact (abs_add_le _ _).trans (add_le_add g4 n2)
    have n4 : |S' * E' - S * E| ≤ 5700 / 2 ^ 53 := by
      have e8 : S' * E' - S * E = (S' - S) * E' + S * (E' - E) := by ring
      rw [e8]
      have j1 : |(S' - S) * E'| ≤ 110 / 2 ^ 53 * 3 * 1.01 := by
        rw [abs_mul, abs_of_nonneg g3]
        refine mul_le_mul (c2.trans ?_) hE1 g3 (by norm_num)
        gcongr
        linarith
      have j2 : |S * (E' - E)| ≤ 3 * σ * (850 / 2 ^ 53 + 904 / 2 ^ 53 / σ) := by
        rw [abs_mul, abs_of_nonneg hS0]
        exact mul_le_mul hS3 n3 (abs_nonneg _) (by positivity)
      have j3 : 3 * σ * (850 / 2 ^ 53 + 904 / 2 ^ 53 / σ) = (2550 * σ + 2712) / 2 ^ 53 := by
        field_simp
        ring
      rw [j3] at j2
      refine (abs_add_le _ _).trans ((add_le_add j1 j2).trans ?_)
      norm_num
      linarith
    have n5 : |i * (S' * E') - i * (S * E)| ≤ |i| * (5700 / 2 ^ 53) := by
      rw [← mul_sub, abs_mul]
      exact mul_le_mul_of_nonneg_left n4 hi0
    have n6 : |(am - i * S') * E'| ≤ (3.01 * |i| / 2 ^ 53 + 2 ^ (-1075 : ℤ)) * 1.01 := by
      rw [abs_mul, abs_of_nonneg g3]
      refine mul_le_mul (k3.trans ?_) hE1 g3 (by positivity)
      gcongr
    have hT : (2 : ℝ) ^ (-1073 : ℤ) = 4 * 2 ^ (-1075 : ℤ) := by
      rw [show (-1073 : ℤ) = 2 + -1075 by norm_num, zpow_add₀ two_ne_zero]
      norm_num
    have e9 : e - i * (S * E) = (e - am * E') + ((am - i * S') * E' + (i * (S' * E') - i * (S * E))) := by ring
    rw [e9, hT]
    refine (abs_add_le _ _).trans ((add_le_add m3 ((abs_add_le _ _).trans (add_le_add n6 n5))).trans ?_)
    have h0 : (0 : ℝ) < 2 ^ (-1075 : ℤ) := by positivity
    generalize (2 : ℝ) ^ (-1075 : ℤ) = τ at *
    generalize |am * E'| = Q at *
    norm_num at hamE ⊢
    linarith

/-! ## The parabolic illumination -/

/-- The base of the power in the parabolic taper. -/
theorem parabolicBase_near {rnd : ℝ → Fl} (h : Spec.Rounding rnd) {p x0 y0 x y g k : ℝ}
    (h1 : 1 / 2 ^ 90 ≤ p) (h2 : p ≤ 2 ^ 90) (hx0 : |x0| ≤ p) (hy0 : |y0| ≤ p) (hg : |g - x| ≤ 448 * p / 2 ^ 53)
    (hk : |k - y| ≤ 448 * p / 2 ^ 53) (hx : |x| ≤ 64 * p) (hy : |y| ≤ 64 * p) :
    ∃ rho b, Dbl.div rnd (Dbl.sqrt rnd (Dbl.sumSq rnd (Dbl.sub rnd (.fin g) (.fin x0)) (Dbl.sub rnd (.fin k) (.fin y0))))
        (.fin p) = .fin rho ∧ Dbl.sub rnd (.fin 1) (Dbl.mul rnd (.fin rho) (.fin rho)) = .fin b ∧ Spec.IsDouble b ∧
      b ≤ 1 ∧ |b| ≤ 2 ^ 20 ∧ (|x| ≤ p → |y| ≤ p →
        |b - (1 - (Real.sqrt ((x - x0) ^ 2 + (y - y0) ^ 2) / p) ^ 2)| ≤ 6000 / 2 ^ 53 ∧
        Real.sqrt ((x - x0) ^ 2 + (y - y0) ^ 2) / p ≤ 2.83) := by
  have hp0 : 0 < p := lt_of_lt_of_le (by positivity) h1
  obtain ⟨dx, e1, -, e2, e3⟩ := shift_near h h1 h2 hg hx hx0
  obtain ⟨dy, f1, -, f2, f3⟩ := shift_near h h1 h2 hk hy hy0
  have hB : 70 * p ≤ 2 ^ 250 := by
    refine (mul_le_mul_of_nonneg_left h2 (by norm_num)).trans ?_
    norm_num
  obtain ⟨r', r1, -, r2, r3⟩ := radD_near h hB e2 f2
  have hκ : (2 : ℝ) ^ (-534 : ℤ) ≤ p / 2 ^ 100 := by
    have k1 : (2 : ℝ) ^ (-534 : ℤ) ≤ 2 ^ (-200 : ℤ) := zpow_le_zpow_right₀ one_le_two (by norm_num)
    have k2 : (2 : ℝ) ^ (-200 : ℤ) = 1 / 2 ^ 200 := by norm_num [zpow_neg]
    rw [k2] at k1
    refine k1.trans ?_
    rw [le_div_iff₀ (by positivity)]
    refine le_trans ?_ h1
    norm_num
  set r := Real.sqrt (dx ^ 2 + dy ^ 2) with hr
  have hr0 : 0 ≤ r := Real.sqrt_nonneg _
  have hrb : r ≤ 99 * p := by
    refine Real.sqrt_le_iff.2 ⟨by positivity, ?_⟩
    have := sq_le_sq' (abs_le.1 e2).1 (abs_le.1 e2).2
    have := sq_le_sq' (abs_le.1 f2).1 (abs_le.1 f2).2
    have h0 : 0 < p ^ 2 := by positivity
    nlinarith
  have hr'b : r' ≤ 100 * p := by
    have := (abs_le.1 r3).2
    generalize (2 : ℝ) ^ (-534 : ℤ) = κ at *
    norm_num at this hκ
    linarith
  have hq0 : 0 ≤ r' / p := by positivity
  have hq1 : r' / p ≤ 100 := by rwa [div_le_iff₀ hp0]
  have hτ := tiny_le (show (-1075 : ℤ) ≤ -100 by norm_num)
  obtain ⟨rho, s1, -, s3⟩ := round_rel h (y := r' / p) (by
    rw [abs_of_nonneg hq0]
    refine hq1.trans (le_trans (by norm_num : (100 : ℝ) ≤ 2 ^ 7) (two_pow_le (by norm_num))))
  rw [abs_of_nonneg hq0] at s3
  have hrho : |rho| ≤ 101 := by
    have := abs_le.1 s3
    rw [abs_le]
    generalize (2 : ℝ) ^ (-1075 : ℤ) = τ at *
    norm_num at this hτ
    constructor <;> linarith [this.1, this.2]
  have hrr : |rho * rho| ≤ 10201 := by
    rw [abs_mul]
    exact (mul_le_mul hrho hrho (abs_nonneg _) (by norm_num)).trans (le_of_eq (by norm_num))
  obtain ⟨m, t1, -, t3⟩ := round_rel h (y := rho * rho) (hrr.trans
    (le_trans (by norm_num : (10201 : ℝ) ≤ 2 ^ 14) (two_pow_le (by norm_num))))
  have hm0 : 0 ≤ m := by
    refine round_mono h (x := 0) (y := rho * rho) (mul_self_nonneg _) ?_ ?_ (rnd_zero h) t1
    · rw [abs_zero]
      exact lt_of_le_of_lt (by norm_num) (two_pow_lt_range (k := 1) (by norm_num))
    · exact lt_of_le_of_lt (hrr.trans (by norm_num : (10201 : ℝ) ≤ 2 ^ 14)) (two_pow_lt_range (by norm_num))
  have hmb : m ≤ 10300 := by
    have := (abs_le.1 t3).2
    have i := le_abs_self (rho * rho)
    generalize (2 : ℝ) ^ (-1075 : ℤ) = τ at *
    generalize |rho * rho| = Q at *
    norm_num at this hτ
    linarith
  have h1m : |1 - m| ≤ 10300 := by
    rw [abs_le]
    constructor <;> linarith
  obtain ⟨b, u1, u2, u3⟩ := round_rel h (y := 1 - m) (h1m.trans
    (le_trans (by norm_num : (10300 : ℝ) ≤ 2 ^ 14) (two_pow_le (by norm_num))))
  refine ⟨rho, b, ?_, ?_, u2, ?_, ?_, ?_⟩
  · rw [e1, f1, r1, div_fin_rnd rnd _ hp0.ne', s1]
  · rw [mul_fin_rnd, t1, sub_fin_rnd, u1]
  · refine round_mono h (x := 1 - m) (y := 1) (by linarith) ?_ ?_ u1 (round_self h isDouble_one)
    · exact lt_of_le_of_lt (h1m.trans (by norm_num : (10300 : ℝ) ≤ 2 ^ 14)) (two_pow_lt_range (by norm_num))
    · rw [abs_one]
      exact lt_of_le_of_lt (by norm_num) (two_pow_lt_range (k := 1) (by norm_num))
  · have e : |b| ≤ |b - (1 - m)| + |1 - m| := by
      have := abs_add_le (b - (1 - m)) (1 - m)
      rwa [sub_add_cancel] at this
    generalize (2 : ℝ) ^ (-1075 : ℤ) = τ at *
    norm_num at u3 hτ ⊢
    linarith
  · intro hxp hyp
    set R := Real.sqrt ((x - x0) ^ 2 + (y - y0) ^ 2) with hR
    have hR0 : 0 ≤ R := Real.sqrt_nonneg _
    have hRb : R ≤ 2.83 * p := by
      refine Real.sqrt_le_iff.2 ⟨by positivity, ?_⟩
      have i1 : |x - x0| ≤ 2 * p := (abs_sub _ _).trans (by linarith)
      have i2 : |y - y0| ≤ 2 * p := (abs_sub _ _).trans (by linarith)
      have := sq_le_sq' (abs_le.1 i1).1 (abs_le.1 i1).2
      have := sq_le_sq' (abs_le.1 i2).1 (abs_le.1 i2).2
      have h0 : 0 < p ^ 2 := by positivity
      nlinarith
    have hRp : R / p ≤ 2.83 := by rwa [div_le_iff₀ hp0]
    have hRp0 : 0 ≤ R / p := by positivity
    refine ⟨?_, hRp⟩
    have v1 : |r' - R| ≤ 920 * p / 2 ^ 53 := by
      have i1 := rad_lip (x - x0) (y - y0) dx dy
      have i2 := e3 hxp
      have i3 := f3 hyp
      rw [← hr, ← hR] at i1
      have i4 := (abs_le.1 i1).2
      have e : r' - R = (r' - r) + (r - R) := by ring
      rw [e]
      refine (abs_add_le _ _).trans ?_
      generalize (2 : ℝ) ^ (-534 : ℤ) = κ at *
      norm_num at r3 hκ i1 i2 i3 i4 ⊢
      linarith
    have v2 : |r' / p - R / p| ≤ 920 / 2 ^ 53 := by
      rw [← sub_div, abs_div, abs_of_pos hp0, div_le_iff₀ hp0]
      linarith
    have v2' := (abs_le.1 v2).2
    have v3 : |rho - R / p| ≤ 924 / 2 ^ 53 := by
      have e : rho - R / p = (rho - r' / p) + (r' / p - R / p) := by ring
      rw [e]
      refine (abs_add_le _ _).trans ((add_le_add s3 v2).trans ?_)
      generalize (2 : ℝ) ^ (-1075 : ℤ) = τ at *
      norm_num at hτ v2' ⊢
      linarith
    have v4 : |rho * rho - (R / p) ^ 2| ≤ 5300 / 2 ^ 53 := by
      have e : rho * rho - (R / p) ^ 2 = (rho - R / p) * ((rho - R / p) + 2 * (R / p)) := by ring
      rw [e, abs_mul]
      have i1 : |(rho - R / p) + 2 * (R / p)| ≤ 924 / 2 ^ 53 + 2 * 2.83 := by
        refine (abs_add_le _ _).trans (add_le_add v3 ?_)
        rw [abs_mul, abs_of_pos (by norm_num : (0 : ℝ) < 2), abs_of_nonneg hRp0]
        linarith
      refine (mul_le_mul v3 i1 (abs_nonneg _) (by norm_num)).trans ?_
      norm_num
    have hR2 : (R / p) ^ 2 ≤ 8.01 := by
      have : (R / p) ^ 2 ≤ 2.83 ^ 2 := by gcongr
      refine this.trans (by norm_num)
    have v4' := abs_le.1 v4
    have hrr2 : |rho * rho| ≤ 8.02 := by
      rw [abs_of_nonneg (mul_self_nonneg rho)]
      have := v4'.2
      norm_num at this
      linarith
    have v5 : |m - (R / p) ^ 2| ≤ 5309 / 2 ^ 53 := by
      have e : m - (R / p) ^ 2 = (m - rho * rho) + (rho * rho - (R / p) ^ 2) := by ring
      rw [e]
      refine (abs_add_le _ _).trans ((add_le_add t3 v4).trans ?_)
      generalize (2 : ℝ) ^ (-1075 : ℤ) = τ at *
      generalize |rho * rho| = Q at *
      norm_num at hτ ⊢
      linarith
    have v5' := abs_le.1 v5
    have h1m2 : |1 - m| ≤ 7.1 := by
      have j1 := v5'.1
      have j2 := v5'.2
      norm_num at j1 j2
      rw [abs_le]
      constructor <;> linarith
    have e : b - (1 - (R / p) ^ 2) = (b - (1 - m)) - (m - (R / p) ^ 2) := by ring
    rw [e]
    refine (abs_sub _ _).trans ((add_le_add u3 v5).trans ?_)
    generalize (2 : ℝ) ^ (-1075 : ℤ) = τ at *
    norm_num at hτ ⊢
    linarith

/-- When the parabolic taper is known: the exponent is 1 or 2, or the pixel is inside the circle of the taper. -/
def Spec.Tapered (q p x0 y0 x y : ℝ) : Prop := q = 1 ∨ q = 2 ∨ (x - x0) ^ 2 + (y - y0) ^ 2 ≤ p ^ 2 * (1 - 1 / 2 ^ 40)

theorem rpow_lip {q a b : ℝ} (hq1 : 1 ≤ q) (hq2 : q ≤ 2) (ha0 : 0 < a) (ha : a ≤ 1) (hb0 : 0 < b) (hb : b ≤ 1) :
    |a ^ q - b ^ q| ≤ 2 * |a - b| := by
  have hd : ∀ w ∈ Set.Ioc (0 : ℝ) 1, HasDerivWithinAt (fun w : ℝ => w ^ q) (q * w ^ (q - 1)) (Set.Ioc 0 1) w := fun w hw =>
    (Real.hasDerivAt_rpow_const (Or.inl hw.1.ne')).hasDerivWithinAt
  have hb' : ∀ w ∈ Set.Ioc (0 : ℝ) 1, ‖q * w ^ (q - 1)‖ ≤ (2 : ℝ) := by
    intro w hw
    have i1 : w ^ (q - 1) ≤ 1 := Real.rpow_le_one hw.1.le hw.2 (by linarith)
    have i0 : 0 ≤ w ^ (q - 1) := Real.rpow_nonneg hw.1.le _
    rw [Real.norm_eq_abs, abs_of_nonneg (by positivity)]
    nlinarith
  have := (convex_Ioc (0 : ℝ) 1).norm_image_sub_le_of_norm_hasDerivWithin_le hd hb' ⟨hb0, hb⟩ ⟨ha0, ha⟩
  simpa [Real.norm_eq_abs] using this

/-- The power in the parabolic taper. -/
theorem parabolicPow_near {L : Dbl.LibmP} (hL : Spec.AccurateP L) {q b b' : ℝ} (hq : Spec.IsDouble q) (hq1 : 1 ≤ q)
    (hq2 : q ≤ 2) (hd : Spec.IsDouble b') (hb1 : b' ≤ 1) (hbb : |b'| ≤ 2 ^ 20) (hbl : -7.1 ≤ b) (hbu : b ≤ 1)
    (hb : |b' - b| ≤ 6000 / 2 ^ 53) (ht : q = 1 ∨ q = 2 ∨ 1 / 2 ^ 40 ≤ b) :
    ∃ w, L.powr (.fin b') (.fin q) = .fin w ∧ Spec.IsDouble w ∧ |w - b ^ q| ≤ 1 / 2 ^ 36 ∧ |b ^ q| ≤ 51 := by
  have hτ := tiny_le (show (-1072 : ℤ) ≤ -100 by norm_num)
  have hb2 := abs_le.1 hb
  have hb'7 : |b'| ≤ 7.2 := by
    have j1 := hb2.1
    norm_num at j1
    rw [abs_le]
    constructor <;> linarith
  rcases ht with rfl | rfl | ht
  · obtain ⟨w, i1, i2, i3⟩ := hL.powr_int b' 1 hd (.inl rfl) hbb
    refine ⟨w, by simpa using i1, i2, ?_, ?_⟩
    · rw [Real.rpow_one]
      rw [pow_one, pow_one] at i3
      have e : w - b = (w - b') + (b' - b) := by ring
      rw [e]
      refine (abs_add_le _ _).trans ((add_le_add i3 hb).trans ?_)
      generalize (2 : ℝ) ^ (-1072 : ℤ) = τ at *
      norm_num at hτ ⊢
      linarith
    · rw [Real.rpow_one, abs_le]
      constructor <;> linarith
  · obtain ⟨w, i1, i2, i3⟩ := hL.powr_int b' 2 hd (.inr rfl) hbb
    have hbr : b ^ (2 : ℝ) = b ^ 2 := Real.rpow_ofNat b 2
    have hbsq : b ^ 2 ≤ 51 := by nlinarith
    refine ⟨w, by simpa using i1, i2, ?_, ?_⟩
    · rw [hbr]
      have j1 : |b' ^ 2 - b ^ 2| ≤ 6000 / 2 ^ 53 * 15 := by
        rw [sq_sub_sq, mul_comm, abs_mul]
        refine mul_le_mul hb ?_ (abs_nonneg _) (by norm_num)
        refine (abs_add_le _ _).trans ?_
        have : |b| ≤ 7.1 := by
          rw [abs_le]
          constructor <;> linarith
        linarith
      have j2 : |b'| ^ 2 ≤ 52 := by
        have : |b'| ^ 2 ≤ 7.2 ^ 2 := by gcongr
        refine this.trans (by norm_num)
      have e : w - b ^ 2 = (w - b' ^ 2) + (b' ^ 2 - b ^ 2) := by ring
      rw [e]
      refine (abs_add_le _ _).trans ((add_le_add i3 j1).trans ?_)
      generalize (2 : ℝ) ^ (-1072 : ℤ) = τ at *
      generalize |b'| ^ 2 = Q at *
      norm_num at hτ ⊢
      linarith
    · rw [hbr, abs_of_nonneg (by positivity)]
      exact hbsq
  · have hb0 : 0 < b := lt_of_lt_of_le (by positivity) ht
    have hb'0 : 0 < b' := by
      have := hb2.1
      norm_num at this ht
      linarith
    have hle1 : b' ^ q ≤ 1 := Real.rpow_le_one hb'0.le hb1 (by linarith)
    obtain ⟨w, i1, i2, -, i3⟩ := hL.powr b' q hd hq hb'0 (hle1.trans (one_le_pow₀ one_le_two))
    refine ⟨w, i1, i2, ?_, ?_⟩
    · have j := rpow_lip hq1 hq2 hb'0 hb1 hb0 hbu
      have e : w - b ^ q = (w - b' ^ q) + (b' ^ q - b ^ q) := by ring
      rw [e]
      refine (abs_add_le _ _).trans ((add_le_add i3 j).trans ?_)
      generalize (2 : ℝ) ^ (-1072 : ℤ) = τ at *
      generalize |b' - b| = Q at *
      norm_num at hτ hb ⊢
      linarith
    · rw [abs_of_nonneg (Real.rpow_nonneg hb0.le _)]
      exact (Real.rpow_le_one hb0.le hbu (by linarith)).trans (by norm_num)

theorem fl_pow_pos {b q : ℝ} (hq1 : 1 ≤ q) (h : q = 1 ∨ q = 2 ∨ 0 < b) : Fl.pow (.fin b) q = .fin (b ^ q) := by
  have hq0 : q ≠ 0 := by linarith
  rw [Fl.pow_fin, if_neg hq0]
  by_cases hb : b = 0
  · rw [if_pos hb, if_pos (by linarith), hb, Real.zero_rpow hq0]
  · rw [if_neg hb, if_neg]
    rintro ⟨h1, h2⟩
    rcases h with rfl | rfl | h
    · exact h2 ⟨1, by norm_num⟩
    · exact h2 ⟨2, by norm_num⟩
    · linarith

theorem parabolicAt_val {i c q x0 y0 p x y : ℝ} (hp : 0 < p) (hq1 : 1 ≤ q)
    (h : q = 1 ∨ q = 2 ∨ 0 < 1 - (Real.sqrt ((x - x0) ^ 2 + (y - y0) ^ 2) / p) ^ 2) :
    Aperture.parabolicAt i (.bare c) q (.bare x0) (.bare y0) p x y =
      i * ((10 : ℝ) ^ (c / 20) + (1 - (10 : ℝ) ^ (c / 20)) *
        (1 - (Real.sqrt ((x - x0) ^ 2 + (y - y0) ^ 2) / p) ^ 2) ^ q) := by
  unfold Aperture.parabolicAt
  simp only [Aperture.taper, Aperture.offset]
  rw [Fl.div_fin _ hp.ne', Fl.pow_fin_two]
  have e : Fl.sub (.fin 1) (.fin ((Real.sqrt ((x - x0) ^ 2 + (y - y0) ^ 2) / p) ^ 2)) =
      .fin (1 - (Real.sqrt ((x - x0) ^ 2 + (y - y0) ^ 2) / p) ^ 2) := by
    simp [Fl.sub, Fl.neg, Fl.add, sub_eq_add_neg]
  rw [e, fl_pow_pos hq1 h]
  simp [Fl.mul, Fl.add, Fl.nanToNum]

/-- The parabolic illumination in doubles. -/
theorem parabolicD_near {rnd : ℝ → Fl} (h : Spec.Rounding rnd) {L : Dbl.LibmP} (hL : Spec.AccurateP L)
    {p i c q x0 y0 x y g k : ℝ} (h1 : 1 / 2 ^ 90 ≤ p) (h2 : p ≤ 2 ^ 90) (hi : |i| ≤ 2 ^ 200) (hid : Spec.IsDouble i)
    (hc0 : c ≤ 0) (hc1 : -100 ≤ c) (hq : Spec.IsDouble q) (hq1 : 1 ≤ q) (hq2 : q ≤ 2)
    (hx0 : |x0| ≤ p) (hy0 : |y0| ≤ p) (hg : |g - x| ≤ 448 * p / 2 ^ 53) (hk : |k - y| ≤ 448 * p / 2 ^ 53)
    (hx : |x| ≤ 64 * p) (hy : |y| ≤ 64 * p) :
    ∃ e, Dbl.parabolicAt rnd L (.fin i) (.fin c) (.fin q) (.fin x0) (.fin y0) (.fin p) (.fin g) (.fin k) = .fin e ∧
      Spec.IsDouble e ∧ |e| ≤ 2 ^ 300 ∧ (|x| ≤ p → |y| ≤ p → Spec.Tapered q p x0 y0 x y →
        |e - Aperture.parabolicAt i (.bare c) q (.bare x0) (.bare y0) p x y| ≤ |i| / 2 ^ 35 + 2 ^ (-1074 : ℤ)) := by
  have hp0 : 0 < p := lt_of_lt_of_le (by positivity) h1
  obtain ⟨C', a1, a2, a3⟩ := taperD_near h hL hc0 hc1
  obtain ⟨b1, b2⟩ := taper_range hc0 hc1
  obtain ⟨rho, b', d1, d2, d3, d4, d5, d6⟩ := parabolicBase_near h h1 h2 hx0 hy0 hg hk hx hy
  have ha := abs_le.1 a3
  have hC'0 : 0 ≤ C' := by
    have := ha.1
    norm_num at this b1
    linarith
  have hC'1 : C' ≤ 2 := by
    have := ha.2
    norm_num at this b1
    linarith
  have hCB : Bounded 1 (.fin C') := ⟨C', rfl, a2, by rw [abs_of_nonneg hC'0]; linarith⟩
  have hoC : |1 - C'| ≤ 1 := by
    rw [abs_le]
    constructor <;> linarith
  have hCC := bounded_round h (y := 1 - C') (a := 0) (by norm_num) (by simpa using hoC)
  obtain ⟨o, o1, o2, o3⟩ := hCC
  have eval : Dbl.parabolicAt rnd L (.fin i) (.fin c) (.fin q) (.fin x0) (.fin y0) (.fin p) (.fin g) (.fin k) =
      .fin (Fl.nanToNum (Dbl.mul rnd (.fin i) (Dbl.add rnd (.fin C') (Dbl.mul rnd (.fin o) (L.powr (.fin b') (.fin q)))))) := by
    unfold Dbl.parabolicAt
    simp only [a1, d1, d2]
    rw [sub_fin_rnd, o1]
  have fin_case : ∀ w, L.powr (.fin b') (.fin q) = .fin w → Spec.IsDouble w → |w| ≤ 2 ^ 50 →
      ∃ m s e, rnd (o * w) = .fin m ∧ rnd (C' + m) = .fin s ∧ rnd (i * s) = .fin e ∧ Spec.IsDouble e ∧ |e| ≤ 2 ^ 300 ∧
        Dbl.parabolicAt rnd L (.fin i) (.fin c) (.fin q) (.fin x0) (.fin y0) (.fin p) (.fin g) (.fin k) = .fin e := by
    intro w hw hwd hwb
    obtain ⟨m, m1, m2, m3⟩ := bounded_mul h (by norm_num) (⟨o, rfl, o2, o3⟩ : Bounded _ (.fin o))
      (⟨w, rfl, hwd, hwb⟩ : Bounded 50 (.fin w))
    obtain ⟨s, s1, s2, s3⟩ := bounded_add h (a := 52) (by norm_num) (hCB.mono (by norm_num)) ⟨m, rfl, m2, m3⟩
    obtain ⟨e, e1, e2, e3⟩ := bounded_mul h (by norm_num) (⟨i, rfl, hid, hi⟩ : Bounded 200 (.fin i)) ⟨s, rfl, s2, s3⟩
    refine ⟨m, s, e, m1, s1, e1, e2, e3.trans (two_pow_le (by norm_num)), ?_⟩
    rw [eval, hw, m1, s1, e1]
    rfl
  have hpw : L.powr (.fin b') (.fin q) = .nan ∨ ∃ w, L.powr (.fin b') (.fin q) = .fin w ∧ Spec.IsDouble w ∧ |w| ≤ 2 ^ 50 := by
    rcases le_or_gt b' 0 with hb | hb
    · exact hL.powr_neg b' q d3 hq hb d5 hq1 hq2
    · have hle1 : b' ^ q ≤ 1 := Real.rpow_le_one hb.le d4 (by linarith)
      obtain ⟨w, i1, i2, i3, i4⟩ := hL.powr b' q d3 hq hb (hle1.trans (one_le_pow₀ one_le_two))
      refine .inr ⟨w, i1, i2, ?_⟩
      have hτ := tiny_le (show (-1072 : ℤ) ≤ -100 by norm_num)
      rw [abs_of_nonneg i3]
      have := (abs_le.1 i4).2
      generalize (2 : ℝ) ^ (-1072 : ℤ) = τ at *
      norm_num at this hτ ⊢
      linarith
  by_cases hlit : |x| ≤ p ∧ |y| ≤ p ∧ Spec.Tapered q p x0 y0 x y
  · obtain ⟨hxp, hyp, ht⟩ := hlit
    obtain ⟨f1, f2⟩ := d6 hxp hyp
    set b := 1 - (Real.sqrt ((x - x0) ^ 2 + (y - y0) ^ 2) / p) ^ 2 with hb
    have hR0 : 0 ≤ Real.sqrt ((x - x0) ^ 2 + (y - y0) ^ 2) / p := by positivity
    have hbu : b ≤ 1 := by
      rw [hb]
      linarith [sq_nonneg (Real.sqrt ((x - x0) ^ 2 + (y - y0) ^ 2) / p)]
    have hbl : -7.1 ≤ b := by
      have : (Real.sqrt ((x - x0) ^ 2 + (y - y0) ^ 2) / p) ^ 2 ≤ 2.83 ^ 2 := by gcongr
      rw [hb]
      norm_num at this
      linarith
    have ht' : q = 1 ∨ q = 2 ∨ 1 / 2 ^ 40 ≤ b := by
      rcases ht with ht | ht | ht
      · exact .inl ht
      · exact .inr (.inl ht)
      · refine .inr (.inr ?_)
        have : (Real.sqrt ((x - x0) ^ 2 + (y - y0) ^ 2) / p) ^ 2 ≤ 1 - 1 / 2 ^ 40 := by
          rw [div_pow, Real.sq_sqrt (by positivity), div_le_iff₀ (by positivity)]
          linarith
        rw [hb]
        linarith
    obtain ⟨w, w1, w2, w3, w4⟩ := parabolicPow_near hL hq hq1 hq2 d3 d4 d5 hbl hbu f1 ht'
    have hw5 : |w| ≤ 52 := by
      have e : |w| ≤ |w - b ^ q| + |b ^ q| := by
        have := abs_add_le (w - b ^ q) (b ^ q)
        rwa [sub_add_cancel] at this
      norm_num at w3
      linarith
    obtain ⟨m, s, e, m1, s1, e1, e2, e3, e4⟩ := fin_case w w1 w2 (hw5.trans (by norm_num))
    refine ⟨e, e4, e2, e3, fun _ _ _ => ?_⟩
    rw [parabolicAt_val hp0 hq1 (ht'.imp_right fun j => j.imp_right fun j => lt_of_lt_of_le (by positivity) j), ← hb]
    set C := (10 : ℝ) ^ (c / 20) with hC
    have hτ := tiny_le (show (-1075 : ℤ) ≤ -100 by norm_num)
    have hC0 : 0 ≤ C := le_trans (by positivity) b1
    have hCC' : |C' - C| ≤ 45 / 2 ^ 53 := by
      refine a3.trans ?_
      norm_num
      linarith
    -- 1 - C
    obtain ⟨o', p1, -, p3⟩ := round_rel h (y := 1 - C') (hoC.trans (one_le_pow₀ one_le_two))
    have ho : |o - (1 - C)| ≤ 47 / 2 ^ 53 := by
      obtain rfl : o' = o := Fl.fin.inj (p1.symm.trans o1)
      have e : o' - (1 - C) = (o' - (1 - C')) - (C' - C) := by ring
      rw [e]
      refine (abs_sub _ _).trans ((add_le_add p3 hCC').trans ?_)
      generalize (2 : ℝ) ^ (-1075 : ℤ) = τ at *
      norm_num at hτ ⊢
      linarith
    have h1C : |1 - C| ≤ 1 := by
      rw [abs_le]
      constructor <;> linarith
    have ho1 : |o * w - (1 - C) * b ^ q| ≤ 1 / 2 ^ 36 + 2500 / 2 ^ 53 := by
      have e : o * w - (1 - C) * b ^ q = (o - (1 - C)) * w + (1 - C) * (w - b ^ q) := by ring
      rw [e]
      have j1 : |(o - (1 - C)) * w| ≤ 47 / 2 ^ 53 * 52 := by
        rw [abs_mul]
        exact mul_le_mul ho hw5 (abs_nonneg _) (by norm_num)
      have j2 : |(1 - C) * (w - b ^ q)| ≤ 1 * (1 / 2 ^ 36) := by
        rw [abs_mul]
        exact mul_le_mul h1C w3 (abs_nonneg _) (by norm_num)
      refine (abs_add_le _ _).trans ((add_le_add j1 j2).trans ?_)
      norm_num
    have hV : |(1 - C) * b ^ q| ≤ 51 := by
      rw [abs_mul]
      exact (mul_le_mul h1C w4 (abs_nonneg _) (by norm_num)).trans (le_of_eq (by norm_num))
    set V := (1 - C) * b ^ q with hVd
    have how : |o * w| ≤ 52 := by
      have e : |o * w| ≤ |o * w - V| + |V| := by
        have := abs_add_le (o * w - V) V
        rwa [sub_add_cancel] at this
      refine e.trans ((add_le_add ho1 hV).trans (by norm_num))
    obtain ⟨m', q1, -, q3⟩ := round_rel h (y := o * w) (how.trans
      (le_trans (by norm_num : (52 : ℝ) ≤ 2 ^ 6) (two_pow_le (by norm_num))))
    obtain rfl : m' = m := Fl.fin.inj (q1.symm.trans m1)
    have hm : |m' - V| ≤ 1 / 2 ^ 36 + 2553 / 2 ^ 53 := by
      have e : m' - V = (m' - o * w) + (o * w - V) := by ring
      rw [e]
      refine (abs_add_le _ _).trans ((add_le_add q3 ho1).trans ?_)
      generalize (2 : ℝ) ^ (-1075 : ℤ) = τ at *
      generalize |o * w| = Q at *
      norm_num at hτ ⊢
      linarith
    have hCm : |(C' + m') - (C + V)| ≤ 1 / 2 ^ 36 + 2600 / 2 ^ 53 := by
      have e : (C' + m') - (C + V) = (C' - C) + (m' - V) := by ring
      rw [e]
      refine (abs_add_le _ _).trans ((add_le_add hCC' hm).trans ?_)
      norm_num
    have hCV : |C + V| ≤ 52 := by
      refine (abs_add_le _ _).trans ?_
      rw [abs_of_nonneg hC0]
      linarith
    have hCm' : |C' + m'| ≤ 53 := by
      have e : |C' + m'| ≤ |(C' + m') - (C + V)| + |C + V| := by
        have := abs_add_le ((C' + m') - (C + V)) (C + V)
        rwa [sub_add_cancel] at this
      refine e.trans ((add_le_add hCm hCV).trans (by norm_num))
    obtain ⟨s', r1, -, r3⟩ := round_rel h (y := C' + m') (hCm'.trans
      (le_trans (by norm_num : (53 : ℝ) ≤ 2 ^ 6) (two_pow_le (by norm_num))))
    obtain rfl : s' = s := Fl.fin.inj (r1.symm.trans s1)
    have hs : |s' - (C + V)| ≤ 1 / 2 ^ 36 + 2654 / 2 ^ 53 := by
      have e : s' - (C + V) = (s' - (C' + m')) + ((C' + m') - (C + V)) := by ring
      rw [e]
      refine (abs_add_le _ _).trans ((add_le_add r3 hCm).trans ?_)
      generalize (2 : ℝ) ^ (-1075 : ℤ) = τ at *
      norm_num at hτ ⊢
      linarith
    have hs' : |s'| ≤ 53 := by
      have e : |s'| ≤ |s' - (C + V)| + |C + V| := by
        have := abs_add_le (s' - (C + V)) (C + V)
        rwa [sub_add_cancel] at this
      refine e.trans ((add_le_add hs hCV).trans (by norm_num))
    have hi0 := abs_nonneg i
    have his : |i * s'| ≤ |i| * 53 := by
      rw [abs_mul]
      exact mul_le_mul_of_nonneg_left hs' hi0
    obtain ⟨e', t1, -, t3⟩ := round_rel h (y := i * s') (his.trans (le_trans (by
      norm_num at hi ⊢
      linarith : |i| * 53 ≤ 2 ^ 206) (two_pow_le (by norm_num))))
    obtain rfl : e' = e := Fl.fin.inj (t1.symm.trans e1)
    have n1 : |i * s' - i * (C + V)| ≤ |i| * (1 / 2 ^ 36 + 2654 / 2 ^ 53) := by
      rw [← mul_sub, abs_mul]
      exact mul_le_mul_of_nonneg_left hs hi0
    have hT : (2 : ℝ) ^ (-1074 : ℤ) = 2 * 2 ^ (-1075 : ℤ) := by
      rw [show (-1074 : ℤ) = 1 + -1075 by norm_num, zpow_add₀ two_ne_zero]
      norm_num
    have e9 : e' - i * (C + V) = (e' - i * s') + (i * s' - i * (C + V)) := by ring
    rw [e9, hT]
    refine (abs_add_le _ _).trans ((add_le_add t3 n1).trans ?_)
    have h0 : (0 : ℝ) < 2 ^ (-1075 : ℤ) := by positivity
    generalize (2 : ℝ) ^ (-1075 : ℤ) = τ at *
    generalize |i * s'| = Q at *
    norm_num at his ⊢
    linarith
  · rcases hpw with hn | ⟨w, w1, w2, w3⟩
    · refine ⟨0, ?_, isDouble_zero, by rw [abs_zero]; positivity, fun j1 j2 j3 => absurd ⟨j1, j2, j3⟩ hlit⟩
      rw [eval, hn]
      rfl
    · obtain ⟨m, s, e, -, -, -, e2, e3, e4⟩ := fin_case w w1 w2 w3
      exact ⟨e, e4, e2, e3, fun j1 j2 j3 => absurd ⟨j1, j2, j3⟩ hlit⟩

end Verif.Props
