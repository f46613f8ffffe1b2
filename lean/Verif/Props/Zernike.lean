import Verif.Lemmas.ZernikeBound
import Verif.Lemmas.ZernikeOrth
import Mathlib.Analysis.SpecialFunctions.PolarCoord
import Mathlib.MeasureTheory.Integral.Prod
import Mathlib.MeasureTheory.Integral.IntervalIntegral.Periodic

/-! # C01 - C06: Zernike polynomials -/

namespace Verif.Props

open Verif Verif.Zernike Polynomial

/-! ## C01 -/

/-- `R` returns a value, never an exception, for non negative arguments. -/
theorem R_ok (n m : ℕ) (rho : ℝ) : ∃ v, R n m rho = .ok v := by
  unfold R
  have key : ∀ s ∈ List.range ((((n : ℤ) - m) / 2 + 1).toNat), ∃ v,
      rTerm n (((n : ℤ) + m) / 2) (((n : ℤ) - m) / 2) rho s = .ok v := by
    intro s hs
    have hs' : (s : ℤ) < ((n : ℤ) - m) / 2 + 1 := by
      have := List.mem_range.1 hs
      omega
    unfold rTerm factorial
    rw [if_neg (by omega), if_neg (by omega), if_neg (by omega), if_neg (by omega)]
    exact ⟨_, rfl⟩
  choose! g hg using key
  simp only [mapM_ok _ _ g hg]
  exact ⟨_, rfl⟩

/-- **C01** `U` raises `TypeError` exactly when `l` is not an int or `n` is not an int `≥ 0`. -/
theorem C01_typeError_iff (n l : PyNum) (rho theta : ℝ) :
    U n l rho theta = .error .typeError ↔
      ¬ ((∃ z, l = .int z) ∧ ∃ k : ℕ, n = .int k) := by
  cases l with
  | other r => simp [U]
  | int l =>
    cases n with
    | other r => simp [U]
    | int n =>
      rcases lt_or_ge n 0 with hn | hn
      · constructor
        · rintro - ⟨-, k, hk⟩
          injection hk with hk
          omega
        · intro _; simp [U, hn]
      · constructor
        · intro h
          exfalso
          obtain ⟨v, hv⟩ := R_ok n.toNat (l.natAbs) rho
          have e1 : ((n.toNat : ℕ) : ℤ) = n := by omega
          rw [e1, Int.natCast_natAbs] at hv
          simp only [U, not_lt.2 hn, if_false, hv] at h
          split_ifs at h <;> cases h
        · intro h
          exact absurd ⟨⟨l, rfl⟩, n.toNat, by congr 1; omega⟩ h

/-- **C01** In every other case the value is the radial polynomial times the angular factor;
no other exception is possible. -/
theorem C01_value (n : ℕ) (l : ℤ) (rho theta : ℝ) :
    ∃ v, R n |l| rho = .ok v ∧ U (.int n) (.int l) rho theta =
      .ok (v * if l < 0 then Real.sin (|l| * theta) else Real.cos (|l| * theta)) := by
  obtain ⟨v, hv⟩ := R_ok n l.natAbs rho
  rw [Int.natCast_natAbs] at hv
  refine ⟨v, hv, ?_⟩
  have hn : ¬ ((n : ℤ) < 0) := by omega
  simp only [U, hn, if_false, hv]
  split_ifs <;> rfl

/-- **C01** `|l| > n` is not rejected: the value is 0. -/
theorem C01_silent_zero (n : ℕ) (l : ℤ) (h : (n : ℤ) < |l|) (rho theta : ℝ) :
    U (.int n) (.int l) rho theta = .ok 0 := by
  have hR : R n |l| rho = .ok 0 := by
    unfold R
    have : (((n : ℤ) - |l|) / 2 + 1).toNat = 0 := by omega
    simp only [this]
    rfl
  have hn : ¬ ((n : ℤ) < 0) := by omega
  simp only [U, hn, if_false, hR]
  show (if l < 0 then _ else _) = _
  split_ifs
  · show Except.ok _ = _; rw [zero_mul]
  · show Except.ok _ = _; rw [zero_mul]

example : U (.int (-1)) (.int 0) 0.5 1 = .error .typeError :=
  (C01_typeError_iff _ _ _ _).2 (by rintro ⟨-, k, hk⟩; injection hk with hk; omega)
example : U (.int 2) (.other 2) 0.5 1 = .error .typeError :=
  (C01_typeError_iff _ _ _ _).2 (by rintro ⟨⟨z, hz⟩, -⟩; cases hz)
example : U (.int 2) (.int (-4)) 0.5 1 = .ok 0 := C01_silent_zero 2 (-4) (by norm_num) _ _

/-! ## C02 -/

/-- **C02** `R(n, m, rho) * ((n-m)/2)! * rho^m` is the derivative in the docstring. -/
theorem C02_rodrigues (n m : ℕ) (h : Spec.Allowed n m) (rho : ℝ) :
    ∃ v, R n m rho = .ok v ∧
      v * ((n - m) / 2).factorial * rho ^ m = (Spec.rodrigues n m).eval (rho ^ 2) := by
  obtain ⟨h1, h2⟩ := h
  rw [abs_of_nonneg (by positivity)] at h1
  have hmn : m ≤ n := by omega
  obtain ⟨k, hk⟩ := h2
  set a := (n + m) / 2 with ha
  set b := (n - m) / 2 with hb
  have hba : b ≤ a := by omega
  have e1 : (n : ℤ) = (a : ℤ) + b := by omega
  have e2 : (m : ℤ) = (a : ℤ) - b := by omega
  refine ⟨Rsum a b rho, by rw [e1, e2]; exact R_eq_Rsum a b hba rho, ?_⟩
  have hr : Spec.rodrigues n m = rodr a b := rfl
  rw [hr, rodr_eq_Q1 a b hba, Rsum_eq_Q1 a b hba]
  have em : m = a - b := by omega
  simp only [eval_mul, eval_pow, eval_X, eval_C]
  rw [em, pow_right_comm]
  ring

/-- **C02** and at the centre, where the docstring has a quotient of zeros for `m > 0`. -/
theorem C02_centre (n m : ℕ) (h : Spec.Allowed n m) :
    R n m 0 = .ok (if m = 0 then (-1) ^ (n / 2) else 0) := by
  obtain ⟨h1, k, hk⟩ := h
  rw [abs_of_nonneg (by positivity)] at h1
  set a := (n + m) / 2 with ha
  set b := (n - m) / 2 with hb
  have hba : b ≤ a := by omega
  have e1 : (n : ℤ) = (a : ℤ) + b := by omega
  have e2 : (m : ℤ) = (a : ℤ) - b := by omega
  rw [e1, e2, R_eq_Rsum a b hba]
  congr 1
  unfold Rsum
  rw [Finset.sum_eq_single b]
  · by_cases hm : m = 0
    · have hab : a = b := by omega
      have hn : n / 2 = b := by omega
      have hf : (b.factorial : ℝ) ≠ 0 := by exact_mod_cast b.factorial_ne_zero
      rw [if_pos hm, hn, hab, show b + b - b = b by omega, show b + b - 2 * b = 0 by omega]
      simp [hf]
    · rw [if_neg hm, zero_pow (by omega)]
      simp
  · intro s hs hsb
    have : s < b := by
      have := Finset.mem_range.1 hs
      omega
    rw [zero_pow (by omega)]
    simp
  · intro hs
    simp at hs

example : Spec.Allowed 5 (3 : ℕ) := by constructor <;> norm_num [Int.even_iff]

/-! ## C03 -/

/-- **C03** the radial polynomials are 1 at the rim. -/
theorem C03_rim (n m : ℕ) (h : Spec.Allowed n m) : R n m 1 = .ok 1 := by
  obtain ⟨h1, k, hk⟩ := h
  rw [abs_of_nonneg (by positivity)] at h1
  have hba : (n - m) / 2 ≤ (n + m) / 2 := by omega
  have e1 : (n : ℤ) = (((n + m) / 2 : ℕ) : ℤ) + ((n - m) / 2 : ℕ) := by omega
  have e2 : (m : ℤ) = (((n + m) / 2 : ℕ) : ℤ) - ((n - m) / 2 : ℕ) := by omega
  have := R_eq_Rsum _ _ hba 1
  rw [← e1, ← e2, Rsum_one _ _ hba] at this
  exact this

example : R 6 2 1 = .ok 1 := C03_rim 6 2 (by constructor <;> norm_num [Int.even_iff])

/-! ## C04 -/

/-- **C04** `|R| ≤ 1` on `[-1, 1]`. -/
theorem C04_radial_bound (n m : ℕ) (h : Spec.Allowed n m) (rho : ℝ) (hr : |rho| ≤ 1) :
    ∃ v, R n m rho = .ok v ∧ |v| ≤ 1 := by
  obtain ⟨h1, k, hk⟩ := h
  rw [abs_of_nonneg (by positivity)] at h1
  have hba : (n - m) / 2 ≤ (n + m) / 2 := by omega
  have e1 : (n : ℤ) = (((n + m) / 2 : ℕ) : ℤ) + ((n - m) / 2 : ℕ) := by omega
  have e2 : (m : ℤ) = (((n + m) / 2 : ℕ) : ℤ) - ((n - m) / 2 : ℕ) := by omega
  have := R_eq_Rsum _ _ hba rho
  rw [← e1, ← e2] at this
  exact ⟨_, this, Rsum_abs_le _ _ hba rho hr⟩

/-- **C04** `|U| ≤ 1` on the unit disc. -/
theorem C04_circle_bound (n : ℕ) (l : ℤ) (h : Spec.Allowed n l) (rho theta : ℝ)
    (hr : |rho| ≤ 1) : ∃ v, U (.int n) (.int l) rho theta = .ok v ∧ |v| ≤ 1 := by
  obtain ⟨a, b, hba, -, -, hU⟩ := U_value n l h
  refine ⟨_, hU rho theta, ?_⟩
  rw [abs_mul]
  have h1 := Rsum_abs_le a b hba rho hr
  have h2 : |ang l theta| ≤ 1 := by
    unfold ang
    split_ifs
    · exact Real.abs_sin_le_one _
    · exact Real.abs_cos_le_one _
  exact mul_le_one₀ h1 (abs_nonneg _) h2

example : Spec.Allowed 7 (-3) ∧ |(-0.75 : ℝ)| ≤ 1 := by
  refine ⟨by constructor <;> norm_num [Int.even_iff], by norm_num [abs_le]⟩

/-! ## C05 -/

theorem inner_value (n n' : ℕ) (l l' : ℤ) (a b a' b' : ℕ) (hba : b ≤ a) (hba' : b' ≤ a')
    (hn : a + b = n) (hn' : a' + b' = n') (hm : ((a - b : ℕ) : ℤ) = |l|)
    (hm' : ((a' - b' : ℕ) : ℤ) = |l'|) :
    (∫ ρ in (0:ℝ)..1, Rsum a b ρ * Rsum a' b' ρ * ρ) *
      (if l = l' then (if l = 0 then 2 * Real.pi else Real.pi) else 0) =
    if n = n' ∧ l = l' then Real.pi * (if l = 0 then 2 else 1) / (2 * (n + 1)) else 0 := by
  by_cases hl : l = l'
  · have hmm : a - b = a' - b' := by rw [hl] at hm; omega
    by_cases hnn : n = n'
    · have : a' = a ∧ b' = b := by omega
      obtain ⟨rfl, rfl⟩ := this
      rw [radial_norm _ _ hba, if_pos hl, if_pos (show n = n' ∧ l = l' from ⟨hnn, hl⟩), hn]
      split_ifs <;> ring
    · rw [radial_orth a b a' b' hba hba' hmm (by omega),
        if_neg (show ¬ (n = n' ∧ l = l') from fun h => hnn h.1)]
      simp
  · rw [if_neg hl, if_neg (show ¬ (n = n' ∧ l = l') from fun h => hl h.2)]; simp

/-- **C05** orthogonality, in polar coordinates: the integral of the product over the unit disc
vanishes for different index pairs. -/
theorem C05_polar (n n' : ℕ) (l l' : ℤ) (h : Spec.Allowed n l) (h' : Spec.Allowed n' l') :
    ∃ f g : ℝ → ℝ → ℝ,
      (∀ rho theta, U (.int n) (.int l) rho theta = .ok (f rho theta)) ∧
      (∀ rho theta, U (.int n') (.int l') rho theta = .ok (g rho theta)) ∧
      ∫ rho in (0:ℝ)..1, ∫ theta in (0:ℝ)..(2 * Real.pi), f rho theta * g rho theta * rho =
        if n = n' ∧ l = l' then Real.pi * (if l = 0 then 2 else 1) / (2 * (n + 1)) else 0 := by
  obtain ⟨a, b, hba, hn, hm, hU⟩ := U_value n l h
  obtain ⟨a', b', hba', hn', hm', hU'⟩ := U_value n' l' h'
  refine ⟨_, _, hU, hU', ?_⟩
  have : ∀ rho : ℝ, ∫ theta in (0:ℝ)..(2 * Real.pi),
      (Rsum a b rho * ang l theta) * (Rsum a' b' rho * ang l' theta) * rho =
      (Rsum a b rho * Rsum a' b' rho * rho) *
        ∫ theta in (0:ℝ)..(2 * Real.pi), ang l theta * ang l' theta := by
    intro rho
    rw [← intervalIntegral.integral_const_mul]
    congr 1; ext θ; ring
  simp_rw [this]
  rw [intervalIntegral.integral_mul_const, ang_orth]
  exact inner_value n n' l l' a b a' b' hba hba' hn hn' hm hm'

/-- **C05** orthogonality as an integral over the disc `x² + y² < 1` of the plane, with `rho`
and `theta` the polar coordinates of the point (`numpy.hypot`/`arctan2`). -/
theorem C05_disc (n n' : ℕ) (l l' : ℤ) (h : Spec.Allowed n l) (h' : Spec.Allowed n' l') :
    ∃ f g : ℝ → ℝ → ℝ,
      (∀ rho theta, U (.int n) (.int l) rho theta = .ok (f rho theta)) ∧
      (∀ rho theta, U (.int n') (.int l') rho theta = .ok (g rho theta)) ∧
      ∫ p in {p : ℝ × ℝ | p.1 ^ 2 + p.2 ^ 2 < 1},
        f (Real.sqrt (p.1 ^ 2 + p.2 ^ 2)) (Complex.arg ⟨p.1, p.2⟩) *
        g (Real.sqrt (p.1 ^ 2 + p.2 ^ 2)) (Complex.arg ⟨p.1, p.2⟩) =
        if n = n' ∧ l = l' then Real.pi * (if l = 0 then 2 else 1) / (2 * (n + 1)) else 0 := by
  obtain ⟨a, b, hba, hn, hm, hU⟩ := U_value n l h
  obtain ⟨a', b', hba', hn', hm', hU'⟩ := U_value n' l' h'
  refine ⟨_, _, hU, hU', ?_⟩
  have hdisc : MeasurableSet {p : ℝ × ℝ | p.1 ^ 2 + p.2 ^ 2 < 1} :=
    (isOpen_lt (by fun_prop) continuous_const).measurableSet
  rw [← MeasureTheory.integral_indicator hdisc, ← integral_comp_polarCoord_symm]
  have htarget : polarCoord.target = Set.Ioi (0 : ℝ) ×ˢ Set.Ioo (-Real.pi) Real.pi := rfl
  have hmeas : MeasurableSet polarCoord.target := polarCoord.open_target.measurableSet
  have hcongr : ∀ p ∈ polarCoord.target,
      p.1 • Set.indicator {p : ℝ × ℝ | p.1 ^ 2 + p.2 ^ 2 < 1} (fun p : ℝ × ℝ =>
        (Rsum a b (Real.sqrt (p.1 ^ 2 + p.2 ^ 2)) * ang l (Complex.arg ⟨p.1, p.2⟩)) *
        (Rsum a' b' (Real.sqrt (p.1 ^ 2 + p.2 ^ 2)) * ang l' (Complex.arg ⟨p.1, p.2⟩)))
          (polarCoord.symm p) =
      (Set.indicator (Set.Iio 1) (fun r => Rsum a b r * Rsum a' b' r * r) p.1) *
        (ang l p.2 * ang l' p.2) := by
    rintro ⟨r, θ⟩ hp
    rw [htarget] at hp
    obtain ⟨hr, hθ⟩ := hp
    simp only [Set.mem_Ioi, Set.mem_Ioo] at hr hθ
    have hsq : (r * Real.cos θ) ^ 2 + (r * Real.sin θ) ^ 2 = r ^ 2 := by
      have := Real.sin_sq_add_cos_sq θ
      linear_combination r ^ 2 * this
    have harg : Complex.arg ⟨r * Real.cos θ, r * Real.sin θ⟩ = θ := by
      have := Complex.arg_mul_cos_add_sin_mul_I hr (θ := θ) ⟨hθ.1, hθ.2.le⟩
      convert this using 2
      apply Complex.ext <;> simp [Complex.cos_ofReal_re, Complex.sin_ofReal_re,
        Complex.cos_ofReal_im, Complex.sin_ofReal_im]
    simp only [polarCoord_symm_apply, smul_eq_mul]
    by_cases h1 : r < 1
    · rw [Set.indicator_of_mem, Set.indicator_of_mem]
      · simp only [hsq, harg, Real.sqrt_sq hr.le]
        ring
      · exact h1
      · show (r * Real.cos θ) ^ 2 + (r * Real.sin θ) ^ 2 < 1
        rw [hsq]; nlinarith
    · rw [Set.indicator_of_notMem, Set.indicator_of_notMem]
      · simp
      · exact h1
      · show ¬ ((r * Real.cos θ) ^ 2 + (r * Real.sin θ) ^ 2 < 1)
        rw [hsq]; nlinarith
  rw [MeasureTheory.setIntegral_congr_fun hmeas hcongr, htarget,
    MeasureTheory.Measure.volume_eq_prod, MeasureTheory.setIntegral_prod_mul
      (fun r => Set.indicator (Set.Iio 1) (fun r => Rsum a b r * Rsum a' b' r * r) r)
      (fun θ => ang l θ * ang l' θ)]
  have hrad : ∫ r in Set.Ioi (0:ℝ),
      Set.indicator (Set.Iio 1) (fun r => Rsum a b r * Rsum a' b' r * r) r =
      ∫ r in (0:ℝ)..1, Rsum a b r * Rsum a' b' r * r := by
    rw [MeasureTheory.setIntegral_indicator measurableSet_Iio, Set.Ioi_inter_Iio,
      intervalIntegral.integral_of_le zero_le_one, MeasureTheory.integral_Ioc_eq_integral_Ioo]
  have hper : Function.Periodic (fun θ => ang l θ * ang l' θ) (2 * Real.pi) := by
    have : ∀ l, Function.Periodic (ang l) (2 * Real.pi) := by
      intro l θ
      unfold ang
      rw [mul_add, Real.sin_add_int_mul_two_pi, Real.cos_add_int_mul_two_pi]
    intro θ
    simp only [this l θ, this l' θ]
  have hang : ∫ θ in Set.Ioo (-Real.pi) Real.pi, ang l θ * ang l' θ =
      ∫ θ in (0:ℝ)..(2 * Real.pi), ang l θ * ang l' θ := by
    have := hper.intervalIntegral_add_eq (-Real.pi) 0
    rw [show -Real.pi + 2 * Real.pi = Real.pi by ring, zero_add] at this
    rw [← this, intervalIntegral.integral_of_le (by linarith [Real.pi_pos]),
      MeasureTheory.integral_Ioc_eq_integral_Ioo]
  rw [hrad, hang, ang_orth]
  exact inner_value n n' l l' a b a' b' hba hba' hn hn' hm hm'

example : Spec.Allowed 4 2 ∧ Spec.Allowed 6 2 := by
  refine ⟨?_, ?_⟩ <;> constructor <;> norm_num [Int.even_iff]

/-! ## C06 -/

/-- **C06** parity of the radial polynomial. -/
theorem C06_radial_parity (n m : ℕ) (h : Spec.Allowed n m) (rho : ℝ) :
    ∃ v, R n m rho = .ok v ∧ R n m (-rho) = .ok ((-1) ^ n * v) := by
  obtain ⟨h1, k, hk⟩ := h
  rw [abs_of_nonneg (by positivity)] at h1
  have hba : (n - m) / 2 ≤ (n + m) / 2 := by omega
  have e1 : (n : ℤ) = (((n + m) / 2 : ℕ) : ℤ) + ((n - m) / 2 : ℕ) := by omega
  have e2 : (m : ℤ) = (((n + m) / 2 : ℕ) : ℤ) - ((n - m) / 2 : ℕ) := by omega
  have hv := R_eq_Rsum _ _ hba rho
  have hv' := R_eq_Rsum _ _ hba (-rho)
  rw [← e1, ← e2] at hv hv'
  refine ⟨_, hv, ?_⟩
  rw [hv', Rsum_neg _ _ _ hba]
  congr 3
  omega

/-- **C06** rotation by pi, reflection and full turn of the circle polynomials. -/
theorem C06_angular (n : ℕ) (l : ℤ) (h : Spec.Allowed n l) (rho theta : ℝ) :
    ∃ v, U (.int n) (.int l) rho theta = .ok v ∧
      U (.int n) (.int l) rho (theta + Real.pi) = .ok ((-1) ^ n * v) ∧
      U (.int n) (.int l) rho (-theta) = .ok (if l < 0 then -v else v) ∧
      U (.int n) (.int l) rho (theta + 2 * Real.pi) = .ok v ∧
      U (.int n) (.int l) (-rho) theta = .ok ((-1) ^ n * v) := by
  obtain ⟨a, b, hba, hn, hm, hU⟩ := U_value n l h
  refine ⟨_, hU rho theta, ?_, ?_, ?_, ?_⟩
  · rw [hU]
    have hpar : ((-1 : ℝ)) ^ n = (-1 : ℝ) ^ |l| := by
      rw [← hm, zpow_natCast, ← hn, show a + b = (a - b) + 2 * b by omega, pow_add, pow_mul]
      simp
    have : ang l (theta + Real.pi) = (-1) ^ n * ang l theta := by
      unfold ang
      rw [mul_add, Real.sin_add_int_mul_pi, Real.cos_add_int_mul_pi, hpar]
      split_ifs <;> rfl
    rw [this]; congr 1; ring
  · rw [hU]
    unfold ang
    rw [mul_neg, Real.sin_neg, Real.cos_neg]
    split_ifs <;> simp
  · rw [hU]
    unfold ang
    rw [mul_add, Real.sin_add_int_mul_two_pi, Real.cos_add_int_mul_two_pi]
  · rw [hU, Rsum_neg _ _ _ hba, hn]
    congr 1; ring

example : Spec.Allowed 3 (-1) := by constructor <;> norm_num [Int.even_iff]

end Verif.Props
