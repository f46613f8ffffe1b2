import Verif.Model.DoubleZernike
import Verif.Lemmas.Wavefront
import Verif.Lemmas.ZernikeBound
import Verif.Props.Double

/-! # C99: the Zernike polynomials and the wavefront in the arithmetic of doubles -/

namespace Verif.Props

open Verif Verif.Zernike Verif.Np Verif.Aperture Finset

/-! ## Specification -/

/-- What is assumed of the mathematical library on the unit interval: doubles within four units in the last place
of the exact value, powers of 0 and ±1 exact. -/
structure Spec.Accurate (L : Dbl.Libm) : Prop where
  pow : ∀ (x : ℝ) (k : ℕ), Spec.IsDouble x → |x| ≤ 1 → ∃ p, L.pow (.fin x) k = .fin p ∧ Spec.IsDouble p ∧
    |p - x ^ k| ≤ |x| ^ k / 2 ^ 50 + 2 ^ (-1072 : ℤ)
  pow_exact : ∀ (x : ℝ) (k : ℕ), x = 0 ∨ x = 1 ∨ x = -1 → L.pow (.fin x) k = .fin (x ^ k)
  sin : ∀ x : ℝ, Spec.IsDouble x → ∃ s, L.sin (.fin x) = .fin s ∧ Spec.IsDouble s ∧ |s| ≤ 1 ∧ |s - Real.sin x| ≤ 1 / 2 ^ 51
  cos : ∀ x : ℝ, Spec.IsDouble x → ∃ s, L.cos (.fin x) = .fin s ∧ Spec.IsDouble s ∧ |s| ≤ 1 ∧ |s - Real.cos x| ≤ 1 / 2 ^ 51

/-! ## Rounding steps -/

theorem two_pow_lt_range {k : ℕ} (hk : k ≤ 1000) : (2 : ℝ) ^ k < 2 ^ 1024 - 2 ^ 970 := by
  have h1 : (2 : ℝ) ^ k ≤ 2 ^ 1000 := pow_le_pow_right₀ one_le_two hk
  have h2 : (2 : ℝ) ^ 1024 = 2 ^ 24 * 2 ^ 1000 := by rw [← pow_add]
  have h3 : (2 : ℝ) ^ 970 ≤ 2 ^ 1000 := pow_le_pow_right₀ one_le_two (by norm_num)
  have h4 : (0 : ℝ) < 2 ^ 1000 := by positivity
  rw [h2]
  clear h2
  generalize (2 : ℝ) ^ 1000 = A at *
  generalize (2 : ℝ) ^ 970 = B at *
  generalize (2 : ℝ) ^ k = C at *
  norm_num
  linarith

/-- One rounding. -/
theorem round_tiny {rnd : ℝ → Fl} (h : Spec.Rounding rnd) {y : ℝ} (hy : |y| < 2 ^ 1024 - 2 ^ 970) :
    ∃ z, rnd y = .fin z ∧ Spec.IsDouble z ∧ |z - y| ≤ |y| / 2 ^ 53 + 2 ^ (-1075 : ℤ) := by
  obtain ⟨z, h1, h2, -, h3⟩ := round_spec h hy
  have hp : (0 : ℝ) < 2 ^ (-1075 : ℤ) := by positivity
  have hq : 0 ≤ |y| / 2 ^ 53 := by positivity
  refine ⟨z, h1, h2, ?_⟩
  rcases h3 with h3 | ⟨-, h3⟩
  · linarith
  · linarith

theorem tiny_le {k : ℤ} (hk : k ≤ -100) : (2 : ℝ) ^ k ≤ 1 / 2 ^ 100 := by
  have : (2 : ℝ) ^ k ≤ 2 ^ (-100 : ℤ) := zpow_le_zpow_right₀ one_le_two hk
  rwa [show (-100 : ℤ) = -((100 : ℕ) : ℤ) from rfl, zpow_neg, zpow_natCast, ← one_div] at this

/-- One rounding of a number of at most one and a half times the size `A`. -/
theorem round_step {rnd : ℝ → Fl} (h : Spec.Rounding rnd) {y A : ℝ} (hA : 1 ≤ A) (hA' : A ≤ 2 ^ 200)
    (hy : |y| ≤ 3 / 2 * A) :
    ∃ z, rnd y = .fin z ∧ Spec.IsDouble z ∧ |z - y| ≤ A / 2 ^ 52 := by
  have hlt : |y| < 2 ^ 1024 - 2 ^ 970 := by
    refine lt_of_le_of_lt ?_ (two_pow_lt_range (k := 201) (by norm_num))
    norm_num at hA' ⊢
    linarith
  obtain ⟨z, h3, h4, h5⟩ := round_tiny h hlt
  refine ⟨z, h3, h4, h5.trans ?_⟩
  clear hlt h5
  have := tiny_le (k := -1075) (by norm_num)
  generalize (2 : ℝ) ^ (-1075 : ℤ) = τ at *
  norm_num at this ⊢
  linarith

/-! ## Factorials are doubles -/

/-- Every divisor of `20!` is a double: its odd part is small. -/
theorem isDouble_of_dvd {d : ℕ} (hd : d ∣ Nat.factorial 20) : Spec.IsDouble d := by
  have h0 : d ≠ 0 := fun h => by
    rw [h, Nat.zero_dvd] at hd
    exact Nat.factorial_ne_zero 20 hd
  obtain ⟨k, o, ho, rfl⟩ := Nat.exists_eq_two_pow_mul_odd h0
  have h20 : Nat.factorial 20 = 2 ^ 18 * 9280784638125 := by decide
  have ho' : o ∣ 9280784638125 := by
    have : o ∣ 2 ^ 18 * 9280784638125 := h20 ▸ (dvd_mul_left o _).trans hd
    exact (Nat.Coprime.pow_right 18 (Nat.coprime_two_right.2 ho)).dvd_of_dvd_mul_left this
  have hk : k ≤ 61 := by
    have h1 : 2 ^ k ∣ Nat.factorial 20 := (dvd_mul_right _ _).trans hd
    have h2 : 2 ^ k ≤ Nat.factorial 20 := Nat.le_of_dvd (Nat.factorial_pos 20) h1
    by_contra hc
    have h3 : 2 ^ 62 ≤ 2 ^ k := Nat.pow_le_pow_right (by norm_num) (by omega)
    have h4 : Nat.factorial 20 < 2 ^ 62 := by decide
    omega
  have hle : o ≤ 9280784638125 := Nat.le_of_dvd (by norm_num) ho'
  refine ⟨o, k, ?_, by omega, by omega, ?_⟩
  · rw [abs_of_nonneg (by positivity)]
    have : (o : ℤ) ≤ 9280784638125 := by exact_mod_cast hle
    omega
  · push_cast
    rw [zpow_natCast]
    ring

theorem isDouble_neg {x : ℝ} (h : Spec.IsDouble x) : Spec.IsDouble (-x) := by
  obtain ⟨m, q, h1, h2, h3, rfl⟩ := h
  exact ⟨-m, q, by rwa [abs_neg], h2, h3, by push_cast; ring⟩

theorem isDouble_sign {x : ℝ} (h : Spec.IsDouble x) (s : ℕ) : Spec.IsDouble ((-1) ^ s * x) := by
  rcases neg_one_pow_eq_or ℝ s with e | e <;> rw [e]
  · rwa [one_mul]
  · rw [neg_one_mul]
    exact isDouble_neg h

/-! ## The coefficients -/

/-- The absolute value of a coefficient of the radial polynomial. -/
noncomputable def absCoef (a b s : ℕ) : ℝ :=
  ((a + b - s).factorial : ℝ) / ((s.factorial : ℝ) * (a - s).factorial * (b - s).factorial)

/-- It is an integer. -/
theorem absCoef_nat (a b s : ℕ) (h : b ≤ a) (hs : s ≤ b) :
    ∃ q : ℕ, 0 < q ∧ absCoef a b s = q ∧
      (s.factorial * (a - s).factorial * (b - s).factorial) * q = (a + b - s).factorial := by
  refine ⟨(a + b - s).choose a * a.choose s, Nat.mul_pos (Nat.choose_pos (by omega)) (Nat.choose_pos (by omega)),
    ?_, ?_⟩
  all_goals
    have h1 := Nat.choose_mul_factorial_mul_factorial (n := a + b - s) (k := a) (by omega)
    have h2 := Nat.choose_mul_factorial_mul_factorial (n := a) (k := s) (by omega)
    rw [show a + b - s - a = b - s by omega] at h1
  · unfold absCoef
    rw [← h1, ← h2]
    have := Nat.factorial_ne_zero s
    have := Nat.factorial_ne_zero (a - s)
    have := Nat.factorial_ne_zero (b - s)
    push_cast
    field_simp
  · rw [← h1, ← h2]
    ring

/-- The sum of their absolute values. -/
theorem absCoef_sum (a b : ℕ) (h : b ≤ a) :
    ∑ s ∈ range (b + 1), absCoef a b s ≤ (1 + Real.sqrt 2) ^ (a + b) := by
  have h1 : ∑ s ∈ range (b + 1), absCoef a b s = ∑ k ∈ range (b + 1), (a.choose k : ℝ) * b.choose k * 2 ^ k := by
    have := congrArg (fun P => (-1 : ℝ) ^ b * Polynomial.eval (-1 : ℝ) P) (Q1_eq_Q2 a b h)
    simp only [Q1, Q2, Polynomial.eval_finsetSum, Polynomial.eval_mul, Polynomial.eval_C, Polynomial.eval_pow,
      Polynomial.eval_X, Polynomial.eval_sub, Polynomial.eval_one, Finset.mul_sum] at this
    refine Eq.trans ?_ (this.trans ?_)
    · refine Finset.sum_congr rfl fun s hs => ?_
      have hs' : s ≤ b := by simpa [Nat.lt_succ_iff] using hs
      have e : (-1 : ℝ) ^ b * ((-1) ^ s * (-1) ^ (b - s)) = 1 := by
        rw [← pow_add, ← pow_add, show b + (s + (b - s)) = 2 * b by omega, pow_mul]
        norm_num
      unfold rcoef absCoef
      calc _ = (-1 : ℝ) ^ b * ((-1) ^ s * (-1) ^ (b - s)) *
            (((a + b - s).factorial : ℝ) / ((s.factorial : ℝ) * (a - s).factorial * (b - s).factorial)) := by
              rw [e, one_mul]
        _ = _ := by ring
    · refine Finset.sum_congr rfl fun k hk => ?_
      have hk' : k ≤ b := by simpa [Nat.lt_succ_iff] using hk
      have e : (-1 : ℝ) ^ b * ((-1) ^ (b - k) * (-1) ^ k) = 1 := by
        rw [← pow_add, ← pow_add, show b + (b - k + k) = 2 * b by omega, pow_mul]
        norm_num
      have e2 : (-1 - 1 : ℝ) ^ k = (-1) ^ k * 2 ^ k := by rw [← mul_pow]; norm_num
      rw [e2]
      calc _ = (-1 : ℝ) ^ b * ((-1) ^ (b - k) * (-1) ^ k) * ((a.choose k : ℝ) * b.choose k * 2 ^ k) := by ring
        _ = _ := by rw [e, one_mul]
  have h2 : ∀ n : ℕ, ∑ k ∈ range (n + 1), (n.choose k : ℝ) * Real.sqrt 2 ^ k = (1 + Real.sqrt 2) ^ n := by
    intro n
    rw [add_comm (1 : ℝ), add_pow]
    refine Finset.sum_congr rfl fun k _ => ?_
    rw [one_pow, mul_one, mul_comm]
  have hs : ∀ k : ℕ, (2 : ℝ) ^ k = Real.sqrt 2 ^ k * Real.sqrt 2 ^ k := by
    intro k
    rw [← mul_pow, Real.mul_self_sqrt (by norm_num)]
  rw [h1, pow_add, ← h2 a, ← h2 b, Finset.sum_mul_sum]
  calc _ = ∑ k ∈ range (b + 1), ((a.choose k : ℝ) * Real.sqrt 2 ^ k) * ((b.choose k : ℝ) * Real.sqrt 2 ^ k) := by
        refine Finset.sum_congr rfl fun k _ => ?_
        rw [hs]
        ring
    _ ≤ ∑ k ∈ range (b + 1), ∑ j ∈ range (b + 1),
          ((a.choose k : ℝ) * Real.sqrt 2 ^ k) * ((b.choose j : ℝ) * Real.sqrt 2 ^ j) := by
        refine Finset.sum_le_sum fun k hk => ?_
        exact Finset.single_le_sum (f := fun j => ((a.choose k : ℝ) * Real.sqrt 2 ^ k) *
          ((b.choose j : ℝ) * Real.sqrt 2 ^ j)) (fun j _ => by positivity) hk
    _ ≤ _ := by
        refine Finset.sum_le_sum_of_subset_of_nonneg (fun x hx => ?_) fun i _ _ =>
          Finset.sum_nonneg fun j _ => by positivity
        simp only [Finset.mem_range] at hx ⊢
        omega

theorem sqrt_two_pow {n : ℕ} (hn : n ≤ 20) :
    1 ≤ (1 + Real.sqrt 2) ^ n ∧ (1 + Real.sqrt 2) ^ n ≤ 2 ^ 26 := by
  have h1 : (1 : ℝ) ≤ 1 + Real.sqrt 2 := by linarith [Real.sqrt_nonneg 2]
  refine ⟨one_le_pow₀ h1, (pow_le_pow_right₀ h1 hn).trans ?_⟩
  have : Real.sqrt 2 ≤ 1.4143 := by
    rw [Real.sqrt_le_left (by norm_num)]
    norm_num
  calc (1 + Real.sqrt 2) ^ 20 ≤ 2.4143 ^ 20 := by
        refine pow_le_pow_left₀ (by linarith) (by linarith) 20
    _ ≤ 2 ^ 26 := by norm_num

/-! ## The radial polynomial -/

/-- One summand. -/
theorem rTerm_near {rnd : ℝ → Fl} (h : Spec.Rounding rnd) {L : Dbl.Libm} (hL : Spec.Accurate L) (a b s : ℕ)
    (hba : b ≤ a) (hs : s ≤ b) (hn : a + b ≤ 20) (rho : ℝ) (hd : Spec.IsDouble rho) (hr : |rho| ≤ 1) :
    ∃ t, Dbl.rTerm rnd L ((a : ℤ) + b) a b (.fin rho) s = .ok (.fin t) ∧ Spec.IsDouble t ∧
      |t - (-1) ^ s * ((a + b - s).factorial : ℝ) * rho ^ (a + b - 2 * s) /
        ((s.factorial : ℝ) * (a - s).factorial * (b - s).factorial)| ≤ 7 * absCoef a b s / 2 ^ 52 := by
  have e1 : (a : ℤ) + b - s = ((a + b - s : ℕ) : ℤ) := by omega
  have e3 : (a : ℤ) - s = ((a - s : ℕ) : ℤ) := by omega
  have e4 : (b : ℤ) - s = ((b - s : ℕ) : ℤ) := by omega
  have e5 : (a : ℤ) + b - 2 * s = ((a + b - 2 * s : ℕ) : ℤ) := by omega
  obtain ⟨q, hq0, hq, hq'⟩ := absCoef_nat a b s hba hs
  set k := a + b - 2 * s with hk
  set f := (a + b - s).factorial with hf
  set D := s.factorial * (a - s).factorial * (b - s).factorial with hD
  have hD0 : 0 < D := by positivity
  have hfd : f ∣ Nat.factorial 20 := Nat.factorial_dvd_factorial (by omega)
  have hDd : D ∣ Nat.factorial 20 := (Dvd.intro _ hq').trans hfd
  have hf1 : (1 : ℝ) ≤ f := by exact_mod_cast Nat.factorial_pos _
  have hf2 : (f : ℝ) ≤ 2 ^ 200 := by
    have : f ≤ 2 ^ 200 := (Nat.le_of_dvd (Nat.factorial_pos 20) hfd).trans (by
      calc Nat.factorial 20 ≤ 2 ^ 62 := by decide
        _ ≤ 2 ^ 200 := Nat.pow_le_pow_right (by norm_num) (by norm_num))
    exact_mod_cast this
  have hDr : (0 : ℝ) < D := by exact_mod_cast hD0
  have hfq : (f : ℝ) = D * q := by exact_mod_cast hq'.symm
  -- the integers
  have r1 : rnd (((-1) ^ s * (f : ℤ) : ℤ) : ℝ) = .fin ((-1) ^ s * (f : ℝ)) := by
    push_cast
    exact round_self h (isDouble_sign (isDouble_of_dvd hfd) s)
  have r2 : rnd ((D : ℤ) : ℝ) = .fin (D : ℝ) := by
    push_cast
    exact round_self h (isDouble_of_dvd hDd)
  -- the power
  obtain ⟨p, hp, hpd, hpe⟩ := hL.pow rho k hd hr
  have hrk : |rho| ^ k ≤ 1 := pow_le_one₀ (abs_nonneg _) hr
  have hpe' : |p - rho ^ k| ≤ 5 / 2 ^ 52 := by
    have := tiny_le (k := -1072) (by norm_num)
    refine hpe.trans ?_
    have e : |rho| ^ k / 2 ^ 50 ≤ 1 / 2 ^ 50 := by gcongr
    norm_num at this e ⊢
    linarith
  have hpa : |p| ≤ 3 / 2 := by
    have e : |p| ≤ |p - rho ^ k| + |rho ^ k| := by
      have := abs_add_le (p - rho ^ k) (rho ^ k)
      rwa [sub_add_cancel] at this
    rw [abs_pow] at e
    norm_num at hpe'
    linarith
  have hsg : ∀ x : ℝ, |(-1) ^ s * x| = |x| := fun x => by rw [abs_mul, abs_pow, abs_neg, abs_one, one_pow, one_mul]
  -- the product
  obtain ⟨z, hz, hzd, hze⟩ := round_step h (y := (-1) ^ s * (f : ℝ) * p) hf1 hf2 (by
    rw [mul_assoc, hsg, abs_mul, abs_of_nonneg (by linarith : (0 : ℝ) ≤ f)]
    nlinarith)
  have hze' : |z - (-1) ^ s * (f : ℝ) * rho ^ k| ≤ 6 * f / 2 ^ 52 := by
    have e : z - (-1) ^ s * (f : ℝ) * rho ^ k =
        (z - (-1) ^ s * (f : ℝ) * p) + (-1) ^ s * ((f : ℝ) * (p - rho ^ k)) := by ring
    rw [e]
    refine (abs_add_le _ _).trans ?_
    rw [hsg, abs_mul, abs_of_nonneg (by linarith : (0 : ℝ) ≤ f)]
    have : (f : ℝ) * |p - rho ^ k| ≤ f * (5 / 2 ^ 52) := by gcongr
    linarith
  -- the quotient
  have hq1 : (1 : ℝ) ≤ q := by exact_mod_cast hq0
  have hq2 : (q : ℝ) ≤ 2 ^ 200 := by
    refine le_trans ?_ hf2
    rw [hfq]
    have : (1 : ℝ) ≤ D := by exact_mod_cast hD0
    nlinarith
  have hzq : |z / D - (-1) ^ s * (f : ℝ) * rho ^ k / D| ≤ 6 * q / 2 ^ 52 := by
    rw [← sub_div, abs_div, abs_of_pos hDr, div_le_iff₀ hDr]
    refine hze'.trans (le_of_eq ?_)
    rw [hfq]
    ring
  have hex : |(-1) ^ s * (f : ℝ) * rho ^ k / D| ≤ q := by
    rw [abs_div, abs_of_pos hDr, div_le_iff₀ hDr, mul_assoc, hsg, abs_mul, abs_of_nonneg (by linarith : (0 : ℝ) ≤ f),
      abs_pow, hfq]
    have : (0 : ℝ) ≤ D * q := by positivity
    nlinarith
  obtain ⟨t, ht, htd, hte⟩ := round_step h (y := z / D) hq1 hq2 (by
    have e : |z / D| ≤ |z / D - (-1) ^ s * (f : ℝ) * rho ^ k / D| + |(-1) ^ s * (f : ℝ) * rho ^ k / D| := by
      have := abs_add_le (z / D - (-1) ^ s * (f : ℝ) * rho ^ k / D) ((-1) ^ s * (f : ℝ) * rho ^ k / D)
      rwa [sub_add_cancel] at this
    norm_num at hzq
    linarith)
  refine ⟨t, ?_, htd, ?_⟩
  · unfold Dbl.rTerm
    rw [e5, e1, e3, e4, factorial_ofNat, factorial_ofNat, factorial_ofNat, factorial_ofNat]
    show Except.ok (Dbl.div rnd (Dbl.mul rnd (rnd (((-1) ^ s * (f : ℤ) : ℤ) : ℝ)) (L.pow (.fin rho) (k : ℤ)))
      (rnd ((D : ℤ) : ℝ))) = _
    rw [r1, r2, hp]
    have m1 : Dbl.mul rnd (.fin ((-1) ^ s * (f : ℝ))) (.fin p) = .fin z := hz
    rw [m1]
    have m2 : Dbl.div rnd (.fin z) (.fin (D : ℝ)) = .fin t := by
      have : Fl.div (.fin z) (.fin (D : ℝ)) = .fin (z / D) := if_neg hDr.ne'
      unfold Dbl.div
      rw [this]
      exact ht
    rw [m2]
  · have hDe : ((s.factorial : ℝ) * (a - s).factorial * (b - s).factorial) = D := by rw [hD]; push_cast; ring
    rw [hDe, hq]
    have e : t - (-1) ^ s * (f : ℝ) * rho ^ k / D =
        (t - z / D) + (z / D - (-1) ^ s * (f : ℝ) * rho ^ k / D) := by ring
    rw [e]
    refine (abs_add_le _ _).trans ?_
    linarith

/-- A sum of terms of the sizes `C`. -/
theorem sum_near {rnd : ℝ → Fl} (h : Spec.Rounding rnd) (c : ℝ) (hc : 0 ≤ c) (N : ℕ) (hN : c + N ≤ 2 ^ 50)
    (t x C : ℕ → ℝ) (hC : ∀ i < N, 1 ≤ C i) (hCs : ∑ i ∈ range N, C i ≤ 2 ^ 200) (hx : ∀ i < N, |x i| ≤ C i)
    (ht : ∀ i < N, |t i - x i| ≤ c * C i / 2 ^ 52) (htd : ∀ i < N, Spec.IsDouble (t i)) :
    ∃ r, Dbl.sum rnd ((List.range N).map fun i => .fin (t i)) = .fin r ∧ Spec.IsDouble r ∧
      |r - ∑ i ∈ range N, x i| ≤ (c + N) * (∑ i ∈ range N, C i) / 2 ^ 52 := by
  induction N with
  | zero =>
    refine ⟨0, ?_, isDouble_zero, by simp⟩
    show rnd ((0 : ℤ) : ℝ) = _
    rw [Int.cast_zero]
    exact round_self h isDouble_zero
  | succ N ih =>
    have hCn : 1 ≤ C N := hC N (by omega)
    rw [Finset.sum_range_succ] at hCs
    have hP : 0 ≤ ∑ i ∈ range N, C i := Finset.sum_nonneg fun i hi =>
      zero_le_one.trans (hC i (by simp only [Finset.mem_range] at hi; omega))
    push_cast at hN
    obtain ⟨r, h1, h2, h3⟩ := ih (by linarith) (fun i hi => hC i (by omega)) (by linarith)
      (fun i hi => hx i (by omega)) (fun i hi => ht i (by omega)) (fun i hi => htd i (by omega))
    set P := ∑ i ∈ range N, C i with hPd
    have hX : |∑ i ∈ range N, x i| ≤ P := (Finset.abs_sum_le_sum_abs _ _).trans
      (Finset.sum_le_sum fun i hi => hx i (by simp only [Finset.mem_range] at hi; omega))
    have ht' := ht N (by omega)
    have hx' := hx N (by omega)
    have hy : |r + t N - (∑ i ∈ range N, x i + x N)| ≤ (c + N) * (P + C N) / 2 ^ 52 := by
      have e : r + t N - (∑ i ∈ range N, x i + x N) = (r - ∑ i ∈ range N, x i) + (t N - x N) := by ring
      rw [e]
      refine (abs_add_le _ _).trans ((add_le_add h3 ht').trans ?_)
      rw [← add_div]
      gcongr
      have : (0 : ℝ) ≤ N := Nat.cast_nonneg N
      nlinarith
    have hXn : |∑ i ∈ range N, x i + x N| ≤ P + C N := (abs_add_le _ _).trans (add_le_add hX hx')
    have hPC : 0 ≤ P + C N := by linarith
    have hy' : |r + t N| ≤ 3 / 2 * (P + C N) := by
      have e : |r + t N| ≤ |r + t N - (∑ i ∈ range N, x i + x N)| + |∑ i ∈ range N, x i + x N| := by
        have := abs_add_le (r + t N - (∑ i ∈ range N, x i + x N)) (∑ i ∈ range N, x i + x N)
        rwa [sub_add_cancel] at this
      have e2 : (c + N) * (P + C N) / 2 ^ 52 ≤ 2 ^ 50 * (P + C N) / 2 ^ 52 := by
        gcongr
        linarith
      norm_num at e2
      linarith
    obtain ⟨z, hz, hzd, hze⟩ := round_step h (by linarith) hCs hy'
    refine ⟨z, ?_, hzd, ?_⟩
    · rw [List.range_succ, List.map_append, List.map_cons, List.map_nil]
      unfold Dbl.sum
      rw [List.foldl_append]
      show Dbl.add rnd (Dbl.sum rnd _) _ = _
      rw [h1]
      exact hz
    · rw [Finset.sum_range_succ, Finset.sum_range_succ]
      have e : z - (∑ i ∈ range N, x i + x N) = (z - (r + t N)) + (r + t N - (∑ i ∈ range N, x i + x N)) := by ring
      rw [e]
      refine (abs_add_le _ _).trans ((add_le_add hze hy).trans (le_of_eq ?_))
      push_cast
      ring

theorem RD_near {rnd : ℝ → Fl} (h : Spec.Rounding rnd) {L : Dbl.Libm} (hL : Spec.Accurate L) (a b : ℕ)
    (hba : b ≤ a) (hn : a + b ≤ 20) (rho : ℝ) (hd : Spec.IsDouble rho) (hr : |rho| ≤ 1) :
    ∃ r, Dbl.R rnd L ((a : ℤ) + b) ((a : ℤ) - b) (.fin rho) = .ok (.fin r) ∧ Spec.IsDouble r ∧
      |r - Rsum a b rho| ≤ (1 + Real.sqrt 2) ^ (a + b) / 2 ^ 47 := by
  have hterm := fun s (hs : s ≤ b) => rTerm_near h hL a b s hba hs hn rho hd hr
  have hex : ∀ s, ∃ t, s ≤ b → Dbl.rTerm rnd L ((a : ℤ) + b) a b (.fin rho) s = .ok (.fin t) ∧ Spec.IsDouble t ∧
      |t - (-1) ^ s * ((a + b - s).factorial : ℝ) * rho ^ (a + b - 2 * s) /
        ((s.factorial : ℝ) * (a - s).factorial * (b - s).factorial)| ≤ 7 * absCoef a b s / 2 ^ 52 := by
    intro s
    by_cases hs : s ≤ b
    · obtain ⟨t, ht⟩ := hterm s hs
      exact ⟨t, fun _ => ht⟩
    · exact ⟨0, fun hs' => absurd hs' hs⟩
  choose t ht using hex
  have hsum := absCoef_sum a b hba
  obtain ⟨hX1, hX2⟩ := sqrt_two_pow hn
  have hb : b ≤ 10 := by omega
  have hb' : (b : ℝ) ≤ 10 := by exact_mod_cast hb
  obtain ⟨r, h1, h2, h3⟩ := sum_near h 7 (by norm_num) (b + 1) (by push_cast; norm_num; linarith) t
    (fun s => (-1) ^ s * ((a + b - s).factorial : ℝ) * rho ^ (a + b - 2 * s) /
        ((s.factorial : ℝ) * (a - s).factorial * (b - s).factorial)) (absCoef a b)
    (fun s hs => by
      obtain ⟨q, h1, h2, -⟩ := absCoef_nat a b s hba (by omega)
      rw [h2]
      exact_mod_cast h1)
    (hsum.trans (hX2.trans (pow_le_pow_right₀ one_le_two (by norm_num))))
    (fun s hs => by
      rw [abs_div, mul_assoc, abs_mul, abs_pow, abs_neg, abs_one, one_pow, one_mul, abs_mul, abs_pow,
        abs_of_nonneg (by positivity : (0 : ℝ) ≤ ((a + b - s).factorial : ℝ)),
        abs_of_nonneg (by positivity : (0 : ℝ) ≤ (s.factorial : ℝ) * (a - s).factorial * (b - s).factorial)]
      unfold absCoef
      have : |rho| ^ (a + b - 2 * s) ≤ 1 := pow_le_one₀ (abs_nonneg _) hr
      gcongr
      nlinarith [(by positivity : (0 : ℝ) ≤ ((a + b - s).factorial : ℝ))])
    (fun s hs => (ht s (by omega)).2.2) (fun s hs => (ht s (by omega)).2.1)
  refine ⟨r, ?_, h2, h3.trans ?_⟩
  · have ha : ((a : ℤ) + b + (a - b)) / 2 = a := by omega
    have hb : ((a : ℤ) + b - (a - b)) / 2 = b := by omega
    have hN : ((b : ℤ) + 1).toNat = b + 1 := by omega
    unfold Dbl.R
    simp only [ha, hb]
    rw [hN, mapM_ok _ _ (fun s => Fl.fin (t s)) fun s hs => (ht s (by simpa [Nat.lt_succ_iff] using hs)).1]
    show Except.ok _ = _
    rw [h1]
  · have h0 : 0 ≤ ∑ s ∈ range (b + 1), absCoef a b s := Finset.sum_nonneg fun s _ => by unfold absCoef; positivity
    push_cast
    rw [div_le_div_iff₀ (by norm_num) (by norm_num)]
    norm_num
    nlinarith

/-- **C99.**  The radial polynomial of order up to 20 in doubles: the error is at most `2 ^ -47` times the `n`-th
power of `1 + √2`. -/
theorem C99_radial {rnd : ℝ → Fl} (h : Spec.Rounding rnd) {L : Dbl.Libm} (hL : Spec.Accurate L) (n m : ℕ)
    (hn : n ≤ 20) (hm : Spec.Allowed n m) (rho : ℝ) (hd : Spec.IsDouble rho) (hr : |rho| ≤ 1) :
    ∃ r v, Dbl.R rnd L n m (.fin rho) = .ok (.fin r) ∧ Zernike.R n m rho = .ok v ∧ Spec.IsDouble r ∧
      |r - v| ≤ (1 + Real.sqrt 2) ^ n / 2 ^ 47 := by
  obtain ⟨h1, k, hk⟩ := hm
  rw [abs_of_nonneg (by positivity)] at h1
  have hba : (n - m) / 2 ≤ (n + m) / 2 := by omega
  have e0 : (n + m) / 2 + (n - m) / 2 = n := by omega
  have e1 : (n : ℤ) = (((n + m) / 2 : ℕ) : ℤ) + ((n - m) / 2 : ℕ) := by omega
  have e2 : (m : ℤ) = (((n + m) / 2 : ℕ) : ℤ) - ((n - m) / 2 : ℕ) := by omega
  have hR := R_eq_Rsum _ _ hba rho
  obtain ⟨r, h2, h3, h4⟩ := RD_near h hL _ _ hba (by omega) rho hd hr
  rw [← e1, ← e2] at hR h2
  rw [e0] at h4
  exact ⟨r, _, h2, hR, h3, h4⟩

/-! ### Exact values -/

theorem isDouble_int {z : ℤ} (h : |z| < 2 ^ 53) : Spec.IsDouble z := ⟨z, 0, h, by norm_num, by norm_num, by simp⟩

theorem sum_exact {rnd : ℝ → Fl} (h : Spec.Rounding rnd) (N : ℕ) (z : ℕ → ℤ)
    (hz : ∑ i ∈ range N, |z i| < 2 ^ 53) :
    Dbl.sum rnd ((List.range N).map fun i => .fin (z i : ℝ)) = .fin ((∑ i ∈ range N, z i : ℤ) : ℝ) := by
  induction N with
  | zero =>
    show rnd ((0 : ℤ) : ℝ) = _
    simpa using round_self h isDouble_zero
  | succ N ih =>
    rw [Finset.sum_range_succ] at hz
    have h1 := ih (by have := abs_nonneg (z N); omega)
    rw [List.range_succ, List.map_append, List.map_cons, List.map_nil]
    unfold Dbl.sum
    rw [List.foldl_append]
    show Dbl.add rnd (Dbl.sum rnd _) (.fin (z N : ℝ)) = _
    rw [h1]
    show rnd (((∑ i ∈ range N, z i : ℤ) : ℝ) + (z N : ℝ)) = _
    rw [Finset.sum_range_succ, ← Int.cast_add]
    refine round_self h (isDouble_int (lt_of_le_of_lt ?_ hz))
    refine (abs_add_le _ _).trans ?_
    have := Finset.abs_sum_le_sum_abs z (range N)
    linarith

theorem RD_exact {rnd : ℝ → Fl} (h : Spec.Rounding rnd) {L : Dbl.Libm} (hL : Spec.Accurate L) (a b : ℕ)
    (hba : b ≤ a) (hn : a + b ≤ 20) (x : ℤ) (hx : x = 0 ∨ x = 1 ∨ x = -1) :
    Dbl.R rnd L ((a : ℤ) + b) ((a : ℤ) - b) (.fin x) = .ok (.fin (Rsum a b x)) := by
  have hxk : ∀ k : ℕ, x ^ k = 0 ∨ x ^ k = 1 ∨ x ^ k = -1 := by
    intro k
    rcases hx with e | e | e <;> rw [e]
    · rcases Nat.eq_zero_or_pos k with hk | hk
      · right; left; rw [hk, pow_zero]
      · left; exact zero_pow (by omega)
    · right; left; exact one_pow k
    · exact .inr (neg_one_pow_eq_or ℤ k)
  have hq : ∀ s, ∃ q : ℕ, s ≤ b → 0 < q ∧ absCoef a b s = q ∧
      (s.factorial * (a - s).factorial * (b - s).factorial) * q = (a + b - s).factorial := by
    intro s
    by_cases hs : s ≤ b
    · obtain ⟨q, hq⟩ := absCoef_nat a b s hba hs
      exact ⟨q, fun _ => hq⟩
    · exact ⟨0, fun hs' => absurd hs' hs⟩
  choose q hq using hq
  have hval : ∀ s, s ≤ b → (-1) ^ s * ((a + b - s).factorial : ℝ) * (x : ℝ) ^ (a + b - 2 * s) /
        ((s.factorial : ℝ) * (a - s).factorial * (b - s).factorial) =
      (((-1) ^ s * (q s : ℤ) * x ^ (a + b - 2 * s) : ℤ) : ℝ) := by
    intro s hs
    have h1 := (hq s hs).2.1
    unfold absCoef at h1
    push_cast
    rw [← h1]
    ring
  have hterm : ∀ s, s ≤ b → Dbl.rTerm rnd L ((a : ℤ) + b) a b (.fin x) s =
      .ok (.fin (((-1) ^ s * (q s : ℤ) * x ^ (a + b - 2 * s) : ℤ) : ℝ)) := by
    intro s hs
    have e1 : (a : ℤ) + b - s = ((a + b - s : ℕ) : ℤ) := by omega
    have e3 : (a : ℤ) - s = ((a - s : ℕ) : ℤ) := by omega
    have e4 : (b : ℤ) - s = ((b - s : ℕ) : ℤ) := by omega
    have e5 : (a : ℤ) + b - 2 * s = ((a + b - 2 * s : ℕ) : ℤ) := by omega
    obtain ⟨hq0, hq1, hq'⟩ := hq s hs
    have hv := hval s hs
    set k := a + b - 2 * s with hk
    set f := (a + b - s).factorial with hf
    set D := s.factorial * (a - s).factorial * (b - s).factorial with hD
    have hD0 : 0 < D := by positivity
    have hDr : (0 : ℝ) < D := by exact_mod_cast hD0
    have hfd : f ∣ Nat.factorial 20 := Nat.factorial_dvd_factorial (by omega)
    have hDd : D ∣ Nat.factorial 20 := (Dvd.intro _ hq').trans hfd
    have hqd : q s ∣ Nat.factorial 20 := (Dvd.intro_left _ hq').trans hfd
    have times : ∀ y : ℝ, Spec.IsDouble y → Spec.IsDouble (y * (x : ℝ) ^ k) := by
      intro y hy
      have : ((x : ℝ) ^ k = 0 ∨ (x : ℝ) ^ k = 1 ∨ (x : ℝ) ^ k = -1) := by
        rcases hxk k with e | e | e
        · left; exact_mod_cast e
        · right; left; exact_mod_cast e
        · right; right; exact_mod_cast e
      rcases this with e | e | e <;> rw [e]
      · rw [mul_zero]; exact isDouble_zero
      · rwa [mul_one]
      · rw [mul_neg_one]; exact isDouble_neg hy
    have r1 : rnd (((-1) ^ s * (f : ℤ) : ℤ) : ℝ) = .fin ((-1) ^ s * (f : ℝ)) := by
      push_cast
      exact round_self h (isDouble_sign (isDouble_of_dvd hfd) s)
    have r2 : rnd ((D : ℤ) : ℝ) = .fin (D : ℝ) := by
      push_cast
      exact round_self h (isDouble_of_dvd hDd)
    have hp : L.pow (.fin x) (k : ℤ) = .fin ((x : ℝ) ^ k) := by
      refine hL.pow_exact x k ?_
      rcases hx with e | e | e <;> simp [e]
    unfold Dbl.rTerm
    rw [e5, e1, e3, e4, factorial_ofNat, factorial_ofNat, factorial_ofNat, factorial_ofNat]
    show Except.ok (Dbl.div rnd (Dbl.mul rnd (rnd (((-1) ^ s * (f : ℤ) : ℤ) : ℝ)) (L.pow (.fin x) (k : ℤ)))
      (rnd ((D : ℤ) : ℝ))) = _
    rw [r1, r2, hp]
    have m1 : Dbl.mul rnd (.fin ((-1) ^ s * (f : ℝ))) (.fin ((x : ℝ) ^ k)) = .fin ((-1) ^ s * (f : ℝ) * (x : ℝ) ^ k) :=
      round_self h (times _ (isDouble_sign (isDouble_of_dvd hfd) s))
    have hDe : ((s.factorial : ℝ) * (a - s).factorial * (b - s).factorial) = D := by rw [hD]; push_cast; ring
    rw [hDe] at hv
    have m2 : Dbl.div rnd (.fin ((-1) ^ s * (f : ℝ) * (x : ℝ) ^ k)) (.fin (D : ℝ)) =
        .fin (((-1) ^ s * (q s : ℤ) * x ^ k : ℤ) : ℝ) := by
      have : Fl.div (.fin ((-1) ^ s * (f : ℝ) * (x : ℝ) ^ k)) (.fin (D : ℝ)) =
          .fin ((-1) ^ s * (f : ℝ) * (x : ℝ) ^ k / D) := if_neg hDr.ne'
      unfold Dbl.div
      rw [this, hv]
      refine round_self h ?_
      push_cast
      exact times _ (isDouble_sign (isDouble_of_dvd hqd) s)
    rw [m1, m2]
  have hsmall : ∑ s ∈ range (b + 1), |(-1) ^ s * (q s : ℤ) * x ^ (a + b - 2 * s)| < 2 ^ 53 := by
    have h1 := (absCoef_sum a b hba).trans (sqrt_two_pow hn).2
    have h2 : ∑ s ∈ range (b + 1), absCoef a b s = ((∑ s ∈ range (b + 1), (q s : ℤ) : ℤ) : ℝ) := by
      push_cast
      refine Finset.sum_congr rfl fun s hs => (hq s ?_).2.1
      simpa [Nat.lt_succ_iff] using hs
    rw [h2] at h1
    have h3 : ∑ s ∈ range (b + 1), (q s : ℤ) ≤ 2 ^ 26 := by exact_mod_cast h1
    have h4 : ∑ s ∈ range (b + 1), |(-1) ^ s * (q s : ℤ) * x ^ (a + b - 2 * s)| ≤ ∑ s ∈ range (b + 1), (q s : ℤ) := by
      refine Finset.sum_le_sum fun s _ => ?_
      rw [mul_assoc, abs_mul, abs_pow, abs_neg, abs_one, one_pow, one_mul, abs_mul, Nat.abs_cast]
      rcases hxk (a + b - 2 * s) with e | e | e <;> rw [e] <;> simp
    omega
  have ha : ((a : ℤ) + b + (a - b)) / 2 = a := by omega
  have hb : ((a : ℤ) + b - (a - b)) / 2 = b := by omega
  have hN : ((b : ℤ) + 1).toNat = b + 1 := by omega
  unfold Dbl.R
  simp only [ha, hb]
  rw [hN, mapM_ok _ _ (fun s => Fl.fin (((-1) ^ s * (q s : ℤ) * x ^ (a + b - 2 * s) : ℤ) : ℝ))
    fun s hs => hterm s (by simpa [Nat.lt_succ_iff] using hs)]
  show Except.ok _ = _
  rw [sum_exact h (b + 1) (fun s => (-1) ^ s * (q s : ℤ) * x ^ (a + b - 2 * s)) hsmall, Int.cast_sum]
  congr 2
  unfold Rsum
  refine Finset.sum_congr rfl fun s hs => (hval s ?_).symm
  simpa [Nat.lt_succ_iff] using hs

/-- **C99.**  In the centre and at the rim no rounding is left: the polynomials have their exact value, 1 at the
rim. -/
theorem C99_exact {rnd : ℝ → Fl} (h : Spec.Rounding rnd) {L : Dbl.Libm} (hL : Spec.Accurate L) (n m : ℕ)
    (hn : n ≤ 20) (hm : Spec.Allowed n m) :
    Dbl.R rnd L n m (.fin 1) = .ok (.fin 1) ∧
      ∃ v, Dbl.R rnd L n m (.fin 0) = .ok (.fin v) ∧ Zernike.R n m 0 = .ok v := by
  obtain ⟨h1, k, hk⟩ := hm
  rw [abs_of_nonneg (by positivity)] at h1
  have hba : (n - m) / 2 ≤ (n + m) / 2 := by omega
  have e1 : (n : ℤ) = (((n + m) / 2 : ℕ) : ℤ) + ((n - m) / 2 : ℕ) := by omega
  have e2 : (m : ℤ) = (((n + m) / 2 : ℕ) : ℤ) - ((n - m) / 2 : ℕ) := by omega
  have hR := R_eq_Rsum _ _ hba 0
  have h2 := RD_exact h hL _ _ hba (by omega) 1 (.inr (.inl rfl))
  have h3 := RD_exact h hL _ _ hba (by omega) 0 (.inl rfl)
  rw [← e1, ← e2] at hR h2 h3
  rw [Int.cast_one, Rsum_one _ _ hba] at h2
  rw [Int.cast_zero] at h3
  exact ⟨h2, _, h3, hR⟩

/-! ## The circle polynomials -/

/-- **C99.**  The circle polynomials of order up to 20 at angles as `cart2pol` gives them. -/
theorem C99_circle {rnd : ℝ → Fl} (h : Spec.Rounding rnd) {L : Dbl.Libm} (hL : Spec.Accurate L) (n : ℕ) (l : ℤ)
    (hn : n ≤ 20) (hl : Spec.Allowed n l) (rho theta : ℝ) (hd : Spec.IsDouble rho) (hr : |rho| ≤ 1)
    (hd' : Spec.IsDouble theta) (ht : |theta| ≤ 4) :
    ∃ r v, Dbl.U rnd L n l (.fin rho) (.fin theta) = .ok (.fin r) ∧
      Zernike.U (.int n) (.int l) rho theta = .ok v ∧ Spec.IsDouble r ∧ |v| ≤ 1 ∧
      |r - v| ≤ (1 + Real.sqrt 2) ^ n / 2 ^ 45 := by
  obtain ⟨a, b, hba, hab, hl', hU⟩ := U_value n l hl
  obtain ⟨R, hR, hRd, hRe⟩ := RD_near h hL a b hba (by omega) rho hd hr
  have e1 : (n : ℤ) = (a : ℤ) + b := by omega
  have e2 : |l| = (a : ℤ) - b := by omega
  rw [← e1, ← e2] at hR
  rw [hab] at hRe
  obtain ⟨hX1, hX2⟩ := sqrt_two_pow hn
  set X := (1 + Real.sqrt 2) ^ n
  have hRs := Rsum_abs_le a b hba rho hr
  have hRb : |R| ≤ 3 / 2 := by
    have := abs_add_le (R - Rsum a b rho) (Rsum a b rho)
    rw [sub_add_cancel] at this
    norm_num at hRe hX2
    linarith
  -- the angle
  have hm : (|l| : ℤ) ≤ 20 := by omega
  have hm' : |((|l| : ℤ) : ℝ)| ≤ 20 := by
    rw [abs_of_nonneg (by exact_mod_cast abs_nonneg l)]
    exact_mod_cast hm
  have r1 : rnd ((|l| : ℤ) : ℝ) = .fin ((|l| : ℤ) : ℝ) := by
    refine round_self h (isDouble_int ?_)
    rw [abs_abs]
    omega
  obtain ⟨φ, hφ, hφd, hφe⟩ := round_step h (y := ((|l| : ℤ) : ℝ) * theta) (A := 80) (by norm_num) (by norm_num) (by
    rw [abs_mul]
    nlinarith [abs_nonneg theta, abs_nonneg ((|l| : ℤ) : ℝ)])
  have hφ' : Dbl.mul rnd (.fin ((|l| : ℤ) : ℝ)) (.fin theta) = .fin φ := hφ
  have key : ∀ (c C C' : ℝ), Spec.IsDouble c → |c| ≤ 1 → |c - C'| ≤ 1 / 2 ^ 51 → |C' - C| ≤ |φ - ((|l| : ℤ) : ℝ) * theta| →
      ∃ r, Dbl.mul rnd (.fin R) (.fin c) = .fin r ∧ Spec.IsDouble r ∧ |r - Rsum a b rho * C| ≤ X / 2 ^ 45 := by
    intro c C C' hc hc1 hcC hC
    obtain ⟨r, h1, h2, h3⟩ := round_step h (y := R * c) (A := 1) le_rfl (by norm_num) (by
      rw [abs_mul, mul_one]
      nlinarith [abs_nonneg R, abs_nonneg c])
    refine ⟨r, h1, h2, ?_⟩
    have e : r - Rsum a b rho * C = (r - R * c) + ((R - Rsum a b rho) * c + Rsum a b rho * ((c - C') + (C' - C))) := by ring
    rw [e]
    refine (abs_add_le _ _).trans ?_
    have h4 : |(R - Rsum a b rho) * c| ≤ X / 2 ^ 47 := by
      rw [abs_mul]
      nlinarith [abs_nonneg (R - Rsum a b rho), abs_nonneg c]
    have h5 : |Rsum a b rho * ((c - C') + (C' - C))| ≤ 1 / 2 ^ 51 + 80 / 2 ^ 52 := by
      rw [abs_mul]
      have : |(c - C') + (C' - C)| ≤ 1 / 2 ^ 51 + 80 / 2 ^ 52 := (abs_add_le _ _).trans (by linarith)
      nlinarith [abs_nonneg (Rsum a b rho), abs_nonneg ((c - C') + (C' - C))]
    have h6 := abs_add_le ((R - Rsum a b rho) * c) (Rsum a b rho * ((c - C') + (C' - C)))
    linarith
  have hb1 : |ang l theta| ≤ 1 := by
    unfold ang
    split_ifs
    · exact Real.abs_sin_le_one _
    · exact Real.abs_cos_le_one _
  have hle : |Rsum a b rho * ang l theta| ≤ 1 := by
    rw [abs_mul]
    exact mul_le_one₀ hRs (abs_nonneg _) hb1
  have hn0 : ¬ ((n : ℤ) < 0) := by omega
  by_cases hneg : l < 0
  · obtain ⟨c, hc1, hc2, hc3, hc4⟩ := hL.sin φ hφd
    obtain ⟨r, h1, h2, h3⟩ := key c (Real.sin (((|l| : ℤ) : ℝ) * theta)) (Real.sin φ) hc2 hc3 hc4
      (Real.abs_sin_sub_sin_le _ _)
    refine ⟨r, _, ?_, hU rho theta, h2, hle, ?_⟩
    · unfold Dbl.U
      rw [if_neg hn0]
      simp only [hR, bind, Except.bind, if_pos hneg, Dbl.ofInt, r1, hφ', hc1, h1]
      rfl
    · unfold ang
      rw [if_pos hneg]
      exact h3
  · obtain ⟨c, hc1, hc2, hc3, hc4⟩ := hL.cos φ hφd
    obtain ⟨r, h1, h2, h3⟩ := key c (Real.cos (((|l| : ℤ) : ℝ) * theta)) (Real.cos φ) hc2 hc3 hc4
      (Real.abs_cos_sub_cos_le _ _)
    refine ⟨r, _, ?_, hU rho theta, h2, hle, ?_⟩
    · unfold Dbl.U
      rw [if_neg hn0]
      simp only [hR, bind, Except.bind, if_neg hneg, Dbl.ofInt, r1, hφ', hc1, h1]
      rfl
    · unfold ang
      rw [if_neg hneg]
      exact h3

/-! ## The wavefront -/

/-- A sum of terms of the sizes `k`, which may be tiny. -/
theorem sum_near_tiny {rnd : ℝ → Fl} (h : Spec.Rounding rnd) (E : ℝ) (hE : 0 ≤ E) (N : ℕ) (hN : N ≤ 2 ^ 40)
    (hEN : E + N / 2 ^ 52 ≤ 1 / 2) (t x k : ℕ → ℝ) (hks : ∑ i ∈ range N, k i ≤ 2 ^ 200)
    (hx : ∀ i < N, |x i| ≤ k i) (ht : ∀ i < N, |t i - x i| ≤ E * k i + 2 ^ (-1075 : ℤ)) :
    ∃ r, Dbl.sum rnd ((List.range N).map fun i => .fin (t i)) = .fin r ∧ Spec.IsDouble r ∧
      |r - ∑ i ∈ range N, x i| ≤ (E + N / 2 ^ 52) * (∑ i ∈ range N, k i) + 3 * N * 2 ^ (-1075 : ℤ) := by
  have hτ := tiny_le (k := -1075) (by norm_num)
  have hτ0 : (0 : ℝ) < 2 ^ (-1075 : ℤ) := by positivity
  have hrt : ∀ y : ℝ, |y| < 2 ^ 1024 - 2 ^ 970 →
      ∃ z, rnd y = .fin z ∧ Spec.IsDouble z ∧ |z - y| ≤ |y| / 2 ^ 53 + 2 ^ (-1075 : ℤ) := fun y hy => round_tiny h hy
  generalize (2 : ℝ) ^ (-1075 : ℤ) = τ at *
  induction N with
  | zero =>
    refine ⟨0, ?_, isDouble_zero, by simp⟩
    show rnd ((0 : ℤ) : ℝ) = _
    rw [Int.cast_zero]
    exact round_self h isDouble_zero
  | succ N ih =>
    have hkn : 0 ≤ k N := (abs_nonneg _).trans (hx N (by omega))
    rw [Finset.sum_range_succ] at hks
    have hP : 0 ≤ ∑ i ∈ range N, k i := Finset.sum_nonneg fun i hi =>
      (abs_nonneg _).trans (hx i (by simp only [Finset.mem_range] at hi; omega))
    push_cast at hEN
    have hN0 : (0 : ℝ) ≤ N := Nat.cast_nonneg N
    have hN40 : (N : ℝ) ≤ 2 ^ 40 := by exact_mod_cast (show N ≤ 2 ^ 40 by omega)
    obtain ⟨r, h1, h2, h3⟩ := ih (by omega) (by linarith) (by linarith)
      (fun i hi => hx i (by omega)) (fun i hi => ht i (by omega))
    set P := ∑ i ∈ range N, k i with hPd
    set Y := ∑ i ∈ range N, x i with hYd
    have hX : |Y| ≤ P := (Finset.abs_sum_le_sum_abs _ _).trans
      (Finset.sum_le_sum fun i hi => hx i (by simp only [Finset.mem_range] at hi; omega))
    have ht' := ht N (by omega)
    have hx' := hx N (by omega)
    have hy : |r + t N - (Y + x N)| ≤ (E + N / 2 ^ 52) * (P + k N) + (3 * N + 1) * τ := by
      have e : r + t N - (Y + x N) = (r - Y) + (t N - x N) := by ring
      rw [e]
      refine (abs_add_le _ _).trans ((add_le_add h3 ht').trans ?_)
      have : 0 ≤ N / 2 ^ 52 * k N := by positivity
      linarith
    have hXn : |Y + x N| ≤ P + k N := (abs_add_le _ _).trans (add_le_add hX hx')
    have hPC : 0 ≤ P + k N := by linarith
    have hNτ : (3 * N + 1) * τ ≤ 1 := by
      norm_num at hτ hN40
      nlinarith
    have hhalf : (E + N / 2 ^ 52) * (P + k N) ≤ 1 / 2 * (P + k N) := by
      refine mul_le_mul_of_nonneg_right ?_ hPC
      linarith
    have hy' : |r + t N| ≤ 3 / 2 * (P + k N) + (3 * N + 1) * τ := by
      have e : |r + t N| ≤ |r + t N - (Y + x N)| + |Y + x N| := by
        have := abs_add_le (r + t N - (Y + x N)) (Y + x N)
        rwa [sub_add_cancel] at this
      linarith
    obtain ⟨z, hz, hzd, hze⟩ := hrt (r + t N) (by
      refine lt_of_le_of_lt hy' (lt_of_le_of_lt ?_ (two_pow_lt_range (k := 201) (by norm_num)))
      norm_num at hks ⊢
      linarith)
    refine ⟨z, ?_, hzd, ?_⟩
    · rw [List.range_succ, List.map_append, List.map_cons, List.map_nil]
      unfold Dbl.sum
      rw [List.foldl_append]
      show Dbl.add rnd (Dbl.sum rnd _) _ = _
      rw [h1]
      exact hz
    · rw [Finset.sum_range_succ, Finset.sum_range_succ]
      have e : z - (Y + x N) = (z - (r + t N)) + (r + t N - (Y + x N)) := by ring
      rw [e]
      refine (abs_add_le _ _).trans ?_
      have h4 : (3 * (N : ℝ) + 1) * τ / 2 ^ 53 ≤ τ := by
        norm_num at hN40
        rw [div_le_iff₀ (by norm_num)]
        nlinarith
      have h5 : |r + t N| / 2 ^ 53 ≤ (3 / 2 * (P + k N) + (3 * N + 1) * τ) / 2 ^ 53 := by gcongr
      have h6 : (3 / 2 * (P + k N)) / 2 ^ 53 ≤ 1 / 2 ^ 52 * (P + k N) := by linarith
      push_cast
      rw [← hPd]
      have h7 : (E + ((N : ℝ) + 1) / 2 ^ 52) * (P + k N) = (E + N / 2 ^ 52) * (P + k N) + 1 / 2 ^ 52 * (P + k N) := by ring
      rw [h7]
      rw [add_div] at h5
      linarith

/-- **C99.**  The wavefront of a set of coefficients of order up to 20 in doubles. -/
theorem C99_wavefront {rnd : ℝ → Fl} (h : Spec.Rounding rnd) {L : Dbl.Libm} (hL : Spec.Accurate L) (n : ℕ)
    (hn : n ≤ 20) (K : List ℝ) (hK : K.length = (n + 1) * (n + 2) / 2) (hKd : ∀ k ∈ K, Spec.IsDouble k)
    (hKs : (K.map fun k => |k|).sum ≤ 2 ^ 200) {ι : Type} (rho theta : ι → ℝ) :
    ∃ W, Aperture.wavefront rho theta K = .ok W ∧
      ∀ q, Spec.IsDouble (rho q) → |rho q| ≤ 1 → Spec.IsDouble (theta q) → |theta q| ≤ 4 →
        ∃ w, Dbl.wavefront rnd L (.fin (rho q)) (.fin (theta q)) (K.map .fin) = .ok (.fin w) ∧ Spec.IsDouble w ∧
          |w - W q| ≤ (1 + Real.sqrt 2) ^ n / 2 ^ 43 * (K.map fun k => |k|).sum + 2 ^ (-1065 : ℤ) := by
  have hK' : K.length = tri (n + 1) := hK
  refine ⟨_, wavefront_ok rho theta K n hK', fun q hr hr' ht ht' => ?_⟩
  obtain ⟨hX1, hX2⟩ := sqrt_two_pow hn
  have hX0 : (1 : ℝ) ≤ 1 + Real.sqrt 2 := by linarith [Real.sqrt_nonneg 2]
  set X := (1 + Real.sqrt 2) ^ n with hX
  have hτ := tiny_le (k := -1075) (by norm_num)
  have hτ0 : (0 : ℝ) < 2 ^ (-1075 : ℤ) := by positivity
  set ks := fun i => |K.getD i 0| with hks
  have hsum : (K.map fun k => |k|).sum = ∑ i ∈ range K.length, ks i := by
    rw [Finset.sum_range, ← List.sum_ofFn]
    congr 1
    apply List.ext_getElem
    · simp
    · intro i h1 h2
      simp only [List.length_map] at h1
      simp [hks, h1]
  -- the terms
  have hterm : ∀ i, ∃ t, i < K.length → Dbl.wfTerm rnd L (.fin (rho q)) (.fin (theta q)) (K.map .fin) (nlList n) i =
      .ok (.fin t) ∧ |t - K.getD i 0 * Uv ((nlList n).getD i (0, 0)).1 ((nlList n).getD i (0, 0)).2 (rho q) (theta q)| ≤
        (X / 2 ^ 45 + 1 / 2 ^ 52) * ks i + 2 ^ (-1075 : ℤ) ∧
      |K.getD i 0 * Uv ((nlList n).getD i (0, 0)).1 ((nlList n).getD i (0, 0)).2 (rho q) (theta q)| ≤ ks i := by
    intro j
    by_cases hj : j < K.length
    swap
    · exact ⟨0, fun hj' => absurd hj' hj⟩
    obtain ⟨i, k, hi, hk, rfl⟩ := exists_row_pos n j (by omega)
    have hget := nlList_get n i k hi hk
    have h1 : pyIdx (K.map Fl.fin) (tri i + k) = .ok (.fin (K.getD (tri i + k) 0)) := by
      simp [pyIdx, List.getElem?_eq_getElem hj]
    have h2 : pyIdx (nlList n) (tri i + k) = .ok ((i : ℤ), -(i : ℤ) + 2 * (k : ℤ)) := by
      simp [pyIdx, hget]
    have h3 : (nlList n).getD (tri i + k) (0, 0) = ((i : ℤ), -(i : ℤ) + 2 * (k : ℤ)) := by
      simp [List.getD, hget]
    obtain ⟨r, v, hr1, hv, hrd, hv1, hre⟩ := C99_circle h hL i (-(i : ℤ) + 2 * (k : ℤ)) (by omega) (row_allowed i k hk)
      (rho q) (theta q) hr hr' ht ht'
    rw [h3]
    simp only
    rw [Uv_of_ok hv]
    have hre' : |r - v| ≤ X / 2 ^ 45 := hre.trans (by
      gcongr
      exact pow_le_pow_right₀ hX0 hi)
    set c := K.getD (tri i + k) 0 with hc
    have hksj : ks (tri i + k) = |c| := rfl
    have hc0 : 0 ≤ |c| := abs_nonneg c
    have hr15 : |r| ≤ 3 / 2 := by
      have := abs_add_le (r - v) v
      rw [sub_add_cancel] at this
      norm_num at hX2 hre'
      linarith
    have hcb : |c| ≤ 2 ^ 200 := by
      refine le_trans ?_ hKs
      rw [hsum, ← hksj]
      exact Finset.single_le_sum (f := ks) (fun i _ => abs_nonneg _) (by simpa using hj)
    have hyb : |c * r| ≤ 3 / 2 * |c| := by
      rw [abs_mul]
      nlinarith
    obtain ⟨t, ht1, -, ht3⟩ := round_tiny h (y := c * r) (by
      refine lt_of_le_of_lt hyb (lt_of_le_of_lt ?_ (two_pow_lt_range (k := 201) (by norm_num)))
      norm_num at hcb ⊢
      linarith)
    refine ⟨t, fun _ => ⟨?_, ?_, ?_⟩⟩
    · unfold Dbl.wfTerm
      rw [h1, h2]
      simp only [bind, Except.bind, hr1]
      show Except.ok (rnd (c * r)) = _
      rw [ht1]
    · rw [hksj]
      have e : t - c * v = (t - c * r) + c * (r - v) := by ring
      rw [e]
      refine (abs_add_le _ _).trans ?_
      rw [abs_mul c]
      have h5 : |c * r| / 2 ^ 53 ≤ 3 / 2 * |c| / 2 ^ 53 := by gcongr
      have h6 : |c| * |r - v| ≤ |c| * (X / 2 ^ 45) := by gcongr
      generalize (2 : ℝ) ^ (-1075 : ℤ) = τ at *
      linarith
    · rw [hksj, abs_mul]
      nlinarith
  choose t ht0 using hterm
  have hN : K.length ≤ 231 := by
    rw [hK]
    calc (n + 1) * (n + 2) / 2 ≤ (20 + 1) * (20 + 2) / 2 := by gcongr
      _ = 231 := by norm_num
  have hN' : (K.length : ℝ) ≤ 231 := by exact_mod_cast hN
  obtain ⟨w, h1, h2, h3⟩ := sum_near_tiny h (X / 2 ^ 45 + 1 / 2 ^ 52) (by positivity) K.length
    (hN.trans (by norm_num)) (by norm_num at hX2 ⊢; linarith) t
    (fun i => K.getD i 0 * Uv ((nlList n).getD i (0, 0)).1 ((nlList n).getD i (0, 0)).2 (rho q) (theta q)) ks
    (by rwa [← hsum]) (fun i hi => (ht0 i hi).2.2) (fun i hi => (ht0 i hi).2.1)
  have ho : Aperture.orderOf K.length = n := by
    apply orderOf_eq
    · rw [hK']
    · rw [hK', tri_succ (n + 1)]; omega
  refine ⟨w, ?_, h2, ?_⟩
  · unfold Dbl.wavefront
    simp only [List.length_map, ho]
    rw [mapM_ok _ _ (fun i => Fl.fin (t i)) fun i hi => (ht0 i (by simpa using hi)).1]
    show (if List.isEmpty _ = true then _ else _) = _
    have hpos : 0 < tri (n + 1) := by rw [tri_succ]; omega
    rw [if_neg (by
      rw [List.isEmpty_iff, List.map_eq_nil_iff, List.range_eq_nil, hK']; omega)]
    show Except.ok _ = _
    rw [h1]
  · have hW : wfVal n K (rho q) (theta q) = ∑ i ∈ range K.length, K.getD i 0 *
        Uv ((nlList n).getD i (0, 0)).1 ((nlList n).getD i (0, 0)).2 (rho q) (theta q) := by
      rw [hK', sum_tri, wfVal]
      refine Finset.sum_congr rfl fun i hi => Finset.sum_congr rfl fun k hk => ?_
      have hi' : i ≤ n := by simpa [Nat.lt_succ_iff] using hi
      have hk' : k ≤ i := by simpa [Nat.lt_succ_iff] using hk
      have : (nlList n).getD (tri i + k) (0, 0) = ((i : ℤ), -(i : ℤ) + 2 * (k : ℤ)) := by
        simp [List.getD, nlList_get n i k hi' hk']
      rw [this]
    rw [hW, hsum]
    refine h3.trans ?_
    have hk0 : 0 ≤ ∑ i ∈ range K.length, ks i := Finset.sum_nonneg fun i _ => abs_nonneg _
    refine add_le_add (mul_le_mul_of_nonneg_right ?_ hk0) ?_
    · norm_num
      linarith
    · have e : (2 : ℝ) ^ (-1065 : ℤ) = 1024 * 2 ^ (-1075 : ℤ) := by
        rw [show (-1065 : ℤ) = 10 + -1075 by norm_num, zpow_add₀ two_ne_zero]
        norm_num
      rw [e]
      generalize (2 : ℝ) ^ (-1075 : ℤ) = τ at *
      nlinarith

/-! ## The assumptions can be met -/

/-- A number of size at most one is rounded to one of size at most one, within `2^-51`. -/
theorem round_unit {rnd : ℝ → Fl} (h : Spec.Rounding rnd) {y : ℝ} (hy : |y| ≤ 1) :
    ∃ s, rnd y = .fin s ∧ Spec.IsDouble s ∧ |s| ≤ 1 ∧ |s - y| ≤ 1 / 2 ^ 51 := by
  have h1 : (1 : ℝ) < 2 ^ 1024 - 2 ^ 970 := by simpa using two_pow_lt_range (k := 0) (by norm_num)
  have hlt := lt_of_le_of_lt hy h1
  obtain ⟨s, hs, hsd, hse⟩ := round_tiny h hlt
  have hd1 : Spec.IsDouble 1 := by simpa using isDouble_of_dvd (one_dvd (Nat.factorial 20))
  refine ⟨s, hs, hsd, ?_, ?_⟩
  · rw [abs_le]
    have hy' := abs_le.1 hy
    exact ⟨round_mono h hy'.1 (by rwa [abs_neg, abs_one]) hlt (round_self h (isDouble_neg hd1)) hs,
      round_mono h hy'.2 hlt (by rwa [abs_one]) hs (round_self h hd1)⟩
  · have := tiny_le (k := -1075) (by norm_num)
    clear hlt h1
    generalize (2 : ℝ) ^ (-1075 : ℤ) = τ at *
    norm_num at this ⊢
    norm_num at hse
    linarith

/-- The correctly rounded mathematical library. -/
noncomputable def Spec.bestLibm (rnd : ℝ → Fl) : Dbl.Libm where
  pow := fun x k => match x with
    | .fin x => rnd (x ^ k.toNat)
    | _ => .nan
  sin := fun x => match x with
    | .fin x => rnd (Real.sin x)
    | _ => .nan
  cos := fun x => match x with
    | .fin x => rnd (Real.cos x)
    | _ => .nan

theorem bestLibm_accurate {rnd : ℝ → Fl} (h : Spec.Rounding rnd) : Spec.Accurate (Spec.bestLibm rnd) where
  pow := by
    intro x k _ hx
    have hk : |x ^ k| ≤ 1 := by rw [abs_pow]; exact pow_le_one₀ (abs_nonneg x) hx
    have h1 : (1 : ℝ) < 2 ^ 1024 - 2 ^ 970 := by simpa using two_pow_lt_range (k := 0) (by norm_num)
    obtain ⟨z, h2, h3, h4⟩ := round_tiny h (lt_of_le_of_lt hk h1)
    refine ⟨z, h2, h3, h4.trans ?_⟩
    rw [abs_pow]
    refine add_le_add ?_ (zpow_le_zpow_right₀ one_le_two (by norm_num))
    gcongr
    · norm_num
    · norm_num
  pow_exact := by
    intro x k hx
    have hd1 : Spec.IsDouble 1 := by simpa using isDouble_of_dvd (one_dvd (Nat.factorial 20))
    show rnd (x ^ k) = _
    refine round_self h ?_
    rcases hx with rfl | rfl | rfl
    · rcases Nat.eq_zero_or_pos k with rfl | hk
      · simpa using hd1
      · rw [zero_pow hk.ne']
        exact isDouble_zero
    · rwa [one_pow]
    · rcases neg_one_pow_eq_or ℝ k with e | e <;> rw [e]
      · exact hd1
      · exact isDouble_neg hd1
  sin := fun x _ => round_unit h (Real.abs_sin_le_one x)
  cos := fun x _ => round_unit h (Real.abs_cos_le_one x)

/-- Five coefficients would not do; six make the order 2. At the rim the radial polynomial of order 20 is 1 to the
last bit, and inside the wavefront of order 2 with defocus 1/2 is right to twelve digits. -/
example : ∃ rnd L, Spec.Rounding rnd ∧ Spec.Accurate L ∧ Dbl.R rnd L 20 4 (.fin 1) = .ok (.fin 1) ∧
    ∃ W : Unit → ℝ, Aperture.wavefront (fun _ => 1 / 2) (fun _ => 1) [0, 0, 0, 0, 1 / 2, 0] = .ok W ∧
      ∃ w, Dbl.wavefront rnd L (.fin (1 / 2)) (.fin 1) ([0, 0, 0, 0, 1 / 2, 0].map .fin) = .ok (.fin w) ∧
        |w - W ()| ≤ 1 / 10 ^ 12 := by
  obtain ⟨rnd, h⟩ := rounding_exists
  have hL := bestLibm_accurate h
  have hd1 : Spec.IsDouble 1 := by simpa using isDouble_of_dvd (one_dvd (Nat.factorial 20))
  have hdh : Spec.IsDouble (1 / 2) := ⟨1, -1, by norm_num, by norm_num, by norm_num, by norm_num⟩
  refine ⟨rnd, Spec.bestLibm rnd, h, hL, (C99_exact h hL 20 4 (by norm_num) ⟨by norm_num, 8, by norm_num⟩).1, ?_⟩
  have hsum : (([0, 0, 0, 0, 1 / 2, 0] : List ℝ).map fun k => |k|).sum = 1 / 2 := by norm_num [abs_of_pos]
  obtain ⟨W, h1, h2⟩ := C99_wavefront h hL 2 (by norm_num) [0, 0, 0, 0, 1 / 2, 0] (by norm_num)
    (by
      intro k hk
      simp only [List.mem_cons, List.not_mem_nil, or_false] at hk
      rcases hk with rfl | rfl | rfl | rfl | rfl | rfl
      all_goals first | exact isDouble_zero | exact hdh)
    (by rw [hsum]; norm_num) (fun _ : Unit => 1 / 2) (fun _ => 1)
  obtain ⟨w, h3, -, h4⟩ := h2 () hdh (by rw [abs_of_pos] <;> norm_num) hd1 (by norm_num)
  refine ⟨W, h1, w, h3, h4.trans ?_⟩
  rw [hsum]
  have h5 := tiny_le (k := -1065) (by norm_num)
  generalize (2 : ℝ) ^ (-1065 : ℤ) = τ at *
  have h6 : (1 + Real.sqrt 2) ^ 2 ≤ 6 := by
    nlinarith [Real.sq_sqrt (show (0 : ℝ) ≤ 2 by norm_num), Real.sqrt_nonneg 2]
  norm_num at h5 ⊢
  linarith

end Verif.Props
