import Verif.Lemmas.Zernike
import Mathlib.Algebra.Group.ForwardDiff
import Mathlib.Analysis.SpecialFunctions.Integrals.Basic

/-! # Radial and angular integrals for the orthogonality of the circle polynomials -/

namespace Verif.Zernike

open Finset Polynomial

/-- Alternating binomial sums kill polynomials of degree `< b`. -/
theorem alt_sum_poly (b : ℕ) (P : ℝ[X]) (hP : P.natDegree < b) (y : ℝ) :
    ∑ s ∈ range (b + 1), (-1 : ℝ) ^ s * b.choose s * P.eval (y - s) = 0 := by
  have h := congrFun (Polynomial.fwdDiff_iter_eq_zero_of_degree_lt
    (P := P.comp (C y - X)) (n := b) (by
      have : (C y - X : ℝ[X]).natDegree ≤ 1 := by
        calc _ ≤ _ := natDegree_sub_le _ _
          _ ≤ 1 := by simp
      calc (P.comp (C y - X)).natDegree ≤ _ := natDegree_comp_le
        _ ≤ P.natDegree * 1 := Nat.mul_le_mul_left _ this
        _ < b := by simpa using hP)) 0
  rw [fwdDiff_iter_eq_sum_shift] at h
  simp only [Pi.zero_apply] at h
  have h2 := congrArg (fun z => (-1 : ℝ) ^ b * z) h
  simp only [mul_zero, Finset.mul_sum] at h2
  rw [← h2]
  refine Finset.sum_congr rfl fun s hs => ?_
  have hs' : s ≤ b := by simpa [Nat.lt_succ_iff] using hs
  simp only [eval_comp, eval_sub, eval_C, eval_X, zero_add, nsmul_eq_mul, mul_one, zsmul_eq_mul]
  push_cast
  have : (-1 : ℝ) ^ b * (-1) ^ (b - s) = (-1) ^ s := by
    rw [← pow_add, show b + (b - s) = 2 * (b - s) + s by omega, pow_add, pow_mul]
    simp
  rw [← this]; ring

theorem fwdDiff_inv (b : ℕ) (y : ℝ) (hy : 0 < y) :
    (fwdDiff (1 : ℝ))^[b] (fun x : ℝ => 1 / x) y =
      (-1) ^ b * b.factorial / ∏ i ∈ range (b + 1), (y + i) := by
  induction b generalizing y with
  | zero => simp
  | succ b ih =>
    rw [Function.iterate_succ_apply', fwdDiff, ih y hy, ih (y + 1) (by linarith)]
    have hA : ∏ i ∈ range (b + 1), (y + 1 + i) = ∏ i ∈ range (b + 1), (y + ((i + 1 : ℕ) : ℝ)) := by
      refine Finset.prod_congr rfl fun i _ => ?_
      push_cast; ring
    have h1 : ∏ i ∈ range (b + 1 + 1), (y + (i : ℝ)) =
        (∏ i ∈ range (b + 1), (y + 1 + i)) * y := by
      rw [Finset.prod_range_succ', hA]; simp
    have h2 : ∏ i ∈ range (b + 1 + 1), (y + (i : ℝ)) =
        (∏ i ∈ range (b + 1), (y + i)) * (y + (b + 1 : ℕ)) := by
      rw [Finset.prod_range_succ]
    have p1 : 0 < ∏ i ∈ range (b + 1), (y + 1 + (i : ℝ)) := Finset.prod_pos fun i _ => by positivity
    have p2 : 0 < ∏ i ∈ range (b + 1), (y + (i : ℝ)) := Finset.prod_pos fun i _ => by positivity
    have p3 : 0 < ∏ i ∈ range (b + 1 + 1), (y + (i : ℝ)) := Finset.prod_pos fun i _ => by positivity
    have e1 : 1 / ∏ i ∈ range (b + 1), (y + 1 + (i : ℝ)) = y / ∏ i ∈ range (b + 1 + 1), (y + (i : ℝ)) := by
      rw [h1]; field_simp
    have e2 : 1 / ∏ i ∈ range (b + 1), (y + (i : ℝ)) =
        (y + (b + 1 : ℕ)) / ∏ i ∈ range (b + 1 + 1), (y + (i : ℝ)) := by
      rw [h2]
      have : (0:ℝ) < y + (b + 1 : ℕ) := by positivity
      field_simp
    rw [mul_div_assoc, mul_div_assoc, div_eq_mul_one_div, e1, div_eq_mul_one_div _ (∏ i ∈ range (b + 1), (y + (i : ℝ))), e2]
    rw [Nat.factorial_succ]
    push_cast
    ring

theorem alt_sum_inv (b : ℕ) (y : ℝ) (hy : 0 < y) :
    ∑ s ∈ range (b + 1), (-1 : ℝ) ^ s * b.choose s / (y + (b - s : ℕ)) =
      (-1) ^ b * b.factorial / ∏ i ∈ range (b + 1), (y + i) := by
  have h := fwdDiff_inv b y hy
  rw [fwdDiff_iter_eq_sum_shift] at h
  rw [← h, ← Finset.sum_range_reflect]
  refine Finset.sum_congr rfl fun s hs => ?_
  have hs' : s ≤ b := by simpa [Nat.lt_succ_iff] using hs
  have e1 : b + 1 - 1 - s = b - s := by omega
  have e2 : b - (b - s) = s := by omega
  rw [e1, e2, Nat.choose_symm hs']
  simp only [nsmul_eq_mul, mul_one, zsmul_eq_mul]
  push_cast
  ring

/-- `Π_{i=1..b} (x + i)` as a polynomial. -/
noncomputable def riseP (b : ℕ) : ℝ[X] := ∏ i ∈ range b, (X + C ((i : ℝ) + 1))

theorem riseP_eval_nat (b y : ℕ) : (riseP b).eval (y : ℝ) * y.factorial = (y + b).factorial := by
  induction b with
  | zero => simp [riseP]
  | succ b ih =>
    have : riseP (b + 1) = riseP b * (X + C ((b : ℝ) + 1)) := by
      simp only [riseP, Finset.prod_range_succ]
    rw [this, eval_mul, mul_right_comm, ih, ← add_assoc, Nat.factorial_succ]
    simp only [eval_add, eval_X, eval_C]
    push_cast; ring

theorem riseP_natDegree (b : ℕ) : (riseP b).natDegree = b := by
  unfold riseP
  rw [natDegree_prod_of_monic _ _ (fun i _ => monic_X_add_C _)]
  simp only [natDegree_X_add_C, Finset.sum_const, Finset.card_range, smul_eq_mul, mul_one]

theorem rcoef_eq (a b s : ℕ) (h : b ≤ a) (hs : s ≤ b) :
    rcoef a b s = (-1) ^ s * b.choose s * (riseP b).eval ((a : ℝ) - s) / b.factorial := by
  have h1 := riseP_eval_nat b (a - s)
  have hc : ((a - s : ℕ) : ℝ) = (a : ℝ) - s := by rw [Nat.cast_sub (hs.trans h)]
  rw [hc, show a - s + b = a + b - s by omega] at h1
  have h2 : (b.choose s : ℝ) * s.factorial * (b - s).factorial = b.factorial := by
    exact_mod_cast Nat.choose_mul_factorial_mul_factorial hs
  unfold rcoef
  rw [← h1, ← h2]
  have := Nat.factorial_ne_zero s
  have := Nat.factorial_ne_zero (a - s)
  have := Nat.factorial_ne_zero (b - s)
  have : (b.choose s : ℝ) ≠ 0 := by
    have := Nat.choose_pos hs
    positivity
  field_simp

/-- The moment `Σ_s c_s / (2 (a - s + k + 1))`, which is `∫ R ρ^(m+2k) ρ dρ`. -/
theorem moment_zero (a b k : ℕ) (h : b ≤ a) (hk : k < b) :
    ∑ s ∈ range (b + 1), rcoef a b s / (2 * ((a : ℝ) - s + k + 1)) = 0 := by
  set P : ℝ[X] := ∏ i ∈ (range b).erase k, (X + C ((i : ℝ) + 1)) with hP
  have hfac : riseP b = (X + C ((k : ℝ) + 1)) * P := by
    rw [hP, riseP]
    exact (Finset.mul_prod_erase (range b) (fun i : ℕ => (X + C ((i : ℝ) + 1) : ℝ[X]))
      (by simpa using hk)).symm
  have hdeg : P.natDegree < b := by
    rw [hP, natDegree_prod_of_monic _ _ (fun i _ => monic_X_add_C _)]
    simp only [natDegree_X_add_C, Finset.sum_const, smul_eq_mul, mul_one]
    rw [Finset.card_erase_of_mem (by simpa using hk), Finset.card_range]
    omega
  have h0 := alt_sum_poly b P hdeg a
  have : ∀ s ∈ range (b + 1), rcoef a b s / (2 * ((a : ℝ) - s + k + 1)) =
      (1 / (2 * b.factorial)) * ((-1) ^ s * b.choose s * P.eval ((a : ℝ) - s)) := by
    intro s hs
    have hs' : s ≤ b := by simpa [Nat.lt_succ_iff] using hs
    rw [rcoef_eq a b s h hs', hfac, eval_mul]
    simp only [eval_add, eval_X, eval_C]
    have hpos : (0:ℝ) < (a : ℝ) - s + k + 1 := by
      have : (s : ℝ) ≤ a := by exact_mod_cast hs'.trans h
      have : (0 : ℝ) ≤ k := by positivity
      linarith
    have := Nat.factorial_ne_zero b
    have hne : (a : ℝ) - s + k + 1 ≠ 0 := hpos.ne'
    rw [← add_assoc]
    field_simp
  rw [Finset.sum_congr rfl this, ← Finset.mul_sum, h0, mul_zero]

theorem moment_top (a b : ℕ) (h : b ≤ a) :
    ∑ s ∈ range (b + 1), rcoef a b s / (2 * ((a : ℝ) - s + b + 1)) =
      (a.factorial * b.factorial : ℝ) / (2 * (a + b + 1).factorial) := by
  -- polynomial division by `X + (b + 1)`
  set q := riseP b /ₘ (X - C (-((b : ℝ) + 1))) with hq
  have hdiv := modByMonic_add_div (riseP b) (X - C (-((b : ℝ) + 1)))
  rw [modByMonic_X_sub_C_eq_C_eval] at hdiv
  have hr : (riseP b).eval (-((b : ℝ) + 1)) = (-1) ^ b * b.factorial := by
    unfold riseP
    rw [eval_prod]
    simp only [eval_add, eval_X, eval_C]
    rw [← Finset.prod_range_reflect]
    have : ∀ j ∈ range b, (-((b : ℝ) + 1) + (((b - 1 - j : ℕ) : ℝ) + 1)) = (-1) * ((j + 1 : ℕ) : ℝ) := by
      intro j hj
      have hj' : j < b := by simpa using hj
      have : ((b - 1 - j : ℕ) : ℝ) = b - 1 - j := by
        rw [Nat.cast_sub (by omega), Nat.cast_sub (by omega)]; simp
      rw [this]; push_cast; ring
    rw [Finset.prod_congr rfl this, Finset.prod_mul_distrib]
    simp only [Finset.prod_const, Finset.card_range]
    congr 1
    exact_mod_cast Finset.prod_range_add_one_eq_factorial b
  rw [hr] at hdiv
  have hb := Nat.factorial_ne_zero b
  have hb' : (b.factorial : ℝ) ≠ 0 := by exact_mod_cast hb
  have hterm : ∀ s ∈ range (b + 1), rcoef a b s / (2 * ((a : ℝ) - s + b + 1)) =
      (1 / (2 * b.factorial)) * ((-1) ^ s * b.choose s * q.eval ((a : ℝ) - s)) +
      ((-1) ^ b / 2) * ((-1 : ℝ) ^ s * b.choose s / (((a : ℝ) + 1) + (b - s : ℕ))) := by
    intro s hs
    have hs' : s ≤ b := by simpa [Nat.lt_succ_iff] using hs
    have e := congrArg (eval ((a : ℝ) - s)) hdiv
    simp only [eval_add, eval_mul, eval_C, eval_sub, eval_X] at e
    have hc : ((b - s : ℕ) : ℝ) = (b : ℝ) - s := by rw [Nat.cast_sub hs']
    rw [rcoef_eq a b s h hs', ← e, hc, ← hq]
    have hpos : (0:ℝ) < (a : ℝ) - s + b + 1 := by
      have : (s : ℝ) ≤ a := by exact_mod_cast hs'.trans h
      have : (0 : ℝ) ≤ b := by positivity
      linarith
    have hne : (a : ℝ) - s + b + 1 ≠ 0 := hpos.ne'
    have e3 : (a : ℝ) + 1 + (b - s) = a - s + b + 1 := by ring
    rw [e3]
    field_simp
    ring
  rw [Finset.sum_congr rfl hterm, Finset.sum_add_distrib, ← Finset.mul_sum, ← Finset.mul_sum,
    alt_sum_inv b _ (by positivity)]
  have hz : (1 / (2 * (b.factorial : ℝ))) *
      ∑ s ∈ range (b + 1), ((-1 : ℝ) ^ s * b.choose s * q.eval ((a : ℝ) - s)) = 0 := by
    rcases Nat.eq_zero_or_pos b with hb0 | hb0
    · have : q = 0 := by
        rw [hq]
        apply (divByMonic_eq_zero_iff (monic_X_sub_C _)).2
        rw [degree_X_sub_C, hb0]
        simp [riseP]
      simp [this]
    · rw [alt_sum_poly b q ?_ a, mul_zero]
      rw [hq, natDegree_divByMonic _ (monic_X_sub_C _), riseP_natDegree, natDegree_X_sub_C]
      omega
  rw [hz, zero_add]
  have hprod : (∏ i ∈ range (b + 1), ((a : ℝ) + 1 + i)) * a.factorial = (a + b + 1).factorial := by
    have := riseP_eval_nat (b + 1) a
    rw [← add_assoc] at this
    rw [← this, riseP, eval_prod]
    congr 1
    refine Finset.prod_congr rfl fun i _ => ?_
    simp; ring
  rw [← hprod]
  have ha := Nat.factorial_ne_zero a
  have hp : (0:ℝ) < ∏ i ∈ range (b + 1), ((a : ℝ) + 1 + i) := Finset.prod_pos fun i _ => by positivity
  have hsq : ((-1 : ℝ) ^ b) * (-1) ^ b = 1 := by rw [← pow_add, ← two_mul, pow_mul]; simp
  field_simp
  linear_combination hsq

theorem Rsum_continuous (a b : ℕ) : Continuous (Rsum a b) := by
  unfold Rsum
  fun_prop

theorem Rsum_eq_rcoef (a b : ℕ) (h : b ≤ a) (rho : ℝ) :
    Rsum a b rho = ∑ s ∈ range (b + 1), rcoef a b s * rho ^ ((a - b) + 2 * (b - s)) := by
  unfold Rsum rcoef
  refine Finset.sum_congr rfl fun s hs => ?_
  have hs' : s ≤ b := by simpa [Nat.lt_succ_iff] using hs
  have : a + b - 2 * s = (a - b) + 2 * (b - s) := by omega
  rw [this]
  ring

theorem radial_moment (a b k : ℕ) (h : b ≤ a) :
    ∫ ρ in (0:ℝ)..1, Rsum a b ρ * ρ ^ ((a - b) + 2 * k) * ρ =
      ∑ s ∈ range (b + 1), rcoef a b s / (2 * ((a : ℝ) - s + k + 1)) := by
  have : ∀ ρ : ℝ, Rsum a b ρ * ρ ^ ((a - b) + 2 * k) * ρ =
      ∑ s ∈ range (b + 1), rcoef a b s * ρ ^ (2 * (a - s + k) + 1) := by
    intro ρ
    rw [Rsum_eq_rcoef a b h, Finset.sum_mul, Finset.sum_mul]
    refine Finset.sum_congr rfl fun s hs => ?_
    have hs' : s ≤ b := by simpa [Nat.lt_succ_iff] using hs
    have e : 2 * (a - s + k) + 1 = (a - b + 2 * (b - s)) + (a - b + 2 * k) + 1 := by omega
    rw [e]
    ring
  simp_rw [this]
  rw [intervalIntegral.integral_finsetSum]
  · refine Finset.sum_congr rfl fun s hs => ?_
    have hs' : s ≤ a := (by simpa [Nat.lt_succ_iff] using hs : s ≤ b).trans h
    rw [intervalIntegral.integral_const_mul, integral_pow]
    simp only [one_pow, ne_eq, Nat.add_eq_zero_iff, one_ne_zero, and_false, not_false_eq_true,
      zero_pow, sub_zero]
    push_cast
    rw [Nat.cast_sub hs']
    rw [show (2 * ((a : ℝ) - s + k) + 1 + 1) = 2 * ((a : ℝ) - s + k + 1) by ring]
    ring
  · intro s _
    apply Continuous.intervalIntegrable
    fun_prop

theorem radial_inner (a b a' b' : ℕ) (h : b ≤ a) (h' : b' ≤ a') (hm : a - b = a' - b') :
    ∫ ρ in (0:ℝ)..1, Rsum a b ρ * Rsum a' b' ρ * ρ =
      ∑ s ∈ range (b' + 1), rcoef a' b' s *
        ∑ t ∈ range (b + 1), rcoef a b t / (2 * ((a : ℝ) - t + (b' - s : ℕ) + 1)) := by
  have : ∀ ρ : ℝ, Rsum a b ρ * Rsum a' b' ρ * ρ =
      ∑ s ∈ range (b' + 1), rcoef a' b' s * (Rsum a b ρ * ρ ^ ((a - b) + 2 * (b' - s)) * ρ) := by
    intro ρ
    rw [Rsum_eq_rcoef a' b' h', Finset.mul_sum, Finset.sum_mul]
    refine Finset.sum_congr rfl fun s _ => ?_
    rw [hm]; ring
  simp_rw [this]
  rw [intervalIntegral.integral_finsetSum]
  · refine Finset.sum_congr rfl fun s _ => ?_
    rw [intervalIntegral.integral_const_mul, radial_moment a b _ h]
  · intro s _
    apply Continuous.intervalIntegrable
    have := Rsum_continuous a b
    fun_prop

theorem radial_orth_lt (a b a' b' : ℕ) (h : b ≤ a) (h' : b' ≤ a') (hm : a - b = a' - b')
    (hlt : b' < b) : ∫ ρ in (0:ℝ)..1, Rsum a b ρ * Rsum a' b' ρ * ρ = 0 := by
  rw [radial_inner a b a' b' h h' hm]
  refine Finset.sum_eq_zero fun s _ => ?_
  rw [moment_zero a b (b' - s) h (by omega), mul_zero]

theorem radial_orth (a b a' b' : ℕ) (h : b ≤ a) (h' : b' ≤ a') (hm : a - b = a' - b')
    (hne : a + b ≠ a' + b') : ∫ ρ in (0:ℝ)..1, Rsum a b ρ * Rsum a' b' ρ * ρ = 0 := by
  rcases lt_trichotomy b' b with hlt | heq | hgt
  · exact radial_orth_lt a b a' b' h h' hm hlt
  · omega
  · have := radial_orth_lt a' b' a b h' h hm.symm hgt
    rw [← this]
    congr 1
    ext ρ
    ring

theorem radial_norm (a b : ℕ) (h : b ≤ a) :
    ∫ ρ in (0:ℝ)..1, Rsum a b ρ * Rsum a b ρ * ρ = 1 / (2 * ((a + b : ℕ) + 1)) := by
  rw [radial_inner a b a b h h rfl, Finset.sum_range_succ']
  rw [Finset.sum_eq_zero]
  · have := moment_top a b h
    rw [Nat.sub_zero, this, rcoef]
    rw [Nat.factorial_succ]
    have h1 := Nat.factorial_ne_zero a
    have h2 := Nat.factorial_ne_zero b
    have h3 := Nat.factorial_ne_zero (a + b)
    simp
    push_cast
    field_simp
  · intro s hs
    have hs' : s < b := by simpa using hs
    rw [moment_zero a b (b - (s + 1)) h (by omega), mul_zero]

theorem int_cos (k : ℤ) : ∫ θ in (0:ℝ)..(2 * Real.pi), Real.cos (k * θ) =
    if k = 0 then 2 * Real.pi else 0 := by
  split_ifs with hk
  · simp [hk]
  · have hk' : (k : ℝ) ≠ 0 := by exact_mod_cast hk
    rw [intervalIntegral.integral_comp_mul_left (fun x => Real.cos x) hk', integral_cos]
    have : Real.sin (k * (2 * Real.pi)) = 0 := by
      have := Real.sin_int_mul_pi (2 * k)
      rw [← this]; push_cast; ring_nf
    simp [this]

theorem int_sin (k : ℤ) : ∫ θ in (0:ℝ)..(2 * Real.pi), Real.sin (k * θ) = 0 := by
  by_cases hk : k = 0
  · simp [hk]
  · have hk' : (k : ℝ) ≠ 0 := by exact_mod_cast hk
    rw [intervalIntegral.integral_comp_mul_left (fun x => Real.sin x) hk', integral_sin]
    have : Real.cos (k * (2 * Real.pi)) = 1 := Real.cos_int_mul_two_pi k
    simp [this]

/-- The angular factor of `U`. -/
noncomputable def ang (l : ℤ) (θ : ℝ) : ℝ :=
  if l < 0 then Real.sin (|l| * θ) else Real.cos (|l| * θ)

theorem ang_continuous (l : ℤ) : Continuous (ang l) := by
  unfold ang
  split_ifs <;> fun_prop

theorem int_cc (m m' : ℤ) : ∫ θ in (0:ℝ)..(2 * Real.pi), Real.cos (m * θ) * Real.cos (m' * θ) =
    ((if m - m' = 0 then 2 * Real.pi else 0) + (if m + m' = 0 then 2 * Real.pi else 0)) / 2 := by
  have : ∀ θ : ℝ, Real.cos (m * θ) * Real.cos (m' * θ) =
      (Real.cos (((m - m' : ℤ) : ℝ) * θ) + Real.cos (((m + m' : ℤ) : ℝ) * θ)) / 2 := by
    intro θ
    push_cast
    rw [sub_mul, add_mul, Real.cos_sub, Real.cos_add]; ring
  simp_rw [this]
  rw [intervalIntegral.integral_div, intervalIntegral.integral_add, int_cos, int_cos] <;>
  · apply Continuous.intervalIntegrable; fun_prop

theorem int_ss (m m' : ℤ) : ∫ θ in (0:ℝ)..(2 * Real.pi), Real.sin (m * θ) * Real.sin (m' * θ) =
    ((if m - m' = 0 then 2 * Real.pi else 0) - (if m + m' = 0 then 2 * Real.pi else 0)) / 2 := by
  have : ∀ θ : ℝ, Real.sin (m * θ) * Real.sin (m' * θ) =
      (Real.cos (((m - m' : ℤ) : ℝ) * θ) - Real.cos (((m + m' : ℤ) : ℝ) * θ)) / 2 := by
    intro θ
    push_cast
    rw [sub_mul, add_mul, Real.cos_sub, Real.cos_add]; ring
  simp_rw [this]
  rw [intervalIntegral.integral_div, intervalIntegral.integral_sub, int_cos, int_cos] <;>
  · apply Continuous.intervalIntegrable; fun_prop

theorem int_sc (m m' : ℤ) : ∫ θ in (0:ℝ)..(2 * Real.pi), Real.sin (m * θ) * Real.cos (m' * θ) = 0 := by
  have : ∀ θ : ℝ, Real.sin (m * θ) * Real.cos (m' * θ) =
      (Real.sin (((m - m' : ℤ) : ℝ) * θ) + Real.sin (((m + m' : ℤ) : ℝ) * θ)) / 2 := by
    intro θ
    push_cast
    rw [sub_mul, add_mul, Real.sin_sub, Real.sin_add]; ring
  simp_rw [this]
  rw [intervalIntegral.integral_div, intervalIntegral.integral_add, int_sin, int_sin]
  · simp
  all_goals apply Continuous.intervalIntegrable; fun_prop

theorem ang_orth (l l' : ℤ) : ∫ θ in (0:ℝ)..(2 * Real.pi), ang l θ * ang l' θ =
    if l = l' then (if l = 0 then 2 * Real.pi else Real.pi) else 0 := by
  unfold ang
  rcases lt_or_ge l 0 with h | h <;> rcases lt_or_ge l' 0 with h' | h'
  · simp only [h, h', if_true]
    rw [int_ss, abs_of_neg h, abs_of_neg h']
    rw [if_neg (show ¬ (-l + -l' = 0) by omega)]
    by_cases e : l = l'
    · simp [e]; intro; omega
    · rw [if_neg (show ¬ (-l - -l' = 0) by omega), if_neg e]; simp
  · simp only [h, not_lt.2 h', if_true, if_false]
    rw [int_sc, if_neg (by omega)]
  · simp only [h', not_lt.2 h, if_true, if_false]
    simp_rw [mul_comm (Real.cos _)]
    rw [int_sc, if_neg (by omega)]
  · simp only [not_lt.2 h', not_lt.2 h, if_false]
    rw [int_cc, abs_of_nonneg h, abs_of_nonneg h']
    by_cases e : l = l'
    · subst e
      by_cases h0 : l = 0
      · simp [h0]
      · rw [if_neg (show ¬ (l + l = 0) by omega)]; simp [h0]
    · rw [if_neg (show ¬ (l - l' = 0) by omega), if_neg (show ¬ (l + l' = 0) by omega), if_neg e]; simp

/-- The value of `U` on allowed indices. -/
theorem U_value (n : ℕ) (l : ℤ) (h : Spec.Allowed n l) :
    ∃ a b : ℕ, b ≤ a ∧ a + b = n ∧ ((a - b : ℕ) : ℤ) = |l| ∧
      ∀ rho theta, U (.int n) (.int l) rho theta = .ok (Rsum a b rho * ang l theta) := by
  obtain ⟨h1, h2⟩ := h
  obtain ⟨k, hk⟩ := h2
  have habs : |l| = l ∨ |l| = -l := abs_choice l
  have hnn : 0 ≤ |l| := abs_nonneg l
  refine ⟨((n + |l|) / 2).toNat, ((n - |l|) / 2).toNat, by omega, by omega, by omega, ?_⟩
  intro rho theta
  have e1 : (n : ℤ) = ((((n + |l|) / 2).toNat : ℕ) : ℤ) + (((n - |l|) / 2).toNat : ℕ) := by omega
  have e2 : |l| = ((((n + |l|) / 2).toNat : ℕ) : ℤ) - (((n - |l|) / 2).toNat : ℕ) := by omega
  have hle : ((n - |l|) / 2).toNat ≤ ((n + |l|) / 2).toNat := by omega
  have hR := R_eq_Rsum _ _ hle rho
  rw [← e1, ← e2] at hR
  unfold U
  have hn : ¬ ((n : ℤ) < 0) := by omega
  simp only [hn, if_false, hR, ang]
  split_ifs <;> rfl

end Verif.Zernike
