import Verif.Model.Zernike
import Verif.Spec.Zernike
import Mathlib.Tactic

/-! # Helper lemmas for the Zernike model -/

namespace Verif.Zernike

open Verif Finset Polynomial

/-- `mapM` in `Except` succeeds when each call does. -/
theorem mapM_ok {α β ε : Type*} (l : List α) (f : α → Except ε β) (g : α → β)
    (h : ∀ x ∈ l, f x = .ok (g x)) : l.mapM f = .ok (l.map g) := by
  induction l with
  | nil => rfl
  | cons x xs ih =>
    rw [List.mapM_cons, h x (by simp), ih (fun y hy => h y (by simp [hy]))]
    rfl

theorem factorial_ofNat (k : ℕ) : factorial (k : ℤ) = .ok k.factorial := by
  simp [factorial]

/-- The real value of the sum in `R` for `n = a + b`, `m = a - b`. -/
noncomputable def Rsum (a b : ℕ) (rho : ℝ) : ℝ :=
  ∑ s ∈ range (b + 1), (-1) ^ s * ((a + b - s).factorial : ℝ) * rho ^ (a + b - 2 * s) /
    ((s.factorial : ℝ) * (a - s).factorial * (b - s).factorial)

theorem R_eq_Rsum (a b : ℕ) (h : b ≤ a) (rho : ℝ) :
    R ((a : ℤ) + b) ((a : ℤ) - b) rho = .ok (Rsum a b rho) := by
  have ha : ((a : ℤ) + b + (a - b)) / 2 = a := by omega
  have hb : ((a : ℤ) + b - (a - b)) / 2 = b := by omega
  unfold R
  simp only [ha, hb]
  have hN : ((b : ℤ) + 1).toNat = b + 1 := by omega
  rw [hN, mapM_ok _ _ (fun s : ℕ => (-1) ^ s * ((a + b - s).factorial : ℝ) *
    rho ^ (a + b - 2 * s) / ((s.factorial : ℝ) * (a - s).factorial * (b - s).factorial))]
  · show Except.ok _ = _
    rw [Rsum]
    rfl
  · intro s hs
    have hs' : s ≤ b := by simpa [Nat.lt_succ_iff] using hs
    have e1 : (a : ℤ) + b - s = ((a + b - s : ℕ) : ℤ) := by omega
    have e3 : (a : ℤ) - s = ((a - s : ℕ) : ℤ) := by omega
    have e4 : (b : ℤ) - s = ((b - s : ℕ) : ℤ) := by omega
    have e5 : (a : ℤ) + b - 2 * s = ((a + b - 2 * s : ℕ) : ℤ) := by omega
    unfold rTerm
    rw [e5, e1, e3, e4, factorial_ofNat, factorial_ofNat, factorial_ofNat, factorial_ofNat, zpow_natCast]
    rfl

/-- Coefficient of the radial polynomial in `t = rho^2`. -/
noncomputable def rcoef (a b s : ℕ) : ℝ :=
  (-1) ^ s * ((a + b - s).factorial : ℝ) /
    ((s.factorial : ℝ) * (a - s).factorial * (b - s).factorial)

noncomputable def Q1 (a b : ℕ) : ℝ[X] := ∑ s ∈ range (b + 1), C (rcoef a b s) * X ^ (b - s)

noncomputable def Q2 (a b : ℕ) : ℝ[X] :=
  ∑ k ∈ range (b + 1), C ((a.choose k : ℝ) * b.choose k) * X ^ (b - k) * (X - 1) ^ k

noncomputable def rodr (a b : ℕ) : ℝ[X] := derivative^[b] (X ^ a * (X - 1) ^ b)

theorem Rsum_eq_Q1 (a b : ℕ) (h : b ≤ a) (rho : ℝ) :
    Rsum a b rho = rho ^ (a - b) * (Q1 a b).eval (rho ^ 2) := by
  unfold Rsum Q1 rcoef
  rw [eval_finsetSum, Finset.mul_sum]
  refine Finset.sum_congr rfl fun s hs => ?_
  have hs' : s ≤ b := by simpa [Nat.lt_succ_iff] using hs
  simp only [eval_mul, eval_C, eval_pow, eval_X]
  rw [← pow_mul]
  have : a + b - 2 * s = (a - b) + 2 * (b - s) := by omega
  rw [this, pow_add]
  ring

theorem rodr_eq_Q1 (a b : ℕ) (h : b ≤ a) :
    rodr a b = X ^ (a - b) * (C (b.factorial : ℝ) * Q1 a b) := by
  unfold rodr Q1
  have hexp : ((X : ℝ[X]) - 1) ^ b =
      ∑ s ∈ range (b + 1), C ((-1 : ℝ) ^ s * b.choose s) * X ^ (b - s) := by
    have := (Commute.all (-1 : ℝ[X]) X).add_pow b
    rw [show (X : ℝ[X]) - 1 = -1 + X by ring, this]
    refine Finset.sum_congr rfl fun s _ => ?_
    simp
    ring
  rw [hexp, Finset.mul_sum, iterate_derivative_sum, Finset.mul_sum, Finset.mul_sum]
  refine Finset.sum_congr rfl fun s hs => ?_
  have hs' : s ≤ b := by simpa [Nat.lt_succ_iff] using hs
  have e : (X : ℝ[X]) ^ a * (C ((-1 : ℝ) ^ s * b.choose s) * X ^ (b - s)) =
      C ((-1 : ℝ) ^ s * b.choose s) * X ^ (a + b - s) := by
    rw [show a + b - s = a + (b - s) by omega, pow_add]; ring
  rw [e, iterate_derivative_C_mul, iterate_derivative_X_pow_eq_C_mul]
  have e2 : a + b - s - b = (a - b) + (b - s) := by omega
  rw [e2, pow_add]
  have key : ((-1 : ℝ) ^ s * b.choose s) * ((a + b - s).descFactorial b : ℝ) =
      (b.factorial : ℝ) * rcoef a b s := by
    unfold rcoef
    have h1 : ((a + b - s).descFactorial b : ℝ) * (a - s).factorial = (a + b - s).factorial := by
      have := Nat.factorial_mul_descFactorial (n := a + b - s) (k := b) (by omega)
      rw [show a + b - s - b = a - s by omega] at this
      rw [mul_comm]; exact_mod_cast this
    have h2 : (b.choose s : ℝ) * s.factorial * (b - s).factorial = b.factorial := by
      exact_mod_cast Nat.choose_mul_factorial_mul_factorial hs'
    rw [← h1, ← h2]
    have := Nat.factorial_ne_zero s
    have := Nat.factorial_ne_zero (a - s)
    have := Nat.factorial_ne_zero (b - s)
    field_simp
  have keyC := congrArg (C : ℝ → ℝ[X]) key
  simp only [C_mul] at keyC ⊢
  calc _ = (C ((-1 : ℝ) ^ s) * C (b.choose s : ℝ) * C (((a + b - s).descFactorial b : ℕ) : ℝ)) *
        (X ^ (a - b) * X ^ (b - s)) := by ring
    _ = _ := by rw [keyC]; ring

theorem rodr_eq_Q2 (a b : ℕ) (h : b ≤ a) :
    rodr a b = X ^ (a - b) * (C (b.factorial : ℝ) * Q2 a b) := by
  unfold rodr Q2
  rw [iterate_derivative_mul, Finset.mul_sum, Finset.mul_sum]
  rw [← Finset.sum_range_reflect]
  refine Finset.sum_congr rfl fun k hk => ?_
  have hk' : k ≤ b := by simpa [Nat.lt_succ_iff] using hk
  have e1 : b + 1 - 1 - k = b - k := by omega
  have e2 : b - (b - k) = k := by omega
  have h1 : (X : ℝ[X]) - 1 = X - C 1 := by simp
  rw [e1, e2, iterate_derivative_X_pow_eq_C_mul, h1, iterate_derivative_X_sub_pow, e2]
  have e3 : a - k = (a - b) + (b - k) := by omega
  rw [e3, pow_add, Nat.choose_symm hk']
  have key : (b.choose k : ℝ) * ((a.descFactorial k : ℝ) * (b.descFactorial (b - k) : ℝ)) =
      b.factorial * ((a.choose k : ℝ) * b.choose k) := by
    have h1 : (a.descFactorial k : ℝ) = k.factorial * a.choose k := by
      exact_mod_cast Nat.descFactorial_eq_factorial_mul_choose a k
    have h2 : (k.factorial : ℝ) * (b.descFactorial (b - k) : ℝ) = b.factorial := by
      have := Nat.factorial_mul_descFactorial (n := b) (k := b - k) (by omega)
      rw [e2] at this
      exact_mod_cast this
    rw [h1, ← h2]; ring
  have keyC := congrArg (C : ℝ → ℝ[X]) key
  simp only [C_mul] at keyC ⊢
  simp only [nsmul_eq_mul, map_natCast, map_one] at keyC ⊢
  calc _ = ((b.choose k : ℝ[X]) * (((a.descFactorial k : ℕ) : ℝ[X]) * ((b.descFactorial (b - k) : ℕ) : ℝ[X])))
        * (X ^ (a - b) * X ^ (b - k)) * (X - 1) ^ k := by ring
    _ = _ := by rw [keyC]; ring

theorem Q1_eq_Q2 (a b : ℕ) (h : b ≤ a) : Q1 a b = Q2 a b := by
  have := (rodr_eq_Q1 a b h).symm.trans (rodr_eq_Q2 a b h)
  have hX : (X : ℝ[X]) ^ (a - b) ≠ 0 := pow_ne_zero _ X_ne_zero
  have h2 := mul_left_cancel₀ hX this
  have hC : (C (b.factorial : ℝ) : ℝ[X]) ≠ 0 := by
    simpa using Nat.factorial_ne_zero b
  exact mul_left_cancel₀ hC h2

/-- Leibniz form of the radial polynomial. -/
theorem Rsum_eq_leibniz (a b : ℕ) (h : b ≤ a) (rho : ℝ) :
    Rsum a b rho = ∑ k ∈ range (b + 1), (a.choose k : ℝ) * b.choose k *
      rho ^ (a + b - 2 * k) * (rho ^ 2 - 1) ^ k := by
  rw [Rsum_eq_Q1 a b h, Q1_eq_Q2 a b h, Q2, eval_finsetSum, Finset.mul_sum]
  refine Finset.sum_congr rfl fun k hk => ?_
  have hk' : k ≤ b := by simpa [Nat.lt_succ_iff] using hk
  simp only [eval_mul, eval_C, eval_pow, eval_X, eval_sub, eval_one]
  have : a + b - 2 * k = (a - b) + 2 * (b - k) := by omega
  rw [this, pow_add, ← pow_mul]
  ring

theorem Rsum_one (a b : ℕ) (h : b ≤ a) : Rsum a b 1 = 1 := by
  rw [Rsum_eq_leibniz a b h, Finset.sum_range_succ']
  simp

theorem Rsum_neg (a b : ℕ) (rho : ℝ) (h : b ≤ a) :
    Rsum a b (-rho) = (-1) ^ (a + b) * Rsum a b rho := by
  unfold Rsum
  rw [Finset.mul_sum]
  refine Finset.sum_congr rfl fun s hs => ?_
  have hs' : s ≤ b := by simpa [Nat.lt_succ_iff] using hs
  rw [neg_pow rho]
  have : (-1 : ℝ) ^ (a + b - 2 * s) = (-1) ^ (a + b) := by
    have e : a + b = (a + b - 2 * s) + 2 * s := by omega
    conv_rhs => rw [e, pow_add, pow_mul]
    simp
  rw [this]; ring

end Verif.Zernike
