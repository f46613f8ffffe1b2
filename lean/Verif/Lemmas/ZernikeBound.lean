import Verif.Lemmas.Zernike

/-!
# `|R| ≤ 1` on the unit interval

The radial polynomial with `n = a + b`, `m = a - b` is a diagonal matrix coefficient of the
action of a plane rotation on binary forms of degree `n`.
-/

namespace Verif.Zernike

open Finset Polynomial

/-- Equality of coefficients from equality of polynomial functions. -/
theorem coeff_eq_of_forall (n : ℕ) (f g : ℕ → ℝ)
    (h : ∀ u : ℝ, ∑ k ∈ range (n + 1), f k * u ^ k = ∑ k ∈ range (n + 1), g k * u ^ k) :
    ∀ k ≤ n, f k = g k := by
  intro k hk
  have hp : (∑ k ∈ range (n + 1), C (f k) * X ^ k : ℝ[X]) =
      ∑ k ∈ range (n + 1), C (g k) * X ^ k := by
    apply Polynomial.funext
    intro u
    simpa [eval_finsetSum] using h u
  have := congrArg (fun p => coeff p k) hp
  simpa [finsetSum_coeff, coeff_C_mul, coeff_X_pow, Nat.lt_succ_iff, hk] using this

/-- Image of the monomial `x^k y^(n-k)` under a rotation, dehomogenised. -/
noncomputable def rotP (n : ℕ) (c s : ℝ) (k : ℕ) : ℝ[X] :=
  (C c * X - C s) ^ k * (C s * X + C c) ^ (n - k)

theorem natDegree_lin (α β : ℝ) : (C α * X + C β).natDegree ≤ 1 := natDegree_linear_le

theorem rotP_natDegree (n : ℕ) (c s : ℝ) (k : ℕ) (hk : k ≤ n) :
    (rotP n c s k).natDegree ≤ n := by
  unfold rotP
  have h1 : ((C c * X - C s) ^ k).natDegree ≤ k := by
    have : (C c * X - C s : ℝ[X]) = C c * X + C (-s) := by simp [sub_eq_add_neg]
    rw [this]
    calc _ ≤ k * _ := natDegree_pow_le
      _ ≤ k * 1 := Nat.mul_le_mul_left _ (natDegree_lin _ _)
      _ = k := mul_one _
  have h2 : ((C s * X + C c) ^ (n - k)).natDegree ≤ n - k := by
    calc _ ≤ (n - k) * _ := natDegree_pow_le
      _ ≤ (n - k) * 1 := Nat.mul_le_mul_left _ (natDegree_lin _ _)
      _ = n - k := mul_one _
  calc _ ≤ _ := natDegree_mul_le
    _ ≤ k + (n - k) := add_le_add h1 h2
    _ = n := by omega

theorem rotP_eval (n : ℕ) (c s : ℝ) (k : ℕ) (hk : k ≤ n) (w : ℝ) :
    ∑ j ∈ range (n + 1), (rotP n c s k).coeff j * w ^ j =
      (c * w - s) ^ k * (s * w + c) ^ (n - k) := by
  rw [← eval_eq_sum_range' (Nat.lt_succ_of_le (rotP_natDegree n c s k hk))]
  simp [rotP]

theorem rot_symm (n : ℕ) (c s : ℝ) (k j : ℕ) (hk : k ≤ n) (hj : j ≤ n) :
    (n.choose k : ℝ) * (rotP n c s k).coeff j = n.choose j * (rotP n c (-s) j).coeff k := by
  have main : ∀ u w : ℝ,
      ∑ k ∈ range (n + 1), (∑ j ∈ range (n + 1),
        ((n.choose k : ℝ) * (rotP n c s k).coeff j) * w ^ j) * u ^ k =
      ∑ k ∈ range (n + 1), (∑ j ∈ range (n + 1),
        ((n.choose j : ℝ) * (rotP n c (-s) j).coeff k) * w ^ j) * u ^ k := by
    intro u w
    have l : ∑ k ∈ range (n + 1), (∑ j ∈ range (n + 1),
        ((n.choose k : ℝ) * (rotP n c s k).coeff j) * w ^ j) * u ^ k =
        (u * (c * w - s) + (s * w + c)) ^ n := by
      rw [add_pow]
      refine Finset.sum_congr rfl fun k hk => ?_
      have hk' : k ≤ n := by simpa [Nat.lt_succ_iff] using hk
      simp_rw [mul_assoc]
      rw [← Finset.mul_sum, rotP_eval n c s k hk', mul_pow]
      ring
    have r : ∑ k ∈ range (n + 1), (∑ j ∈ range (n + 1),
        ((n.choose j : ℝ) * (rotP n c (-s) j).coeff k) * w ^ j) * u ^ k =
        (w * (c * u - (-s)) + ((-s) * u + c)) ^ n := by
      rw [add_pow]
      simp_rw [Finset.sum_mul]
      rw [Finset.sum_comm]
      refine Finset.sum_congr rfl fun j hj => ?_
      have hj' : j ≤ n := by simpa [Nat.lt_succ_iff] using hj
      have : ∀ k, (n.choose j : ℝ) * (rotP n c (-s) j).coeff k * w ^ j * u ^ k =
          (n.choose j * w ^ j) * ((rotP n c (-s) j).coeff k * u ^ k) := fun k => by ring
      simp_rw [this]
      rw [← Finset.mul_sum, rotP_eval n c (-s) j hj', mul_pow]
      ring
    rw [l, r]
    ring
  have h1 := fun w => coeff_eq_of_forall n _ _ (fun u => main u w) k hk
  exact coeff_eq_of_forall n (fun j => (n.choose k : ℝ) * (rotP n c s k).coeff j)
    (fun j => (n.choose j : ℝ) * (rotP n c (-s) j).coeff k) h1 j hj

theorem rot_comp (n : ℕ) (c s : ℝ) (hcs : c ^ 2 + s ^ 2 = 1) (k : ℕ) (hk : k ≤ n) :
    ∑ j ∈ range (n + 1), C ((rotP n c s k).coeff j) * rotP n c (-s) j = X ^ k := by
  have hne : (C (-s) * X + C c : ℝ[X]) ≠ 0 := by
    intro h0
    have e0 := congrArg (fun p => coeff p 0) h0
    have e1 := congrArg (fun p => coeff p 1) h0
    simp at e0 e1
    rw [e0, e1] at hcs
    norm_num at hcs
  apply mul_left_cancel₀ hne
  apply Polynomial.funext
  intro z
  by_cases hz : -s * z + c = 0
  · have hz' : eval z (C (-s) * X + C c) = 0 := by
      simpa using hz
    rw [eval_mul, eval_mul, hz', zero_mul, zero_mul]
  · simp only [eval_mul, eval_finsetSum, eval_C, eval_X, eval_add, eval_pow]
    congr 1
    obtain ⟨y, hy⟩ : ∃ y, y = -s * z + c := ⟨_, rfl⟩
    rw [← hy] at hz
    have : ∀ j ∈ range (n + 1), (rotP n c s k).coeff j * eval z (rotP n c (-s) j) =
        y ^ n * ((rotP n c s k).coeff j * ((c * z + s) / y) ^ j) := by
      intro j hj
      have hj' : j ≤ n := by simpa [Nat.lt_succ_iff] using hj
      have hn : y ^ n = y ^ j * y ^ (n - j) := by rw [← pow_add]; congr 1; omega
      simp only [rotP, eval_mul, eval_pow, eval_sub, eval_add, eval_C, eval_X]
      rw [div_pow, hn, ← hy]
      have := pow_ne_zero j hz
      field_simp
      ring
    rw [Finset.sum_congr rfl this, ← Finset.mul_sum, rotP_eval n c s k hk]
    have e1 : c * ((c * z + s) / y) - s = z / y := by
      field_simp
      linear_combination z * hcs - s * hy
    have e2 : s * ((c * z + s) / y) + c = 1 / y := by
      field_simp
      linear_combination hcs + c * hy
    rw [e1, e2, div_pow, div_pow]
    have hn : y ^ n = y ^ k * y ^ (n - k) := by rw [← pow_add]; congr 1; omega
    rw [hn]
    have := pow_ne_zero k hz
    have := pow_ne_zero (n - k) hz
    field_simp
    simp

theorem rot_diag_sq_le (n : ℕ) (c s : ℝ) (hcs : c ^ 2 + s ^ 2 = 1) (k : ℕ) (hk : k ≤ n) :
    ((rotP n c s k).coeff k) ^ 2 ≤ 1 := by
  have h := congrArg (fun p => coeff p k) (rot_comp n c s hcs k hk)
  simp only [finsetSum_coeff, coeff_C_mul, coeff_X_pow, if_true] at h
  have hck : (0 : ℝ) < n.choose k := by exact_mod_cast Nat.choose_pos hk
  have ht : ∀ j ∈ range (n + 1), (rotP n c s k).coeff j * (rotP n c (-s) j).coeff k =
      n.choose k * ((rotP n c s k).coeff j) ^ 2 / n.choose j := by
    intro j hj
    have hj' : j ≤ n := by simpa [Nat.lt_succ_iff] using hj
    have hcj : (0 : ℝ) < n.choose j := by exact_mod_cast Nat.choose_pos hj'
    have := rot_symm n c s k j hk hj'
    field_simp
    linear_combination (- (rotP n c s k).coeff j) * this
  rw [Finset.sum_congr rfl ht] at h
  have hle : n.choose k * ((rotP n c s k).coeff k) ^ 2 / n.choose k ≤
      ∑ j ∈ range (n + 1), (n.choose k : ℝ) * ((rotP n c s k).coeff j) ^ 2 / n.choose j :=
    Finset.single_le_sum (f := fun j => (n.choose k : ℝ) * ((rotP n c s k).coeff j) ^ 2 / n.choose j)
      (fun j _ => by positivity) (by simpa [Nat.lt_succ_iff] using hk)
  rw [h] at hle
  rwa [mul_comm, mul_div_assoc, div_self hck.ne', mul_one] at hle

theorem coeff_lin_pow (α β : ℝ) (n i : ℕ) :
    ((C α * X + C β) ^ n).coeff i = α ^ i * β ^ (n - i) * n.choose i := by
  rw [add_pow]
  simp_rw [mul_pow, ← C_pow]
  rw [finsetSum_coeff]
  have : ∀ k ∈ range (n + 1), (C (α ^ k) * X ^ k * C (β ^ (n - k)) * (n.choose k : ℝ[X])).coeff i =
      if i = k then α ^ k * β ^ (n - k) * n.choose k else 0 := by
    intro k _
    rw [show (C (α ^ k) * X ^ k * C (β ^ (n - k)) * (n.choose k : ℝ[X])) =
      C (α ^ k * β ^ (n - k) * n.choose k) * X ^ k by simp; ring, coeff_C_mul, coeff_X_pow]
    simp
  rw [Finset.sum_congr rfl this]
  by_cases hi : i ≤ n
  · simp [Nat.lt_succ_iff, hi]
  · simp [Nat.lt_succ_iff, hi, Nat.choose_eq_zero_of_lt (not_le.1 hi)]

theorem Rsum_eq_rot (a b : ℕ) (h : b ≤ a) (c s : ℝ) (hcs : c ^ 2 + s ^ 2 = 1) :
    Rsum a b c = (rotP (a + b) c s a).coeff a := by
  rw [Rsum_eq_leibniz a b h]
  unfold rotP
  have e : (C c * X - C s : ℝ[X]) = C c * X + C (-s) := by simp [sub_eq_add_neg]
  rw [e, mul_comm, coeff_mul, Finset.Nat.sum_antidiagonal_eq_sum_range_succ_mk]
  simp only [coeff_lin_pow]
  have hab : a + b - a = b := by omega
  rw [hab]
  symm
  rw [← Finset.sum_subset (Finset.range_subset_range.2 (Nat.succ_le_succ h))]
  · refine Finset.sum_congr rfl fun k hk => ?_
    have hk' : k ≤ b := by simpa [Nat.lt_succ_iff] using hk
    have hs : c ^ 2 - 1 = s * (-s) := by linear_combination hcs
    have e1 : a - (a - k) = k := by omega
    rw [hs, mul_pow, e1, Nat.choose_symm (hk'.trans h)]
    have e2 : a + b - 2 * k = (a - k) + (b - k) := by omega
    rw [e2, pow_add]
    ring
  · intro k _ hk
    have : b < k := by simpa [Nat.lt_succ_iff] using hk
    simp [Nat.choose_eq_zero_of_lt this]

theorem Rsum_abs_le (a b : ℕ) (h : b ≤ a) (rho : ℝ) (hr : |rho| ≤ 1) : |Rsum a b rho| ≤ 1 := by
  have h1 : rho ^ 2 ≤ 1 := by
    rw [← sq_abs]; exact pow_le_one₀ (abs_nonneg _) hr
  have hcs : rho ^ 2 + (Real.sqrt (1 - rho ^ 2)) ^ 2 = 1 := by
    rw [Real.sq_sqrt (by linarith)]; ring
  rw [Rsum_eq_rot a b h rho _ hcs]
  have := rot_diag_sq_le (a + b) rho _ hcs a (by omega)
  exact (sq_le_one_iff_abs_le_one _).1 this

end Verif.Zernike
