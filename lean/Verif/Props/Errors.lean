import Verif.Props.MathFn
import Mathlib.MeasureTheory.Integral.Bochner.Basic
import Mathlib.MeasureTheory.Integral.Bochner.Set

/-!
# What the covariance matrix of the fit is (C104)
-/

namespace Verif.Props

open Verif Verif.MathFn Finset MeasureTheory

/-- The covariance in closed form. -/
theorem cov_entry {m n : ℕ} {res : Fin m → ℝ} {J : Matrix (Fin m) (Fin n) ℝ} {nPars : ℕ}
    {cov corr : Matrix (Fin n) (Fin n) ℝ} (h : coMatrices res J nPars = .ok (some (cov, corr))) :
    (J.transpose * J).det ≠ 0 ∧ nPars < m ∧
      cov = ((∑ k, res k ^ 2) / ((m : ℝ) - nPars)) • (J.transpose * J)⁻¹ := by
  unfold coMatrices MathFn.inv at h
  by_cases hd : (J.transpose * J).det = 0
  · rw [if_pos hd] at h
    cases h
  rw [if_neg hd] at h
  by_cases hp : (m : ℤ) - nPars ≤ 0
  · simp [bind, Except.bind, pure, Except.pure, hp] at h
  simp only [bind, Except.bind, if_neg hp] at h
  split_ifs at h with h2
  simp only [pure, Except.pure, Except.ok.injEq, Option.some.injEq, Prod.mk.injEq] at h
  refine ⟨hd, by omega, ?_⟩
  rw [← h.1]
  congr 1
  push_cast
  congr 1
  simp [dotProduct, sq]

/-! ## Linear least squares -/

/-- Errors without bias, not correlated, and all of variance `s2`. -/
structure Spec.White {Ω : Type*} [MeasurableSpace Ω] (μ : Measure Ω) {m : ℕ} (e : Ω → Fin m → ℝ)
    (s2 : ℝ) : Prop where
  int1 : ∀ i, Integrable (fun w => e w i) μ
  int2 : ∀ i j, Integrable (fun w => e w i * e w j) μ
  mean : ∀ i, ∫ w, e w i ∂μ = 0
  cov : ∀ i j, ∫ w, e w i * e w j ∂μ = if i = j then s2 else 0

theorem normal_equations {m n : ℕ} (A : Matrix (Fin m) (Fin n) ℝ) (d : Fin m → ℝ) (x : Fin n → ℝ)
    (h : ∀ y, ∑ k, (d k - A.mulVec x k) ^ 2 ≤ ∑ k, (d k - A.mulVec y k) ^ 2) :
    A.transpose.mulVec (d - A.mulVec x) = 0 := by
  set r : Fin m → ℝ := d - A.mulVec x with hr
  funext j
  have key : ∀ t : ℝ, 0 ≤ t ^ 2 * (∑ k, A k j ^ 2) - 2 * t * (∑ k, r k * A k j) := by
    intro t
    have := h (x + Pi.single j t)
    have e : ∑ k, (d k - A.mulVec (x + Pi.single j t) k) ^ 2 = ∑ k, (r k ^ 2 + (t ^ 2 * A k j ^ 2 - 2 * t * (r k * A k j))) := by
      refine sum_congr rfl fun k _ => ?_
      rw [Matrix.mulVec_add, Matrix.mulVec_single]
      simp only [Pi.add_apply, hr, Pi.sub_apply, Pi.smul_apply, Matrix.col_apply, MulOpposite.smul_eq_mul_unop, MulOpposite.unop_op]
      ring
    rw [e, sum_add_distrib, sum_sub_distrib, ← mul_sum, ← mul_sum] at this
    have e2 : ∑ k, (d k - A.mulVec x k) ^ 2 = ∑ k, r k ^ 2 := rfl
    rw [e2] at this
    linarith
  set a := ∑ k, A k j ^ 2 with ha
  set b := ∑ k, r k * A k j with hb
  have ha0 : 0 ≤ a := sum_nonneg fun k _ => sq_nonneg _
  have hb0 : b = 0 := by
    by_contra hne
    have h1 := key (b / (a + 1))
    have : (b / (a + 1)) ^ 2 * a - 2 * (b / (a + 1)) * b = -(b ^ 2 * (a + 2)) / (a + 1) ^ 2 := by
      field_simp
      ring
    rw [this] at h1
    have h2 : 0 < b ^ 2 * (a + 2) / (a + 1) ^ 2 := by positivity
    have h3 : -(b ^ 2 * (a + 2)) / (a + 1) ^ 2 = -(b ^ 2 * (a + 2) / (a + 1) ^ 2) := by ring
    linarith
  simp only [Matrix.mulVec, dotProduct, Matrix.transpose_apply, Pi.zero_apply]
  rw [← hb0, hb]
  exact sum_congr rfl fun k _ => mul_comm _ _

theorem white_quadratic {Ω : Type*} [MeasurableSpace Ω] {μ : Measure Ω} {m : ℕ} {e : Ω → Fin m → ℝ}
    {s2 : ℝ} (he : Spec.White μ e s2) (a b : Fin m → ℝ) :
    Integrable (fun w => (∑ i, a i * e w i) * (∑ j, b j * e w j)) μ ∧
      ∫ w, (∑ i, a i * e w i) * (∑ j, b j * e w j) ∂μ = s2 * ∑ i, a i * b i := by
  have h : ∀ w, (∑ i, a i * e w i) * (∑ j, b j * e w j) =
      ∑ i, ∑ j, a i * b j * (e w i * e w j) := by
    intro w
    rw [sum_mul_sum]
    exact sum_congr rfl fun i _ => sum_congr rfl fun j _ => by ring
  have hi : ∀ i j, Integrable (fun w => a i * b j * (e w i * e w j)) μ := fun i j =>
    (he.int2 i j).const_mul _
  constructor
  · simp only [h]
    exact integrable_finsetSum _ fun i _ => integrable_finsetSum _ fun j _ => hi i j
  · simp only [h]
    rw [integral_finsetSum _ fun i _ => integrable_finsetSum _ fun j _ => hi i j, mul_sum]
    refine sum_congr rfl fun i _ => ?_
    rw [integral_finsetSum _ fun j _ => hi i j]
    have : ∀ j, ∫ w, a i * b j * (e w i * e w j) ∂μ = if i = j then s2 * (a i * b i) else 0 := by
      intro j
      rw [integral_const_mul, he.cov]
      split_ifs with hij
      · subst hij; ring
      · ring
    simp only [this]
    simp

/-- **C104.**  Linear least squares with errors of equal, unknown variance: the fitted parameters have no
bias, and the covariance matrix returned is, on average, the covariance of the fitted parameters. -/
theorem C104_unbiased {Ω : Type*} [MeasurableSpace Ω] (μ : Measure Ω) [IsProbabilityMeasure μ] {m n : ℕ}
    (A : Matrix (Fin m) (Fin n) ℝ) (x : Fin n → ℝ) (e : Ω → Fin m → ℝ) (s2 : ℝ) (he : Spec.White μ e s2)
    (fit : Ω → Fin n → ℝ)
    (hfit : ∀ w y, ∑ k, (A.mulVec x k + e w k - A.mulVec (fit w) k) ^ 2 ≤
      ∑ k, (A.mulVec x k + e w k - A.mulVec y k) ^ 2)
    (cov : Ω → Matrix (Fin n) (Fin n) ℝ)
    (hcov : ∀ᵐ w ∂μ, ∃ corr, coMatrices (fun k => A.mulVec x k + e w k - A.mulVec (fit w) k) (-A) n =
      .ok (some (cov w, corr))) :
    (∀ i, Integrable (fun w => fit w i) μ ∧ ∫ w, fit w i ∂μ = x i) ∧
    ∀ i j, Integrable (fun w => (fit w i - x i) * (fit w j - x j)) μ ∧
      Integrable (fun w => cov w i j) μ ∧
      ∫ w, cov w i j ∂μ = ∫ w, (fit w i - x i) * (fit w j - x j) ∂μ ∧
      ∫ w, cov w i j ∂μ = s2 * (A.transpose * A)⁻¹ i j := by
  have hAA : (-A).transpose * -A = A.transpose * A := by simp
  obtain ⟨w0, corr0, h0⟩ := hcov.exists
  obtain ⟨hdet, hdof, -⟩ := cov_entry h0
  rw [hAA] at hdet
  have hu : IsUnit (A.transpose * A).det := isUnit_iff_ne_zero.2 hdet
  set Q := (A.transpose * A)⁻¹ with hQ
  have hQt : Q.transpose = Q := by
    rw [hQ, Matrix.transpose_nonsing_inv, Matrix.transpose_mul, Matrix.transpose_transpose]
  set G : Matrix (Fin n) (Fin m) ℝ := Q * A.transpose with hG
  have hGA : G * A = 1 := by rw [hG, Matrix.mul_assoc, Matrix.nonsing_inv_mul _ hu]
  have hGG : G * G.transpose = Q := by
    rw [hG, Matrix.transpose_mul, Matrix.transpose_transpose, hQt, ← Matrix.mul_assoc,
      Matrix.mul_assoc Q, Matrix.nonsing_inv_mul _ hu, Matrix.one_mul]
  set P : Matrix (Fin m) (Fin m) ℝ := 1 - A * G with hP
  have hAGt : (A * G).transpose = A * G := by
    rw [hG, Matrix.transpose_mul, Matrix.transpose_mul, Matrix.transpose_transpose, hQt, Matrix.mul_assoc]
  have hPP : P.transpose * P = P := by
    rw [hP, Matrix.transpose_sub, Matrix.transpose_one, hAGt, Matrix.sub_mul, Matrix.one_mul,
      Matrix.mul_sub, Matrix.mul_one, Matrix.mul_assoc A G, ← Matrix.mul_assoc G A, hGA, Matrix.one_mul,
      sub_self, sub_zero]
  have htr : P.trace = (m : ℝ) - n := by
    rw [hP, Matrix.trace_sub, Matrix.trace_mul_comm, hGA, Matrix.trace_one, Matrix.trace_one]
    simp
  -- the fit
  have hx : ∀ w, fit w - x = G.mulVec (e w) := by
    intro w
    have h1 := normal_equations A (A.mulVec x + e w) (fit w) (hfit w)
    have h2 : A.mulVec x + e w - A.mulVec (fit w) = e w - A.mulVec (fit w - x) := by
      rw [Matrix.mulVec_sub]; abel
    rw [h2, Matrix.mulVec_sub, sub_eq_zero, Matrix.mulVec_mulVec] at h1
    have h3 := congrArg Q.mulVec h1
    rw [Matrix.mulVec_mulVec, Matrix.mulVec_mulVec, Matrix.nonsing_inv_mul _ hu, Matrix.one_mulVec] at h3
    exact h3.symm
  have hxi : ∀ w i, fit w i - x i = ∑ k, G i k * e w k := by
    intro w i
    have := congrFun (hx w) i
    exact this
  have hr : ∀ w k, A.mulVec x k + e w k - A.mulVec (fit w) k = ∑ l, P k l * e w l := by
    intro w k
    have h1 : A.mulVec x + e w - A.mulVec (fit w) = P.mulVec (e w) := by
      have h2 : A.mulVec x + e w - A.mulVec (fit w) = e w - A.mulVec (fit w - x) := by
        rw [Matrix.mulVec_sub]; abel
      rw [h2, hx w, Matrix.mulVec_mulVec, hP, Matrix.sub_mulVec, Matrix.one_mulVec]
    exact congrFun h1 k
  have hfitint : ∀ i, Integrable (fun w => ∑ k, G i k * e w k) μ := fun i =>
    integrable_finsetSum _ fun k _ => (he.int1 k).const_mul _
  -- the sum of squares
  have hss : ∀ w, ∑ k, (A.mulVec x k + e w k - A.mulVec (fit w) k) ^ 2 =
      ∑ k, (∑ l, P k l * e w l) * (∑ l, P k l * e w l) := by
    intro w
    exact sum_congr rfl fun k _ => by rw [hr]; ring
  have hssint : Integrable (fun w => ∑ k, (A.mulVec x k + e w k - A.mulVec (fit w) k) ^ 2) μ := by
    simp only [hss]
    exact integrable_finsetSum _ fun k _ => (white_quadratic he _ _).1
  have hssval : ∫ w, ∑ k, (A.mulVec x k + e w k - A.mulVec (fit w) k) ^ 2 ∂μ = s2 * ((m : ℝ) - n) := by
    simp only [hss]
    rw [integral_finsetSum _ fun k _ => (white_quadratic he (P k) (P k)).1]
    simp only [(white_quadratic he _ _).2]
    rw [← mul_sum, ← htr]
    congr 1
    conv_rhs => rw [← hPP]
    rw [Matrix.trace, sum_comm]
    refine sum_congr rfl fun l _ => ?_
    rw [Matrix.diag_apply, Matrix.mul_apply]
    rfl
  have hmn : (m : ℝ) - n ≠ 0 := by
    have : (n : ℝ) < m := by exact_mod_cast hdof
    linarith
  have hce : ∀ i j, (fun w => cov w i j) =ᵐ[μ] fun w =>
      (∑ k, (A.mulVec x k + e w k - A.mulVec (fit w) k) ^ 2) * (((m : ℝ) - n)⁻¹ * Q i j) := by
    intro i j
    filter_upwards [hcov] with w hw
    obtain ⟨corr, hc⟩ := hw
    obtain ⟨-, -, h3⟩ := cov_entry hc
    rw [h3, hAA, Matrix.smul_apply, smul_eq_mul]
    ring
  have hci : ∀ i j, ∫ w, cov w i j ∂μ = s2 * Q i j := by
    intro i j
    rw [integral_congr_ae (hce i j), integral_mul_const, hssval]
    field_simp
  refine ⟨fun i => ⟨?_, ?_⟩, fun i j => ⟨?_, ?_, ?_, hci i j⟩⟩
  · have : (fun w => fit w i) = fun w => (∑ k, G i k * e w k) + x i := by
      funext w; rw [← hxi]; ring
    rw [this]
    exact (hfitint i).add (integrable_const _)
  · have : (fun w => fit w i) = fun w => (∑ k, G i k * e w k) + x i := by
      funext w; rw [← hxi]; ring
    rw [this, integral_add (hfitint i) (integrable_const _),
      integral_finsetSum _ fun k _ => (he.int1 k).const_mul _]
    simp [integral_const_mul, he.mean]
  · simp only [hxi]
    exact (white_quadratic he _ _).1
  · exact (integrable_congr (hce i j)).2 (hssint.mul_const _)
  · rw [hci]
    simp only [hxi]
    rw [(white_quadratic he _ _).2, ← hGG, Matrix.mul_apply]
    rfl

/-! ## Units, order, and copies -/

/-- What makes the matrices come out. -/
theorem co_ok {m n : ℕ} (res : Fin m → ℝ) (J : Matrix (Fin m) (Fin n) ℝ) (nPars : ℕ)
    (hdof : nPars < m) (hrank : ∀ v : Fin n → ℝ, J.mulVec v = 0 → v = 0) (hres : res ≠ 0) :
    ∃ cov corr, coMatrices res J nPars = .ok (some (cov, corr)) ∧
      cov = ((∑ k, res k ^ 2) / ((m : ℝ) - nPars)) • (J.transpose * J)⁻¹ ∧
      (∀ i, 0 < cov i i) ∧
      ∀ i j, corr i j = cov i j / (Real.sqrt (cov i i) * Real.sqrt (cov j j)) := by
  obtain ⟨cov, corr, h1, -, -, h2, -, -, -, h3⟩ := C30_matrices res J nPars hdof hrank hres
  refine ⟨cov, corr, h1, (cov_entry h1).2.2, fun i => ?_, h3⟩
  have := h2 (Pi.single i 1) (by intro h; have := congrFun h i; simp at this)
  rw [Matrix.mulVec_single_one, single_one_dotProduct] at this
  exact this

/-- **C104.**  Another unit of the parameters: the covariance is converted, the correlation stays. -/
theorem C104_units {m n : ℕ} (res : Fin m → ℝ) (J : Matrix (Fin m) (Fin n) ℝ) (nPars : ℕ)
    (hdof : nPars < m) (hrank : ∀ v : Fin n → ℝ, J.mulVec v = 0 → v = 0) (hres : res ≠ 0)
    (c : Fin n → ℝ) (hc : ∀ i, 0 < c i) :
    ∃ cov corr, coMatrices res J nPars = .ok (some (cov, corr)) ∧
      coMatrices res (fun k i => J k i / c i) nPars =
        .ok (some ((fun i j => c i * c j * cov i j), corr)) := by
  set J' : Matrix (Fin m) (Fin n) ℝ := fun k i => J k i / c i with hJ'
  have hJd : J' = J * Matrix.diagonal fun i => (c i)⁻¹ := by
    ext k i
    rw [Matrix.mul_diagonal]
    exact div_eq_mul_inv _ _
  have hrank' : ∀ v : Fin n → ℝ, J'.mulVec v = 0 → v = 0 := by
    intro v hv
    rw [hJd, ← Matrix.mulVec_mulVec] at hv
    have := hrank _ hv
    funext i
    have h2 := congrFun this i
    rw [Matrix.mulVec_diagonal, Pi.zero_apply] at h2
    rcases mul_eq_zero.1 h2 with h3 | h3
    · exact absurd h3 (inv_ne_zero (hc i).ne')
    · exact h3
  obtain ⟨cov, corr, h1, h2, h3, h4⟩ := co_ok res J nPars hdof hrank hres
  obtain ⟨cov', corr', h1', h2', h3', h4'⟩ := co_ok res J' nPars hdof hrank' hres
  obtain ⟨hdet, -, -⟩ := cov_entry h1
  have hcov : cov' = fun i j => c i * c j * cov i j := by
    have hinv : (J'.transpose * J')⁻¹ = Matrix.diagonal c * (J.transpose * J)⁻¹ * Matrix.diagonal c := by
      apply Matrix.inv_eq_right_inv
      rw [hJd, Matrix.transpose_mul, Matrix.diagonal_transpose]
      have hd : (Matrix.diagonal fun i => (c i)⁻¹) * Matrix.diagonal c = 1 := by
        rw [Matrix.diagonal_mul_diagonal, ← Matrix.diagonal_one]
        congr 1
        funext i
        exact inv_mul_cancel₀ (hc i).ne'
      have : (Matrix.diagonal fun i => (c i)⁻¹) * J.transpose * (J * Matrix.diagonal fun i => (c i)⁻¹) *
          (Matrix.diagonal c * (J.transpose * J)⁻¹ * Matrix.diagonal c) =
          (Matrix.diagonal fun i => (c i)⁻¹) * ((J.transpose * J) *
            (((Matrix.diagonal fun i => (c i)⁻¹) * Matrix.diagonal c) * (J.transpose * J)⁻¹)) *
            Matrix.diagonal c := by
        simp only [Matrix.mul_assoc]
      rw [this, hd, Matrix.one_mul, Matrix.mul_nonsing_inv _ (isUnit_iff_ne_zero.2 hdet), Matrix.mul_one, hd]
    funext i j
    rw [h2', hinv, h2, Matrix.smul_apply, Matrix.smul_apply, Matrix.mul_diagonal, Matrix.diagonal_mul]
    simp only [smul_eq_mul]
    ring
  refine ⟨cov, corr, h1, ?_⟩
  rw [h1', hcov]
  congr 3
  ext i j
  rw [h4', h4, hcov]
  have e : ∀ i, Real.sqrt (c i * c i * cov i i) = c i * Real.sqrt (cov i i) := by
    intro i
    rw [Real.sqrt_mul (mul_self_nonneg _), Real.sqrt_mul_self (hc i).le]
  rw [e, e]
  have := hc i
  have := hc j
  have := Real.sqrt_pos.2 (h3 i)
  have := Real.sqrt_pos.2 (h3 j)
  field_simp

/-- **C104.**  The order of the pixels does not matter. -/
theorem C104_pixels {m n : ℕ} (res : Fin m → ℝ) (J : Matrix (Fin m) (Fin n) ℝ) (nPars : ℕ)
    (p : Equiv.Perm (Fin m)) :
    coMatrices (fun k => res (p k)) (J.submatrix p id) nPars = coMatrices res J nPars := by
  have h1 : (J.submatrix p id).transpose * J.submatrix p id = J.transpose * J := by
    ext i j
    rw [Matrix.mul_apply, Matrix.mul_apply]
    exact Equiv.sum_comp p fun k => J k i * J k j
  have h2 : (fun k => res (p k)) ⬝ᵥ (fun k => res (p k)) = res ⬝ᵥ res :=
    Equiv.sum_comp p fun k => res k * res k
  unfold coMatrices
  rw [h1, h2]

/-- **C104.**  Every pixel given `c` times: the errors shrink, as if there were `c` times as many
measurements; the correlation stays. -/
theorem C104_copies {m n : ℕ} (res : Fin m → ℝ) (J : Matrix (Fin m) (Fin n) ℝ) (nPars : ℕ)
    (hdof : nPars < m) (hrank : ∀ v : Fin n → ℝ, J.mulVec v = 0 → v = 0) (hres : res ≠ 0)
    (c : ℕ) (hc : 0 < c) :
    ∃ cov corr, coMatrices res J nPars = .ok (some (cov, corr)) ∧
      coMatrices (fun q : Fin (c * m) => res (finProdFinEquiv.symm q).2)
          (fun q i => J (finProdFinEquiv.symm q).2 i) nPars =
        .ok (some ((((m : ℝ) - nPars) / (c * m - nPars)) • cov, corr)) := by
  have hc0 : (0 : ℝ) < c := by exact_mod_cast hc
  set J' : Matrix (Fin (c * m)) (Fin n) ℝ := fun q i => J (finProdFinEquiv.symm q).2 i with hJ'
  set res' : Fin (c * m) → ℝ := fun q => res (finProdFinEquiv.symm q).2 with hres'
  have hsum : ∀ f : Fin m → ℝ, ∑ q : Fin (c * m), f (finProdFinEquiv.symm q).2 = c * ∑ k, f k := by
    intro f
    rw [Equiv.sum_comp finProdFinEquiv.symm (fun q : Fin c × Fin m => f q.2), Fintype.sum_prod_type]
    simp
  have hk : ∀ k : Fin m, (finProdFinEquiv.symm (finProdFinEquiv ((⟨0, hc⟩ : Fin c), k))).2 = k := by
    intro k
    rw [Equiv.symm_apply_apply]
  have hle : m ≤ c * m := Nat.le_mul_of_pos_left _ hc
  have hdof' : nPars < c * m := lt_of_lt_of_le hdof hle
  have hrank' : ∀ v : Fin n → ℝ, J'.mulVec v = 0 → v = 0 := by
    intro v hv
    refine hrank v (funext fun k => ?_)
    have := congrFun hv (finProdFinEquiv (⟨0, hc⟩, k))
    simp only [hJ', Matrix.mulVec, dotProduct, hk] at this
    exact this
  have hres2 : res' ≠ 0 := by
    intro h
    apply hres
    funext k
    have := congrFun h (finProdFinEquiv (⟨0, hc⟩, k))
    simp only [hres', hk] at this
    exact this
  obtain ⟨cov, corr, h1, h2, h3, h4⟩ := co_ok res J nPars hdof hrank hres
  obtain ⟨cov', corr', h1', h2', h3', h4'⟩ := co_ok res' J' nPars hdof' hrank' hres2
  obtain ⟨hdet, -, -⟩ := cov_entry h1
  have hJJ : J'.transpose * J' = (c : ℝ) • (J.transpose * J) := by
    ext i j
    rw [Matrix.mul_apply, Matrix.smul_apply, Matrix.mul_apply, smul_eq_mul]
    exact hsum fun k => J k i * J k j
  have hmn : (0 : ℝ) < (m : ℝ) - nPars := by
    have : (nPars : ℝ) < m := by exact_mod_cast hdof
    linarith
  have hcmn : (0 : ℝ) < (c : ℝ) * m - nPars := by
    have : (nPars : ℝ) < c * m := by exact_mod_cast hdof'
    linarith
  have hinv : (J'.transpose * J')⁻¹ = (c : ℝ)⁻¹ • (J.transpose * J)⁻¹ := by
    apply Matrix.inv_eq_right_inv
    rw [hJJ, Matrix.smul_mul, Matrix.mul_smul, Matrix.mul_nonsing_inv _ (isUnit_iff_ne_zero.2 hdet),
      smul_smul, mul_inv_cancel₀ hc0.ne', one_smul]
  have hcov : cov' = (((m : ℝ) - nPars) / (c * m - nPars)) • cov := by
    rw [h2', hinv, h2, smul_smul, smul_smul]
    congr 1
    have : ∑ k, res' k ^ 2 = c * ∑ k, res k ^ 2 := hsum fun k => res k ^ 2
    rw [this]
    push_cast
    field_simp
  refine ⟨cov, corr, h1, ?_⟩
  rw [h1', hcov]
  congr 3
  ext i j
  rw [h4', h4, hcov]
  simp only [Matrix.smul_apply, smul_eq_mul]
  set t := ((m : ℝ) - nPars) / (c * m - nPars) with ht
  have ht0 : 0 < t := div_pos hmn hcmn
  rw [Real.sqrt_mul ht0.le, Real.sqrt_mul ht0.le]
  have hs := Real.mul_self_sqrt ht0.le
  have e : Real.sqrt t * Real.sqrt (cov i i) * (Real.sqrt t * Real.sqrt (cov j j)) =
      t * (Real.sqrt (cov i i) * Real.sqrt (cov j j)) := by
    linear_combination (Real.sqrt (cov i i) * Real.sqrt (cov j j)) * hs
  rw [e, mul_div_mul_left _ _ ht0.ne']

/-- The mean of two measurements, with an error of 2 or -2 in one of them: the variance of the mean is 1. -/
def twoErrors : Fin 4 → Fin 2 → ℝ
  | 0, 0 => 2
  | 1, 0 => -2
  | 2, 1 => 2
  | 3, 1 => -2
  | 0, 1 => 0
  | 1, 1 => 0
  | 2, 0 => 0
  | 3, 0 => 0

def oneColumn : Matrix (Fin 2) (Fin 1) ℝ := Matrix.of fun _ _ => 1

noncomputable def fourCases : Measure (Fin 4) := (4⁻¹ : ENNReal) • Measure.count

instance : IsProbabilityMeasure fourCases := by
  constructor
  simp only [fourCases, Measure.smul_apply, smul_eq_mul, Measure.count_univ]
  simp
  exact ENNReal.inv_mul_cancel (by norm_num) (by norm_num)

theorem fourCases_integral (f : Fin 4 → ℝ) : Integrable f fourCases ∧
    ∫ w, f w ∂fourCases = (f 0 + f 1 + f 2 + f 3) / 4 := by
  have hi : Integrable f fourCases := Integrable.of_finite
  refine ⟨hi, ?_⟩
  rw [integral_fintype hi]
  have : ∀ w, fourCases.real {w} = 1 / 4 := by
    intro w
    simp [fourCases, Measure.real]
  simp only [this, Fin.sum_univ_four, smul_eq_mul]
  ring

theorem twoErrors_white : Spec.White fourCases twoErrors 2 := by
  refine ⟨fun i => (fourCases_integral _).1, fun i j => (fourCases_integral _).1, fun i => ?_, fun i j => ?_⟩
  · rw [(fourCases_integral _).2]
    match i with
    | 0 => norm_num [twoErrors]
    | 1 => norm_num [twoErrors]
  · rw [(fourCases_integral _).2]
    match i, j with
    | 0, 0 => norm_num [twoErrors]
    | 0, 1 => norm_num [twoErrors]
    | 1, 0 => norm_num [twoErrors]
    | 1, 1 => norm_num [twoErrors]

example : ∫ _w, (1 : ℝ) ∂fourCases =
    ∫ w, (3 + (twoErrors w 0 + twoErrors w 1) / 2 - 3) * (3 + (twoErrors w 0 + twoErrors w 1) / 2 - 3) ∂fourCases := by
  have h := C104_unbiased fourCases oneColumn (fun _ => 3) twoErrors 2
    twoErrors_white (fun w _ => 3 + (twoErrors w 0 + twoErrors w 1) / 2) ?_ (fun _ => Matrix.of fun _ _ => 1) ?_
  · exact (h.2 0 0).2.2.1
  · intro w y
    simp only [Matrix.mulVec, dotProduct, Fin.sum_univ_two, Fin.sum_univ_one, oneColumn, Matrix.of_apply, one_mul]
    generalize twoErrors w 0 = a
    generalize twoErrors w 1 = b
    nlinarith [sq_nonneg (y 0 - 3 - (a + b) / 2)]
  · refine Filter.Eventually.of_forall fun w => ?_
    have hr : (fun k => oneColumn.mulVec (fun _ => 3) k + twoErrors w k -
        oneColumn.mulVec
          (fun _ => 3 + (twoErrors w 0 + twoErrors w 1) / 2) k) =
        ![(twoErrors w 0 - twoErrors w 1) / 2, (twoErrors w 1 - twoErrors w 0) / 2] := by
      funext k
      fin_cases k <;> simp [Matrix.mulVec, dotProduct, oneColumn] <;> ring
    have hne : ((twoErrors w 0 - twoErrors w 1) / 2) ^ 2 = 1 := by
      match w with
      | 0 => norm_num [twoErrors]
      | 1 => norm_num [twoErrors]
      | 2 => norm_num [twoErrors]
      | 3 => norm_num [twoErrors]
    rw [hr]
    have hrank : ∀ v : Fin 1 → ℝ, (-oneColumn).mulVec v = 0 → v = 0 := by
      intro v hv
      have := congrFun hv 0
      simp [Matrix.mulVec, dotProduct, oneColumn] at this
      funext i
      fin_cases i
      exact this
    have hres : ![(twoErrors w 0 - twoErrors w 1) / 2, (twoErrors w 1 - twoErrors w 0) / 2] ≠ 0 := by
      intro h0
      have := congrFun h0 0
      simp only [Matrix.cons_val_zero, Pi.zero_apply] at this
      rw [this] at hne
      norm_num at hne
    obtain ⟨cov, corr, h1, h2, -, -⟩ := co_ok
      ![(twoErrors w 0 - twoErrors w 1) / 2, (twoErrors w 1 - twoErrors w 0) / 2]
      (-oneColumn) 1 (by norm_num) hrank hres
    refine ⟨corr, ?_⟩
    rw [h1, h2]
    congr 3
    have hJ : (-oneColumn).transpose * (-oneColumn) =
        (2 : ℝ) • (1 : Matrix (Fin 1) (Fin 1) ℝ) := by
      ext i j
      fin_cases i; fin_cases j
      simp [Matrix.mul_apply, oneColumn]
    have hinv : ((2 : ℝ) • (1 : Matrix (Fin 1) (Fin 1) ℝ))⁻¹ = (1 / 2 : ℝ) • 1 := by
      apply Matrix.inv_eq_right_inv
      simp
    rw [hJ, hinv]
    ext i j
    fin_cases i; fin_cases j
    simp only [Fin.sum_univ_two, Matrix.cons_val_zero, Matrix.cons_val_one, Matrix.smul_apply, smul_eq_mul]
    have : ((twoErrors w 1 - twoErrors w 0) / 2) ^ 2 = 1 := by rw [← hne]; ring
    rw [this, hne]
    norm_num

end Verif.Props
