import Verif.Props.MathFn

/-!
# An inexact Jacobian changes the stored errors and correlations little (C142)
-/

namespace Verif.Props

open Verif Verif.MathFn Matrix

/-! ## Specification -/

/-- The sum of the squares. -/
def Spec.lenSq {m : ℕ} (a : Fin m → ℝ) : ℝ := ∑ k, a k ^ 2

/-- The square of the distance of two matrices, over all of their entries. -/
def Spec.farSq {m n : ℕ} (J J' : Matrix (Fin m) (Fin n) ℝ) : ℝ := ∑ k, ∑ i, (J' k i - J k i) ^ 2

/-- The Jacobian stretches every change of the parameters by `sigma` at least: `sigma` is (at most) its smallest
singular value. -/
def Spec.Stretches {m n : ℕ} (J : Matrix (Fin m) (Fin n) ℝ) (sigma : ℝ) : Prop :=
  ∀ v : Fin n → ℝ, sigma ^ 2 * Spec.lenSq v ≤ Spec.lenSq (J.mulVec v)

/-! ## Two Jacobians -/

theorem lenSq_nonneg {m : ℕ} (a : Fin m → ℝ) : 0 ≤ Spec.lenSq a := Finset.sum_nonneg fun _ _ => sq_nonneg _

theorem lenSq_dot {m : ℕ} (a : Fin m → ℝ) : Spec.lenSq a = a ⬝ᵥ a := by
  simp only [Spec.lenSq, dotProduct, sq]

theorem lenSq_pos {m : ℕ} {a : Fin m → ℝ} (h : a ≠ 0) : 0 < Spec.lenSq a := by
  obtain ⟨k, hk⟩ := Function.ne_iff.1 h
  exact Finset.sum_pos' (fun _ _ => sq_nonneg _) ⟨k, Finset.mem_univ k, by have : a k ≠ 0 := hk; positivity⟩

theorem cauchy_dot {m : ℕ} (a b : Fin m → ℝ) : (a ⬝ᵥ b) ^ 2 ≤ Spec.lenSq a * Spec.lenSq b :=
  Finset.sum_mul_sq_le_sq_mul_sq Finset.univ a b

theorem lenSq_moved {m : ℕ} (a b : Fin m → ℝ) {κ : ℝ} (h0 : 0 ≤ κ) (h1 : κ ≤ 1)
    (h : Spec.lenSq b ≤ κ ^ 2 * Spec.lenSq a) :
    (1 - κ) ^ 2 * Spec.lenSq a ≤ Spec.lenSq (a + b) ∧ Spec.lenSq (a + b) ≤ (1 + κ) ^ 2 * Spec.lenSq a := by
  have e : Spec.lenSq (a + b) = Spec.lenSq a + 2 * (a ⬝ᵥ b) + Spec.lenSq b := by
    simp only [lenSq_dot, add_dotProduct, dotProduct_add, dotProduct_comm b a]
    ring
  have hA := lenSq_nonneg a
  have hB := lenSq_nonneg b
  have hX := cauchy_dot a b
  rw [e]
  generalize Spec.lenSq a = A at *
  generalize Spec.lenSq b = B at *
  generalize a ⬝ᵥ b = X at *
  obtain ⟨p, hp, rfl⟩ : ∃ p, 0 ≤ p ∧ A = p ^ 2 := ⟨Real.sqrt A, Real.sqrt_nonneg _, (Real.sq_sqrt hA).symm⟩
  obtain ⟨q, hq, rfl⟩ : ∃ q, 0 ≤ q ∧ B = q ^ 2 := ⟨Real.sqrt B, Real.sqrt_nonneg _, (Real.sq_sqrt hB).symm⟩
  have hqp : q ≤ κ * p := by
    rw [← mul_pow] at h
    exact (pow_le_pow_iff_left₀ hq (by positivity) two_ne_zero).1 h
  have hX' : |X| ≤ p * q := by
    rw [← mul_pow] at hX
    exact abs_le_of_sq_le_sq hX (by positivity)
  obtain ⟨x1, x2⟩ := abs_le.1 hX'
  constructor
  · have h2 : (1 - κ) * p ≤ p - q := by linarith
    have h3 : 0 ≤ (1 - κ) * p := by have := sub_nonneg.2 h1; positivity
    nlinarith [pow_le_pow_left₀ h3 h2 2]
  · have h2 : p + q ≤ (1 + κ) * p := by linarith
    nlinarith [pow_le_pow_left₀ (by positivity) h2 2]

theorem mulVec_far {m n : ℕ} (J J' : Matrix (Fin m) (Fin n) ℝ) (v : Fin n → ℝ) :
    Spec.lenSq ((J' - J).mulVec v) ≤ Spec.farSq J J' * Spec.lenSq v := by
  unfold Spec.farSq
  rw [Finset.sum_mul]
  refine Finset.sum_le_sum fun k _ => ?_
  have := cauchy_dot (fun i => J' k i - J k i) v
  exact this

/-- The squared lengths of the two images of a change of the parameters. -/
theorem stretch_near {m n : ℕ} {J J' : Matrix (Fin m) (Fin n) ℝ} {sigma delta : ℝ} (hs : 0 < sigma)
    (hJ : Spec.Stretches J sigma) (hd : 0 ≤ delta) (hds : delta ≤ sigma) (hf : Spec.farSq J J' ≤ delta ^ 2)
    (v : Fin n → ℝ) :
    (1 - delta / sigma) ^ 2 * Spec.lenSq (J.mulVec v) ≤ Spec.lenSq (J'.mulVec v) ∧
      Spec.lenSq (J'.mulVec v) ≤ (1 + delta / sigma) ^ 2 * Spec.lenSq (J.mulVec v) := by
  have e : J'.mulVec v = J.mulVec v + (J' - J).mulVec v := by
    rw [← add_mulVec, add_sub_cancel]
  rw [e]
  refine lenSq_moved _ _ (by positivity) ((div_le_one hs).2 hds) ?_
  refine (mulVec_far J J' v).trans ?_
  have h1 := mul_le_mul_of_nonneg_right hf (lenSq_nonneg v)
  have h2 := mul_le_mul_of_nonneg_left (hJ v) (by positivity : 0 ≤ (delta / sigma) ^ 2)
  have h3 : (delta / sigma) ^ 2 * (sigma ^ 2 * Spec.lenSq v) = delta ^ 2 * Spec.lenSq v := by
    field_simp
  linarith

theorem stretches_rank {m n : ℕ} {J : Matrix (Fin m) (Fin n) ℝ} {sigma : ℝ} (hs : 0 < sigma)
    (hJ : Spec.Stretches J sigma) (v : Fin n → ℝ) (h : J.mulVec v = 0) : v = 0 := by
  by_contra hv
  have h1 := hJ v
  rw [h] at h1
  have h2 := lenSq_pos hv
  have h3 : Spec.lenSq (0 : Fin m → ℝ) = 0 := by simp [Spec.lenSq]
  rw [h3] at h1
  have : 0 < sigma ^ 2 * Spec.lenSq v := by positivity
  linarith

/-- The moved Jacobian stretches, too. -/
theorem stretches_moved {m n : ℕ} {J J' : Matrix (Fin m) (Fin n) ℝ} {sigma delta : ℝ} (hs : 0 < sigma)
    (hJ : Spec.Stretches J sigma) (hd : 0 ≤ delta) (hds : delta ≤ sigma) (hf : Spec.farSq J J' ≤ delta ^ 2) :
    Spec.Stretches J' (sigma - delta) := by
  intro v
  refine le_trans ?_ (stretch_near hs hJ hd hds hf v).1
  have := mul_le_mul_of_nonneg_left (hJ v) (sq_nonneg (1 - delta / sigma))
  refine le_trans (le_of_eq ?_) this
  field_simp

/-! ## The two covariances -/

/-- What the covariance is, with its Jacobian. -/
structure CovOf {m n : ℕ} (J : Matrix (Fin m) (Fin n) ℝ) (s : ℝ) (C : Matrix (Fin n) (Fin n) ℝ) : Prop where
  inv : C * (J.transpose * J) = s • (1 : Matrix (Fin n) (Fin n) ℝ)
  sym : C.transpose = C

theorem CovOf.solve {m n : ℕ} {J : Matrix (Fin m) (Fin n) ℝ} {s : ℝ} {C : Matrix (Fin n) (Fin n) ℝ} (h : CovOf J s C)
    (v x : Fin n → ℝ) : s * (v ⬝ᵥ x) = J.mulVec (C.mulVec v) ⬝ᵥ J.mulVec x := by
  have h1 : (J.transpose * J) * C = s • (1 : Matrix (Fin n) (Fin n) ℝ) := by
    have := congrArg transpose h.inv
    rw [transpose_mul, h.sym, transpose_mul, transpose_transpose, transpose_smul, transpose_one] at this
    exact this
  have h2 : (J.transpose * J).mulVec (C.mulVec v) = s • v := by
    rw [mulVec_mulVec, h1, smul_mulVec, one_mulVec]
  have h3 : (s • v) ⬝ᵥ x = J.mulVec (C.mulVec v) ⬝ᵥ J.mulVec x := by
    rw [← h2, ← mulVec_mulVec, dotProduct_comm, dotProduct_mulVec, vecMul_transpose, dotProduct_comm]
  rw [← h3, smul_dotProduct, smul_eq_mul]

theorem cov_mono {m m' n : ℕ} {J : Matrix (Fin m) (Fin n) ℝ} {J' : Matrix (Fin m') (Fin n) ℝ} {s c : ℝ} (hs : 0 < s)
    (hc : 0 < c) {C C' : Matrix (Fin n) (Fin n) ℝ} (h : CovOf J s C) (h' : CovOf J' s C')
    (hle : ∀ w : Fin n → ℝ, c ^ 2 * Spec.lenSq (J.mulVec w) ≤ Spec.lenSq (J'.mulVec w)) (v : Fin n → ℝ) :
    c ^ 2 * (v ⬝ᵥ C'.mulVec v) ≤ v ⬝ᵥ C.mulVec v := by
  have e1 := h.solve v (C.mulVec v)
  have e2 := h'.solve v (C'.mulVec v)
  have e3 := h.solve v (C'.mulVec v)
  rw [← lenSq_dot] at e1 e2
  have hC := cauchy_dot (J.mulVec (C.mulVec v)) (J.mulVec (C'.mulVec v))
  have hl := hle (C'.mulVec v)
  have n1 := lenSq_nonneg (J.mulVec (C.mulVec v))
  have n2 := lenSq_nonneg (J'.mulVec (C'.mulVec v))
  rw [← e3, ← e1] at hC
  rw [← e1] at n1
  rw [← e2] at n2 hl
  generalize v ⬝ᵥ C.mulVec v = a at *
  generalize v ⬝ᵥ C'.mulVec v = b at *
  have ha : 0 ≤ a := nonneg_of_mul_nonneg_right n1 hs
  have hb : 0 ≤ b := nonneg_of_mul_nonneg_right n2 hs
  rcases hb.eq_or_lt with rfl | hb
  · simpa using ha
  have h1 : c ^ 2 * (s * b) ^ 2 ≤ s * a * (s * b) := by
    calc c ^ 2 * (s * b) ^ 2 ≤ c ^ 2 * (s * a * Spec.lenSq (J.mulVec (C'.mulVec v))) := by gcongr
      _ = s * a * (c ^ 2 * Spec.lenSq (J.mulVec (C'.mulVec v))) := by ring
      _ ≤ s * a * (s * b) := by gcongr
  have h2 : (s * b * s) * (c ^ 2 * b) ≤ (s * b * s) * a := by nlinarith
  exact le_of_mul_le_mul_left h2 (by positivity)

theorem quad_expand {n : ℕ} {C : Matrix (Fin n) (Fin n) ℝ} (hC : C.transpose = C) (v w : Fin n → ℝ) (t : ℝ) :
    (t • v + w) ⬝ᵥ C.mulVec (t • v + w) = t ^ 2 * (v ⬝ᵥ C.mulVec v) + 2 * t * (v ⬝ᵥ C.mulVec w) + w ⬝ᵥ C.mulVec w := by
  have hsym : w ⬝ᵥ C.mulVec v = v ⬝ᵥ C.mulVec w := by
    rw [dotProduct_mulVec, ← mulVec_transpose, hC, dotProduct_comm]
  simp only [mulVec_add, mulVec_smul, add_dotProduct, dotProduct_add, smul_dotProduct, dotProduct_smul, smul_eq_mul, hsym]
  ring

/-- From the diagonal forms to all entries. -/
theorem quad_polar {n : ℕ} {C C' : Matrix (Fin n) (Fin n) ℝ} (hC : C.transpose = C) (hC' : C'.transpose = C') {β : ℝ}
    (hpos : ∀ v : Fin n → ℝ, v ≠ 0 → 0 < v ⬝ᵥ C.mulVec v)
    (hE : ∀ v : Fin n → ℝ, |v ⬝ᵥ C'.mulVec v - v ⬝ᵥ C.mulVec v| ≤ β * (v ⬝ᵥ C.mulVec v)) (v w : Fin n → ℝ) (hv : v ≠ 0)
    (hw : w ≠ 0) :
    |v ⬝ᵥ C'.mulVec w - v ⬝ᵥ C.mulVec w| ≤ β * (Real.sqrt (v ⬝ᵥ C.mulVec v) * Real.sqrt (w ⬝ᵥ C.mulVec w)) := by
  obtain ⟨p, hp, ep⟩ : ∃ p, 0 < p ∧ v ⬝ᵥ C.mulVec v = p ^ 2 :=
    ⟨Real.sqrt _, Real.sqrt_pos.2 (hpos v hv), (Real.sq_sqrt (hpos v hv).le).symm⟩
  obtain ⟨q, hq, eq⟩ : ∃ q, 0 < q ∧ w ⬝ᵥ C.mulVec w = q ^ 2 :=
    ⟨Real.sqrt _, Real.sqrt_pos.2 (hpos w hw), (Real.sq_sqrt (hpos w hw).le).symm⟩
  rw [ep, eq, Real.sqrt_sq hp.le, Real.sqrt_sq hq.le]
  have a1 := abs_le.1 (hE ((q / p) • v + w))
  have a2 := abs_le.1 (hE ((-(q / p)) • v + w))
  rw [quad_expand hC, quad_expand hC', ep, eq] at a1 a2
  have h1 : (q / p) ^ 2 * p ^ 2 = q ^ 2 := by field_simp
  have h2 : (-(q / p)) ^ 2 * p ^ 2 = q ^ 2 := by field_simp
  rw [h1] at a1
  rw [h2] at a2
  have h3 : q / p * (p * q) = q ^ 2 := by field_simp
  have key : (q / p) * |v ⬝ᵥ C'.mulVec w - v ⬝ᵥ C.mulVec w| ≤ (q / p) * (β * (p * q)) := by
    rw [show (q / p) * (β * (p * q)) = β * (q / p * (p * q)) by ring, h3, ← abs_of_pos (div_pos hq hp), ← abs_mul,
      abs_le]
    rw [neg_sq] at a2
    constructor <;> nlinarith [a1.1, a1.2, a2.1, a2.2]
  exact le_of_mul_le_mul_left key (div_pos hq hp)

/-! ## The claims -/

/-- **C142**. If the Jacobian that is given to `co_matrices` is not farther from another one, over all entries, than a
part `κ` of the smallest singular value of that one, then both have a covariance and a correlation; each standard error
is the same but for factors between `1 / (1 + κ)` and `1 / (1 - κ)`, the covariances differ by at most
`1 / (1 - κ)² - 1` in units of the standard errors, and the correlations by at most `((1 + κ) / (1 - κ))² - 1`. -/
theorem C142_near {m n : ℕ} (res : Fin m → ℝ) (J J' : Matrix (Fin m) (Fin n) ℝ) (nPars : ℕ) (hdof : nPars < m)
    (hres : res ≠ 0) {sigma κ : ℝ} (hs : 0 < sigma) (hJ : Spec.Stretches J sigma) (h0 : 0 ≤ κ) (h1 : κ < 1)
    (hf : Spec.farSq J J' ≤ (κ * sigma) ^ 2) :
    ∃ cov corr cov' corr', coMatrices res J nPars = .ok (some (cov, corr)) ∧
      coMatrices res J' nPars = .ok (some (cov', corr')) ∧
      (∀ i, Real.sqrt (cov i i) / (1 + κ) ≤ Real.sqrt (cov' i i) ∧
        Real.sqrt (cov' i i) ≤ Real.sqrt (cov i i) / (1 - κ)) ∧
      (∀ i j, |cov' i j - cov i j| ≤ (1 / (1 - κ) ^ 2 - 1) * (Real.sqrt (cov i i) * Real.sqrt (cov j j))) ∧
      ∀ i j, |corr' i j - corr i j| ≤ ((1 + κ) / (1 - κ)) ^ 2 - 1 := by
  have hk : κ * sigma / sigma = κ := by field_simp
  have hle : κ * sigma ≤ sigma := by nlinarith
  have hnear := stretch_near (J' := J') hs hJ (by positivity) hle hf
  rw [hk] at hnear
  have hJ' : Spec.Stretches J' (sigma - κ * sigma) := stretches_moved hs hJ (by positivity) hle hf
  have hs' : 0 < sigma - κ * sigma := by nlinarith
  obtain ⟨cov, corr, e1, e2, e3, e4, e5, e6, e7, e8⟩ :=
    C30_matrices res J nPars hdof (stretches_rank hs hJ) hres
  obtain ⟨cov', corr', f1, f2, f3, f4, f5, f6, f7, f8⟩ :=
    C30_matrices res J' nPars hdof (stretches_rank hs' hJ') hres
  refine ⟨cov, corr, cov', corr', e1, f1, ?_⟩
  have hss : 0 < (∑ k, res k ^ 2) / ((m : ℝ) - nPars) := by
    have := lenSq_pos hres
    refine div_pos this (sub_pos.2 (by exact_mod_cast hdof))
  have k1 : 0 < 1 - κ := by linarith
  have k2 : 0 < 1 + κ := by linarith
  have up : ∀ v : Fin n → ℝ, (1 - κ) ^ 2 * (v ⬝ᵥ cov'.mulVec v) ≤ v ⬝ᵥ cov.mulVec v :=
    cov_mono hss k1 ⟨e2, e3⟩ ⟨f2, f3⟩ fun w => (hnear w).1
  have down : ∀ v : Fin n → ℝ, (1 / (1 + κ)) ^ 2 * (v ⬝ᵥ cov.mulVec v) ≤ v ⬝ᵥ cov'.mulVec v :=
    cov_mono hss (by positivity) ⟨f2, f3⟩ ⟨e2, e3⟩ fun w => by
      have := (hnear w).2
      rw [one_div, inv_pow, inv_mul_le_iff₀ (by positivity)]
      exact this
  have unit : ∀ (C : Matrix (Fin n) (Fin n) ℝ) (i j : Fin n), Pi.single i 1 ⬝ᵥ C.mulVec (Pi.single j 1) = C i j := by
    intro C i j
    simp
  have ne : ∀ i : Fin n, (Pi.single i 1 : Fin n → ℝ) ≠ 0 := fun i => by simp
  have hpos : ∀ i, 0 < cov i i := fun i => by simpa only [unit] using e4 _ (ne i)
  have hpos' : ∀ i, 0 < cov' i i := fun i => by simpa only [unit] using f4 _ (ne i)
  have hsd : ∀ i, Real.sqrt (cov i i) / (1 + κ) ≤ Real.sqrt (cov' i i) ∧
      Real.sqrt (cov' i i) ≤ Real.sqrt (cov i i) / (1 - κ) := by
    intro i
    have u := up (Pi.single i 1)
    have d := down (Pi.single i 1)
    rw [unit, unit] at u d
    constructor
    · refine Real.le_sqrt_of_sq_le ?_
      rw [div_pow, Real.sq_sqrt (hpos i).le]
      rw [div_pow, one_pow] at d
      rw [div_eq_mul_one_div, mul_comm]
      exact d
    · rw [Real.sqrt_le_left (by positivity), div_pow, Real.sq_sqrt (hpos i).le, le_div_iff₀ (by positivity), mul_comm]
      exact u
  have hyy : (1 + κ) ^ 2 ≤ 1 / (1 - κ) ^ 2 := by
    rw [le_div_iff₀ (by positivity), ← mul_pow]
    have : (1 + κ) * (1 - κ) ≤ 1 := by nlinarith
    exact pow_le_one₀ (by positivity) this
  have hlow : 1 - (1 / (1 + κ)) ^ 2 ≤ 1 / (1 - κ) ^ 2 - 1 := by
    have h3 : 2 ≤ (1 + κ) ^ 2 + (1 / (1 + κ)) ^ 2 := by
      have : (1 + κ) * (1 / (1 + κ)) = 1 := by field_simp
      nlinarith [sq_nonneg ((1 + κ) - 1 / (1 + κ))]
    linarith
  have hcov : ∀ i j, |cov' i j - cov i j| ≤ (1 / (1 - κ) ^ 2 - 1) * (Real.sqrt (cov i i) * Real.sqrt (cov j j)) := by
    intro i j
    have := quad_polar (β := 1 / (1 - κ) ^ 2 - 1) e3 f3 e4 (fun v => by
      by_cases hv : v = 0
      · simp [hv]
      have hp := e4 v hv
      have u := up v
      have d := down v
      rw [mul_comm, ← le_div_iff₀ (by positivity)] at u
      rw [abs_le]
      constructor
      · nlinarith
      · rw [sub_mul, one_mul, one_div, ← div_eq_inv_mul]
        linarith) (Pi.single i 1) (Pi.single j 1) (ne i) (ne j)
    simpa only [unit] using this
  refine ⟨hsd, hcov, fun i j => ?_⟩
  obtain ⟨p, hp, ep⟩ : ∃ p, 0 < p ∧ Real.sqrt (cov i i) = p := ⟨_, Real.sqrt_pos.2 (hpos i), rfl⟩
  obtain ⟨q, hq, eq⟩ : ∃ q, 0 < q ∧ Real.sqrt (cov j j) = q := ⟨_, Real.sqrt_pos.2 (hpos j), rfl⟩
  obtain ⟨p', hp', ep'⟩ : ∃ p, 0 < p ∧ Real.sqrt (cov' i i) = p := ⟨_, Real.sqrt_pos.2 (hpos' i), rfl⟩
  obtain ⟨q', hq', eq'⟩ : ∃ q, 0 < q ∧ Real.sqrt (cov' j j) = q := ⟨_, Real.sqrt_pos.2 (hpos' j), rfl⟩
  have s1 := hsd i
  have s2 := hsd j
  have hc := hcov i j
  have hr := e7 i j
  rw [e8 i j, ep, eq] at hr
  rw [f8 i j, e8 i j, ep, eq, ep', eq']
  rw [ep, ep'] at s1
  rw [eq, eq'] at s2
  rw [ep, eq] at hc
  generalize cov i j = a at *
  generalize cov' i j = b at *
  obtain ⟨X, hX⟩ : ∃ X, X = (p * q) / (p' * q') := ⟨_, rfl⟩
  have hX1 : X ≤ (1 + κ) ^ 2 := by
    rw [hX, div_le_iff₀ (by positivity)]
    have a1 : p ≤ p' * (1 + κ) := (div_le_iff₀ k2).1 s1.1
    have a2 : q ≤ q' * (1 + κ) := (div_le_iff₀ k2).1 s2.1
    calc p * q ≤ (p' * (1 + κ)) * (q' * (1 + κ)) := by gcongr
      _ = _ := by ring
  have hX0 : (1 - κ) ^ 2 ≤ X := by
    rw [hX, le_div_iff₀ (by positivity)]
    have a1 : p' * (1 - κ) ≤ p := (le_div_iff₀ k1).1 s1.2
    have a2 : q' * (1 - κ) ≤ q := (le_div_iff₀ k1).1 s2.2
    calc (1 - κ) ^ 2 * (p' * q') = (p' * (1 - κ)) * (q' * (1 - κ)) := by ring
      _ ≤ p * q := by gcongr
  have hXa : |X - 1| ≤ (1 + κ) ^ 2 - 1 := abs_le.2 ⟨by nlinarith, by linarith⟩
  have hXpos : 0 < X := by rw [hX]; positivity
  have e : b / (p' * q') - a / (p * q) = (b - a) / (p * q) * X + a / (p * q) * (X - 1) := by
    rw [hX]
    field_simp
    ring
  have hβ : 0 ≤ 1 / (1 - κ) ^ 2 - 1 := by nlinarith
  have h2 : |(b - a) / (p * q)| ≤ 1 / (1 - κ) ^ 2 - 1 := by
    rw [abs_div, abs_of_pos (mul_pos hp hq), div_le_iff₀ (mul_pos hp hq)]
    exact hc
  rw [e]
  calc _ ≤ |(b - a) / (p * q)| * X + |a / (p * q)| * |X - 1| := by
        refine (abs_add_le _ _).trans ?_
        rw [abs_mul, abs_mul, abs_of_pos hXpos]
    _ ≤ (1 / (1 - κ) ^ 2 - 1) * (1 + κ) ^ 2 + 1 * ((1 + κ) ^ 2 - 1) := by
        gcongr
        exact abs_le.2 hr
    _ = _ := by rw [div_pow]; ring

/-- **C142**. The bound on the distance cannot be relaxed: for each change `v` of the parameters (of length one) there is
a Jacobian as far away as `v` is stretched for which `co_matrices` fails. -/
theorem C142_sharp {m n : ℕ} (res : Fin m → ℝ) (J : Matrix (Fin m) (Fin n) ℝ) (nPars : ℕ) (v : Fin n → ℝ)
    (hv : Spec.lenSq v = 1) :
    ∃ J', Spec.farSq J J' = Spec.lenSq (J.mulVec v) ∧ coMatrices res J' nPars = .error .linAlgError := by
  refine ⟨J - Matrix.of fun k i => J.mulVec v k * v i, ?_, ?_⟩
  · unfold Spec.farSq
    have : ∀ k i, ((J - Matrix.of fun k i => J.mulVec v k * v i) k i - J k i) ^ 2 = J.mulVec v k ^ 2 * v i ^ 2 := by
      intro k i
      rw [Matrix.sub_apply, Matrix.of_apply]
      ring
    simp only [this, ← Finset.mul_sum]
    rw [← Finset.sum_mul, show ∑ i, v i ^ 2 = 1 from hv, mul_one]
    rfl
  · have h0 : (J - Matrix.of fun k i => J.mulVec v k * v i).mulVec v = 0 := by
      have : (Matrix.of fun k i => J.mulVec v k * v i).mulVec v = J.mulVec v := by
        funext k
        change ∑ i, J.mulVec v k * v i * v i = _
        simp only [mul_assoc, ← Finset.mul_sum]
        rw [show ∑ i, v i * v i = 1 by rw [← hv]; exact Finset.sum_congr rfl fun i _ => (sq (v i)).symm, mul_one]
      rw [Matrix.sub_mulVec, this, sub_self]
    have hv0 : v ≠ 0 := by
      rintro rfl
      simp [Spec.lenSq] at hv
    exact C31_rank_deficient res _ nPars v hv0 h0

/-- **C142**. If the entries of the Jacobian are off by a part `u` of themselves (rounded numbers: `u = 2⁻⁵³`), the
standard errors are the same but for a part `κ`, `u` times the root of the sum of the squares of the entries over the
smallest singular value. -/
theorem C142_rounded {m n : ℕ} (res : Fin m → ℝ) (J J' : Matrix (Fin m) (Fin n) ℝ) (nPars : ℕ) (hdof : nPars < m)
    (hres : res ≠ 0) {sigma u κ : ℝ} (hs : 0 < sigma) (hJ : Spec.Stretches J sigma) (hu : 0 ≤ u)
    (h : ∀ k i, |J' k i - J k i| ≤ u * |J k i|) (hκ : κ = u * Real.sqrt (∑ k, ∑ i, J k i ^ 2) / sigma) (h1 : κ < 1) :
    ∃ cov corr cov' corr', coMatrices res J nPars = .ok (some (cov, corr)) ∧
      coMatrices res J' nPars = .ok (some (cov', corr')) ∧
      (∀ i, Real.sqrt (cov i i) / (1 + κ) ≤ Real.sqrt (cov' i i) ∧
        Real.sqrt (cov' i i) ≤ Real.sqrt (cov i i) / (1 - κ)) ∧
      ∀ i j, |corr' i j - corr i j| ≤ ((1 + κ) / (1 - κ)) ^ 2 - 1 := by
  have hS : 0 ≤ ∑ k, ∑ i, J k i ^ 2 := Finset.sum_nonneg fun _ _ => Finset.sum_nonneg fun _ _ => sq_nonneg _
  obtain ⟨cov, corr, cov', corr', a1, a2, a3, -, a5⟩ := C142_near (κ := κ) res J J' nPars hdof hres hs hJ
    (by rw [hκ]; positivity) h1 (by
      rw [hκ, div_mul_cancel₀ _ hs.ne', mul_pow, Real.sq_sqrt hS, Finset.mul_sum]
      refine Finset.sum_le_sum fun k _ => ?_
      rw [Finset.mul_sum]
      refine Finset.sum_le_sum fun i _ => ?_
      rw [← sq_abs, ← sq_abs (J k i), ← mul_pow]
      exact pow_le_pow_left₀ (abs_nonneg _) (h k i) 2)
  exact ⟨cov, corr, cov', corr', a1, a2, a3, a5⟩

/-- Three residuals and two parameters: the Jacobian stretches by one at least; another one off by a tenth in one entry
changes the first standard error by less than a ninth. -/
example : ∃ cov corr cov' corr' : Matrix (Fin 2) (Fin 2) ℝ,
    coMatrices ![1, 1, 1] !![1, 0; 0, 2; 0, 0] 2 = .ok (some (cov, corr)) ∧
    coMatrices ![1, 1, 1] !![1.1, 0; 0, 2; 0, 0] 2 = .ok (some (cov', corr')) ∧
    Real.sqrt (cov' 0 0) ≤ Real.sqrt (cov 0 0) / (1 - 1 / 10) := by
  have hJ : Spec.Stretches !![(1 : ℝ), 0; 0, 2; 0, 0] 1 := by
    intro v
    simp only [Spec.lenSq, Fin.sum_univ_two, Fin.sum_univ_three, Matrix.mulVec, dotProduct]
    simp
    nlinarith [sq_nonneg (v 1)]
  obtain ⟨cov, corr, cov', corr', a1, a2, a3, -, -⟩ := C142_near (κ := 1 / 10) ![1, 1, 1] !![(1 : ℝ), 0; 0, 2; 0, 0]
    !![1.1, 0; 0, 2; 0, 0] 2 (by norm_num) (by intro h; simpa using congrFun h 0) one_pos hJ (by norm_num) (by norm_num) (by
      simp only [Spec.farSq, Fin.sum_univ_two, Fin.sum_univ_three]
      simp
      norm_num)
  exact ⟨cov, corr, cov', corr', a1, a2, (a3 0).2⟩

end Verif.Props
