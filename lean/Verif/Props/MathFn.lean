import Verif.Lemmas.Norm
import Verif.Model.Aperture
import Mathlib.Algebra.Order.Star.Real
import Mathlib.LinearAlgebra.Matrix.PosDef
import Mathlib.Analysis.Matrix.PosDef
import Mathlib.Analysis.SpecialFunctions.Exp

/-! # C22, C27 - C31, C33 - C35: numerical helpers -/

namespace Verif.Props

open Verif Verif.Np Verif.MathFn Finset

/-! ## C27 -/

/-- **C27** every result is a number in `[0, 1]`, whatever the entries. -/
theorem C27_range {ι : Type} [Fintype ι] [Nonempty ι] (P : ι → Fl) :
    ∃ r, MathFn.norm P = .ok r ∧ ∀ q, 0 ≤ r q ∧ r q ≤ 1 := by
  obtain ⟨mn, mx, h1, h2, h3⟩ := norm_ok P
  refine ⟨_, h3, fun q => ?_⟩
  rcases norm_cases P h1 h2 with ⟨p, a, b, hp, hle, hv⟩ | ⟨-, hv⟩
  · rw [hv]
    have h1 := hle q
    have h2 := hle b
    exact ⟨div_nonneg (by linarith) (by linarith), div_le_one_of_le₀ (by linarith) (by linarith)⟩
  · rw [hv]
    exact ⟨le_rfl, zero_le_one⟩

/-- **C27** finite data that are not constant: the smallest entries give 0, the largest 1, and
the order is kept. -/
theorem C27_order {ι : Type} [Fintype ι] (p : ι → ℝ) (hne : ∃ a b, p a ≠ p b) :
    ∃ r, MathFn.norm (fun q => Fl.fin (p q)) = .ok r ∧
      (∀ q, (∀ q', p q ≤ p q') → r q = 0) ∧ (∀ q, (∀ q', p q' ≤ p q) → r q = 1) ∧
      ∀ q q', r q < r q' ↔ p q < p q' := by
  obtain ⟨s, t, hst⟩ := hne
  have : Nonempty ι := ⟨s⟩
  obtain ⟨a, b, hle, h⟩ := norm_fin p
  have hab : p a < p b := by
    rcases lt_or_ge (p a) (p b) with h | h
    · exact h
    · exfalso
      apply hst
      have h1 := hle s
      have h2 := hle t
      linarith
  have hd : 0 < p b - p a := by linarith
  refine ⟨_, h, fun q hq => ?_, fun q hq => ?_, fun q q' => ?_⟩
  · rw [le_antisymm (hq a) (hle q).1, sub_self, zero_div]
  · rw [le_antisymm (hle q).2 (hq b), div_self hd.ne']
  · rw [div_lt_div_iff_of_pos_right hd]
    constructor <;> intro h <;> linarith

/-- **C27** the value: the distance from the smallest entry over the range of the entries. -/
theorem C27_value {ι : Type} [Fintype ι] (p : ι → ℝ) (a b : ι) (ha : ∀ q, p a ≤ p q)
    (hb : ∀ q, p q ≤ p b) (hab : p a < p b) :
    MathFn.norm (fun q => Fl.fin (p q)) = .ok fun q => (p q - p a) / (p b - p a) := by
  have : Nonempty ι := ⟨a⟩
  obtain ⟨a', b', hle, h⟩ := norm_fin p
  rw [h, le_antisymm (hle a).1 (ha a'), le_antisymm (hb b') (hle b).2]

/-- **C27** constant data give 0. -/
theorem C27_constant {ι : Type} [Fintype ι] [Nonempty ι] (c : ℝ) :
    MathFn.norm (fun _ : ι => Fl.fin c) = .ok (fun _ => 0) := by
  obtain ⟨a, b, -, h⟩ := norm_fin (fun _ : ι => c)
  rw [h]
  simp

/-- **C27** one nan or infinity among the entries makes everything 0. -/
theorem C27_bad {ι : Type} [Fintype ι] (P : ι → Fl) (z : ι) (hz : ∀ r, P z ≠ .fin r) :
    MathFn.norm P = .ok (fun _ => 0) := by
  have : Nonempty ι := ⟨z⟩
  obtain ⟨mn, mx, h1, h2, h3⟩ := norm_ok P
  rcases norm_cases P h1 h2 with ⟨p, a, b, hp, -⟩ | ⟨-, hv⟩
  · exact absurd (hp z) (hz _)
  · rw [h3]
    congr 1
    funext q
    exact hv q

/-- **C27** no entries: `ValueError`. -/
theorem C27_empty {ι : Type} [Fintype ι] [IsEmpty ι] (P : ι → Fl) :
    MathFn.norm P = .error .valueError := norm_empty P

theorem line_ok {n : ℕ} (hn : 0 < n) (P : Fin n → Fl) :
    ∃ mn mx, arrMin (List.ofFn P) = .ok mn ∧ arrMax (List.ofFn P) = .ok mx ∧
      MathFn.norm P = .ok (fun q => normPt (P q) mn mx) := by
  have : Nonempty (Fin n) := ⟨⟨0, hn⟩⟩
  have hne : List.ofFn P ≠ [] := by
    intro h
    have := congrArg List.length h
    simp at this
    omega
  obtain ⟨mn, h1, h2⟩ := arrMin_ok hne
  obtain ⟨mx, h3, h4⟩ := arrMax_ok hne
  simp only [mem_line] at h2 h4
  obtain ⟨mn', mx', h5, h6, h7⟩ := norm_ok P
  rw [h5.unique h2, h6.unique h4] at h7
  exact ⟨mn, mx, h1, h3, h7⟩

/-- **C27** `axis=0` is the normalisation of each column on its own. -/
theorem C27_axis0 {m n : ℕ} (hm : 0 < m) (P : Fin m × Fin n → Fl) :
    ∃ r, normAxis0 P = .ok r ∧ ∀ j, MathFn.norm (fun i => P (i, j)) = .ok (fun i => r (i, j)) := by
  have := fun j : Fin n => line_ok hm (fun i => P (i, j))
  choose mn mx h1 h2 h3 using this
  refine ⟨fun q => normPt (P q) (mn q.2) (mx q.2), ?_, fun j => h3 j⟩
  unfold normAxis0
  rw [Aperture.seqArr_ok _ mn h1, Aperture.seqArr_ok _ mx h2]
  rfl

/-- **C27** `axis=1` is the normalisation of each row on its own. -/
theorem C27_axis1 {m n : ℕ} (hn : 0 < n) (P : Fin m × Fin n → Fl) :
    ∃ r, normAxis1 P = .ok r ∧ ∀ i, MathFn.norm (fun j => P (i, j)) = .ok (fun j => r (i, j)) := by
  have := fun i : Fin m => line_ok hn (fun j => P (i, j))
  choose mn mx h1 h2 h3 using this
  refine ⟨fun q => normPt (P q) (mn q.1) (mx q.1), ?_, fun i => h3 i⟩
  unfold normAxis1
  rw [Aperture.seqArr_ok _ mn h1, Aperture.seqArr_ok _ mx h2]
  rfl

example : ∃ r, MathFn.norm (fun q : Fin 3 => Fl.fin (![2, 7, -1] q)) = .ok r ∧ r 2 = 0 ∧ r 1 = 1 := by
  obtain ⟨r, h1, h2, h3, -⟩ := C27_order ![2, 7, -1] ⟨0, 1, by norm_num⟩
  exact ⟨r, h1, h2 2 (fun q => by
      rw [show (![2, 7, -1] : Fin 3 → ℝ) 2 = -1 from rfl]
      fin_cases q <;> norm_num [Matrix.cons_val]),
    h3 1 (fun q => by fin_cases q <;> norm_num [Matrix.cons_val])⟩

example : MathFn.norm (fun q : Fin 3 => (![.fin 2, .pinf, .fin (-1)] : Fin 3 → Fl) q) =
    .ok (fun _ => 0) := C27_bad _ 1 (fun r => by simp)

/-! ## C28 -/

/-- **C28** invariance under a positive affine calibration. -/
theorem C28_affine {ι : Type} [Fintype ι] (p : ι → ℝ) (a b : ℝ) (ha : 0 < a) :
    MathFn.norm (fun q => Fl.fin (a * p q + b)) = MathFn.norm (fun q => Fl.fin (p q)) := by
  rcases isEmpty_or_nonempty ι with he | he
  · rw [norm_empty, norm_empty]
  · obtain ⟨s, t, h1, h2⟩ := norm_fin p
    obtain ⟨s', t', h3, h4⟩ := norm_fin (fun q => a * p q + b)
    rw [h2, h4]
    have e1 : p s' = p s := by
      apply le_antisymm _ (h1 s').1
      have := (h3 s).1
      nlinarith
    have e2 : p t' = p t := by
      apply le_antisymm (h1 t').2
      have := (h3 t).2
      nlinarith
    congr 1
    funext q
    simp only [e1, e2]
    rw [show a * p q + b - (a * p s + b) = a * (p q - p s) by ring,
      show a * p t + b - (a * p s + b) = a * (p t - p s) by ring, mul_div_mul_left _ _ ha.ne']

/-- **C28** idempotent: normalising the result changes nothing (for any entries). -/
theorem C28_idempotent {ι : Type} [Fintype ι] [Nonempty ι] (P : ι → Fl) :
    ∃ r, MathFn.norm P = .ok r ∧ MathFn.norm (fun q => Fl.fin (r q)) = .ok r := by
  obtain ⟨mn, mx, h1, h2, h3⟩ := norm_ok P
  refine ⟨_, h3, ?_⟩
  rcases norm_cases P h1 h2 with ⟨p, a, b, hp, hle, hv⟩ | ⟨-, hv⟩
  · simp only [hv]
    obtain ⟨s, t, h4, h5⟩ := norm_fin (fun q => (p q - p a) / (p b - p a))
    rw [h5]
    congr 1
    funext q
    rcases eq_or_lt_of_le (hle b).1 with h | h
    · simp [h]
    · have hd : 0 < p b - p a := by linarith
      have e1 : p s = p a := by
        have := (h4 a).1
        rw [div_le_div_iff_of_pos_right hd] at this
        have := (hle s).1
        linarith
      have e2 : p t = p b := by
        have := (h4 b).2
        rw [div_le_div_iff_of_pos_right hd] at this
        have := (hle t).2
        linarith
      rw [e1, e2, sub_self, zero_div, div_self hd.ne']
      simp
  · simp only [hv]
    exact C27_constant 0

/-- **C28** sign reversal. -/
theorem C28_neg {ι : Type} [Fintype ι] (p : ι → ℝ) (hne : ∃ a b, p a ≠ p b) :
    ∃ r, MathFn.norm (fun q => Fl.fin (p q)) = .ok r ∧
      MathFn.norm (fun q => Fl.fin (-p q)) = .ok (fun q => 1 - r q) := by
  obtain ⟨u, w, huw⟩ := hne
  have : Nonempty ι := ⟨u⟩
  obtain ⟨s, t, h1, h2⟩ := norm_fin p
  obtain ⟨s', t', h3, h4⟩ := norm_fin (fun q => -p q)
  refine ⟨_, h2, ?_⟩
  rw [h4]
  have e1 : p s' = p t := by
    have := (h3 t).1
    have := (h1 s').2
    linarith
  have e2 : p t' = p s := by
    have := (h3 s).2
    have := (h1 t').1
    linarith
  have hd : p t - p s ≠ 0 := by
    intro h
    apply huw
    have := h1 u
    have := h1 w
    linarith
  congr 1
  funext q
  simp only [e1, e2]
  rw [show -p s - -p t = p t - p s by ring]
  field_simp
  ring

/-! ## C29 -/

/-- **C29** polar coordinates of a point. -/
theorem C29_polar (x y : ℝ) :
    0 ≤ (Aperture.cart2pol x y).1 ∧ -Real.pi < (Aperture.cart2pol x y).2 ∧
    (Aperture.cart2pol x y).2 ≤ Real.pi ∧
    (Aperture.cart2pol x y).1 * Real.cos (Aperture.cart2pol x y).2 = x ∧
    (Aperture.cart2pol x y).1 * Real.sin (Aperture.cart2pol x y).2 = y := by
  have hn : Real.sqrt (x ^ 2 + y ^ 2) = ‖(⟨x, y⟩ : ℂ)‖ := by
    rw [Complex.norm_eq_sqrt_sq_add_sq]
  unfold Aperture.cart2pol arctan2
  simp only
  refine ⟨Real.sqrt_nonneg _, Complex.neg_pi_lt_arg _, Complex.arg_le_pi _, ?_, ?_⟩
  · rw [hn, Complex.norm_mul_cos_arg]
  · rw [hn, Complex.norm_mul_sin_arg]

/-- **C29** and back: a point given by polar coordinates gets these back. -/
theorem C29_inverse (r t : ℝ) (hr : 0 < r) (h1 : -Real.pi < t) (h2 : t ≤ Real.pi) :
    Aperture.cart2pol (r * Real.cos t) (r * Real.sin t) = (r, t) := by
  unfold Aperture.cart2pol arctan2
  apply Prod.ext
  · show Real.sqrt _ = r
    rw [show (r * Real.cos t) ^ 2 + (r * Real.sin t) ^ 2 =
      r ^ 2 * (Real.sin t ^ 2 + Real.cos t ^ 2) by ring, Real.sin_sq_add_cos_sq, mul_one,
      Real.sqrt_sq hr.le]
  · show Complex.arg _ = t
    have : (⟨r * Real.cos t, r * Real.sin t⟩ : ℂ) =
        r * (Complex.cos t + Complex.sin t * Complex.I) := by
      rw [← Complex.ofReal_cos, ← Complex.ofReal_sin]
      apply Complex.ext <;> simp only [Complex.mul_re, Complex.mul_im, Complex.add_re,
        Complex.add_im, Complex.ofReal_re, Complex.ofReal_im, Complex.I_re, Complex.I_im] <;> ring
    rw [this, Complex.arg_mul_cos_add_sin_mul_I hr ⟨h1, h2⟩]

/-! ## C30, C31 -/

theorem posDef_entry_le {n : ℕ} {A : Matrix (Fin n) (Fin n) ℝ} (hA : A.PosDef) (i j : Fin n) :
    A i j ^ 2 ≤ A i i * A j j := by
  have h := (hA.posSemidef.submatrix ![i, j]).det_nonneg
  rw [Matrix.det_fin_two] at h
  have hs : A j i = A i j := by
    have := hA.1.apply i j
    simpa using this
  simp only [Matrix.submatrix_apply, Matrix.cons_val_zero, Matrix.cons_val_one] at h
  rw [hs] at h
  nlinarith

/-- **C30** the covariance is the documented one and is symmetric positive definite; the
correlation is symmetric, has a unit diagonal, and entries between -1 and 1. -/
theorem C30_matrices {m n : ℕ} (res : Fin m → ℝ) (J : Matrix (Fin m) (Fin n) ℝ) (nPars : ℕ)
    (hdof : nPars < m) (hrank : ∀ v : Fin n → ℝ, J.mulVec v = 0 → v = 0) (hres : res ≠ 0) :
    ∃ cov corr, coMatrices res J nPars = .ok (some (cov, corr)) ∧
      cov * (J.transpose * J) = ((∑ k, res k ^ 2) / ((m : ℝ) - nPars)) • (1 : Matrix (Fin n) (Fin n) ℝ) ∧
      cov.transpose = cov ∧ (∀ v : Fin n → ℝ, v ≠ 0 → 0 < v ⬝ᵥ cov.mulVec v) ∧
      corr.transpose = corr ∧ (∀ i, corr i i = 1) ∧ (∀ i j, -1 ≤ corr i j ∧ corr i j ≤ 1) ∧
      ∀ i j, corr i j = cov i j / (Real.sqrt (cov i i) * Real.sqrt (cov j j)) := by
  have hinj : Function.Injective J.mulVec := by
    intro a b h
    have := hrank (a - b) (by rw [Matrix.mulVec_sub, h, sub_self])
    exact sub_eq_zero.1 this
  have hJ : (J.transpose * J).PosDef := by
    have := Matrix.PosDef.conjTranspose_mul_self J hinj
    rwa [Matrix.conjTranspose_eq_transpose_of_trivial] at this
  have hdet : (J.transpose * J).det ≠ 0 := hJ.det_pos.ne'
  have hrss : 0 < res ⬝ᵥ res := by
    rw [dotProduct]
    obtain ⟨k, hk⟩ := Function.ne_iff.1 hres
    have h0 : ∀ i ∈ (univ : Finset (Fin m)), 0 ≤ res i * res i := fun i _ => mul_self_nonneg _
    exact sum_pos' h0 ⟨k, mem_univ _, mul_self_pos.2 hk⟩
  have hp : (0 : ℝ) < (((m : ℤ) - nPars : ℤ) : ℝ) := by
    have : (nPars : ℝ) < m := by exact_mod_cast hdof
    push_cast
    linarith
  have hp' : ¬ ((m : ℤ) - nPars ≤ 0) := by omega
  set s : ℝ := (res ⬝ᵥ res) / (((m : ℤ) - nPars : ℤ) : ℝ) with hs
  have hs0 : 0 < s := div_pos hrss hp
  set cov : Matrix (Fin n) (Fin n) ℝ := s • (J.transpose * J)⁻¹ with hcov
  have hcovp : cov.PosDef := hJ.inv.smul hs0
  have hdiag : ∀ i, 0 < cov i i := fun i => hcovp.diag_pos
  have hsq : ∀ i, 0 < Real.sqrt (cov i i) := fun i => Real.sqrt_pos.2 (hdiag i)
  have hsym : cov.transpose = cov := by
    have := hcovp.1
    rwa [Matrix.IsHermitian, Matrix.conjTranspose_eq_transpose_of_trivial] at this
  have hmap : (Matrix.diagonal (fun i => cov i i)).map Real.sqrt =
      Matrix.diagonal (fun i => Real.sqrt (cov i i)) := by
    rw [Matrix.diagonal_map Real.sqrt_zero]
  have hdet2 : (Matrix.diagonal (fun i => Real.sqrt (cov i i))).det ≠ 0 := by
    rw [Matrix.det_diagonal]
    exact (prod_pos fun i _ => hsq i).ne'
  have hinv : (Matrix.diagonal (fun i => Real.sqrt (cov i i)))⁻¹ =
      Matrix.diagonal (fun i => (Real.sqrt (cov i i))⁻¹) := by
    apply Matrix.inv_eq_right_inv
    rw [Matrix.diagonal_mul_diagonal]
    rw [show (fun i => Real.sqrt (cov i i) * (Real.sqrt (cov i i))⁻¹) = fun _ => (1 : ℝ) from
      funext fun i => mul_inv_cancel₀ (hsq i).ne', Matrix.diagonal_one]
  set corr := Matrix.diagonal (fun i => (Real.sqrt (cov i i))⁻¹) * cov *
    Matrix.diagonal (fun i => (Real.sqrt (cov i i))⁻¹) with hcorr
  have hentry : ∀ i j, corr i j = cov i j / (Real.sqrt (cov i i) * Real.sqrt (cov j j)) := by
    intro i j
    rw [hcorr, Matrix.mul_diagonal, Matrix.diagonal_mul]
    have := (hsq i).ne'
    have := (hsq j).ne'
    field_simp
  refine ⟨cov, corr, ?_, ?_, hsym, ?_, ?_, ?_, ?_, hentry⟩
  · unfold coMatrices MathFn.inv
    rw [if_neg hdet]
    simp only [bind, Except.bind, if_neg hp']
    rw [show (res ⬝ᵥ res / (((m : ℤ) - nPars : ℤ) : ℝ)) • (J.transpose * J)⁻¹ = cov from rfl, hmap,
      if_neg hdet2, hinv]
    rfl
  · rw [hcov, Matrix.smul_mul, Matrix.nonsing_inv_mul _ (isUnit_iff_ne_zero.2 hdet), hs]
    congr 2
    · rw [dotProduct]
      exact sum_congr rfl fun k _ => (sq _).symm
    · push_cast
      rfl
  · intro v hv
    have := hcovp.dotProduct_mulVec_pos hv
    simpa using this
  · rw [hcorr, Matrix.transpose_mul, Matrix.transpose_mul, Matrix.diagonal_transpose, hsym,
      Matrix.mul_assoc]
  · intro i
    rw [hentry, Real.mul_self_sqrt (hdiag i).le, div_self (hdiag i).ne']
  · intro i j
    rw [hentry, ← abs_le, abs_div, abs_of_pos (mul_pos (hsq i) (hsq j)),
      div_le_one (mul_pos (hsq i) (hsq j)), ← Real.sqrt_mul (hdiag i).le, ← Real.sqrt_sq_eq_abs]
    exact Real.sqrt_le_sqrt (posDef_entry_le hcovp i j)

/-- **C30** scaling the residual. -/
theorem C30_scaling {m n : ℕ} (res : Fin m → ℝ) (J : Matrix (Fin m) (Fin n) ℝ) (nPars : ℕ)
    (hdof : nPars < m) (hrank : ∀ v : Fin n → ℝ, J.mulVec v = 0 → v = 0) (hres : res ≠ 0)
    (c : ℝ) (hc : c ≠ 0) :
    ∃ cov corr, coMatrices res J nPars = .ok (some (cov, corr)) ∧
      coMatrices (fun k => c * res k) J nPars = .ok (some (c ^ 2 • cov, corr)) := by
  obtain ⟨cov, corr, h1, h2, -, -, -, -, -, h4⟩ := C30_matrices res J nPars hdof hrank hres
  have hres' : (fun k => c * res k) ≠ 0 := by
    intro h
    apply hres
    funext k
    have := congrFun h k
    simpa [hc] using this
  obtain ⟨cov', corr', h1', h2', -, -, -, -, -, h4'⟩ := C30_matrices _ J nPars hdof hrank hres'
  have hinj : Function.Injective J.mulVec := by
    intro a b h
    have := hrank (a - b) (by rw [Matrix.mulVec_sub, h, sub_self])
    exact sub_eq_zero.1 this
  have hJ : (J.transpose * J).PosDef := by
    have := Matrix.PosDef.conjTranspose_mul_self J hinj
    rwa [Matrix.conjTranspose_eq_transpose_of_trivial] at this
  have hu : IsUnit (J.transpose * J).det := isUnit_iff_ne_zero.2 hJ.det_pos.ne'
  have hcov : cov' = c ^ 2 • cov := by
    have e : cov' * (J.transpose * J) = (c ^ 2 • cov) * (J.transpose * J) := by
      rw [h2', Matrix.smul_mul, h2, smul_smul]
      congr 1
      simp_rw [mul_pow]
      rw [← mul_sum]
      ring
    have := congrArg (· * (J.transpose * J)⁻¹) e
    simpa only [Matrix.mul_nonsing_inv_cancel_right _ _ hu] using this
  refine ⟨cov, corr, h1, ?_⟩
  rw [h1', hcov]
  congr 3
  ext i j
  rw [h4', h4, hcov]
  simp only [Matrix.smul_apply, smul_eq_mul]
  rw [Real.sqrt_mul (by positivity), Real.sqrt_mul (by positivity), Real.sqrt_sq_eq_abs]
  rw [show |c| * Real.sqrt (cov i i) * (|c| * Real.sqrt (cov j j)) =
    c ^ 2 * (Real.sqrt (cov i i) * Real.sqrt (cov j j)) by rw [← sq_abs c]; ring]
  rw [mul_div_mul_left _ _ (by positivity)]

/-- **C31** a Jacobian without full column rank: `LinAlgError`, whatever the residual. -/
theorem C31_rank_deficient {m n : ℕ} (res : Fin m → ℝ) (J : Matrix (Fin m) (Fin n) ℝ) (nPars : ℕ)
    (v : Fin n → ℝ) (hv : v ≠ 0) (hJv : J.mulVec v = 0) :
    coMatrices res J nPars = .error .linAlgError := by
  have hdet : (J.transpose * J).det = 0 := by
    apply Matrix.exists_mulVec_eq_zero_iff.1
    exact ⟨v, hv, by rw [← Matrix.mulVec_mulVec, hJv, Matrix.mulVec_zero]⟩
  unfold coMatrices MathFn.inv
  rw [if_pos hdet]
  rfl

/-- **C31** in particular a zero column. -/
theorem C31_zero_column {m n : ℕ} (res : Fin m → ℝ) (J : Matrix (Fin m) (Fin n) ℝ) (nPars : ℕ)
    (c : Fin n) (hc : ∀ k, J k c = 0) : coMatrices res J nPars = .error .linAlgError := by
  apply C31_rank_deficient res J nPars (Pi.single c 1)
  · intro h
    have := congrFun h c
    simp at this
  · rw [Matrix.mulVec_single_one]
    funext k
    exact hc k

/-- **C31** a zero residual (a perfect fit) with at least one parameter: `LinAlgError` too. -/
theorem C31_zero_residual {m n : ℕ} (J : Matrix (Fin m) (Fin n) ℝ) (nPars : ℕ)
    (hn : 0 < n) (hdof : nPars < m) :
    coMatrices (fun _ => 0) J nPars = .error .linAlgError := by
  unfold coMatrices MathFn.inv
  split_ifs with h
  · rfl
  · have hp' : ¬ ((m : ℤ) - nPars ≤ 0) := by omega
    simp only [bind, Except.bind, if_neg hp']
    rw [if_pos]
    have : (Matrix.diagonal fun i : Fin n => ((((fun _ : Fin m => (0 : ℝ)) ⬝ᵥ fun _ => 0) /
        (((m : ℤ) - nPars : ℤ) : ℝ)) • (J.transpose * J)⁻¹) i i).map Real.sqrt = 0 := by
      ext i j
      simp [dotProduct]
    rw [this]
    have : Nonempty (Fin n) := ⟨⟨0, hn⟩⟩
    exact Matrix.det_zero

example : ∃ cov corr, coMatrices ![1, 2] !![1; 1] 1 = .ok (some (cov, corr)) ∧ corr 0 0 = 1 := by
  obtain ⟨cov, corr, h1, -, -, -, -, h2, -⟩ := C30_matrices ![1, 2] !![1; 1] 1 (by norm_num)
    (fun v hv => by
      have := congrFun hv 0
      simp [Matrix.mulVec, dotProduct] at this
      funext i
      rw [Subsingleton.elim i 0, this]
      rfl)
    (fun h => by have := congrFun h 0; simp at this)
  exact ⟨cov, corr, h1, h2 0⟩

end Verif.Props
