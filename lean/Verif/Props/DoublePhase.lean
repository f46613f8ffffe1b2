import Mathlib.Analysis.Real.Pi.Bounds
import Verif.Model.DoublePhase
import Verif.Props.DoubleZernike
import Verif.Props.Aperture
import Verif.Props.Wavefront

/-! # C120: the phase map in the arithmetic of doubles -/

namespace Verif.Props

open Verif Verif.Zernike Verif.Np Verif.Aperture Finset

/-! ## Specification -/

/-- As `Spec.Accurate`, and the angle within four units in the last place of `π`. -/
structure Spec.AccurateA (L : Dbl.LibmA) : Prop where
  base : Spec.Accurate L.toLibm
  arctan2 : ∀ x y : ℝ, Spec.IsDouble x → Spec.IsDouble y → ∃ t, L.arctan2 (.fin y) (.fin x) = .fin t ∧
    Spec.IsDouble t ∧ |t| ≤ 4 ∧ |t - Np.arctan2 y x| ≤ 1 / 2 ^ 50

/-! ## Square roots of rounded squares -/

/-- Between a positive double and a larger one there is more than the relative precision. -/
theorem double_gap {p r : ℝ} (hp : Spec.IsDouble p) (hr : Spec.IsDouble r) (h0 : 0 < p) (h : p < r) :
    p / 2 ^ 53 < r - p := by
  obtain ⟨m, q, hm, -, -, rfl⟩ := hp
  obtain ⟨n, s, hn, -, -, rfl⟩ := hr
  have hq : (0 : ℝ) < 2 ^ q := zpow_pos two_pos q
  have hs : (0 : ℝ) < 2 ^ s := zpow_pos two_pos s
  have hm' : |(m : ℝ)| < 2 ^ 53 := by rw [← Int.cast_abs]; exact_mod_cast hm
  have hn' : |(n : ℝ)| < 2 ^ 53 := by rw [← Int.cast_abs]; exact_mod_cast hn
  have hm1 := (abs_lt.1 hm').2
  have hn1 := (abs_lt.1 hn').2
  rw [div_lt_iff₀ (by positivity)]
  rcases le_total q s with hqs | hqs
  · obtain ⟨k, rfl⟩ := Int.le.dest hqs
    rw [zpow_add₀ two_ne_zero, zpow_natCast] at h ⊢
    have h1 : (m : ℝ) < n * 2 ^ k := by
      have : (m : ℝ) * 2 ^ q < (n * 2 ^ k) * 2 ^ q := by linarith
      exact lt_of_mul_lt_mul_right this hq.le
    have h2 : (m : ℝ) + 1 ≤ n * 2 ^ k := by
      have : m < n * 2 ^ k := by exact_mod_cast h1
      exact_mod_cast this
    have h3 : (1 : ℝ) * 2 ^ q ≤ (n * 2 ^ k - m) * 2 ^ q := mul_le_mul_of_nonneg_right (by linarith) hq.le
    have h4 : (m : ℝ) * 2 ^ q < 2 ^ 53 * 2 ^ q := mul_lt_mul_of_pos_right hm1 hq
    nlinarith
  · obtain ⟨k, rfl⟩ := Int.le.dest hqs
    rw [zpow_add₀ two_ne_zero, zpow_natCast] at h h0 ⊢
    have h1 : (m * 2 ^ k : ℝ) < n := by
      have : (m * 2 ^ k : ℝ) * 2 ^ s < n * 2 ^ s := by linarith
      exact lt_of_mul_lt_mul_right this hs.le
    have h2 : (m * 2 ^ k : ℝ) + 1 ≤ n := by
      have : m * 2 ^ k < n := by exact_mod_cast h1
      exact_mod_cast this
    have h3 : (1 : ℝ) * 2 ^ s ≤ (n - m * 2 ^ k) * 2 ^ s := mul_le_mul_of_nonneg_right (by linarith) hs.le
    have h4 : (n : ℝ) * 2 ^ s < 2 ^ 53 * 2 ^ s := mul_lt_mul_of_pos_right hn1 hs
    nlinarith

/-- The rounded root of the rounded square is not larger than the number. -/
theorem round_sqrt_sq {rnd : ℝ → Fl} (h : Spec.Rounding rnd) {p P a : ℝ} (hp : Spec.IsDouble p) (h0 : 0 < p)
    (hP : P ≤ p ^ 2 * (1 + 1 / 2 ^ 53)) (hP0 : 0 ≤ P) (hr : p < 2 ^ 900) (ha : rnd (Real.sqrt P) = .fin a) : a ≤ p := by
  have hs : Real.sqrt P ≤ p * (1 + 1 / 2 ^ 54) := by
    rw [Real.sqrt_le_left (by positivity)]
    refine hP.trans ?_
    rw [mul_pow]
    gcongr
    norm_num
  have hlt : |Real.sqrt P| < 2 ^ 1024 - 2 ^ 970 := by
    rw [abs_of_nonneg (Real.sqrt_nonneg _)]
    refine lt_trans ?_ (two_pow_lt_range (k := 901) (by norm_num))
    rw [pow_succ]
    have : (1 : ℝ) + 1 / 2 ^ 54 ≤ 2 := by norm_num
    refine hs.trans_lt ((mul_le_mul_of_nonneg_left this h0.le).trans_lt ?_)
    linarith
  obtain ⟨z, h1, h2, h3, -⟩ := round_spec h hlt
  rw [ha] at h1
  cases h1
  by_contra hc
  push Not at hc
  have hg := double_gap hp h2 h0 hc
  have hn := h3 p hp
  rcases le_total (Real.sqrt P) p with hle | hle
  · have e : a = Real.sqrt P + (a - Real.sqrt P) := by ring
    rw [abs_of_nonpos (by linarith), abs_of_nonpos (by linarith)] at hn
    linarith
  · rw [abs_of_nonneg (show 0 ≤ Real.sqrt P - p by linarith)] at hn
    have := (abs_le.1 hn).1
    have e : p * (1 + 1 / 2 ^ 54) = p + p / 2 ^ 54 := by ring
    rw [e] at hs
    have e2 : p / 2 ^ 53 = 2 * (p / 2 ^ 54) := by ring
    linarith

/-! ## The polynomials as functions of the point of the plane -/

theorem pow_lip {M : ℝ} (hM : 1 ≤ M) {z w : ℂ} (hz : ‖z‖ ≤ M) (hw : ‖w‖ ≤ M) (j : ℕ) :
    ‖z ^ j - w ^ j‖ ≤ j * M ^ j * ‖z - w‖ := by
  induction j with
  | zero => simp
  | succ j ih =>
    have e : z ^ (j + 1) - w ^ (j + 1) = z * (z ^ j - w ^ j) + (z - w) * w ^ j := by ring
    rw [e]
    have h0 : 0 ≤ ‖z - w‖ := norm_nonneg _
    have hMj : (1 : ℝ) ≤ M ^ j := one_le_pow₀ hM
    have h1 : ‖z * (z ^ j - w ^ j)‖ ≤ M * (j * M ^ j * ‖z - w‖) := by
      rw [norm_mul]
      exact mul_le_mul hz ih (norm_nonneg _) (by linarith)
    have h2 : ‖(z - w) * w ^ j‖ ≤ ‖z - w‖ * M ^ j := by
      rw [norm_mul, norm_pow]
      exact mul_le_mul_of_nonneg_left (pow_le_pow_left₀ (norm_nonneg _) hw j) h0
    have h3 : ‖z - w‖ * M ^ j ≤ M ^ (j + 1) * ‖z - w‖ := by
      rw [pow_succ, mul_comm]
      refine mul_le_mul_of_nonneg_right ?_ h0
      nlinarith
    refine (norm_add_le _ _).trans ?_
    push_cast
    have e2 : ((j : ℝ) + 1) * M ^ (j + 1) * ‖z - w‖ = M * (j * M ^ j * ‖z - w‖) + M ^ (j + 1) * ‖z - w‖ := by ring
    rw [e2]
    linarith

/-- The monomial `|z|^(2k) z^m`. -/
theorem mono_lip {M : ℝ} (hM : 1 ≤ M) {z w : ℂ} (hz : ‖z‖ ≤ M) (hw : ‖w‖ ≤ M) (m k : ℕ) :
    ‖(‖z‖ ^ (2 * k) : ℝ) * z ^ m - (‖w‖ ^ (2 * k) : ℝ) * w ^ m‖ ≤ (m + 2 * k : ℕ) * M ^ (m + 2 * k) * ‖z - w‖ := by
  have hc : ∀ z : ℂ, ((‖z‖ ^ (2 * k) : ℝ) : ℂ) * z ^ m = z ^ (m + k) * (starRingEnd ℂ z) ^ k := by
    intro z
    have h1 : ((‖z‖ ^ (2 * k) : ℝ) : ℂ) = (z * starRingEnd ℂ z) ^ k := by
      rw [Complex.mul_conj, Complex.normSq_eq_norm_sq, pow_mul]
      push_cast
      rfl
    rw [h1, mul_pow, pow_add]
    ring
  rw [hc, hc]
  have h0 : 0 ≤ ‖z - w‖ := norm_nonneg _
  have hz' : ‖starRingEnd ℂ z‖ ≤ M := by rwa [Complex.norm_conj]
  have hw' : ‖starRingEnd ℂ w‖ ≤ M := by rwa [Complex.norm_conj]
  have hd : ‖starRingEnd ℂ z - starRingEnd ℂ w‖ = ‖z - w‖ := by rw [← map_sub, Complex.norm_conj]
  have e : z ^ (m + k) * (starRingEnd ℂ z) ^ k - w ^ (m + k) * (starRingEnd ℂ w) ^ k =
      (z ^ (m + k) - w ^ (m + k)) * (starRingEnd ℂ z) ^ k +
        w ^ (m + k) * ((starRingEnd ℂ z) ^ k - (starRingEnd ℂ w) ^ k) := by ring
  rw [e]
  refine (norm_add_le _ _).trans ?_
  have a1 := pow_lip hM hz hw (m + k)
  have a2 := pow_lip hM hz' hw' k
  rw [hd] at a2
  have h1 : ‖(z ^ (m + k) - w ^ (m + k)) * (starRingEnd ℂ z) ^ k‖ ≤ ((m + k : ℕ) * M ^ (m + k) * ‖z - w‖) * M ^ k := by
    rw [norm_mul, norm_pow]
    exact mul_le_mul a1 (pow_le_pow_left₀ (norm_nonneg _) hz' k) (by positivity) (by positivity)
  have h2 : ‖w ^ (m + k) * ((starRingEnd ℂ z) ^ k - (starRingEnd ℂ w) ^ k)‖ ≤ M ^ (m + k) * (k * M ^ k * ‖z - w‖) := by
    rw [norm_mul, norm_pow]
    exact mul_le_mul (pow_le_pow_left₀ (norm_nonneg _) hw _) a2 (norm_nonneg _) (by positivity)
  have e3 : ((m + 2 * k : ℕ) : ℝ) * M ^ (m + 2 * k) * ‖z - w‖ =
      ((m + k : ℕ) * M ^ (m + k) * ‖z - w‖) * M ^ k + M ^ (m + k) * (k * M ^ k * ‖z - w‖) := by
    rw [show m + 2 * k = (m + k) + k by ring, pow_add M (m + k) k]
    push_cast
    ring
  rw [e3]
  linarith

/-- The point with the polar coordinates `rho` and `theta`. -/
noncomputable def polarPt (rho theta : ℝ) : ℂ := rho * Complex.exp (theta * Complex.I)

theorem polarPt_pow (rho theta : ℝ) (m : ℕ) :
    polarPt rho theta ^ m = ((rho ^ m : ℝ) : ℂ) * (Real.cos (m * theta) + Real.sin (m * theta) * Complex.I) := by
  unfold polarPt
  rw [mul_pow, ← Complex.exp_nat_mul, ← mul_assoc, Complex.exp_mul_I]
  push_cast
  rfl

theorem polarPt_norm {rho : ℝ} (h : 0 ≤ rho) (theta : ℝ) : ‖polarPt rho theta‖ = rho := by
  unfold polarPt
  rw [norm_mul, Complex.norm_exp_ofReal_mul_I, mul_one, Complex.norm_real, Real.norm_eq_abs, abs_of_nonneg h]

/-- A monomial of the radial polynomial with its angular factor. -/
theorem ang_mono_lip {M : ℝ} (hM : 1 ≤ M) {r t r' t' : ℝ} (hr : 0 ≤ r) (hrM : r ≤ M) (hr' : 0 ≤ r') (hrM' : r' ≤ M)
    (l : ℤ) (m k : ℕ) (hm : (m : ℤ) = |l|) :
    |r ^ (m + 2 * k) * ang l t - r' ^ (m + 2 * k) * ang l t'| ≤
      (m + 2 * k : ℕ) * M ^ (m + 2 * k) * ‖polarPt r t - polarPt r' t'‖ := by
  have hz : ‖polarPt r t‖ ≤ M := by rwa [polarPt_norm hr]
  have hw : ‖polarPt r' t'‖ ≤ M := by rwa [polarPt_norm hr']
  have := mono_lip hM hz hw m k
  rw [polarPt_norm hr, polarPt_norm hr', polarPt_pow, polarPt_pow, ← mul_assoc, ← mul_assoc, ← Complex.ofReal_mul,
    ← Complex.ofReal_mul, ← pow_add, ← pow_add, show 2 * k + m = m + 2 * k by ring] at this
  refine le_trans ?_ this
  have hl : ((|l| : ℤ) : ℝ) = m := by rw [← hm]; simp
  unfold ang
  rw [hl]
  split_ifs
  · refine le_trans (le_of_eq ?_) (Complex.abs_im_le_norm _)
    congr 1
    generalize Real.cos (m * t) = c1, Real.sin (m * t) = c2, Real.cos (m * t') = c3, Real.sin (m * t') = c4,
      r ^ (m + 2 * k) = c5, r' ^ (m + 2 * k) = c6
    simp
  · refine le_trans (le_of_eq ?_) (Complex.abs_re_le_norm _)
    congr 1
    generalize Real.cos (m * t) = c1, Real.sin (m * t) = c2, Real.cos (m * t') = c3, Real.sin (m * t') = c4,
      r ^ (m + 2 * k) = c5, r' ^ (m + 2 * k) = c6
    simp

/-- A circle polynomial. -/
theorem Uv_lip {M : ℝ} (hM : 1 ≤ M) {r t r' t' : ℝ} (hr : 0 ≤ r) (hrM : r ≤ M) (hr' : 0 ≤ r') (hrM' : r' ≤ M)
    (n : ℕ) (l : ℤ) (h : Spec.Allowed n l) :
    |Uv n l r t - Uv n l r' t'| ≤ n * M ^ n * (1 + Real.sqrt 2) ^ n * ‖polarPt r t - polarPt r' t'‖ := by
  obtain ⟨a, b, hba, hab, hl, hv⟩ := U_value n l h
  rw [Uv_of_ok (hv r t), Uv_of_ok (hv r' t')]
  set D := ‖polarPt r t - polarPt r' t'‖ with hD
  have hD0 : 0 ≤ D := norm_nonneg _
  have hn0 : (0 : ℝ) ≤ n * M ^ n * D := by positivity
  unfold Rsum
  rw [Finset.sum_mul, Finset.sum_mul, ← Finset.sum_sub_distrib]
  refine (Finset.abs_sum_le_sum_abs _ _).trans ?_
  calc _ ≤ ∑ s ∈ range (b + 1), absCoef a b s * (n * M ^ n * D) := by
        refine Finset.sum_le_sum fun s hs => ?_
        have hs' : s ≤ b := by simpa [Nat.lt_succ_iff] using hs
        have e1 : a + b - 2 * s = (a - b) + 2 * (b - s) := by omega
        have := ang_mono_lip hM (t := t) (t' := t') hr hrM hr' hrM' l (a - b) (b - s) hl
        rw [← e1] at this
        have e2 : (-1 : ℝ) ^ s * ((a + b - s).factorial : ℝ) * r ^ (a + b - 2 * s) /
              ((s.factorial : ℝ) * (a - s).factorial * (b - s).factorial) * ang l t -
            (-1 : ℝ) ^ s * ((a + b - s).factorial : ℝ) * r' ^ (a + b - 2 * s) /
              ((s.factorial : ℝ) * (a - s).factorial * (b - s).factorial) * ang l t' =
            ((-1) ^ s * absCoef a b s) * (r ^ (a + b - 2 * s) * ang l t - r' ^ (a + b - 2 * s) * ang l t') := by
          unfold absCoef
          ring
        have hc0 : 0 ≤ absCoef a b s := by unfold absCoef; positivity
        rw [e2, abs_mul, abs_mul, abs_pow, abs_neg, abs_one, one_pow, one_mul, abs_of_nonneg hc0]
        refine mul_le_mul_of_nonneg_left (this.trans ?_) hc0
        refine mul_le_mul_of_nonneg_right ?_ hD0
        refine mul_le_mul ?_ (pow_le_pow_right₀ hM (by omega)) (by positivity) (by positivity)
        exact_mod_cast (show a + b - 2 * s ≤ n by omega)
    _ = (∑ s ∈ range (b + 1), absCoef a b s) * (n * M ^ n * D) := by rw [Finset.sum_mul]
    _ ≤ (1 + Real.sqrt 2) ^ n * (n * M ^ n * D) := by
        refine mul_le_mul_of_nonneg_right ?_ hn0
        rw [← hab]
        exact absCoef_sum a b hba
    _ = _ := by ring

theorem abs_sum_tri (n : ℕ) (K : List ℝ) (hK : K.length = tri (n + 1)) :
    (K.map fun k => |k|).sum = ∑ i ∈ range (n + 1), ∑ k ∈ range (i + 1), |K.getD (tri i + k) 0| := by
  rw [← sum_tri (fun x => |K.getD x 0|), ← hK, Finset.sum_range, ← List.sum_ofFn]
  congr 1
  apply List.ext_getElem
  · simp
  · intro i h1 h2
    simp only [List.length_map] at h1
    simp [h1]

/-- The wavefront. -/
theorem wfVal_lip {M : ℝ} (hM : 1 ≤ M) {r t r' t' : ℝ} (hr : 0 ≤ r) (hrM : r ≤ M) (hr' : 0 ≤ r') (hrM' : r' ≤ M)
    (n : ℕ) (K : List ℝ) (hK : K.length = tri (n + 1)) :
    |wfVal n K r t - wfVal n K r' t'| ≤
      n * M ^ n * (1 + Real.sqrt 2) ^ n * ‖polarPt r t - polarPt r' t'‖ * (K.map fun k => |k|).sum := by
  obtain hX0 : (1 : ℝ) ≤ 1 + Real.sqrt 2 := by linarith [Real.sqrt_nonneg 2]
  unfold wfVal
  rw [abs_sum_tri n K hK, Finset.mul_sum, ← Finset.sum_sub_distrib]
  refine (Finset.abs_sum_le_sum_abs _ _).trans (Finset.sum_le_sum fun i hi => ?_)
  have hi' : i ≤ n := by simpa [Nat.lt_succ_iff] using hi
  rw [Finset.mul_sum, ← Finset.sum_sub_distrib]
  refine (Finset.abs_sum_le_sum_abs _ _).trans (Finset.sum_le_sum fun k hk => ?_)
  have hk' : k ≤ i := by simpa [Nat.lt_succ_iff] using hk
  rw [← mul_sub, abs_mul, mul_comm]
  refine mul_le_mul_of_nonneg_right ?_ (abs_nonneg _)
  refine (Uv_lip hM hr hrM hr' hrM' i _ (row_allowed i k hk')).trans ?_
  refine mul_le_mul_of_nonneg_right ?_ (norm_nonneg _)
  have hin : (i : ℝ) ≤ n := by exact_mod_cast hi'
  have h1 := pow_le_pow_right₀ hM hi'
  have h2 := pow_le_pow_right₀ hX0 hi'
  gcongr

/-- On the unit disc the wavefront is at most the sum of the absolute values of the coefficients. -/
theorem wfVal_abs {r t : ℝ} (hr : |r| ≤ 1) (n : ℕ) (K : List ℝ) (hK : K.length = tri (n + 1)) :
    |wfVal n K r t| ≤ (K.map fun k => |k|).sum := by
  unfold wfVal
  rw [abs_sum_tri n K hK]
  refine (Finset.abs_sum_le_sum_abs _ _).trans (Finset.sum_le_sum fun i hi => ?_)
  refine (Finset.abs_sum_le_sum_abs _ _).trans (Finset.sum_le_sum fun k hk => ?_)
  have hk' : k ≤ i := by simpa [Nat.lt_succ_iff] using hk
  rw [abs_mul]
  exact mul_le_of_le_one_right (abs_nonneg _) (Uv_abs_le i k hk' r t hr)


/-! ## The grid -/

theorem round_rel {rnd : ℝ → Fl} (h : Spec.Rounding rnd) {y : ℝ} (hy : |y| ≤ 2 ^ 900) :
    ∃ z, rnd y = .fin z ∧ Spec.IsDouble z ∧ |z - y| ≤ |y| / 2 ^ 53 + 2 ^ (-1075 : ℤ) :=
  round_tiny h (hy.trans_lt (two_pow_lt_range (by norm_num)))

theorem tiny_rel {p : ℝ} (h : 1 / 2 ^ 100 ≤ p) : (2 : ℝ) ^ (-1075 : ℤ) ≤ p / 2 ^ 200 := by
  have h1 : (2 : ℝ) ^ (-1075 : ℤ) ≤ 2 ^ (-300 : ℤ) := zpow_le_zpow_right₀ one_le_two (by norm_num)
  have h2 : (2 : ℝ) ^ (-300 : ℤ) = 1 / 2 ^ 300 := by
    rw [show (-300 : ℤ) = -((300 : ℕ) : ℤ) from rfl, zpow_neg, zpow_natCast, ← one_div]
  refine (h1.trans_eq h2).trans ?_
  rw [le_div_iff₀ (by positivity)]
  refine le_trans (le_of_eq ?_) h
  rw [show 300 = 100 + 200 from rfl, pow_add]
  field_simp

theorem two_pow_le {a b : ℕ} (h : a ≤ b) : (2 : ℝ) ^ a ≤ 2 ^ b := pow_le_pow_right₀ one_le_two h

/-- Twice a double of moderate size is a double. -/
theorem isDouble_two_mul {p : ℝ} (hp : Spec.IsDouble p) (h2 : |p| ≤ 2 ^ 100) : Spec.IsDouble (2 * p) := by
  obtain ⟨m, q, hm, hq, hq', rfl⟩ := hp
  rcases eq_or_ne m 0 with rfl | h0
  · simpa using isDouble_zero
  refine ⟨m, q + 1, hm, by omega, ?_, ?_⟩
  · by_contra hc
    have hm1 : (1 : ℝ) ≤ |(m : ℝ)| := by
      rw [← Int.cast_abs]
      exact_mod_cast Int.one_le_abs h0
    have hpos : (0 : ℝ) < 2 ^ q := zpow_pos two_pos q
    rw [abs_mul, abs_of_pos hpos] at h2
    have h3 : (2 : ℝ) ^ (101 : ℤ) ≤ 2 ^ q := zpow_le_zpow_right₀ one_le_two (by omega)
    have h4 : (2 : ℝ) ^ (101 : ℤ) = 2 * 2 ^ 100 := by norm_num
    have h5 : (0 : ℝ) < 2 ^ 100 := by positivity
    nlinarith
  · rw [zpow_add₀ two_ne_zero]
    ring

/-- A node of the grid. -/
theorem linspaceD_near {rnd : ℝ → Fl} (h : Spec.Rounding rnd) {p : ℝ} (hp : Spec.IsDouble p) (h1 : 1 / 2 ^ 100 ≤ p)
    (h2 : p ≤ 2 ^ 100) {N : ℕ} (hN : 2 ≤ N) (hN' : N ≤ 2 ^ 30) (i : Fin N) :
    ∃ t, Dbl.linspace rnd (.fin (-p)) (.fin p) N i = .fin t ∧ Spec.IsDouble t ∧
      |t - Np.linspace (-p) p N i| ≤ 6 * p / 2 ^ 53 ∧ ((i : ℕ) = 0 → t = -p) := by
  have hp0 : 0 < p := lt_of_lt_of_le (by positivity) h1
  have hc1 : (1 : ℝ) ≤ (N : ℝ) - 1 := by
    have : (2 : ℝ) ≤ N := by exact_mod_cast hN
    linarith
  have hc2 : (N : ℝ) - 1 ≤ 2 ^ 30 := by
    have : (N : ℝ) ≤ 2 ^ 30 := by exact_mod_cast hN'
    linarith
  unfold Dbl.linspace Np.linspace
  by_cases hl : (i : ℕ) + 1 = N
  · rw [if_pos ⟨by omega, hl⟩]
    refine ⟨p, rfl, hp, ?_, fun h0 => by omega⟩
    have : ((i : ℕ) : ℝ) = (N : ℝ) - 1 := by
      have : (((i : ℕ) + 1 : ℕ) : ℝ) = (N : ℝ) := by exact_mod_cast hl
      push_cast at this
      linarith
    rw [this, mul_div_cancel₀ _ (by linarith)]
    simp
    positivity
  rw [if_neg (fun hc => hl hc.2)]
  have hi1 : ((i : ℕ) : ℝ) ≤ (N : ℝ) - 1 := by
    have : (i : ℕ) + 1 ≤ N := i.2
    have : (((i : ℕ) : ℝ) + 1) ≤ N := by exact_mod_cast this
    linarith
  have hi0 : (0 : ℝ) ≤ ((i : ℕ) : ℝ) := by positivity
  have hτ := tiny_rel h1
  have hτ0 : (0 : ℝ) < 2 ^ (-1075 : ℤ) := by positivity
  -- the pieces
  have e1 : Dbl.ofInt rnd ((i : ℕ) : ℤ) = .fin ((i : ℕ) : ℝ) := by
    have hb : |(((i : ℕ) : ℤ))| < 2 ^ 53 := by
      have := i.2
      rw [abs_of_nonneg (by positivity)]
      have : (i : ℕ) < 2 ^ 30 := by omega
      have h5 : (((i : ℕ) : ℤ)) < 2 ^ 30 := by exact_mod_cast this
      refine h5.trans (by norm_num)
    have := round_self h (isDouble_int hb)
    unfold Dbl.ofInt
    rw [this]
    simp
  have e2 : Dbl.sub rnd (.fin p) (.fin (-p)) = .fin (2 * p) := by
    rw [sub_fin_rnd, show p - -p = 2 * p by ring]
    exact round_self h (isDouble_two_mul hp (by rwa [abs_of_pos hp0]))
  have e3 : Dbl.ofInt rnd ((N : ℤ) - 1) = .fin ((N : ℝ) - 1) := by
    have hb : |((N : ℤ) - 1)| < 2 ^ 53 := by
      rw [abs_of_nonneg (by omega)]
      have h5 : (N : ℤ) ≤ 2 ^ 30 := by exact_mod_cast hN'
      have : (N : ℤ) - 1 < 2 ^ 30 := by omega
      exact this.trans (by norm_num)
    have := round_self h (isDouble_int hb)
    unfold Dbl.ofInt
    rw [this]
    simp
  set c : ℝ := (N : ℝ) - 1 with hc
  have hc0 : c ≠ 0 := by linarith
  set σ := 2 * p / c with hσ
  have hσc : c * σ = 2 * p := by rw [hσ]; field_simp
  have hσ0 : 0 < σ := by rw [hσ]; positivity
  have hσ2 : σ ≤ 2 * p := by nlinarith
  have hσlow : 2 * p / 2 ^ 30 ≤ σ := by
    rw [hσ]
    gcongr
  have hbig : 4 * p ≤ 2 ^ 900 := by
    have h102 : (2 : ℝ) ^ 102 = 4 * 2 ^ 100 := by norm_num
    refine le_trans ?_ (two_pow_le (show 102 ≤ 900 by norm_num))
    rw [h102]
    gcongr
  obtain ⟨s, hs, hsd, hse⟩ := round_rel h (y := σ) (by
    rw [abs_of_pos hσ0]
    exact le_trans (by linarith) hbig)
  rw [abs_of_pos hσ0] at hse
  have e4 : Dbl.div rnd (.fin (2 * p)) (.fin c) = .fin s := by
    simp [Dbl.div, Fl.div, Dbl.rop, hc0]
    exact hs
  have hs0 : s ≠ 0 := by
    rintro rfl
    rw [zero_sub, abs_neg, abs_of_pos hσ0] at hse
    generalize (2 : ℝ) ^ (-1075 : ℤ) = τ at *
    norm_num at hse hτ hσlow
    linarith
  set k : ℝ := ((i : ℕ) : ℝ) with hk
  have hkσ : k * σ ≤ 2 * p := by rw [← hσc]; gcongr
  have hkσ0 : 0 ≤ k * σ := by positivity
  have hA : |k * s - k * σ| ≤ 2 * p / 2 ^ 53 + p / 2 ^ 170 := by
    rw [← mul_sub, abs_mul, abs_of_nonneg hi0]
    calc k * |s - σ| ≤ k * (σ / 2 ^ 53 + 2 ^ (-1075 : ℤ)) := by gcongr
      _ = k * σ / 2 ^ 53 + k * 2 ^ (-1075 : ℤ) := by ring
      _ ≤ 2 * p / 2 ^ 53 + 2 ^ 30 * (p / 2 ^ 200) := by
          gcongr
          linarith
      _ = _ := by ring
  have hks : |k * s| ≤ 2 * p + (2 * p / 2 ^ 53 + p / 2 ^ 170) := by
    have := abs_add_le (k * s - k * σ) (k * σ)
    rw [sub_add_cancel, abs_of_nonneg hkσ0] at this
    linarith
  have hks2 : |k * s| ≤ 3 * p := by
    refine hks.trans ?_
    norm_num
    linarith
  obtain ⟨v, hv, hvd, hve⟩ := round_rel h (y := k * s) (hks2.trans (le_trans (by linarith) hbig))
  have e5 : Dbl.mul rnd (.fin k) (.fin s) = .fin v := by
    simp [Dbl.mul, Fl.mul, Dbl.rop]
    exact hv
  have hB : |v - p| ≤ p + p / 2 ^ 50 := by
    have e : v - p = (v - k * s) + ((k * s - k * σ) + (k * σ - p)) := by ring
    have h6 : |k * σ - p| ≤ p := by rw [abs_le]; constructor <;> linarith
    rw [e]
    refine (abs_add_le _ _).trans ((add_le_add hve (abs_add_le _ _)).trans ?_)
    generalize (2 : ℝ) ^ (-1075 : ℤ) = τ at *
    norm_num at hks2 hA hτ hve ⊢
    linarith
  have hB2 : |v - p| ≤ 2 * p := hB.trans (by norm_num; linarith)
  obtain ⟨t, ht, htd, hte⟩ := sub_spec h hvd hp ((hB2.trans (le_trans (by linarith) hbig)).trans_lt (two_pow_lt_range (by norm_num)))
  refine ⟨t, ?_, htd, ?_, fun h0 => ?_⟩
  · simp only [e1, e2, e3, e4]
    rw [if_neg (by omega), if_neg (by simpa using hs0), e5]
    simp only [Dbl.add, Fl.add, Dbl.rop]
    exact ht
  · have e : t - (-p + k * ((p - -p) / c)) = (t - (v - p)) + ((v - k * s) + (k * s - k * σ)) := by
      rw [show p - -p = 2 * p by ring, ← hσ]
      ring
    rw [e]
    refine (abs_add_le _ _).trans ((add_le_add hte (abs_add_le _ _)).trans ?_)
    generalize (2 : ℝ) ^ (-1075 : ℤ) = τ at *
    norm_num at hks hA hτ hve hB ⊢
    linarith
  · have hk0 : k = 0 := by rw [hk, h0]; simp
    rw [hk0, zero_mul, rnd_zero h] at hv
    cases hv
    rw [zero_sub, round_self h (isDouble_neg hp)] at ht
    cases ht
    rfl

/-! ## The polar coordinates -/

/-- `x ** 2 + y ** 2`. -/
theorem sumSq_near {rnd : ℝ → Fl} (h : Spec.Rounding rnd) {x y B : ℝ} (hB : B ≤ 2 ^ 300) (hx : |x| ≤ B) (hy : |y| ≤ B) :
    ∃ s, Dbl.sumSq rnd (.fin x) (.fin y) = .fin s ∧ Spec.IsDouble s ∧ 0 ≤ s ∧
      |s - (x ^ 2 + y ^ 2)| ≤ 3 * (x ^ 2 + y ^ 2) / 2 ^ 53 + 4 * 2 ^ (-1075 : ℤ) := by
  have hB0 : 0 ≤ B := (abs_nonneg x).trans hx
  have hsq : ∀ z : ℝ, |z| ≤ B → z * z ≤ 2 ^ 600 := fun z hz => by
    have : z * z = |z| * |z| := (abs_mul_abs_self z).symm
    rw [this, show (2 : ℝ) ^ 600 = 2 ^ 300 * 2 ^ 300 by rw [← pow_add]]
    exact mul_le_mul (hz.trans hB) (hz.trans hB) (abs_nonneg z) (by positivity)
  have h69 : (2 : ℝ) ^ 600 ≤ 2 ^ 900 := two_pow_le (by norm_num)
  have hτ0 : (0 : ℝ) < 2 ^ (-1075 : ℤ) := by positivity
  have hτ1 : (2 : ℝ) ^ (-1075 : ℤ) ≤ 1 := (tiny_le (by norm_num)).trans (by norm_num)
  have hx0 : 0 ≤ x * x := mul_self_nonneg x
  have hy0 : 0 ≤ y * y := mul_self_nonneg y
  have nn : ∀ {a b : ℝ}, 0 ≤ a → |a| ≤ 2 ^ 900 → rnd a = .fin b → 0 ≤ b := fun {a b} ha ha' hb =>
    round_mono h ha (by rw [abs_zero]; exact lt_of_le_of_lt zero_le_one one_lt_range)
      (ha'.trans_lt (two_pow_lt_range (by norm_num))) (rnd_zero h) hb
  have hx1 : |x * x| ≤ 2 ^ 900 := by rw [abs_of_nonneg hx0]; exact (hsq x hx).trans h69
  have hy1 : |y * y| ≤ 2 ^ 900 := by rw [abs_of_nonneg hy0]; exact (hsq y hy).trans h69
  obtain ⟨a, ha, had, hae⟩ := round_rel h hx1
  obtain ⟨b, hb, hbd, hbe⟩ := round_rel h hy1
  have ha0 := nn hx0 hx1 ha
  have hb0 := nn hy0 hy1 hb
  rw [abs_of_nonneg hx0] at hae
  rw [abs_of_nonneg hy0] at hbe
  have hab : |a + b| ≤ 2 ^ 900 := by
    rw [abs_of_nonneg (by linarith)]
    have h603 : (2 : ℝ) ^ 603 = 8 * 2 ^ 600 := by rw [show 603 = 3 + 600 from rfl, pow_add]; norm_num
    have h1 := (abs_le.1 hae).2
    have h2 := (abs_le.1 hbe).2
    have h3 := hsq x hx
    have h4 := hsq y hy
    have h5 : (1 : ℝ) ≤ 2 ^ 600 := one_le_pow₀ one_le_two
    refine le_trans ?_ (two_pow_le (show 603 ≤ 900 by norm_num))
    rw [h603]
    clear h69 hx1 hy1 h603
    generalize (2 : ℝ) ^ 600 = A at *
    generalize (2 : ℝ) ^ (-1075 : ℤ) = τ at *
    norm_num at h1 h2
    linarith
  obtain ⟨s, hs, hsd, hse⟩ := round_rel h hab
  rw [abs_of_nonneg (by linarith : 0 ≤ a + b)] at hse
  refine ⟨s, ?_, hsd, nn (by linarith) hab hs, ?_⟩
  · simp only [Dbl.sumSq, Dbl.mul, Fl.mul, Dbl.rop, ha, hb, Dbl.add, Fl.add, hs]
  · have e : s - (x ^ 2 + y ^ 2) = (s - (a + b)) + ((a - x * x) + (b - y * y)) := by ring
    have h1 := (abs_le.1 hae).2
    have h2 := (abs_le.1 hbe).2
    rw [e]
    refine (abs_add_le _ _).trans ((add_le_add hse ((abs_add_le _ _).trans (add_le_add hae hbe))).trans ?_)
    rw [show x ^ 2 + y ^ 2 = x * x + y * y by ring]
    generalize (2 : ℝ) ^ (-1075 : ℤ) = τ at *
    norm_num at h1 h2 ⊢
    linarith

/-- The root of a sum of squares with a small error. -/
theorem sqrt_near {r s κ : ℝ} (hr : 0 ≤ r) (hκ : 0 ≤ κ) (hs : |s - r ^ 2| ≤ 3 * r ^ 2 / 2 ^ 53 + 4 * κ ^ 2) :
    |Real.sqrt s - r| ≤ 3 * r / 2 ^ 53 + 2 * κ := by
  have h1 := abs_le.1 hs
  have hr2 : 0 ≤ r ^ 2 := sq_nonneg r
  rw [abs_le]
  constructor
  · rcases le_total (r * (1 - 3 / 2 ^ 53)) (2 * κ) with hc | hc
    · have := Real.sqrt_nonneg s
      linarith
    · have : r * (1 - 3 / 2 ^ 53) - 2 * κ ≤ Real.sqrt s := by
        apply Real.le_sqrt_of_sq_le
        have h2 : (r * (1 - 3 / 2 ^ 53)) ^ 2 ≤ r ^ 2 * (1 - 3 / 2 ^ 53) := by
          rw [mul_pow]
          gcongr
          norm_num
        have h3 : 2 * κ * (2 * κ) ≤ 2 * κ * (r * (1 - 3 / 2 ^ 53)) := by gcongr
        have e : (r * (1 - 3 / 2 ^ 53) - 2 * κ) ^ 2 =
            (r * (1 - 3 / 2 ^ 53)) ^ 2 - 2 * (2 * κ * (r * (1 - 3 / 2 ^ 53))) + 4 * κ ^ 2 := by ring
        rw [e]
        have e2 : r ^ 2 * (1 - 3 / 2 ^ 53) = r ^ 2 - 3 * r ^ 2 / 2 ^ 53 := by ring
        have e3 : 2 * κ * (2 * κ) = 4 * κ ^ 2 := by ring
        rw [e2] at h2
        rw [e3] at h3
        linarith [h1.1]
      have e : r * (1 - 3 / 2 ^ 53) = r - 3 * r / 2 ^ 53 := by ring
      linarith
  · have : Real.sqrt s ≤ r * (1 + 3 / 2 ^ 53) + 2 * κ := by
      rw [Real.sqrt_le_left (by positivity)]
      have e : (r * (1 + 3 / 2 ^ 53) + 2 * κ) ^ 2 = r ^ 2 + 3 * r ^ 2 / 2 ^ 53 + 4 * κ ^ 2 +
          (3 * r ^ 2 / 2 ^ 53 + 9 * r ^ 2 / 2 ^ 106 + 4 * κ * (r * (1 + 3 / 2 ^ 53))) := by ring
      have : 0 ≤ 3 * r ^ 2 / 2 ^ 53 + 9 * r ^ 2 / 2 ^ 106 + 4 * κ * (r * (1 + 3 / 2 ^ 53)) := by positivity
      rw [e]
      linarith [h1.2]
    have e : r * (1 + 3 / 2 ^ 53) = r + 3 * r / 2 ^ 53 := by ring
    linarith

/-- The square of the radius of the aperture. -/
theorem rimSq_near {rnd : ℝ → Fl} (h : Spec.Rounding rnd) {p : ℝ} (h1 : 1 / 2 ^ 100 ≤ p) (h2 : p ≤ 2 ^ 100) :
    ∃ P, Dbl.mul rnd (.fin p) (.fin p) = .fin P ∧ 0 ≤ P ∧ |P - p ^ 2| ≤ p ^ 2 / 2 ^ 53 := by
  have hp0 : 0 < p := lt_of_lt_of_le (by positivity) h1
  have hpp : p * p ≤ 2 ^ 200 := by
    rw [show (2 : ℝ) ^ 200 = 2 ^ 100 * 2 ^ 100 by rw [← pow_add]]
    gcongr
  have hlt : |p * p| < 2 ^ 1024 - 2 ^ 970 := by
    rw [abs_of_pos (by positivity)]
    exact hpp.trans_lt (two_pow_lt_range (by norm_num))
  obtain ⟨P, hP, -, -, hPe⟩ := round_spec h hlt
  have hlow : (2 : ℝ) ^ (-1022 : ℤ) ≤ p * p := by
    have a1 : (2 : ℝ) ^ (-1022 : ℤ) ≤ 2 ^ (-200 : ℤ) := zpow_le_zpow_right₀ one_le_two (by norm_num)
    have a2 : (2 : ℝ) ^ (-200 : ℤ) = 1 / 2 ^ 100 * (1 / 2 ^ 100) := by
      rw [show (-200 : ℤ) = -((200 : ℕ) : ℤ) from rfl, zpow_neg, zpow_natCast, show 200 = 100 + 100 from rfl, pow_add]
      field_simp
    rw [a2] at a1
    exact a1.trans (by gcongr)
  rw [abs_of_pos (by positivity : 0 < p * p)] at hPe
  have hPe' : |P - p ^ 2| ≤ p ^ 2 / 2 ^ 53 := by
    rw [sq]
    rcases hPe with hPe | ⟨hPe, -⟩
    · exact hPe
    · exact absurd hPe (not_lt.2 hlow)
  refine ⟨P, ?_, ?_, hPe'⟩
  · simp only [Dbl.mul, Fl.mul, Dbl.rop, hP]
  · have := (abs_le.1 hPe').1
    have hpos : 0 < p ^ 2 := by positivity
    norm_num at this
    linarith

theorem tiny_sq {p : ℝ} (h : 1 / 2 ^ 100 ≤ p) : (2 : ℝ) ^ (-1075 : ℤ) ≤ (p / 2 ^ 100) ^ 2 := by
  have a1 : (2 : ℝ) ^ (-1075 : ℤ) ≤ 2 ^ (-400 : ℤ) := zpow_le_zpow_right₀ one_le_two (by norm_num)
  have a2 : (2 : ℝ) ^ (-400 : ℤ) = (1 / 2 ^ 100 / 2 ^ 100) ^ 2 := by
    rw [show (-400 : ℤ) = -((400 : ℕ) : ℤ) from rfl, zpow_neg, zpow_natCast, div_div, ← pow_add, div_pow, ← pow_mul,
      one_pow, one_div]
  rw [a2] at a1
  exact a1.trans (by gcongr)

/-- The normalised radius. -/
theorem radius_near {rnd : ℝ → Fl} (h : Spec.Rounding rnd) {p : ℝ} (hp : Spec.IsDouble p) (h1 : 1 / 2 ^ 100 ≤ p)
    (h2 : p ≤ 2 ^ 100) {P : ℝ} (hP : |P - p ^ 2| ≤ p ^ 2 / 2 ^ 53) (hP0 : 0 ≤ P) {r s : ℝ} (hr : 0 ≤ r) (hr2 : r ≤ 2 * p)
    (hs0 : 0 ≤ s) (hs : |s - r ^ 2| ≤ 3 * r ^ 2 / 2 ^ 53 + 4 * 2 ^ (-1075 : ℤ)) :
    ∃ rho, Dbl.div rnd (Dbl.sqrt rnd (.fin s)) (.fin p) = .fin rho ∧ Spec.IsDouble rho ∧ 0 ≤ rho ∧
      |rho - r / p| ≤ 14 / 2 ^ 53 ∧ (s ≤ P → rho ≤ 1) := by
  have hp0 : 0 < p := lt_of_lt_of_le (by positivity) h1
  have hτ := tiny_rel h1
  have hτ' := tiny_sq h1
  have hq := sqrt_near hr (show 0 ≤ p / 2 ^ 100 by positivity) (hs.trans (by linarith))
  have hq2 := (abs_le.1 hq).2
  have hbig : 4 * p ≤ 2 ^ 900 := by
    have h102 : (2 : ℝ) ^ 102 = 4 * 2 ^ 100 := by norm_num
    refine le_trans ?_ (two_pow_le (show 102 ≤ 900 by norm_num))
    rw [h102]
    gcongr
  have hs3 : Real.sqrt s ≤ 3 * p := by
    norm_num at hq2
    linarith
  have hsn := Real.sqrt_nonneg s
  have h0lt : |(0 : ℝ)| < 2 ^ 1024 - 2 ^ 970 := by rw [abs_zero]; exact lt_of_le_of_lt zero_le_one one_lt_range
  have hsb : |Real.sqrt s| ≤ 2 ^ 900 := by
    rw [abs_of_nonneg hsn]
    exact hs3.trans (le_trans (by linarith) hbig)
  obtain ⟨a, ha, had, hae⟩ := round_rel h hsb
  have ha0 : 0 ≤ a := round_mono h hsn h0lt (hsb.trans_lt (two_pow_lt_range (by norm_num))) (rnd_zero h) ha
  rw [abs_of_nonneg hsn] at hae
  have har : |a - r| ≤ 10 * p / 2 ^ 53 := by
    have e : a - r = (a - Real.sqrt s) + (Real.sqrt s - r) := by ring
    rw [e]
    refine (abs_add_le _ _).trans ((add_le_add hae hq).trans ?_)
    generalize (2 : ℝ) ^ (-1075 : ℤ) = τ at *
    norm_num at hτ ⊢
    linarith
  have hap : |a / p - r / p| ≤ 10 / 2 ^ 53 := by
    rw [← sub_div, abs_div, abs_of_pos hp0, div_le_iff₀ hp0]
    refine har.trans (le_of_eq ?_)
    ring
  have hap3 : a / p ≤ 3 := by
    have h3 := (abs_le.1 hap).2
    have h4 : r / p ≤ 2 := by rw [div_le_iff₀ hp0]; exact hr2
    norm_num at h3
    linarith
  have hap0 : 0 ≤ a / p := by positivity
  have hapb : |a / p| ≤ 2 ^ 900 := by
    rw [abs_of_nonneg hap0]
    refine le_trans (hap3.trans ?_) (two_pow_le (show 2 ≤ 900 by norm_num))
    norm_num
  obtain ⟨rho, hrho, hrd, hre⟩ := round_rel h hapb
  have hlt2 := hapb.trans_lt (two_pow_lt_range (k := 900) (by norm_num))
  rw [abs_of_nonneg hap0] at hre
  refine ⟨rho, ?_, hrd, round_mono h hap0 h0lt hlt2 (rnd_zero h) hrho, ?_, fun hsP => ?_⟩
  · have e1 : Dbl.sqrt rnd (.fin s) = .fin a := by
      simp only [Dbl.sqrt, Fl.sqrt, if_neg (not_lt.2 hs0), Dbl.rop, ha]
    rw [e1]
    simp only [Dbl.div, Fl.div, if_neg hp0.ne', Dbl.rop, hrho]
  · have e : rho - r / p = (rho - a / p) + (a / p - r / p) := by ring
    rw [e]
    refine (abs_add_le _ _).trans ((add_le_add hre hap).trans ?_)
    have hτ1 := tiny_le (k := -1075) (by norm_num)
    generalize (2 : ℝ) ^ (-1075 : ℤ) = τ at *
    norm_num at hτ1 ⊢
    linarith
  · have hPs : Real.sqrt s ≤ Real.sqrt P := Real.sqrt_le_sqrt hsP
    have hP2 : P ≤ p ^ 2 * (1 + 1 / 2 ^ 53) := by
      have := (abs_le.1 hP).2
      have e : p ^ 2 * (1 + 1 / 2 ^ 53) = p ^ 2 + p ^ 2 / 2 ^ 53 := by ring
      rw [e]
      linarith
    have hPb : Real.sqrt P ≤ 2 * p := by
      rw [Real.sqrt_le_left (by positivity)]
      refine hP2.trans ?_
      have : 0 < p ^ 2 := by positivity
      norm_num
      nlinarith
    have hPb' : |Real.sqrt P| ≤ 2 ^ 900 := by
      rw [abs_of_nonneg (Real.sqrt_nonneg _)]
      exact hPb.trans (le_trans (by linarith) hbig)
    obtain ⟨A, hA, -, -⟩ := round_rel h hPb'
    have hA1 : A ≤ p := round_sqrt_sq h hp hp0 hP2 hP0 (h2.trans_lt (pow_lt_pow_right₀ one_lt_two (by norm_num))) hA
    have haA : a ≤ A := round_mono h hPs (hsb.trans_lt (two_pow_lt_range (by norm_num)))
      (hPb'.trans_lt (two_pow_lt_range (by norm_num))) ha hA
    have : a / p ≤ 1 := by rw [div_le_one hp0]; linarith
    exact round_mono h this hlt2 (by rw [abs_one]; exact one_lt_range) hrho (round_self h isDouble_one)

theorem polarPt_sub (r t r' t' : ℝ) : ‖polarPt r t - polarPt r' t'‖ ≤ |r - r'| + |r'| * |t - t'| := by
  unfold polarPt
  have e : (r : ℂ) * Complex.exp (t * Complex.I) - r' * Complex.exp (t' * Complex.I) =
      ((r - r' : ℝ) : ℂ) * Complex.exp (t * Complex.I) +
        (r' : ℂ) * (Complex.exp (t' * Complex.I) * (Complex.exp (Complex.I * ((t - t' : ℝ) : ℂ)) - 1)) := by
    rw [mul_sub, ← Complex.exp_add]
    have : (t' : ℂ) * Complex.I + Complex.I * ((t - t' : ℝ) : ℂ) = t * Complex.I := by push_cast; ring
    rw [this]
    push_cast
    ring
  rw [e]
  refine (norm_add_le _ _).trans ?_
  rw [norm_mul, norm_mul, norm_mul, Complex.norm_exp_ofReal_mul_I, Complex.norm_exp_ofReal_mul_I, mul_one, one_mul,
    Complex.norm_real, Complex.norm_real, Real.norm_eq_abs, Real.norm_eq_abs]
  have := Real.norm_exp_I_mul_ofReal_sub_one_le (x := t - t')
  rw [Real.norm_eq_abs] at this
  gcongr

/-- The polar coordinates of a point of the plane. -/
theorem polarPt_cart (x y : ℝ) {p : ℝ} (hp : 0 < p) :
    polarPt (Real.sqrt (x ^ 2 + y ^ 2) / p) (Np.arctan2 y x) = (⟨x / p, y / p⟩ : ℂ) := by
  have h1 := Complex.norm_mul_exp_arg_mul_I (⟨x, y⟩ : ℂ)
  rw [Complex.norm_def, Complex.normSq_mk, ← sq, ← sq] at h1
  unfold polarPt Np.arctan2
  rw [Complex.ofReal_div, div_mul_eq_mul_div, h1]
  apply Complex.ext
  · simp
  · simp

/-- The wavefront never raises. -/
theorem wavefrontD_total (rnd : ℝ → Fl) (L : Dbl.Libm) (rho theta : Fl) (n : ℕ) (K : List Fl)
    (hK : K.length = tri (n + 1)) : ∃ w, Dbl.wavefront rnd L rho theta K = .ok w := by
  have hR : ∀ a b : ℕ, b ≤ a → ∃ r, Dbl.R rnd L ((a : ℤ) + b) ((a : ℤ) - b) rho = .ok r := by
    intro a b hba
    have ha : ((a : ℤ) + b + (a - b)) / 2 = a := by omega
    have hb : ((a : ℤ) + b - (a - b)) / 2 = b := by omega
    have hN : ((b : ℤ) + 1).toNat = b + 1 := by omega
    have hex : ∀ s : ℕ, ∃ t, s ≤ b → Dbl.rTerm rnd L ((a : ℤ) + b) a b rho s = .ok t := by
      intro s
      by_cases hs : s ≤ b
      · have e1 : (a : ℤ) + b - s = ((a + b - s : ℕ) : ℤ) := by omega
        have e3 : (a : ℤ) - s = ((a - s : ℕ) : ℤ) := by omega
        have e4 : (b : ℤ) - s = ((b - s : ℕ) : ℤ) := by omega
        have : ∃ t, Dbl.rTerm rnd L ((a : ℤ) + b) a b rho s = .ok t := by
          unfold Dbl.rTerm
          rw [e1, e3, e4, factorial_ofNat, factorial_ofNat, factorial_ofNat, factorial_ofNat]
          exact ⟨_, rfl⟩
        obtain ⟨t, ht⟩ := this
        exact ⟨t, fun _ => ht⟩
      · exact ⟨.nan, fun hs' => absurd hs' hs⟩
    choose t ht using hex
    unfold Dbl.R
    simp only [ha, hb]
    rw [hN, mapM_ok _ _ t fun s hs => ht s (by simpa [Nat.lt_succ_iff] using hs)]
    exact ⟨_, rfl⟩
  have hterm : ∀ j, ∃ t, j < K.length → Dbl.wfTerm rnd L rho theta K (nlList n) j = .ok t := by
    intro j
    by_cases hj : j < K.length
    swap
    · exact ⟨.nan, fun hj' => absurd hj' hj⟩
    obtain ⟨i, k, hi, hk, rfl⟩ := exists_row_pos n j (by omega)
    have hget := nlList_get n i k hi hk
    have h1 : pyIdx K (tri i + k) = .ok K[tri i + k] := by
      simp [pyIdx, List.getElem?_eq_getElem hj]
    have h2 : pyIdx (nlList n) (tri i + k) = .ok ((i : ℤ), -(i : ℤ) + 2 * (k : ℤ)) := by
      simp [pyIdx, hget]
    obtain ⟨a, b, hba, hab, hl', -⟩ := U_value i _ (row_allowed i k hk)
    obtain ⟨r, hr⟩ := hR a b hba
    have e1 : (i : ℤ) = (a : ℤ) + b := by omega
    have e2 : |(-(i : ℤ) + 2 * (k : ℤ))| = (a : ℤ) - b := by omega
    rw [← e1, ← e2] at hr
    have hU : ∃ u, Dbl.U rnd L i (-(i : ℤ) + 2 * (k : ℤ)) rho theta = .ok u := by
      unfold Dbl.U
      rw [if_neg (by omega)]
      simp only [hr, bind, Except.bind]
      split_ifs
      · exact ⟨_, rfl⟩
      · exact ⟨_, rfl⟩
    obtain ⟨u, hu⟩ := hU
    have : ∃ t, Dbl.wfTerm rnd L rho theta K (nlList n) (tri i + k) = .ok t := by
      unfold Dbl.wfTerm
      rw [h1, h2]
      simp only [bind, Except.bind, hu]
      exact ⟨_, rfl⟩
    obtain ⟨t, ht⟩ := this
    exact ⟨t, fun _ => ht⟩
  choose t ht using hterm
  have ho : Aperture.orderOf K.length = n := by
    apply orderOf_eq
    · rw [hK]
    · rw [hK, tri_succ (n + 1)]; omega
  have hpos : 0 < tri (n + 1) := by rw [tri_succ]; omega
  unfold Dbl.wavefront
  simp only [ho]
  rw [mapM_ok _ _ t fun i hi => ht i (by simpa using hi)]
  show ∃ w, (if List.isEmpty _ = true then _ else _) = _
  rw [if_neg (by rw [List.isEmpty_iff, List.map_eq_nil_iff, List.range_eq_nil, hK]; omega)]
  exact ⟨_, rfl⟩

theorem abs_set_zero (K : List ℝ) (i : ℕ) : ((K.set i 0).map fun k => |k|).sum ≤ (K.map fun k => |k|).sum := by
  induction K generalizing i with
  | nil => simp
  | cons a K ih =>
    cases i with
    | zero => simp
    | succ i => simpa using ih i

/-- The coefficients that are taken. -/
theorem maskCoeff_small (K : List ℝ) (hK : 3 ≤ K.length) (piston tilt : Bool) (hd : ∀ k ∈ K, Spec.IsDouble k) :
    ∃ K', maskCoeff K piston tilt = .ok K' ∧ K'.length = K.length ∧ (∀ k ∈ K', Spec.IsDouble k) ∧
      (K'.map fun k => |k|).sum ≤ (K.map fun k => |k|).sum := by
  have hset : ∀ (l : List ℝ) i, (∀ k ∈ l, Spec.IsDouble k) → ∀ k ∈ l.set i 0, Spec.IsDouble k := by
    intro l i hl k hk
    rcases List.mem_or_eq_of_mem_set hk with hk | rfl
    · exact hl k hk
    · exact isDouble_zero
  have h0 : ∀ l : List ℝ, l.length = K.length → ∀ i, i < 3 → pySet l i 0 = .ok (l.set i 0) := by
    intro l hl i hi
    unfold pySet
    rw [if_pos (by omega)]
  unfold maskCoeff
  cases piston <;> cases tilt
  · refine ⟨((K.set 0 0).set 1 0).set 2 0, ?_, by simp, hset _ _ (hset _ _ (hset _ _ hd)),
      (abs_set_zero _ _).trans ((abs_set_zero _ _).trans (abs_set_zero _ _))⟩
    simp only [Bool.not_false, if_true, h0 K rfl 0 (by norm_num), bind, Except.bind,
      h0 (K.set 0 0) (by simp) 1 (by norm_num), h0 ((K.set 0 0).set 1 0) (by simp) 2 (by norm_num)]
  · refine ⟨K.set 0 0, ?_, by simp, hset _ _ hd, abs_set_zero _ _⟩
    simp [h0 K rfl 0 (by norm_num), bind, Except.bind]
  · refine ⟨(K.set 1 0).set 2 0, ?_, by simp, hset _ _ (hset _ _ hd), (abs_set_zero _ _).trans (abs_set_zero _ _)⟩
    simp [h0 K rfl 1 (by norm_num), h0 (K.set 1 0) (by simp) 2 (by norm_num), bind, Except.bind]
  · exact ⟨K, by simp [bind, Except.bind], rfl, hd, le_rfl⟩

/-- The factor `2 * np.pi`. -/
theorem twoPi_near {rnd : ℝ → Fl} (h : Spec.Rounding rnd) {w W X S : ℝ} (hX : 1 ≤ X) (hS0 : 0 ≤ S) (hS : S ≤ 2 ^ 200)
    (hw : |w| ≤ 2 * S + 2 ^ (-1065 : ℤ)) (hwW : |w - W| ≤ X / 2 ^ 41 * S + 2 ^ (-1065 : ℤ)) :
    ∃ f, Dbl.mul rnd (Dbl.mul rnd (.fin w) (Dbl.ofInt rnd 2)) (rnd Real.pi) = .fin f ∧ Spec.IsDouble f ∧
      |f - W * 2 * Real.pi| ≤ X / 2 ^ 38 * S + 2 ^ (-1060 : ℤ) := by
  have hT : (2 : ℝ) ^ (-1065 : ℤ) = 1024 * 2 ^ (-1075 : ℤ) := by
    rw [show (-1065 : ℤ) = 10 + -1075 by norm_num, zpow_add₀ two_ne_zero]
    norm_num
  have hT2 : (2 : ℝ) ^ (-1060 : ℤ) = 32768 * 2 ^ (-1075 : ℤ) := by
    rw [show (-1060 : ℤ) = 15 + -1075 by norm_num, zpow_add₀ two_ne_zero]
    norm_num
  have hτ0 : (0 : ℝ) < 2 ^ (-1075 : ℤ) := by positivity
  have hτ1 := tiny_le (k := -1075) (by norm_num)
  have hπ2 := Real.pi_lt_d2
  have hπ1 : Real.pi < 4 := by linarith
  have hπ0 := Real.pi_pos
  have hw2 : |w| ≤ 2 ^ 202 := by
    rw [hT] at hw
    have : (2 : ℝ) ^ 202 = 4 * 2 ^ 200 := by rw [show 202 = 2 + 200 from rfl, pow_add]; norm_num
    rw [this]
    have h5 : (1 : ℝ) ≤ 2 ^ 200 := one_le_pow₀ one_le_two
    generalize (2 : ℝ) ^ 200 = A at *
    generalize (2 : ℝ) ^ (-1075 : ℤ) = τ at *
    norm_num at hτ1
    linarith
  have r2 : Dbl.ofInt rnd 2 = .fin 2 := by
    have := round_self h (isDouble_int (z := 2) (by norm_num))
    unfold Dbl.ofInt
    rw [this]
    norm_num
  obtain ⟨π', hπ, -, hπe⟩ := round_rel h (y := Real.pi) (by
    rw [abs_of_pos hπ0]
    refine le_trans (hπ1.le.trans ?_) (two_pow_le (show 2 ≤ 900 by norm_num))
    norm_num)
  rw [abs_of_pos hπ0] at hπe
  have hπe' : |π' - Real.pi| ≤ 4 / 2 ^ 53 := by
    refine hπe.trans ?_
    generalize (2 : ℝ) ^ (-1075 : ℤ) = τ at *
    norm_num at hτ1 ⊢
    linarith
  have hπ4 : |π'| ≤ 4 := by
    have := abs_add_le (π' - Real.pi) Real.pi
    rw [sub_add_cancel, abs_of_pos hπ0] at this
    norm_num at hπe'
    linarith
  have hw2' : |w * 2| ≤ 2 ^ 203 := by
    rw [abs_mul, abs_two, show (2 : ℝ) ^ 203 = 2 ^ 202 * 2 by rw [← pow_succ]]
    gcongr
  obtain ⟨a, ha, had, hae⟩ := round_rel h (hw2'.trans (two_pow_le (show 203 ≤ 900 by norm_num)))
  rw [abs_mul, abs_two] at hae
  have hab : |a| ≤ 3 * |w| + 2 ^ (-1075 : ℤ) := by
    have := abs_add_le (a - w * 2) (w * 2)
    rw [sub_add_cancel, abs_mul, abs_two] at this
    have hw0 := abs_nonneg w
    generalize (2 : ℝ) ^ (-1075 : ℤ) = τ at *
    norm_num at hae
    linarith
  have haπ : |a * π'| ≤ 4 * |a| := by
    rw [abs_mul]
    nlinarith [abs_nonneg a]
  obtain ⟨f, hf, hfd, hfe⟩ := round_rel h (y := a * π') (by
    refine le_trans ?_ (two_pow_le (show 206 ≤ 900 by norm_num))
    have : (2 : ℝ) ^ 206 = 16 * 2 ^ 202 := by rw [show 206 = 4 + 202 from rfl, pow_add]; norm_num
    rw [this]
    have h5 : (1 : ℝ) ≤ 2 ^ 202 := one_le_pow₀ one_le_two
    clear hw2' hS
    generalize (2 : ℝ) ^ 202 = A at *
    generalize (2 : ℝ) ^ (-1075 : ℤ) = τ at *
    norm_num at hτ1
    linarith)
  refine ⟨f, ?_, hfd, ?_⟩
  · rw [r2, hπ]
    simp only [Dbl.mul, Fl.mul, Dbl.rop, ha, hf]
  · have e : f - W * 2 * Real.pi =
        (f - a * π') + (a * (π' - Real.pi) + ((a - w * 2) * Real.pi + 2 * ((w - W) * Real.pi))) := by ring
    have t1 : |a * (π' - Real.pi)| ≤ |a| * (4 / 2 ^ 53) := by rw [abs_mul]; gcongr
    have t2 : |(a - w * 2) * Real.pi| ≤ (|w| * 2 / 2 ^ 53 + 2 ^ (-1075 : ℤ)) * 4 := by
      rw [abs_mul, abs_of_pos hπ0]
      gcongr
    have t3 : |2 * ((w - W) * Real.pi)| ≤ 2 * ((X / 2 ^ 41 * S + 2 ^ (-1065 : ℤ)) * 3.15) := by
      rw [abs_mul, abs_two, abs_mul, abs_of_pos hπ0]
      gcongr
    have t4 : |f - a * π'| ≤ 4 * |a| / 2 ^ 53 + 2 ^ (-1075 : ℤ) := hfe.trans (by gcongr)
    have hXS : S ≤ X * S := by nlinarith
    rw [e]
    refine (abs_add_le _ _).trans ((add_le_add t4 ((abs_add_le _ _).trans (add_le_add t1
      ((abs_add_le _ _).trans (add_le_add t2 t3))))).trans ?_)
    rw [hT2]
    rw [hT] at hw ⊢
    clear hw2 hw2' hS hτ1 t1 t2 t3 t4 hfe hae hwW haπ
    have e2 : X / 2 ^ 41 * S = X * S / 2 ^ 41 := by ring
    have e3 : X / 2 ^ 38 * S = X * S / 2 ^ 38 := by ring
    rw [e2, e3]
    generalize X * S = Z at *
    generalize (2 : ℝ) ^ (-1075 : ℤ) = τ at *
    norm_num
    linarith

/-! ## One pixel -/

/-- The wavefront at a pixel that is kept, for a grid within `c` units of `2 ^ -53` of the radius. -/
theorem pixel_near_of {rnd : ℝ → Fl} (h : Spec.Rounding rnd) {L : Dbl.LibmA} (hL : Spec.AccurateA L) {n : ℕ} (hn : n ≤ 20)
    {K : List ℝ} (hK : K.length = tri (n + 1)) (hKd : ∀ k ∈ K, Spec.IsDouble k)
    (hKs : (K.map fun k => |k|).sum ≤ 2 ^ 200) {p : ℝ} (hp0 : 0 < p)
    {c : ℝ} (hc : c ≤ 2 ^ 10) {x y X Y rho : ℝ} (hx : Spec.IsDouble x) (hy : Spec.IsDouble y) (hxX : |x - X| ≤ c * p / 2 ^ 53)
    (hyY : |y - Y| ≤ c * p / 2 ^ 53) (hr2 : Real.sqrt (x ^ 2 + y ^ 2) ≤ 2 * p) (hrd : Spec.IsDouble rho) (hr0 : 0 ≤ rho)
    (hr1 : rho ≤ 1) (hre : |rho - Real.sqrt (x ^ 2 + y ^ 2) / p| ≤ 14 / 2 ^ 53) :
    ∃ w, Dbl.wavefront rnd L.toLibm (.fin rho) (L.arctan2 (.fin y) (.fin x)) (K.map .fin) = .ok (.fin w) ∧
      |w| ≤ 2 * (K.map fun k => |k|).sum + 2 ^ (-1065 : ℤ) ∧
      |w - wfVal n K (Real.sqrt (X ^ 2 + Y ^ 2) / p) (Np.arctan2 Y X)| ≤
        (1 + Real.sqrt 2) ^ n * (1 / 2 ^ 43 + 40 * (30 + 2 * c) / 2 ^ 53) * (K.map fun k => |k|).sum +
          2 ^ (-1065 : ℤ) := by
  obtain ⟨t, ht, htd, ht4, hte⟩ := hL.arctan2 x y hx hy
  obtain ⟨W, hW, hw⟩ := C99_wavefront h hL.base n hn K hK hKd hKs (ι := Unit) (fun _ => rho) (fun _ => t)
  rw [wavefront_ok _ _ K n hK] at hW
  injection hW with hW
  obtain ⟨w, hw1, -, hw3⟩ := hw () hrd (by rw [abs_of_nonneg hr0]; exact hr1) htd ht4
  rw [← hW] at hw3
  obtain ⟨hX1, hX2⟩ := sqrt_two_pow hn
  have hS0 : 0 ≤ (K.map fun k => |k|).sum := List.sum_nonneg (by simp)
  have hb := wfVal_abs (r := rho) (t := t) (by rw [abs_of_nonneg hr0]; exact hr1) n K hK
  rw [ht]
  -- the points
  set r1 := Real.sqrt (x ^ 2 + y ^ 2) with hr1d
  have hr1n : 0 ≤ r1 := Real.sqrt_nonneg _
  set r' := Real.sqrt (X ^ 2 + Y ^ 2) / p with hr'
  have hr'0 : 0 ≤ r' := by positivity
  have hD1 : ‖polarPt rho t - polarPt (r1 / p) (Np.arctan2 y x)‖ ≤ 30 / 2 ^ 53 := by
    refine (polarPt_sub _ _ _ _).trans ?_
    have h1 : |r1 / p| ≤ 2 := by
      rw [abs_of_nonneg (by positivity), div_le_iff₀ hp0]
      exact hr2
    have h2 : |r1 / p| * |t - Np.arctan2 y x| ≤ 2 * (1 / 2 ^ 50) := by gcongr
    norm_num at hre h2 ⊢
    linarith
  have hD2 : ‖polarPt (r1 / p) (Np.arctan2 y x) - polarPt r' (Np.arctan2 Y X)‖ ≤ 2 * c / 2 ^ 53 := by
    rw [hr', hr1d, polarPt_cart x y hp0, polarPt_cart X Y hp0]
    refine (Complex.norm_le_abs_re_add_abs_im _).trans ?_
    simp only [Complex.sub_re, Complex.sub_im]
    rw [← sub_div, ← sub_div, abs_div, abs_div, abs_of_pos hp0]
    have h1 : |x - X| / p ≤ c / 2 ^ 53 := by
      rw [div_le_iff₀ hp0]
      exact hxX.trans (le_of_eq (by ring))
    have h2 : |y - Y| / p ≤ c / 2 ^ 53 := by
      rw [div_le_iff₀ hp0]
      exact hyY.trans (le_of_eq (by ring))
    norm_num at h1 h2 ⊢
    linarith
  have hD : ‖polarPt rho t - polarPt r' (Np.arctan2 Y X)‖ ≤ (30 + 2 * c) / 2 ^ 53 := by
    refine (norm_sub_le_norm_sub_add_norm_sub _ (polarPt (r1 / p) (Np.arctan2 y x)) _).trans ?_
    norm_num at hD1 hD2 ⊢
    linarith
  have hM : (1 : ℝ) ≤ 1 + 1 / 2 ^ 40 := by norm_num
  have hrM : rho ≤ 1 + 1 / 2 ^ 40 := hr1.trans hM
  have hrM' : r' ≤ 1 + 1 / 2 ^ 40 := by
    have h1 := norm_sub_norm_le (polarPt r' (Np.arctan2 Y X)) (polarPt rho t)
    rw [polarPt_norm hr'0, polarPt_norm hr0, norm_sub_rev] at h1
    norm_num at hD ⊢
    linarith
  have hlip := wfVal_lip hM (t := t) (t' := Np.arctan2 Y X) hr0 hrM hr'0 hrM' n K hK
  have hMn : (1 + 1 / 2 ^ 40 : ℝ) ^ n ≤ 2 := (pow_le_pow_right₀ hM hn).trans (by norm_num)
  have hn' : (n : ℝ) ≤ 20 := by exact_mod_cast hn
  set S := (K.map fun k => |k|).sum
  set Z := (1 + Real.sqrt 2) ^ n with hZ
  have hlip' : |wfVal n K rho t - wfVal n K r' (Np.arctan2 Y X)| ≤ 20 * 2 * Z * ((30 + 2 * c) / 2 ^ 53) * S := by
    refine hlip.trans ?_
    gcongr
  refine ⟨w, hw1, ?_, ?_⟩
  · have e : w = (w - wfVal n K rho t) + wfVal n K rho t := by ring
    rw [e]
    refine (abs_add_le _ _).trans ((add_le_add hw3 hb).trans ?_)
    have : Z / 2 ^ 43 * S ≤ 1 * S := by
      gcongr
      norm_num at hX2 ⊢
      linarith
    linarith
  · have e : w - wfVal n K r' (Np.arctan2 Y X) =
        (w - wfVal n K rho t) + (wfVal n K rho t - wfVal n K r' (Np.arctan2 Y X)) := by ring
    rw [e]
    refine (abs_add_le _ _).trans ((add_le_add hw3 hlip').trans (le_of_eq ?_))
    ring

/-- The wavefront at a pixel that is kept. -/
theorem pixel_near {rnd : ℝ → Fl} (h : Spec.Rounding rnd) {L : Dbl.LibmA} (hL : Spec.AccurateA L) {n : ℕ} (hn : n ≤ 20)
    {K : List ℝ} (hK : K.length = tri (n + 1)) (hKd : ∀ k ∈ K, Spec.IsDouble k)
    (hKs : (K.map fun k => |k|).sum ≤ 2 ^ 200) {p : ℝ} (hp0 : 0 < p)
    {x y X Y rho : ℝ} (hx : Spec.IsDouble x) (hy : Spec.IsDouble y) (hxX : |x - X| ≤ 6 * p / 2 ^ 53)
    (hyY : |y - Y| ≤ 6 * p / 2 ^ 53) (hr2 : Real.sqrt (x ^ 2 + y ^ 2) ≤ 2 * p) (hrd : Spec.IsDouble rho) (hr0 : 0 ≤ rho)
    (hr1 : rho ≤ 1) (hre : |rho - Real.sqrt (x ^ 2 + y ^ 2) / p| ≤ 14 / 2 ^ 53) :
    ∃ w, Dbl.wavefront rnd L.toLibm (.fin rho) (L.arctan2 (.fin y) (.fin x)) (K.map .fin) = .ok (.fin w) ∧
      |w| ≤ 2 * (K.map fun k => |k|).sum + 2 ^ (-1065 : ℤ) ∧
      |w - wfVal n K (Real.sqrt (X ^ 2 + Y ^ 2) / p) (Np.arctan2 Y X)| ≤
        (1 + Real.sqrt 2) ^ n / 2 ^ 41 * (K.map fun k => |k|).sum + 2 ^ (-1065 : ℤ) := by
  obtain ⟨w, h1, h2, h3⟩ := pixel_near_of h hL hn hK hKd hKs hp0 (by norm_num) hx hy hxX hyY hr2 hrd hr0 hr1 hre
  refine ⟨w, h1, h2, h3.trans ?_⟩
  have hS0 : 0 ≤ (K.map fun k => |k|).sum := List.sum_nonneg (by simp)
  obtain ⟨hX1, -⟩ := sqrt_two_pow hn
  gcongr
  rw [div_eq_mul_one_div _ ((2 : ℝ) ^ 41)]
  gcongr
  norm_num

theorem linspace_abs {p : ℝ} (hp : 0 < p) {N : ℕ} (hN : 2 ≤ N) (i : Fin N) : |Np.linspace (-p) p N i| ≤ p := by
  unfold Np.linspace
  have hc1 : (1 : ℝ) ≤ (N : ℝ) - 1 := by
    have : (2 : ℝ) ≤ N := by exact_mod_cast hN
    linarith
  have hi1 : ((i : ℕ) : ℝ) ≤ (N : ℝ) - 1 := by
    have : (i : ℕ) + 1 ≤ N := i.2
    have : (((i : ℕ) : ℝ) + 1) ≤ N := by exact_mod_cast this
    linarith
  have h1 : 0 ≤ ((i : ℕ) : ℝ) * ((p - -p) / ((N : ℝ) - 1)) := by
    have : 0 ≤ (p - -p) / ((N : ℝ) - 1) := div_nonneg (by linarith) (by linarith)
    positivity
  have h2 : ((i : ℕ) : ℝ) * ((p - -p) / ((N : ℝ) - 1)) ≤ 2 * p := by
    rw [← mul_div_assoc, div_le_iff₀ (by linarith)]
    nlinarith
  rw [abs_le]
  constructor <;> linarith

/-- **C120.**  The phase map in doubles.  The nodes of the grid are within 6 units of `2 ^ -53` of the radius.  Every
value is a double.  Inside the rim it is within `(1 + √2)^n / 2^38` times the sum of the absolute values of the
coefficients of the exact one; outside it is 0.  In the margin about the rim, where rounding decides on which side the
pixel is, it is either 0 or the phase of the wavefront at that point, to the same accuracy. -/
theorem C120_phase {rnd : ℝ → Fl} (h : Spec.Rounding rnd) {L : Dbl.LibmA} (hL : Spec.AccurateA L) (n : ℕ)
    (hn1 : 1 ≤ n) (hn : n ≤ 20) (K : List ℝ) (hK : K.length = (n + 1) * (n + 2) / 2) (hKd : ∀ k ∈ K, Spec.IsDouble k)
    (hKs : (K.map fun k => |k|).sum ≤ 2 ^ 200) (pr : ℝ) (hp : Spec.IsDouble pr) (h1 : 1 / 2 ^ 100 ≤ pr) (h2 : pr ≤ 2 ^ 100)
    (piston tilt : Bool) (N : ℕ) (hN : 2 ≤ N) (hN' : N ≤ 2 ^ 30) :
    ∃ P Q K' W, Dbl.phase rnd L K pr piston tilt N = .ok P ∧ Aperture.phase K pr piston tilt N = .ok Q ∧
      maskCoeff K piston tilt = .ok K' ∧
      Aperture.wavefront (fun q : Fin N × Fin N => Real.sqrt (Q.x q.2 ^ 2 + Q.y q.1 ^ 2) / pr)
        (fun q => Np.arctan2 (Q.y q.1) (Q.x q.2)) K' = .ok W ∧
      (∀ i, ∃ s t, P.x i = .fin s ∧ P.y i = .fin t ∧ Spec.IsDouble s ∧ Spec.IsDouble t ∧
        |s - Q.x i| ≤ 6 * pr / 2 ^ 53 ∧ |t - Q.y i| ≤ 6 * pr / 2 ^ 53) ∧
      ∀ q, ∃ f, P.phi q = .fin f ∧ Spec.IsDouble f ∧
        (Q.x q.2 ^ 2 + Q.y q.1 ^ 2 ≤ pr ^ 2 * (1 - 1 / 2 ^ 47) →
          |f - Q.phi q| ≤ (1 + Real.sqrt 2) ^ n / 2 ^ 38 * (K.map fun k => |k|).sum + 2 ^ (-1060 : ℤ)) ∧
        (pr ^ 2 * (1 + 1 / 2 ^ 47) < Q.x q.2 ^ 2 + Q.y q.1 ^ 2 → f = 0 ∧ Q.phi q = 0) ∧
        (f = 0 ∨ |f - W q * 2 * Real.pi| ≤
          (1 + Real.sqrt 2) ^ n / 2 ^ 38 * (K.map fun k => |k|).sum + 2 ^ (-1060 : ℤ)) := by
  have hp0 : 0 < pr := lt_of_lt_of_le (by positivity) h1
  have hK3 : 3 ≤ K.length := by
    rw [hK]
    calc 3 = (1 + 1) * (1 + 2) / 2 := by norm_num
      _ ≤ _ := by gcongr
  obtain ⟨K', hm, hm1, hm2, hm3⟩ := maskCoeff_small K hK3 piston tilt hKd
  have hK' : K'.length = tri (n + 1) := by rw [hm1, hK]; rfl
  set S := (K.map fun k => |k|).sum with hS
  have hS0 : 0 ≤ S := List.sum_nonneg (by simp)
  have hS' : 0 ≤ (K'.map fun k => |k|).sum := List.sum_nonneg (by simp)
  obtain ⟨hX1, hX2⟩ := sqrt_two_pow hn
  have hX0 : (0 : ℝ) ≤ (1 + Real.sqrt 2) ^ n := by linarith
  -- the grid
  choose g hg hgd hge _ using fun i => linspaceD_near h hp h1 h2 hN hN' i
  set G := Np.linspace (-pr) pr N with hG
  have hGa : ∀ i, |G i| ≤ pr := fun i => linspace_abs hp0 hN i
  have hga : ∀ i, |g i| ≤ 5 / 4 * pr := by
    intro i
    have e : g i = (g i - G i) + G i := by ring
    rw [e]
    refine (abs_add_le _ _).trans ((add_le_add (hge i) (hGa i)).trans ?_)
    norm_num
    linarith
  -- the squares
  obtain ⟨P2, hP2, hP20, hP2e⟩ := rimSq_near h h1 h2
  have hB : 5 / 4 * pr ≤ 2 ^ 300 := by
    refine le_trans ?_ (two_pow_le (show 101 ≤ 300 by norm_num))
    rw [pow_succ]
    linarith
  choose s hs hsd hs0 hse using fun q : Fin N × Fin N => sumSq_near h hB (hga q.2) (hga q.1)
  have hsq : ∀ q : Fin N × Fin N, g q.2 ^ 2 + g q.1 ^ 2 ≤ 4 * pr ^ 2 := by
    intro q
    have a1 : g q.2 ^ 2 ≤ (5 / 4 * pr) ^ 2 := sq_le_sq' (by linarith [(abs_le.1 (hga q.2)).1]) (abs_le.1 (hga q.2)).2
    have a2 : g q.1 ^ 2 ≤ (5 / 4 * pr) ^ 2 := sq_le_sq' (by linarith [(abs_le.1 (hga q.1)).1]) (abs_le.1 (hga q.1)).2
    nlinarith
  have hr2 : ∀ q : Fin N × Fin N, Real.sqrt (g q.2 ^ 2 + g q.1 ^ 2) ≤ 2 * pr := by
    intro q
    rw [Real.sqrt_le_left (by positivity)]
    refine (hsq q).trans (le_of_eq (by ring))
  have hτ2 := tiny_sq h1
  -- the rim
  have hsR : ∀ q : Fin N × Fin N, |s q - (G q.2 ^ 2 + G q.1 ^ 2)| ≤ 42 * pr ^ 2 / 2 ^ 53 := by
    intro q
    have hd : ∀ i, |g i ^ 2 - G i ^ 2| ≤ 14 * pr ^ 2 / 2 ^ 53 := by
      intro i
      have a0 : |g i + G i| ≤ 9 / 4 * pr := (abs_add_le _ _).trans (by linarith [hga i, hGa i])
      rw [sq_sub_sq, abs_mul]
      calc |g i + G i| * |g i - G i| ≤ 9 / 4 * pr * (6 * pr / 2 ^ 53) := mul_le_mul a0 (hge i) (abs_nonneg _) (by positivity)
        _ ≤ _ := by
          have : 0 < pr ^ 2 := by positivity
          rw [show 9 / 4 * pr * (6 * pr / 2 ^ 53) = 13.5 * pr ^ 2 / 2 ^ 53 by ring]
          gcongr
          norm_num
    have e : s q - (G q.2 ^ 2 + G q.1 ^ 2) = (s q - (g q.2 ^ 2 + g q.1 ^ 2)) +
        ((g q.2 ^ 2 - G q.2 ^ 2) + (g q.1 ^ 2 - G q.1 ^ 2)) := by ring
    rw [e]
    refine (abs_add_le _ _).trans ((add_le_add (hse q) ((abs_add_le _ _).trans (add_le_add (hd q.2) (hd q.1)))).trans ?_)
    have a1 := hsq q
    have : 0 < pr ^ 2 := by positivity
    have e2 : (pr / 2 ^ 100) ^ 2 = pr ^ 2 / 2 ^ 200 := by rw [div_pow, ← pow_mul]
    rw [e2] at hτ2
    generalize (2 : ℝ) ^ (-1075 : ℤ) = τ at *
    generalize g q.2 ^ 2 + g q.1 ^ 2 = A at *
    generalize pr ^ 2 = B at *
    norm_num at hτ2 ⊢
    linarith
  have hin : ∀ q : Fin N × Fin N, G q.2 ^ 2 + G q.1 ^ 2 ≤ pr ^ 2 * (1 - 1 / 2 ^ 47) → ¬ P2 < s q := by
    intro q hq
    have a1 := (abs_le.1 (hsR q)).2
    have a2 := (abs_le.1 hP2e).1
    have : 0 < pr ^ 2 := by positivity
    norm_num at a1 a2 hq ⊢
    linarith
  have hout : ∀ q : Fin N × Fin N, pr ^ 2 * (1 + 1 / 2 ^ 47) < G q.2 ^ 2 + G q.1 ^ 2 → P2 < s q := by
    intro q hq
    have a1 := (abs_le.1 (hsR q)).1
    have a2 := (abs_le.1 hP2e).2
    have : 0 < pr ^ 2 := by positivity
    norm_num at a1 a2 hq ⊢
    linarith
  -- the radius
  choose rho hrho hrd hr0 hre hr1 using fun q : Fin N × Fin N => radius_near h hp h1 h2 hP2e hP20
    (Real.sqrt_nonneg (g q.2 ^ 2 + g q.1 ^ 2)) (hr2 q) (hs0 q)
    (by rw [Real.sq_sqrt (by positivity)]; exact hse q)
  -- the wavefront
  have hexW : ∀ q : Fin N × Fin N, ∃ w, Dbl.wavefront rnd L.toLibm (.fin (rho q))
      (L.arctan2 (.fin (g q.1)) (.fin (g q.2))) (K'.map .fin) = .ok w :=
    fun q => wavefrontD_total _ _ _ _ n _ (by simpa using hK')
  choose WD hWD using hexW
  set W := fun q : Fin N × Fin N => wfVal n K' (Real.sqrt (G q.2 ^ 2 + G q.1 ^ 2) / pr) (Np.arctan2 (G q.1) (G q.2)) with hWdef
  have hWok : Aperture.wavefront (fun q : Fin N × Fin N => Real.sqrt (G q.2 ^ 2 + G q.1 ^ 2) / pr)
      (fun q => Np.arctan2 (G q.1) (G q.2)) K' = .ok W := wavefront_ok _ _ K' n hK'
  have hkept : ∀ q, ¬ P2 < s q → ∃ f, Dbl.mul rnd (Dbl.mul rnd (WD q) (Dbl.ofInt rnd 2)) (rnd Real.pi) = .fin f ∧
      Spec.IsDouble f ∧ |f - W q * 2 * Real.pi| ≤ (1 + Real.sqrt 2) ^ n / 2 ^ 38 * S + 2 ^ (-1060 : ℤ) := by
    intro q hq
    obtain ⟨w, hw1, hw2, hw3⟩ := pixel_near h hL hn hK' hm2 (hm3.trans hKs) hp0 (hgd q.2) (hgd q.1) (hge q.2) (hge q.1)
      (hr2 q) (hrd q) (hr0 q) (hr1 q (not_lt.1 hq)) (hre q)
    rw [hWD q] at hw1
    injection hw1 with hw1
    rw [hw1]
    refine twoPi_near h hX1 hS0 hKs (hw2.trans ?_) (hw3.trans ?_)
    · gcongr
    · gcongr
  have hzero : Dbl.mul rnd (Dbl.mul rnd (.fin 0) (Dbl.ofInt rnd 2)) (rnd Real.pi) = .fin 0 := by
    obtain ⟨a, ha, -, -⟩ := round_rel h (y := Real.pi) (by
      rw [abs_of_pos Real.pi_pos]
      refine le_trans (?_ : Real.pi ≤ 2 ^ 2) (two_pow_le (show 2 ≤ 900 by norm_num))
      have := Real.pi_lt_d2
      norm_num at this ⊢
      linarith)
    have r2 : Dbl.ofInt rnd 2 = .fin 2 := by
      have := round_self h (isDouble_int (z := 2) (by norm_num))
      unfold Dbl.ofInt
      rw [this]
      norm_num
    rw [r2, ha]
    simp only [Dbl.mul, Fl.mul, Dbl.rop, zero_mul, rnd_zero h]
  refine ⟨⟨Dbl.linspace rnd (.fin (-pr)) (.fin pr) N, Dbl.linspace rnd (.fin (-pr)) (.fin pr) N, fun q =>
      open Classical in Dbl.mul rnd (Dbl.mul rnd (if P2 < s q then .fin 0 else WD q) (Dbl.ofInt rnd 2)) (rnd Real.pi)⟩,
    ⟨G, G, fun q => open Classical in (if G q.2 ^ 2 + G q.1 ^ 2 > pr ^ 2 then 0 else W q) * 2 * Real.pi⟩, K', W,
    ?_, ?_, hm, hWok, fun i => ⟨g i, g i, hg i, hg i, hgd i, hgd i, hge i, hge i⟩, fun q => ?_⟩
  · unfold Dbl.phase
    rw [hm]
    simp only [bind, Except.bind, meshX, meshY, hg, hs, hrho, hP2]
    rw [seqArr_ok _ WD hWD]
    refine congrArg Except.ok ?_
    congr 1
    funext q
    have hlt : Fl.lt (Dbl.mul rnd (.fin pr) (.fin pr)) (Dbl.sumSq rnd (Dbl.linspace rnd (.fin (-pr)) (.fin pr) N q.2)
        (Dbl.linspace rnd (.fin (-pr)) (.fin pr) N q.1)) ↔ P2 < s q := by
      rw [hP2, hg, hg, hs]
      exact Iff.rfl
    refine congrArg (fun z => Dbl.mul rnd (Dbl.mul rnd z (Dbl.ofInt rnd 2)) (rnd Real.pi)) ?_
    by_cases hq : P2 < s q
    · exact (if_pos (hlt.2 hq)).trans (if_pos hq).symm
    · exact (if_neg (fun hc => hq (hlt.1 hc))).trans (if_neg hq).symm
  · unfold Aperture.phase
    rw [hm]
    simp only [bind, Except.bind, meshX, meshY, cart2pol]
    rw [← hG, hWok]
    rfl
  · by_cases hq : P2 < s q
    · refine ⟨0, ?_, isDouble_zero, fun hi => absurd hq (hin q hi), fun ho => ⟨rfl, ?_⟩, Or.inl rfl⟩
      · simp only [if_pos hq]
        exact hzero
      · have : G q.2 ^ 2 + G q.1 ^ 2 > pr ^ 2 := by
          refine lt_of_le_of_lt ?_ ho
          have : 0 < pr ^ 2 := by positivity
          norm_num
          linarith
        simp only [if_pos this, zero_mul]
    · obtain ⟨f, hf, hfd, hfe⟩ := hkept q hq
      refine ⟨f, ?_, hfd, fun hi => ?_, fun ho => absurd (hout q ho) hq, Or.inr hfe⟩
      · simp only [if_neg hq]
        exact hf
      · have : ¬ G q.2 ^ 2 + G q.1 ^ 2 > pr ^ 2 := by
          refine not_lt.2 (hi.trans ?_)
          have : 0 < pr ^ 2 := by positivity
          norm_num
          linarith
        simp only [if_neg this]
        exact hfe

/-- **C120.**  The first and the last node of the grid are exact. -/
theorem C120_ends {rnd : ℝ → Fl} (h : Spec.Rounding rnd) (L : Dbl.LibmA) (K : List ℝ) (pr : ℝ) (hp : Spec.IsDouble pr)
    (h1 : 1 / 2 ^ 100 ≤ pr) (h2 : pr ≤ 2 ^ 100) (piston tilt : Bool) (N : ℕ) (hN : 2 ≤ N) (hN' : N ≤ 2 ^ 30)
    (P : Dbl.PhaseMap N) (hP : Dbl.phase rnd L K pr piston tilt N = .ok P) :
    P.x ⟨0, by omega⟩ = .fin (-pr) ∧ P.y ⟨0, by omega⟩ = .fin (-pr) ∧
      P.x ⟨N - 1, by omega⟩ = .fin pr ∧ P.y ⟨N - 1, by omega⟩ = .fin pr := by
  have hx : P.x = Dbl.linspace rnd (.fin (-pr)) (.fin pr) N ∧ P.y = Dbl.linspace rnd (.fin (-pr)) (.fin pr) N := by
    unfold Dbl.phase at hP
    simp only [bind, Except.bind] at hP
    split at hP
    · cases hP
    · split at hP
      · cases hP
      · cases hP
        exact ⟨rfl, rfl⟩
  have e0 : Dbl.linspace rnd (.fin (-pr)) (.fin pr) N ⟨0, by omega⟩ = .fin (-pr) := by
    obtain ⟨t, ht, -, -, h0⟩ := linspaceD_near h hp h1 h2 hN hN' ⟨0, by omega⟩
    rw [ht, h0 rfl]
  have e1 : Dbl.linspace rnd (.fin (-pr)) (.fin pr) N ⟨N - 1, by omega⟩ = .fin pr := by
    unfold Dbl.linspace
    rw [if_pos ⟨by omega, by simp; omega⟩]
  rw [hx.1, hx.2]
  exact ⟨e0, e0, e1, e1⟩

/-! ## The assumptions can be met -/

/-- The correctly rounded mathematical library. -/
noncomputable def Spec.bestLibmA (rnd : ℝ → Fl) : Dbl.LibmA where
  toLibm := Spec.bestLibm rnd
  arctan2 := fun y x => match y, x with
    | .fin y, .fin x => rnd (Np.arctan2 y x)
    | _, _ => .nan

theorem bestLibmA_accurate {rnd : ℝ → Fl} (h : Spec.Rounding rnd) : Spec.AccurateA (Spec.bestLibmA rnd) where
  base := bestLibm_accurate h
  arctan2 := by
    intro x y _ _
    have hπ2 := Real.pi_lt_d2
    have ha : |Np.arctan2 y x| ≤ Real.pi := Complex.abs_arg_le_pi _
    obtain ⟨t, h2, h3, h4⟩ := round_rel h (y := Np.arctan2 y x) (by
      refine le_trans (?_ : _ ≤ (2 : ℝ) ^ 2) (two_pow_le (show 2 ≤ 900 by norm_num))
      norm_num at hπ2 ⊢
      linarith)
    have hτ1 := tiny_le (k := -1075) (by norm_num)
    have he : |t - Np.arctan2 y x| ≤ 1 / 2 ^ 50 := by
      refine h4.trans ?_
      generalize (2 : ℝ) ^ (-1075 : ℤ) = τ at *
      norm_num at hτ1 hπ2 ⊢
      linarith
    refine ⟨t, h2, h3, ?_, he⟩
    have e : t = (t - Np.arctan2 y x) + Np.arctan2 y x := by ring
    rw [e]
    refine (abs_add_le _ _).trans ?_
    norm_num at he hπ2
    linarith

/-- A defocus of a quarter on the dish of 100 m, 1001 by 1001 pixels: at the vertex of the dish the computed phase is
right to eleven digits; at the corners it is zero; the last node is 50. -/
example : ∃ rnd L, Spec.Rounding rnd ∧ Spec.AccurateA L ∧
    ∃ P Q, Dbl.phase rnd L [0, 0, 0, 0, 1 / 4, 0] 50 true true 1001 = .ok P ∧
      Aperture.phase [0, 0, 0, 0, 1 / 4, 0] 50 true true 1001 = .ok Q ∧
      (∃ f, P.phi (500, 500) = .fin f ∧ |f - Q.phi (500, 500)| ≤ 1 / 10 ^ 11) ∧ P.phi (0, 0) = .fin 0 ∧ P.x 1000 = .fin 50 := by
  obtain ⟨rnd, h⟩ := rounding_exists
  have hdq : Spec.IsDouble (1 / 4) := ⟨1, -2, by norm_num, by norm_num, by norm_num, by norm_num⟩
  have hd50 : Spec.IsDouble 50 := by simpa using isDouble_int (z := 50) (by norm_num)
  have hsum : (([0, 0, 0, 0, 1 / 4, 0] : List ℝ).map fun k => |k|).sum = 1 / 4 := by norm_num [abs_of_pos]
  obtain ⟨P, Q, K', W, hP, hQ, -, -, -, hq⟩ := C120_phase h (bestLibmA_accurate h) 2 (by norm_num) (by norm_num)
    [0, 0, 0, 0, 1 / 4, 0] (by simp) (by
      intro k hk
      simp only [List.mem_cons, List.not_mem_nil, or_false] at hk
      rcases hk with rfl | rfl | rfl | rfl | rfl | rfl
      all_goals first | exact isDouble_zero | exact hdq) (by rw [hsum]; norm_num) 50 hd50 (by norm_num) (by norm_num)
    true true 1001 (by norm_num) (by norm_num)
  have hQx : Q.x = Np.linspace (-50) 50 1001 ∧ Q.y = Np.linspace (-50) 50 1001 := by
    unfold Aperture.phase at hQ
    rw [show maskCoeff ([0, 0, 0, 0, 1 / 4, 0] : List ℝ) true true = .ok [0, 0, 0, 0, 1 / 4, 0] from rfl] at hQ
    simp only [bind, Except.bind] at hQ
    split at hQ
    · cases hQ
    · cases hQ
      exact ⟨rfl, rfl⟩
  refine ⟨rnd, _, h, bestLibmA_accurate h, P, Q, hP, hQ, ?_, ?_,
    (C120_ends h _ _ 50 hd50 (by norm_num) (by norm_num) true true 1001 (by norm_num) (by norm_num) P hP).2.2.1⟩
  · obtain ⟨f, hf, -, h3, -, -⟩ := hq (500, 500)
    refine ⟨f, hf, (h3 ?_).trans ?_⟩
    · rw [hQx.1, hQx.2]
      norm_num [Np.linspace]
    · rw [hsum]
      have h14 : Real.sqrt 2 ≤ 1.4143 := by
        rw [Real.sqrt_le_left (by norm_num)]
        norm_num
      have hsq := Real.sq_sqrt (show (0 : ℝ) ≤ 2 by norm_num)
      have hτ := tiny_le (k := -1060) (by norm_num)
      generalize (2 : ℝ) ^ (-1060 : ℤ) = τ at *
      norm_num at hτ ⊢
      nlinarith
  · obtain ⟨f, hf, -, -, h3, -⟩ := hq (0, 0)
    rw [hf, (h3 ?_).1]
    rw [hQx.1, hQx.2]
    norm_num [Np.linspace]

end Verif.Props
