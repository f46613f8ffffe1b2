import Mathlib.Analysis.InnerProductSpace.PiL2
import Mathlib.Analysis.InnerProductSpace.Calculus
import Mathlib.Analysis.Calculus.Deriv.Add
import Mathlib.Analysis.Calculus.Deriv.Mul
import Mathlib.Analysis.Calculus.Deriv.Slope
import Verif.Props.Geometry

/-!
# The path difference is the one of a telescope with its sub-reflector moved along the axis (C108)
-/

namespace Verif.Props

open Verif Verif.Np Verif.Telgeometry Filter Topology

/-! ## Specification: a telescope with two mirrors -/

/-- Space; the third coordinate is along the axis, the vertex of the primary is the origin. -/
abbrev Spec.Space := EuclideanSpace ℝ (Fin 3)

/-- A point of the axis. -/
noncomputable def Spec.onAxis (z : ℝ) : Spec.Space := !₂[0, 0, z]

/-- The point of the paraboloid under the point `(x, y)` of the aperture. -/
noncomputable def Spec.primary (Fp x y : ℝ) : Spec.Space := !₂[x, y, (x ^ 2 + y ^ 2) / (4 * Fp)]

/-- The way from the plane at height `H` over `(x, y)` down to the primary, up to the point `S` of the sub-reflector and
to the secondary focus at the height `f`. -/
noncomputable def Spec.way (Fp H f x y : ℝ) (S : Spec.Space) : ℝ :=
  (H - (x ^ 2 + y ^ 2) / (4 * Fp)) + dist S (Spec.primary Fp x y) + dist S (Spec.onAxis f)

/-- A Gregorian sub-reflector: the ellipsoid about the prime focus and the secondary focus. -/
def Spec.OnEllipsoid (Fp a c : ℝ) (S : Spec.Space) : Prop :=
  dist S (Spec.onAxis Fp) + dist S (Spec.onAxis (Fp - 2 * c)) = 2 * a

/-- A Cassegrain sub-reflector: the hyperboloid about them. -/
def Spec.OnHyperboloid (Fp a c : ℝ) (S : Spec.Space) : Prop :=
  dist S (Spec.onAxis (Fp - 2 * c)) - dist S (Spec.onAxis Fp) = 2 * a

/-! ## Geometry -/

theorem dist_deriv {E : Type} [NormedAddCommGroup E] [InnerProductSpace ℝ E] {X : ℝ → E} {V : E}
    (hX : HasDerivAt X V 0) (Q : E) (hne : X 0 ≠ Q) :
    HasDerivAt (fun t => dist (X t) Q) (inner ℝ (X 0 - Q) V / dist (X 0) Q) 0 := by
  have h0 : HasDerivAt (fun t => X t - Q) V 0 := hX.sub_const Q
  have h1 : HasDerivAt (fun t => ‖X t - Q‖ ^ 2) (2 * inner ℝ (X 0 - Q) V) 0 := h0.norm_sq
  have h2 : ‖X 0 - Q‖ ^ 2 ≠ 0 := by
    have : X 0 - Q ≠ 0 := sub_ne_zero.2 hne
    positivity
  have h3 := h1.sqrt h2
  simp only [Real.sqrt_sq (norm_nonneg _)] at h3
  simp only [dist_eq_norm]
  convert h3 using 1
  field_simp

theorem onAxis_smul (z : ℝ) : Spec.onAxis z = z • Spec.onAxis 1 := by
  ext i; fin_cases i <;> simp [Spec.onAxis]

theorem axis_norm : ‖Spec.onAxis 1‖ = 1 := by
  rw [EuclideanSpace.norm_eq]
  simp [Spec.onAxis, Fin.sum_univ_three]

theorem focus_axis (Fp x y : ℝ) :
    inner ℝ (Spec.onAxis Fp - Spec.primary Fp x y) (Spec.onAxis 1) = Fp - (x ^ 2 + y ^ 2) / (4 * Fp) := by
  simp [Spec.onAxis, Spec.primary, PiLp.inner_apply, Fin.sum_univ_three]

theorem focus_dist {Fp : ℝ} (hFp : 0 < Fp) (x y : ℝ) :
    ‖Spec.onAxis Fp - Spec.primary Fp x y‖ = Fp + (x ^ 2 + y ^ 2) / (4 * Fp) := by
  rw [EuclideanSpace.norm_eq]
  have : (∑ i, ‖(Spec.onAxis Fp - Spec.primary Fp x y) i‖ ^ 2) = (Fp + (x ^ 2 + y ^ 2) / (4 * Fp)) ^ 2 := by
    simp only [Spec.onAxis, Spec.primary, Fin.sum_univ_three, Real.norm_eq_abs, sq_abs]
    simp
    field_simp
    ring
  rw [this, Real.sqrt_sq (by positivity)]

/-- The first summand of the path difference: the cosine of the angle at the prime focus. -/
theorem cos_primary {Fp : ℝ} (hFp : 0 < Fp) (s : ℝ) (hs : 0 ≤ s) :
    (1 - s / (2 * Fp) ^ 2) / (1 + s / (2 * Fp) ^ 2) = (Fp - s / (4 * Fp)) / (Fp + s / (4 * Fp)) := by
  have h1 : (1 + s / (2 * Fp) ^ 2) ≠ 0 := by positivity
  have h2 : (Fp + s / (4 * Fp)) ≠ 0 := by positivity
  rw [div_eq_div_iff h1 h2]
  field_simp
  ring

/-- The second summand: the cosine of the angle at the secondary focus. -/
theorem cos_secondary {Fp a c : ℝ} (hFp : 0 < Fp) (ha : 0 < a) (hc : 0 < c) (hac : a ≠ c) (s : ℝ) (hs : 0 ≤ s) {F k : ℝ}
    (hF : F = Fp * (a + c) / |a - c|) (hk : k = (Fp - s / (4 * Fp)) / (Fp + s / (4 * Fp))) :
    (1 - s / (2 * F) ^ 2) / (1 + s / (2 * F) ^ 2) =
      ((a ^ 2 + c ^ 2) * k + 2 * a * c) / (a ^ 2 + c ^ 2 + 2 * a * c * k) := by
  have hne : a - c ≠ 0 := sub_ne_zero.2 hac
  have hd : (Fp + s / (4 * Fp)) ≠ 0 := by positivity
  have hF2 : s / (2 * F) ^ 2 = s * (a - c) ^ 2 / (4 * Fp ^ 2 * (a + c) ^ 2) := by
    rw [hF, mul_pow, div_pow, sq_abs]
    field_simp
    ring
  have hden : 4 * Fp ^ 2 * (a + c) ^ 2 + s * (a - c) ^ 2 ≠ 0 := by positivity
  have hden2 : (a ^ 2 + c ^ 2) * (4 * Fp ^ 2 + s) + 2 * a * c * (4 * Fp ^ 2 - s) ≠ 0 := by
    have : (a ^ 2 + c ^ 2) * (4 * Fp ^ 2 + s) + 2 * a * c * (4 * Fp ^ 2 - s) =
      4 * Fp ^ 2 * (a + c) ^ 2 + s * (a - c) ^ 2 := by ring
    rw [this]; exact hden
  have hk' : k = (4 * Fp ^ 2 - s) / (4 * Fp ^ 2 + s) := by
    rw [hk]
    have : (4 * Fp ^ 2 + s) ≠ 0 := by positivity
    rw [div_eq_div_iff hd this]
    field_simp
  have h4 : (4 * Fp ^ 2 + s) ≠ 0 := by positivity
  have e1 : (1 - s / (2 * F) ^ 2) / (1 + s / (2 * F) ^ 2) =
      (4 * Fp ^ 2 * (a + c) ^ 2 - s * (a - c) ^ 2) / (4 * Fp ^ 2 * (a + c) ^ 2 + s * (a - c) ^ 2) := by
    rw [hF2]
    have : 1 + s * (a - c) ^ 2 / (4 * Fp ^ 2 * (a + c) ^ 2) ≠ 0 := by positivity
    rw [div_eq_div_iff this hden]
    field_simp
  have e2 : ((a ^ 2 + c ^ 2) * k + 2 * a * c) / (a ^ 2 + c ^ 2 + 2 * a * c * k) =
      ((a ^ 2 + c ^ 2) * (4 * Fp ^ 2 - s) + 2 * a * c * (4 * Fp ^ 2 + s)) /
        ((a ^ 2 + c ^ 2) * (4 * Fp ^ 2 + s) + 2 * a * c * (4 * Fp ^ 2 - s)) := by
    have : a ^ 2 + c ^ 2 + 2 * a * c * k =
        ((a ^ 2 + c ^ 2) * (4 * Fp ^ 2 + s) + 2 * a * c * (4 * Fp ^ 2 - s)) / (4 * Fp ^ 2 + s) := by
      rw [hk']; field_simp
    rw [this, hk']
    field_simp
  rw [e1, e2, div_eq_div_iff hden hden2]
  ring

/-- What both sub-reflectors have in common: a point `S` on the ray whose direction from the secondary focus has the
right cosine, on a surface along which the length of the way is stationary. -/
theorem way_deriv {Fp : ℝ} (hFp : 0 < Fp) (H x y f : ℝ) {X : ℝ → Spec.Space} {V : Spec.Space} (hX : HasDerivAt X V 0)
    {m : ℝ} (hm : 0 < m) (hS : X 0 = Spec.primary Fp x y + m • (Spec.onAxis Fp - Spec.primary Fp x y))
    (hf : X 0 ≠ Spec.onAxis f)
    (hstat : inner ℝ (Spec.onAxis Fp - Spec.primary Fp x y) V / ‖Spec.onAxis Fp - Spec.primary Fp x y‖ +
      inner ℝ (X 0 - Spec.onAxis f) V / dist (X 0) (Spec.onAxis f) = 0) :
    HasDerivAt (fun t => Spec.way Fp H f x y (X t + t • Spec.onAxis 1))
      ((Fp - (x ^ 2 + y ^ 2) / (4 * Fp)) / (Fp + (x ^ 2 + y ^ 2) / (4 * Fp)) +
        inner ℝ (X 0 - Spec.onAxis f) (Spec.onAxis 1) / dist (X 0) (Spec.onAxis f)) 0 := by
  set D := Spec.onAxis Fp - Spec.primary Fp x y with hD
  have hd : ‖D‖ = Fp + (x ^ 2 + y ^ 2) / (4 * Fp) := focus_dist hFp x y
  have hdpos : 0 < ‖D‖ := by rw [hd]; positivity
  have hY : HasDerivAt (fun t => X t + t • Spec.onAxis 1) (V + Spec.onAxis 1) 0 := by
    have h1 : HasDerivAt (fun t : ℝ => t • Spec.onAxis 1) ((1 : ℝ) • Spec.onAxis 1) 0 :=
      HasDerivAt.smul_const (hasDerivAt_id (0 : ℝ)) _
    rw [one_smul] at h1
    exact HasDerivAt.add hX h1
  have hY0 : X 0 + (0 : ℝ) • Spec.onAxis 1 = X 0 := by simp
  have hP : X 0 - Spec.primary Fp x y = m • D := by rw [hS]; abel
  have hPd : dist (X 0) (Spec.primary Fp x y) = m * ‖D‖ := by
    rw [dist_eq_norm, hP, norm_smul, Real.norm_of_nonneg hm.le]
  have hPne : X 0 ≠ Spec.primary Fp x y := by
    intro h
    rw [h, dist_self] at hPd
    exact absurd hPd.symm (by positivity)
  have d1 := dist_deriv hY (Spec.primary Fp x y) (by simpa only [hY0] using hPne)
  have d2 := dist_deriv hY (Spec.onAxis f) (by simpa only [hY0] using hf)
  simp only [hY0] at d1 d2
  have d3 := HasDerivAt.const_add (H - (x ^ 2 + y ^ 2) / (4 * Fp)) (HasDerivAt.add d1 d2)
  have hfun : (fun t => Spec.way Fp H f x y (X t + t • Spec.onAxis 1)) = fun t =>
      (H - (x ^ 2 + y ^ 2) / (4 * Fp)) + (dist (X t + t • Spec.onAxis 1) (Spec.primary Fp x y) +
        dist (X t + t • Spec.onAxis 1) (Spec.onAxis f)) := by
    funext t; unfold Spec.way; ring
  rw [hfun]
  refine HasDerivAt.congr_deriv d3 ?_
  rw [hP, hPd, inner_smul_left, inner_add_right, inner_add_right, ← focus_axis, ← hd, ← hD]
  simp only [conj_trivial]
  have : m * (inner ℝ D V + inner ℝ D (Spec.onAxis 1)) / (m * ‖D‖) =
      inner ℝ D V / ‖D‖ + inner ℝ D (Spec.onAxis 1) / ‖D‖ := by
    field_simp
  rw [this, add_div]
  linarith

/-- **C108**. In focus all ways are equally long, Gregory. -/
theorem C108_focus_gregory (Fp a c H x y : ℝ) (hFp : 0 < Fp) (S : Spec.Space) (m : ℝ) (hm : 1 ≤ m)
    (hS : S = Spec.primary Fp x y + m • (Spec.onAxis Fp - Spec.primary Fp x y)) (hE : Spec.OnEllipsoid Fp a c S) :
    Spec.way Fp H (Fp - 2 * c) x y S = H + Fp + 2 * a := by
  have hd := focus_dist hFp x y
  set D := Spec.onAxis Fp - Spec.primary Fp x y with hD
  have e1 : dist S (Spec.primary Fp x y) = m * ‖D‖ := by
    rw [dist_eq_norm, hS, add_sub_cancel_left, norm_smul, Real.norm_of_nonneg (by linarith)]
  have e2 : dist S (Spec.onAxis Fp) = (m - 1) * ‖D‖ := by
    have : S - Spec.onAxis Fp = (m - 1) • D := by rw [hS, sub_smul, one_smul, hD]; abel
    rw [dist_eq_norm, this, norm_smul, Real.norm_of_nonneg (by linarith)]
  unfold Spec.OnEllipsoid at hE
  unfold Spec.way
  linarith

/-- **C108**. In focus all ways are equally long, Cassegrain. -/
theorem C108_focus_cassegrain (Fp a c H x y : ℝ) (hFp : 0 < Fp) (S : Spec.Space) (m : ℝ) (h0 : 0 ≤ m) (hm : m ≤ 1)
    (hS : S = Spec.primary Fp x y + m • (Spec.onAxis Fp - Spec.primary Fp x y)) (hE : Spec.OnHyperboloid Fp a c S) :
    Spec.way Fp H (Fp - 2 * c) x y S = H + Fp + 2 * a := by
  have hd := focus_dist hFp x y
  set D := Spec.onAxis Fp - Spec.primary Fp x y with hD
  have e1 : dist S (Spec.primary Fp x y) = m * ‖D‖ := by
    rw [dist_eq_norm, hS, add_sub_cancel_left, norm_smul, Real.norm_of_nonneg h0]
  have e2 : dist S (Spec.onAxis Fp) = (1 - m) * ‖D‖ := by
    have : S - Spec.onAxis Fp = -((1 - m) • D) := by rw [hS, sub_smul, one_smul, hD]; abel
    rw [dist_eq_norm, this, norm_neg, norm_smul, Real.norm_of_nonneg (by linarith)]
  unfold Spec.OnHyperboloid at hE
  unfold Spec.way
  linarith

/-- The path difference from the cosines at both foci. -/
theorem opd_cos {Fp a c : ℝ} (hFp : 0 < Fp) (ha : 0 < a) (hc : 0 < c) (hac : a ≠ c) (x y t : ℝ) {k : ℝ}
    (hk : k = (Fp - (x ^ 2 + y ^ 2) / (4 * Fp)) / (Fp + (x ^ 2 + y ^ 2) / (4 * Fp))) :
    opdAt Fp (Fp * (a + c) / |a - c|) x y t =
      t * (k + ((a ^ 2 + c ^ 2) * k + 2 * a * c) / (a ^ 2 + c ^ 2 + 2 * a * c * k)) := by
  rw [opdAt_value, Spec.opd, cos_primary hFp _ (by positivity), cos_secondary hFp ha hc hac _ (by positivity) rfl hk, hk]

theorem k_bounds {Fp : ℝ} (hFp : 0 < Fp) (s : ℝ) (hs : 0 ≤ s) {k : ℝ}
    (hk : k = (Fp - s / (4 * Fp)) / (Fp + s / (4 * Fp))) : -1 < k ∧ k ≤ 1 := by
  have : 0 < Fp + s / (4 * Fp) := by positivity
  have h2 : 0 ≤ s / (4 * Fp) := by positivity
  rw [hk]
  constructor
  · rw [lt_div_iff₀ this]; linarith
  · rw [div_le_one this]; linarith

theorem den_pos {a c k : ℝ} (ha : 0 < a) (hc : 0 < c) (h1 : -1 < k) : 0 < a ^ 2 + c ^ 2 + 2 * a * c * k := by
  have : 0 < a * c * (1 + k) := by
    have : 0 < 1 + k := by linarith
    positivity
  nlinarith [sq_nonneg (a - c)]

/-- Where a Gregorian ray meets the sub-reflector. -/
theorem gregory_point {Fp a c x y k : ℝ} (hFp : 0 < Fp) (hc : 0 < c) (hca : c < a)
    (hk : k = (Fp - (x ^ 2 + y ^ 2) / (4 * Fp)) / (Fp + (x ^ 2 + y ^ 2) / (4 * Fp))) {S : Spec.Space} {m : ℝ} (hm : 1 < m)
    (hS : S = Spec.primary Fp x y + m • (Spec.onAxis Fp - Spec.primary Fp x y)) (hE : Spec.OnEllipsoid Fp a c S) :
    S ≠ Spec.onAxis (Fp - 2 * c) ∧ S ≠ Spec.onAxis Fp ∧
    inner ℝ (S - Spec.onAxis (Fp - 2 * c)) (Spec.onAxis 1) / dist S (Spec.onAxis (Fp - 2 * c)) =
      ((a ^ 2 + c ^ 2) * k + 2 * a * c) / (a ^ 2 + c ^ 2 + 2 * a * c * k) := by
  have hd := focus_dist hFp x y
  have hDe := focus_axis Fp x y
  set D := Spec.onAxis Fp - Spec.primary Fp x y with hD
  have hdpos : 0 < ‖D‖ := by rw [hd]; positivity
  have hDk : inner ℝ D (Spec.onAxis 1) = ‖D‖ * k := by
    rw [hDe, hk, hd]; field_simp
  set ρ := (m - 1) * ‖D‖ with hρ
  have hρpos : 0 < ρ := mul_pos (by linarith) hdpos
  have e2 : dist S (Spec.onAxis Fp) = ρ := by
    have : S - Spec.onAxis Fp = (m - 1) • D := by rw [hS, sub_smul, one_smul, hD]; abel
    rw [dist_eq_norm, this, norm_smul, Real.norm_of_nonneg (by linarith)]
  have e3 : S - Spec.onAxis (Fp - 2 * c) = (m - 1) • D + (2 * c) • Spec.onAxis 1 := by
    rw [hS, sub_smul, one_smul, onAxis_smul (Fp - 2 * c), sub_smul, hD, onAxis_smul Fp]; abel
  have e4 : dist S (Spec.onAxis (Fp - 2 * c)) = 2 * a - ρ := by
    unfold Spec.OnEllipsoid at hE; linarith
  have e5 : dist S (Spec.onAxis (Fp - 2 * c)) ^ 2 = ρ ^ 2 + 4 * c * ρ * k + 4 * c ^ 2 := by
    rw [dist_eq_norm, e3, norm_add_sq_real, norm_smul, norm_smul, axis_norm, inner_smul_left, inner_smul_right, hDk,
      Real.norm_of_nonneg (by linarith : (0 : ℝ) ≤ m - 1), Real.norm_of_nonneg (by linarith : (0 : ℝ) ≤ 2 * c)]
    simp only [conj_trivial]
    rw [hρ]; ring
  obtain ⟨k1, k2⟩ := k_bounds hFp (x ^ 2 + y ^ 2) (by positivity) hk
  have e6 : ρ * (a + c * k) = a ^ 2 - c ^ 2 := by rw [e4] at e5; linarith
  have hpos : 0 < dist S (Spec.onAxis (Fp - 2 * c)) := by
    rw [e4]
    by_contra hle
    have h2 : 2 * a ≤ ρ := by linarith
    have h3 : 0 < a + c * k := by nlinarith [mul_pos hc (by linarith : 0 < 1 + k)]
    nlinarith [mul_le_mul_of_nonneg_right h2 h3.le, den_pos (by linarith : 0 < a) hc k1]
  have e7 : inner ℝ (S - Spec.onAxis (Fp - 2 * c)) (Spec.onAxis 1) = ρ * k + 2 * c := by
    rw [e3, inner_add_left, inner_smul_left, inner_smul_left, hDk, real_inner_self_eq_norm_sq, axis_norm]
    simp only [conj_trivial]
    rw [hρ]; ring
  refine ⟨dist_pos.1 hpos, dist_pos.1 (by rw [e2]; exact hρpos), ?_⟩
  have hden := den_pos (by linarith : 0 < a) hc k1
  rw [e7, div_eq_div_iff hpos.ne' hden.ne', e4]
  linear_combination 2 * (c + a * k) * e6

/-- Where a Cassegrain ray meets the sub-reflector. -/
theorem cassegrain_point {Fp a c x y k : ℝ} (hFp : 0 < Fp) (ha : 0 < a) (hac : a < c)
    (hk : k = (Fp - (x ^ 2 + y ^ 2) / (4 * Fp)) / (Fp + (x ^ 2 + y ^ 2) / (4 * Fp))) {S : Spec.Space} {m : ℝ} (hm : m < 1)
    (hS : S = Spec.primary Fp x y + m • (Spec.onAxis Fp - Spec.primary Fp x y)) (hE : Spec.OnHyperboloid Fp a c S) :
    S ≠ Spec.onAxis (Fp - 2 * c) ∧ S ≠ Spec.onAxis Fp ∧
    inner ℝ (S - Spec.onAxis (Fp - 2 * c)) (Spec.onAxis 1) / dist S (Spec.onAxis (Fp - 2 * c)) =
      ((a ^ 2 + c ^ 2) * k + 2 * a * c) / (a ^ 2 + c ^ 2 + 2 * a * c * k) := by
  have hd := focus_dist hFp x y
  have hDe := focus_axis Fp x y
  set D := Spec.onAxis Fp - Spec.primary Fp x y with hD
  have hdpos : 0 < ‖D‖ := by rw [hd]; positivity
  have hDk : inner ℝ D (Spec.onAxis 1) = ‖D‖ * k := by
    rw [hDe, hk, hd]; field_simp
  set ρ := (1 - m) * ‖D‖ with hρ
  have hρpos : 0 < ρ := mul_pos (by linarith) hdpos
  have e2 : dist S (Spec.onAxis Fp) = ρ := by
    have : S - Spec.onAxis Fp = -((1 - m) • D) := by rw [hS, sub_smul, one_smul, hD]; abel
    rw [dist_eq_norm, this, norm_neg, norm_smul, Real.norm_of_nonneg (by linarith)]
  have e3 : S - Spec.onAxis (Fp - 2 * c) = (m - 1) • D + (2 * c) • Spec.onAxis 1 := by
    rw [hS, sub_smul, one_smul, onAxis_smul (Fp - 2 * c), sub_smul, hD, onAxis_smul Fp]; abel
  have e4 : dist S (Spec.onAxis (Fp - 2 * c)) = 2 * a + ρ := by
    unfold Spec.OnHyperboloid at hE; linarith
  have e5 : dist S (Spec.onAxis (Fp - 2 * c)) ^ 2 = ρ ^ 2 - 4 * c * ρ * k + 4 * c ^ 2 := by
    rw [dist_eq_norm, e3, norm_add_sq_real, norm_smul, norm_smul, axis_norm, inner_smul_left, inner_smul_right, hDk,
      Real.norm_of_nonpos (by linarith : m - 1 ≤ 0), Real.norm_of_nonneg (by linarith : (0 : ℝ) ≤ 2 * c)]
    simp only [conj_trivial]
    rw [hρ]; ring
  obtain ⟨k1, k2⟩ := k_bounds hFp (x ^ 2 + y ^ 2) (by positivity) hk
  have e6 : ρ * (a + c * k) = c ^ 2 - a ^ 2 := by rw [e4] at e5; linarith
  have hpos : 0 < dist S (Spec.onAxis (Fp - 2 * c)) := by rw [e4]; linarith
  have e7 : inner ℝ (S - Spec.onAxis (Fp - 2 * c)) (Spec.onAxis 1) = 2 * c - ρ * k := by
    rw [e3, inner_add_left, inner_smul_left, inner_smul_left, hDk, real_inner_self_eq_norm_sq, axis_norm]
    simp only [conj_trivial]
    rw [hρ]; ring
  refine ⟨dist_pos.1 hpos, dist_pos.1 (by rw [e2]; exact hρpos), ?_⟩
  have hden := den_pos ha (by linarith : 0 < c) k1
  rw [e7, div_eq_div_iff hpos.ne' hden.ne', e4]
  linear_combination -2 * (c + a * k) * e6

theorem littleO {L : ℝ → ℝ} {d : ℝ} (h : HasDerivAt L d 0) :
    Tendsto (fun t => (L t - L 0 - t * d) / t) (𝓝[≠] 0) (𝓝 0) := by
  have h1 := (hasDerivAt_iff_tendsto_slope.1 h).sub_const d
  rw [sub_self] at h1
  refine h1.congr' ?_
  filter_upwards [self_mem_nhdsWithin] with t ht
  have ht : t ≠ 0 := ht
  rw [slope_def_field, sub_zero]
  field_simp

theorem opd_eq {Fp F x y : ℝ} {opd : ℝ → ℝ}
    (h : ∀ t, opdManual Fp F (fun _ : Unit => x) (fun _ => y) t = .ok fun _ => opd t) :
    ∀ t, opd t = opdAt Fp F x y t := by
  intro t
  have := h t
  simp only [opdManual, Except.ok.injEq] at this
  exact (congrFun this ()).symm

/-- **C108**. Gregory: when the sub-reflector, an ellipsoid about the two foci, is moved by `t` along the axis away from
the primary, the way of the ray over `(x, y)` grows by the path difference `opd(x, y, t)` of the package up to terms of
higher order in `t`, for the effective focal length `F = Fp (a + c) / (a - c)`.  `X t` is the point of the sub-reflector
that the ray meets, which may change with `t` in any differentiable way. -/
theorem C108_gregory (Fp a c H x y : ℝ) (hFp : 0 < Fp) (hc : 0 < c) (hca : c < a) (X : ℝ → Spec.Space) (V : Spec.Space)
    (hX : HasDerivAt X V 0) (hE : ∀ t, Spec.OnEllipsoid Fp a c (X t)) (m : ℝ) (hm : 1 < m)
    (hS : X 0 = Spec.primary Fp x y + m • (Spec.onAxis Fp - Spec.primary Fp x y))
    (opd : ℝ → ℝ)
    (hopd : ∀ t, opdManual Fp (Fp * (a + c) / (a - c)) (fun _ : Unit => x) (fun _ => y) t = .ok fun _ => opd t) :
    Tendsto (fun t => (Spec.way Fp H (Fp - 2 * c) x y (X t + Spec.onAxis t) - Spec.way Fp H (Fp - 2 * c) x y (X 0) -
      opd t) / t) (𝓝[≠] 0) (𝓝 0) := by
  simp only [opd_eq hopd]
  obtain ⟨n1, n2, hcos⟩ := gregory_point hFp hc hca rfl hm hS (hE 0)
  have hd := focus_dist hFp x y
  have e1 : X 0 - Spec.onAxis Fp = (m - 1) • (Spec.onAxis Fp - Spec.primary Fp x y) := by
    rw [hS, sub_smul, one_smul]; abel
  have e2 : dist (X 0) (Spec.onAxis Fp) = (m - 1) * ‖Spec.onAxis Fp - Spec.primary Fp x y‖ := by
    rw [dist_eq_norm, e1, norm_smul, Real.norm_of_nonneg (by linarith)]
  have hm1 : m - 1 ≠ 0 := by linarith
  have hstat : inner ℝ (Spec.onAxis Fp - Spec.primary Fp x y) V / ‖Spec.onAxis Fp - Spec.primary Fp x y‖ +
      inner ℝ (X 0 - Spec.onAxis (Fp - 2 * c)) V / dist (X 0) (Spec.onAxis (Fp - 2 * c)) = 0 := by
    have h1 := HasDerivAt.add (dist_deriv hX _ n2) (dist_deriv hX _ n1)
    have h2 : HasDerivAt (fun _ : ℝ => 2 * a) 0 0 := hasDerivAt_const _ _
    have h3 := HasDerivAt.unique h1 (HasDerivAt.congr_of_eventuallyEq h2 (Eventually.of_forall fun t => hE t))
    rw [e1, e2, inner_smul_left] at h3
    simp only [conj_trivial] at h3
    rw [mul_div_mul_left _ _ hm1] at h3
    exact h3
  have hw := way_deriv hFp H x y (Fp - 2 * c) hX (by linarith : 0 < m) hS n1 hstat
  rw [hcos] at hw
  refine (littleO hw).congr fun t => ?_
  have habs : |a - c| = a - c := abs_of_pos (by linarith)
  have := opd_cos hFp (by linarith : 0 < a) hc hca.ne' x y t rfl
  rw [habs] at this
  rw [this, ← onAxis_smul, ← onAxis_smul]
  have h0 : X 0 + Spec.onAxis 0 = X 0 := by rw [onAxis_smul, zero_smul, add_zero]
  rw [h0]

/-- **C108**. Cassegrain: the same with a hyperboloid, `F = Fp (c + a) / (c - a)`. -/
theorem C108_cassegrain (Fp a c H x y : ℝ) (hFp : 0 < Fp) (ha : 0 < a) (hac : a < c) (X : ℝ → Spec.Space) (V : Spec.Space)
    (hX : HasDerivAt X V 0) (hE : ∀ t, Spec.OnHyperboloid Fp a c (X t)) (m : ℝ) (h0 : 0 < m) (hm : m < 1)
    (hS : X 0 = Spec.primary Fp x y + m • (Spec.onAxis Fp - Spec.primary Fp x y))
    (opd : ℝ → ℝ)
    (hopd : ∀ t, opdManual Fp (Fp * (c + a) / (c - a)) (fun _ : Unit => x) (fun _ => y) t = .ok fun _ => opd t) :
    Tendsto (fun t => (Spec.way Fp H (Fp - 2 * c) x y (X t + Spec.onAxis t) - Spec.way Fp H (Fp - 2 * c) x y (X 0) -
      opd t) / t) (𝓝[≠] 0) (𝓝 0) := by
  simp only [opd_eq hopd]
  obtain ⟨n1, n2, hcos⟩ := cassegrain_point hFp ha hac rfl hm hS (hE 0)
  have e1 : X 0 - Spec.onAxis Fp = (m - 1) • (Spec.onAxis Fp - Spec.primary Fp x y) := by
    rw [hS, sub_smul, one_smul]; abel
  have e2 : dist (X 0) (Spec.onAxis Fp) = (1 - m) * ‖Spec.onAxis Fp - Spec.primary Fp x y‖ := by
    rw [dist_eq_norm, e1, norm_smul, Real.norm_of_nonpos (by linarith)]; ring
  have hm1 : 1 - m ≠ 0 := by linarith
  have hstat : inner ℝ (Spec.onAxis Fp - Spec.primary Fp x y) V / ‖Spec.onAxis Fp - Spec.primary Fp x y‖ +
      inner ℝ (X 0 - Spec.onAxis (Fp - 2 * c)) V / dist (X 0) (Spec.onAxis (Fp - 2 * c)) = 0 := by
    have h1 := HasDerivAt.sub (dist_deriv hX _ n1) (dist_deriv hX _ n2)
    have h2 : HasDerivAt (fun _ : ℝ => 2 * a) 0 0 := hasDerivAt_const _ _
    have h3 := HasDerivAt.unique h1 (HasDerivAt.congr_of_eventuallyEq h2 (Eventually.of_forall fun t => hE t))
    rw [e1, e2, inner_smul_left] at h3
    simp only [conj_trivial] at h3
    rw [show m - 1 = -(1 - m) by ring, neg_mul, neg_div, mul_div_mul_left _ _ hm1] at h3
    linarith
  have hw := way_deriv hFp H x y (Fp - 2 * c) hX h0 hS n1 hstat
  rw [hcos] at hw
  refine (littleO hw).congr fun t => ?_
  have habs : |a - c| = c - a := by rw [abs_of_neg (by linarith)]; ring
  have := opd_cos hFp ha (by linarith : 0 < c) hac.ne x y t rfl
  rw [habs, add_comm a c] at this
  rw [this, ← onAxis_smul, ← onAxis_smul]
  have h0 : X 0 + Spec.onAxis 0 = X 0 := by rw [onAxis_smul, zero_smul, add_zero]
  rw [h0]

/-! ## Not only for small offsets -/

theorem norm_add_bounds {E : Type} [NormedAddCommGroup E] [InnerProductSpace ℝ E] (v e : E) (he : ‖e‖ = 1) (t : ℝ)
    (ht : |t| < ‖v‖) : 0 ≤ ‖v + t • e‖ - ‖v‖ - t * (inner ℝ v e / ‖v‖) ∧
      ‖v + t • e‖ - ‖v‖ - t * (inner ℝ v e / ‖v‖) ≤ t ^ 2 / (2 * (‖v‖ - |t|)) := by
  have hv : 0 < ‖v‖ := lt_of_le_of_lt (abs_nonneg t) ht
  set κ := inner ℝ v e / ‖v‖ with hκ
  have hin : inner ℝ v e = ‖v‖ * κ := by rw [hκ]; field_simp
  have hκ1 : |κ| ≤ 1 := by
    rw [hκ, abs_div, abs_of_pos hv, div_le_one hv]
    have := abs_real_inner_le_norm v e
    rwa [he, mul_one] at this
  have hsq : ‖v + t • e‖ ^ 2 = ‖v‖ ^ 2 + 2 * t * (‖v‖ * κ) + t ^ 2 := by
    rw [norm_add_sq_real, inner_smul_right, hin, norm_smul, he, mul_one, Real.norm_eq_abs, sq_abs]
    ring
  have hA : ‖v‖ - |t| ≤ ‖v‖ + t * κ := by
    have h1 : |t * κ| ≤ |t| := by
      rw [abs_mul]
      exact mul_le_of_le_one_right (abs_nonneg _) hκ1
    linarith [neg_abs_le (t * κ)]
  have hB : 0 < ‖v‖ - |t| := by linarith
  have hk2 : κ ^ 2 ≤ 1 := by rw [← sq_abs]; exact pow_le_one₀ (abs_nonneg _) hκ1
  constructor
  · have : ‖v‖ + t * κ ≤ ‖v + t • e‖ := by
      refine abs_le_of_sq_le_sq' ?_ (norm_nonneg _) |>.2
      rw [hsq]
      nlinarith [mul_nonneg (sq_nonneg t) (by linarith : 0 ≤ 1 - κ ^ 2)]
    linarith
  · have hd : 0 ≤ t ^ 2 / (2 * (‖v‖ - |t|)) := by positivity
    have : ‖v + t • e‖ ≤ ‖v‖ + t * κ + t ^ 2 / (2 * (‖v‖ - |t|)) := by
      refine abs_le_of_sq_le_sq' ?_ (by linarith) |>.2
      rw [hsq]
      have h1 : t ^ 2 ≤ 2 * (‖v‖ + t * κ) * (t ^ 2 / (2 * (‖v‖ - |t|))) := by
        have : t ^ 2 = 2 * (‖v‖ - |t|) * (t ^ 2 / (2 * (‖v‖ - |t|))) := by field_simp
        calc t ^ 2 = 2 * (‖v‖ - |t|) * (t ^ 2 / (2 * (‖v‖ - |t|))) := this
          _ ≤ _ := by
            apply mul_le_mul_of_nonneg_right _ hd
            linarith
      nlinarith [sq_nonneg (t * κ), sq_nonneg (t ^ 2 / (2 * (‖v‖ - |t|)))]
    linarith

/-- The way over a point of the sub-reflector that moves with it. -/
theorem way_bounds {Fp : ℝ} (hFp : 0 < Fp) (H x y f t : ℝ) {S : Spec.Space} {m : ℝ} (hm : 0 < m)
    (hS : S = Spec.primary Fp x y + m • (Spec.onAxis Fp - Spec.primary Fp x y))
    (h1 : |t| < dist S (Spec.primary Fp x y)) (h2 : |t| < dist S (Spec.onAxis f)) {d : ℝ}
    (hd : d = (Fp - (x ^ 2 + y ^ 2) / (4 * Fp)) / (Fp + (x ^ 2 + y ^ 2) / (4 * Fp)) +
        inner ℝ (S - Spec.onAxis f) (Spec.onAxis 1) / dist S (Spec.onAxis f)) :
    0 ≤ Spec.way Fp H f x y (S + Spec.onAxis t) - Spec.way Fp H f x y S - t * d ∧
    Spec.way Fp H f x y (S + Spec.onAxis t) - Spec.way Fp H f x y S - t * d ≤
      t ^ 2 / (2 * (dist S (Spec.primary Fp x y) - |t|)) + t ^ 2 / (2 * (dist S (Spec.onAxis f) - |t|)) := by
  rw [dist_eq_norm] at h1 h2
  have b1 := norm_add_bounds _ _ axis_norm t h1
  have b2 := norm_add_bounds _ _ axis_norm t h2
  have hP : S - Spec.primary Fp x y = m • (Spec.onAxis Fp - Spec.primary Fp x y) := by rw [hS]; abel
  have hdist := focus_dist hFp x y
  have hpos : 0 < Fp + (x ^ 2 + y ^ 2) / (4 * Fp) := by positivity
  have hc : inner ℝ (S - Spec.primary Fp x y) (Spec.onAxis 1) / ‖S - Spec.primary Fp x y‖ =
      (Fp - (x ^ 2 + y ^ 2) / (4 * Fp)) / (Fp + (x ^ 2 + y ^ 2) / (4 * Fp)) := by
    rw [hP, inner_smul_left, norm_smul, Real.norm_of_nonneg hm.le, hdist, focus_axis]
    simp only [conj_trivial]
    rw [mul_div_mul_left _ _ hm.ne']
  rw [hc] at b1
  have r1 : S + Spec.onAxis t - Spec.primary Fp x y = S - Spec.primary Fp x y + t • Spec.onAxis 1 := by
    rw [onAxis_smul t]; abel
  have r2 : S + Spec.onAxis t - Spec.onAxis f = S - Spec.onAxis f + t • Spec.onAxis 1 := by
    rw [onAxis_smul t]; abel
  unfold Spec.way
  simp only [dist_eq_norm] at hd ⊢
  rw [r1, r2, hd]
  constructor <;> linarith [b1.1, b1.2, b2.1, b2.2]

/-- **C108**. For an offset of any size less than the distances of the mirrors: the way over the point of the
sub-reflector that the ray meets in focus is at least as long as the path difference says, and longer by no more than
`t² / 2` over each of the two distances (less the offset). Gregory. -/
theorem C108_error_gregory (Fp a c H x y t : ℝ) (hFp : 0 < Fp) (hc : 0 < c) (hca : c < a) (S : Spec.Space)
    (hE : Spec.OnEllipsoid Fp a c S) (m : ℝ) (hm : 1 < m)
    (hS : S = Spec.primary Fp x y + m • (Spec.onAxis Fp - Spec.primary Fp x y))
    (h1 : |t| < dist S (Spec.primary Fp x y)) (h2 : |t| < dist S (Spec.onAxis (Fp - 2 * c)))
    (opd : ℝ → ℝ)
    (hopd : ∀ t, opdManual Fp (Fp * (a + c) / (a - c)) (fun _ : Unit => x) (fun _ => y) t = .ok fun _ => opd t) :
    0 ≤ Spec.way Fp H (Fp - 2 * c) x y (S + Spec.onAxis t) - (H + Fp + 2 * a) -
        opd t ∧
    Spec.way Fp H (Fp - 2 * c) x y (S + Spec.onAxis t) - (H + Fp + 2 * a) -
        opd t ≤
      t ^ 2 / (2 * (dist S (Spec.primary Fp x y) - |t|)) +
        t ^ 2 / (2 * (dist S (Spec.onAxis (Fp - 2 * c)) - |t|)) := by
  simp only [opd_eq hopd]
  obtain ⟨-, -, hcos⟩ := gregory_point hFp hc hca rfl hm hS hE
  have b := way_bounds hFp H x y (Fp - 2 * c) t (by linarith : 0 < m) hS h1 h2 rfl
  have habs : |a - c| = a - c := abs_of_pos (by linarith)
  have := opd_cos hFp (by linarith : 0 < a) hc hca.ne' x y t rfl
  rw [habs, ← hcos] at this
  rw [this, ← C108_focus_gregory Fp a c H x y hFp S m hm.le hS hE]
  exact b

/-- **C108**. The same, Cassegrain. -/
theorem C108_error_cassegrain (Fp a c H x y t : ℝ) (hFp : 0 < Fp) (ha : 0 < a) (hac : a < c) (S : Spec.Space)
    (hE : Spec.OnHyperboloid Fp a c S) (m : ℝ) (h0 : 0 < m) (hm : m < 1)
    (hS : S = Spec.primary Fp x y + m • (Spec.onAxis Fp - Spec.primary Fp x y))
    (h1 : |t| < dist S (Spec.primary Fp x y)) (h2 : |t| < dist S (Spec.onAxis (Fp - 2 * c)))
    (opd : ℝ → ℝ)
    (hopd : ∀ t, opdManual Fp (Fp * (c + a) / (c - a)) (fun _ : Unit => x) (fun _ => y) t = .ok fun _ => opd t) :
    0 ≤ Spec.way Fp H (Fp - 2 * c) x y (S + Spec.onAxis t) - (H + Fp + 2 * a) -
        opd t ∧
    Spec.way Fp H (Fp - 2 * c) x y (S + Spec.onAxis t) - (H + Fp + 2 * a) -
        opd t ≤
      t ^ 2 / (2 * (dist S (Spec.primary Fp x y) - |t|)) +
        t ^ 2 / (2 * (dist S (Spec.onAxis (Fp - 2 * c)) - |t|)) := by
  simp only [opd_eq hopd]
  obtain ⟨-, -, hcos⟩ := cassegrain_point hFp ha hac rfl hm hS hE
  have b := way_bounds hFp H x y (Fp - 2 * c) t h0 hS h1 h2 rfl
  have habs : |a - c| = c - a := by rw [abs_of_neg (by linarith)]; ring
  have := opd_cos hFp ha (by linarith : 0 < c) hac.ne x y t rfl
  rw [habs, add_comm a c, ← hcos] at this
  rw [this, ← C108_focus_cassegrain Fp a c H x y hFp S m h0.le hm.le hS hE]
  exact b

/-! ## Such telescopes exist -/

/-- Every Gregorian ray meets the sub-reflector behind the prime focus. -/
theorem C108_meets (Fp a c x y : ℝ) (hFp : 0 < Fp) (hc : 0 < c) (hca : c < a) :
    ∃ (S : Spec.Space) (m : ℝ), 1 < m ∧ S = Spec.primary Fp x y + m • (Spec.onAxis Fp - Spec.primary Fp x y) ∧
      Spec.OnEllipsoid Fp a c S := by
  obtain ⟨k, hk⟩ : ∃ k, k = (Fp - (x ^ 2 + y ^ 2) / (4 * Fp)) / (Fp + (x ^ 2 + y ^ 2) / (4 * Fp)) := ⟨_, rfl⟩
  obtain ⟨k1, k2⟩ := k_bounds hFp (x ^ 2 + y ^ 2) (by positivity) hk
  have hd := focus_dist hFp x y
  have hDe := focus_axis Fp x y
  obtain ⟨D, hD⟩ : ∃ D, D = Spec.onAxis Fp - Spec.primary Fp x y := ⟨_, rfl⟩
  rw [← hD] at hd hDe
  have hdpos : 0 < ‖D‖ := by rw [hd]; positivity
  have hDk : inner ℝ D (Spec.onAxis 1) = ‖D‖ * k := by
    rw [hDe, hk, hd]; field_simp
  have hq : 0 < a + c * k := by nlinarith [mul_pos hc (by linarith : 0 < 1 + k)]
  have hden := den_pos (by linarith : 0 < a) hc k1
  obtain ⟨ρ, hρ⟩ : ∃ ρ, ρ = (a ^ 2 - c ^ 2) / (a + c * k) := ⟨_, rfl⟩
  have hρpos : 0 < ρ := by rw [hρ]; apply div_pos _ hq; nlinarith
  have hρe : ρ * (a + c * k) = a ^ 2 - c ^ 2 := by rw [hρ]; field_simp
  have hρle : ρ ≤ 2 * a := by
    rw [hρ, div_le_iff₀ hq]; nlinarith
  obtain ⟨m, hm⟩ : ∃ m, m = 1 + ρ / ‖D‖ := ⟨_, rfl⟩
  have hm1 : m - 1 = ρ / ‖D‖ := by rw [hm]; ring
  have hm0 : 0 < m - 1 := by rw [hm1]; positivity
  have hmD : (m - 1) * ‖D‖ = ρ := by rw [hm1]; field_simp
  refine ⟨_, m, by linarith, rfl, ?_⟩
  rw [← hD]
  have e1 : Spec.primary Fp x y + m • D - Spec.onAxis Fp = (m - 1) • D := by
    rw [sub_smul, one_smul]; nth_rewrite 3 [hD]; abel
  have e3 : Spec.primary Fp x y + m • D - Spec.onAxis (Fp - 2 * c) = (m - 1) • D + (2 * c) • Spec.onAxis 1 := by
    rw [← e1, onAxis_smul (Fp - 2 * c), onAxis_smul Fp, sub_smul]; abel
  have d1 : dist (Spec.primary Fp x y + m • D) (Spec.onAxis Fp) = ρ := by
    rw [dist_eq_norm, e1, norm_smul, Real.norm_of_nonneg hm0.le, hmD]
  have d2 : dist (Spec.primary Fp x y + m • D) (Spec.onAxis (Fp - 2 * c)) = 2 * a - ρ := by
    have hsq : dist (Spec.primary Fp x y + m • D) (Spec.onAxis (Fp - 2 * c)) ^ 2 = (2 * a - ρ) ^ 2 := by
      rw [dist_eq_norm, e3, norm_add_sq_real, norm_smul, norm_smul, axis_norm, inner_smul_left, inner_smul_right, hDk,
        Real.norm_of_nonneg hm0.le, Real.norm_of_nonneg (by linarith : (0 : ℝ) ≤ 2 * c), hmD]
      simp only [conj_trivial]
      have : (m - 1) * (2 * c * (‖D‖ * k)) = 2 * c * ρ * k := by rw [← hmD]; ring
      rw [this]
      nlinarith
    exact (pow_left_inj₀ dist_nonneg (by linarith) two_ne_zero).1 hsq
  unfold Spec.OnEllipsoid
  rw [d1, d2]; ring

/-- The effective focal length of the Effelsberg telescope is the one of such a telescope with the prime focus at 30 m;
the path difference of the package is that of this telescope, at any point of the aperture. -/
theorem C108_effelsberg (H x y : ℝ) : ∃ a c S, 0 < c ∧ c < a ∧ Spec.OnEllipsoid 30 a c S ∧
    ∃ opd : ℝ → ℝ, (∀ t, opdEffelsberg (fun _ : Unit => x) (fun _ => y) t = .ok fun _ => opd t) ∧
    Tendsto (fun t => (Spec.way 30 H (30 - 2 * c) x y (S + Spec.onAxis t) - Spec.way 30 H (30 - 2 * c) x y S -
      opd t) / t) (𝓝[≠] 0) (𝓝 0) := by
  obtain ⟨S, m, hm, hS, hE⟩ := C108_meets 30 417.39435 357.39435 x y (by norm_num) (by norm_num) (by norm_num)
  refine ⟨_, _, S, by norm_num, by norm_num, hE, fun t => opdAt 30 387.39435 x y t, fun _ => rfl, ?_⟩
  have := C108_gregory 30 417.39435 357.39435 H x y (by norm_num) (by norm_num) (by norm_num) (fun _ => S) 0
    (hasDerivAt_const _ _) (fun _ => hE) m hm hS _ fun _ => rfl
  have hF : (30 : ℝ) * (417.39435 + 357.39435) / (417.39435 - 357.39435) = 387.39435 := by norm_num
  rw [hF] at this
  exact this

/-- A Cassegrain telescope and a ray at a right angle to its axis after the first reflection. -/
example : ∃ S : Spec.Space, Spec.OnHyperboloid 1 1 (3 / 2) S ∧
    S = Spec.primary 1 2 0 + (3 / 8 : ℝ) • (Spec.onAxis 1 - Spec.primary 1 2 0) := by
  refine ⟨!₂[5 / 4, 0, 1], ?_, ?_⟩
  · unfold Spec.OnHyperboloid
    rw [EuclideanSpace.dist_eq, EuclideanSpace.dist_eq]
    have h1 : (∑ i, dist ((!₂[5 / 4, 0, 1] : Spec.Space) i) (Spec.onAxis (1 - 2 * (3 / 2)) i) ^ 2) = (13 / 4) ^ 2 := by
      simp [Spec.onAxis, Fin.sum_univ_three, Real.dist_eq, sq_abs]; norm_num
    have h2 : (∑ i, dist ((!₂[5 / 4, 0, 1] : Spec.Space) i) (Spec.onAxis 1 i) ^ 2) = (5 / 4) ^ 2 := by
      simp [Spec.onAxis, Fin.sum_univ_three, Real.dist_eq, sq_abs]
    rw [h1, h2, Real.sqrt_sq (by norm_num), Real.sqrt_sq (by norm_num)]
    norm_num
  · ext i
    fin_cases i <;> simp [Spec.onAxis, Spec.primary] <;> norm_num

end Verif.Props
