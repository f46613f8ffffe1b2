import Mathlib.Analysis.Calculus.ContDiff.Operations
import Verif.Props.Complete

/-!
# The wavefront depends on the point, not on the angle that names it (C122)
-/

namespace Verif.Props

open Verif Verif.Np Verif.Zernike Verif.Aperture Verif.Fourier Verif.Telgeometry Finset

/-- Two pairs of polar coordinates of the same point of the plane. -/
def Spec.SamePoint (rho theta rho' theta' : ℝ) : Prop :=
  rho * Real.cos theta = rho' * Real.cos theta' ∧ rho * Real.sin theta = rho' * Real.sin theta'

/-- `arctan2` of IEEE 754 arithmetic, where a zero has a sign; `ny` and `nx` say that the sign bit of `y` and
of `x` is set, which matters only where they are zero. -/
noncomputable def Spec.ieeeArctan2 (ny nx : Bool) (y x : ℝ) : ℝ :=
  open Classical in
  if y = 0 then
    if x < 0 ∨ (x = 0 ∧ nx = true) then (if ny then -Real.pi else Real.pi)
    else 0
  else Complex.arg ⟨x, y⟩

/-- **C122.**  The wavefront, or its exception, is the same for all polar coordinates of the same points. -/
theorem C122_point {ι : Type} (rho theta rho' theta' : ι → ℝ) (K : List ℝ)
    (h : ∀ q, Spec.SamePoint (rho q) (theta q) (rho' q) (theta' q)) :
    wavefront rho theta K = wavefront rho' theta' K := by
  by_cases hne : K = []
  · subst hne
    rw [wavefront_empty, wavefront_empty]
  obtain ⟨n, h1, h2⟩ := exists_tri K.length (List.length_pos_of_ne_nil hne)
  rcases h1.lt_or_eq with h1 | h1
  · rw [wavefront_index rho theta K n h1 h2, wavefront_index rho' theta' K n h1 h2]
  · obtain ⟨c, hc⟩ := C112_converse n K h1.symm
    rw [hc, hc]
    congr 1
    funext q
    rw [(h q).1, (h q).2]

theorem ieee_point (ny nx : Bool) (y x : ℝ) :
    Spec.SamePoint (Real.sqrt (x ^ 2 + y ^ 2)) (Spec.ieeeArctan2 ny nx y x) (cart2pol x y).1 (cart2pol x y).2 := by
  have hc := (C29_polar x y).2.2.2.1
  have hs := (C29_polar x y).2.2.2.2
  unfold Spec.SamePoint
  rw [hc, hs]
  unfold Spec.ieeeArctan2
  by_cases hy : y = 0
  · subst hy
    rw [if_pos rfl]
    have hr : Real.sqrt (x ^ 2 + 0 ^ 2) = |x| := by
      rw [zero_pow two_ne_zero, add_zero, Real.sqrt_sq_eq_abs]
    rw [hr]
    by_cases hx : x < 0 ∨ (x = 0 ∧ nx = true)
    · rw [if_pos hx]
      have hx0 : x ≤ 0 := hx.elim le_of_lt fun h => h.1.le
      cases ny <;> simp [abs_of_nonpos hx0]
    · rw [if_neg hx]
      have hx0 : 0 ≤ x := not_lt.1 fun h => hx (Or.inl h)
      simp [abs_of_nonneg hx0]
  · rw [if_neg hy]
    exact ⟨hc, hs⟩

/-- **C122.**  In particular for the angles that `arctan2` gives for zeros of either sign: on the negative half axis,
where the angle is `π` or `-π`, and at the origin, where it is any of `0`, `π` and `-π`. -/
theorem C122_zeros {ι : Type} (x y : ι → ℝ) (ny nx : ι → Bool) (pr : ℝ) (K : List ℝ) :
    wavefront (fun q => Real.sqrt (x q ^ 2 + y q ^ 2) / pr)
        (fun q => Spec.ieeeArctan2 (ny q) (nx q) (y q) (x q)) K =
      wavefront (fun q => (cart2pol (x q) (y q)).1 / pr) (fun q => (cart2pol (x q) (y q)).2) K := by
  refine C122_point _ _ _ _ K fun q => ?_
  obtain ⟨h1, h2⟩ := ieee_point (ny q) (nx q) (y q) (x q)
  constructor
  · rw [div_mul_eq_mul_div, div_mul_eq_mul_div, h1]
  · rw [div_mul_eq_mul_div, div_mul_eq_mul_div, h2]

/-- **C122.**  The phase of the aperture may be computed with any angles of its points. -/
theorem C122_aperture {ι : Type} (x y : ι → ℝ) (I K : List ℝ) (dz wavel : ℝ) (illum : Illum ι)
    (tel : TelGeo ι) (E : ι → ℂ) (h : aperture x y I K dz wavel illum tel = .ok E)
    (theta : ι → ℝ) (hx : ∀ q, Real.sqrt (x q ^ 2 + y q ^ 2) * Real.cos (theta q) = x q)
    (hy : ∀ q, Real.sqrt (x q ^ 2 + y q ^ 2) * Real.sin (theta q) = y q) :
    ∃ B W delta Ea, tel.block x y = .ok B ∧ illum x y I tel.pr = .ok Ea ∧ tel.opd x y dz = .ok delta ∧
      wavefront (fun q => Real.sqrt (x q ^ 2 + y q ^ 2) / tel.pr) theta K = .ok W ∧
      ∀ q, E q = ((B q * Ea q : ℝ) : ℂ) *
        Complex.exp (((2 * Real.pi * (W q + delta q / wavel) : ℝ) : ℂ) * Complex.I) := by
  obtain ⟨B, W, d, Ea, h1, h2, h3, h4, rfl⟩ := aperture_ok_iff.1 h
  refine ⟨B, W, d, Ea, h1, h4, h3, ?_, fun q => ?_⟩
  · rw [← h2]
    refine C122_point _ _ _ _ K fun q => ?_
    constructor
    · rw [div_mul_eq_mul_div, hx, plane_cos]
    · rw [div_mul_eq_mul_div, hy, plane_sin]
  · congr 4
    ring

/-- **C122.**  The wavefront has no seam where the angle jumps: it is a smooth function of the place. -/
theorem C122_smooth (n : ℕ) (K : List ℝ) (hK : K.length = (n + 1) * (n + 2) / 2) (pr : ℝ) :
    ∃ W : ℝ × ℝ → ℝ, wavefront (fun p : ℝ × ℝ => (cart2pol p.1 p.2).1 / pr)
        (fun p => (cart2pol p.1 p.2).2) K = .ok W ∧ ∀ m : ℕ, ContDiff ℝ m W := by
  obtain ⟨c, hc⟩ := C112_converse n K hK
  refine ⟨_, hc _ _ _, fun m => ?_⟩
  simp only [plane_cos, plane_sin, Spec.surface]
  refine ContDiff.sum fun a _ => ContDiff.sum fun b _ => ?_
  exact (contDiff_const.mul ((contDiff_fst.div_const pr).pow a)).mul ((contDiff_snd.div_const pr).pow b)

/-- The point `(-1, 0)` by two angles. -/
example : wavefront (fun _ : Unit => (1 : ℝ)) (fun _ => Real.pi) [0.1, 0.2, 0.3, 0.4, 0.5, 0.6] =
    wavefront (fun _ : Unit => (1 : ℝ)) (fun _ => -Real.pi) [0.1, 0.2, 0.3, 0.4, 0.5, 0.6] :=
  C122_point _ _ _ _ _ fun _ => by simp [Spec.SamePoint]

/-- The angles differ, so that this says something. -/
example : Spec.ieeeArctan2 true false 0 (-1) ≠ Spec.ieeeArctan2 false false 0 (-1) := by
  have := Real.pi_pos
  simp only [Spec.ieeeArctan2]
  norm_num
  linarith

end Verif.Props
