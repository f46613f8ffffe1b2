import Verif.Props.Noise
import Mathlib.Analysis.SpecialFunctions.Trigonometric.Bounds
import Mathlib.Analysis.Calculus.Deriv.MeanValue

/-! # C117: the model beam between the nodes of its grid -/

namespace Verif.Props

open Verif Verif.Aperture Verif.Telgeometry Verif.Core Filter Topology

/-! ## Specification -/

/-- The power, in the direction `(u, v)`, of the apertures' fields `E` at the points of the grid. -/
noncomputable def Spec.exactPower {N : ℕ} (E : Fin N × Fin N → ℂ) (pr bf wavel u v : ℝ) : ℝ :=
  ‖∑ i, ∑ j, E (i, j) * Complex.exp (Complex.I *
    (-(2 * Real.pi * (Spec.gridPoint pr bf N j * u + Spec.gridPoint pr bf N i * v) / wavel) : ℝ))‖ ^ 2

/-- The mean of the squared distance from the axis, weighted with the amplitude, times the sum of the amplitudes. -/
noncomputable def Spec.spreadOf {N : ℕ} (E : Fin N × Fin N → ℂ) (pr bf : ℝ) : ℝ :=
  ∑ q : Fin N × Fin N, ‖E q‖ * (Spec.gridPoint pr bf N q.2 ^ 2 + Spec.gridPoint pr bf N q.1 ^ 2)

/-! ## One oscillation -/

theorem exp_second (s : ℝ) : ‖Complex.exp (Complex.I * s) - 1 - Complex.I * s‖ ≤ s ^ 2 / 2 := by
  have hg : ∀ s : ℝ, 0 ≤ s → 0 ≤ s ^ 4 / 4 - s ^ 2 - 2 + 2 * Real.cos s + 2 * s * Real.sin s := by
    intro s hs
    have hd : ∀ x : ℝ, HasDerivAt (fun s : ℝ => s ^ 4 / 4 - s ^ 2 - 2 + 2 * Real.cos s + 2 * s * Real.sin s)
        (x * (x ^ 2 - 2 * (1 - Real.cos x))) x := by
      intro x
      have h := ((((hasDerivAt_pow 4 x).div_const 4).sub (hasDerivAt_pow 2 x)).sub_const 2).add
        ((Real.hasDerivAt_cos x).const_mul 2) |>.add
          (((hasDerivAt_id x).const_mul 2).mul (Real.hasDerivAt_sin x))
      refine h.congr_deriv ?_
      simp only [id, Nat.cast_ofNat]
      ring
    have hm : MonotoneOn (fun s : ℝ => s ^ 4 / 4 - s ^ 2 - 2 + 2 * Real.cos s + 2 * s * Real.sin s) (Set.Ici 0) := by
      refine monotoneOn_of_deriv_nonneg (convex_Ici 0) (fun x _ => (hd x).continuousAt.continuousWithinAt)
        (fun x _ => (hd x).differentiableAt.differentiableWithinAt) fun x hx => ?_
      rw [(hd x).deriv]
      rw [interior_Ici] at hx
      have := Real.one_sub_sq_div_two_le_cos (x := x)
      exact mul_nonneg (le_of_lt hx) (by linarith)
    have := hm (Set.mem_Ici.2 le_rfl) (Set.mem_Ici.2 hs) hs
    simpa using this
  have hsq : ‖Complex.exp (Complex.I * s) - 1 - Complex.I * s‖ ^ 2 ≤ (s ^ 2 / 2) ^ 2 := by
    have he : Complex.exp (Complex.I * s) - 1 - Complex.I * s =
        ⟨Real.cos s - 1, Real.sin s - s⟩ := by
      rw [mul_comm, Complex.exp_mul_I]
      apply Complex.ext
      · simp [Complex.cos_ofReal_re]
      · simp [Complex.sin_ofReal_re]
    rw [he, ← Complex.normSq_eq_norm_sq, Complex.normSq_mk]
    have h1 := Real.sin_sq_add_cos_sq s
    have h2 : 0 ≤ s ^ 4 / 4 - s ^ 2 - 2 + 2 * Real.cos s + 2 * s * Real.sin s := by
      rcases le_total 0 s with hs | hs
      · exact hg s hs
      · have := hg (-s) (by linarith)
        rw [Real.cos_neg, Real.sin_neg] at this
        linarith [this, (by ring : (-s) ^ 4 = s ^ 4), (by ring : (-s) ^ 2 = s ^ 2)]
    nlinarith
  exact le_of_sq_le_sq hsq (by positivity)

/-- Linear interpolation of an oscillation. -/
theorem osc_linear (δ t : ℝ) (h0 : 0 ≤ t) (h1 : t ≤ 1) :
    ‖((1 - t : ℝ) + (t : ℝ) * Complex.exp (Complex.I * δ) - Complex.exp (Complex.I * (t * δ : ℝ)) : ℂ)‖ ≤
      δ ^ 2 / 8 := by
  have e : ((1 - t : ℝ) + (t : ℝ) * Complex.exp (Complex.I * δ) - Complex.exp (Complex.I * (t * δ : ℝ)) : ℂ) =
      Complex.exp (Complex.I * (t * δ : ℝ)) *
        ((1 - t : ℝ) * (Complex.exp (Complex.I * (-(t * δ) : ℝ)) - 1 - Complex.I * (-(t * δ) : ℝ)) +
          (t : ℝ) * (Complex.exp (Complex.I * ((1 - t) * δ : ℝ)) - 1 - Complex.I * ((1 - t) * δ : ℝ))) := by
    have e1 : Complex.exp (Complex.I * (t * δ : ℝ)) * Complex.exp (Complex.I * (-(t * δ) : ℝ)) = 1 := by
      rw [← Complex.exp_add, ← Complex.exp_zero]
      congr 1
      push_cast
      ring
    have e2 : Complex.exp (Complex.I * (t * δ : ℝ)) * Complex.exp (Complex.I * ((1 - t) * δ : ℝ)) =
        Complex.exp (Complex.I * δ) := by
      rw [← Complex.exp_add]
      congr 1
      push_cast
      ring
    have : Complex.exp (Complex.I * (t * δ : ℝ)) *
        ((1 - t : ℝ) * (Complex.exp (Complex.I * (-(t * δ) : ℝ)) - 1 - Complex.I * (-(t * δ) : ℝ)) +
          (t : ℝ) * (Complex.exp (Complex.I * ((1 - t) * δ : ℝ)) - 1 - Complex.I * ((1 - t) * δ : ℝ))) =
        (1 - t : ℝ) * (Complex.exp (Complex.I * (t * δ : ℝ)) * Complex.exp (Complex.I * (-(t * δ) : ℝ))) +
        (t : ℝ) * (Complex.exp (Complex.I * (t * δ : ℝ)) * Complex.exp (Complex.I * ((1 - t) * δ : ℝ))) -
        Complex.exp (Complex.I * (t * δ : ℝ)) * (((1 - t : ℝ) + (t : ℝ)) + Complex.I * ((1 - t : ℝ) * (-(t * δ) : ℝ) +
          (t : ℝ) * ((1 - t) * δ : ℝ))) := by ring
    rw [this, e1, e2]
    push_cast
    ring
  rw [e, norm_mul, Complex.norm_exp_I_mul_ofReal, one_mul]
  refine (norm_add_le _ _).trans ?_
  rw [norm_mul, norm_mul, Complex.norm_real, Complex.norm_real, Real.norm_of_nonneg h0,
    Real.norm_of_nonneg (by linarith : 0 ≤ 1 - t)]
  have a1 := mul_le_mul_of_nonneg_left (exp_second (-(t * δ))) (by linarith : 0 ≤ 1 - t)
  have a2 := mul_le_mul_of_nonneg_left (exp_second ((1 - t) * δ)) h0
  have : (1 - t) * ((-(t * δ)) ^ 2 / 2) + t * (((1 - t) * δ) ^ 2 / 2) ≤ δ ^ 2 / 8 := by
    nlinarith [mul_nonneg (sq_nonneg (2 * t - 1)) (sq_nonneg δ)]
  linarith

/-- Bilinear interpolation of an oscillation in the plane. -/
theorem osc_bilinear (α β s t : ℝ) (s0 : 0 ≤ s) (s1 : s ≤ 1) (t0 : 0 ≤ t) (t1 : t ≤ 1) :
    ‖(((1 - s) * (1 - t) : ℝ) + (s * (1 - t) : ℝ) * Complex.exp (Complex.I * α) +
        ((1 - s) * t : ℝ) * Complex.exp (Complex.I * β) + (s * t : ℝ) * Complex.exp (Complex.I * (α + β : ℝ)) -
        Complex.exp (Complex.I * (s * α + t * β : ℝ)) : ℂ)‖ ≤ (α ^ 2 + β ^ 2) / 8 := by
  set A : ℂ := (1 - s : ℝ) + (s : ℝ) * Complex.exp (Complex.I * α) with hA
  set B : ℂ := (1 - t : ℝ) + (t : ℝ) * Complex.exp (Complex.I * β) with hB
  have hAB : (((1 - s) * (1 - t) : ℝ) + (s * (1 - t) : ℝ) * Complex.exp (Complex.I * α) +
      ((1 - s) * t : ℝ) * Complex.exp (Complex.I * β) + (s * t : ℝ) * Complex.exp (Complex.I * (α + β : ℝ)) -
      Complex.exp (Complex.I * (s * α + t * β : ℝ)) : ℂ) =
      (A - Complex.exp (Complex.I * (s * α : ℝ))) * B +
        Complex.exp (Complex.I * (s * α : ℝ)) * (B - Complex.exp (Complex.I * (t * β : ℝ))) := by
    have e1 : Complex.exp (Complex.I * (α + β : ℝ)) = Complex.exp (Complex.I * α) * Complex.exp (Complex.I * β) := by
      rw [← Complex.exp_add]; congr 1; push_cast; ring
    have e2 : Complex.exp (Complex.I * (s * α + t * β : ℝ)) =
        Complex.exp (Complex.I * (s * α : ℝ)) * Complex.exp (Complex.I * (t * β : ℝ)) := by
      rw [← Complex.exp_add]; congr 1; push_cast; ring
    rw [e1, e2, hA, hB]
    push_cast
    ring
  have hBn : ‖B‖ ≤ 1 := by
    refine (norm_add_le _ _).trans ?_
    rw [norm_mul, Complex.norm_exp_I_mul_ofReal, Complex.norm_real, Complex.norm_real, Real.norm_of_nonneg t0,
      Real.norm_of_nonneg (by linarith : 0 ≤ 1 - t)]
    linarith
  rw [hAB]
  refine (norm_add_le _ _).trans ?_
  rw [norm_mul, norm_mul, Complex.norm_exp_I_mul_ofReal, one_mul]
  have a1 : ‖A - Complex.exp (Complex.I * (s * α : ℝ))‖ ≤ α ^ 2 / 8 := osc_linear α s s0 s1
  have a2 : ‖B - Complex.exp (Complex.I * (t * β : ℝ))‖ ≤ β ^ 2 / 8 := osc_linear β t t0 t1
  have := mul_le_mul a1 hBn (norm_nonneg _) (by positivity)
  linarith

/-! ## The power -/

/-- The power as a sum of oscillations. -/
theorem power_sum {ι : Type} [Fintype ι] (E : ι → ℂ) (θ : ι → ℝ) :
    ((‖∑ p, E p * Complex.exp (Complex.I * θ p)‖ ^ 2 : ℝ) : ℂ) =
      ∑ p, ∑ q, E p * (starRingEnd ℂ) (E q) * Complex.exp (Complex.I * (θ p - θ q : ℝ)) := by
  rw [Complex.ofReal_pow, ← Complex.mul_conj', map_sum, Finset.sum_mul_sum]
  refine Finset.sum_congr rfl fun p _ => Finset.sum_congr rfl fun q _ => ?_
  rw [map_mul, ← Complex.exp_conj, map_mul, Complex.conj_I, Complex.conj_ofReal]
  have : Complex.exp (Complex.I * (θ p - θ q : ℝ)) = Complex.exp (Complex.I * θ p) * Complex.exp (-Complex.I * θ q) := by
    rw [← Complex.exp_add]; congr 1; push_cast; ring
  rw [this]
  ring

/-- Weighted squares of differences. -/
theorem pair_spread_eq {ι : Type} [Fintype ι] (w x : ι → ℝ) :
    ∑ p, ∑ q, w p * w q * (x p - x q) ^ 2 =
      2 * ((∑ p, w p) * (∑ p, w p * x p ^ 2) - (∑ p, w p * x p) ^ 2) := by
  have e : ∀ p q, w p * w q * (x p - x q) ^ 2 =
      (w p * x p ^ 2) * w q + w p * (w q * x q ^ 2) - 2 * ((w p * x p) * (w q * x q)) := fun p q => by ring
  simp only [e, Finset.sum_sub_distrib, Finset.sum_add_distrib, ← Finset.mul_sum, ← Finset.sum_mul]
  ring

theorem pair_spread {ι : Type} [Fintype ι] (w x : ι → ℝ) :
    ∑ p, ∑ q, w p * w q * (x p - x q) ^ 2 ≤ 2 * (∑ p, w p) * ∑ p, w p * x p ^ 2 := by
  rw [pair_spread_eq]
  nlinarith [sq_nonneg (∑ p, w p * x p)]

/-- Bilinear interpolation of the power in a cell of the sky. -/
theorem power_bilinear {ι : Type} [Fintype ι] (E : ι → ℂ) (x y : ι → ℝ) (u0 v0 h s t : ℝ)
    (s0 : 0 ≤ s) (s1 : s ≤ 1) (t0 : 0 ≤ t) (t1 : t ≤ 1) :
    |((1 - s) * (1 - t) * ‖∑ p, E p * Complex.exp (Complex.I * (x p * u0 + y p * v0 : ℝ))‖ ^ 2 +
      s * (1 - t) * ‖∑ p, E p * Complex.exp (Complex.I * (x p * (u0 + h) + y p * v0 : ℝ))‖ ^ 2 +
      (1 - s) * t * ‖∑ p, E p * Complex.exp (Complex.I * (x p * u0 + y p * (v0 + h) : ℝ))‖ ^ 2 +
      s * t * ‖∑ p, E p * Complex.exp (Complex.I * (x p * (u0 + h) + y p * (v0 + h) : ℝ))‖ ^ 2) -
      ‖∑ p, E p * Complex.exp (Complex.I * (x p * (u0 + s * h) + y p * (v0 + t * h) : ℝ))‖ ^ 2| ≤
      h ^ 2 / 4 * (∑ p, ‖E p‖) * ∑ p, ‖E p‖ * (x p ^ 2 + y p ^ 2) := by
  have key : (((1 - s) * (1 - t) * ‖∑ p, E p * Complex.exp (Complex.I * (x p * u0 + y p * v0 : ℝ))‖ ^ 2 +
      s * (1 - t) * ‖∑ p, E p * Complex.exp (Complex.I * (x p * (u0 + h) + y p * v0 : ℝ))‖ ^ 2 +
      (1 - s) * t * ‖∑ p, E p * Complex.exp (Complex.I * (x p * u0 + y p * (v0 + h) : ℝ))‖ ^ 2 +
      s * t * ‖∑ p, E p * Complex.exp (Complex.I * (x p * (u0 + h) + y p * (v0 + h) : ℝ))‖ ^ 2 -
      ‖∑ p, E p * Complex.exp (Complex.I * (x p * (u0 + s * h) + y p * (v0 + t * h) : ℝ))‖ ^ 2 : ℝ) : ℂ) =
      ∑ p, ∑ q, E p * (starRingEnd ℂ) (E q) * Complex.exp (Complex.I * ((x p - x q) * u0 + (y p - y q) * v0 : ℝ)) *
        (((1 - s) * (1 - t) : ℝ) + (s * (1 - t) : ℝ) * Complex.exp (Complex.I * ((x p - x q) * h : ℝ)) +
        ((1 - s) * t : ℝ) * Complex.exp (Complex.I * ((y p - y q) * h : ℝ)) +
        (s * t : ℝ) * Complex.exp (Complex.I * ((x p - x q) * h + (y p - y q) * h : ℝ)) -
        Complex.exp (Complex.I * (s * ((x p - x q) * h) + t * ((y p - y q) * h) : ℝ))) := by
    rw [Complex.ofReal_sub, Complex.ofReal_add, Complex.ofReal_add, Complex.ofReal_add,
      Complex.ofReal_mul ((1 - s) * (1 - t)) (_ ^ 2), Complex.ofReal_mul (s * (1 - t)) (_ ^ 2),
      Complex.ofReal_mul ((1 - s) * t) (_ ^ 2), Complex.ofReal_mul (s * t) (_ ^ 2), power_sum, power_sum, power_sum, power_sum, power_sum]
    simp only [Finset.mul_sum, ← Finset.sum_add_distrib, ← Finset.sum_sub_distrib]
    refine Finset.sum_congr rfl fun p _ => Finset.sum_congr rfl fun q _ => ?_
    have e1 : ∀ a b : ℝ, Complex.exp (Complex.I * (a + b : ℝ)) = Complex.exp (Complex.I * a) * Complex.exp (Complex.I * b) := by
      intro a b
      rw [← Complex.exp_add]; congr 1; push_cast; ring
    have f0 : x p * u0 + y p * v0 - (x q * u0 + y q * v0) = (x p - x q) * u0 + (y p - y q) * v0 := by ring
    have f1 : x p * (u0 + h) + y p * v0 - (x q * (u0 + h) + y q * v0) =
        ((x p - x q) * u0 + (y p - y q) * v0) + (x p - x q) * h := by ring
    have f2 : x p * u0 + y p * (v0 + h) - (x q * u0 + y q * (v0 + h)) =
        ((x p - x q) * u0 + (y p - y q) * v0) + (y p - y q) * h := by ring
    have f3 : x p * (u0 + h) + y p * (v0 + h) - (x q * (u0 + h) + y q * (v0 + h)) =
        ((x p - x q) * u0 + (y p - y q) * v0) + ((x p - x q) * h + (y p - y q) * h) := by ring
    have f4 : x p * (u0 + s * h) + y p * (v0 + t * h) - (x q * (u0 + s * h) + y q * (v0 + t * h)) =
        ((x p - x q) * u0 + (y p - y q) * v0) + (s * ((x p - x q) * h) + t * ((y p - y q) * h)) := by ring
    rw [f0, f1, f2, f3, f4, e1 _ ((x p - x q) * h), e1 _ ((y p - y q) * h), e1 _ ((x p - x q) * h + (y p - y q) * h),
      e1 _ (s * ((x p - x q) * h) + t * ((y p - y q) * h))]
    ring
  rw [← Real.norm_eq_abs, ← Complex.norm_real, key]
  have hb : ∀ p q, ‖E p * (starRingEnd ℂ) (E q) * Complex.exp (Complex.I * ((x p - x q) * u0 + (y p - y q) * v0 : ℝ)) *
        (((1 - s) * (1 - t) : ℝ) + (s * (1 - t) : ℝ) * Complex.exp (Complex.I * ((x p - x q) * h : ℝ)) +
        ((1 - s) * t : ℝ) * Complex.exp (Complex.I * ((y p - y q) * h : ℝ)) +
        (s * t : ℝ) * Complex.exp (Complex.I * ((x p - x q) * h + (y p - y q) * h : ℝ)) -
        Complex.exp (Complex.I * (s * ((x p - x q) * h) + t * ((y p - y q) * h) : ℝ)))‖ ≤
      h ^ 2 / 8 * (‖E p‖ * ‖E q‖ * (x p - x q) ^ 2 + ‖E p‖ * ‖E q‖ * (y p - y q) ^ 2) := by
    intro p q
    rw [norm_mul, norm_mul, norm_mul, Complex.norm_exp_I_mul_ofReal, mul_one, RCLike.norm_conj]
    have := osc_bilinear ((x p - x q) * h) ((y p - y q) * h) s t s0 s1 t0 t1
    have h2 := mul_le_mul_of_nonneg_left this (mul_nonneg (norm_nonneg (E p)) (norm_nonneg (E q)))
    refine h2.trans (le_of_eq ?_)
    ring
  refine (norm_sum_le _ _).trans ((Finset.sum_le_sum fun p _ => (norm_sum_le _ _).trans
    (Finset.sum_le_sum fun q _ => hb p q)).trans ?_)
  have hx := pair_spread (fun p => ‖E p‖) x
  have hy := pair_spread (fun p => ‖E p‖) y
  simp only [← Finset.mul_sum, Finset.sum_add_distrib]
  have hs : ∑ p, ‖E p‖ * (x p ^ 2 + y p ^ 2) = ∑ p, ‖E p‖ * x p ^ 2 + ∑ p, ‖E p‖ * y p ^ 2 := by
    rw [← Finset.sum_add_distrib]
    exact Finset.sum_congr rfl fun p _ => by ring
  rw [hs]
  have := mul_le_mul_of_nonneg_left (add_le_add hx hy) (by positivity : 0 ≤ h ^ 2 / 8)
  refine this.trans (le_of_eq ?_)
  ring

/-! ## Theorems -/

/-- At the nodes of the grid of the sky the pattern is that of the aperture. -/
theorem exact_node {N : ℕ} (I K : List ℝ) (dz wavel : ℝ) (illum : Illum (Fin N × Fin N))
    (tel : TelGeo (Fin N × Fin N)) (bf : ℝ) (P : Pattern N) (hpr : tel.pr ≠ 0) (hbf : bf ≠ 0) (hw : wavel ≠ 0)
    (h : radiationPattern I K dz wavel illum tel bf = .ok P) :
    ∃ E, aperture (fun q => Spec.gridPoint tel.pr bf N q.2) (fun q => Spec.gridPoint tel.pr bf N q.1) I K dz wavel
        illum tel = .ok E ∧
      ∀ i j : Fin N, ‖P.F (i, j)‖ ^ 2 = Spec.exactPower E tel.pr bf wavel (P.u j) (P.v i) := by
  obtain ⟨E, hE, hF⟩ := C15_fourier_sum I K dz wavel N illum tel bf P hpr hbf hw h
  refine ⟨E, hE, fun i j => ?_⟩
  unfold Spec.exactPower
  rw [hF]
  have hc : (∑ a : Fin N, ∑ b : Fin N, E (a, b) * Complex.exp (-(2 * Real.pi * Complex.I) *
      (((((b : ℕ) * (2 * tel.pr * bf / ((N : ℝ) - 1))) * P.u j +
        ((a : ℕ) * (2 * tel.pr * bf / ((N : ℝ) - 1))) * P.v i) / wavel : ℝ) : ℂ))) =
      Complex.exp (Complex.I * (-(2 * Real.pi * (tel.pr * bf * P.u j + tel.pr * bf * P.v i) / wavel) : ℝ)) *
      ∑ a, ∑ b, E (a, b) * Complex.exp (Complex.I *
        (-(2 * Real.pi * (Spec.gridPoint tel.pr bf N b * P.u j + Spec.gridPoint tel.pr bf N a * P.v i) / wavel) : ℝ)) := by
    simp only [Finset.mul_sum]
    refine Finset.sum_congr rfl fun a _ => Finset.sum_congr rfl fun b _ => ?_
    rw [mul_left_comm, ← Complex.exp_add]
    congr 2
    unfold Spec.gridPoint
    push_cast
    ring
  rw [hc, norm_mul, Complex.norm_exp_I_mul_ofReal, one_mul]

theorem cast_step (j n : ℕ) : ((((j + 1 : ℕ) : ℤ) - (n : ℕ) : ℤ) : ℝ) = (((j : ℤ) - (n : ℕ) : ℤ) : ℝ) + 1 := by
  push_cast
  ring

/-- The coordinates of the nodes. -/
theorem axis_int {N : ℕ} (g : Fin N → ℝ) (h : ℝ) (h0 : ∀ i : Fin N, (i : ℕ) = N / 2 → g i = 0)
    (hs : ∀ i j : Fin N, (j : ℕ) = (i : ℕ) + 1 → g j - g i = h) (j : Fin N) :
    g j = (((j : ℕ) : ℤ) - (N / 2 : ℕ) : ℤ) * h := by
  have hN := j.pos
  have up : ∀ n (hn : N / 2 + n < N), g ⟨N / 2 + n, hn⟩ = n * h := by
    intro n
    induction n with
    | zero => intro hn; rw [h0 _ rfl]; simp
    | succ n ih =>
      intro hn
      have := hs ⟨N / 2 + n, by omega⟩ ⟨N / 2 + (n + 1), hn⟩ rfl
      rw [ih (by omega)] at this
      push_cast
      linarith
  have down : ∀ n (hn : n ≤ N / 2), g ⟨N / 2 - n, by omega⟩ = -(n * h) := by
    intro n
    induction n with
    | zero => intro hn; rw [h0 _ rfl]; simp
    | succ n ih =>
      intro hn
      have := hs ⟨N / 2 - (n + 1), by omega⟩ ⟨N / 2 - n, by omega⟩ (by dsimp only; omega)
      rw [ih (by omega)] at this
      push_cast
      linarith
  rcases le_total (N / 2) j with hj | hj
  · have := up (j - N / 2) (by omega)
    have e : (⟨N / 2 + (j - N / 2), by omega⟩ : Fin N) = j := Fin.ext (by dsimp only; omega)
    rw [e] at this
    rw [this, Nat.cast_sub hj, Int.cast_sub, Int.cast_natCast, Int.cast_natCast]
  · have := down (N / 2 - j) (by omega)
    have e : (⟨N / 2 - (N / 2 - j), by omega⟩ : Fin N) = j := Fin.ext (by dsimp only; omega)
    rw [e] at this
    rw [this, Nat.cast_sub hj, Int.cast_sub, Int.cast_natCast, Int.cast_natCast]
    ring

/-- **C117.**  The model beam at any direction within the grid of the sky: bilinear interpolation misses the power of
the aperture by at most `π² / (4 box_factor²)` times the sum of the amplitudes times their sum weighted with the squared
distance from the axis in units of the radius. -/
theorem C117_between {N M : ℕ} (params : List ℝ) (u v : Fin 3 × Fin M → ℝ) (dz : Fin 3 → ℝ) (wavel : ℝ)
    (illum : Illum (Fin N × Fin N)) (tel : TelGeo (Fin N × Fin N)) (bf : ℝ) (hpr : 0 < tel.pr) (hbf : 0 < bf)
    (hw : 0 < wavel) (i : Fin 3) (b : Fin M → ℝ) (hb : Spec.Sampled params u v dz wavel illum tel bf i b)
    (E : Fin N × Fin N → ℂ)
    (hE : aperture (fun q => Spec.gridPoint tel.pr bf N q.2) (fun q => Spec.gridPoint tel.pr bf N q.1)
      (params.take 5) (params.drop 5) (dz i) wavel illum tel = .ok E) (k : Fin M) :
    |b k - Spec.exactPower E tel.pr bf wavel (u (i, k)) (v (i, k))| ≤
      Real.pi ^ 2 / (4 * bf ^ 2) * (∑ q, ‖E q‖) * (Spec.spreadOf E tel.pr bf / tel.pr ^ 2) := by
  obtain ⟨P, hP, mu, mv, hcell⟩ := hb
  obtain ⟨c, r, hc, hr, ⟨u1, u2⟩, ⟨v1, v2⟩, hbil⟩ := hcell k
  obtain ⟨E', hE', hnode⟩ := exact_node _ _ _ _ _ _ _ P hpr.ne' hbf.ne' hw.ne' hP
  obtain rfl : E = E' := Except.ok.inj (hE.symm.trans hE')
  obtain ⟨huv, -, -, hstep⟩ := C14_axes _ _ _ _ _ _ _ _ P hpr hbf hw hP
  have hN : (2 : ℝ) ≤ N := by exact_mod_cast (by omega : 2 ≤ N)
  set h := wavel / (N * (2 * tel.pr * bf / ((N : ℝ) - 1))) with hh
  have hhpos : 0 < h := by
    have : (0 : ℝ) < (N : ℝ) - 1 := by linarith
    positivity
  have eu : P.u ⟨c + 1, hc⟩ = P.u ⟨c, by omega⟩ + h := by
    have := hstep ⟨c, by omega⟩ ⟨c + 1, hc⟩ rfl
    linarith
  have ev : P.v ⟨r + 1, hr⟩ = P.v ⟨r, by omega⟩ + h := by
    have := hstep ⟨r, by omega⟩ ⟨r + 1, hr⟩ rfl
    rw [huv] at this
    linarith
  rw [hnode, hnode, hnode, hnode, eu, ev] at hbil
  rw [eu] at u2
  rw [ev] at v2
  set u0 := P.u ⟨c, by omega⟩
  set v0 := P.v ⟨r, by omega⟩
  set s := (u (i, k) - u0) / h with hs
  set t := (v (i, k) - v0) / h with ht
  have us : u (i, k) = u0 + s * h := by rw [hs]; field_simp; ring
  have vt : v (i, k) = v0 + t * h := by rw [ht]; field_simp; ring
  have s0 : 0 ≤ s := div_nonneg (by linarith) hhpos.le
  have t0 : 0 ≤ t := div_nonneg (by linarith) hhpos.le
  have s1 : s ≤ 1 := (div_le_one hhpos).2 (by linarith)
  have t1 : t ≤ 1 := (div_le_one hhpos).2 (by linarith)
  set X : Fin N × Fin N → ℝ := fun q => -(2 * Real.pi * Spec.gridPoint tel.pr bf N q.2 / wavel) with hX
  set Y : Fin N × Fin N → ℝ := fun q => -(2 * Real.pi * Spec.gridPoint tel.pr bf N q.1 / wavel) with hY
  have hex : ∀ a b : ℝ, Spec.exactPower E tel.pr bf wavel a b =
      ‖∑ q, E q * Complex.exp (Complex.I * (X q * a + Y q * b : ℝ))‖ ^ 2 := by
    intro a b
    unfold Spec.exactPower
    rw [Fintype.sum_prod_type]
    congr 2
    refine Finset.sum_congr rfl fun x _ => Finset.sum_congr rfl fun y _ => ?_
    congr 3
    rw [hX, hY]
    push_cast
    ring
  have hmain := power_bilinear E X Y u0 v0 h s t s0 s1 t0 t1
  simp only [← hex] at hmain
  have hbk : b k = (1 - s) * (1 - t) * Spec.exactPower E tel.pr bf wavel u0 v0 +
      s * (1 - t) * Spec.exactPower E tel.pr bf wavel (u0 + h) v0 +
      (1 - s) * t * Spec.exactPower E tel.pr bf wavel u0 (v0 + h) +
      s * t * Spec.exactPower E tel.pr bf wavel (u0 + h) (v0 + h) := by
    unfold Spec.isBilinear at hbil
    rw [us, vt] at hbil
    have hne : h * h ≠ 0 := by positivity
    refine mul_right_cancel₀ hne ?_
    linear_combination hbil
  rw [us, vt, hbk]
  refine hmain.trans ?_
  have hsum : ∑ q, ‖E q‖ * (X q ^ 2 + Y q ^ 2) = (2 * Real.pi / wavel) ^ 2 * Spec.spreadOf E tel.pr bf := by
    unfold Spec.spreadOf
    rw [Finset.mul_sum]
    refine Finset.sum_congr rfl fun q _ => ?_
    rw [hX, hY]
    ring
  rw [hsum]
  have hsp : 0 ≤ Spec.spreadOf E tel.pr bf := Finset.sum_nonneg fun q _ => by positivity
  have hS : 0 ≤ ∑ q, ‖E q‖ := Finset.sum_nonneg fun q _ => norm_nonneg _
  have hle : h ≤ wavel / (2 * tel.pr * bf) := by
    rw [hh, show (N : ℝ) * (2 * tel.pr * bf / ((N : ℝ) - 1)) = (2 * tel.pr * bf) * (N / ((N : ℝ) - 1)) by ring]
    refine div_le_div_of_nonneg_left hw.le (by positivity) ?_
    refine le_mul_of_one_le_right (by positivity) ?_
    rw [one_le_div (by linarith)]
    linarith
  have hsq : h ^ 2 ≤ (wavel / (2 * tel.pr * bf)) ^ 2 := pow_le_pow_left₀ hhpos.le hle 2
  calc h ^ 2 / 4 * (∑ q, ‖E q‖) * ((2 * Real.pi / wavel) ^ 2 * Spec.spreadOf E tel.pr bf)
      = h ^ 2 * ((∑ q, ‖E q‖) * ((2 * Real.pi / wavel) ^ 2 * Spec.spreadOf E tel.pr bf) / 4) := by ring
    _ ≤ (wavel / (2 * tel.pr * bf)) ^ 2 *
        ((∑ q, ‖E q‖) * ((2 * Real.pi / wavel) ^ 2 * Spec.spreadOf E tel.pr bf) / 4) :=
      mul_le_mul_of_nonneg_right hsq (by positivity)
    _ = _ := by
      field_simp

/-- **C117** at the nodes of the grid nothing is lost: the pattern is the power of the aperture. -/
theorem C117_nodes {N M : ℕ} (params : List ℝ) (u v : Fin 3 × Fin M → ℝ) (dz : Fin 3 → ℝ) (wavel : ℝ)
    (illum : Illum (Fin N × Fin N)) (tel : TelGeo (Fin N × Fin N)) (bf : ℝ) (hpr : 0 < tel.pr) (hbf : 0 < bf)
    (hw : 0 < wavel) (i : Fin 3) (b : Fin M → ℝ) (hb : Spec.Sampled params u v dz wavel illum tel bf i b)
    (E : Fin N × Fin N → ℂ)
    (hE : aperture (fun q => Spec.gridPoint tel.pr bf N q.2) (fun q => Spec.gridPoint tel.pr bf N q.1)
      (params.take 5) (params.drop 5) (dz i) wavel illum tel = .ok E) (k : Fin M) (m n : ℤ)
    (hu : u (i, k) = m * (wavel / (N * (2 * tel.pr * bf / ((N : ℝ) - 1)))))
    (hv : v (i, k) = n * (wavel / (N * (2 * tel.pr * bf / ((N : ℝ) - 1))))) :
    b k = Spec.exactPower E tel.pr bf wavel (u (i, k)) (v (i, k)) := by
  obtain ⟨P, hP, mu, mv, hcell⟩ := hb
  obtain ⟨c, r, hc, hr, ⟨u1, u2⟩, ⟨v1, v2⟩, hbil⟩ := hcell k
  obtain ⟨E', hE', hnode⟩ := exact_node _ _ _ _ _ _ _ P hpr.ne' hbf.ne' hw.ne' hP
  obtain rfl : E = E' := Except.ok.inj (hE.symm.trans hE')
  obtain ⟨huv, -, h0, hstep⟩ := C14_axes _ _ _ _ _ _ _ _ P hpr hbf hw hP
  have hN : (2 : ℝ) ≤ N := by exact_mod_cast (by omega : 2 ≤ N)
  set h := wavel / (N * (2 * tel.pr * bf / ((N : ℝ) - 1))) with hh
  have hhpos : 0 < h := by
    have : (0 : ℝ) < (N : ℝ) - 1 := by linarith
    positivity
  have hax := axis_int P.u h h0 hstep
  rw [hnode, hnode, hnode, hnode] at hbil
  unfold Spec.isBilinear at hbil
  rw [← huv] at hbil v1 v2
  simp only [hax] at hbil u1 u2 v1 v2
  rw [hu] at hbil u1 u2 ⊢
  rw [hv] at hbil v1 v2 ⊢
  have cu : m = (c : ℤ) - (N / 2 : ℕ) ∨ m = ((c + 1 : ℕ) : ℤ) - (N / 2 : ℕ) := by
    have a1 : (((c : ℤ) - (N / 2 : ℕ) : ℤ) : ℝ) ≤ m := by
      exact le_of_mul_le_mul_right u1 hhpos
    have a2 : (m : ℝ) ≤ ((((c + 1 : ℕ) : ℤ) - (N / 2 : ℕ) : ℤ) : ℝ) := le_of_mul_le_mul_right u2 hhpos
    have a3 : (c : ℤ) - (N / 2 : ℕ) ≤ m := by exact_mod_cast a1
    have a4 : m ≤ ((c + 1 : ℕ) : ℤ) - (N / 2 : ℕ) := by exact_mod_cast a2
    omega
  have cv : n = (r : ℤ) - (N / 2 : ℕ) ∨ n = ((r + 1 : ℕ) : ℤ) - (N / 2 : ℕ) := by
    have a1 : (((r : ℤ) - (N / 2 : ℕ) : ℤ) : ℝ) ≤ n := le_of_mul_le_mul_right v1 hhpos
    have a2 : (n : ℝ) ≤ ((((r + 1 : ℕ) : ℤ) - (N / 2 : ℕ) : ℤ) : ℝ) := le_of_mul_le_mul_right v2 hhpos
    have a3 : (r : ℤ) - (N / 2 : ℕ) ≤ n := by exact_mod_cast a1
    have a4 : n ≤ ((r + 1 : ℕ) : ℤ) - (N / 2 : ℕ) := by exact_mod_cast a2
    omega
  have hne : h * h ≠ 0 := by positivity
  refine mul_right_cancel₀ hne ?_
  have d1 : ∀ j : ℕ, ((((j + 1 : ℕ) : ℤ) - (N / 2 : ℕ) : ℤ) : ℝ) = (((j : ℤ) - (N / 2 : ℕ) : ℤ) : ℝ) + 1 :=
    fun j => cast_step j _
  rcases cu with cu | cu <;> rcases cv with cv | cv <;> rw [cu, cv] at hbil ⊢ <;> simp only [d1] at hbil ⊢ <;>
    linear_combination hbil

/-- **C117** a telescope that is dark outside the dish: the error is at most `π² / (4 box_factor²)` of the power the
aperture would have on the axis without phase errors. -/
theorem C117_dark {N M : ℕ} (params : List ℝ) (u v : Fin 3 × Fin M → ℝ) (dz : Fin 3 → ℝ) (wavel : ℝ)
    (illum : Illum (Fin N × Fin N)) (tel : TelGeo (Fin N × Fin N)) (bf : ℝ) (hpr : 0 < tel.pr) (hbf : 0 < bf)
    (hw : 0 < wavel) (i : Fin 3) (b : Fin M → ℝ) (hb : Spec.Sampled params u v dz wavel illum tel bf i b)
    (E : Fin N × Fin N → ℂ)
    (hE : aperture (fun q => Spec.gridPoint tel.pr bf N q.2) (fun q => Spec.gridPoint tel.pr bf N q.1)
      (params.take 5) (params.drop 5) (dz i) wavel illum tel = .ok E)
    (hdark : ∀ q, tel.pr ^ 2 < Spec.gridPoint tel.pr bf N q.2 ^ 2 + Spec.gridPoint tel.pr bf N q.1 ^ 2 → E q = 0)
    (k : Fin M) :
    |b k - Spec.exactPower E tel.pr bf wavel (u (i, k)) (v (i, k))| ≤
      Real.pi ^ 2 / (4 * bf ^ 2) * (∑ q, ‖E q‖) ^ 2 := by
  refine (C117_between params u v dz wavel illum tel bf hpr hbf hw i b hb E hE k).trans ?_
  have hS : 0 ≤ ∑ q, ‖E q‖ := Finset.sum_nonneg fun q _ => norm_nonneg _
  have : Spec.spreadOf E tel.pr bf ≤ tel.pr ^ 2 * ∑ q, ‖E q‖ := by
    unfold Spec.spreadOf
    rw [Finset.mul_sum]
    refine Finset.sum_le_sum fun q _ => ?_
    by_cases hq : tel.pr ^ 2 < Spec.gridPoint tel.pr bf N q.2 ^ 2 + Spec.gridPoint tel.pr bf N q.1 ^ 2
    · rw [hdark q hq]; simp
    · rw [mul_comm]
      exact mul_le_mul_of_nonneg_right (not_lt.1 hq) (norm_nonneg _)
  have h2 : Spec.spreadOf E tel.pr bf / tel.pr ^ 2 ≤ ∑ q, ‖E q‖ := by
    rw [div_le_iff₀ (by positivity)]
    linarith
  have := mul_le_mul_of_nonneg_left h2 (by positivity : 0 ≤ Real.pi ^ 2 / (4 * bf ^ 2) * ∑ q, ‖E q‖)
  linarith [this]

/-- **C117** maps measured without error, in any linear calibration, at directions that need not be nodes: what is left
of the residual at the true parameters, times the spread of the true map, is at most twice that error. -/
theorem C117_residual {N M : ℕ} (params : List ℝ) (u v : Fin 3 × Fin M → ℝ) (dz : Fin 3 → ℝ) (wavel : ℝ)
    (illum : Illum (Fin N × Fin N)) (tel : TelGeo (Fin N × Fin N)) (bf : ℝ) (hpr : 0 < tel.pr) (hbf : 0 < bf)
    (hw : 0 < wavel) (E : Fin 3 → Fin N × Fin N → ℂ)
    (hE : ∀ i, aperture (fun q => Spec.gridPoint tel.pr bf N q.2) (fun q => Spec.gridPoint tel.pr bf N q.1)
      (params.take 5) (params.drop 5) (dz i) wavel illum tel = .ok (E i)) (a c : Fin 3 → ℝ) (ha : ∀ i, 0 < a i)
    (r : List ℝ) (h : residualTrue params
      (fun q => .fin (a q.1 * Spec.exactPower (E q.1) tel.pr bf wavel (u q) (v q) + c q.1)) u v dz wavel illum tel bf =
        .ok r) (i : Fin 3) (k : Fin M) (x : ℝ) (hx : r[(i : ℕ) * M + k]? = some x) (s t : Fin M) :
    |x| * (Spec.exactPower (E i) tel.pr bf wavel (u (i, t)) (v (i, t)) -
        Spec.exactPower (E i) tel.pr bf wavel (u (i, s)) (v (i, s))) ≤
      2 * (Real.pi ^ 2 / (4 * bf ^ 2) * (∑ q, ‖E i q‖) * (Spec.spreadOf (E i) tel.pr bf / tel.pr ^ 2)) := by
  obtain ⟨-, -, -, hrow⟩ := C42_layout params _ u v dz wavel illum tel bf r h
  obtain ⟨b, nd, nm, hb, hnd, hnm, hr⟩ := hrow i
  have : Nonempty (Fin M) := ⟨k⟩
  obtain ⟨n, n', e1, e2, e3⟩ := C97_norm (fun k => Spec.exactPower (E i) tel.pr bf wavel (u (i, k)) (v (i, k))) b _
    fun q => by
      rw [abs_sub_comm]
      exact C117_between params u v dz wavel illum tel bf hpr hbf hw i b hb (E i) (hE i) q
  rw [C28_affine (fun k => Spec.exactPower (E i) tel.pr bf wavel (u (i, k)) (v (i, k))) (a i) (c i) (ha i), e1] at hnd
  rw [e2] at hnm
  cases hnd
  cases hnm
  have := hr k
  rw [hx, Option.some.injEq] at this
  rw [this]
  exact e3 k s t

/-! ## The error halfway between the axis and the next node -/

theorem power_cos {ι : Type} [Fintype ι] (z : ℂ) (hz : ‖z‖ = 1) (a θ : ι → ℝ) :
    ‖∑ p, z * (a p : ℂ) * Complex.exp (Complex.I * θ p)‖ ^ 2 = ∑ p, ∑ q, a p * a q * Real.cos (θ p - θ q) := by
  have h := congrArg Complex.re (power_sum (fun p => z * (a p : ℂ)) θ)
  rw [Complex.ofReal_re] at h
  rw [h, Complex.re_sum]
  refine Finset.sum_congr rfl fun p _ => ?_
  rw [Complex.re_sum]
  refine Finset.sum_congr rfl fun q _ => ?_
  have e : z * (a p : ℂ) * (starRingEnd ℂ) (z * (a q : ℂ)) = ((a p * a q : ℝ) : ℂ) := by
    rw [map_mul, Complex.conj_ofReal]
    have : z * (starRingEnd ℂ) z = 1 := by rw [Complex.mul_conj', hz]; simp
    push_cast
    linear_combination (a p : ℂ) * a q * this
  rw [e, Complex.re_ofReal_mul, mul_comm Complex.I, Complex.exp_ofReal_mul_I_re]

theorem cos_gap (δ B : ℝ) (hB : B ≤ Real.pi / 2) (hδ : |δ| ≤ B) :
    Real.cos B * (2 / Real.pi ^ 2 * δ ^ 2) ≤ Real.cos δ - (1 + Real.cos (2 * δ)) / 2 := by
  have hp := Real.pi_pos
  have h0 : 0 ≤ B := (abs_nonneg δ).trans hδ
  have h1 : Real.cos B ≤ Real.cos δ := by
    rw [← Real.cos_abs δ]
    exact Real.cos_le_cos_of_nonneg_of_le_pi (abs_nonneg _) (by linarith) hδ
  have h2 : 0 ≤ Real.cos B := Real.cos_nonneg_of_neg_pi_div_two_le_of_le (by linarith) hB
  have h3 := Real.cos_le_one_sub_mul_cos_sq (x := δ) (by linarith)
  rw [Real.cos_two_mul]
  have h4 : 0 ≤ 2 / Real.pi ^ 2 * δ ^ 2 := by positivity
  nlinarith [mul_le_mul h1 (by linarith : 2 / Real.pi ^ 2 * δ ^ 2 ≤ 1 - Real.cos δ) h4 (by linarith)]

/-- **C117** the error does not go away with the resolution.  An aperture without phase errors that is dark outside the
dish, a box at least twice as wide as the dish: halfway between the axis and the next node the model beam is below the
power of the aperture by at least `cos(π / box_factor) / box_factor²` times the variance of the amplitude along `u` in
units of the radius, up to the factor `((N - 1) / N)²`. -/
theorem C117_persists {N M : ℕ} (params : List ℝ) (u v : Fin 3 × Fin M → ℝ) (dz : Fin 3 → ℝ) (wavel : ℝ)
    (illum : Illum (Fin N × Fin N)) (tel : TelGeo (Fin N × Fin N)) (bf : ℝ) (hpr : 0 < tel.pr) (hbf : 2 ≤ bf)
    (hw : 0 < wavel) (i : Fin 3) (b : Fin M → ℝ) (hb : Spec.Sampled params u v dz wavel illum tel bf i b)
    (a : Fin N × Fin N → ℝ) (z : ℂ) (hz : ‖z‖ = 1) (ha : ∀ q, 0 ≤ a q)
    (hE : aperture (fun q => Spec.gridPoint tel.pr bf N q.2) (fun q => Spec.gridPoint tel.pr bf N q.1)
      (params.take 5) (params.drop 5) (dz i) wavel illum tel = .ok fun q => z * (a q : ℂ))
    (hdark : ∀ q, tel.pr ^ 2 < Spec.gridPoint tel.pr bf N q.2 ^ 2 + Spec.gridPoint tel.pr bf N q.1 ^ 2 → a q = 0)
    (k : Fin M) (hu : u (i, k) = wavel / (N * (2 * tel.pr * bf / ((N : ℝ) - 1))) / 2) (hv : v (i, k) = 0) :
    Real.cos (Real.pi / bf) / bf ^ 2 * (((N : ℝ) - 1) / N) ^ 2 *
        (((∑ q, a q) * (∑ q, a q * Spec.gridPoint tel.pr bf N q.2 ^ 2) -
          (∑ q, a q * Spec.gridPoint tel.pr bf N q.2) ^ 2) / tel.pr ^ 2) ≤
      Spec.exactPower (fun q => z * (a q : ℂ)) tel.pr bf wavel (u (i, k)) (v (i, k)) - b k := by
  have hbf0 : 0 < bf := by linarith
  obtain ⟨P, hP, mu, mv, hcell⟩ := hb
  obtain ⟨c, r, hc, hr, ⟨u1, u2⟩, ⟨v1, v2⟩, hbil⟩ := hcell k
  obtain ⟨E', hE', hnode⟩ := exact_node _ _ _ _ _ _ _ P hpr.ne' hbf0.ne' hw.ne' hP
  obtain rfl : (fun q => z * (a q : ℂ)) = E' := Except.ok.inj (hE.symm.trans hE')
  obtain ⟨huv, -, h0, hstep⟩ := C14_axes _ _ _ _ _ _ _ _ P hpr hbf0 hw hP
  have hN : (2 : ℝ) ≤ N := by exact_mod_cast (by omega : 2 ≤ N)
  set h := wavel / (N * (2 * tel.pr * bf / ((N : ℝ) - 1))) with hh
  have hhpos : 0 < h := by
    have : (0 : ℝ) < (N : ℝ) - 1 := by linarith
    positivity
  have hax := axis_int P.u h h0 hstep
  rw [hnode, hnode, hnode, hnode] at hbil
  unfold Spec.isBilinear at hbil
  rw [← huv] at hbil v1 v2
  simp only [hax] at hbil u1 u2 v1 v2
  rw [hu] at hbil u1 u2 ⊢
  rw [hv] at hbil v1 v2 ⊢
  have d1 : ∀ j : ℕ, ((((j + 1 : ℕ) : ℤ) - (N / 2 : ℕ) : ℤ) : ℝ) = (((j : ℤ) - (N / 2 : ℕ) : ℤ) : ℝ) + 1 :=
    fun j => cast_step j _
  simp only [d1] at hbil u2 v2
  obtain ⟨m, hm⟩ : ∃ m : ℤ, m = (c : ℤ) - (N / 2 : ℕ) := ⟨_, rfl⟩
  obtain ⟨n, hn⟩ : ∃ n : ℤ, n = (r : ℤ) - (N / 2 : ℕ) := ⟨_, rfl⟩
  rw [← hm, ← hn] at hbil
  rw [← hm] at u1 u2
  rw [← hn] at v1 v2
  have m0 : m = 0 := by
    have a1 : (m : ℝ) < 1 := by
      by_contra hcon
      nlinarith [mul_le_mul_of_nonneg_right (not_lt.1 hcon) hhpos.le]
    have a2 : (-1 : ℝ) < m := by
      by_contra hcon
      nlinarith [mul_le_mul_of_nonneg_right (not_lt.1 hcon) hhpos.le]
    have a3 : m < 1 := by exact_mod_cast a1
    have a4 : -1 < m := by exact_mod_cast a2
    omega
  have n0 : n = 0 ∨ n = -1 := by
    have a1 : (n : ℝ) < 1 := by
      by_contra hcon
      nlinarith [mul_le_mul_of_nonneg_right (not_lt.1 hcon) hhpos.le]
    have a2 : (-2 : ℝ) < n := by
      by_contra hcon
      nlinarith [mul_le_mul_of_nonneg_right (not_lt.1 hcon) hhpos.le]
    have a3 : n < 1 := by exact_mod_cast a1
    have a4 : -2 < n := by exact_mod_cast a2
    omega
  have hbk : b k = (Spec.exactPower (fun q => z * (a q : ℂ)) tel.pr bf wavel 0 0 +
      Spec.exactPower (fun q => z * (a q : ℂ)) tel.pr bf wavel h 0) / 2 := by
    have hne : h * h ≠ 0 := by positivity
    refine mul_right_cancel₀ hne ?_
    rcases n0 with n0 | n0 <;> rw [m0, n0] at hbil <;> simp only [Int.cast_zero, zero_mul, zero_add, one_mul,
      Int.cast_neg, Int.cast_one, neg_mul, neg_add_cancel, sub_zero, sub_neg_eq_add, mul_zero] at hbil <;>
      linear_combination hbil
  rw [hbk]
  set X : Fin N × Fin N → ℝ := fun q => -(2 * Real.pi * Spec.gridPoint tel.pr bf N q.2 / wavel) with hX
  have hex : ∀ w : ℝ, Spec.exactPower (fun q => z * (a q : ℂ)) tel.pr bf wavel w 0 =
      ∑ p, ∑ q, a p * a q * Real.cos (X p * w - X q * w) := by
    intro w
    rw [← power_cos z hz a fun p => X p * w]
    unfold Spec.exactPower
    rw [Fintype.sum_prod_type]
    congr 2
    refine Finset.sum_congr rfl fun x _ => Finset.sum_congr rfl fun y _ => ?_
    congr 3
    rw [hX]
    push_cast
    ring
  rw [hex, hex, hex]
  have hstep2 : h / wavel = ((N : ℝ) - 1) / N / (2 * tel.pr * bf) := by
    have : (N : ℝ) - 1 ≠ 0 := by linarith
    have : (N : ℝ) ≠ 0 := by linarith
    rw [hh]
    field_simp
  have hratio : ((N : ℝ) - 1) / N ≤ 1 := by
    rw [div_le_one (by linarith)]
    linarith
  have hratio0 : 0 ≤ ((N : ℝ) - 1) / N := div_nonneg (by linarith) (by linarith)
  have habs : ∀ q, a q ≠ 0 → |Spec.gridPoint tel.pr bf N q.2| ≤ tel.pr := by
    intro q hq
    have : ¬ tel.pr ^ 2 < Spec.gridPoint tel.pr bf N q.2 ^ 2 + Spec.gridPoint tel.pr bf N q.1 ^ 2 :=
      fun hcon => hq (hdark q hcon)
    refine abs_le_of_sq_le_sq ?_ hpr.le
    nlinarith [sq_nonneg (Spec.gridPoint tel.pr bf N q.1), not_lt.1 this]
  have hterm : ∀ p q, a p * a q * (Real.cos (Real.pi / bf) * (2 / Real.pi ^ 2 * (X p * (h / 2) - X q * (h / 2)) ^ 2)) ≤
      a p * a q * Real.cos (X p * (h / 2) - X q * (h / 2)) -
        (a p * a q * Real.cos (X p * 0 - X q * 0) + a p * a q * Real.cos (X p * h - X q * h)) / 2 := by
    intro p q
    by_cases hp : a p = 0
    · simp [hp]
    by_cases hq : a q = 0
    · simp [hq]
    have hδ : |X p * (h / 2) - X q * (h / 2)| ≤ Real.pi / bf := by
      have e : X p * (h / 2) - X q * (h / 2) =
          Real.pi * (h / wavel) * (Spec.gridPoint tel.pr bf N q.2 - Spec.gridPoint tel.pr bf N p.2) := by
        rw [hX]; ring
      rw [e, hstep2, abs_mul, abs_of_nonneg (by positivity)]
      have e2 : |Spec.gridPoint tel.pr bf N q.2 - Spec.gridPoint tel.pr bf N p.2| ≤ 2 * tel.pr :=
        (abs_sub _ _).trans (by linarith [habs p hp, habs q hq])
      calc Real.pi * (((N : ℝ) - 1) / N / (2 * tel.pr * bf)) *
            |Spec.gridPoint tel.pr bf N q.2 - Spec.gridPoint tel.pr bf N p.2|
          ≤ Real.pi * (1 / (2 * tel.pr * bf)) * (2 * tel.pr) := by
            refine mul_le_mul (mul_le_mul_of_nonneg_left ?_ Real.pi_pos.le) e2 (abs_nonneg _) (by positivity)
            exact div_le_div_of_nonneg_right hratio (by positivity)
        _ = Real.pi / bf := by field_simp
    have hB : Real.pi / bf ≤ Real.pi / 2 := div_le_div_of_nonneg_left Real.pi_pos.le (by norm_num) hbf
    have := mul_le_mul_of_nonneg_left (cos_gap _ _ hB hδ) (mul_nonneg (ha p) (ha q))
    refine this.trans (le_of_eq ?_)
    rw [mul_zero, mul_zero, sub_zero, Real.cos_zero,
      show 2 * (X p * (h / 2) - X q * (h / 2)) = X p * h - X q * h by ring]
    ring
  have hsum := Finset.sum_le_sum fun p (_ : p ∈ Finset.univ) => Finset.sum_le_sum fun q (_ : q ∈ Finset.univ) =>
    hterm p q
  simp only [Finset.sum_sub_distrib, ← Finset.sum_div, Finset.sum_add_distrib] at hsum
  refine le_trans (le_of_eq ?_) hsum
  have e1 : ∀ p q, a p * a q * (Real.cos (Real.pi / bf) * (2 / Real.pi ^ 2 * (X p * (h / 2) - X q * (h / 2)) ^ 2)) =
      Real.cos (Real.pi / bf) * (2 * (h / wavel) ^ 2) * ((a p * Spec.gridPoint tel.pr bf N p.2 ^ 2) * a q +
        a p * (a q * Spec.gridPoint tel.pr bf N q.2 ^ 2) -
        2 * ((a p * Spec.gridPoint tel.pr bf N p.2) * (a q * Spec.gridPoint tel.pr bf N q.2))) := by
    intro p q
    rw [hX]
    field_simp
    ring
  simp only [e1, ← Finset.mul_sum, Finset.sum_sub_distrib, Finset.sum_add_distrib, ← Finset.sum_mul]
  rw [hstep2]
  field_simp
  ring

/-- **C117** a telescope of manual geometry, gaussian illumination, in focus, no aberrations: the model beam halfway
between the axis and the next node can be computed and is that much too low. -/
theorem C117_in_focus (i c q x0 y0 pr sr l L Fp F wavel bf : ℝ) (n N : ℕ) (hN : 3 ≤ N) (hi : 0 ≤ i) (hpr : 0 < pr)
    (hbf : 2 ≤ bf) (hw : 0 < wavel) :
    ∃ (b : Fin 1 → ℝ) (a : Fin N × Fin N → ℝ),
      Spec.Sampled (N := N) ([i, c, q, x0, y0] ++ List.replicate ((n + 1) * (n + 2) / 2) 0)
        (fun _ => wavel / (N * (2 * pr * bf / ((N : ℝ) - 1))) / 2) (fun _ => 0) (fun _ => 0) wavel illumGauss
        (manualTel pr sr l L Fp F) bf 1 b ∧
      aperture (fun q => Spec.gridPoint pr bf N q.2) (fun q => Spec.gridPoint pr bf N q.1) [i, c, q, x0, y0]
        (List.replicate ((n + 1) * (n + 2) / 2) 0) 0 wavel illumGauss (manualTel pr sr l L Fp F) =
          .ok (fun q => (a q : ℂ)) ∧ (∀ q, 0 ≤ a q) ∧
      Real.cos (Real.pi / bf) / bf ^ 2 * (((N : ℝ) - 1) / N) ^ 2 *
          (((∑ q, a q) * (∑ q, a q * Spec.gridPoint pr bf N q.2 ^ 2) -
            (∑ q, a q * Spec.gridPoint pr bf N q.2) ^ 2) / pr ^ 2) ≤
        Spec.exactPower (fun q => (a q : ℂ)) pr bf wavel (wavel / (N * (2 * pr * bf / ((N : ℝ) - 1))) / 2) 0 - b 0 := by
  have hN3 : (3 : ℝ) ≤ N := by exact_mod_cast hN
  have hrep : ∀ k : ℕ, (List.replicate ((n + 1) * (n + 2) / 2) (0 : ℝ)).getD k 0 = 0 := by
    intro k
    by_cases hk : k < (n + 1) * (n + 2) / 2
    · simp [List.getD_eq_getElem?_getD, hk]
    · simp [List.getD_eq_getElem?_getD, hk]
  have hap : ∃ (E : Fin N × Fin N → ℂ) (a : Fin N × Fin N → ℝ), aperture (fun q : Fin N × Fin N => Spec.gridPoint pr bf N q.2) (fun q => Spec.gridPoint pr bf N q.1)
      [i, c, q, x0, y0] (List.replicate ((n + 1) * (n + 2) / 2) 0) 0 wavel illumGauss (manualTel pr sr l L Fp F) = .ok E ∧
      (E = fun q => ((a q : ℝ) : ℂ)) ∧ (∀ q, 0 ≤ a q) ∧
      ∀ q : Fin N × Fin N, pr ^ 2 < Spec.gridPoint pr bf N q.2 ^ 2 + Spec.gridPoint pr bf N q.1 ^ 2 → a q = 0 := by
    obtain ⟨B, hB, hv⟩ := C24_value pr sr l L (fun q : Fin N × Fin N => Spec.gridPoint pr bf N q.2)
      (fun q => Spec.gridPoint pr bf N q.1)
    have hg := gauss_ignores_middle (fun q : Fin N × Fin N => Spec.gridPoint pr bf N q.2)
      (fun q => Spec.gridPoint pr bf N q.1) i c x0 y0 pr [q]
    refine ⟨_, fun e => B e * gaussAt i (.bare c) (.bare x0) (.bare y0) pr (Spec.gridPoint pr bf N e.2)
        (Spec.gridPoint pr bf N e.1), aperture_ok_iff.2 ⟨B, _, fun _ => 0, _, hB, wavefront_ok _ _ _ n (by simp [tri]), ?_, hg, rfl⟩, ?_,
      ?_, ?_⟩
    · show Except.ok _ = Except.ok _
      congr 1
      funext q
      simp [opdAt]
    · funext e
      simp only [wfVal, hrep]
      simp
    · intro e
      refine mul_nonneg ?_ ?_
      · by_cases hvis : Spec.visible pr sr l L (Spec.gridPoint pr bf N e.2) (Spec.gridPoint pr bf N e.1)
        · rw [(hv e).1 hvis]; norm_num
        · rw [(hv e).2 hvis]
      · simp only [gaussAt, offset]
        positivity
    · intro e he
      have hvis : ¬ Spec.visible pr sr l L (Spec.gridPoint pr bf N e.2) (Spec.gridPoint pr bf N e.1) :=
        fun h => absurd h.2.1 (by linarith)
      simp only [(hv e).2 hvis, zero_mul]
  obtain ⟨E, a, hE, rfl, ha, hd⟩ := hap
  have hP : ∃ P, radiationPattern [i, c, q, x0, y0] (List.replicate ((n + 1) * (n + 2) / 2) 0) 0 wavel
      (N := N) illumGauss (manualTel pr sr l L Fp F) bf = .ok P := by
    rw [C14_ok_iff _ _ _ _ _ (by omega), linspace_grid]
    exact ⟨_, hE⟩
  obtain ⟨P, hP⟩ := hP
  have hbf0 : 0 < bf := by linarith
  obtain ⟨huv, hmono, h0, hstep⟩ := C14_axes _ _ _ _ _ _ _ _ P hpr hbf0 hw hP
  have hhpos : 0 < wavel / (N * (2 * pr * bf / ((N : ℝ) - 1))) := by
    have : (0 : ℝ) < (N : ℝ) - 1 := by linarith
    positivity
  have hz : P.u ⟨N / 2, by omega⟩ = 0 := h0 _ rfl
  have h1 : P.u ⟨N / 2 + 1, by omega⟩ = wavel / (N * (2 * pr * bf / ((N : ℝ) - 1))) := by
    have := hstep ⟨N / 2, by omega⟩ ⟨N / 2 + 1, by omega⟩ rfl
    rw [hz, sub_zero] at this
    exact this
  have hS : ∃ b : Fin 1 → ℝ, Spec.Sampled (N := N) ([i, c, q, x0, y0] ++ List.replicate ((n + 1) * (n + 2) / 2) 0)
      (fun _ => wavel / (N * (2 * pr * bf / ((N : ℝ) - 1))) / 2) (fun _ => 0) (fun _ => 0) wavel illumGauss
      (manualTel pr sr l L Fp F) bf 1 b := by
    refine ⟨_, sampled_iff.2 (modelRow_ok.2 ⟨P, hP, (interpolator_ok_iff _ _ _ _ _).2 ⟨⟨hmono, huv ▸ hmono⟩,
      fun k => ⟨⟨⟨_, hz.le.trans (by positivity)⟩, ⟨⟨N / 2 + 1, by omega⟩, ?_⟩⟩, ⟨⟨⟨N / 2, by omega⟩, ?_⟩, ⟨N / 2, by omega⟩, ?_⟩⟩, rfl⟩⟩)⟩
    · rw [h1]; linarith
    · rw [← huv, hz]
    · rw [← huv, hz]
  obtain ⟨b, hb⟩ := hS
  refine ⟨b, a, hb, hE, ha, ?_⟩
  have := C117_persists _ _ _ _ wavel _ (manualTel pr sr l L Fp F) bf hpr hbf hw 1 b hb a 1 (by simp) ha
    (by simp only [one_mul]; exact hE) hd 0 rfl rfl
  simp only [one_mul] at this
  exact this

/-- The hypotheses: the telescope of the scripts at Effelsberg's size. -/
example : ∃ (b : Fin 1 → ℝ) (a : Fin 256 × Fin 256 → ℝ),
    Spec.Sampled (N := 256) [1, -14, 2, 0, 0, 0, 0, 0] (fun _ => 0.009 / (256 * (2 * 50 * 5 / (256 - 1))) / 2) (fun _ => 0)
      (fun _ => 0) 0.009 illumGauss (manualTel 50 3.25 1 20 30 387.39435) 5 1 b ∧
    |b 0 - Spec.exactPower (fun q => (a q : ℂ)) 50 5 0.009 (0.009 / (256 * (2 * 50 * 5 / (256 - 1))) / 2) 0| ≤
      Real.pi ^ 2 / 100 * (∑ q, ‖(a q : ℂ)‖) * (Spec.spreadOf (fun q => (a q : ℂ)) 50 5 / 50 ^ 2) ∧
    b 0 ≤ Spec.exactPower (fun q => (a q : ℂ)) 50 5 0.009 (0.009 / (256 * (2 * 50 * 5 / (256 - 1))) / 2) 0 := by
  obtain ⟨b, a, hb, hE, ha, hlow⟩ := C117_in_focus 1 (-14) 2 0 0 50 3.25 1 20 30 387.39435 0.009 5 1 256 (by norm_num)
    (by norm_num) (by norm_num) (by norm_num) (by norm_num)
  refine ⟨b, a, hb, ?_, ?_⟩
  · have := C117_between _ _ _ _ 0.009 _ (manualTel 50 3.25 1 20 30 387.39435) 5 (by norm_num [manualTel]) (by norm_num)
      (by norm_num) 1 b hb _ hE 0
    refine this.trans (le_of_eq ?_)
    rw [show (4 : ℝ) * 5 ^ 2 = 100 by norm_num]
    rfl
  · have hv := pair_spread_eq a fun q => Spec.gridPoint 50 5 256 q.2
    have hnn : 0 ≤ ∑ p, ∑ q, a p * a q * (Spec.gridPoint 50 5 256 p.2 - Spec.gridPoint 50 5 256 q.2) ^ 2 :=
      Finset.sum_nonneg fun p _ => Finset.sum_nonneg fun q _ => mul_nonneg (mul_nonneg (ha p) (ha q)) (sq_nonneg _)
    have hcos : 0 ≤ Real.cos (Real.pi / 5) := Real.cos_nonneg_of_neg_pi_div_two_le_of_le
      (by linarith [Real.pi_pos]) (by linarith [Real.pi_pos])
    have h0 : 0 ≤ Real.cos (Real.pi / 5) / 5 ^ 2 * ((((256 : ℕ) : ℝ) - 1) / (256 : ℕ)) ^ 2 *
          (((∑ q, a q) * (∑ q, a q * Spec.gridPoint 50 5 256 q.2 ^ 2) -
            (∑ q, a q * Spec.gridPoint 50 5 256 q.2) ^ 2) / 50 ^ 2) := by
      refine mul_nonneg (mul_nonneg (div_nonneg hcos (by norm_num)) (sq_nonneg _)) (div_nonneg ?_ (by norm_num))
      linarith
    have := h0.trans hlow
    push_cast at this
    linarith

/-! ## Growing resolution -/

/-- A sequence of cells of the grids that hold one coordinate. -/
theorem cell_eventually (H w : ℝ) (hH : 0 < H) (m : ℤ) (h1 : m * H < w) (h2 : w < (m + 1) * H) (N : ℕ → ℕ)
    (hN : Tendsto N atTop atTop) (g : ∀ k, Fin (N k) → ℝ)
    (hg : ∀ k (j : Fin (N k)), g k j = (((j : ℕ) : ℤ) - (N k / 2 : ℕ) : ℤ) * (H * (1 - 1 / (N k : ℝ)))) :
    ∀ᶠ k in atTop, ∀ (c : ℕ) (hc : c + 1 < N k), g k ⟨c, by omega⟩ ≤ w → w ≤ g k ⟨c + 1, hc⟩ →
      (c : ℤ) = (N k / 2 : ℕ) + m := by
  have hlim : Tendsto (fun k => H * (1 - 1 / (N k : ℝ))) atTop (𝓝 H) := by
    have : Tendsto (fun k => 1 / (N k : ℝ)) atTop (𝓝 0) :=
      tendsto_one_div_atTop_nhds_zero_nat.comp hN
    simpa using (this.const_sub 1).const_mul H
  have e1 := ((hlim.const_mul (m : ℝ)).eventually (gt_mem_nhds h1))
  have e2 := ((hlim.const_mul ((m : ℝ) + 1)).eventually (lt_mem_nhds h2))
  have e3 := hlim.eventually (lt_mem_nhds hH)
  filter_upwards [e1, e2, e3] with k k1 k2 k3 c hc c1 c2
  rw [hg] at c1 c2
  have a1 : ((((c : ℕ) : ℤ) - (N k / 2 : ℕ) : ℤ) : ℝ) < (m : ℝ) + 1 :=
    lt_of_mul_lt_mul_right (c1.trans_lt k2) k3.le
  have a2 : (m : ℝ) < ((((c + 1 : ℕ) : ℤ) - (N k / 2 : ℕ) : ℤ) : ℝ) :=
    lt_of_mul_lt_mul_right (k1.trans_le c2) k3.le
  have a3 : ((c : ℕ) : ℤ) - (N k / 2 : ℕ) < m + 1 := by exact_mod_cast a1
  have a4 : m < ((c + 1 : ℕ) : ℤ) - (N k / 2 : ℕ) := by exact_mod_cast a2
  omega

/-- **C117** as the resolution grows, with everything else fixed, the model beam at a direction tends, not to the power
of the Fourier integral of the aperture in that direction, but to the bilinear mean of that power at the four nodes
around it, multiples of `wavel / (2 pr box_factor)`. -/
theorem C117_limit {M : ℕ} (params : List ℝ) (u v : Fin 3 × Fin M → ℝ) (dz : Fin 3 → ℝ) (wavel pr bf : ℝ)
    (illum : ∀ ι : Type, Illum ι) (tel : ∀ ι : Type, TelGeo ι) (A : ℝ × ℝ → ℂ) (h0 : 0 < pr) (hbf : 0 < bf)
    (hw : 0 < wavel) (hpr : ∀ ι, (tel ι).pr = pr) (i : Fin 3)
    (hA : Spec.IsAperture A (params.take 5) (params.drop 5) (dz i) wavel illum tel) (hR : Spec.Piecewise A (pr * bf))
    (N : ℕ → ℕ) (hN : Tendsto N atTop atTop) (b : ℕ → Fin M → ℝ)
    (hb : ∀ k, Spec.Sampled params u v dz wavel (illum _) (tel (Fin (N k) × Fin (N k))) bf i (b k)) (q : Fin M) (m n : ℤ)
    (hm : m * (wavel / (2 * (pr * bf))) < u (i, q)) (hm' : u (i, q) < (m + 1) * (wavel / (2 * (pr * bf))))
    (hn : n * (wavel / (2 * (pr * bf))) < v (i, q)) (hn' : v (i, q) < (n + 1) * (wavel / (2 * (pr * bf)))) (r : ℝ)
    (hr : Spec.isBilinear (m * (wavel / (2 * (pr * bf)))) ((m + 1) * (wavel / (2 * (pr * bf))))
      (n * (wavel / (2 * (pr * bf)))) ((n + 1) * (wavel / (2 * (pr * bf))))
      (‖Spec.fourierField A wavel (m * (wavel / (2 * (pr * bf)))) (n * (wavel / (2 * (pr * bf))))‖ ^ 2)
      (‖Spec.fourierField A wavel ((m + 1) * (wavel / (2 * (pr * bf)))) (n * (wavel / (2 * (pr * bf))))‖ ^ 2)
      (‖Spec.fourierField A wavel (m * (wavel / (2 * (pr * bf)))) ((n + 1) * (wavel / (2 * (pr * bf))))‖ ^ 2)
      (‖Spec.fourierField A wavel ((m + 1) * (wavel / (2 * (pr * bf)))) ((n + 1) * (wavel / (2 * (pr * bf))))‖ ^ 2)
      (u (i, q)) (v (i, q)) r) :
    Tendsto (fun k => (2 * (pr * bf) / ((N k : ℝ) - 1)) ^ 4 * b k q) atTop (𝓝 r) := by
  choose P hP mu mv hcell using hb
  choose c rr hc hrr hcu hcv hbil using fun k => hcell k q
  set H := wavel / (2 * (pr * bf)) with hH
  have hHpos : 0 < H := by positivity
  have hax : ∀ k (j : Fin (N k)), (P k).u j = (((j : ℕ) : ℤ) - (N k / 2 : ℕ) : ℤ) * (H * (1 - 1 / (N k : ℝ))) ∧
      (P k).v j = (((j : ℕ) : ℤ) - (N k / 2 : ℕ) : ℤ) * (H * (1 - 1 / (N k : ℝ))) := by
    intro k j
    have := pixel_coord (hpr _) (hP k) j (((j : ℕ) : ℤ) - (N k / 2 : ℕ)) (by ring)
    rw [this.1, this.2, hH]
    constructor <;> ring
  have eu := cell_eventually H _ hHpos m hm hm' N hN (fun k => (P k).u) fun k j => (hax k j).1
  have ev := cell_eventually H _ hHpos n hn hn' N hN (fun k => (P k).v) fun k j => (hax k j).2
  obtain ⟨K0, hK0⟩ := Filter.eventually_atTop.1 (eu.and ev)
  rw [← tendsto_add_atTop_iff_nat K0]
  have ec : ∀ k, (c (k + K0) : ℤ) = (N (k + K0) / 2 : ℕ) + m := fun k =>
    (hK0 (k + K0) (by omega)).1 _ (hc _) (hcu _).1 (hcu _).2
  have er : ∀ k, (rr (k + K0) : ℤ) = (N (k + K0) / 2 : ℕ) + n := fun k =>
    (hK0 (k + K0) (by omega)).2 _ (hrr _) (hcv _).1 (hcv _).2
  have hN' : Tendsto (fun k => N (k + K0)) atTop atTop := hN.comp (tendsto_add_atTop_nat K0)
  have pix := fun (m' n' : ℤ) (j i' : ∀ k, Fin (N (k + K0)))
      (hj : ∀ k, ((j k : ℕ) : ℤ) = (N (k + K0) / 2 : ℕ) + m') (hi : ∀ k, ((i' k : ℕ) : ℤ) = (N (k + K0) / 2 : ℕ) + n') =>
    C96_pixel _ _ _ wavel pr bf illum tel A h0 hbf hw.ne' hpr hA hR (fun k => N (k + K0)) hN' (fun k => P (k + K0))
      (fun k => hP (k + K0)) i' j m' n' hj hi
  have p00 := pix m n (fun k => ⟨c (k + K0), by have := hc (k + K0); omega⟩)
    (fun k => ⟨rr (k + K0), by have := hrr (k + K0); omega⟩) ec er
  have p10 := pix (m + 1) n (fun k => ⟨c (k + K0) + 1, hc _⟩) (fun k => ⟨rr (k + K0), by have := hrr (k + K0); omega⟩)
    (fun k => by have := ec k; dsimp only; push_cast; omega) er
  have p01 := pix m (n + 1) (fun k => ⟨c (k + K0), by have := hc (k + K0); omega⟩) (fun k => ⟨rr (k + K0) + 1, hrr _⟩)
    ec (fun k => by have := er k; dsimp only; push_cast; omega)
  have p11 := pix (m + 1) (n + 1) (fun k => ⟨c (k + K0) + 1, hc _⟩) (fun k => ⟨rr (k + K0) + 1, hrr _⟩)
    (fun k => by have := ec k; dsimp only; push_cast; omega) (fun k => by have := er k; dsimp only; push_cast; omega)
  have hstep : Tendsto (fun k => H * (1 - 1 / (N (k + K0) : ℝ))) atTop (𝓝 H) := by
    have : Tendsto (fun k => 1 / (N (k + K0) : ℝ)) atTop (𝓝 0) := tendsto_one_div_atTop_nhds_zero_nat.comp hN'
    simpa using (this.const_sub 1).const_mul H
  have hstep0 : ∀ k, H * (1 - 1 / (N (k + K0) : ℝ)) ≠ 0 := by
    intro k
    have : 2 ≤ N (k + K0) := by have := hc (k + K0); omega
    have : (2 : ℝ) ≤ N (k + K0) := by exact_mod_cast this
    have : 1 / (N (k + K0) : ℝ) < 1 := by rw [div_lt_one (by linarith)]; linarith
    exact mul_ne_zero hHpos.ne' (by linarith)
  unfold Spec.isBilinear at hr hbil
  have hform : ∀ k, (2 * (pr * bf) / ((N (k + K0) : ℝ) - 1)) ^ 4 * b (k + K0) q =
      ((2 * (pr * bf) / ((N (k + K0) : ℝ) - 1)) ^ 4 *
          ‖(P (k + K0)).F (⟨rr (k + K0), by have := hrr (k + K0); omega⟩, ⟨c (k + K0), by have := hc (k + K0); omega⟩)‖ ^ 2 *
          (((m + 1) * (H * (1 - 1 / (N (k + K0) : ℝ))) - u (i, q)) *
            ((n + 1) * (H * (1 - 1 / (N (k + K0) : ℝ))) - v (i, q))) +
        (2 * (pr * bf) / ((N (k + K0) : ℝ) - 1)) ^ 4 *
          ‖(P (k + K0)).F (⟨rr (k + K0), by have := hrr (k + K0); omega⟩, ⟨c (k + K0) + 1, hc _⟩)‖ ^ 2 *
          ((u (i, q) - m * (H * (1 - 1 / (N (k + K0) : ℝ)))) *
            ((n + 1) * (H * (1 - 1 / (N (k + K0) : ℝ))) - v (i, q))) +
        (2 * (pr * bf) / ((N (k + K0) : ℝ) - 1)) ^ 4 *
          ‖(P (k + K0)).F (⟨rr (k + K0) + 1, hrr _⟩, ⟨c (k + K0), by have := hc (k + K0); omega⟩)‖ ^ 2 *
          (((m + 1) * (H * (1 - 1 / (N (k + K0) : ℝ))) - u (i, q)) *
            (v (i, q) - n * (H * (1 - 1 / (N (k + K0) : ℝ))))) +
        (2 * (pr * bf) / ((N (k + K0) : ℝ) - 1)) ^ 4 *
          ‖(P (k + K0)).F (⟨rr (k + K0) + 1, hrr _⟩, ⟨c (k + K0) + 1, hc _⟩)‖ ^ 2 *
          ((u (i, q) - m * (H * (1 - 1 / (N (k + K0) : ℝ)))) *
            (v (i, q) - n * (H * (1 - 1 / (N (k + K0) : ℝ)))))) /
        (H * (1 - 1 / (N (k + K0) : ℝ)) * (H * (1 - 1 / (N (k + K0) : ℝ)))) := by
    intro k
    have hk := hbil (k + K0)
    rw [(hax _ _).1, (hax _ _).1, (hax _ _).2, (hax _ _).2] at hk
    have i1 : (((c (k + K0) : ℕ) : ℤ) - (N (k + K0) / 2 : ℕ) : ℤ) = m := by rw [ec]; ring
    have i2 : (((c (k + K0) + 1 : ℕ) : ℤ) - (N (k + K0) / 2 : ℕ) : ℤ) = m + 1 := by rw [Nat.cast_add, ec]; push_cast; ring
    have i3 : (((rr (k + K0) : ℕ) : ℤ) - (N (k + K0) / 2 : ℕ) : ℤ) = n := by rw [er]; ring
    have i4 : (((rr (k + K0) + 1 : ℕ) : ℤ) - (N (k + K0) / 2 : ℕ) : ℤ) = n + 1 := by rw [Nat.cast_add, er]; push_cast; ring
    simp only [i1, i2, i3, i4, Int.cast_add, Int.cast_one] at hk
    rw [eq_div_iff (mul_ne_zero (hstep0 k) (hstep0 k))]
    linear_combination (2 * (pr * bf) / ((N (k + K0) : ℝ) - 1)) ^ 4 * hk
  simp only [hform]
  have hlim : r = (‖Spec.fourierField A wavel (m * H) (n * H)‖ ^ 2 * (((m + 1) * H - u (i, q)) * ((n + 1) * H - v (i, q))) +
      ‖Spec.fourierField A wavel ((m + 1) * H) (n * H)‖ ^ 2 * ((u (i, q) - m * H) * ((n + 1) * H - v (i, q))) +
      ‖Spec.fourierField A wavel (m * H) ((n + 1) * H)‖ ^ 2 * (((m + 1) * H - u (i, q)) * (v (i, q) - n * H)) +
      ‖Spec.fourierField A wavel ((m + 1) * H) ((n + 1) * H)‖ ^ 2 * ((u (i, q) - m * H) * (v (i, q) - n * H))) /
      (H * H) := by
    rw [eq_div_iff (by positivity)]
    linear_combination hr
  have hdir : ∀ j : ℝ, j * wavel / (2 * (pr * bf)) = j * H := fun j => by rw [hH]; ring
  simp only [Int.cast_add, Int.cast_one, hdir] at p00 p10 p01 p11
  rw [hlim]
  have x1 := (hstep.const_mul ((m : ℝ) + 1)).sub_const (u (i, q))
  have x0 := (hstep.const_mul (m : ℝ)).const_sub (u (i, q))
  have y1 := (hstep.const_mul ((n : ℝ) + 1)).sub_const (v (i, q))
  have y0 := (hstep.const_mul (n : ℝ)).const_sub (v (i, q))
  exact ((((p00.mul (x1.mul y1)).add (p10.mul (x0.mul y1))).add (p01.mul (x1.mul y0))).add (p11.mul (x0.mul y0))).div
    (hstep.mul hstep) (by positivity)

/-- A direction 1.3 steps from the axis along `u` and 0.5 along `v`, resolutions 100, 101, and so on. -/
example (b : ℕ → Fin 1 → ℝ) (hb : ∀ k, Spec.Sampled (N := k + 100) [1, -14, 2, 0, 0, 0, 0.1, 0.2]
      (fun _ => 1.3 * (0.009 / (2 * (50 * 5)))) (fun _ => 0.5 * (0.009 / (2 * (50 * 5)))) (fun _ => 0.022) 0.009
      illumGauss (manualTel 50 3.25 1 20 30 387.39435) 5 0 (b k)) :
    ∃ A : ℝ × ℝ → ℂ, Tendsto (fun k : ℕ => (2 * (50 * 5) / (((k + 100 : ℕ) : ℝ) - 1)) ^ 4 * b k 0) atTop
      (𝓝 (0.35 * ‖Spec.fourierField A 0.009 (1 * (0.009 / (2 * (50 * 5)))) (0 * (0.009 / (2 * (50 * 5))))‖ ^ 2 +
        0.15 * ‖Spec.fourierField A 0.009 ((1 + 1) * (0.009 / (2 * (50 * 5)))) (0 * (0.009 / (2 * (50 * 5))))‖ ^ 2 +
        0.35 * ‖Spec.fourierField A 0.009 (1 * (0.009 / (2 * (50 * 5)))) ((0 + 1) * (0.009 / (2 * (50 * 5))))‖ ^ 2 +
        0.15 * ‖Spec.fourierField A 0.009 ((1 + 1) * (0.009 / (2 * (50 * 5)))) ((0 + 1) * (0.009 / (2 * (50 * 5))))‖ ^ 2)) := by
  obtain ⟨hpr, A, hA, hR⟩ := C96_shipped [1, -14, 2, 0, 0] [0, 0.1, 0.2] 0.022 0.009 50 5 _ _
    (Spec.Shipped.manualGauss 50 3.25 1 20 30 387.39435 1 (-14) 0 0 [2]) (by norm_num) (by norm_num) 1 rfl
  refine ⟨A, C117_limit [1, -14, 2, 0, 0, 0, 0.1, 0.2] _ _ (fun _ => 0.022) 0.009 50 5 _ _ A (by norm_num) (by norm_num) (by norm_num) hpr 0 hA hR
    (fun k => k + 100) (tendsto_add_atTop_nat 100) b hb 0 1 0 (by norm_num) (by norm_num) (by norm_num) (by norm_num) _ ?_⟩
  unfold Spec.isBilinear
  rw [Int.cast_one, Int.cast_zero]
  ring

end Verif.Props
