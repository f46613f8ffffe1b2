import Verif.Lemmas.FineEdge
import Verif.Lemmas.RiemannRate
import Verif.Props.Angle
import Verif.Props.Converge
import Mathlib.Analysis.SpecialFunctions.Pow.Deriv
import Mathlib.Analysis.SpecialFunctions.Complex.Analytic
import Mathlib.MeasureTheory.Function.Floor

/-!
# C129: how fast finer grids converge
-/

namespace Verif.Props

open Verif Verif.Np Verif.Aperture Verif.Telgeometry Verif.Riemann Verif.Fine MeasureTheory Filter Topology

/-! ## Specification -/

/-- Bounded by `M`; and for every step `δ` up to the side of the box, off a set of area `κ δ` a move of at most `δ` along
each axis changes the value by at most `L δ`. -/
def Spec.Jumps (A : ℝ × ℝ → ℂ) (R M L κ : ℝ) : Prop :=
  (∀ p, ‖A p‖ ≤ M) ∧ ∀ δ, 0 < δ → δ ≤ 2 * R → ∃ E : Set (ℝ × ℝ), volume E ≤ ENNReal.ofReal (κ * δ) ∧
    ∀ p q : ℝ × ℝ, p ∉ E → |p.1 - q.1| ≤ δ → |p.2 - q.2| ≤ δ → ‖A p - A q‖ ≤ L * δ

/-- The telescopes and illuminations of the package, with coefficients for which the illumination has a slope. -/
inductive Spec.Sloped : ℝ → List ℝ → (∀ ι : Type, Illum ι) → (∀ ι : Type, TelGeo ι) → Prop
  | manualParabolic (pr sr a L Fp F i c q x0 y0 : ℝ) (hq : 1 ≤ q) :
      Spec.Sloped pr [i, c, q, x0, y0] (fun _ => illumParabolic) fun _ => manualTel pr sr a L Fp F
  | manualGauss (pr sr a L Fp F i c x0 y0 : ℝ) (mid : List ℝ) :
      Spec.Sloped pr (i :: c :: (mid ++ [x0, y0])) (fun _ => illumGauss) fun _ => manualTel pr sr a L Fp F
  | effelsbergParabolic (alpha i c q x0 y0 : ℝ) (h0 : 0 ≤ alpha) (h1 : alpha < Real.pi / 2) (hq : 1 ≤ q) :
      Spec.Sloped 50 [i, c, q, x0, y0] (fun _ => illumParabolic) fun _ => ⟨blockEffelsberg alpha, opdEffelsberg, 50⟩
  | effelsbergGauss (alpha i c x0 y0 : ℝ) (mid : List ℝ) (h0 : 0 ≤ alpha) (h1 : alpha < Real.pi / 2) :
      Spec.Sloped 50 (i :: c :: (mid ++ [x0, y0])) (fun _ => illumGauss) fun _ =>
        ⟨blockEffelsberg alpha, opdEffelsberg, 50⟩

/-! ## The rate -/

theorem wave_norm (t : ℝ) : ‖Complex.exp (-(2 * Real.pi * Complex.I) * (t : ℂ))‖ = 1 := by
  rw [show -(2 * Real.pi * Complex.I) * (t : ℂ) = ((-(2 * Real.pi * t) : ℝ) : ℂ) * Complex.I by push_cast; ring]
  exact Complex.norm_exp_ofReal_mul_I _

theorem wave_sub (s t : ℝ) : ‖Complex.exp (-(2 * Real.pi * Complex.I) * (s : ℂ)) -
    Complex.exp (-(2 * Real.pi * Complex.I) * (t : ℂ))‖ ≤ 2 * Real.pi * |s - t| := by
  have e : ∀ t : ℝ, -(2 * Real.pi * Complex.I) * (t : ℂ) = Complex.I * ((-(2 * Real.pi * t) : ℝ) : ℂ) := fun t => by
    push_cast; ring
  rw [e, e]
  have h : Complex.exp (Complex.I * ((-(2 * Real.pi * s) : ℝ) : ℂ)) - Complex.exp (Complex.I * ((-(2 * Real.pi * t) : ℝ) : ℂ)) =
      Complex.exp (Complex.I * ((-(2 * Real.pi * t) : ℝ) : ℂ)) *
        (Complex.exp (Complex.I * ((-(2 * Real.pi * (s - t)) : ℝ) : ℂ)) - 1) := by
    rw [mul_sub, ← Complex.exp_add, mul_one]
    congr 2
    push_cast
    ring
  rw [h, norm_mul, mul_comm Complex.I, Complex.norm_exp_ofReal_mul_I, one_mul]
  refine (Real.norm_exp_I_mul_ofReal_sub_one_le).trans (le_of_eq ?_)
  rw [Real.norm_eq_abs, abs_neg, abs_mul, abs_of_pos (by have := Real.pi_pos; positivity)]

/-- The computed field, scaled, is the sum over the grid of the integrand. -/
theorem scaled_sum (I K : List ℝ) (dz wavel pr bf : ℝ) (illum : ∀ ι : Type, Illum ι) (tel : ∀ ι : Type, TelGeo ι)
    (A : ℝ × ℝ → ℂ) (h0 : 0 < pr) (hbf : 0 < bf) (hw : wavel ≠ 0) (hpr : ∀ ι, (tel ι).pr = pr)
    (hA : Spec.IsAperture A I K dz wavel illum tel) (N : ℕ) (P : Pattern N)
    (hP : radiationPattern I K dz wavel (illum _) (tel _) bf = .ok P) (i j : Fin N) :
    (((2 * (pr * bf) / ((N : ℝ) - 1)) ^ 2 : ℝ) : ℂ) *
      Complex.exp (2 * Real.pi * Complex.I * ((pr * bf * (P.u j + P.v i) / wavel : ℝ) : ℂ)) * P.F (i, j) =
    ∑ a ∈ Finset.range N, ∑ b ∈ Finset.range N,
      (((2 * (pr * bf) / ((N : ℝ) - 1)) * (2 * (pr * bf) / ((N : ℝ) - 1)) : ℝ) : ℂ) *
        (fun p : ℝ × ℝ => A p * Complex.exp (-(2 * Real.pi * Complex.I) * (((p.1 * P.u j + p.2 * P.v i) / wavel : ℝ) : ℂ)))
          (-(pr * bf) + b * (2 * (pr * bf) / ((N : ℝ) - 1)), -(pr * bf) + a * (2 * (pr * bf) / ((N : ℝ) - 1))) := by
  obtain ⟨E, hE, hF⟩ := C15_fourier_sum I K dz wavel N (illum _) (tel _) bf P
    (by rw [hpr]; exact h0.ne') hbf.ne' hw hP
  rw [hA, Except.ok.injEq] at hE
  rw [hF, Finset.sum_range]
  rw [Finset.mul_sum]
  refine Finset.sum_congr rfl fun a _ => ?_
  rw [Finset.sum_range, Finset.mul_sum]
  refine Finset.sum_congr rfl fun b _ => ?_
  rw [← hE, hpr]
  have e1 : ∀ c : Fin N, Spec.gridPoint pr bf N c = -(pr * bf) + (c : ℕ) * (2 * (pr * bf) / ((N : ℝ) - 1)) := by
    intro c
    unfold Spec.gridPoint
    ring
  have e2 : 2 * pr * bf / ((N : ℝ) - 1) = 2 * (pr * bf) / ((N : ℝ) - 1) := by ring
  dsimp only
  rw [e1, e1, e2]
  generalize 2 * (pr * bf) / ((N : ℝ) - 1) = h
  generalize P.u j = s
  generalize P.v i = t
  generalize A _ = w
  have hexp : Complex.exp (-(2 * Real.pi * Complex.I) *
      ((((-(pr * bf) + (b : ℕ) * h) * s + (-(pr * bf) + (a : ℕ) * h) * t) / wavel : ℝ) : ℂ)) =
      Complex.exp (2 * Real.pi * Complex.I * ((pr * bf * (s + t) / wavel : ℝ) : ℂ)) *
      Complex.exp (-(2 * Real.pi * Complex.I) * (((((b : ℕ) * h) * s + ((a : ℕ) * h) * t) / wavel : ℝ) : ℂ)) := by
    rw [← Complex.exp_add]
    congr 1
    push_cast
    ring
  rw [hexp]
  push_cast
  ring

/-- A function that is continuous almost everywhere is measurable. -/
theorem measurable_of_ae_continuous {A : ℝ × ℝ → ℂ} (h : ∀ᵐ p, ContinuousAt A p) : AEStronglyMeasurable A := by
  have hm : ∀ k : ℕ, Measurable fun p : ℝ × ℝ => A (low 0 (1 / ((k : ℝ) + 1)) p.1, low 0 (1 / ((k : ℝ) + 1)) p.2) := by
    intro k
    have h1 : Measurable fun z : ℤ × ℤ => A (-0 + (z.1 : ℝ) * (1 / ((k : ℝ) + 1)), -0 + (z.2 : ℝ) * (1 / ((k : ℝ) + 1))) :=
      Measurable.of_discrete
    have h2 : Measurable fun p : ℝ × ℝ => ((⌊(p.1 + 0) / (1 / ((k : ℝ) + 1))⌋, ⌊(p.2 + 0) / (1 / ((k : ℝ) + 1))⌋) : ℤ × ℤ) :=
      (Int.measurable_floor.comp (by fun_prop)).prodMk (Int.measurable_floor.comp (by fun_prop))
    exact h1.comp h2
  refine aestronglyMeasurable_of_tendsto_ae atTop (fun k => (hm k).aestronglyMeasurable) ?_
  filter_upwards [h] with p hp
  refine hp.tendsto.comp ?_
  have hlim := tendsto_one_div_add_atTop_nhds_zero_nat (𝕜 := ℝ)
  have near : ∀ t, Tendsto (fun k : ℕ => low 0 (1 / ((k : ℝ) + 1)) t) atTop (𝓝 t) := fun t =>
    tendsto_iff_dist_tendsto_zero.2 (squeeze_zero (fun _ => dist_nonneg)
      (fun k => low_near (by positivity) t) hlim)
  exact (near p.1).prodMk_nhds (near p.2)

/-- The sum over the grid of the integrand. -/
theorem field_rate {A : ℝ × ℝ → ℂ} {R wavel M L κ : ℝ} (hR0 : 0 < R) (hR : Spec.Piecewise A R) (hL : 0 ≤ L) (hκ : 0 ≤ κ)
    (hJ : Spec.Jumps A R M L κ) {N : ℕ} (hN2 : 2 ≤ N) (u v : ℝ) :
    ‖∑ a ∈ Finset.range N, ∑ b ∈ Finset.range N, (((2 * R / ((N : ℝ) - 1)) * (2 * R / ((N : ℝ) - 1)) : ℝ) : ℂ) *
        (fun p : ℝ × ℝ => A p * Complex.exp (-(2 * Real.pi * Complex.I) * (((p.1 * u + p.2 * v) / wavel : ℝ) : ℂ)))
          (-R + b * (2 * R / ((N : ℝ) - 1)), -R + a * (2 * R / ((N : ℝ) - 1))) - Spec.fourierField A wavel u v‖ ≤
      (16 * R ^ 2 * (L + 2 * Real.pi * M * ((|u| + |v|) / |wavel|)) + 2 * M * κ) * (2 * R / ((N : ℝ) - 1)) := by
  have hpi := Real.pi_pos
  obtain ⟨hM, hJ⟩ := hJ
  obtain ⟨-, hz, hc⟩ := hR
  have hM0 : 0 ≤ M := (norm_nonneg _).trans (hM 0)
  have hn1 : (1 : ℝ) ≤ (N : ℝ) - 1 := by
    have : (2 : ℝ) ≤ N := by exact_mod_cast hN2
    linarith
  obtain ⟨h, hh⟩ : ∃ h, h = 2 * R / ((N : ℝ) - 1) := ⟨_, rfl⟩
  have hpos : 0 < h := by rw [hh]; exact div_pos (by linarith) (by linarith)
  have hle : h ≤ 2 * R := by rw [hh]; exact div_le_self (by linarith) hn1
  obtain ⟨E, hv, hE⟩ := hJ h hpos hle
  rw [← hh]
  have key : ∀ G : ℝ × ℝ → ℂ, (∀ p, G p = A p * Complex.exp (-(2 * Real.pi * Complex.I) *
      (((p.1 * u + p.2 * v) / wavel : ℝ) : ℂ))) →
      ‖∑ a ∈ Finset.range N, ∑ b ∈ Finset.range N, ((h * h : ℝ) : ℂ) * G (-R + b * h, -R + a * h) - ∫ p, G p‖ ≤
        16 * R ^ 2 * ((L + 2 * Real.pi * M * ((|u| + |v|) / |wavel|)) * h) + 2 * M * (κ * h) := by
    intro G hG
    refine sum_rate hR0 hN2 hh G ?_ ?_ ?_ (by positivity) (by positivity) (toMeasurable volume E)
      (measurableSet_toMeasurable _ _) (by rwa [measure_toMeasurable]) ?_
    · rw [funext hG]
      refine (measurable_of_ae_continuous hc).mul (Continuous.aestronglyMeasurable ?_)
      fun_prop
    · intro p
      rw [hG, norm_mul, wave_norm, mul_one]
      exact hM p
    · intro p hp
      rw [hG, hz p hp, zero_mul]
    · intro p q hp h1 h2
      have a := hE p q (fun e => hp (subset_toMeasurable _ _ e)) h1 h2
      rw [hG, hG]
      generalize hwp : Complex.exp (-(2 * Real.pi * Complex.I) * (((p.1 * u + p.2 * v) / wavel : ℝ) : ℂ)) = wp
      generalize hwq : Complex.exp (-(2 * Real.pi * Complex.I) * (((q.1 * u + q.2 * v) / wavel : ℝ) : ℂ)) = wq
      have np : ‖wp‖ = 1 := hwp ▸ wave_norm _
      have b : ‖wp - wq‖ ≤ 2 * Real.pi * (h * ((|u| + |v|) / |wavel|)) := by
        rw [← hwp, ← hwq]
        refine (wave_sub _ _).trans (mul_le_mul_of_nonneg_left ?_ (by positivity))
        rw [← sub_div, abs_div, mul_div_assoc']
        refine div_le_div_of_nonneg_right ?_ (abs_nonneg _)
        rw [show p.1 * u + p.2 * v - (q.1 * u + q.2 * v) = (p.1 - q.1) * u + (p.2 - q.2) * v by ring]
        refine (abs_add_le _ _).trans ?_
        rw [abs_mul, abs_mul]
        have c1 := mul_le_mul_of_nonneg_right h1 (abs_nonneg u)
        have c2 := mul_le_mul_of_nonneg_right h2 (abs_nonneg v)
        linarith
      rw [show A p * wp - A q * wq = (A p - A q) * wp + A q * (wp - wq) by ring]
      refine (norm_add_le _ _).trans ?_
      rw [norm_mul, norm_mul, np, mul_one]
      have c := mul_le_mul (hM q) b (norm_nonneg _) hM0
      linarith
  unfold Spec.fourierField
  refine (key _ fun p => rfl).trans (le_of_eq ?_)
  ring

/-- **C129** the computed field, times the area of an aperture pixel and the phase of the corner of the box, differs
from the Fourier integral in the direction of the pixel by at most a constant times the step of the grid. -/
theorem C129_rate (I K : List ℝ) (dz wavel pr bf : ℝ) (illum : ∀ ι : Type, Illum ι) (tel : ∀ ι : Type, TelGeo ι)
    (A : ℝ × ℝ → ℂ) (h0 : 0 < pr) (hbf : 0 < bf) (hw : wavel ≠ 0) (hpr : ∀ ι, (tel ι).pr = pr)
    (hA : Spec.IsAperture A I K dz wavel illum tel) (hR : Spec.Piecewise A (pr * bf)) (M L κ : ℝ) (hL : 0 ≤ L) (hκ : 0 ≤ κ)
    (hJ : Spec.Jumps A (pr * bf) M L κ) (N : ℕ) (P : Pattern N)
    (hP : radiationPattern I K dz wavel (illum _) (tel _) bf = .ok P) (i j : Fin N) :
    ‖(((2 * (pr * bf) / ((N : ℝ) - 1)) ^ 2 : ℝ) : ℂ) *
        Complex.exp (2 * Real.pi * Complex.I * ((pr * bf * (P.u j + P.v i) / wavel : ℝ) : ℂ)) * P.F (i, j) -
        Spec.fourierField A wavel (P.u j) (P.v i)‖ ≤
      (16 * (pr * bf) ^ 2 * (L + 2 * Real.pi * M * ((|P.u j| + |P.v i|) / |wavel|)) + 2 * M * κ) *
        (2 * (pr * bf) / ((N : ℝ) - 1)) := by
  have hN2 : 2 ≤ N := (radiationPattern_ok hP).1
  rw [scaled_sum I K dz wavel pr bf illum tel A h0 hbf hw hpr hA N P hP i j]
  exact field_rate (mul_pos h0 hbf) hR hL hκ hJ hN2 _ _

end Verif.Props
