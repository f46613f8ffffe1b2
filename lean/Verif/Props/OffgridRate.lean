import Verif.Lemmas.RiemannBox
import Verif.Props.ConvergePackage
import Verif.Props.Offgrid
import Mathlib.Analysis.Fourier.RiemannLebesgueLemma

/-!
# C130: the model beam in any direction against the Fourier integral
-/

namespace Verif.Props

open Verif Verif.Np Verif.Core Verif.Aperture Verif.Telgeometry Verif.Riemann Verif.Fine MeasureTheory Filter Topology

/-! ## The sums over the grid -/

/-- The sum over the grid of the integrand, for an aperture smaller than the box. -/
theorem field_within {A : ℝ × ℝ → ℂ} {r R wavel M L κ : ℝ} (hr : 0 < r) (hrR : r ≤ R) (hR : Spec.Piecewise A r)
    (hL : 0 ≤ L) (hκ : 0 ≤ κ) (hJ : Spec.Jumps A r M L κ) {N : ℕ} (hN2 : 2 ≤ N) (hle : 2 * R / ((N : ℝ) - 1) ≤ 2 * r)
    (u v : ℝ) :
    ‖∑ a ∈ Finset.range N, ∑ b ∈ Finset.range N, (((2 * R / ((N : ℝ) - 1)) * (2 * R / ((N : ℝ) - 1)) : ℝ) : ℂ) *
        (fun p : ℝ × ℝ => A p * Complex.exp (-(2 * Real.pi * Complex.I) * (((p.1 * u + p.2 * v) / wavel : ℝ) : ℂ)))
          (-R + b * (2 * R / ((N : ℝ) - 1)), -R + a * (2 * R / ((N : ℝ) - 1))) - Spec.fourierField A wavel u v‖ ≤
      (36 * r ^ 2 * (L + 2 * Real.pi * M * ((|u| + |v|) / |wavel|)) + 2 * M * κ) * (2 * R / ((N : ℝ) - 1)) := by
  have hpi := Real.pi_pos
  obtain ⟨hM, hJ⟩ := hJ
  obtain ⟨-, hz, hc⟩ := hR
  have hM0 : 0 ≤ M := (norm_nonneg _).trans (hM 0)
  have hn1 : (1 : ℝ) ≤ (N : ℝ) - 1 := by
    have : (2 : ℝ) ≤ N := by exact_mod_cast hN2
    linarith
  obtain ⟨h, hh⟩ : ∃ h, h = 2 * R / ((N : ℝ) - 1) := ⟨_, rfl⟩
  have hpos : 0 < h := by rw [hh]; exact div_pos (by linarith) (by linarith)
  rw [← hh] at hle
  obtain ⟨E, hv, hE⟩ := hJ h hpos hle
  rw [← hh]
  have key : ∀ G : ℝ × ℝ → ℂ, (∀ p, G p = A p * Complex.exp (-(2 * Real.pi * Complex.I) *
      (((p.1 * u + p.2 * v) / wavel : ℝ) : ℂ))) →
      ‖∑ a ∈ Finset.range N, ∑ b ∈ Finset.range N, ((h * h : ℝ) : ℂ) * G (-R + b * h, -R + a * h) - ∫ p, G p‖ ≤
        36 * r ^ 2 * ((L + 2 * Real.pi * M * ((|u| + |v|) / |wavel|)) * h) + 2 * M * (κ * h) := by
    intro G hG
    refine sum_rate_within hr hrR hle hN2 hh G ?_ ?_ ?_ (by positivity) (by positivity) (toMeasurable volume E)
      (measurableSet_toMeasurable _ _) (by rwa [measure_toMeasurable]) ?_
    · rw [funext hG]
      refine (measurable_of_ae_continuous hc).mul (Continuous.aestronglyMeasurable ?_)
      fun_prop
    · intro p
      rw [hG, norm_mul, wave_norm, mul_one]
      exact hM p
    · intro p hp
      rw [hG, hz p hp, zero_mul]
    · intro p q hp h1 h2
      have a := hE p q (fun e => hp (subset_toMeasurable _ _ e)) h1 h2
      rw [hG, hG]
      generalize hwp : Complex.exp (-(2 * Real.pi * Complex.I) * (((p.1 * u + p.2 * v) / wavel : ℝ) : ℂ)) = wp
      generalize hwq : Complex.exp (-(2 * Real.pi * Complex.I) * (((q.1 * u + q.2 * v) / wavel : ℝ) : ℂ)) = wq
      have np : ‖wp‖ = 1 := hwp ▸ wave_norm _
      have b : ‖wp - wq‖ ≤ 2 * Real.pi * (h * ((|u| + |v|) / |wavel|)) := by
        rw [← hwp, ← hwq]
        refine (wave_sub _ _).trans (mul_le_mul_of_nonneg_left ?_ (by positivity))
        rw [← sub_div, abs_div, mul_div_assoc']
        refine div_le_div_of_nonneg_right ?_ (abs_nonneg _)
        rw [show p.1 * u + p.2 * v - (q.1 * u + q.2 * v) = (p.1 - q.1) * u + (p.2 - q.2) * v by ring]
        refine (abs_add_le _ _).trans ?_
        rw [abs_mul, abs_mul]
        have c1 := mul_le_mul_of_nonneg_right h1 (abs_nonneg u)
        have c2 := mul_le_mul_of_nonneg_right h2 (abs_nonneg v)
        linarith
      rw [show A p * wp - A q * wq = (A p - A q) * wp + A q * (wp - wq) by ring]
      refine (norm_add_le _ _).trans ?_
      rw [norm_mul, norm_mul, np, mul_one]
      have c := mul_le_mul (hM q) b (norm_nonneg _) hM0
      linarith
  unfold Spec.fourierField
  refine (key _ fun p => rfl).trans (le_of_eq ?_)
  ring

/-- The sum of the amplitudes, times the area of a pixel. -/
theorem amplitude_within {A : ℝ × ℝ → ℂ} {r R M : ℝ} (hr : 0 < r) (hrR : r ≤ R) (hR : Spec.Piecewise A r)
    (hM : ∀ p, ‖A p‖ ≤ M) {N : ℕ} (hN2 : 2 ≤ N) {h : ℝ} (hh : h = 2 * R / ((N : ℝ) - 1)) (hle : h ≤ 2 * r) :
    h ^ 2 * ∑ a ∈ Finset.range N, ∑ b ∈ Finset.range N, ‖A (-R + b * h, -R + a * h)‖ ≤ 40 * r ^ 2 * M := by
  obtain ⟨-, hz, hc⟩ := hR
  have hM0 : 0 ≤ M := (norm_nonneg _).trans (hM 0)
  let G : ℝ × ℝ → ℂ := fun p => ((‖A p‖ : ℝ) : ℂ)
  have hG : ∀ p, ‖G p‖ = ‖A p‖ := fun p => by dsimp only [G]; rw [Complex.norm_real, norm_norm]
  have hGz : ∀ p : ℝ × ℝ, r < |p.1| ∨ r < |p.2| → G p = 0 := fun p hp => by
    dsimp only [G]; rw [hz p hp, norm_zero, Complex.ofReal_zero]
  have h1 := sum_rate_within (L := M) (κ := 0) hr hrR hle hN2 hh G
    (Complex.continuous_ofReal.comp_aestronglyMeasurable (measurable_of_ae_continuous hc).norm)
    (fun p => by rw [hG]; exact hM p) hGz hM0 le_rfl ∅ MeasurableSet.empty (by simp) fun p q _ _ _ => by
      dsimp only [G]
      rw [← Complex.ofReal_sub, Complex.norm_real, Real.norm_eq_abs, abs_le]
      have := hM p
      have := hM q
      have := norm_nonneg (A p)
      have := norm_nonneg (A q)
      constructor <;> linarith
  have h2 := box_norm hr.le (fun p => by rw [hG]; exact hM p) hGz
  have h3 : ∑ a ∈ Finset.range N, ∑ b ∈ Finset.range N, ((h * h : ℝ) : ℂ) * G (-R + b * h, -R + a * h) =
      ((h ^ 2 * ∑ a ∈ Finset.range N, ∑ b ∈ Finset.range N, ‖A (-R + b * h, -R + a * h)‖ : ℝ) : ℂ) := by
    rw [Finset.mul_sum, Complex.ofReal_sum]
    refine Finset.sum_congr rfl fun a _ => ?_
    rw [Finset.mul_sum, Complex.ofReal_sum]
    refine Finset.sum_congr rfl fun b _ => ?_
    dsimp only [G]
    push_cast
    ring
  rw [h3] at h1
  have h4 := norm_sub_norm_le ((h ^ 2 * ∑ a ∈ Finset.range N, ∑ b ∈ Finset.range N, ‖A (-R + b * h, -R + a * h)‖ : ℝ) : ℂ)
    (∫ p, G p)
  rw [Complex.norm_real, Real.norm_eq_abs] at h4
  have h5 := le_abs_self (h ^ 2 * ∑ a ∈ Finset.range N, ∑ b ∈ Finset.range N, ‖A (-R + b * h, -R + a * h)‖)
  linarith

theorem square_near {a b : ℂ} {m ε : ℝ} (ha : ‖a‖ ≤ m) (hb : ‖b‖ ≤ m) (h : ‖a - b‖ ≤ ε) :
    |‖a‖ ^ 2 - ‖b‖ ^ 2| ≤ 2 * m * ε := by
  have h1 := abs_norm_sub_norm_le a b
  have h2 : 0 ≤ ‖a‖ + ‖b‖ := by positivity
  rw [show ‖a‖ ^ 2 - ‖b‖ ^ 2 = (‖a‖ + ‖b‖) * (‖a‖ - ‖b‖) by ring, abs_mul, abs_of_nonneg h2]
  exact mul_le_mul (by linarith) (h1.trans h) (abs_nonneg _) (by linarith)

/-! ## The beam -/

/-- **C130** the model beam at a sample of the map, wherever it lies between the nodes: the scaled beam differs from the
power of the Fourier integral of the aperture in that direction by a term in proportion to the step of the grid and one
in proportion to the inverse square of the box factor.  Neither constant knows the grid. -/
theorem C130_beam {N M' : ℕ} (params : List ℝ) (u v : Fin 3 × Fin M' → ℝ) (dz : Fin 3 → ℝ) (wavel pr bf : ℝ)
    (illum : ∀ ι : Type, Illum ι) (tel : ∀ ι : Type, TelGeo ι) (A : ℝ × ℝ → ℂ) (h0 : 0 < pr) (hbf : 1 ≤ bf)
    (hw : 0 < wavel) (hpr : ∀ ι, (tel ι).pr = pr) (i : Fin 3)
    (hA : Spec.IsAperture A (params.take 5) (params.drop 5) (dz i) wavel illum tel) (hR : Spec.Piecewise A pr)
    (M L κ : ℝ) (hL : 0 ≤ L) (hκ : 0 ≤ κ) (hJ : Spec.Jumps A pr M L κ) (hN : bf ≤ (N : ℝ) - 1) (b : Fin M' → ℝ)
    (hb : Spec.Sampled params u v dz wavel (illum _) (tel (Fin N × Fin N)) bf i b) (k : Fin M') :
    |(2 * (pr * bf) / ((N : ℝ) - 1)) ^ 4 * b k - ‖Spec.fourierField A wavel (u (i, k)) (v (i, k))‖ ^ 2| ≤
      80 * pr ^ 2 * M * (36 * pr ^ 2 * (L + 2 * Real.pi * M * ((|u (i, k)| + |v (i, k)|) / wavel)) + 2 * M * κ) *
        (2 * (pr * bf) / ((N : ℝ) - 1)) + 800 * Real.pi ^ 2 * pr ^ 4 * M ^ 2 / bf ^ 2 := by
  have hbf0 : 0 < bf := by linarith
  have hM0 : 0 ≤ M := (norm_nonneg _).trans (hJ.1 0)
  have hN2 : 2 ≤ N := by
    have : (2 : ℝ) ≤ N := by linarith
    exact_mod_cast this
  have hn0 : (0 : ℝ) < (N : ℝ) - 1 := by linarith
  have hrR : pr ≤ pr * bf := le_mul_of_one_le_right h0.le hbf
  have hle : 2 * (pr * bf) / ((N : ℝ) - 1) ≤ 2 * pr := by
    rw [div_le_iff₀ hn0]
    nlinarith [mul_le_mul_of_nonneg_left hN h0.le]
  let E : Fin N × Fin N → ℂ := fun q => A (Spec.gridPoint pr bf N q.2, Spec.gridPoint pr bf N q.1)
  have hE : aperture (fun q : Fin N × Fin N => Spec.gridPoint (tel (Fin N × Fin N)).pr bf N q.2)
      (fun q => Spec.gridPoint (tel (Fin N × Fin N)).pr bf N q.1) (params.take 5) (params.drop 5) (dz i) wavel (illum _)
      (tel (Fin N × Fin N)) = .ok E := by
    rw [hpr]
    exact hA _ _ _
  have h1 := C117_between params u v dz wavel (illum _) (tel (Fin N × Fin N)) bf (by rw [hpr]; exact h0) hbf0 hw i b hb E hE k
  rw [hpr] at h1
  have hrate := field_within (wavel := wavel) h0 hrR hR hL hκ hJ hN2 hle (u (i, k)) (v (i, k))
  have hamp := amplitude_within h0 hrR hR hJ.1 hN2 rfl hle
  have hg : ∀ c : Fin N, Spec.gridPoint pr bf N c = -(pr * bf) + (c : ℕ) * (2 * (pr * bf) / ((N : ℝ) - 1)) := by
    intro c
    unfold Spec.gridPoint
    ring
  have hS : ∑ q, ‖E q‖ = ∑ a ∈ Finset.range N, ∑ b ∈ Finset.range N,
      ‖A (-(pr * bf) + b * (2 * (pr * bf) / ((N : ℝ) - 1)), -(pr * bf) + a * (2 * (pr * bf) / ((N : ℝ) - 1)))‖ := by
    rw [Fintype.sum_prod_type, Finset.sum_range]
    refine Finset.sum_congr rfl fun a _ => ?_
    rw [Finset.sum_range]
    refine Finset.sum_congr rfl fun b _ => ?_
    dsimp only [E]
    rw [hg, hg]
  rw [← hS] at hamp
  have hspread : Spec.spreadOf E pr bf / pr ^ 2 ≤ 2 * ∑ q, ‖E q‖ := by
    rw [div_le_iff₀ (by positivity)]
    unfold Spec.spreadOf
    rw [Finset.mul_sum, Finset.sum_mul]
    refine Finset.sum_le_sum fun q _ => ?_
    by_cases hq : pr < |Spec.gridPoint pr bf N q.2| ∨ pr < |Spec.gridPoint pr bf N q.1|
    · have : E q = 0 := hR.2.1 _ hq
      rw [this]
      simp
    · push Not at hq
      have s1 := sq_le_sq' (abs_le.1 hq.1).1 (abs_le.1 hq.1).2
      have s2 := sq_le_sq' (abs_le.1 hq.2).1 (abs_le.1 hq.2).2
      nlinarith [mul_le_mul_of_nonneg_left (add_le_add s1 s2) (norm_nonneg (E q))]
  have hX : (2 * (pr * bf) / ((N : ℝ) - 1)) ^ 4 * Spec.exactPower E pr bf wavel (u (i, k)) (v (i, k)) =
      ‖∑ a ∈ Finset.range N, ∑ b ∈ Finset.range N,
        (((2 * (pr * bf) / ((N : ℝ) - 1)) * (2 * (pr * bf) / ((N : ℝ) - 1)) : ℝ) : ℂ) *
        (fun p : ℝ × ℝ => A p * Complex.exp (-(2 * Real.pi * Complex.I) *
          (((p.1 * u (i, k) + p.2 * v (i, k)) / wavel : ℝ) : ℂ)))
          (-(pr * bf) + b * (2 * (pr * bf) / ((N : ℝ) - 1)), -(pr * bf) + a * (2 * (pr * bf) / ((N : ℝ) - 1)))‖ ^ 2 := by
    unfold Spec.exactPower
    have : ∀ z : ℂ, (2 * (pr * bf) / ((N : ℝ) - 1)) ^ 4 * ‖z‖ ^ 2 =
        ‖(((2 * (pr * bf) / ((N : ℝ) - 1)) * (2 * (pr * bf) / ((N : ℝ) - 1)) : ℝ) : ℂ) * z‖ ^ 2 := by
      intro z
      rw [norm_mul, Complex.norm_real, mul_pow, Real.norm_eq_abs, sq_abs]
      ring
    rw [this, Finset.mul_sum, Finset.sum_range]
    congr 2
    refine Finset.sum_congr rfl fun a _ => ?_
    rw [Finset.mul_sum, Finset.sum_range]
    refine Finset.sum_congr rfl fun b _ => ?_
    dsimp only [E]
    rw [← hg, ← hg]
    congr 3
    push_cast
    ring
  generalize hz : (∑ a ∈ Finset.range N, ∑ b ∈ Finset.range N,
        (((2 * (pr * bf) / ((N : ℝ) - 1)) * (2 * (pr * bf) / ((N : ℝ) - 1)) : ℝ) : ℂ) *
        (fun p : ℝ × ℝ => A p * Complex.exp (-(2 * Real.pi * Complex.I) *
          (((p.1 * u (i, k) + p.2 * v (i, k)) / wavel : ℝ) : ℂ)))
          (-(pr * bf) + b * (2 * (pr * bf) / ((N : ℝ) - 1)), -(pr * bf) + a * (2 * (pr * bf) / ((N : ℝ) - 1)))) = z
    at hX hrate
  have hh0 : 0 < 2 * (pr * bf) / ((N : ℝ) - 1) := by positivity
  have hz1 : ‖z‖ ≤ 40 * pr ^ 2 * M := by
    refine le_trans ?_ hamp
    rw [← hz, hS, Finset.mul_sum]
    refine norm_sum_le_of_le _ fun a _ => ?_
    rw [Finset.mul_sum]
    refine norm_sum_le_of_le _ fun b _ => ?_
    dsimp only
    rw [norm_mul, norm_mul, wave_norm, mul_one, Complex.norm_real, Real.norm_eq_abs, abs_of_pos (by positivity), pow_two]
  generalize 2 * (pr * bf) / ((N : ℝ) - 1) = h at *
  have hf := (field_norm h0.le hR hJ.1 wavel (u (i, k)) (v (i, k)))
  have hsq := square_near hz1 (hf.trans (by nlinarith [mul_nonneg (sq_nonneg pr) hM0])) hrate
  rw [← hX, abs_of_pos hw] at hsq
  have h2 : |h ^ 4 * b k - h ^ 4 * Spec.exactPower E pr bf wavel (u (i, k)) (v (i, k))| ≤
      800 * Real.pi ^ 2 * pr ^ 4 * M ^ 2 / bf ^ 2 := by
    rw [← mul_sub, abs_mul, abs_of_pos (by positivity)]
    have e1 := mul_le_mul_of_nonneg_left h1 (by positivity : 0 ≤ h ^ 4)
    have hs0 : 0 ≤ ∑ q, ‖E q‖ := Finset.sum_nonneg fun _ _ => norm_nonneg _
    have e2 := mul_le_mul_of_nonneg_left hspread (by positivity : 0 ≤ h ^ 4 * (Real.pi ^ 2 / (4 * bf ^ 2) * ∑ q, ‖E q‖))
    have e3 := mul_self_le_mul_self (by positivity) hamp
    have e4 := mul_le_mul_of_nonneg_left e3 (by positivity : 0 ≤ Real.pi ^ 2 / (2 * bf ^ 2))
    have e5 : Real.pi ^ 2 / (2 * bf ^ 2) * (40 * pr ^ 2 * M * (40 * pr ^ 2 * M)) =
        800 * Real.pi ^ 2 * pr ^ 4 * M ^ 2 / bf ^ 2 := by
      field_simp
      ring
    have e6 : h ^ 4 * (Real.pi ^ 2 / (4 * bf ^ 2) * ∑ q, ‖E q‖) * (2 * ∑ q, ‖E q‖) =
        Real.pi ^ 2 / (2 * bf ^ 2) * ((h ^ 2 * ∑ q, ‖E q‖) * (h ^ 2 * ∑ q, ‖E q‖)) := by
      field_simp
      ring
    rw [e5, ← e6] at e4
    linarith
  have h3 := abs_sub_le (h ^ 4 * b k) (h ^ 4 * Spec.exactPower E pr bf wavel (u (i, k)) (v (i, k)))
    (‖Spec.fourierField A wavel (u (i, k)) (v (i, k))‖ ^ 2)
  refine h3.trans ((add_le_add h2 hsq).trans (le_of_eq ?_))
  ring

/-- The ideal beam of map `i`: at each sample the power of the Fourier integral of the aperture. -/
noncomputable def Spec.idealBeam {M : ℕ} (A : Fin 3 → ℝ × ℝ → ℂ) (wavel : ℝ) (u v : Fin 3 × Fin M → ℝ) (i : Fin 3)
    (k : Fin M) : ℝ := ‖Spec.fourierField (A i) wavel (u (i, k)) (v (i, k))‖ ^ 2

/-- **C130** for the telescopes of the package one constant does for every grid, every box and every direction. -/
theorem C130_package (params : List ℝ) (dz : Fin 3 → ℝ) (wavel pr : ℝ) (illum : ∀ ι : Type, Illum ι)
    (tel : ∀ ι : Type, TelGeo ι) (h : Spec.Sloped pr (params.take 5) illum tel) (h0 : 0 < pr) (hw : 0 < wavel) (o : ℕ)
    (hK : (params.drop 5).length = (o + 1) * (o + 2) / 2) :
    ∃ (A : Fin 3 → ℝ × ℝ → ℂ) (C : ℝ),
      (∀ i, Spec.IsAperture (A i) (params.take 5) (params.drop 5) (dz i) wavel illum tel) ∧ 0 ≤ C ∧
      ∀ (N M : ℕ) (bf : ℝ), 1 ≤ bf → bf ≤ (N : ℝ) - 1 → ∀ (u v : Fin 3 × Fin M → ℝ) (i : Fin 3) (b : Fin M → ℝ),
        Spec.Sampled params u v dz wavel (illum _) (tel (Fin N × Fin N)) bf i b → ∀ k,
          |(2 * (pr * bf) / ((N : ℝ) - 1)) ^ 4 * b k - Spec.idealBeam A wavel u v i k| ≤
            C * ((1 + (|u (i, k)| + |v (i, k)|) / wavel) * (bf / ((N : ℝ) - 1)) + 1 / bf ^ 2) := by
  have hpi := Real.pi_pos
  have hsh := fun i => C129_shipped (params.take 5) (params.drop 5) (dz i) wavel pr 1 illum tel h h0 le_rfl o hK
  have hpr := (hsh 0).1
  choose A hA hR M L κ hL hκ hJ using fun i => (hsh i).2
  have hM0 : ∀ i, 0 ≤ M i := fun i => (norm_nonneg _).trans ((hJ i).1 0)
  let c : Fin 3 → ℝ := fun i => 160 * pr ^ 3 * M i * (36 * pr ^ 2 * (L i + 2 * Real.pi * M i) + 2 * M i * κ i) +
    800 * Real.pi ^ 2 * pr ^ 4 * M i ^ 2
  have hc0 : ∀ i, 0 ≤ c i := fun i => by
    have := hM0 i
    have := hL i
    have := hκ i
    dsimp only [c]
    positivity
  refine ⟨A, ∑ i, c i, hA, Finset.sum_nonneg fun i _ => hc0 i, fun N M' bf hbf hN u v i b hb k => ?_⟩
  have h1 := C130_beam params u v dz wavel pr bf illum tel (A i) h0 hbf hw hpr i (hA i) (by simpa using hR i) (M i) (L i)
    (κ i) (hL i) (hκ i) (by simpa using hJ i) hN b hb k
  refine h1.trans ?_
  have hn0 : (0 : ℝ) < (N : ℝ) - 1 := by linarith
  have hbf0 : 0 < bf := by linarith
  have hM := hM0 i
  have hLi := hL i
  have hκi := hκ i
  have ht : 0 ≤ (|u (i, k)| + |v (i, k)|) / wavel := by positivity
  generalize (|u (i, k)| + |v (i, k)|) / wavel = t at ht
  have hx : 0 ≤ (1 + t) * (bf / ((N : ℝ) - 1)) + 1 / bf ^ 2 := by positivity
  refine le_trans ?_ (mul_le_mul_of_nonneg_right (Finset.single_le_sum (fun j _ => hc0 j) (Finset.mem_univ i)) hx)
  have e1 : 2 * (pr * bf) / ((N : ℝ) - 1) = 2 * pr * (bf / ((N : ℝ) - 1)) := by ring
  have hs : 0 ≤ bf / ((N : ℝ) - 1) := by positivity
  have hq : 0 ≤ 1 / bf ^ 2 := by positivity
  have e2 : 800 * Real.pi ^ 2 * pr ^ 4 * M i ^ 2 / bf ^ 2 = 800 * Real.pi ^ 2 * pr ^ 4 * M i ^ 2 * (1 / bf ^ 2) := by ring
  rw [e1, e2]
  generalize bf / ((N : ℝ) - 1) = s at *
  generalize 1 / bf ^ 2 = q at *
  dsimp only [c]
  have d1 : 0 ≤ 160 * pr ^ 3 * M i * (36 * pr ^ 2 * (L i + 2 * Real.pi * M i) + 2 * M i * κ i) * q := by positivity
  have d2 : 0 ≤ 800 * Real.pi ^ 2 * pr ^ 4 * M i ^ 2 * ((1 + t) * s) := by positivity
  have d3 : 0 ≤ 160 * pr ^ 3 * M i * s * (36 * pr ^ 2 * (L i * t + 2 * Real.pi * M i) + 2 * M i * κ i * t) := by positivity
  nlinarith [d1, d2, d3]

/-! ## The residual -/

/-- **C130** whatever the data, each entry of the residual differs from the data, normalised, less the normalised ideal
beam, by at most twice that bound over the spread of the ideal beam in the map. -/
theorem C130_residual (params : List ℝ) (dz : Fin 3 → ℝ) (wavel pr : ℝ) (illum : ∀ ι : Type, Illum ι)
    (tel : ∀ ι : Type, TelGeo ι) (h : Spec.Sloped pr (params.take 5) illum tel) (h0 : 0 < pr) (hw : 0 < wavel) (o : ℕ)
    (hK : (params.drop 5).length = (o + 1) * (o + 2) / 2) :
    ∃ (A : Fin 3 → ℝ × ℝ → ℂ) (C : ℝ),
      (∀ i, Spec.IsAperture (A i) (params.take 5) (params.drop 5) (dz i) wavel illum tel) ∧ 0 ≤ C ∧
      ∀ (N M : ℕ) (bf : ℝ), 1 ≤ bf → bf ≤ (N : ℝ) - 1 → ∀ (beam : Fin 3 × Fin M → Fl) (u v : Fin 3 × Fin M → ℝ) (D : ℝ),
        (∀ q, |u q| + |v q| ≤ D) → ∀ r,
        residualTrue params beam u v dz wavel (illum _) (tel (Fin N × Fin N)) bf = .ok r → ∀ i, ∃ nd nm,
          MathFn.norm (fun k => beam (i, k)) = .ok nd ∧
          MathFn.norm (fun k => Fl.fin (Spec.idealBeam A wavel u v i k)) = .ok nm ∧
          ∀ k : Fin M, ∃ x, r[(i : ℕ) * M + k]? = some x ∧ ∀ s t,
            |x - (nd k - nm k)| * (Spec.idealBeam A wavel u v i t - Spec.idealBeam A wavel u v i s) ≤
              C * ((1 + D / wavel) * (bf / ((N : ℝ) - 1)) + 1 / bf ^ 2) := by
  obtain ⟨A, C, hA, hC, hb⟩ := C130_package params dz wavel pr illum tel h h0 hw o hK
  refine ⟨A, 2 * C, hA, by linarith, fun N M bf hbf hN beam u v D hD r hr i => ?_⟩
  obtain ⟨hM, -, -, hrow⟩ := C42_layout params beam u v dz wavel (illum _) (tel (Fin N × Fin N)) bf r hr
  obtain ⟨b, nd, nb, hS, hnd, hnb, hval⟩ := hrow i
  have : Nonempty (Fin M) := ⟨⟨0, hM⟩⟩
  have hn0 : (0 : ℝ) < (N : ℝ) - 1 := by linarith
  have hh0 : 0 < (2 * (pr * bf) / ((N : ℝ) - 1)) ^ 4 := by
    have : 0 < bf := by linarith
    positivity
  have hs0 : 0 ≤ bf / ((N : ℝ) - 1) := div_nonneg (by linarith) hn0.le
  obtain ⟨nm, nb', e1, e2, e3⟩ := C97_norm (Spec.idealBeam A wavel u v i)
    (fun k => (2 * (pr * bf) / ((N : ℝ) - 1)) ^ 4 * b k) (C * ((1 + D / wavel) * (bf / ((N : ℝ) - 1)) + 1 / bf ^ 2))
    fun k => by
      rw [abs_sub_comm]
      refine (hb N M bf hbf hN u v i b hS k).trans (mul_le_mul_of_nonneg_left ?_ hC)
      have := div_le_div_of_nonneg_right (hD (i, k)) hw.le
      have := mul_le_mul_of_nonneg_right (add_le_add_right this 1) hs0
      linarith
  have e4 := C28_affine b ((2 * (pr * bf) / ((N : ℝ) - 1)) ^ 4) 0 hh0
  simp only [add_zero] at e4
  rw [e4, hnb] at e2
  cases e2
  refine ⟨nd, nm, hnd, e1, fun k => ⟨_, hval k, fun s t => ?_⟩⟩
  have := e3 k s t
  rw [show nd k - nb k - (nd k - nm k) = nm k - nb k by ring]
  linarith

/-- **C130** the residual can be evaluated as soon as the map is inside the field of view of the grid. -/
theorem C130_evaluable {N M : ℕ} (params : List ℝ) (beam : Fin 3 × Fin M → Fl) (u v : Fin 3 × Fin M → ℝ) (dz : Fin 3 → ℝ)
    (wavel pr bf : ℝ) (illum : ∀ ι : Type, Illum ι) (tel : ∀ ι : Type, TelGeo ι)
    (h : Spec.Sloped pr (params.take 5) illum tel) (h0 : 0 < pr) (hw : 0 < wavel) (o : ℕ)
    (hK : (params.drop 5).length = (o + 1) * (o + 2) / 2) (hM : 0 < M) (hbf : 0 < bf) (hN : 2 ≤ N)
    (hu : ∀ q, |u q| ≤ ((N : ℝ) / 2 - 1) * wavel / (2 * (pr * bf)) * (1 - 1 / (N : ℝ)))
    (hv : ∀ q, |v q| ≤ ((N : ℝ) / 2 - 1) * wavel / (2 * (pr * bf)) * (1 - 1 / (N : ℝ))) :
    ∃ r, residualTrue params beam u v dz wavel (illum _) (tel (Fin N × Fin N)) bf = .ok r := by
  have hsh := fun i => C129_shipped (params.take 5) (params.drop 5) (dz i) wavel pr 1 illum tel h h0 le_rfl o hK
  have hpr := (hsh 0).1
  have hN' : (2 : ℝ) ≤ N := by exact_mod_cast hN
  have row : ∀ i, ∃ b, modelRow params u v dz wavel (illum _) (tel (Fin N × Fin N)) bf i = .ok b := by
    intro i
    obtain ⟨-, A, hA, -⟩ := hsh i
    obtain ⟨P, hP⟩ := (C14_ok_iff (params.take 5) (params.drop 5) (dz i) wavel N hN (illum _) (tel (Fin N × Fin N)) bf).2
      ⟨_, hA _ _ _⟩
    obtain ⟨huv, hmono, -, -⟩ := C14_axes _ _ _ _ _ _ _ _ P (by rw [hpr]; exact h0) hbf hw hP
    have hin : ∀ x : ℝ, |x| ≤ ((N : ℝ) / 2 - 1) * wavel / (2 * (pr * bf)) * (1 - 1 / (N : ℝ)) → inGrid P.u x := by
      intro x hx
      have hcN : 0 ≤ 1 - 1 / (N : ℝ) := by
        rw [sub_nonneg, div_le_one (by linarith)]
        linarith
      have hk : 0 ≤ wavel / (2 * (pr * bf)) * (1 - 1 / (N : ℝ)) := by positivity
      have hdiv : ((N / 2 : ℕ) : ℝ) ≤ N / 2 := Nat.cast_div_le
      have hdiv' : (N : ℝ) ≤ 2 * ((N / 2 : ℕ) : ℝ) + 1 := by
        have : N ≤ 2 * (N / 2) + 1 := by omega
        exact_mod_cast this
      rw [abs_le] at hx
      constructor
      · refine ⟨⟨0, by omega⟩, ?_⟩
        rw [(pixel_coord (hpr _) hP ⟨0, by omega⟩ (-((N / 2 : ℕ) : ℤ)) (by simp)).1, Int.cast_neg, Int.cast_natCast]
        have := mul_le_mul_of_nonneg_right (show (N : ℝ) / 2 - 1 ≤ ((N / 2 : ℕ) : ℝ) by linarith) hk
        have e1 : ((N : ℝ) / 2 - 1) * wavel / (2 * (pr * bf)) * (1 - 1 / (N : ℝ)) =
          ((N : ℝ) / 2 - 1) * (wavel / (2 * (pr * bf)) * (1 - 1 / (N : ℝ))) := by ring
        have e2 : -((N / 2 : ℕ) : ℝ) * wavel / (2 * (pr * bf)) * (1 - 1 / (N : ℝ)) =
          -(((N / 2 : ℕ) : ℝ) * (wavel / (2 * (pr * bf)) * (1 - 1 / (N : ℝ)))) := by ring
        linarith [hx.1]
      · refine ⟨⟨N - 1, by omega⟩, ?_⟩
        rw [(pixel_coord (hpr _) hP ⟨N - 1, by omega⟩ ((N : ℤ) - 1 - (N / 2 : ℕ)) (by
          dsimp only; omega)).1]
        have := mul_le_mul_of_nonneg_right (show (N : ℝ) / 2 - 1 ≤ (N : ℝ) - 1 - ((N / 2 : ℕ) : ℝ) by linarith) hk
        have e1 : ((N : ℝ) / 2 - 1) * wavel / (2 * (pr * bf)) * (1 - 1 / (N : ℝ)) =
          ((N : ℝ) / 2 - 1) * (wavel / (2 * (pr * bf)) * (1 - 1 / (N : ℝ))) := by ring
        have e2 : (((N : ℤ) - 1 - (N / 2 : ℕ) : ℤ) : ℝ) = (N : ℝ) - 1 - ((N / 2 : ℕ) : ℝ) := by
          rw [Int.cast_sub, Int.cast_sub, Int.cast_one, Int.cast_natCast, Int.cast_natCast]
        rw [e2]
        have e3 : ((N : ℝ) - 1 - ((N / 2 : ℕ) : ℝ)) * wavel / (2 * (pr * bf)) * (1 - 1 / (N : ℝ)) =
          ((N : ℝ) - 1 - ((N / 2 : ℕ) : ℝ)) * (wavel / (2 * (pr * bf)) * (1 - 1 / (N : ℝ))) := by ring
        linarith [hx.2]
    exact ⟨_, modelRow_ok.2 ⟨P, hP, (interpolator_ok_iff _ _ _ _ _).2
      ⟨⟨hmono, huv ▸ hmono⟩, fun k => ⟨hin _ (hu _), huv ▸ hin _ (hv _)⟩, rfl⟩⟩⟩
  choose b hb using row
  obtain ⟨nd, hd, -⟩ := C27_axis1 hM beam
  obtain ⟨nm, hm, -⟩ := C27_axis1 hM fun q : Fin 3 × Fin M => Fl.fin (b q.1 q.2)
  exact ⟨_, residualTrue_ok.2 ⟨b, hb, nd, nm, hd, hm, rfl⟩⟩

/-- **C130** as the box factor grows, and the resolution faster, the residual can in the end be evaluated, and each entry
for a map whose ideal beam is not flat tends to the normalised data less the normalised ideal beam. -/
theorem C130_limit {M : ℕ} (params : List ℝ) (beam : Fin 3 × Fin M → Fl) (u v : Fin 3 × Fin M → ℝ) (dz : Fin 3 → ℝ)
    (wavel pr : ℝ) (illum : ∀ ι : Type, Illum ι) (tel : ∀ ι : Type, TelGeo ι)
    (h : Spec.Sloped pr (params.take 5) illum tel) (h0 : 0 < pr) (hw : 0 < wavel) (o : ℕ)
    (hK : (params.drop 5).length = (o + 1) * (o + 2) / 2) (hM : 0 < M) (N : ℕ → ℕ) (bf : ℕ → ℝ)
    (hbf : Tendsto bf atTop atTop) (hN : Tendsto (fun m => bf m / ((N m : ℝ) - 1)) atTop (𝓝[>] 0)) :
    ∃ A : Fin 3 → ℝ × ℝ → ℂ, (∀ i, Spec.IsAperture (A i) (params.take 5) (params.drop 5) (dz i) wavel illum tel) ∧
      ∃ r : ℕ → List ℝ, (∀ᶠ m in atTop,
        residualTrue params beam u v dz wavel (illum _) (tel (Fin (N m) × Fin (N m))) (bf m) = .ok (r m)) ∧
      ∀ i, (∃ s t, Spec.idealBeam A wavel u v i s ≠ Spec.idealBeam A wavel u v i t) → ∃ nd nm,
        MathFn.norm (fun k => beam (i, k)) = .ok nd ∧
        MathFn.norm (fun k => Fl.fin (Spec.idealBeam A wavel u v i k)) = .ok nm ∧
        ∀ k : Fin M, Tendsto (fun m => (r m).getD ((i : ℕ) * M + k) 0) atTop (𝓝 (nd k - nm k)) := by
  obtain ⟨A, C, hA, hC, hres⟩ := C130_residual params dz wavel pr illum tel h h0 hw o hK
  have : Nonempty (Fin M) := ⟨⟨0, hM⟩⟩
  obtain ⟨D, hD⟩ : ∃ D, ∀ q, |u q| + |v q| ≤ D := by
    obtain ⟨D, hD⟩ := (Set.finite_range fun q => |u q| + |v q|).bddAbove
    exact ⟨D, fun q => hD ⟨q, rfl⟩⟩
  have hD0 : 0 ≤ D := by
    refine le_trans ?_ (hD (0, ⟨0, hM⟩))
    positivity
  have hb1 : ∀ᶠ m in atTop, 1 ≤ bf m := hbf.eventually_ge_atTop 1
  have hs0 : ∀ᶠ m in atTop, 0 < bf m / ((N m : ℝ) - 1) := (tendsto_nhdsWithin_iff.1 hN).2
  have hs := (tendsto_nhdsWithin_iff.1 hN).1
  have hs1 : ∀ᶠ m in atTop, bf m / ((N m : ℝ) - 1) ≤ 1 :=
    (hs.eventually_lt_const one_pos).mono fun _ h => h.le
  have hsD : ∀ᶠ m in atTop, (bf m / ((N m : ℝ) - 1)) * (16 * pr * (D + 1)) ≤ wavel := by
    have := (hs.mul_const (16 * pr * (D + 1))).eventually_lt_const (u := wavel) (by simpa using hw)
    exact this.mono fun _ h => h.le
  have hN4 : ∀ᶠ m in atTop, 4 ≤ bf m := hbf.eventually_ge_atTop 4
  have hgood : ∀ᶠ m in atTop, 1 ≤ bf m ∧ bf m ≤ (N m : ℝ) - 1 ∧
      ∃ r, residualTrue params beam u v dz wavel (illum _) (tel (Fin (N m) × Fin (N m))) (bf m) = .ok r := by
    filter_upwards [hb1, hs0, hs1, hsD, hN4] with m m1 m2 m3 m4 m5
    have hn : 0 < (N m : ℝ) - 1 := by
      by_contra hcon
      have := div_nonpos_of_nonneg_of_nonpos (by linarith : 0 ≤ bf m) (not_lt.1 hcon)
      linarith
    have hle : bf m ≤ (N m : ℝ) - 1 := by rwa [div_le_one hn] at m3
    refine ⟨m1, hle, C130_evaluable params beam u v dz wavel pr (bf m) illum tel h h0 hw o hK hM (by linarith) ?_ ?_ ?_⟩
    · have : (2 : ℝ) ≤ N m := by linarith
      exact_mod_cast this
    all_goals
      intro q
      have hq := hD q
      have hbd : D ≤ ((N m : ℝ) / 2 - 1) * wavel / (2 * (pr * bf m)) * (1 - 1 / (N m : ℝ)) := by
        have a1 : (1 : ℝ) / 2 ≤ 1 - 1 / (N m : ℝ) := by
          have : 1 / (N m : ℝ) ≤ 1 / 2 := one_div_le_one_div_of_le (by norm_num) (by linarith)
          linarith
        have a2 : ((N m : ℝ) - 1) / 4 ≤ (N m : ℝ) / 2 - 1 := by linarith
        have hb0 : 0 < bf m := by linarith
        have a3 : ((N m : ℝ) - 1) / 4 * wavel / (2 * (pr * bf m)) * (1 / 2) ≤
            ((N m : ℝ) / 2 - 1) * wavel / (2 * (pr * bf m)) * (1 - 1 / (N m : ℝ)) := by
          refine mul_le_mul ?_ a1 (by norm_num) ?_
          · exact div_le_div_of_nonneg_right (mul_le_mul_of_nonneg_right a2 hw.le) (by positivity)
          · have : 0 ≤ (N m : ℝ) / 2 - 1 := by linarith
            positivity
        refine le_trans ?_ a3
        rw [div_mul_eq_mul_div, div_le_iff₀ hn] at m4
        rw [div_mul_eq_mul_div, le_div_iff₀ (by positivity)]
        nlinarith [mul_pos h0 hb0, mul_nonneg hD0 (mul_pos h0 hb0).le]
      refine le_trans ?_ hbd
      have := abs_nonneg (u q)
      have := abs_nonneg (v q)
      linarith
  have hex : ∀ m, ∃ r : List ℝ, (∃ r', residualTrue params beam u v dz wavel (illum _)
      (tel (Fin (N m) × Fin (N m))) (bf m) = .ok r') →
      residualTrue params beam u v dz wavel (illum _) (tel (Fin (N m) × Fin (N m))) (bf m) = .ok r := by
    intro m
    by_cases hm : ∃ r', residualTrue params beam u v dz wavel (illum _) (tel (Fin (N m) × Fin (N m))) (bf m) = .ok r'
    · obtain ⟨r, hr⟩ := hm
      exact ⟨r, fun _ => hr⟩
    · exact ⟨[], fun hh => absurd hh hm⟩
  choose r hr using hex
  refine ⟨A, hA, r, hgood.mono fun m hm => hr m hm.2.2, fun i ⟨s', t', hst⟩ => ?_⟩
  obtain ⟨s, t, hst⟩ : ∃ s t, Spec.idealBeam A wavel u v i s < Spec.idealBeam A wavel u v i t := by
    rcases lt_or_gt_of_ne hst with hl | hl
    · exact ⟨_, _, hl⟩
    · exact ⟨_, _, hl⟩
  obtain ⟨m0, hm0⟩ := hgood.exists
  obtain ⟨nd, nm, hnd, hnm, -⟩ := hres _ M _ hm0.1 hm0.2.1 beam u v D hD _ (hr m0 hm0.2.2) i
  refine ⟨nd, nm, hnd, hnm, fun k => ?_⟩
  have hlim : Tendsto (fun m => C * ((1 + D / wavel) * (bf m / ((N m : ℝ) - 1)) + 1 / bf m ^ 2) /
      (Spec.idealBeam A wavel u v i t - Spec.idealBeam A wavel u v i s)) atTop (𝓝 0) := by
    have l1 := hs.const_mul (1 + D / wavel)
    have l2 : Tendsto (fun m => 1 / bf m ^ 2) atTop (𝓝 0) := by
      simp only [one_div]
      exact tendsto_inv_atTop_zero.comp ((tendsto_pow_atTop two_ne_zero).comp hbf)
    have := ((l1.add l2).const_mul C).div_const (Spec.idealBeam A wavel u v i t - Spec.idealBeam A wavel u v i s)
    simpa using this
  refine tendsto_iff_dist_tendsto_zero.2 (squeeze_zero' (Eventually.of_forall fun _ => dist_nonneg) ?_ hlim)
  filter_upwards [hgood] with m hm
  obtain ⟨nd', nm', hnd', hnm', hx⟩ := hres _ M _ hm.1 hm.2.1 beam u v D hD _ (hr m hm.2.2) i
  rw [hnd] at hnd'
  rw [hnm] at hnm'
  cases hnd'
  cases hnm'
  obtain ⟨x, hx1, hx2⟩ := hx k
  rw [List.getD_eq_getElem?_getD, hx1, Option.getD_some, Real.dist_eq, le_div_iff₀ (sub_pos.2 hst)]
  exact hx2 s t

/-! ## A beam is not flat -/

/-- Far from the axis the ideal beam fades. -/
theorem field_far (A : ℝ × ℝ → ℂ) (wavel : ℝ) (hw : 0 < wavel) :
    Tendsto (fun u : ℝ => Spec.fourierField A wavel u 0) atTop (𝓝 0) := by
  have h1 := tendsto_integral_exp_smul_cocompact A (volume : Measure (ℝ × ℝ))
  have h2 : Tendsto (fun u : ℝ => (u / wavel) • ContinuousLinearMap.fst ℝ ℝ ℝ) atTop
      (cocompact (StrongDual ℝ (ℝ × ℝ))) := by
    rw [← Metric.cobounded_eq_cocompact, ← tendsto_norm_atTop_iff_cobounded]
    have hf : 0 < ‖ContinuousLinearMap.fst ℝ ℝ ℝ‖ := by
      rw [norm_pos_iff]
      intro h
      have := congrArg (fun f : (ℝ × ℝ) →L[ℝ] ℝ => f (1, 0)) h
      simp at this
    simp only [norm_smul]
    refine Tendsto.atTop_mul_const hf ?_
    exact tendsto_norm_atTop_atTop.comp (tendsto_id.atTop_div_const hw)
  refine (h1.comp h2).congr fun u => ?_
  unfold Spec.fourierField
  refine integral_congr_ae (Eventually.of_forall fun p => ?_)
  simp only [Circle.smul_def, Real.fourierChar_apply, smul_eq_mul]
  rw [mul_comm]
  congr 2
  simp
  ring

/-- **C130** the maps of the limit are not flat: a map that has the axis and a direction far enough from it, for a
telescope whose field on the axis is not zero. -/
theorem C130_contrast (A : ℝ × ℝ → ℂ) (wavel : ℝ) (hw : 0 < wavel) (u0 v0 : ℝ) (h : Spec.fourierField A wavel u0 v0 ≠ 0) :
    ∃ T, ∀ u, T ≤ u → ‖Spec.fourierField A wavel u 0‖ ^ 2 < ‖Spec.fourierField A wavel u0 v0‖ ^ 2 := by
  have h1 := (field_far A wavel hw).norm
  rw [norm_zero] at h1
  obtain ⟨T, hT⟩ := eventually_atTop.1 (h1.eventually_lt_const (norm_pos_iff.2 h))
  exact ⟨T, fun u hu => pow_lt_pow_left₀ (hT u hu) (norm_nonneg _) two_ne_zero⟩

/-! ## A case -/

theorem disc_aperture : ∃ A, Spec.IsAperture A [1, -14, 2, 0, 0] [0, 0, 0] 0 0.009 (fun _ => illumGauss)
    (fun _ => manualTel 50 0 0 0 30 387.39435) ∧ Spec.fourierField A 0.009 0 0 ≠ 0 := by
  obtain ⟨A, hA, -, h⟩ := disc_field
  refine ⟨A, fun ι x y => ?_, h⟩
  obtain ⟨B, W, d, E, b1, b2, b3, b4, b5⟩ := aperture_ok_iff.1 (hA ι x y)
  refine aperture_ok_iff.2 ⟨B, W, d, E, b1, b2, b3, ?_, b5⟩
  rw [← b4]
  exact (gauss_ignores_middle x y 1 (-14) 0 0 50 [2]).trans (gauss_ignores_middle x y 1 (-14) 0 0 50 []).symm

/-- Three maps in focus of a disc, of the axis and of a direction far from it, for boxes of `m` diameters and grids of
`m² + 1` points: the residual converges, to the normalised data less one and zero. -/
example (beam : Fin 3 × Fin 2 → Fl) : ∃ (U : ℝ) (r : ℕ → List ℝ), (∀ᶠ m in atTop,
    residualTrue (N := m ^ 2 + 1) [1, -14, 2, 0, 0, 0, 0, 0] beam (fun q => if q.2 = 0 then 0 else U) (fun _ => 0)
      (fun _ => 0) 0.009 illumGauss (manualTel 50 0 0 0 30 387.39435) m = .ok (r m)) ∧
    ∃ nd, MathFn.norm (fun k => beam (1, k)) = .ok nd ∧ Tendsto (fun m => (r m).getD 2 0) atTop (𝓝 (nd 0 - 1)) ∧
      Tendsto (fun m => (r m).getD 3 0) atTop (𝓝 (nd 1)) := by
  obtain ⟨A, hA, hne⟩ := disc_aperture
  obtain ⟨T, hT⟩ := C130_contrast A 0.009 (by norm_num) 0 0 hne
  obtain ⟨A', hA', r, hr, hlim⟩ := C130_limit (M := 2) [1, -14, 2, 0, 0, 0, 0, 0] beam (fun q => if q.2 = 0 then 0 else T)
    (fun _ => 0) (fun _ => 0) 0.009 50 (fun _ => illumGauss) (fun _ => manualTel 50 0 0 0 30 387.39435)
    (.manualGauss 50 0 0 0 30 387.39435 1 (-14) 0 0 [2]) (by norm_num) (by norm_num) 1 rfl (by norm_num)
    (fun m => m ^ 2 + 1) (fun m => m) tendsto_natCast_atTop_atTop (by
      refine tendsto_nhdsWithin_iff.2 ⟨?_, ?_⟩
      · refine (tendsto_one_div_atTop_nhds_zero_nat (𝕜 := ℝ)).congr' ?_
        filter_upwards [eventually_gt_atTop 0] with m hm
        have : (m : ℝ) ≠ 0 := by positivity
        push_cast
        field_simp
        ring
      · filter_upwards [eventually_gt_atTop 0] with m hm
        have : (0 : ℝ) < m := by exact_mod_cast hm
        rw [Set.mem_Ioi]
        push_cast
        rw [add_sub_cancel_right]
        positivity)
  have hAA : A' 1 = A := by
    have h1 := Except.ok.inj ((hA' 1 (ℝ × ℝ) (fun p => p.1) fun p => p.2).symm.trans (hA (ℝ × ℝ) (fun p => p.1) fun p => p.2))
    exact h1
  have hlt := hT T le_rfl
  have b0 : Spec.idealBeam A' 0.009 (fun q : Fin 3 × Fin 2 => if q.2 = 0 then 0 else T) (fun _ => 0) 1 0 =
      ‖Spec.fourierField A 0.009 0 0‖ ^ 2 := by simp [Spec.idealBeam, hAA]
  have b1 : Spec.idealBeam A' 0.009 (fun q : Fin 3 × Fin 2 => if q.2 = 0 then 0 else T) (fun _ => 0) 1 1 =
      ‖Spec.fourierField A 0.009 T 0‖ ^ 2 := by simp [Spec.idealBeam, hAA]
  obtain ⟨nd, nm, h1, h2, h3⟩ := hlim 1 ⟨0, 1, by rw [b0, b1]; exact hlt.ne'⟩
  obtain ⟨s, t, hst, hn⟩ := MathFn.norm_fin (Spec.idealBeam A' 0.009 (fun q : Fin 3 × Fin 2 => if q.2 = 0 then 0 else T) (fun _ => 0) 1)
  rw [hn] at h2
  cases h2
  have hs : s = 1 := by
    by_contra hs
    obtain rfl : s = 0 := by omega
    have := (hst 1).1
    rw [b0, b1] at this
    linarith
  have ht : t = 0 := by
    by_contra ht
    obtain rfl : t = 1 := by omega
    have := (hst 0).2
    rw [b0, b1] at this
    linarith
  subst hs ht
  refine ⟨T, r, hr, nd, h1, ?_, ?_⟩
  · have := h3 0
    beta_reduce at this
    rw [div_self (by rw [b0, b1]; exact (sub_pos.2 hlt).ne')] at this
    simpa using this
  · have := h3 1
    beta_reduce at this
    rw [sub_self, zero_div, sub_zero] at this
    simpa using this

end Verif.Props
