import Verif.Props.Converge
import Verif.Props.Ruze
import Verif.Lemmas.Units

/-! # C102: the rms of a phase map follows from its coefficients -/

namespace Verif.Props

open Verif Verif.Np Verif.Zernike Verif.Aperture Verif.MathFn Verif.Riemann MeasureTheory Filter Topology Finset

/-! ## Specification -/

/-- The mean square of the wavefront over the disc by the norms of the Zernike polynomials: the polynomial at position `k`
of order `i` has the mean square `1 / (i + 1)` when it is the rotationally symmetric one, otherwise half of it. -/
noncomputable def Spec.zernikeMeanSq (n : ℕ) (c : ℕ → ℝ) : ℝ :=
  ∑ i ∈ range (n + 1), ∑ k ∈ range (i + 1), c (i * (i + 1) / 2 + k) ^ 2 * ((if 2 * k = i then 1 else 1 / 2) / (i + 1))

/-! ## Means over the pixels of the disc -/

/-- The coordinate of a pixel in units of the radius. -/
noncomputable def unitPoint (N : ℕ) (i : Fin N) : ℝ := -1 + 2 * ((i : ℕ) : ℝ) / ((N : ℝ) - 1)

def unitDisc : Set (ℝ × ℝ) := {p | p.1 ^ 2 + p.2 ^ 2 < 1}

theorem unitDisc_measurable : MeasurableSet unitDisc :=
  (isOpen_lt (by fun_prop) continuous_const).measurableSet

theorem unitDisc_bounded : unitDisc ⊆ Set.Icc (-1) 1 ×ˢ Set.Icc (-1) 1 := by
  intro p hp
  have hp' : p.1 ^ 2 + p.2 ^ 2 < 1 := hp
  have h1 : |p.1| ≤ 1 := by rw [← sq_le_one_iff_abs_le_one]; nlinarith [sq_nonneg p.2]
  have h2 : |p.2| ≤ 1 := by rw [← sq_le_one_iff_abs_le_one]; nlinarith [sq_nonneg p.1]
  exact ⟨abs_le.1 h1, abs_le.1 h2⟩

theorem disc_limit (g : ℝ × ℝ → ℝ) (M : ℝ) (hM : ∀ p : ℝ × ℝ, p.1 ^ 2 + p.2 ^ 2 ≤ 1 → |g p| ≤ M)
    (hc : ∀ᵐ p, ContinuousAt g p) (N : ℕ → ℕ) (hN2 : ∀ k, 2 ≤ N k) (hN : Tendsto N atTop atTop) :
    Tendsto (fun k => (2 / ((N k : ℝ) - 1)) ^ 2 * ∑ q ∈ (open Classical in univ.filter (Spec.inDisc (N k))),
      g (unitPoint (N k) q.2, unitPoint (N k) q.1)) atTop (𝓝 (∫ p in unitDisc, g p)) := by
  classical
  set b : ℝ × ℝ → ℝ := fun p => if p.1 ^ 2 + p.2 ^ 2 ≤ 1 then 1 else 0 with hb
  have hbc : ∀ᵐ p, ContinuousAt b p := by
    refine mask_continuous (S := {p : ℝ × ℝ | 1 < p.1 ^ 2 + p.2 ^ 2}ᶜ) (thin_compl (thin_lt (by fun_prop) (by fun_prop) ?_))
      (fun p hp => ?_) (fun p hp => ?_)
    · have := null_circle 0 0 1
      simp only [sub_zero] at this
      convert this using 2
      ext p
      exact eq_comm
    · simp only [Set.mem_compl_iff, Set.mem_setOf_eq, not_lt] at hp
      simp only [hb, hp, if_true]
    · simp only [Set.mem_compl_iff, Set.mem_setOf_eq, not_lt, not_le] at hp
      simp only [hb, not_le.2 hp, if_false]
  set L : ℝ × ℝ → ℂ := fun p => ((b p * g p : ℝ) : ℂ) with hL
  have hM0 : 0 ≤ M := (abs_nonneg _).trans (hM 0 (by simp))
  have h1 := tendsto_sum (R := 1) (M := M) one_pos N hN2 hN (fun _ => L) L (fun k p => by
      rw [hL, Complex.norm_real, Real.norm_eq_abs]
      simp only [hb]
      split_ifs with h
      · rw [one_mul]; exact hM p h
      · rw [zero_mul, abs_zero]; exact hM0) (fun p hp => by
      have : ¬ p.1 ^ 2 + p.2 ^ 2 ≤ 1 := by
        rw [not_le]
        rcases hp with hp | hp
        · have := (one_lt_sq_iff_one_lt_abs _).2 hp
          nlinarith [sq_nonneg p.2]
        · have := (one_lt_sq_iff_one_lt_abs _).2 hp
          nlinarith [sq_nonneg p.1]
      simp [hL, hb, this]) (by
      filter_upwards [hc, hbc] with p hp hp' q hq
      have : ContinuousAt L p := Complex.continuous_ofReal.continuousAt.comp (hp'.mul hp)
      exact this.tendsto.comp hq)
  have h2 := (Complex.continuous_re.tendsto _).comp h1
  have e : (∫ p, L p).re = ∫ p in unitDisc, g p := by
    rw [hL, integral_complex_ofReal, Complex.ofReal_re, ← integral_indicator unitDisc_measurable]
    refine integral_congr_ae ?_
    have hcirc : ∀ᵐ p : ℝ × ℝ, p.1 ^ 2 + p.2 ^ 2 ≠ 1 := by
      rw [ae_iff]
      have := null_circle 0 0 1
      simpa using this
    filter_upwards [hcirc] with p hp
    simp only [hb, Set.indicator, unitDisc, Set.mem_setOf_eq]
    rcases lt_trichotomy (p.1 ^ 2 + p.2 ^ 2) 1 with h | h | h
    · rw [if_pos h.le, if_pos h, one_mul]
    · exact absurd h hp
    · rw [if_neg (not_le.2 h), if_neg (not_lt.2 h.le), zero_mul]
  rw [e] at h2
  refine h2.congr fun k => ?_
  have e1 : ∀ i : Fin (N k), unitPoint (N k) i = -1 + ((i : ℕ) : ℝ) * (2 * 1 / ((N k : ℝ) - 1)) := by
    intro i
    unfold unitPoint
    ring
  simp only [Function.comp_apply, Complex.re_sum, hL, ← Complex.ofReal_mul, Complex.ofReal_re]
  rw [Finset.sum_range (fun a => ∑ b' ∈ range (N k), _)]
  simp only [Finset.sum_range]
  rw [sum_filter, mul_sum, ← sum_grid]
  refine sum_congr rfl fun i _ => sum_congr rfl fun j _ => ?_
  rw [e1, e1]
  have hd : Spec.inDisc (N k) (i, j) ↔ (-1 + ((j : ℕ) : ℝ) * (2 * 1 / ((N k : ℝ) - 1))) ^ 2 +
      (-1 + ((i : ℕ) : ℝ) * (2 * 1 / ((N k : ℝ) - 1))) ^ 2 ≤ 1 := by
    rw [← e1, ← e1]
    rfl
  simp only [hb, hd]
  split_ifs <;> ring

/-! ## Integrals of the polynomials over the disc -/

/-- The polynomial at position `k` of order `i`, in the plane. -/
noncomputable def planeU (i k : ℕ) (p : ℝ × ℝ) : ℝ :=
  Uv i (-(i : ℤ) + 2 * (k : ℤ)) (cart2pol p.1 p.2).1 (cart2pol p.1 p.2).2

theorem planeU_inner (i k i' k' : ℕ) (hk : k ≤ i) (hk' : k' ≤ i') :
    ∫ p in unitDisc, planeU i k p * planeU i' k' p =
      if i = i' ∧ k = k' then Real.pi * ((if 2 * k = i then 1 else 1 / 2) / (i + 1)) else 0 := by
  obtain ⟨f, g, hf, hg, h⟩ := C05_disc i i' _ _ (row_allowed i k hk) (row_allowed i' k' hk')
  have e : ∀ p : ℝ × ℝ, planeU i k p * planeU i' k' p = f (Real.sqrt (p.1 ^ 2 + p.2 ^ 2)) (Complex.arg ⟨p.1, p.2⟩) *
      g (Real.sqrt (p.1 ^ 2 + p.2 ^ 2)) (Complex.arg ⟨p.1, p.2⟩) := by
    intro p
    unfold planeU
    rw [Uv_of_ok (hf _ _), Uv_of_ok (hg _ _)]
    rfl
  simp only [e]
  rw [show unitDisc = {p : ℝ × ℝ | p.1 ^ 2 + p.2 ^ 2 < 1} from rfl, h]
  by_cases h1 : i = i' ∧ k = k'
  · obtain ⟨rfl, rfl⟩ := h1
    rw [if_pos (show i = i ∧ -(i : ℤ) + 2 * (k : ℤ) = -(i : ℤ) + 2 * (k : ℤ) from ⟨rfl, rfl⟩),
      if_pos (show i = i ∧ k = k from ⟨rfl, rfl⟩)]
    have hz : (-(i : ℤ) + 2 * (k : ℤ) = 0) ↔ 2 * k = i := by omega
    by_cases h2 : 2 * k = i
    · rw [if_pos (hz.2 h2), if_pos h2]
      field_simp
    · rw [if_neg (fun h => h2 (hz.1 h)), if_neg h2]
      field_simp
  · rw [if_neg h1, if_neg]
    rintro ⟨rfl, h2⟩
    exact h1 ⟨rfl, by omega⟩

theorem planeU_zero (p : ℝ × ℝ) : planeU 0 0 p = 1 := by
  unfold planeU
  simpa using Uv_zero _ _

theorem disc_area : ∫ _ in unitDisc, (1 : ℝ) = Real.pi := by
  have := planeU_inner 0 0 0 0 le_rfl le_rfl
  simpa [planeU_zero] using this

theorem polar_measurable : Measurable fun p : ℝ × ℝ => cart2pol p.1 p.2 := by
  unfold cart2pol
  refine Measurable.prodMk (by fun_prop) ?_
  unfold arctan2
  have hc : Continuous fun p : ℝ × ℝ => (⟨p.1, p.2⟩ : ℂ) := by
    have : (fun p : ℝ × ℝ => (⟨p.1, p.2⟩ : ℂ)) = fun p => (p.1 : ℂ) + (p.2 : ℂ) * Complex.I := by
      funext p
      exact Complex.mk_eq_add_mul_I _ _
    rw [this]
    fun_prop
  exact Complex.measurable_arg.comp hc.measurable

theorem planeU_measurable (i k : ℕ) (hk : k ≤ i) : Measurable (planeU i k) :=
  (Uv_continuous i k hk).measurable.comp polar_measurable

theorem planeU_abs (i k : ℕ) (hk : k ≤ i) (p : ℝ × ℝ) (hp : p.1 ^ 2 + p.2 ^ 2 ≤ 1) : |planeU i k p| ≤ 1 := by
  refine Uv_abs_le i k hk _ _ ?_
  show |Real.sqrt (p.1 ^ 2 + p.2 ^ 2)| ≤ 1
  rw [abs_of_nonneg (Real.sqrt_nonneg _), Real.sqrt_le_one]
  exact hp

theorem disc_integrable {f : ℝ × ℝ → ℝ} (hf : Measurable f) {M : ℝ} (hM : ∀ p : ℝ × ℝ, p.1 ^ 2 + p.2 ^ 2 ≤ 1 → |f p| ≤ M) :
    IntegrableOn f unitDisc := by
  have hfin : volume unitDisc < ⊤ := by
    refine (measure_mono unitDisc_bounded).trans_lt ?_
    rw [Measure.volume_eq_prod, Measure.prod_prod, Real.volume_Icc]
    exact ENNReal.mul_lt_top ENNReal.ofReal_lt_top ENNReal.ofReal_lt_top
  refine Measure.integrableOn_of_bounded hfin.ne hf.aestronglyMeasurable (M := M) ?_
  refine (ae_restrict_iff' unitDisc_measurable).2 (ae_of_all _ fun p hp => ?_)
  exact hM p (le_of_lt hp)

/-- The wavefront in the plane. -/
noncomputable def planeW (n : ℕ) (K : List ℝ) (p : ℝ × ℝ) : ℝ := wfVal n K (cart2pol p.1 p.2).1 (cart2pol p.1 p.2).2

theorem planeW_sum (n : ℕ) (K : List ℝ) (p : ℝ × ℝ) :
    planeW n K p = ∑ j ∈ (range (n + 1)).sigma fun i => range (i + 1), K.getD (tri j.1 + j.2) 0 * planeU j.1 j.2 p := by
  rw [sum_sigma]
  rfl

theorem planeW_sq_integral (n : ℕ) (K : List ℝ) :
    ∫ p in unitDisc, planeW n K p ^ 2 = Real.pi * Spec.zernikeMeanSq n fun m => K.getD m 0 := by
  have hmem : ∀ j ∈ (range (n + 1)).sigma fun i => range (i + 1), j.2 ≤ j.1 := by
    intro j hj
    have := mem_range.1 (mem_sigma.1 hj).2
    omega
  have e : ∀ p, planeW n K p ^ 2 = ∑ j ∈ (range (n + 1)).sigma fun i => range (i + 1),
      ∑ j' ∈ (range (n + 1)).sigma fun i => range (i + 1), K.getD (tri j.1 + j.2) 0 * K.getD (tri j'.1 + j'.2) 0 *
        (planeU j.1 j.2 p * planeU j'.1 j'.2 p) := by
    intro p
    rw [planeW_sum, sq, sum_mul_sum]
    exact sum_congr rfl fun j _ => sum_congr rfl fun j' _ => by ring
  have hint : ∀ j ∈ (range (n + 1)).sigma fun i => range (i + 1), ∀ j' ∈ (range (n + 1)).sigma fun i => range (i + 1),
      IntegrableOn (fun p => K.getD (tri j.1 + j.2) 0 * K.getD (tri j'.1 + j'.2) 0 *
        (planeU j.1 j.2 p * planeU j'.1 j'.2 p)) unitDisc := by
    intro j hj j' hj'
    refine Integrable.const_mul ?_ _
    refine disc_integrable ((planeU_measurable _ _ (hmem j hj)).mul (planeU_measurable _ _ (hmem j' hj'))) (M := 1)
      fun p hp => ?_
    rw [abs_mul]
    exact mul_le_one₀ (planeU_abs _ _ (hmem j hj) p hp) (abs_nonneg _) (planeU_abs _ _ (hmem j' hj') p hp)
  simp only [e]
  rw [integral_finsetSum _ fun j hj => integrable_finsetSum _ fun j' hj' => hint j hj j' hj']
  have e2 : ∀ j ∈ (range (n + 1)).sigma fun i => range (i + 1),
      ∫ p in unitDisc, ∑ j' ∈ (range (n + 1)).sigma fun i => range (i + 1),
        K.getD (tri j.1 + j.2) 0 * K.getD (tri j'.1 + j'.2) 0 * (planeU j.1 j.2 p * planeU j'.1 j'.2 p) =
      Real.pi * (K.getD (tri j.1 + j.2) 0 ^ 2 * ((if 2 * j.2 = j.1 then 1 else 1 / 2) / (j.1 + 1))) := by
    intro j hj
    rw [integral_finsetSum _ fun j' hj' => hint j hj j' hj', sum_eq_single j]
    · rw [integral_const_mul, planeU_inner _ _ _ _ (hmem j hj) (hmem j hj), if_pos ⟨rfl, rfl⟩]
      ring
    · intro j' hj' hne
      rw [integral_const_mul, planeU_inner _ _ _ _ (hmem j hj) (hmem j' hj'), if_neg, mul_zero]
      rintro ⟨h1, h2⟩
      exact hne (Sigma.ext h1.symm (heq_of_eq h2.symm))
    · intro h
      exact absurd hj h
  rw [sum_congr rfl e2, ← mul_sum, sum_sigma]
  rfl

theorem planeW_integral (n : ℕ) (K : List ℝ) :
    ∫ p in unitDisc, planeW n K p = Real.pi * K.getD 0 0 := by
  have hmem : ∀ j ∈ (range (n + 1)).sigma fun i => range (i + 1), j.2 ≤ j.1 := by
    intro j hj
    have := mem_range.1 (mem_sigma.1 hj).2
    omega
  have e : ∀ p, planeW n K p = ∑ j ∈ (range (n + 1)).sigma fun i => range (i + 1),
      K.getD (tri j.1 + j.2) 0 * (planeU j.1 j.2 p * planeU 0 0 p) := by
    intro p
    rw [planeW_sum]
    exact sum_congr rfl fun j _ => by rw [planeU_zero, mul_one]
  simp only [e]
  have hint : ∀ j ∈ (range (n + 1)).sigma fun i => range (i + 1), IntegrableOn (fun p => K.getD (tri j.1 + j.2) 0 *
      (planeU j.1 j.2 p * planeU 0 0 p)) unitDisc := by
    intro j hj
    refine Integrable.const_mul ?_ _
    refine disc_integrable ((planeU_measurable _ _ (hmem j hj)).mul (planeU_measurable 0 0 le_rfl)) (M := 1) fun p hp => ?_
    rw [abs_mul]
    exact mul_le_one₀ (planeU_abs _ _ (hmem j hj) p hp) (abs_nonneg _) (planeU_abs _ _ le_rfl p hp)
  rw [integral_finsetSum _ hint, sum_eq_single ⟨0, 0⟩]
  · rw [integral_const_mul, planeU_inner _ _ _ _ le_rfl le_rfl]
    simp [tri]
    ring
  · intro j hj hne
    rw [integral_const_mul, planeU_inner _ _ _ _ (hmem j hj) le_rfl, if_neg, mul_zero]
    rintro ⟨h1, h2⟩
    exact hne (Sigma.ext h1 (heq_of_eq h2))
  · intro h
    exact absurd (by simp) h

theorem planeW_continuous (n : ℕ) (K : List ℝ) : ∀ᵐ p, ContinuousAt (planeW n K) p := by
  filter_upwards [polar_continuous] with p hp
  exact ContinuousAt.comp (g := fun s : ℝ × ℝ => wfVal n K s.1 s.2) (wfVal_continuous n K).continuousAt hp

theorem planeW_bounded (n : ℕ) (K : List ℝ) : ∃ M, 0 ≤ M ∧ ∀ p : ℝ × ℝ, p.1 ^ 2 + p.2 ^ 2 ≤ 1 → |planeW n K p| ≤ M := by
  refine ⟨∑ j ∈ (range (n + 1)).sigma fun i => range (i + 1), |K.getD (tri j.1 + j.2) 0|,
    sum_nonneg fun _ _ => abs_nonneg _, fun p hp => ?_⟩
  rw [planeW_sum]
  refine (abs_sum_le_sum_abs _ _).trans (sum_le_sum fun j hj => ?_)
  rw [abs_mul]
  have := mem_range.1 (mem_sigma.1 hj).2
  exact mul_le_of_le_one_right (abs_nonneg _) (planeU_abs _ _ (by omega) p hp)

/-! ## The phase map -/

theorem phase_plane (K : List ℝ) (pr : ℝ) (hpr : 0 < pr) (piston tilt : Bool) (n : ℕ)
    (hK : K.length = (n + 1) * (n + 2) / 2) (ht : tilt = false → 1 ≤ n) :
    ∃ K' : List ℝ, (∀ m, K'.getD m 0 = Spec.usedCoeff K piston tilt m) ∧ ∀ (N : ℕ) (Φ : PhaseMap N),
      phase K pr piston tilt N = .ok Φ → ∀ q, (Spec.inDisc N q →
        Φ.phi q = 2 * Real.pi * planeW n K' (unitPoint N q.2, unitPoint N q.1)) ∧ (¬ Spec.inDisc N q → Φ.phi q = 0) := by
  have hKt : K.length = tri (n + 1) := hK
  have ht' : tilt = false → 3 ≤ K.length := by
    intro h
    have := tri_mono (show 2 ≤ n + 1 by have := ht h; omega)
    rw [hKt]
    simpa [tri] using this
  obtain ⟨K', -, hK', -⟩ := phase_ok K pr piston tilt 0 n hKt ht'
  refine ⟨K', hK', fun N Φ hΦ q => ?_⟩
  obtain ⟨K2, hl2, hK2, hph⟩ := phase_ok K pr piston tilt N n hKt ht'
  rw [hΦ] at hph
  have hphi := congrArg PhaseMap.phi (Except.ok.inj hph)
  have hlin : ∀ i, linspace (-pr) pr N i = unitPoint N i * pr := by
    intro i
    unfold linspace unitPoint
    ring
  have hW : ∀ r t, wfVal n K2 r t = wfVal n K' r t := by
    intro r t
    unfold wfVal
    exact sum_congr rfl fun i _ => sum_congr rfl fun k _ => by rw [hK2, hK']
  have hd : Spec.inDisc N q ↔ (linspace (-pr) pr N q.2) ^ 2 + (linspace (-pr) pr N q.1) ^ 2 ≤ pr ^ 2 := by
    rw [inDisc_iff hpr, ← linspace_grid, mul_one]
  rw [hphi]
  constructor
  · intro h
    simp only
    rw [if_neg (not_lt.2 (hd.1 h)), hlin, hlin, Units.arctan2_scale hpr, hW]
    have e : Real.sqrt ((unitPoint N q.2 * pr) ^ 2 + (unitPoint N q.1 * pr) ^ 2) / pr =
        Real.sqrt (unitPoint N q.2 ^ 2 + unitPoint N q.1 ^ 2) := by
      rw [mul_pow, mul_pow, ← add_mul, Real.sqrt_mul' _ (sq_nonneg pr), Real.sqrt_sq hpr.le, mul_div_cancel_right₀ _ hpr.ne']
    rw [e]
    unfold planeW cart2pol
    ring
  · intro h
    simp only
    rw [if_pos (not_le.1 fun h' => h (hd.2 h'))]
    ring

/-- The mean of a function over the pixels of the disc tends to the mean over the disc. -/
theorem mean_limit (g : ℝ × ℝ → ℝ) (M : ℝ) (hM : ∀ p : ℝ × ℝ, p.1 ^ 2 + p.2 ^ 2 ≤ 1 → |g p| ≤ M)
    (hc : ∀ᵐ p, ContinuousAt g p) (N : ℕ → ℕ) (hN2 : ∀ k, 2 ≤ N k) (hN : Tendsto N atTop atTop) :
    Tendsto (fun k => (∑ q ∈ (open Classical in univ.filter (Spec.inDisc (N k))),
      g (unitPoint (N k) q.2, unitPoint (N k) q.1)) / ((open Classical in univ.filter (Spec.inDisc (N k))).card : ℝ)) atTop
      (𝓝 ((∫ p in unitDisc, g p) / Real.pi)) := by
  have h1 := disc_limit g M hM hc N hN2 hN
  have h2 := disc_limit (fun _ => 1) 1 (fun _ _ => by norm_num) (ae_of_all _ fun _ => continuousAt_const) N hN2 hN
  rw [disc_area] at h2
  refine (h1.div h2 Real.pi_ne_zero).congr fun k => ?_
  have hne : (2 / ((N k : ℝ) - 1)) ^ 2 ≠ 0 := by
    have : (2 : ℝ) ≤ N k := by exact_mod_cast hN2 k
    exact pow_ne_zero _ (div_ne_zero two_ne_zero (by linarith))
  simp only [Pi.div_apply]
  rw [mul_div_mul_left _ _ hne]
  simp

/-- The mean over all the pixels of the square. -/
theorem square_limit (g : ℝ × ℝ → ℝ) (M : ℝ) (hM : ∀ p : ℝ × ℝ, p.1 ^ 2 + p.2 ^ 2 ≤ 1 → |g p| ≤ M)
    (hc : ∀ᵐ p, ContinuousAt g p) (N : ℕ → ℕ) (hN2 : ∀ k, 2 ≤ N k) (hN : Tendsto N atTop atTop) :
    Tendsto (fun k => (∑ q ∈ (open Classical in univ.filter (Spec.inDisc (N k))),
      g (unitPoint (N k) q.2, unitPoint (N k) q.1)) / (N k * N k : ℝ)) atTop (𝓝 ((∫ p in unitDisc, g p) / 4)) := by
  have h1 := disc_limit g M hM hc N hN2 hN
  have h2 : Tendsto (fun k => (1 - 1 / (N k : ℝ)) ^ 2 / 4) atTop (𝓝 ((1 - 0) ^ 2 / 4)) := by
    refine ((tendsto_const_nhds.sub ?_).pow 2).div_const 4
    exact tendsto_const_nhds.div_atTop (tendsto_natCast_atTop_atTop.comp hN)
  have h3 := h1.mul h2
  rw [sub_zero, one_pow, mul_one_div] at h3
  refine h3.congr fun k => ?_
  have h2k : (2 : ℝ) ≤ N k := by exact_mod_cast hN2 k
  have hn0 : (N k : ℝ) ≠ 0 := by linarith
  have hn1 : (N k : ℝ) - 1 ≠ 0 := by linarith
  field_simp
  ring

theorem circ_entries {N : ℕ} (f : Fin N × Fin N → ℝ) :
    Spec.discEntries (fun q => some (f q)) = (open Classical in univ.filter (Spec.inDisc N)) := by
  unfold Spec.discEntries
  ext q
  simp

theorem circ_small {N : ℕ} (f : Fin N × Fin N → ℝ) (r : ℝ)
    (h : (rms (.d2 N N fun q => some (f q)) true).1 = .ok (some r)) :
    2 ≤ N ∧ Spec.isRms (open Classical in univ.filter (Spec.inDisc N)) f r ∧
      (open Classical in univ.filter (Spec.inDisc N)).Nonempty := by
  by_cases hne : (Spec.discEntries fun q => some (f q)).Nonempty
  · obtain ⟨r', h1, h2⟩ := C33_circ (fun q => some (f q)) hne
    rw [h] at h1
    cases h1
    rw [circ_entries] at h2 hne
    refine ⟨?_, h2, hne⟩
    by_contra hN
    obtain ⟨q, hq⟩ := hne
    have hq' : Spec.inDisc N q := by simpa using hq
    have h1 : N = 1 := by have := q.1.isLt; omega
    subst h1
    simp [Spec.inDisc] at hq'
    norm_num at hq'
  · rw [Finset.not_nonempty_iff_eq_empty] at hne
    rw [C33_circ_nan _ hne] at h
    cases h

theorem sq_limit (n : ℕ) (K : List ℝ) : ∃ M, (∀ p : ℝ × ℝ, p.1 ^ 2 + p.2 ^ 2 ≤ 1 → |planeW n K p ^ 2| ≤ M) ∧
    ∀ᵐ p, ContinuousAt (fun p => planeW n K p ^ 2) p := by
  obtain ⟨M, h0, hM⟩ := planeW_bounded n K
  refine ⟨M ^ 2, fun p hp => ?_, ?_⟩
  · rw [abs_pow]
    exact pow_le_pow_left₀ (abs_nonneg _) (hM p hp) 2
  · filter_upwards [planeW_continuous n K] with p hp using hp.pow 2

theorem meanSq_congr (n : ℕ) {c c' : ℕ → ℝ} (h : ∀ m, c m = c' m) : Spec.zernikeMeanSq n c = Spec.zernikeMeanSq n c' := by
  rw [funext h]

/-- **C102.**  With growing resolution the root mean square of the phase map over the disc tends to the value given by
the squares of the coefficients. -/
theorem C102_rms (K : List ℝ) (pr : ℝ) (hpr : 0 < pr) (piston tilt : Bool) (n : ℕ)
    (hK : K.length = (n + 1) * (n + 2) / 2) (ht : tilt = false → 1 ≤ n) (N : ℕ → ℕ) (hN : Tendsto N atTop atTop)
    (Φ : ∀ k, PhaseMap (N k)) (hΦ : ∀ k, phase K pr piston tilt (N k) = .ok (Φ k)) (r : ℕ → ℝ)
    (hr : ∀ k, (rms (.d2 (N k) (N k) fun q => some ((Φ k).phi q)) true).1 = .ok (some (r k))) :
    Tendsto r atTop (𝓝 (2 * Real.pi * Real.sqrt (Spec.zernikeMeanSq n (Spec.usedCoeff K piston tilt)))) := by
  classical
  obtain ⟨K', hK', hph⟩ := phase_plane K pr hpr piston tilt n hK ht
  obtain ⟨M, hM, hc⟩ := sq_limit n K'
  have hlim := mean_limit _ M hM hc N (fun k => (circ_small _ _ (hr k)).1) hN
  rw [planeW_sq_integral, mul_div_cancel_left₀ _ Real.pi_ne_zero, meanSq_congr n hK'] at hlim
  have h2 := (Real.continuous_sqrt.tendsto _).comp (hlim.const_mul ((2 * Real.pi) ^ 2))
  rw [Real.sqrt_mul (sq_nonneg _), Real.sqrt_sq (by positivity)] at h2
  refine h2.congr fun k => ?_
  obtain ⟨-, ⟨h0, hs⟩, hne⟩ := circ_small _ _ (hr k)
  have hcard : (0 : ℝ) < (univ.filter (Spec.inDisc (N k))).card := by exact_mod_cast hne.card_pos
  simp only [Function.comp_apply]
  rw [← mul_div_assoc, mul_sum]
  have e : ∑ q ∈ univ.filter (Spec.inDisc (N k)), (2 * Real.pi) ^ 2 *
      planeW n K' (unitPoint (N k) q.2, unitPoint (N k) q.1) ^ 2 =
      ∑ q ∈ univ.filter (Spec.inDisc (N k)), (Φ k).phi q ^ 2 := by
    refine sum_congr rfl fun q hq => ?_
    rw [(hph (N k) (Φ k) (hΦ k) q).1 (by simpa using hq), mul_pow (2 * Real.pi)]
  rw [e, ← hs, mul_div_cancel_right₀ _ hcard.ne', Real.sqrt_sq h0]

/-- **C102.**  And Ruze's efficiency to the value by the coefficients. -/
theorem C102_ruze (K : List ℝ) (pr : ℝ) (hpr : 0 < pr) (piston tilt : Bool) (n : ℕ)
    (hK : K.length = (n + 1) * (n + 2) / 2) (ht : tilt = false → 1 ≤ n) (N : ℕ → ℕ) (hN : Tendsto N atTop atTop)
    (Φ : ∀ k, PhaseMap (N k)) (hΦ : ∀ k, phase K pr piston tilt (N k) = .ok (Φ k)) (e : ℕ → ℝ)
    (he : ∀ k, (eRs (.d2 (N k) (N k) fun q => some ((Φ k).phi q)) true).1 = .ok (some (e k))) :
    Tendsto e atTop (𝓝 (Real.exp (-((2 * Real.pi) ^ 2 * Spec.zernikeMeanSq n (Spec.usedCoeff K piston tilt))))) := by
  have hr : ∀ k, ∃ r, (rms (.d2 (N k) (N k) fun q => some ((Φ k).phi q)) true).1 = .ok (some r) ∧
      e k = Real.exp (-r ^ 2) := by
    intro k
    have h := he k
    unfold eRs at h
    simp only at h
    cases h1 : (rms (.d2 (N k) (N k) fun q => some ((Φ k).phi q)) true).1 with
    | error x => rw [h1] at h; cases h
    | ok o =>
      rw [h1] at h
      cases o with
      | none => cases h
      | some r => exact ⟨r, rfl, (Option.some.inj (Except.ok.inj h)).symm⟩
  choose r hr he' using hr
  have h1 := C102_rms K pr hpr piston tilt n hK ht N hN Φ hΦ r hr
  have h2 := (Real.continuous_exp.tendsto _).comp (h1.pow 2).neg
  have h0 : 0 ≤ Spec.zernikeMeanSq n (Spec.usedCoeff K piston tilt) := by
    unfold Spec.zernikeMeanSq
    exact sum_nonneg fun i _ => sum_nonneg fun k _ => mul_nonneg (sq_nonneg _) (by split_ifs <;> positivity)
  rw [mul_pow, Real.sq_sqrt h0] at h2
  exact h2.congr fun k => (he' k).symm

/-- **C102.**  Without `circ=True` the corners of the square, where the map is zero, count as well: the limit is smaller by
the factor `√(π / 4)`. -/
theorem C102_square (K : List ℝ) (pr : ℝ) (hpr : 0 < pr) (piston tilt : Bool) (n : ℕ)
    (hK : K.length = (n + 1) * (n + 2) / 2) (ht : tilt = false → 1 ≤ n) (N : ℕ → ℕ) (hN2 : ∀ k, 2 ≤ N k)
    (hN : Tendsto N atTop atTop)
    (Φ : ∀ k, PhaseMap (N k)) (hΦ : ∀ k, phase K pr piston tilt (N k) = .ok (Φ k)) (r : ℕ → ℝ)
    (hr : ∀ k, (rms (.d2 (N k) (N k) fun q => some ((Φ k).phi q)) false).1 = .ok (some (r k))) :
    Tendsto r atTop (𝓝 (Real.sqrt (Real.pi / 4) *
      (2 * Real.pi * Real.sqrt (Spec.zernikeMeanSq n (Spec.usedCoeff K piston tilt))))) := by
  classical
  obtain ⟨K', hK', hph⟩ := phase_plane K pr hpr piston tilt n hK ht
  obtain ⟨M, hM, hc⟩ := sq_limit n K'
  have hlim := square_limit _ M hM hc N hN2 hN
  rw [planeW_sq_integral, meanSq_congr n hK'] at hlim
  have h2 := (Real.continuous_sqrt.tendsto _).comp (hlim.const_mul ((2 * Real.pi) ^ 2))
  rw [Real.sqrt_mul (sq_nonneg _), Real.sqrt_sq (by positivity), mul_div_right_comm,
    Real.sqrt_mul (by positivity), mul_left_comm] at h2
  refine h2.congr fun k => ?_
  have hk := hN2 k
  obtain ⟨r', h1, h0, hs⟩ := C33_flat (m := N k) (n := N k) (by omega) (by omega) fun q => some ((Φ k).phi q)
  rw [hr k] at h1
  cases h1
  simp only [Option.getD_some, card_univ, Fintype.card_prod, Fintype.card_fin, Nat.cast_mul] at hs
  have hcard : (0 : ℝ) < (N k : ℝ) * N k := by
    have : (2 : ℝ) ≤ N k := by exact_mod_cast hk
    positivity
  simp only [Function.comp_apply]
  rw [← mul_div_assoc, mul_sum]
  have e : ∑ q ∈ univ.filter (Spec.inDisc (N k)), (2 * Real.pi) ^ 2 *
      planeW n K' (unitPoint (N k) q.2, unitPoint (N k) q.1) ^ 2 = ∑ q, (Φ k).phi q ^ 2 := by
    rw [sum_filter]
    refine sum_congr rfl fun q _ => ?_
    split_ifs with hq
    · rw [(hph (N k) (Φ k) (hΦ k) q).1 hq, mul_pow (2 * Real.pi)]
    · rw [(hph (N k) (Φ k) (hΦ k) q).2 hq, zero_pow two_ne_zero]
  rw [e, ← hs, mul_div_cancel_right₀ _ hcard.ne', Real.sqrt_sq h0]

/-- **C102.**  The mean phase over the disc tends to the piston; it tends to zero when the piston is left out, so that the
limit of the root mean square is then a standard deviation. -/
theorem C102_mean (K : List ℝ) (pr : ℝ) (hpr : 0 < pr) (piston tilt : Bool) (n : ℕ)
    (hK : K.length = (n + 1) * (n + 2) / 2) (ht : tilt = false → 1 ≤ n) (N : ℕ → ℕ) (hN2 : ∀ k, 2 ≤ N k)
    (hN : Tendsto N atTop atTop)
    (Φ : ∀ k, PhaseMap (N k)) (hΦ : ∀ k, phase K pr piston tilt (N k) = .ok (Φ k)) :
    Tendsto (fun k => (∑ q ∈ (open Classical in univ.filter (Spec.inDisc (N k))), (Φ k).phi q) /
        ((open Classical in univ.filter (Spec.inDisc (N k))).card : ℝ)) atTop
      (𝓝 (if piston then 2 * Real.pi * K.getD 0 0 else 0)) := by
  classical
  obtain ⟨K', hK', hph⟩ := phase_plane K pr hpr piston tilt n hK ht
  obtain ⟨M, -, hM⟩ := planeW_bounded n K'
  have hlim := (mean_limit _ M hM (planeW_continuous n K') N hN2 hN).const_mul (2 * Real.pi)
  rw [planeW_integral, mul_div_cancel_left₀ _ Real.pi_ne_zero, hK'] at hlim
  have e : 2 * Real.pi * Spec.usedCoeff K piston tilt 0 = if piston then 2 * Real.pi * K.getD 0 0 else 0 := by
    cases piston <;> simp [Spec.usedCoeff]
  rw [e] at hlim
  refine hlim.congr fun k => ?_
  rw [← mul_div_assoc, mul_sum]
  congr 1
  refine sum_congr rfl fun q hq => ?_
  rw [(hph (N k) (Φ k) (hΦ k) q).1 (by simpa using hq)]

/-- A tenth of a wavelength of defocus, resolutions from 3 on: the limit is `2 π 0.1 / √3`. -/
example : ∃ (Φ : ∀ k : ℕ, PhaseMap (k + 3)) (r : ℕ → ℝ),
    (∀ k, phase [7, 8, 9, 0, 0.1, 0] 50 false false (k + 3) = .ok (Φ k)) ∧
    (∀ k, (rms (.d2 (k + 3) (k + 3) fun q => some ((Φ k).phi q)) true).1 = .ok (some (r k))) ∧
    Tendsto r atTop (𝓝 (2 * Real.pi * Real.sqrt (0.1 ^ 2 / 3))) := by
  have h1 : ∀ k, ∃ Φ, phase [7, 8, 9, 0, 0.1, 0] 50 false false (k + 3) = .ok Φ := fun k => by
    obtain ⟨K', -, -, h⟩ := phase_ok [7, 8, 9, 0, 0.1, 0] 50 false false (k + 3) 2 rfl (by simp)
    exact ⟨_, h⟩
  choose Φ hΦ using h1
  have h2 : ∀ k, ∃ r, (rms (.d2 (k + 3) (k + 3) fun q => some ((Φ k).phi q)) true).1 = .ok (some r) := fun k => by
    obtain ⟨r, h, -⟩ := C33_circ (fun q => some ((Φ k).phi q)) (by
      rw [circ_entries]
      refine ⟨(⟨(k + 3) / 2, by omega⟩, ⟨(k + 3) / 2, by omega⟩), ?_⟩
      simpa using inDisc_mid (N := k + 3) (by omega) ⟨(k + 3) / 2, by omega⟩ rfl)
    exact ⟨r, h⟩
  choose r hr using h2
  refine ⟨Φ, r, hΦ, hr, ?_⟩
  have := C102_rms [7, 8, 9, 0, 0.1, 0] 50 (by norm_num) false false 2 rfl (by simp) (fun k => k + 3)
    (tendsto_add_atTop_nat 3) Φ hΦ r hr
  have e : Spec.zernikeMeanSq 2 (Spec.usedCoeff [7, 8, 9, 0, 0.1, 0] false false) = 0.1 ^ 2 / 3 := by
    simp [Spec.zernikeMeanSq, Spec.usedCoeff, sum_range_succ]
    norm_num
  rwa [e] at this

end Verif.Props
