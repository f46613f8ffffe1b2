import Mathlib.Analysis.Calculus.MeanValue
import Mathlib.Analysis.SpecialFunctions.ExpDeriv
import Verif.Props.Stability

/-!
# The model beam is differentiable in its coefficients (C121)
-/

namespace Verif.Props

open Verif Verif.Np Verif.Zernike Verif.Aperture Verif.Fourier Verif.Telgeometry Finset

theorem exp_taylor (x : ℝ) :
    ‖Complex.exp ((x : ℂ) * Complex.I) - 1 - (x : ℂ) * Complex.I‖ ≤ x ^ 2 := by
  have hd : ∀ t : ℝ, HasDerivAt
      (fun s : ℝ => Complex.exp ((s : ℂ) * Complex.I) - 1 - (s : ℂ) * Complex.I)
      (Complex.exp ((t : ℂ) * Complex.I) * Complex.I - Complex.I) t := by
    intro t
    have h1 : HasDerivAt (fun s : ℝ => (s : ℂ) * Complex.I) Complex.I t := by
      simpa using (Complex.ofRealCLM.hasDerivAt (x := t)).mul_const Complex.I
    exact ((h1.cexp).sub_const 1).sub h1
  have hb : ∀ t ∈ Set.uIcc 0 x, ‖Complex.exp ((t : ℂ) * Complex.I) * Complex.I - Complex.I‖ ≤ |x| := by
    intro t ht
    have e : Complex.exp ((t : ℂ) * Complex.I) * Complex.I - Complex.I =
        (Complex.exp ((t : ℂ) * Complex.I) - Complex.exp (((0 : ℝ) : ℂ) * Complex.I)) * Complex.I := by
      simp [sub_mul]
    rw [e, norm_mul, Complex.norm_I, mul_one]
    refine (exp_lipschitz t 0).trans ?_
    simpa using Set.abs_sub_left_of_mem_uIcc ht
  have := Convex.norm_image_sub_le_of_norm_hasDerivWithin_le (s := Set.uIcc 0 x)
    (fun t _ => (hd t).hasDerivWithinAt) hb (convex_uIcc 0 x) Set.left_mem_uIcc Set.right_mem_uIcc
  simpa [← sq] using this

/-- The coefficients a step `t` along `D` from `K`. -/
def Spec.moved (K D : List ℝ) (t : ℝ) : List ℝ := List.zipWith (fun k d => k + t * d) K D

/-- The far field of the aperture with amplitude `a` and phase `phi` times `2π i V`, pixel `q`. -/
noncomputable def Spec.slope {N : ℕ} (a phi V : Fin N × Fin N → ℝ) (q : Fin N × Fin N) : ℂ :=
  ∑ i : Fin N, ∑ j : Fin N, (a (i, j) : ℂ) * Complex.exp ((phi (i, j) : ℂ) * Complex.I) *
    (2 * Real.pi * V (i, j) * Complex.I) *
    Complex.exp (-(2 * Real.pi * Complex.I) *
      (((((((q.1 : ℕ) : ℤ) - ((N / 2 : ℕ) : ℤ)) * ((i : ℕ) : ℤ) +
        (((q.2 : ℕ) : ℤ) - ((N / 2 : ℕ) : ℤ)) * ((j : ℕ) : ℤ) : ℤ) : ℂ)) / (N : ℂ)))

theorem moved_eq (K D : List ℝ) (t : ℝ) :
    Spec.moved K D t = List.zipWith (· + ·) K (D.map (t * ·)) := by
  unfold Spec.moved
  rw [List.zipWith_map_right]

theorem wfVal_moved (n : ℕ) (K D : List ℝ) (h : K.length = D.length) (t r th : ℝ) :
    wfVal n (Spec.moved K D t) r th = wfVal n K r th + t * wfVal n D r th := by
  rw [moved_eq, wfVal_add _ _ _ (by simpa using h), wfVal_smul]

theorem moved_length (K D : List ℝ) (h : K.length = D.length) (t : ℝ) :
    (Spec.moved K D t).length = K.length := by
  simp [Spec.moved, h]

/-- A radiation pattern is returned for every other list of coefficients of the same length. -/
theorem pattern_of_length {I K K' : List ℝ} {dz wavel : ℝ} {N : ℕ} {illum : Illum (Fin N × Fin N)}
    {tel : TelGeo (Fin N × Fin N)} {bf : ℝ} {P : Pattern N}
    (h : radiationPattern I K dz wavel illum tel bf = .ok P) (hl : K'.length = K.length) :
    ∃ P', radiationPattern I K' dz wavel illum tel bf = .ok P' := by
  obtain ⟨hN, E, hE, -⟩ := radiationPattern_ok h
  obtain ⟨B, W, d, Ea, h1, h2, h3, h4, -⟩ := aperture_ok_iff.1 hE
  obtain ⟨n, hn, -⟩ := wavefront_ok_inv h2
  rw [radiationPattern_eq _ _ _ _ hN,
    aperture_ok_iff.2 ⟨B, _, d, Ea, h1, wavefront_ok _ _ K' n (hl.trans hn), h3, h4, rfl⟩]
  exact ⟨_, rfl⟩

/-- **C121.**  The far field after a step `t` along `D` is the far field before, plus `t` times the slope,
up to `(2π t Σ|D|)²` times the sum of the amplitudes. -/
theorem C121_field (I K D : List ℝ) (dz wavel : ℝ) (N : ℕ) (illum : Illum (Fin N × Fin N))
    (tel : TelGeo (Fin N × Fin N)) (bf : ℝ) (hpr : 0 < tel.pr) (P : Pattern N)
    (a phi : Fin N × Fin N → ℝ) (hKD : K.length = D.length)
    (h : radiationPattern I K dz wavel illum tel bf = .ok P)
    (hp : Spec.Parts I K dz wavel illum tel bf a phi)
    (hdark : ∀ q, tel.pr ^ 2 < Spec.gridPoint tel.pr bf N q.2 ^ 2 + Spec.gridPoint tel.pr bf N q.1 ^ 2 →
      a q = 0) :
    ∃ V, wavefront (fun q : Fin N × Fin N => Real.sqrt (Spec.gridPoint tel.pr bf N q.2 ^ 2 +
        Spec.gridPoint tel.pr bf N q.1 ^ 2) / tel.pr)
      (fun q => arctan2 (Spec.gridPoint tel.pr bf N q.1) (Spec.gridPoint tel.pr bf N q.2)) D = .ok V ∧
    ∀ t, ∃ P', radiationPattern I (Spec.moved K D t) dz wavel illum tel bf = .ok P' ∧
      ∀ q, ‖P'.F q - P.F q - t * Spec.slope a phi V q‖ ≤
        (2 * Real.pi * t * (D.map (|·|)).sum) ^ 2 * ∑ i, ∑ j, |a (i, j)| := by
  have hp0 := hp
  obtain ⟨B, W, d, Ea, h1, h2, h3, h4, h5, h6⟩ := hp
  obtain ⟨n, hn, rfl⟩ := wavefront_ok_inv h4
  refine ⟨_, wavefront_ok _ _ D n (hKD ▸ hn), fun t => ?_⟩
  obtain ⟨P', hP'⟩ := pattern_of_length h (moved_length K D hKD t)
  refine ⟨P', hP', fun q => ?_⟩
  obtain ⟨a', phi', hp'⟩ := C70_parts _ _ _ _ _ _ _ _ _ hP'
  have ha := parts_unique hp0 hp'
  subst ha
  rw [parts_of_pattern h hp0, parts_of_pattern hP' hp', shifted_eq, shifted_eq, Spec.slope,
    ← Finset.sum_sub_distrib, Finset.mul_sum, ← Finset.sum_sub_distrib, Finset.mul_sum]
  refine (norm_sum_le _ _).trans (sum_le_sum fun i _ => ?_)
  rw [← Finset.sum_sub_distrib, Finset.mul_sum, ← Finset.sum_sub_distrib, Finset.mul_sum]
  refine (norm_sum_le _ _).trans (sum_le_sum fun j _ => ?_)
  by_cases hin : tel.pr ^ 2 < Spec.gridPoint tel.pr bf N j ^ 2 + Spec.gridPoint tel.pr bf N i ^ 2
  · rw [hdark (i, j) hin]; simp
  obtain ⟨B', W', d', Ea', -, -, h3', h4', -, h6'⟩ := hp'
  rw [wavefront_ok _ _ (Spec.moved K D t) n ((moved_length K D hKD t).trans hn)] at h4'
  cases h4'
  rw [h3] at h3'
  cases h3'
  have hr : |Real.sqrt (Spec.gridPoint tel.pr bf N j ^ 2 + Spec.gridPoint tel.pr bf N i ^ 2) / tel.pr| ≤ 1 := by
    rw [abs_of_nonneg (by positivity), div_le_one hpr]
    exact Real.sqrt_le_iff.2 ⟨hpr.le, not_lt.1 hin⟩
  have hW := wfVal_abs_le n D (hKD ▸ hn) _ (arctan2 (Spec.gridPoint tel.pr bf N i)
      (Spec.gridPoint tel.pr bf N j)) hr
  dsimp only at hW ⊢
  set v := wfVal n D (Real.sqrt (Spec.gridPoint tel.pr bf N j ^ 2 + Spec.gridPoint tel.pr bf N i ^ 2) /
    tel.pr) (arctan2 (Spec.gridPoint tel.pr bf N i) (Spec.gridPoint tel.pr bf N j)) with hv
  have hphi : phi' (i, j) = phi (i, j) + 2 * Real.pi * t * v := by
    rw [h6, h6']
    dsimp only
    rw [wfVal_moved n K D hKD, hv]
    ring
  set w := (((((q.1 : ℕ) : ℤ) - ((N / 2 : ℕ) : ℤ)) * ((i : ℕ) : ℤ) +
        (((q.2 : ℕ) : ℤ) - ((N / 2 : ℕ) : ℤ)) * ((j : ℕ) : ℤ)) : ℤ) with hw
  have hew : Complex.exp (-(2 * Real.pi * Complex.I) * ((w : ℂ) / (N : ℂ))) = ew N w := rfl
  rw [hew]
  have e : (a' (i, j) : ℂ) * Complex.exp ((phi' (i, j) : ℂ) * Complex.I) * ew N w -
      (a' (i, j) : ℂ) * Complex.exp ((phi (i, j) : ℂ) * Complex.I) * ew N w -
      (t : ℂ) * ((a' (i, j) : ℂ) * Complex.exp ((phi (i, j) : ℂ) * Complex.I) *
        (2 * Real.pi * v * Complex.I) * ew N w) =
      (a' (i, j) : ℂ) * Complex.exp ((phi (i, j) : ℂ) * Complex.I) *
        (Complex.exp (((2 * Real.pi * t * v : ℝ) : ℂ) * Complex.I) - 1 -
          ((2 * Real.pi * t * v : ℝ) : ℂ) * Complex.I) * ew N w := by
    have e1 : Complex.exp ((phi' (i, j) : ℂ) * Complex.I) = Complex.exp ((phi (i, j) : ℂ) * Complex.I) *
        Complex.exp (((2 * Real.pi * t * v : ℝ) : ℂ) * Complex.I) := by
      rw [← Complex.exp_add, ← add_mul, hphi, Complex.ofReal_add]
    rw [e1]
    push_cast
    ring
  rw [e, norm_mul, norm_mul, norm_mul, ew_norm, mul_one, Complex.norm_exp_ofReal_mul_I, mul_one,
    Complex.norm_real, Real.norm_eq_abs, mul_comm]
  refine mul_le_mul_of_nonneg_right ((exp_taylor _).trans ?_) (abs_nonneg _)
  rw [mul_pow, mul_pow _ ((D.map (|·|)).sum)]
  refine mul_le_mul_of_nonneg_left ?_ (sq_nonneg _)
  rw [← sq_abs v]
  exact pow_le_pow_left₀ (abs_nonneg _) hW 2

/-- The change of a squared modulus against twice the real part. -/
theorem power_step (F F' G : ℂ) (t c S : ℝ) (hS : ‖F‖ ≤ S) (hG : ‖F' - F‖ ≤ |t| * c * S)
    (hR : ‖F' - F - t * G‖ ≤ (t * c) ^ 2 * S) :
    |‖F'‖ ^ 2 - ‖F‖ ^ 2 - t * (2 * ((starRingEnd ℂ) F * G).re)| ≤ 3 * (t * c) ^ 2 * S ^ 2 := by
  have hS0 : 0 ≤ S := (norm_nonneg _).trans hS
  have e : ‖F'‖ ^ 2 - ‖F‖ ^ 2 - t * (2 * ((starRingEnd ℂ) F * G).re) =
      2 * ((starRingEnd ℂ) F * (F' - F - t * G)).re + ‖F' - F‖ ^ 2 := by
    simp only [Complex.sq_norm, Complex.normSq_apply, Complex.mul_re, Complex.conj_re, Complex.conj_im,
      Complex.sub_re, Complex.sub_im, Complex.mul_im, Complex.ofReal_re, Complex.ofReal_im]
    ring
  rw [e]
  refine (abs_add_le _ _).trans ?_
  have h1 : |2 * ((starRingEnd ℂ) F * (F' - F - t * G)).re| ≤ 2 * (S * ((t * c) ^ 2 * S)) := by
    rw [abs_mul, abs_of_pos (two_pos : (0 : ℝ) < 2)]
    refine mul_le_mul_of_nonneg_left ((Complex.abs_re_le_norm _).trans ?_) two_pos.le
    rw [norm_mul, RCLike.norm_conj]
    exact mul_le_mul hS hR (norm_nonneg _) hS0
  have h2 : |‖F' - F‖ ^ 2| ≤ (|t| * c * S) ^ 2 := by
    rw [abs_of_nonneg (sq_nonneg _)]
    exact pow_le_pow_left₀ (norm_nonneg _) hG 2
  have h3 : (|t| * c * S) ^ 2 = (t * c) ^ 2 * S ^ 2 := by
    rw [mul_pow, mul_pow, sq_abs, mul_pow]
  rw [h3] at h2
  linarith [h1, h2]

theorem dist_moved (K D : List ℝ) (t : ℝ) (h : K.length = D.length) :
    Spec.dist (Spec.moved K D t) K = |t| * (D.map (|·|)).sum := by
  induction K generalizing D with
  | nil =>
    cases D with
    | nil => simp [Spec.dist, Spec.moved]
    | cons d D => simp at h
  | cons k K ih =>
    cases D with
    | nil => simp at h
    | cons d D =>
      have := ih D (by simpa using h)
      simp only [Spec.dist, Spec.moved] at this
      simp only [Spec.dist, Spec.moved, List.zipWith_cons_cons, List.sum_cons, List.map_cons, this]
      rw [add_sub_cancel_left, abs_mul]
      ring

/-- **C121.**  The power at each pixel has a derivative along every direction of the coefficients, twice the
real part of the conjugated field times the slope, and the quotient of a finite difference with step `t`
misses it by at most `3 |t| (2π Σ|D| Σ|a|)²`. -/
theorem C121_power (I K D : List ℝ) (dz wavel : ℝ) (N : ℕ) (illum : Illum (Fin N × Fin N))
    (tel : TelGeo (Fin N × Fin N)) (bf : ℝ) (hpr : 0 < tel.pr) (hw : 0 < wavel)
    (P : ℝ → Pattern N) (a phi V : Fin N × Fin N → ℝ) (hKD : K.length = D.length)
    (h : ∀ t, radiationPattern I (Spec.moved K D t) dz wavel illum tel bf = .ok (P t))
    (hp : Spec.Parts I K dz wavel illum tel bf a phi)
    (hV : wavefront (fun q : Fin N × Fin N => Real.sqrt (Spec.gridPoint tel.pr bf N q.2 ^ 2 +
        Spec.gridPoint tel.pr bf N q.1 ^ 2) / tel.pr)
      (fun q => arctan2 (Spec.gridPoint tel.pr bf N q.1) (Spec.gridPoint tel.pr bf N q.2)) D = .ok V)
    (hdark : ∀ q, tel.pr ^ 2 < Spec.gridPoint tel.pr bf N q.2 ^ 2 + Spec.gridPoint tel.pr bf N q.1 ^ 2 →
      a q = 0) (q : Fin N × Fin N) :
    HasDerivAt (fun t => ‖(P t).F q‖ ^ 2)
      (2 * ((starRingEnd ℂ) ((P 0).F q) * Spec.slope a phi V q).re) 0 ∧
    ∀ t, t ≠ 0 → |(‖(P t).F q‖ ^ 2 - ‖(P 0).F q‖ ^ 2) / t -
        2 * ((starRingEnd ℂ) ((P 0).F q) * Spec.slope a phi V q).re| ≤
      3 * |t| * (2 * Real.pi * (D.map (|·|)).sum * ∑ i, ∑ j, |a (i, j)|) ^ 2 := by
  have hK0 : Spec.moved K D 0 = K := by
    rw [moved_eq]
    apply List.ext_getElem
    · simp [hKD]
    · intro i h1 h2
      simp
  have h0 := h 0
  rw [hK0] at h0
  obtain ⟨V', hV', hF⟩ := C121_field I K D dz wavel N illum tel bf hpr (P 0) a phi hKD h0 hp hdark
  rw [hV] at hV'
  cases hV'
  set S := ∑ i, ∑ j, |a (i, j)| with hS
  set δ := (D.map (|·|)).sum with hδ
  set G := Spec.slope a phi V q
  have key : ∀ t, |‖(P t).F q‖ ^ 2 - ‖(P 0).F q‖ ^ 2 - t * (2 * ((starRingEnd ℂ) ((P 0).F q) * G).re)| ≤
      3 * (t * (2 * Real.pi * δ)) ^ 2 * S ^ 2 := by
    intro t
    obtain ⟨P', hP', hb⟩ := hF t
    rw [h t] at hP'
    cases hP'
    refine power_step _ _ _ t (2 * Real.pi * δ) S (C70_bound I K dz wavel N illum tel bf (P 0) a phi h0 hp q)
      ?_ ((hb q).trans (le_of_eq ?_))
    · obtain ⟨a', phi', hp'⟩ := C70_parts _ _ _ _ _ _ _ _ _ (h t)
      have ha := parts_unique hp hp'
      subst ha
      have := C80_field I (Spec.moved K D t) K dz dz wavel 0 N illum tel bf hpr hw (P t) (P 0) a' phi'
        (moved_length K D hKD t) (h t) h0 hp' hdark
        (fun d d' e1 e2 q => by rw [e1] at e2; cases e2; simp) q
      rw [dist_moved K D t hKD] at this
      refine this.trans (le_of_eq ?_)
      simp
      ring
    · ring
  have hq : ∀ t, t ≠ 0 → |(‖(P t).F q‖ ^ 2 - ‖(P 0).F q‖ ^ 2) / t -
        2 * ((starRingEnd ℂ) ((P 0).F q) * G).re| ≤ 3 * |t| * (2 * Real.pi * δ * S) ^ 2 := by
    intro t ht
    have e : (‖(P t).F q‖ ^ 2 - ‖(P 0).F q‖ ^ 2) / t - 2 * ((starRingEnd ℂ) ((P 0).F q) * G).re =
        (‖(P t).F q‖ ^ 2 - ‖(P 0).F q‖ ^ 2 - t * (2 * ((starRingEnd ℂ) ((P 0).F q) * G).re)) / t := by
      field_simp
    rw [e, abs_div, div_le_iff₀ (abs_pos.2 ht)]
    refine (key t).trans (le_of_eq ?_)
    rw [mul_pow t, ← sq_abs t]
    ring
  refine ⟨?_, hq⟩
  rw [hasDerivAt_iff_tendsto_slope, tendsto_iff_norm_sub_tendsto_zero]
  refine squeeze_zero' (g := fun t => 3 * |t| * (2 * Real.pi * δ * S) ^ 2)
    (Filter.Eventually.of_forall fun _ => norm_nonneg _) ?_ ?_
  · filter_upwards [self_mem_nhdsWithin] with t ht
    have := hq t ht
    rw [Real.norm_eq_abs, slope_def_field, sub_zero]
    exact this
  · have hc : Continuous fun t : ℝ => 3 * |t| * (2 * Real.pi * δ * S) ^ 2 := by fun_prop
    have := hc.tendsto 0
    simp only [abs_zero, mul_zero, zero_mul] at this
    exact this.mono_left nhdsWithin_le_nhds

/-- The step of the finite difference of a fit, along the coefficient of the second mode of order one. -/
example (P : ℝ → Pattern 256)
    (h : ∀ t, radiationPattern [1, -14, 2, 0, 0] [0, 0.1, 0.2 + t] 0.022 0.009 illumGauss
      (manualTel 50 3.25 1 20 30 387.39435) 5 = .ok (P t)) (q) :
    ∃ (a : Fin 256 × Fin 256 → ℝ) (g : ℝ), HasDerivAt (fun t => ‖(P t).F q‖ ^ 2) g 0 ∧
      ∀ t, t ≠ 0 → |(‖(P t).F q‖ ^ 2 - ‖(P 0).F q‖ ^ 2) / t - g| ≤
        3 * |t| * (2 * Real.pi * ∑ i, ∑ j, |a (i, j)|) ^ 2 := by
  have h0 := h 0
  rw [add_zero] at h0
  obtain ⟨a, phi, hp⟩ := C70_parts _ _ _ _ _ _ _ _ _ h0
  have hd := (C80_manual _ _ _ _ _ _ _ _ _ _ 0.022 _ _ a phi hp).1
  have hpr : 0 < (manualTel (ι := Fin 256 × Fin 256) 50 3.25 1 20 30 387.39435).pr := by
    norm_num [manualTel]
  obtain ⟨V, hV, -⟩ := C121_field _ [0, 0.1, 0.2] [0, 0, 1] _ _ _ _ _ _ hpr _ a phi rfl h0 hp hd
  have hm : ∀ t, Spec.moved [0, 0.1, 0.2] [0, 0, 1] t = [0, 0.1, 0.2 + t] := by
    intro t
    simp [Spec.moved]
  obtain ⟨h1, h2⟩ := C121_power [1, -14, 2, 0, 0] [0, 0.1, 0.2] [0, 0, 1] 0.022 0.009 256 illumGauss
    (manualTel 50 3.25 1 20 30 387.39435) 5 hpr (by norm_num) P a phi V rfl
    (fun t => by rw [hm]; exact h t) hp hV hd q
  refine ⟨a, _, h1, fun t ht => (h2 t ht).trans (le_of_eq ?_)⟩
  simp

end Verif.Props
