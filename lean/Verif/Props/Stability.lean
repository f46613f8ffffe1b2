import Verif.Props.Optics
import Verif.Props.Unique

/-!
# The beam is Lipschitz in the coefficients and the radial offset (C80)
-/

namespace Verif.Props

open Verif Verif.Np Verif.Zernike Verif.Aperture Verif.Fourier Verif.Telgeometry Finset

theorem exp_lipschitz (a b : ℝ) :
    ‖Complex.exp ((a : ℂ) * Complex.I) - Complex.exp ((b : ℂ) * Complex.I)‖ ≤ |a - b| := by
  have h : Complex.exp ((a : ℂ) * Complex.I) - Complex.exp ((b : ℂ) * Complex.I) =
      Complex.exp ((b : ℂ) * Complex.I) * (Complex.exp (Complex.I * ((a - b : ℝ) : ℂ)) - 1) := by
    rw [mul_sub, ← Complex.exp_add, mul_one]
    congr 2
    push_cast
    ring
  rw [h, norm_mul, Complex.norm_exp_ofReal_mul_I, one_mul]
  exact Real.norm_exp_I_mul_ofReal_sub_one_le

/-- Sum of the absolute differences of two lists of coefficients. -/
def Spec.dist (K K' : List ℝ) : ℝ := (List.zipWith (fun a b => |a - b|) K K').sum

theorem wfVal_lipschitz (n : ℕ) (K K' : List ℝ) (hK : K.length = tri (n + 1))
    (hKK : K.length = K'.length) (r t : ℝ) (hr : |r| ≤ 1) :
    |wfVal n K r t - wfVal n K' r t| ≤ Spec.dist K K' := by
  rw [← wfVal_sub n K K' hKK]
  refine (wfVal_abs_le n _ (by simp [← hKK, hK]) r t hr).trans (le_of_eq ?_)
  unfold Spec.dist
  congr 1
  apply List.ext_getElem
  · simp
  · intro i h1 h2
    simp [sub_eq_add_neg]

theorem parts_unique {I K K' : List ℝ} {dz dz' wavel : ℝ} {N : ℕ} {illum : Illum (Fin N × Fin N)}
    {tel : TelGeo (Fin N × Fin N)} {bf : ℝ} {a phi a' phi' : Fin N × Fin N → ℝ}
    (h : Spec.Parts I K dz wavel illum tel bf a phi) (h' : Spec.Parts I K' dz' wavel illum tel bf a' phi') :
    a' = a := by
  obtain ⟨B, W, d, Ea, h1, h2, -, -, h3, -⟩ := h
  obtain ⟨B', W', d', Ea', h1', h2', -, -, h3', -⟩ := h'
  rw [h1] at h1'
  cases h1'
  rw [h2] at h2'
  cases h2'
  funext q
  rw [h3, h3']

/-- **C80.**  For an aperture that is dark outside the dish and a path difference that changes by at most
`c` per unit of radial offset, each point of the far field changes by at most `2π` times the sum of the
amplitudes times the change of the coefficients and of the offset in wavelengths. -/
theorem C80_field (I K K' : List ℝ) (dz dz' wavel c : ℝ) (N : ℕ) (illum : Illum (Fin N × Fin N))
    (tel : TelGeo (Fin N × Fin N)) (bf : ℝ) (hpr : 0 < tel.pr) (hw : 0 < wavel)
    (P P' : Pattern N) (a phi : Fin N × Fin N → ℝ) (hKK : K.length = K'.length)
    (h : radiationPattern I K dz wavel illum tel bf = .ok P)
    (h' : radiationPattern I K' dz' wavel illum tel bf = .ok P')
    (hp : Spec.Parts I K dz wavel illum tel bf a phi)
    (hdark : ∀ q, tel.pr ^ 2 < Spec.gridPoint tel.pr bf N q.2 ^ 2 + Spec.gridPoint tel.pr bf N q.1 ^ 2 →
      a q = 0)
    (hopd : ∀ d d', tel.opd (fun q => Spec.gridPoint tel.pr bf N q.2)
      (fun q => Spec.gridPoint tel.pr bf N q.1) dz = .ok d →
      tel.opd (fun q => Spec.gridPoint tel.pr bf N q.2)
      (fun q => Spec.gridPoint tel.pr bf N q.1) dz' = .ok d' → ∀ q, |d q - d' q| ≤ c * |dz - dz'|)
    (q : Fin N × Fin N) :
    ‖P.F q - P'.F q‖ ≤ 2 * Real.pi * (∑ i, ∑ j, |a (i, j)|) *
      (Spec.dist K K' + c * |dz - dz'| / wavel) := by
  obtain ⟨a', phi', hp'⟩ := C70_parts _ _ _ _ _ _ _ _ _ h'
  have ha := parts_unique hp hp'
  subst ha
  rw [parts_of_pattern h hp, parts_of_pattern h' hp', shifted_eq, shifted_eq, ← Finset.sum_sub_distrib,
    mul_assoc, mul_comm (∑ i, ∑ j, |a' (i, j)|), ← mul_assoc, Finset.mul_sum]
  refine (norm_sum_le _ _).trans (sum_le_sum fun i _ => ?_)
  rw [← Finset.sum_sub_distrib, Finset.mul_sum]
  refine (norm_sum_le _ _).trans (sum_le_sum fun j _ => ?_)
  rw [← sub_mul, norm_mul, ew_norm, mul_one, ← mul_sub, norm_mul, Complex.norm_real, Real.norm_eq_abs,
    mul_comm]
  by_cases hin : tel.pr ^ 2 < Spec.gridPoint tel.pr bf N j ^ 2 + Spec.gridPoint tel.pr bf N i ^ 2
  · rw [hdark (i, j) hin]; simp
  · refine mul_le_mul_of_nonneg_right ((exp_lipschitz _ _).trans ?_) (abs_nonneg _)
    obtain ⟨B, W, d, Ea, -, -, h3, h4, -, h6⟩ := hp
    obtain ⟨B', W', d', Ea', -, -, h3', h4', -, h6'⟩ := hp'
    obtain ⟨n, hn, rfl⟩ := wavefront_ok_inv h4
    rw [wavefront_ok _ _ K' n (hKK ▸ hn)] at h4'
    cases h4'
    have hr : |Real.sqrt (Spec.gridPoint tel.pr bf N j ^ 2 + Spec.gridPoint tel.pr bf N i ^ 2) / tel.pr| ≤ 1 := by
      rw [abs_of_nonneg (by positivity), div_le_one hpr]
      exact Real.sqrt_le_iff.2 ⟨hpr.le, not_lt.1 hin⟩
    have hW := wfVal_lipschitz n K K' hn hKK _ (arctan2 (Spec.gridPoint tel.pr bf N i)
      (Spec.gridPoint tel.pr bf N j)) hr
    have hD := hopd d d' h3 h3' (i, j)
    rw [h6, h6', ← mul_sub, abs_mul, abs_of_pos (by positivity : 0 < 2 * Real.pi)]
    refine mul_le_mul_of_nonneg_left ?_ (by positivity)
    rw [add_sub_add_comm, ← sub_div]
    refine (abs_add_le _ _).trans (add_le_add hW ?_)
    rw [abs_div, abs_of_pos hw]
    exact (div_le_div_iff_of_pos_right hw).2 hD

/-- **C80.**  And the power by at most twice that times the sum of the amplitudes. -/
theorem C80_power (I K K' : List ℝ) (dz dz' wavel c : ℝ) (N : ℕ) (illum : Illum (Fin N × Fin N))
    (tel : TelGeo (Fin N × Fin N)) (bf : ℝ) (hpr : 0 < tel.pr) (hw : 0 < wavel)
    (P P' : Pattern N) (a phi : Fin N × Fin N → ℝ) (hKK : K.length = K'.length)
    (h : radiationPattern I K dz wavel illum tel bf = .ok P)
    (h' : radiationPattern I K' dz' wavel illum tel bf = .ok P')
    (hp : Spec.Parts I K dz wavel illum tel bf a phi)
    (hdark : ∀ q, tel.pr ^ 2 < Spec.gridPoint tel.pr bf N q.2 ^ 2 + Spec.gridPoint tel.pr bf N q.1 ^ 2 →
      a q = 0)
    (hopd : ∀ d d', tel.opd (fun q => Spec.gridPoint tel.pr bf N q.2)
      (fun q => Spec.gridPoint tel.pr bf N q.1) dz = .ok d →
      tel.opd (fun q => Spec.gridPoint tel.pr bf N q.2)
      (fun q => Spec.gridPoint tel.pr bf N q.1) dz' = .ok d' → ∀ q, |d q - d' q| ≤ c * |dz - dz'|)
    (q : Fin N × Fin N) :
    |‖P.F q‖ ^ 2 - ‖P'.F q‖ ^ 2| ≤ 4 * Real.pi * (∑ i, ∑ j, |a (i, j)|) ^ 2 *
      (Spec.dist K K' + c * |dz - dz'| / wavel) := by
  have hF := C80_field I K K' dz dz' wavel c N illum tel bf hpr hw P P' a phi hKK h h' hp hdark hopd q
  obtain ⟨a', phi', hp'⟩ := C70_parts _ _ _ _ _ _ _ _ _ h'
  have b1 := C70_bound I K dz wavel N illum tel bf P a phi h hp q
  have b2 := C70_bound I K' dz' wavel N illum tel bf P' a' phi' h' hp' q
  rw [parts_unique hp hp'] at b2
  set S := ∑ i, ∑ j, |a (i, j)|
  have e : ‖P.F q‖ ^ 2 - ‖P'.F q‖ ^ 2 = (‖P.F q‖ + ‖P'.F q‖) * (‖P.F q‖ - ‖P'.F q‖) := by ring
  rw [e, abs_mul, abs_of_nonneg (by positivity)]
  have h1 : |‖P.F q‖ - ‖P'.F q‖| ≤ ‖P.F q - P'.F q‖ := abs_norm_sub_norm_le _ _
  calc (‖P.F q‖ + ‖P'.F q‖) * |‖P.F q‖ - ‖P'.F q‖|
      ≤ (2 * S) * (2 * Real.pi * S * (Spec.dist K K' + c * |dz - dz'| / wavel)) := by
        refine mul_le_mul (by linarith) (h1.trans hF) (abs_nonneg _) ?_
        have := (norm_nonneg (P.F q)).trans b1
        linarith
    _ = 4 * Real.pi * S ^ 2 * (Spec.dist K K' + c * |dz - dz'| / wavel) := by ring

/-- **C80.**  The telescopes made with `block_manual` and `opd_manual`: `c = 2`, dark outside the dish. -/
theorem C80_manual {N : ℕ} (pr sr b L Fp F bf : ℝ) (I K : List ℝ) (dz dz' wavel : ℝ)
    (illum : Illum (Fin N × Fin N)) (a phi : Fin N × Fin N → ℝ)
    (hp : Spec.Parts I K dz wavel illum (manualTel pr sr b L Fp F) bf a phi) :
    (∀ q : Fin N × Fin N, pr ^ 2 < Spec.gridPoint pr bf N q.2 ^ 2 + Spec.gridPoint pr bf N q.1 ^ 2 →
      a q = 0) ∧
    ∀ (x y : Fin N × Fin N → ℝ) d d', (manualTel pr sr b L Fp F).opd x y dz = .ok d →
      (manualTel pr sr b L Fp F).opd x y dz' = .ok d' → ∀ q, |d q - d' q| ≤ 2 * |dz - dz'| := by
  constructor
  · intro q hq
    obtain ⟨B, W, d, Ea, h1, -, -, -, h3, -⟩ := hp
    obtain ⟨B', hB, hv⟩ := C24_value pr sr b L (fun q : Fin N × Fin N => Spec.gridPoint pr bf N q.2)
      (fun q => Spec.gridPoint pr bf N q.1)
    have : B' = B := by
      have := hB.symm.trans h1
      cases this
      rfl
    subst this
    rw [h3, (hv q).2, zero_mul]
    intro h
    exact lt_asymm h.2.1 hq
  · rintro x y d d' h1 h2 q
    cases h1
    cases h2
    have e : opdAt Fp F (x q) (y q) dz - opdAt Fp F (x q) (y q) dz' = opdAt Fp F (x q) (y q) (dz - dz') := by
      unfold opdAt
      ring
    rw [e]
    exact (opdAt_bounds Fp F (x q) (y q) (dz - dz')).2

example (P P' : Pattern 256)
    (h : radiationPattern [1, -14, 2, 0, 0] [0, 0.1, 0.2] 0.022 0.009 illumGauss
      (manualTel 50 3.25 1 20 30 387.39435) 5 = .ok P)
    (h' : radiationPattern [1, -14, 2, 0, 0] [0, 0.1, 0.21] 0.022 0.009 illumGauss
      (manualTel 50 3.25 1 20 30 387.39435) 5 = .ok P') (q) :
    ∃ a : Fin 256 × Fin 256 → ℝ,
      ‖P.F q - P'.F q‖ ≤ 2 * Real.pi * (∑ i, ∑ j, |a (i, j)|) * 0.01 := by
  obtain ⟨a, phi, hp⟩ := C70_parts _ _ _ _ _ _ _ _ _ h
  have := C80_field _ [0, 0.1, 0.2] [0, 0.1, 0.21] 0.022 0.022 0.009 2 256 _ _ 5 (by norm_num [manualTel]) (by norm_num) P P' a phi
    rfl h h' hp (C80_manual _ _ _ _ _ _ _ _ _ _ 0.022 _ _ a phi hp).1
    (fun d d' => (C80_manual _ _ _ _ _ _ _ _ _ _ 0.022 _ _ a phi hp).2 _ _ d d') q
  refine ⟨a, this.trans (le_of_eq ?_)⟩
  congr 1
  norm_num [Spec.dist, abs_of_neg, abs_of_pos]

end Verif.Props
