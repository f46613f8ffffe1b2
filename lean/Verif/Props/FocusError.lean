import Verif.Props.Complete
import Verif.Props.EvenOrders
import Verif.Model.DoubleEffelsberg
import Mathlib.Algebra.Order.Ring.GeomSum

/-!
# C137: a wrong focus offset looks like rotation-symmetric coefficients
-/

namespace Verif.Props

open Verif Verif.Np Verif.Zernike Verif.Aperture Verif.Fourier Verif.Telgeometry Finset

/-! ## Specification -/

/-- The coefficients are rotation-symmetric: only those of angular frequency zero, `2 k = i`, are there. -/
def Spec.Round (n : ℕ) (Z : List ℝ) : Prop :=
  ∀ i k, i ≤ n → k ≤ i → 2 * k ≠ i → Z.getD (Spec.place i k) 0 = 0

/-- The wavefront `K` with `t` times the wavefront `Z` on top, coefficient by coefficient. -/
def Spec.onTop (K Z : List ℝ) (t : ℝ) : List ℝ := List.zipWith (fun k z => k + t * z) K Z

/-- The telescope has the path difference of a Cassegrain or Gregorian system of focal lengths `Fp` and `F`. -/
def Spec.TwoMirrors {ι : Type} (tel : TelGeo ι) (Fp F : ℝ) : Prop :=
  ∀ (x y : ι → ℝ) (dz : ℝ), tel.opd x y dz = .ok fun q =>
    dz * ((1 - (Real.sqrt (x q ^ 2 + y q ^ 2) / (2 * Fp)) ^ 2) / (1 + (Real.sqrt (x q ^ 2 + y q ^ 2) / (2 * Fp)) ^ 2) +
      (1 - (Real.sqrt (x q ^ 2 + y q ^ 2) / (2 * F)) ^ 2) / (1 + (Real.sqrt (x q ^ 2 + y q ^ 2) / (2 * F)) ^ 2))

/-! ## The geometric series -/

/-- The first terms of the path difference per unit of offset, at the distance `rho` in units of the radius of the dish;
`A` and `B` are the radius over twice the focal lengths. -/
noncomputable def Spec.series (m : ℕ) (A B rho : ℝ) : ℝ :=
  -2 + 2 * ∑ k ∈ range (m + 1), (-1) ^ k * (A ^ (2 * k) + B ^ (2 * k)) * rho ^ (2 * k)

theorem geom_near (m : ℕ) (s : ℝ) (hs : 0 ≤ s) :
    |(1 - s) / (1 + s) - (-1 + 2 * ∑ k ∈ range (m + 1), (-s) ^ k)| ≤ 2 * s ^ (m + 1) := by
  have h0 : (1 + s) ≠ 0 := by positivity
  have hg : (∑ k ∈ range (m + 1), (-s) ^ k) * (1 + s) = 1 - (-s) ^ (m + 1) := by
    have := geom_sum_mul (-s) (m + 1)
    linarith
  have e : (1 - s) / (1 + s) - (-1 + 2 * ∑ k ∈ range (m + 1), (-s) ^ k) = 2 * (-s) ^ (m + 1) / (1 + s) := by
    field_simp
    linear_combination (-2) * hg
  rw [e, abs_div, abs_mul, abs_pow, abs_neg, abs_of_nonneg hs, abs_of_nonneg (by positivity : 0 ≤ 1 + s), abs_two]
  exact div_le_self (by positivity) (by linarith)

theorem series_near (m : ℕ) (Fp F pr r : ℝ) (hpr : 0 < pr) (h0 : 0 ≤ r) (hr : r ≤ pr) :
    |(1 - (r / (2 * Fp)) ^ 2) / (1 + (r / (2 * Fp)) ^ 2) + (1 - (r / (2 * F)) ^ 2) / (1 + (r / (2 * F)) ^ 2) -
      Spec.series m (pr / (2 * Fp)) (pr / (2 * F)) (r / pr)| ≤
      2 * ((pr / (2 * Fp)) ^ (2 * m + 2) + (pr / (2 * F)) ^ (2 * m + 2)) := by
  have h1 := geom_near m ((r / (2 * Fp)) ^ 2) (by positivity)
  have h2 := geom_near m ((r / (2 * F)) ^ 2) (by positivity)
  have e : Spec.series m (pr / (2 * Fp)) (pr / (2 * F)) (r / pr) =
      (-1 + 2 * ∑ k ∈ range (m + 1), (-(r / (2 * Fp)) ^ 2) ^ k) +
      (-1 + 2 * ∑ k ∈ range (m + 1), (-(r / (2 * F)) ^ 2) ^ k) := by
    unfold Spec.series
    have hs : ∑ k ∈ range (m + 1), (-1 : ℝ) ^ k * ((pr / (2 * Fp)) ^ (2 * k) + (pr / (2 * F)) ^ (2 * k)) * (r / pr) ^ (2 * k) =
        ∑ k ∈ range (m + 1), (-(r / (2 * Fp)) ^ 2) ^ k + ∑ k ∈ range (m + 1), (-(r / (2 * F)) ^ 2) ^ k := by
      rw [← sum_add_distrib]
      refine sum_congr rfl fun k _ => ?_
      have g : ∀ G : ℝ, (-1 : ℝ) ^ k * (pr / (2 * G)) ^ (2 * k) * (r / pr) ^ (2 * k) = (-(r / (2 * G)) ^ 2) ^ k := by
        intro G
        rw [mul_assoc, ← mul_pow, show pr / (2 * G) * (r / pr) = r / (2 * G) by field_simp, neg_pow ((r / (2 * G)) ^ 2), ← pow_mul]
      rw [← g, ← g]
      ring
    rw [hs]
    ring
  have b : ∀ G : ℝ, ((r / (2 * G)) ^ 2) ^ (m + 1) ≤ (pr / (2 * G)) ^ (2 * m + 2) := by
    intro G
    rw [show 2 * m + 2 = 2 * (m + 1) by ring, pow_mul (pr / (2 * G))]
    refine pow_le_pow_left₀ (by positivity) ?_ _
    rw [div_pow, div_pow]
    gcongr
  rw [e]
  have t : ∀ a b c d : ℝ, |a + b - (c + d)| ≤ |a - c| + |b - d| := fun a b c d => by
    rw [show a + b - (c + d) = (a - c) + (b - d) by ring]
    exact abs_add_le _ _
  refine (t _ _ _ _).trans ?_
  have b1 := b Fp
  have b2 := b F
  linarith

theorem series_mem (n m : ℕ) (hm : 2 * m ≤ n) (A B : ℝ) :
    (fun p : ℝ × ℝ => -2 + 2 * ∑ k ∈ range (m + 1), (-1) ^ k * (A ^ (2 * k) + B ^ (2 * k)) * (p.1 ^ 2 + p.2 ^ 2) ^ k) ∈
      polyBelow n := by
  have h2 : (fun p : ℝ × ℝ => p.1 ^ 2 + p.2 ^ 2) ∈ polyBelow 2 :=
    (polyBelow 2).add_mem (by simpa using polyBelow_pow polyBelow_x 2) (by simpa using polyBelow_pow polyBelow_y 2)
  have hs : (fun p : ℝ × ℝ => ∑ k ∈ range (m + 1), (-1) ^ k * (A ^ (2 * k) + B ^ (2 * k)) * (p.1 ^ 2 + p.2 ^ 2) ^ k) ∈
      polyBelow n := by
    have e : (fun p : ℝ × ℝ => ∑ k ∈ range (m + 1), (-1) ^ k * (A ^ (2 * k) + B ^ (2 * k)) * (p.1 ^ 2 + p.2 ^ 2) ^ k) =
        ∑ k ∈ range (m + 1), ((-1) ^ k * (A ^ (2 * k) + B ^ (2 * k))) • fun p : ℝ × ℝ => (p.1 ^ 2 + p.2 ^ 2) ^ k := by
      funext p
      simp [Finset.sum_apply]
    rw [e]
    refine Submodule.sum_mem _ fun k hk => Submodule.smul_mem _ _ ?_
    have hk' : k ≤ m := Nat.lt_succ_iff.1 (mem_range.1 hk)
    exact polyBelow_mono (by omega) (polyBelow_pow h2 k)
  exact (polyBelow n).add_mem (polyBelow_const _ _) ((polyBelow n).smul_mem 2 hs)

/-- A wavefront that depends on the distance only has rotation-symmetric coefficients. -/
theorem round_of_radial (n : ℕ) (Z : List ℝ) (G : ℝ → ℝ) (h : ∀ rho theta, wfVal n Z rho theta = G rho) :
    Spec.Round n Z := by
  intro i k hi hk hne
  have hin := wfVal_inner n Z i k hi hk
  obtain ⟨a, b, -, -, -, hU⟩ := U_value i _ (row_allowed i k hk)
  have e : ∀ rho : ℝ, ∫ theta in (0:ℝ)..(2 * Real.pi),
      wfVal n Z rho theta * Uv i (-(i : ℤ) + 2 * (k : ℤ)) rho theta * rho = 0 := by
    intro rho
    have e1 : ∀ theta : ℝ, wfVal n Z rho theta * Uv i (-(i : ℤ) + 2 * (k : ℤ)) rho theta * rho =
        (G rho * Rsum a b rho * rho) * (ang (-(i : ℤ) + 2 * (k : ℤ)) theta * ang 0 theta) := by
      intro theta
      rw [h, Uv_of_ok (hU rho theta)]
      simp only [ang, lt_irrefl, if_false, abs_zero, Int.cast_zero, zero_mul, Real.cos_zero]
      ring
    simp_rw [e1]
    rw [intervalIntegral.integral_const_mul, ang_orth, if_neg (by omega), mul_zero]
  simp_rw [e] at hin
  rw [intervalIntegral.integral_zero, if_neg hne] at hin
  have hp := Real.pi_pos
  have hi0 : (0 : ℝ) < i + 1 := by positivity
  have := (mul_eq_zero.1 hin.symm).resolve_right (by positivity)
  exact this

/-- **C137.**  For every order there are rotation-symmetric coefficients whose wavefront is the beginning of the series. -/
theorem exists_series (n m : ℕ) (hm : 2 * m ≤ n) (A B : ℝ) : ∃ Z : List ℝ, Z.length = (n + 1) * (n + 2) / 2 ∧
    Spec.Round n Z ∧ ∀ rho theta, wfVal n Z rho theta = Spec.series m A B rho := by
  obtain ⟨Z, hZ, hw⟩ := exists_wfVal (series_mem n m hm A B)
  have hw' : ∀ rho theta, wfVal n Z rho theta = Spec.series m A B rho := by
    intro rho theta
    rw [hw]
    unfold Spec.series
    simp only
    rw [show (rho * Real.cos theta) ^ 2 + (rho * Real.sin theta) ^ 2 = rho ^ 2 by
      rw [mul_pow, mul_pow, ← mul_add, Real.cos_sq_add_sin_sq, mul_one]]
    simp_rw [← pow_mul]
  exact ⟨Z, hZ, round_of_radial n Z _ hw', hw'⟩

theorem onTop_length (K Z : List ℝ) (t : ℝ) (h : K.length = Z.length) : (Spec.onTop K Z t).length = K.length := by
  simp [Spec.onTop, h]

theorem wfVal_onTop (n : ℕ) (K Z : List ℝ) (t : ℝ) (h : K.length = Z.length) (rho theta : ℝ) :
    wfVal n (Spec.onTop K Z t) rho theta = wfVal n K rho theta + t * wfVal n Z rho theta := by
  rw [← wfVal_smul, ← wfVal_add n K _ (by simp [h])]
  congr 1
  unfold Spec.onTop
  rw [List.zipWith_map_right]

/-! ## The beam -/

theorem focus_near (n m : ℕ) (Z : List ℝ) (Fp F : ℝ) (I K : List ℝ) (dz e wavel : ℝ) (N : ℕ)
    (illum : Illum (Fin N × Fin N)) (tel : TelGeo (Fin N × Fin N)) (bf : ℝ) (hpr : 0 < tel.pr) (hw : 0 < wavel)
    (hZ : Z.length = (n + 1) * (n + 2) / 2)
    (hs : ∀ rho theta, wfVal n Z rho theta = Spec.series m (tel.pr / (2 * Fp)) (tel.pr / (2 * F)) rho)
    (htel : Spec.TwoMirrors tel Fp F) (hK : K.length = Z.length) (P P' : Pattern N) (a phi : Fin N × Fin N → ℝ)
    (h : radiationPattern I K (dz + e) wavel illum tel bf = .ok P)
    (h' : radiationPattern I (Spec.onTop K Z (e / wavel)) dz wavel illum tel bf = .ok P')
    (hp : Spec.Parts I K (dz + e) wavel illum tel bf a phi)
    (hdark : ∀ q, tel.pr ^ 2 < Spec.gridPoint tel.pr bf N q.2 ^ 2 + Spec.gridPoint tel.pr bf N q.1 ^ 2 → a q = 0)
    (q : Fin N × Fin N) :
    ‖P.F q - P'.F q‖ ≤ 2 * Real.pi *
      (2 * (|e| / wavel) * ((tel.pr / (2 * Fp)) ^ (2 * m + 2) + (tel.pr / (2 * F)) ^ (2 * m + 2))) *
      ∑ i, ∑ j, |a (i, j)| := by
  obtain ⟨a', phi', hp'⟩ := C70_parts _ _ _ _ _ _ _ _ _ h'
  obtain rfl := (parts_unique hp hp').symm
  rw [parts_of_pattern h hp, parts_of_pattern h' hp', shifted_eq, shifted_eq, ← Finset.sum_sub_distrib, Finset.mul_sum]
  refine (norm_sum_le _ _).trans (sum_le_sum fun i _ => ?_)
  rw [← Finset.sum_sub_distrib, Finset.mul_sum]
  refine (norm_sum_le _ _).trans (sum_le_sum fun j _ => ?_)
  rw [← sub_mul, norm_mul, ew_norm, mul_one, ← mul_sub, norm_mul, Complex.norm_real, Real.norm_eq_abs, mul_comm]
  by_cases hin : tel.pr ^ 2 < Spec.gridPoint tel.pr bf N j ^ 2 + Spec.gridPoint tel.pr bf N i ^ 2
  · rw [hdark (i, j) hin]; simp
  · refine mul_le_mul_of_nonneg_right ((exp_lipschitz _ _).trans ?_) (abs_nonneg _)
    obtain ⟨B, W, d, Ea, -, -, h3, h4, -, h6⟩ := hp
    obtain ⟨B', W', d', Ea', -, -, h3', h4', -, h6'⟩ := hp'
    rw [wavefront_ok _ _ K n (hK.trans hZ)] at h4
    rw [wavefront_ok _ _ (Spec.onTop K Z (e / wavel)) n ((onTop_length K Z _ hK).trans (hK.trans hZ))] at h4'
    cases h4
    cases h4'
    rw [htel] at h3 h3'
    cases h3
    cases h3'
    have hpos : (0 : ℝ) < 2 * Real.pi := by have := Real.pi_pos; positivity
    rw [h6, h6', ← mul_sub, abs_mul, abs_of_pos hpos]
    refine mul_le_mul_of_nonneg_left ?_ hpos.le
    simp only [wfVal_onTop n K Z _ hK, hs]
    generalize hR : Real.sqrt (Spec.gridPoint tel.pr bf N j ^ 2 + Spec.gridPoint tel.pr bf N i ^ 2) = r
    have hr0 : 0 ≤ r := hR ▸ Real.sqrt_nonneg _
    have hr1 : r ≤ tel.pr := hR ▸ Real.sqrt_le_iff.2 ⟨hpr.le, not_lt.1 hin⟩
    have hn := series_near m Fp F tel.pr r hpr hr0 hr1
    generalize (1 - (r / (2 * Fp)) ^ 2) / (1 + (r / (2 * Fp)) ^ 2) + (1 - (r / (2 * F)) ^ 2) / (1 + (r / (2 * F)) ^ 2) = g
      at hn ⊢
    generalize Spec.series m (tel.pr / (2 * Fp)) (tel.pr / (2 * F)) (r / tel.pr) = s at hn ⊢
    generalize wfVal n K (r / tel.pr) (arctan2 (Spec.gridPoint tel.pr bf N i) (Spec.gridPoint tel.pr bf N j)) = w
    rw [show w + (dz + e) * g / wavel - (w + e / wavel * s + dz * g / wavel) = e / wavel * (g - s) by ring, abs_mul,
      abs_div, abs_of_pos hw]
    calc |e| / wavel * |g - s| ≤ |e| / wavel *
          (2 * ((tel.pr / (2 * Fp)) ^ (2 * m + 2) + (tel.pr / (2 * F)) ^ (2 * m + 2))) := by gcongr
      _ = _ := by ring

/-- **C137.**  A wrong radial offset looks like a rotation-symmetric wavefront: for every telescope with the path difference
of two mirrors and every order `n ≥ 2 m` there is one list of rotation-symmetric coefficients `Z`, such that the beam at the
offset `dz + e` is that at the offset `dz` with `e / wavel` times `Z` on top of the coefficients, up to a part that falls
with `m` like the powers `2 m + 2` of the radius over twice the focal lengths.  `Z` does not depend on the offset, its error,
the coefficients, the illumination, the wavelength or the grid. -/
theorem C137_field (n m : ℕ) (hm : 2 * m ≤ n) (pr Fp F : ℝ) (hpr : 0 < pr) : ∃ Z : List ℝ,
    Z.length = (n + 1) * (n + 2) / 2 ∧ Spec.Round n Z ∧
    ∀ (I K : List ℝ) (dz e wavel : ℝ) (N : ℕ) (illum : Illum (Fin N × Fin N)) (tel : TelGeo (Fin N × Fin N)) (bf : ℝ)
      (P P' : Pattern N) (a phi : Fin N × Fin N → ℝ), tel.pr = pr → Spec.TwoMirrors tel Fp F → 0 < wavel →
      K.length = Z.length → radiationPattern I K (dz + e) wavel illum tel bf = .ok P →
      radiationPattern I (Spec.onTop K Z (e / wavel)) dz wavel illum tel bf = .ok P' →
      Spec.Parts I K (dz + e) wavel illum tel bf a phi →
      (∀ q, pr ^ 2 < Spec.gridPoint pr bf N q.2 ^ 2 + Spec.gridPoint pr bf N q.1 ^ 2 → a q = 0) →
      ∀ q, ‖P.F q - P'.F q‖ ≤ 2 * Real.pi *
        (2 * (|e| / wavel) * ((pr / (2 * Fp)) ^ (2 * m + 2) + (pr / (2 * F)) ^ (2 * m + 2))) * ∑ i, ∑ j, |a (i, j)| := by
  obtain ⟨Z, h1, h2, h3⟩ := exists_series n m hm (pr / (2 * Fp)) (pr / (2 * F))
  refine ⟨Z, h1, h2, fun I K dz e wavel N illum tel bf P P' a phi ht htel hw hK h h' hp hdark q => ?_⟩
  subst ht
  exact focus_near n m Z Fp F I K dz e wavel N illum tel bf hpr hw h1 h3 htel hK P P' a phi h h' hp hdark q

/-- **C137.**  When the dish is flat enough (radius below twice the focal lengths), the error of the offset cannot be told
from coefficients at all: for every bound there is an order from which on the beams agree within it. -/
theorem C137_limit (pr Fp F : ℝ) (hpr : 0 < pr) (hA : pr < 2 * Fp) (hB : pr < 2 * F) (ε : ℝ) (hε : 0 < ε) (emax lmin : ℝ)
    (hl : 0 < lmin) : ∃ n₀, ∀ n ≥ n₀, ∃ Z : List ℝ, Z.length = (n + 1) * (n + 2) / 2 ∧ Spec.Round n Z ∧
    ∀ (I K : List ℝ) (dz e wavel : ℝ) (N : ℕ) (illum : Illum (Fin N × Fin N)) (tel : TelGeo (Fin N × Fin N)) (bf : ℝ)
      (P P' : Pattern N) (a phi : Fin N × Fin N → ℝ), tel.pr = pr → Spec.TwoMirrors tel Fp F → lmin ≤ wavel → |e| ≤ emax →
      K.length = Z.length → radiationPattern I K (dz + e) wavel illum tel bf = .ok P →
      radiationPattern I (Spec.onTop K Z (e / wavel)) dz wavel illum tel bf = .ok P' →
      Spec.Parts I K (dz + e) wavel illum tel bf a phi →
      (∀ q, pr ^ 2 < Spec.gridPoint pr bf N q.2 ^ 2 + Spec.gridPoint pr bf N q.1 ^ 2 → a q = 0) →
      ∀ q, ‖P.F q - P'.F q‖ ≤ 2 * Real.pi * ε * ∑ i, ∑ j, |a (i, j)| := by
  have hA' : |pr / (2 * Fp)| < 1 := by
    rw [abs_of_pos (by have := hpr.trans hA; positivity), div_lt_one (hpr.trans hA)]; exact hA
  have hB' : |pr / (2 * F)| < 1 := by
    rw [abs_of_pos (by have := hpr.trans hB; positivity), div_lt_one (hpr.trans hB)]; exact hB
  have ht : Filter.Tendsto (fun m : ℕ => 2 * (emax / lmin) * ((pr / (2 * Fp)) ^ (2 * m + 2) + (pr / (2 * F)) ^ (2 * m + 2)))
      Filter.atTop (nhds (2 * (emax / lmin) * (0 + 0))) := by
    have g : Filter.Tendsto (fun m : ℕ => 2 * m + 2) Filter.atTop Filter.atTop :=
      Filter.tendsto_atTop_mono (fun m => show m ≤ 2 * m + 2 by omega) Filter.tendsto_id
    exact (((tendsto_pow_atTop_nhds_zero_of_abs_lt_one hA').comp g).add
      ((tendsto_pow_atTop_nhds_zero_of_abs_lt_one hB').comp g)).const_mul _
  rw [add_zero, mul_zero] at ht
  obtain ⟨m, hm⟩ := ((tendsto_order.1 ht).2 ε hε).exists
  refine ⟨2 * m, fun n hn => ?_⟩
  obtain ⟨Z, h1, h2, h3⟩ := C137_field n m hn pr Fp F hpr
  refine ⟨Z, h1, h2, fun I K dz e wavel N illum tel bf P P' a phi ht htel hw he hK h h' hp hdark q => ?_⟩
  refine (h3 I K dz e wavel N illum tel bf P P' a phi ht htel (hl.trans_le hw) hK h h' hp hdark q).trans ?_
  have hc : 2 * (|e| / wavel) * ((pr / (2 * Fp)) ^ (2 * m + 2) + (pr / (2 * F)) ^ (2 * m + 2)) ≤ ε := by
    refine le_trans ?_ hm.le
    have hev : ∀ G : ℝ, 0 ≤ (pr / (2 * G)) ^ (2 * m + 2) := fun G => by
      rw [show 2 * m + 2 = 2 * (m + 1) by ring, pow_mul]; positivity
    have hsum := add_nonneg (hev Fp) (hev F)
    refine mul_le_mul_of_nonneg_right ?_ hsum
    refine mul_le_mul_of_nonneg_left ?_ zero_le_two
    exact div_le_div₀ ((abs_nonneg e).trans he) he hl hw
  have hpi := Real.pi_pos
  have : 0 ≤ ∑ i, ∑ j, |a (i, j)| := sum_nonneg fun i _ => sum_nonneg fun j _ => abs_nonneg _
  gcongr

theorem wf_focus (c t r theta : ℝ) : wfVal 2 [c, 0, 0, 0, t, 0] r theta = c + t * (2 * r ^ 2 - 1) := by
  have u : Uv 2 0 r theta = 2 * r ^ 2 - 1 :=
    Uv_of_ok ((C119_table r theta).1 ((2, 0), 2 * r ^ 2 - 1) (by simp [Spec.zernikeTable]))
  have u0 : Uv 0 0 r theta = 1 :=
    Uv_of_ok ((C119_table r theta).1 ((0, 0), 1) (by simp [Spec.zernikeTable]))
  unfold wfVal
  simp only [Finset.sum_range_succ, Finset.sum_range_zero, zero_add, tri]
  norm_num
  rw [u, u0, mul_one]

/-- **C137.**  The lowest order: the constant term and the defocus term `U(2, 0)`. -/
theorem C137_defocus (Fp F : ℝ) (I K : List ℝ) (dz e wavel : ℝ) (N : ℕ) (illum : Illum (Fin N × Fin N))
    (tel : TelGeo (Fin N × Fin N)) (bf : ℝ) (hpr : 0 < tel.pr) (hw : 0 < wavel) (htel : Spec.TwoMirrors tel Fp F)
    (hK : K.length = 6) (P P' : Pattern N) (a phi : Fin N × Fin N → ℝ)
    (h : radiationPattern I K (dz + e) wavel illum tel bf = .ok P)
    (h' : radiationPattern I (Spec.onTop K [2 - ((tel.pr / (2 * Fp)) ^ 2 + (tel.pr / (2 * F)) ^ 2), 0, 0, 0,
      -((tel.pr / (2 * Fp)) ^ 2 + (tel.pr / (2 * F)) ^ 2), 0] (e / wavel)) dz wavel illum tel bf = .ok P')
    (hp : Spec.Parts I K (dz + e) wavel illum tel bf a phi)
    (hdark : ∀ q, tel.pr ^ 2 < Spec.gridPoint tel.pr bf N q.2 ^ 2 + Spec.gridPoint tel.pr bf N q.1 ^ 2 → a q = 0)
    (q : Fin N × Fin N) :
    ‖P.F q - P'.F q‖ ≤ 2 * Real.pi *
      (2 * (|e| / wavel) * ((tel.pr / (2 * Fp)) ^ 4 + (tel.pr / (2 * F)) ^ 4)) * ∑ i, ∑ j, |a (i, j)| := by
  refine focus_near 2 1 [2 - ((tel.pr / (2 * Fp)) ^ 2 + (tel.pr / (2 * F)) ^ 2), 0, 0, 0,
    -((tel.pr / (2 * Fp)) ^ 2 + (tel.pr / (2 * F)) ^ 2), 0] Fp F I K dz e wavel N illum tel bf hpr hw rfl (fun rho theta => ?_) htel hK P P' a phi h h' hp
    hdark q
  generalize tel.pr / (2 * Fp) = A
  generalize tel.pr / (2 * F) = B
  rw [wf_focus]
  unfold Spec.series
  simp only [Finset.sum_range_succ, Finset.sum_range_zero]
  ring

/-- The generic telescope and the one at Effelsberg are of this kind. -/
theorem C137_mirrors {ι : Type} (pr sr b L Fp F alpha : ℝ) :
    Spec.TwoMirrors (manualTel (ι := ι) pr sr b L Fp F) Fp F ∧
    Spec.TwoMirrors (effelsbergTel (ι := ι) alpha) 30 387.39435 := ⟨fun _ _ _ => rfl, fun _ _ _ => rfl⟩

/-- A dish of 100 m with coefficients up to the fifth order, 9 mm wavelength, and an offset that is wrong by 1 mm: with
the rotation-symmetric terms up to the fourth order the beams agree within `2π` times a tenth of a wavelength. -/
example (K : List ℝ) (hK : K.length = 21) : ∃ Z : List ℝ, Z.length = 21 ∧ Spec.Round 5 Z ∧
    ∃ P P' : Pattern 256, ∃ a : Fin 256 × Fin 256 → ℝ,
      radiationPattern [1, -14, 2, 0, 0] K (0.022 + 0.001) 0.009 illumGauss
        (manualTel 50 3.25 1 20 30 387.39435) 5 = .ok P ∧
      radiationPattern [1, -14, 2, 0, 0] (Spec.onTop K Z (0.001 / 0.009)) 0.022 0.009 illumGauss
        (manualTel 50 3.25 1 20 30 387.39435) 5 = .ok P' ∧
      ∀ q, ‖P.F q - P'.F q‖ ≤ 2 * Real.pi * 0.1 * ∑ i, ∑ j, |a (i, j)| := by
  obtain ⟨Z, h1, h2, h3⟩ := C137_field 5 2 (by norm_num) 50 30 387.39435 (by norm_num)
  have h1' : Z.length = 21 := h1
  refine ⟨Z, h1', h2, ?_⟩
  obtain ⟨P, hP⟩ := pattern_exists (N := 256) (by norm_num) K 5 hK (0.022 + 0.001)
  obtain ⟨P', hP'⟩ := pattern_exists (N := 256) (by norm_num) (Spec.onTop K Z (0.001 / 0.009)) 5
    ((onTop_length K Z _ (hK.trans h1'.symm)).trans hK) 0.022
  obtain ⟨a, phi, hp⟩ := C70_parts _ _ _ _ _ _ _ _ _ hP
  refine ⟨P, P', a, hP, hP', fun q => ?_⟩
  refine (h3 [1, -14, 2, 0, 0] K 0.022 0.001 0.009 256 illumGauss (manualTel 50 3.25 1 20 30 387.39435) 5 P P' a phi rfl
    (C137_mirrors (ι := Fin 256 × Fin 256) 50 3.25 1 20 30 387.39435 0).1 (by norm_num) (hK.trans h1'.symm) hP hP' hp
    (C80_manual 50 3.25 1 20 30 387.39435 5 _ _ _ 0 _ _ a phi hp).1 q).trans ?_
  have hpi := Real.pi_pos
  have : 0 ≤ ∑ i, ∑ j, |a (i, j)| := sum_nonneg fun i _ => sum_nonneg fun j _ => abs_nonneg _
  gcongr
  rw [abs_of_pos (by norm_num)]
  norm_num

end Verif.Props
