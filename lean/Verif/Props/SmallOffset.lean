import Verif.Props.EvenOrders
import Verif.Props.FocusError
import Verif.Props.Noise
import Verif.Props.Jacobian

/-!
# With a small radial offset the even orders are hardly seen, and their stored errors are large (C148)
-/

namespace Verif.Props

open Verif Verif.Np Verif.Zernike Verif.Aperture Verif.Fourier Verif.Core Verif.Telgeometry Verif.MathFn Finset

variable {N M : ℕ}

/-! ## The slope of the power -/

/-- Two sums with phases that differ by `c` but for `e`. -/
theorem sum_turned (a phi phi0 : Fin N × Fin N → ℝ) (w : Fin N × Fin N → ℂ) (c e B : ℝ) (he : 0 ≤ e)
    (hphi : ∀ q, a q ≠ 0 → |phi q - phi0 q - c| ≤ e) (hw : ∀ q, a q ≠ 0 → ‖w q‖ ≤ B) :
    ‖∑ i, ∑ j, (a (i, j) : ℂ) * Complex.exp ((phi (i, j) : ℂ) * Complex.I) * w (i, j) -
      Complex.exp ((c : ℂ) * Complex.I) * ∑ i, ∑ j, (a (i, j) : ℂ) * Complex.exp ((phi0 (i, j) : ℂ) * Complex.I) * w (i, j)‖ ≤
      e * B * ∑ i, ∑ j, |a (i, j)| := by
  rw [Finset.mul_sum, ← Finset.sum_sub_distrib, Finset.mul_sum]
  refine (norm_sum_le _ _).trans (sum_le_sum fun i _ => ?_)
  rw [Finset.mul_sum, ← Finset.sum_sub_distrib, Finset.mul_sum]
  refine (norm_sum_le _ _).trans (sum_le_sum fun j _ => ?_)
  by_cases h0 : a (i, j) = 0
  · simp [h0]
  have e1 : (a (i, j) : ℂ) * Complex.exp ((phi (i, j) : ℂ) * Complex.I) * w (i, j) -
      Complex.exp ((c : ℂ) * Complex.I) * ((a (i, j) : ℂ) * Complex.exp ((phi0 (i, j) : ℂ) * Complex.I) * w (i, j)) =
      (Complex.exp ((phi (i, j) : ℂ) * Complex.I) - Complex.exp (((phi0 (i, j) + c : ℝ) : ℂ) * Complex.I)) * w (i, j) *
        (a (i, j) : ℂ) := by
    rw [Complex.ofReal_add, add_mul, Complex.exp_add]
    ring
  rw [e1, norm_mul, norm_mul, Complex.norm_real, Real.norm_eq_abs]
  refine mul_le_mul_of_nonneg_right ?_ (abs_nonneg _)
  refine mul_le_mul ((exp_lipschitz _ _).trans ?_) (hw _ h0) (norm_nonneg _) he
  have := hphi _ h0
  rwa [sub_sub] at this

/-- Two sums whose phases differ by a constant but for `e`: the products of field and slope are near. -/
theorem product_turned {F F0 G G0 : ℂ} {c S e B : ℝ} (hF : ‖F‖ ≤ S) (hG0 : ‖G0‖ ≤ B * S)
    (h1 : ‖F - Complex.exp ((c : ℂ) * Complex.I) * F0‖ ≤ e * 1 * S)
    (h2 : ‖G - Complex.exp ((c : ℂ) * Complex.I) * G0‖ ≤ e * B * S) :
    |((starRingEnd ℂ) F * G).re - ((starRingEnd ℂ) F0 * G0).re| ≤ 2 * (e * B * S ^ 2) := by
  obtain ⟨u, hu⟩ : ∃ u, u = Complex.exp ((c : ℂ) * Complex.I) := ⟨_, rfl⟩
  have hu1 : ‖u‖ = 1 := hu ▸ Complex.norm_exp_ofReal_mul_I c
  rw [← hu] at h1 h2
  have huu : (starRingEnd ℂ) u * u = 1 := by
    rw [mul_comm, Complex.mul_conj, Complex.normSq_eq_norm_sq, hu1]
    norm_num
  have e1 : (starRingEnd ℂ) F * G - (starRingEnd ℂ) F0 * G0 =
      (starRingEnd ℂ) F * (G - u * G0) + (starRingEnd ℂ) (F - u * F0) * (u * G0) := by
    rw [map_sub, map_mul]
    linear_combination (starRingEnd ℂ) F0 * G0 * huu
  rw [← Complex.sub_re, e1]
  refine (Complex.abs_re_le_norm _).trans ((norm_add_le _ _).trans ?_)
  rw [norm_mul, norm_mul, norm_mul, hu1, one_mul, RCLike.norm_conj, RCLike.norm_conj]
  have hS : 0 ≤ S := (norm_nonneg _).trans hF
  have a1 : ‖F‖ * ‖G - u * G0‖ ≤ S * (e * B * S) := mul_le_mul hF h2 (norm_nonneg _) hS
  have a2 : ‖F - u * F0‖ * ‖G0‖ ≤ e * 1 * S * (B * S) := mul_le_mul h1 hG0 (norm_nonneg _) ((norm_nonneg _).trans h1)
  linarith

/-- **C148.**  The first order change of the power by even orders is at most proportional to the radial offset. -/
theorem C148_slope (Fp F : ℝ) (I K D : List ℝ) (dz wavel : ℝ) (illum : Illum (Fin N × Fin N)) (tel : TelGeo (Fin N × Fin N))
    (bf : ℝ) (hpr : 0 < tel.pr) (hbf : bf ≠ 0) (hw : 0 < wavel) (hc : Spec.Central I illum tel bf)
    (htel : Spec.TwoMirrors tel Fp F) (hKD : K.length = D.length) (hK : Spec.OddOnly K) (hD : Spec.EvenOnly D)
    (P : ℝ → Pattern N) (h : ∀ t, radiationPattern I (Spec.moved K D t) dz wavel illum tel bf = .ok (P t))
    (a phi : Fin N × Fin N → ℝ) (hp : Spec.Parts I K dz wavel illum tel bf a phi)
    (hdark : ∀ q, tel.pr ^ 2 < Spec.gridPoint tel.pr bf N q.2 ^ 2 + Spec.gridPoint tel.pr bf N q.1 ^ 2 → a q = 0)
    (q : Fin N × Fin N) :
    ∃ g, HasDerivAt (fun t => ‖(P t).F q‖ ^ 2) g 0 ∧
      |g| ≤ 32 * Real.pi ^ 2 * (|dz| / wavel) * ((tel.pr / (2 * Fp)) ^ 2 + (tel.pr / (2 * F)) ^ 2) * (D.map (|·|)).sum *
        (∑ i, ∑ j, |a (i, j)|) ^ 2 ∧
      ∀ t, |‖(P t).F q‖ ^ 2 - ‖(P 0).F q‖ ^ 2| ≤
        |t| * |g| + 3 * t ^ 2 * (2 * Real.pi * (D.map (|·|)).sum * ∑ i, ∑ j, |a (i, j)|) ^ 2 := by
  have hK0 : Spec.moved K D 0 = K := by
    apply List.ext_getElem
    · rw [Spec.moved, List.length_zipWith]; omega
    · intro i _ _
      simp [Spec.moved]
  have h0 := h 0
  rw [hK0] at h0
  -- the same in focus
  have hex : ∀ t, ∃ Q, radiationPattern I (Spec.moved K D t) 0 wavel illum tel bf = .ok Q := by
    intro t
    obtain ⟨hN, E, hE, -⟩ := radiationPattern_ok (h t)
    obtain ⟨B, W, d, Ea, h1, h2, h3, h4, -⟩ := aperture_ok_iff.1 hE
    rw [radiationPattern_eq _ _ _ _ hN, aperture_ok_iff.2 ⟨B, W, _, Ea, h1, h2, htel _ _ 0, h4, rfl⟩]
    exact ⟨_, rfl⟩
  choose Q hQ using hex
  have hQ0 := hQ 0
  rw [hK0] at hQ0
  obtain ⟨a', phi0, hp0⟩ := C70_parts _ _ _ _ _ _ _ _ _ hQ0
  obtain rfl := parts_unique hp hp0
  obtain ⟨V, hV, -⟩ := C121_field I K D dz wavel N illum tel bf hpr (P 0) a' phi hKD h0 hp hdark
  obtain ⟨h1, h2⟩ := C121_power I K D dz wavel N illum tel bf hpr hw P a' phi V hKD h hp hV hdark q
  obtain ⟨h3, -⟩ := C121_power I K D 0 wavel N illum tel bf hpr hw Q a' phi0 V hKD hQ hp0 hV hdark q
  have h4 := h3.unique (C135_focus I K D wavel N illum tel bf hpr hbf hw hc hKD hK hD Q hQ a' phi0 hp0 hdark q).1
  obtain ⟨g, hg⟩ : ∃ g, g = 2 * ((starRingEnd ℂ) ((P 0).F q) * Spec.slope a' phi V q).re := ⟨_, rfl⟩
  rw [← hg] at h1 h2
  refine ⟨g, h1, ?_, fun t => ?_⟩
  swap
  · by_cases ht : t = 0
    · simp [ht]
    have h5 := h2 t ht
    have e : ‖(P t).F q‖ ^ 2 - ‖(P 0).F q‖ ^ 2 = t * g + t * ((‖(P t).F q‖ ^ 2 - ‖(P 0).F q‖ ^ 2) / t - g) := by
      field_simp
      ring
    rw [e]
    refine (abs_add_le _ _).trans ?_
    rw [abs_mul, abs_mul]
    have := mul_le_mul_of_nonneg_left h5 (abs_nonneg t)
    rw [← sq_abs t]
    nlinarith [this]
  obtain ⟨S, hS⟩ : ∃ S, S = ∑ i, ∑ j, |a' (i, j)| := ⟨_, rfl⟩
  obtain ⟨v, hv⟩ : ∃ v, v = (D.map (|·|)).sum := ⟨_, rfl⟩
  have hFS := C70_bound I K dz wavel N illum tel bf (P 0) a' phi h0 hp q
  have hF : (P 0).F q = ∑ i, ∑ j, (a' (i, j) : ℂ) * Complex.exp ((phi (i, j) : ℂ) * Complex.I) *
      ew N ((((q.1 : ℕ) : ℤ) - ((N / 2 : ℕ) : ℤ)) * ((i : ℕ) : ℤ) + (((q.2 : ℕ) : ℤ) - ((N / 2 : ℕ) : ℤ)) * ((j : ℕ) : ℤ)) := by
    rw [parts_of_pattern h0 hp, shifted_eq]
  have hF0 : (Q 0).F q = ∑ i, ∑ j, (a' (i, j) : ℂ) * Complex.exp ((phi0 (i, j) : ℂ) * Complex.I) *
      ew N ((((q.1 : ℕ) : ℤ) - ((N / 2 : ℕ) : ℤ)) * ((i : ℕ) : ℤ) + (((q.2 : ℕ) : ℤ) - ((N / 2 : ℕ) : ℤ)) * ((j : ℕ) : ℤ)) := by
    rw [parts_of_pattern hQ0 hp0, shifted_eq]
  have hsl : ∀ phi : Fin N × Fin N → ℝ, Spec.slope a' phi V q = ∑ i, ∑ j, (a' (i, j) : ℂ) *
      Complex.exp ((phi (i, j) : ℂ) * Complex.I) * ((2 * Real.pi * V (i, j) * Complex.I) *
      ew N ((((q.1 : ℕ) : ℤ) - ((N / 2 : ℕ) : ℤ)) * ((i : ℕ) : ℤ) + (((q.2 : ℕ) : ℤ) - ((N / 2 : ℕ) : ℤ)) * ((j : ℕ) : ℤ))) := by
    intro phi
    unfold Spec.slope
    refine Finset.sum_congr rfl fun i _ => Finset.sum_congr rfl fun j _ => ?_
    rw [mul_assoc (_ * _) _ (Complex.exp _)]
    rfl
  -- the aperture within the rim
  have hrim : ∀ p, a' p ≠ 0 → Real.sqrt (Spec.gridPoint tel.pr bf N p.2 ^ 2 + Spec.gridPoint tel.pr bf N p.1 ^ 2) ≤ tel.pr :=
    fun p hp' => Real.sqrt_le_iff.2 ⟨hpr.le, not_lt.1 fun hlt => hp' (hdark p hlt)⟩
  have hpi := Real.pi_pos
  have hVb : ∀ p, a' p ≠ 0 → ‖(2 * Real.pi * V p * Complex.I) * ew N ((((q.1 : ℕ) : ℤ) - ((N / 2 : ℕ) : ℤ)) * ((p.1 : ℕ) : ℤ) +
      (((q.2 : ℕ) : ℤ) - ((N / 2 : ℕ) : ℤ)) * ((p.2 : ℕ) : ℤ))‖ ≤ 2 * Real.pi * v := by
    intro p hp'
    obtain ⟨n, hn, rfl⟩ := wavefront_ok_inv hV
    have hW := wfVal_abs_le n D hn (Real.sqrt (Spec.gridPoint tel.pr bf N p.2 ^ 2 + Spec.gridPoint tel.pr bf N p.1 ^ 2) / tel.pr)
      (arctan2 (Spec.gridPoint tel.pr bf N p.1) (Spec.gridPoint tel.pr bf N p.2)) (by
        rw [abs_of_nonneg (by positivity), div_le_one hpr]
        exact hrim p hp')
    rw [norm_mul, ew_norm, mul_one, norm_mul, Complex.norm_I, mul_one, norm_mul, norm_mul, Complex.norm_real, Complex.norm_real,
      Real.norm_eq_abs, Real.norm_eq_abs, abs_of_pos hpi, hv]
    simp only [RCLike.norm_ofNat]
    gcongr
  obtain ⟨κ, hκ⟩ : ∃ κ, κ = (tel.pr / (2 * Fp)) ^ 2 + (tel.pr / (2 * F)) ^ 2 := ⟨_, rfl⟩
  obtain ⟨e, he⟩ : ∃ e, e = 2 * Real.pi * (|dz| / wavel * (2 * κ)) := ⟨_, rfl⟩
  have he0 : 0 ≤ e := by rw [he, hκ]; positivity
  have hphi : ∀ p, a' p ≠ 0 → |phi p - phi0 p - 2 * Real.pi * (dz * 2 / wavel)| ≤ e := by
    intro p hp'
    obtain ⟨B, W, d, Ea, -, -, h3, h4, -, h6⟩ := hp
    obtain ⟨B', W', d', Ea', -, -, h3', h4', -, h6'⟩ := hp0
    rw [h4] at h4'
    cases h4'
    rw [htel] at h3 h3'
    cases h3
    cases h3'
    have hn := series_near 0 Fp F tel.pr _ hpr (Real.sqrt_nonneg _) (hrim p hp')
    rw [show Spec.series 0 (tel.pr / (2 * Fp)) (tel.pr / (2 * F))
      (Real.sqrt (Spec.gridPoint tel.pr bf N p.2 ^ 2 + Spec.gridPoint tel.pr bf N p.1 ^ 2) / tel.pr) = 2 by
        simp [Spec.series]; norm_num] at hn
    rw [h6, h6', he]
    simp only
    generalize (1 - (Real.sqrt (Spec.gridPoint tel.pr bf N p.2 ^ 2 + Spec.gridPoint tel.pr bf N p.1 ^ 2) / (2 * Fp)) ^ 2) /
      (1 + (Real.sqrt (Spec.gridPoint tel.pr bf N p.2 ^ 2 + Spec.gridPoint tel.pr bf N p.1 ^ 2) / (2 * Fp)) ^ 2) +
      (1 - (Real.sqrt (Spec.gridPoint tel.pr bf N p.2 ^ 2 + Spec.gridPoint tel.pr bf N p.1 ^ 2) / (2 * F)) ^ 2) /
      (1 + (Real.sqrt (Spec.gridPoint tel.pr bf N p.2 ^ 2 + Spec.gridPoint tel.pr bf N p.1 ^ 2) / (2 * F)) ^ 2) = o at hn ⊢
    rw [show 2 * Real.pi * (W p + dz * o / wavel) - 2 * Real.pi * (W p + 0 * o / wavel) - 2 * Real.pi * (dz * 2 / wavel) =
      2 * Real.pi * (dz / wavel * (o - 2)) by ring, abs_mul, abs_of_pos (by positivity : 0 < 2 * Real.pi), abs_mul, abs_div,
      abs_of_pos hw]
    refine mul_le_mul_of_nonneg_left (mul_le_mul_of_nonneg_left ?_ (by positivity)) (by positivity)
    rw [hκ]
    simpa using hn
  have t1 := sum_turned a' phi phi0 (fun p => ew N ((((q.1 : ℕ) : ℤ) - ((N / 2 : ℕ) : ℤ)) * ((p.1 : ℕ) : ℤ) +
      (((q.2 : ℕ) : ℤ) - ((N / 2 : ℕ) : ℤ)) * ((p.2 : ℕ) : ℤ))) _ e 1 he0 hphi (fun p _ => (ew_norm _ _).le)
  have t2 := sum_turned a' phi phi0 (fun p => (2 * Real.pi * V p * Complex.I) *
      ew N ((((q.1 : ℕ) : ℤ) - ((N / 2 : ℕ) : ℤ)) * ((p.1 : ℕ) : ℤ) +
      (((q.2 : ℕ) : ℤ) - ((N / 2 : ℕ) : ℤ)) * ((p.2 : ℕ) : ℤ))) _ e (2 * Real.pi * v) he0 hphi hVb
  have hGS : ‖Spec.slope a' phi0 V q‖ ≤ 2 * Real.pi * v * S := by
    rw [hsl, hS, Finset.mul_sum]
    refine (norm_sum_le _ _).trans (sum_le_sum fun i _ => ?_)
    rw [Finset.mul_sum]
    refine (norm_sum_le _ _).trans (sum_le_sum fun j _ => ?_)
    by_cases h00 : a' (i, j) = 0
    · simp [h00]
    rw [norm_mul, norm_mul, Complex.norm_exp_ofReal_mul_I, mul_one, Complex.norm_real, Real.norm_eq_abs, mul_comm]
    exact mul_le_mul_of_nonneg_right (hVb (i, j) h00) (abs_nonneg _)
  rw [← hF, ← hF0, ← hS] at t1
  rw [← hsl, ← hsl, ← hS] at t2
  rw [← hS] at hFS ⊢
  have t3 := product_turned hFS hGS t1 t2
  rw [show ((starRingEnd ℂ) ((Q 0).F q) * Spec.slope a' phi0 V q).re = 0 by linarith, sub_zero] at t3
  rw [hg, abs_mul, abs_of_pos (two_pos : (0 : ℝ) < 2), ← hκ, ← hv]
  calc 2 * |((starRingEnd ℂ) ((P 0).F q) * Spec.slope a' phi V q).re| ≤ 2 * (2 * (e * (2 * Real.pi * v) * S ^ 2)) := by gcongr
    _ = _ := by rw [he]; ring

/-! ## The residual -/

/-- A slope is at most the linear part of a bound of the differences. -/
theorem slope_le {f : ℝ → ℝ} {g s A B : ℝ} (hg : HasDerivAt f g 0) (h : ∀ t, |f t - f 0| * s ≤ |t| * A + t ^ 2 * B) :
    |g| * s ≤ A := by
  have h1 := hasDerivAt_iff_tendsto_slope.1 hg
  have h2 : Filter.Tendsto (fun t : ℝ => |slope f 0 t| * s) (nhdsWithin 0 {0}ᶜ) (nhds (|g| * s)) := h1.abs.mul_const s
  have h3 : Filter.Tendsto (fun t : ℝ => A + |t| * B) (nhdsWithin 0 {0}ᶜ) (nhds A) := by
    have hc : Continuous fun t : ℝ => A + |t| * B := by fun_prop
    have := hc.tendsto 0
    simp only [abs_zero, zero_mul, add_zero] at this
    exact this.mono_left nhdsWithin_le_nhds
  refine le_of_tendsto_of_tendsto h2 h3 ?_
  filter_upwards [self_mem_nhdsWithin] with t ht
  have ht0 : 0 < |t| := abs_pos.2 ht
  rw [slope_def_field, sub_zero, abs_div, div_mul_eq_mul_div, div_le_iff₀ ht0]
  refine (h t).trans (le_of_eq ?_)
  rw [← sq_abs t]
  ring

/-- Two model maps whose powers differ by `c` at most. -/
theorem residual_close (I K K' : List ℝ) (hI : I.length = 5) (d : Fin 3 × Fin M → Fl)
    (u v : Fin 3 × Fin M → ℝ) (dz : Fin 3 → ℝ) (wavel : ℝ) (illum : Illum (Fin N × Fin N)) (tel : TelGeo (Fin N × Fin N))
    (bf : ℝ) (i : Fin 3) (P P' : Pattern N) (hP : radiationPattern I K (dz i) wavel illum tel bf = .ok P)
    (hP' : radiationPattern I K' (dz i) wavel illum tel bf = .ok P') (c : ℝ) (hclose : ∀ q, |‖P.F q‖ ^ 2 - ‖P'.F q‖ ^ 2| ≤ c)
    (b : Fin M → ℝ) (hb : Spec.Sampled (I ++ K) u v dz wavel illum tel bf i b) (r r' : List ℝ)
    (h : residualTrue (I ++ K) d u v dz wavel illum tel bf = .ok r)
    (h' : residualTrue (I ++ K') d u v dz wavel illum tel bf = .ok r')
    (k s t : Fin M) : |r.getD ((i : ℕ) * M + k) 0 - r'.getD ((i : ℕ) * M + k) 0| * (b t - b s) ≤ 2 * c := by
  rw [sampled_iff] at hb
  obtain ⟨-, -, -, h1⟩ := residual_layout _ _ _ _ _ _ _ _ _ r h
  obtain ⟨-, -, -, h2⟩ := residual_layout _ _ _ _ _ _ _ _ _ r' h'
  obtain ⟨b1, nd, nm, a1, a2, a3, a4⟩ := h1 i
  obtain ⟨b', nd', nm', c1, c2, c3, c4⟩ := h2 i
  rw [hb] at a1
  cases a1
  rw [a2] at c2
  cases c2
  obtain ⟨P1, e1, e2⟩ := modelRow_ok.1 hb
  obtain ⟨P1', f1, f2⟩ := modelRow_ok.1 c1
  rw [← hI, List.take_left, List.drop_left, hP] at e1
  rw [← hI, List.take_left, List.drop_left, hP'] at f1
  cases e1
  cases f1
  obtain ⟨hN, E, -, hPe⟩ := radiationPattern_ok hP
  obtain ⟨-, E', -, hPe'⟩ := radiationPattern_ok hP'
  have hu : P'.u = P.u := by rw [hPe, hPe']
  have hv : P'.v = P.v := by rw [hPe, hPe']
  rw [hu, hv] at f2
  obtain ⟨⟨m0, m1⟩, hin, rfl⟩ := (interpolator_ok_iff _ _ _ _ _).1 e2
  obtain ⟨-, -, rfl⟩ := (interpolator_ok_iff _ _ _ _ _).1 f2
  have hc0 : 0 ≤ c := (abs_nonneg _).trans (hclose (⟨0, by omega⟩, ⟨0, by omega⟩))
  have : Nonempty (Fin M) := ⟨k⟩
  obtain ⟨n, n', g1, g2, g3⟩ := C97_norm _ _ c fun k => evalLinear_close hN m0 m1 hc0
    (V := fun q => ‖P.F (q.2, q.1)‖ ^ 2) (V' := fun q => ‖P'.F (q.2, q.1)‖ ^ 2)
    (fun q => hclose (q.2, q.1)) (hin k).1 (hin k).2
  rw [a3] at g1
  rw [c3] at g2
  cases g1
  cases g2
  rw [List.getD_eq_getElem?_getD, List.getD_eq_getElem?_getD, a4 k, c4 k, Option.getD_some, Option.getD_some,
    sub_sub_sub_cancel_left, abs_sub_comm]
  exact g3 k s t

/-- **C148.**  The entries of the Jacobian for even orders are at most proportional to the radial offset. -/
theorem C148_residual (Fp F : ℝ) (I K D : List ℝ) (hI : I.length = 5) (d : Fin 3 × Fin M → Fl) (u v : Fin 3 × Fin M → ℝ)
    (dz : Fin 3 → ℝ) (wavel : ℝ) (illum : Illum (Fin N × Fin N)) (tel : TelGeo (Fin N × Fin N))
    (bf : ℝ) (hpr : 0 < tel.pr) (hbf : bf ≠ 0) (hw : 0 < wavel) (hc : Spec.Central I illum tel bf)
    (htel : Spec.TwoMirrors tel Fp F) (hKD : K.length = D.length) (hK : Spec.OddOnly K) (hD : Spec.EvenOnly D)
    (i : Fin 3) (a phi : Fin N × Fin N → ℝ) (hp : Spec.Parts I K (dz i) wavel illum tel bf a phi)
    (hdark : ∀ q, tel.pr ^ 2 < Spec.gridPoint tel.pr bf N q.2 ^ 2 + Spec.gridPoint tel.pr bf N q.1 ^ 2 → a q = 0)
    (b : Fin M → ℝ) (hb : Spec.Sampled (I ++ K) u v dz wavel illum tel bf i b) (r : ℝ → List ℝ)
    (h : ∀ t, residualTrue (I ++ Spec.moved K D t) d u v dz wavel illum tel bf = .ok (r t)) (k s t : Fin M) (g : ℝ)
    (hg : HasDerivAt (fun t => (r t).getD ((i : ℕ) * M + k) 0) g 0) :
    |g| * (b t - b s) ≤ 64 * Real.pi ^ 2 * (|dz i| / wavel) * ((tel.pr / (2 * Fp)) ^ 2 + (tel.pr / (2 * F)) ^ 2) *
      (D.map (|·|)).sum * (∑ i, ∑ j, |a (i, j)|) ^ 2 := by
  have hK0 : Spec.moved K D 0 = K := by
    apply List.ext_getElem
    · rw [Spec.moved, List.length_zipWith]; omega
    · intro i _ _
      simp [Spec.moved]
  have hex : ∀ t, ∃ P, radiationPattern I (Spec.moved K D t) (dz i) wavel illum tel bf = .ok P := by
    intro t
    obtain ⟨b', hb', -⟩ := residualTrue_ok.1 (h t)
    obtain ⟨P, e1, -⟩ := modelRow_ok.1 (hb' i)
    rw [← hI, List.take_left, List.drop_left] at e1
    exact ⟨P, e1⟩
  choose P hP using hex
  have hP0 := hP 0
  have h0 := h 0
  rw [hK0] at hP0 h0
  refine slope_le (B := 2 * (3 * (2 * Real.pi * (D.map (|·|)).sum * ∑ i, ∑ j, |a (i, j)|) ^ 2)) hg fun x => ?_
  have hclose : ∀ q, |‖(P 0).F q‖ ^ 2 - ‖(P x).F q‖ ^ 2| ≤ |x| * (32 * Real.pi ^ 2 * (|dz i| / wavel) *
      ((tel.pr / (2 * Fp)) ^ 2 + (tel.pr / (2 * F)) ^ 2) * (D.map (|·|)).sum * (∑ i, ∑ j, |a (i, j)|) ^ 2) +
      3 * x ^ 2 * (2 * Real.pi * (D.map (|·|)).sum * ∑ i, ∑ j, |a (i, j)|) ^ 2 := by
    intro q
    obtain ⟨g, -, g2, g3⟩ := C148_slope Fp F I K D (dz i) wavel illum tel bf hpr hbf hw hc htel hKD hK hD P hP a phi hp hdark q
    rw [abs_sub_comm]
    refine (g3 x).trans ?_
    gcongr
  have := residual_close I K _ hI d u v dz wavel illum tel bf i _ _ hP0 (hP x) _ hclose b hb _ _ h0 (h x) k s t
  rw [abs_sub_comm]
  refine this.trans (le_of_eq ?_)
  ring

/-! ## The stored errors -/

/-- **C148.**  The stored variance of a parameter times the sum of the squares of its column of the Jacobian is at least the
mean square of the residual. -/
theorem C148_variance {m n : ℕ} (res : Fin m → ℝ) (J : Matrix (Fin m) (Fin n) ℝ) (nPars : ℕ) (hdof : nPars < m)
    (cov corr : Matrix (Fin n) (Fin n) ℝ) (h : coMatrices res J nPars = .ok (some (cov, corr))) (c : Fin n) :
    0 < cov c c ∧ (∑ k, res k ^ 2) / ((m : ℝ) - nPars) ≤ cov c c * ∑ k, J k c ^ 2 := by
  have hrank : ∀ v : Fin n → ℝ, J.mulVec v = 0 → v = 0 := by
    intro v hv
    by_contra h0
    rw [C31_rank_deficient res J nPars v h0 hv] at h
    cases h
  have hres : res ≠ 0 := by
    rintro rfl
    rw [show (0 : Fin m → ℝ) = fun _ => 0 from rfl, C31_zero_residual J nPars c.pos hdof] at h
    cases h
  obtain ⟨cov', corr', e1, e2, e3, -⟩ := C30_matrices res J nPars hdof hrank hres
  rw [h] at e1
  cases e1
  obtain ⟨s, hs⟩ : ∃ s, s = (∑ k, res k ^ 2) / ((m : ℝ) - nPars) := ⟨_, rfl⟩
  have hs0 : 0 < s := by
    rw [hs]
    exact div_pos (lenSq_pos hres) (sub_pos.2 (by exact_mod_cast hdof))
  rw [← hs] at e2 ⊢
  have e4 : J.transpose * J * cov = s • (1 : Matrix (Fin n) (Fin n) ℝ) := by
    have := congrArg Matrix.transpose e2
    rwa [Matrix.transpose_mul, Matrix.transpose_mul, Matrix.transpose_transpose, e3, Matrix.transpose_smul,
      Matrix.transpose_one] at this
  -- the change of the residual along the column of the covariance
  obtain ⟨y, hy⟩ : ∃ y : Fin m → ℝ, y = fun k => (J * cov) k c := ⟨_, rfl⟩
  have y1 : ∑ k, J k c * y k = s := by
    have := congrFun (congrFun e4 c) c
    rw [Matrix.mul_assoc, Matrix.mul_apply, Matrix.smul_apply, Matrix.one_apply_eq, smul_eq_mul, mul_one] at this
    rw [← this, hy]
    rfl
  have y2 : ∑ k, y k ^ 2 = s * cov c c := by
    have e5 : cov * (J.transpose * J * cov) = s • cov := by rw [e4, Matrix.mul_smul, Matrix.mul_one]
    have := congrFun (congrFun e5 c) c
    rw [show cov * (J.transpose * J * cov) = (J * cov).transpose * (J * cov) by
      rw [Matrix.transpose_mul, e3, Matrix.mul_assoc, Matrix.mul_assoc], Matrix.mul_apply, Matrix.smul_apply, smul_eq_mul] at this
    rw [← this, hy]
    refine Finset.sum_congr rfl fun k _ => ?_
    rw [Matrix.transpose_apply, sq]
  have hcs := Finset.sum_mul_sq_le_sq_mul_sq Finset.univ (fun k => J k c) y
  rw [y1, y2] at hcs
  have : s * s ≤ s * (cov c c * ∑ k, J k c ^ 2) := by nlinarith [hcs]
  have h3 := le_of_mul_le_mul_left this hs0
  exact ⟨pos_of_mul_pos_left (hs0.trans_le h3) (Finset.sum_nonneg fun _ _ => sq_nonneg _), h3⟩

/-- **C148.**  The stored variance of a coefficient of even order is at least a constant times the mean square of the residual
over the square of the radial offset. -/
theorem C148_errors (Fp F : ℝ) (I K D : List ℝ) (hI : I.length = 5) (d : Fin 3 × Fin M → Fl) (u v : Fin 3 × Fin M → ℝ)
    (dz : Fin 3 → ℝ) (wavel : ℝ) (illum : Illum (Fin N × Fin N)) (tel : TelGeo (Fin N × Fin N))
    (bf : ℝ) (hpr : 0 < tel.pr) (hbf : bf ≠ 0) (hw : 0 < wavel) (hc : Spec.Central I illum tel bf)
    (htel : Spec.TwoMirrors tel Fp F) (hKD : K.length = D.length) (hK : Spec.OddOnly K) (hD : Spec.EvenOnly D)
    (a phi : Fin N × Fin N → ℝ) (hp : Spec.Parts I K 0 wavel illum tel bf a phi)
    (hdark : ∀ q, tel.pr ^ 2 < Spec.gridPoint tel.pr bf N q.2 ^ 2 + Spec.gridPoint tel.pr bf N q.1 ^ 2 → a q = 0)
    (b : Fin 3 → Fin M → ℝ) (hb : ∀ i, Spec.Sampled (I ++ K) u v dz wavel illum tel bf i (b i)) (spread : ℝ) (hs0 : 0 < spread)
    (hs : ∀ i, ∃ s t, spread ≤ b i t - b i s) (dmax : ℝ) (hdz : ∀ i, |dz i| ≤ dmax) (r : ℝ → List ℝ)
    (h : ∀ t, residualTrue (I ++ Spec.moved K D t) d u v dz wavel illum tel bf = .ok (r t)) {n : ℕ} (res : Fin (3 * M) → ℝ)
    (J : Matrix (Fin (3 * M)) (Fin n) ℝ) (c : Fin n) (hJ : ∀ k : Fin (3 * M), HasDerivAt (fun t => (r t).getD k 0) (J k c) 0) (nPars : ℕ)
    (hdof : nPars < 3 * M) (cov corr : Matrix (Fin n) (Fin n) ℝ) (hco : coMatrices res J nPars = .ok (some (cov, corr))) :
    (∑ k, res k ^ 2) / (((3 * M : ℕ) : ℝ) - nPars) * spread ^ 2 ≤ cov c c * ((3 * M : ℕ) *
      (64 * Real.pi ^ 2 * (dmax / wavel) * ((tel.pr / (2 * Fp)) ^ 2 + (tel.pr / (2 * F)) ^ 2) * (D.map (|·|)).sum *
        (∑ i, ∑ j, |a (i, j)|) ^ 2) ^ 2) := by
  obtain ⟨hcov, h1⟩ := C148_variance res J nPars hdof cov corr hco c
  obtain ⟨C, hC⟩ : ∃ C, C = 64 * Real.pi ^ 2 * (dmax / wavel) * ((tel.pr / (2 * Fp)) ^ 2 + (tel.pr / (2 * F)) ^ 2) *
    (D.map (|·|)).sum * (∑ i, ∑ j, |a (i, j)|) ^ 2 := ⟨_, rfl⟩
  have hcol : ∀ k, (J k c) ^ 2 * spread ^ 2 ≤ C ^ 2 := by
    intro k
    obtain ⟨s, t, hst⟩ := hs k.divNat
    have hpi : ∃ phi, Spec.Parts I K (dz k.divNat) wavel illum tel bf a phi := by
      obtain ⟨B, W, dl, Ea, q1, q2, q3, q4, q5, q6⟩ := hp
      exact ⟨_, B, W, _, Ea, q1, q2, htel _ _ _, q4, q5, fun _ => rfl⟩
    obtain ⟨phi', hp'⟩ := hpi
    have hk : (k : ℕ) = (k.divNat : ℕ) * M + k.modNat := by
      have := Nat.div_add_mod (k : ℕ) M
      simp [Fin.divNat, Fin.modNat]
      linarith
    have hg := hJ k
    rw [hk] at hg
    have := C148_residual Fp F I K D hI d u v dz wavel illum tel bf hpr hbf hw hc htel hKD hK hD k.divNat a phi' hp' hdark
      (b k.divNat) (hb _) r h k.modNat s t _ hg
    have h3 : |J k c| * spread ≤ C := by
      refine (mul_le_mul_of_nonneg_left hst (abs_nonneg _)).trans (this.trans ?_)
      rw [hC]
      have : 0 ≤ (D.map (|·|)).sum := List.sum_nonneg (by simp)
      have := hdz k.divNat
      gcongr
    rw [← sq_abs, ← mul_pow]
    exact pow_le_pow_left₀ (by positivity) h3 2
  rw [← hC]
  calc _ ≤ cov c c * (∑ k, J k c ^ 2) * spread ^ 2 := mul_le_mul_of_nonneg_right h1 (sq_nonneg _)
    _ = cov c c * ∑ k, J k c ^ 2 * spread ^ 2 := by rw [mul_assoc, Finset.sum_mul]
    _ ≤ cov c c * ∑ k : Fin (3 * M), C ^ 2 := by gcongr; exact hcol _
    _ = _ := by simp

/-! ## The telescopes of the package -/

open Classical in
theorem slope_visible (sr l L Fp F : ℝ) (I K D : List ℝ) (dz wavel : ℝ) (illum : Illum (Fin N × Fin N))
    (tel : TelGeo (Fin N × Fin N)) (bf : ℝ) (hN : 2 ≤ N) (hpr : 0 < tel.pr) (hbf : bf ≠ 0) (hw : 0 < wavel)
    (hc : Spec.Central I illum tel bf) (htel : Spec.TwoMirrors tel Fp F) (n : ℕ) (hn : K.length = tri (n + 1))
    (hKD : K.length = D.length) (hK : Spec.OddOnly K) (hD : Spec.EvenOnly D) (B Ea : Fin N × Fin N → ℝ)
    (hB : tel.block (fun q => Spec.gridPoint tel.pr bf N q.2) (fun q => Spec.gridPoint tel.pr bf N q.1) = .ok B)
    (hE : illum (fun q => Spec.gridPoint tel.pr bf N q.2) (fun q => Spec.gridPoint tel.pr bf N q.1) I tel.pr = .ok Ea)
    (hv : ∀ q, |B q| ≤ 1 ∧
      (B q ≠ 0 → Spec.visible tel.pr sr l L (Spec.gridPoint tel.pr bf N q.2) (Spec.gridPoint tel.pr bf N q.1))) :
    ∃ P : ℝ → Pattern N, (∀ t, radiationPattern I (Spec.moved K D t) dz wavel illum tel bf = .ok (P t)) ∧
      ∀ q, ∃ g, HasDerivAt (fun t => ‖(P t).F q‖ ^ 2) g 0 ∧
        |g| ≤ 32 * Real.pi ^ 2 * (|dz| / wavel) * ((tel.pr / (2 * Fp)) ^ 2 + (tel.pr / (2 * F)) ^ 2) * (D.map (|·|)).sum *
          (∑ p with Spec.visible tel.pr sr l L (Spec.gridPoint tel.pr bf N p.2) (Spec.gridPoint tel.pr bf N p.1),
            |Ea p|) ^ 2 := by
  have hlen : ∀ t, (Spec.moved K D t).length = tri (n + 1) := by
    intro t
    rw [Spec.moved, List.length_zipWith]
    omega
  have hex : ∀ t, ∃ P, radiationPattern I (Spec.moved K D t) dz wavel illum tel bf = .ok P := by
    intro t
    rw [C14_ok_iff _ _ _ _ _ hN]
    simp only [linspace_grid]
    exact ⟨_, aperture_ok_iff.2 ⟨_, _, _, _, hB, wavefront_ok _ _ _ n (hlen t), htel _ _ _, hE, rfl⟩⟩
  choose P hP using hex
  have hp : Spec.Parts I K dz wavel illum tel bf (fun q => B q * Ea q) _ :=
    ⟨B, _, _, Ea, hB, hE, htel _ _ _, wavefront_ok _ _ _ n hn, fun _ => rfl, fun _ => rfl⟩
  have hdark : ∀ q, tel.pr ^ 2 < Spec.gridPoint tel.pr bf N q.2 ^ 2 + Spec.gridPoint tel.pr bf N q.1 ^ 2 →
      B q * Ea q = 0 := by
    intro q hq
    by_contra h0
    have := ((hv q).2 (left_ne_zero_of_mul h0)).2.1
    linarith
  refine ⟨P, hP, fun q => ?_⟩
  obtain ⟨g, h1, h2, -⟩ := C148_slope Fp F I K D dz wavel illum tel bf hpr hbf hw hc htel hKD hK hD P hP _ _ hp hdark q
  refine ⟨g, h1, h2.trans ?_⟩
  have hsum : ∑ i, ∑ j, |B (i, j) * Ea (i, j)| ≤
      ∑ p with Spec.visible tel.pr sr l L (Spec.gridPoint tel.pr bf N p.2) (Spec.gridPoint tel.pr bf N p.1), |Ea p| := by
    rw [← Fintype.sum_prod_type', Finset.sum_filter]
    refine sum_le_sum fun p _ => ?_
    split_ifs with hvis
    · rw [abs_mul]
      exact mul_le_of_le_one_left (abs_nonneg _) (hv p).1
    · have : B p = 0 := by
        by_contra h0
        exact hvis ((hv p).2 h0)
      simp [this]
  have hD0 : 0 ≤ (D.map (|·|)).sum := List.sum_nonneg (by simp)
  have : 0 ≤ |dz| / wavel := by positivity
  gcongr

open Classical in
/-- **C148** the telescopes of the package with either illumination, centred: what is added up is the illumination over the
pixels of the aperture that see the sky. -/
theorem C148_package (hN : 2 ≤ N) (bf i c q : ℝ) (hbf : bf ≠ 0) (illum : Illum (Fin N × Fin N))
    (hi : illum = illumGauss ∨ illum = illumParabolic) (K D : List ℝ) (n : ℕ) (hn : K.length = tri (n + 1))
    (hKD : K.length = D.length) (hK : Spec.OddOnly K) (hD : Spec.EvenOnly D) (dz wavel : ℝ) (hw : 0 < wavel) :
    (∀ pr sr l L Fp F : ℝ, 0 < pr → ∃ (P : ℝ → Pattern N) (Ea : Fin N × Fin N → ℝ),
      (∀ t, radiationPattern [i, c, q, 0, 0] (Spec.moved K D t) dz wavel illum (manualTel pr sr l L Fp F) bf = .ok (P t)) ∧
      illum (fun q => Spec.gridPoint pr bf N q.2) (fun q => Spec.gridPoint pr bf N q.1) [i, c, q, 0, 0] pr = .ok Ea ∧
      ∀ q, ∃ g, HasDerivAt (fun t => ‖(P t).F q‖ ^ 2) g 0 ∧
        |g| ≤ 32 * Real.pi ^ 2 * (|dz| / wavel) * ((pr / (2 * Fp)) ^ 2 + (pr / (2 * F)) ^ 2) * (D.map (|·|)).sum *
          (∑ p with Spec.visible pr sr l L (Spec.gridPoint pr bf N p.2) (Spec.gridPoint pr bf N p.1), |Ea p|) ^ 2) ∧
    ∀ alpha, 0 < alpha → alpha < Real.pi / 2 → ∃ (P : ℝ → Pattern N) (Ea : Fin N × Fin N → ℝ),
      (∀ t, radiationPattern [i, c, q, 0, 0] (Spec.moved K D t) dz wavel illum (effelsbergTel alpha) bf = .ok (P t)) ∧
      illum (fun q => Spec.gridPoint 50 bf N q.2) (fun q => Spec.gridPoint 50 bf N q.1) [i, c, q, 0, 0] 50 = .ok Ea ∧
      ∀ q, ∃ g, HasDerivAt (fun t => ‖(P t).F q‖ ^ 2) g 0 ∧
        |g| ≤ 32 * Real.pi ^ 2 * (|dz| / wavel) * ((50 / (2 * 30)) ^ 2 + (50 / (2 * 387.39435)) ^ 2) * (D.map (|·|)).sum *
          (∑ p with Spec.visible 50 3.25 1 20 (Spec.gridPoint 50 bf N p.2) (Spec.gridPoint 50 bf N p.1), |Ea p|) ^ 2 := by
  constructor
  · intro pr sr l L Fp F hpr
    obtain ⟨Ea, hE, -⟩ := C77_illumination hN i c q pr bf illum hi
    obtain ⟨B, hB, hv⟩ := C24_value pr sr l L (fun q : Fin N × Fin N => Spec.gridPoint pr bf N q.2)
      (fun q => Spec.gridPoint pr bf N q.1)
    obtain ⟨P, h1, h2⟩ := slope_visible sr l L Fp F [i, c, q, 0, 0] K D dz wavel illum (manualTel pr sr l L Fp F) bf hN hpr hbf hw
      (C77_manual hN pr sr l L Fp F bf i c q illum hi) (C137_mirrors pr sr l L Fp F 0).1 n hn hKD hK hD B Ea hB hE
      (fun p => by
        by_cases h : Spec.visible pr sr l L (Spec.gridPoint pr bf N p.2) (Spec.gridPoint pr bf N p.1)
        · rw [(hv p).1 h]
          exact ⟨by norm_num, fun _ => h⟩
        · rw [(hv p).2 h]
          exact ⟨by norm_num, fun h0 => absurd rfl h0⟩)
    exact ⟨P, Ea, h1, hE, h2⟩
  · intro alpha ha0 ha1
    obtain ⟨Ea, hE, -⟩ := C77_illumination hN i c q 50 bf illum hi
    obtain ⟨B, hB, hv⟩ := C25_value alpha ha0 ha1 (fun q : Fin N × Fin N => Spec.gridPoint 50 bf N q.2)
      (fun q => Spec.gridPoint 50 bf N q.1)
    obtain ⟨P, h1, h2⟩ := slope_visible 3.25 1 20 30 387.39435 [i, c, q, 0, 0] K D dz wavel illum (effelsbergTel alpha) bf hN
      (by norm_num [effelsbergTel]) hbf hw (C77_effelsberg hN alpha ha0 ha1 bf i c q illum hi)
      (C137_mirrors 0 0 0 0 0 0 alpha).2 n hn hKD hK hD B Ea hB hE
      (fun p => by
        by_cases h : Spec.visible 50 3.25 1 20 (Spec.gridPoint 50 bf N p.2) (Spec.gridPoint 50 bf N p.1) ∧
          ¬ Spec.shade alpha (Spec.gridPoint 50 bf N p.2) (Spec.gridPoint 50 bf N p.1) ∧
          ¬ Spec.shade alpha (Spec.gridPoint 50 bf N p.1) (Spec.gridPoint 50 bf N p.2)
        · rw [(hv p).1 h]
          exact ⟨by norm_num, fun _ => h.1⟩
        · rw [(hv p).2 h]
          exact ⟨by norm_num, fun h0 => absurd rfl h0⟩)
    exact ⟨P, Ea, h1, hE, h2⟩

open Classical in
/-- A dish of 100 m with a tilt of the wavefront, and the defocus term. -/
example : ∃ (P : ℝ → Pattern 256) (Ea : Fin 256 × Fin 256 → ℝ),
    (∀ t, radiationPattern [1, -14, 2, 0, 0] [0, 0.1, 0.2, 0, t, 0] 0.022 0.009 illumGauss (effelsbergTel (Real.pi / 18)) 5 =
      .ok (P t)) ∧
    ∀ q, ∃ g, HasDerivAt (fun t => ‖(P t).F q‖ ^ 2) g 0 ∧
      |g| ≤ 32 * Real.pi ^ 2 * (|0.022| / 0.009) * ((50 / (2 * 30)) ^ 2 + (50 / (2 * 387.39435)) ^ 2) * 1 *
        (∑ p with Spec.visible 50 3.25 1 20 (Spec.gridPoint 50 5 256 p.2) (Spec.gridPoint 50 5 256 p.1), |Ea p|) ^ 2 := by
  obtain ⟨P, Ea, h1, -, h2⟩ := (C148_package (N := 256) (by norm_num) 5 1 (-14) 2 (by norm_num) illumGauss (Or.inl rfl)
    [0, 0.1, 0.2, 0, 0, 0] [0, 0, 0, 0, 1, 0] 2 rfl rfl (odd_only _ _) (even_only _ _ _ _) 0.022 0.009 (by norm_num)).2
    (Real.pi / 18) (by positivity) (by linarith [Real.pi_pos])
  refine ⟨P, Ea, fun t => ?_, fun q => ?_⟩
  · have := h1 t
    rwa [show Spec.moved [0, 0.1, 0.2, 0, 0, 0] [0, 0, 0, 0, 1, 0] t = [0, 0.1, 0.2, 0, t, 0] by simp [Spec.moved]] at this
  · have := h2 q
    rwa [show (([0, 0, 0, 0, 1, 0] : List ℝ).map (|·|)).sum = 1 by norm_num] at this

/-! ## A case in closed form -/

/-- Five open pixels of nine, and two mirrors of focal length 1/2. -/
noncomputable def Spec.cross : TelGeo (Fin 3 × Fin 3) :=
  ⟨fun x y => open Classical in .ok fun q => if x q = 0 ∨ y q = 0 then 1 else 0, fun x y dz => opdManual (1 / 2) (1 / 2) x y dz, 1⟩

theorem two_phases (α β x y : ℝ) :
    ‖(α : ℂ) * Complex.exp (x * Complex.I) + β * Complex.exp (y * Complex.I)‖ ^ 2 = α ^ 2 + β ^ 2 + 2 * α * β * Real.cos (x - y) := by
  rw [← Complex.normSq_eq_norm_sq, Complex.normSq_apply, Real.cos_sub]
  simp only [Complex.add_re, Complex.add_im, Complex.re_ofReal_mul, Complex.im_ofReal_mul, Complex.exp_ofReal_mul_I_re,
    Complex.exp_ofReal_mul_I_im]
  linear_combination α ^ 2 * Real.sin_sq_add_cos_sq x + β ^ 2 * Real.sin_sq_add_cos_sq y

theorem ew_three : ew 3 3 = 1 ∧ 1 + ew 3 1 + ew 3 2 = 0 := by
  have h3 : ew 3 3 = 1 := by
    have : -(2 * Real.pi * Complex.I) * (((3 : ℤ) : ℂ) / ((3 : ℕ) : ℂ)) = -(2 * Real.pi * Complex.I) := by
      push_cast
      ring
    unfold ew
    rw [this, Complex.exp_neg, Complex.exp_two_pi_mul_I, inv_one]
  refine ⟨h3, ?_⟩
  have e2 : ew 3 2 = ew 3 1 * ew 3 1 := by rw [← ew_add]; rfl
  have e3 : ew 3 3 = ew 3 2 * ew 3 1 := by rw [← ew_add]; rfl
  have hne : ew 3 1 ≠ 1 := by
    intro h
    unfold ew at h
    obtain ⟨n, hn⟩ := Complex.exp_eq_one_iff.1 h
    have h2 : (2 * Real.pi * Complex.I : ℂ) ≠ 0 := by
      simp [Real.pi_ne_zero]
    have h4 : (2 * Real.pi * Complex.I : ℂ) * (3 * n + 1) = 0 := by
      push_cast at hn
      linear_combination (-3 : ℂ) * hn
    have h5 := (mul_eq_zero.1 h4).resolve_left h2
    have h6 : (3 * n + 1 : ℤ) = 0 := by exact_mod_cast h5
    omega
  have : (ew 3 1 - 1) * (1 + ew 3 1 + ew 3 2) = 0 := by
    rw [e2] at e3 ⊢
    rw [e3] at h3
    linear_combination h3
  exact (mul_eq_zero.1 this).resolve_left (sub_ne_zero.2 hne)

theorem cross_grid (i : Fin 3) : Spec.gridPoint 1 1 3 i = ((i : ℕ) : ℝ) - 1 := by
  unfold Spec.gridPoint
  norm_num
  ring

theorem cross_parts (I : List ℝ) (dz t : ℝ) : ∃ phi, Spec.Parts (N := 3) I [0, 0, 0, 0, t, 0] dz 1
    (fun _ _ _ _ => .ok fun _ => 1) Spec.cross 1 (fun q => if (q.2 : ℕ) = 1 ∨ (q.1 : ℕ) = 1 then 1 else 0) phi ∧
    (phi (1, 1) = 2 * Real.pi * (2 * dz - t)) ∧ phi (0, 1) = 2 * Real.pi * t ∧ phi (1, 0) = 2 * Real.pi * t ∧
    phi (1, 2) = 2 * Real.pi * t ∧ phi (2, 1) = 2 * Real.pi * t := by
  classical
  refine ⟨_, ⟨_, _, _, _, rfl, rfl, rfl, wavefront_ok _ _ _ 2 rfl, fun q => ?_, fun q => rfl⟩, ?_⟩
  · rw [show Spec.cross.pr = 1 from rfl, mul_one]
    have hz : ∀ i : Fin 3, Spec.gridPoint 1 1 3 i = 0 ↔ (i : ℕ) = 1 := fun i => by rw [cross_grid, sub_eq_zero, Nat.cast_eq_one]
    simp only [hz]
  · rw [show Spec.cross.pr = 1 from rfl]
    simp only [wf_defocus, cross_grid, opdAt]
    norm_num
    ring

theorem cross_pattern (I : List ℝ) (dz t : ℝ) : ∃ P : Pattern 3,
    radiationPattern I [0, 0, 0, 0, t, 0] dz 1 (fun _ _ _ _ => .ok fun _ => 1) Spec.cross 1 = .ok P ∧
    (∀ i : Fin 3, P.u i = (((i : ℕ) : ℝ) - 1) / 3) ∧ P.v = P.u ∧
    ‖P.F (1, 1)‖ ^ 2 = 17 + 8 * Real.cos (4 * Real.pi * (t - dz)) ∧
    ‖P.F (1, 2)‖ ^ 2 = 2 + 2 * Real.cos (4 * Real.pi * (t - dz)) ∧
    ‖P.F (2, 2)‖ ^ 2 = 5 - 4 * Real.cos (4 * Real.pi * (t - dz)) := by
  obtain ⟨phi, hp, p0, p1, p2, p3, p4⟩ := cross_parts I dz t
  have hP : ∃ P : Pattern 3, radiationPattern I [0, 0, 0, 0, t, 0] dz 1 (fun _ _ _ _ => .ok fun _ => 1) Spec.cross 1 =
      .ok P := by
    obtain ⟨B, W, delta, Ea, h1, h2, h3, h4, -⟩ := hp
    rw [radiationPattern_eq _ _ _ _ (by norm_num), linspace_grid, aperture_ok_iff.2 ⟨B, W, delta, Ea, h1, h4, h3, h2, rfl⟩]
    exact ⟨_, rfl⟩
  obtain ⟨P, hP⟩ := hP
  have hax := C14_axes _ _ _ _ _ _ _ _ P (by norm_num [Spec.cross]) one_pos one_pos hP
  have hu1 := hax.2.2.1 1 rfl
  have hu2 := hax.2.2.2 1 2 rfl
  have hu0 := hax.2.2.2 0 1 rfl
  rw [show Spec.cross.pr = 1 from rfl] at hu2 hu0
  have hF : ∀ q, P.F q = _ := fun q => by rw [parts_of_pattern hP hp, shifted_eq]
  simp only [Fin.sum_univ_three] at hF
  obtain ⟨e3, e1⟩ := ew_three
  have e0 : ew 3 0 = 1 := by simp [ew]
  have key : ∀ α β s : ℝ, s = α ^ 2 + β ^ 2 → ‖(α : ℂ) * Complex.exp (2 * Real.pi * t * Complex.I) +
      β * Complex.exp (2 * Real.pi * (2 * dz - t) * Complex.I)‖ ^ 2 = s + 2 * α * β * Real.cos (4 * Real.pi * (t - dz)) := by
    intro α β s hs
    have := two_phases α β (2 * Real.pi * t) (2 * Real.pi * (2 * dz - t))
    rw [show 2 * Real.pi * t - 2 * Real.pi * (2 * dz - t) = 4 * Real.pi * (t - dz) by ring] at this
    push_cast at this
    rw [this, hs]
  refine ⟨P, hP, fun i => ?_, hax.1.symm, ?_, ?_, ?_⟩
  · fin_cases i
    · change P.u 0 = _
      norm_num at hu0 ⊢
      linarith
    · change P.u 1 = _
      rw [hu1]
      norm_num
    · change P.u 2 = _
      norm_num at hu2 ⊢
      linarith
  all_goals
    rw [hF]
    simp [p0, p1, p2, p3, p4]
  · have k := key 4 1 17 (by norm_num)
    rw [show (2 : ℝ) * 4 * 1 = 8 by norm_num] at k
    rw [e0, ← k]
    congr 2
    push_cast
    ring
  · have k := key 1 1 2 (by norm_num)
    rw [show (2 : ℝ) * 1 * 1 = 2 by norm_num] at k
    have k' := norm_mul (ew 3 1) (((1 : ℝ) : ℂ) * Complex.exp (2 * Real.pi * t * Complex.I) +
      ((1 : ℝ) : ℂ) * Complex.exp (2 * Real.pi * (2 * dz - t) * Complex.I))
    rw [ew_norm, one_mul] at k'
    rw [← k, ← k', e0]
    congr 2
    push_cast
    linear_combination Complex.exp (2 * Real.pi * t * Complex.I) * e1
  · have k := key (-2) 1 5 (by norm_num)
    rw [show (2 : ℝ) * -2 * 1 = -4 by norm_num, neg_mul, ← sub_eq_add_neg] at k
    have k' := norm_mul (ew 3 2) (((-2 : ℝ) : ℂ) * Complex.exp (2 * Real.pi * t * Complex.I) +
      ((1 : ℝ) : ℂ) * Complex.exp (2 * Real.pi * (2 * dz - t) * Complex.I))
    rw [ew_norm, one_mul] at k'
    rw [← k, ← k', e3]
    congr 2
    push_cast
    linear_combination 2 * Complex.exp (2 * Real.pi * t * Complex.I) * e1

/-- The places of the three samples: the centre, the next pixel in the row and the next one on the diagonal. -/
noncomputable def Spec.crossU (q : Fin 3 × Fin 3) : ℝ := ![0, 1 / 3, 1 / 3] q.2

noncomputable def Spec.crossV (q : Fin 3 × Fin 3) : ℝ := ![0, 0, 1 / 3] q.2

theorem cross_row (t : ℝ) (i : Fin 3) : modelRow ([1, -10, 2, 0, 0] ++ [0, 0, 0, 0, t, 0]) Spec.crossU Spec.crossV
    (fun _ => -1 / 8) 1 (fun _ _ _ _ => .ok fun _ => 1) Spec.cross 1 i =
      .ok ![17 - 8 * Real.sin (4 * Real.pi * t), 2 - 2 * Real.sin (4 * Real.pi * t), 5 + 4 * Real.sin (4 * Real.pi * t)] := by
  obtain ⟨P, hP, hu, hv, f0, f1, f2⟩ := cross_pattern [1, -10, 2, 0, 0] (-1 / 8) t
  rw [show 4 * Real.pi * (t - -1 / 8) = 4 * Real.pi * t + Real.pi / 2 by ring, Real.cos_add_pi_div_two] at f0 f1 f2
  have hu0 : P.u 0 = -(1 / 3) := by rw [hu]; norm_num
  have hu1 : P.u 1 = 0 := by rw [hu]; norm_num
  have hu2 : P.u 2 = 1 / 3 := by rw [hu]; norm_num
  have hex : ∃ b, modelRow ([1, -10, 2, 0, 0] ++ [0, 0, 0, 0, t, 0]) Spec.crossU Spec.crossV (fun _ => -1 / 8) 1
      (fun _ _ _ _ => .ok fun _ => 1) Spec.cross 1 i = .ok b := by
    refine ⟨_, modelRow_ok.2 ⟨P, hP, (interpolator_ok_iff _ _ _ _ _).2 ⟨?_, fun k => ?_, rfl⟩⟩⟩
    · rw [hv]
      have : StrictMono P.u := by
        intro x y hxy
        simp only [hu]
        have : ((x : ℕ) : ℝ) < ((y : ℕ) : ℝ) := by exact_mod_cast hxy
        gcongr
      exact ⟨this, this⟩
    · rw [hv]
      refine ⟨⟨⟨0, ?_⟩, ⟨2, ?_⟩⟩, ⟨⟨0, ?_⟩, ⟨2, ?_⟩⟩⟩
      · rw [hu0]; unfold Spec.crossU; fin_cases k <;> norm_num
      · rw [hu2]; unfold Spec.crossU; fin_cases k <;> norm_num
      · rw [hu0]; unfold Spec.crossV; fin_cases k <;> norm_num
      · rw [hu2]; unfold Spec.crossV; fin_cases k <;> norm_num
  obtain ⟨b, hb⟩ := hex
  have cu0 : Spec.crossU (i, 0) = P.u 1 := by rw [hu1]; simp [Spec.crossU]
  have cu1 : Spec.crossU (i, 1) = P.u 2 := by rw [hu2]; simp [Spec.crossU]
  have cu2 : Spec.crossU (i, 2) = P.u 2 := by rw [hu2]; simp [Spec.crossU]
  have cv0 : Spec.crossV (i, 0) = P.v 1 := by rw [hv, hu1]; simp [Spec.crossV]
  have cv1 : Spec.crossV (i, 1) = P.v 1 := by rw [hv, hu1]; simp [Spec.crossV]
  have cv2 : Spec.crossV (i, 2) = P.v 2 := by rw [hv, hu2]; simp [Spec.crossV]
  have hP' : radiationPattern (([1, -10, 2, 0, 0] ++ [0, 0, 0, 0, t, 0] : List ℝ).take 5) (([1, -10, 2, 0, 0] ++ [0, 0, 0, 0, t, 0] : List ℝ).drop 5)
      ((fun _ : Fin 3 => (-1 / 8 : ℝ)) i) 1 (fun _ _ _ _ => .ok fun _ => 1) Spec.cross 1 = .ok P := by
    simp only [List.cons_append, List.nil_append, List.take_succ_cons, List.take_zero, List.drop_succ_cons, List.drop_zero]
    exact hP
  have e0 := row_node (N := 3) (M := 3) ([1, -10, 2, 0, 0] ++ [0, 0, 0, 0, t, 0]) Spec.crossU Spec.crossV (fun _ => -1 / 8) 1 (fun _ _ _ _ => .ok fun _ => 1) Spec.cross 1 i P b hP' hb 0 1 1 cu0 cv0
  have e1 := row_node (N := 3) (M := 3) ([1, -10, 2, 0, 0] ++ [0, 0, 0, 0, t, 0]) Spec.crossU Spec.crossV (fun _ => -1 / 8) 1 (fun _ _ _ _ => .ok fun _ => 1) Spec.cross 1 i P b hP' hb 1 1 2 cu1 cv1
  have e2 := row_node (N := 3) (M := 3) ([1, -10, 2, 0, 0] ++ [0, 0, 0, 0, t, 0]) Spec.crossU Spec.crossV (fun _ => -1 / 8) 1 (fun _ _ _ _ => .ok fun _ => 1) Spec.cross 1 i P b hP' hb 2 2 2 cu2 cv2
  rw [hb]
  congr 1
  funext k
  fin_cases k
  · change b 0 = 17 - 8 * Real.sin (4 * Real.pi * t)
    rw [e0, f0]; ring
  · change b 1 = 2 - 2 * Real.sin (4 * Real.pi * t)
    rw [e1, f1]; ring
  · change b 2 = 5 + 4 * Real.sin (4 * Real.pi * t)
    rw [e2, f2]; ring

/-- The residual of three maps without signal near `t = 0`. -/
theorem cross_residual : ∃ r : ℝ → List ℝ, (∀ t, residualTrue ([1, -10, 2, 0, 0] ++ [0, 0, 0, 0, t, 0]) (fun _ => .fin 0)
      Spec.crossU Spec.crossV (fun _ => -1 / 8) 1 (fun _ _ _ _ => .ok fun _ => 1) Spec.cross 1 = .ok (r t)) ∧
    ∀ t, |Real.sin (4 * Real.pi * t)| < 1 / 2 → ∀ (i : Fin 3) (k : Fin 3), (r t).getD ((i : ℕ) * 3 + k) 0 =
      -![1, 0, (3 + 6 * Real.sin (4 * Real.pi * t)) / (15 - 6 * Real.sin (4 * Real.pi * t))] k := by
  have ok : ∀ t, ∃ r, residualTrue ([1, -10, 2, 0, 0] ++ [0, 0, 0, 0, t, 0]) (fun _ => .fin 0)
      Spec.crossU Spec.crossV (fun _ => -1 / 8) 1 (fun _ _ _ _ => .ok fun _ => 1) Spec.cross 1 = .ok r := by
    intro t
    obtain ⟨nd, hd, -⟩ := C27_axis1 (by norm_num : 0 < 3) (fun q : Fin 3 × Fin 3 => Fl.fin 0)
    obtain ⟨nm, hm, -⟩ := C27_axis1 (by norm_num : 0 < 3) (fun q : Fin 3 × Fin 3 => Fl.fin (![17 - 8 * Real.sin (4 * Real.pi * t),
      2 - 2 * Real.sin (4 * Real.pi * t), 5 + 4 * Real.sin (4 * Real.pi * t)] q.2))
    exact ⟨_, residualTrue_ok.2 ⟨_, cross_row t, nd, nm, hd, hm, rfl⟩⟩
  choose r hr using ok
  refine ⟨r, hr, fun t ht i k => ?_⟩
  obtain ⟨-, -, -, h1⟩ := residual_layout _ _ _ _ _ _ _ _ _ _ (hr t)
  obtain ⟨b, nd, nm, a1, a2, a3, a4⟩ := h1 i
  rw [cross_row] at a1
  cases a1
  rw [C27_constant] at a2
  cases a2
  obtain ⟨x, hx⟩ : ∃ x, x = Real.sin (4 * Real.pi * t) := ⟨_, rfl⟩
  rw [← hx] at ht a3 ⊢
  obtain ⟨l1, l2⟩ := abs_lt.1 ht
  rw [C27_value _ 1 0 (by intro q; fin_cases q <;> simp <;> linarith) (by intro q; fin_cases q <;> simp <;> linarith)
    (by simp; linarith)] at a3
  cases a3
  rw [List.getD_eq_getElem?_getD, a4 k, Option.getD_some, zero_sub]
  congr 1
  have hne : (15 : ℝ) - 6 * x ≠ 0 := by linarith
  have e : (17 : ℝ) - 8 * x - (2 - 2 * x) = 15 - 6 * x := by ring
  fin_cases k
  · change (17 - 8 * x - (2 - 2 * x)) / (17 - 8 * x - (2 - 2 * x)) = 1
    rw [e, div_self hne]
  · change (2 - 2 * x - (2 - 2 * x)) / (17 - 8 * x - (2 - 2 * x)) = 0
    rw [sub_self, zero_div]
  · change (5 + 4 * x - (2 - 2 * x)) / (17 - 8 * x - (2 - 2 * x)) = (3 + 6 * x) / (15 - 6 * x)
    rw [e, show (5 : ℝ) + 4 * x - (2 - 2 * x) = 3 + 6 * x by ring]

theorem cross_slope : HasDerivAt (fun t => -((3 + 6 * Real.sin (4 * Real.pi * t)) / (15 - 6 * Real.sin (4 * Real.pi * t))))
    (-(48 / 25 * Real.pi)) 0 := by
  have h1 : HasDerivAt (fun t : ℝ => Real.sin (4 * Real.pi * t)) (4 * Real.pi) 0 := by
    have := ((hasDerivAt_id' (0 : ℝ)).const_mul (4 * Real.pi)).sin
    simpa using this
  have h2 := (((h1.const_mul 6).const_add 3).fun_div ((h1.const_mul 6).const_sub 15) (by simp)).fun_neg
  refine h2.congr_deriv ?_
  rw [mul_zero, Real.sin_zero]
  ring

theorem cross_central : Spec.Central [1, -10, 2, 0, 0] (fun _ _ _ _ => .ok fun _ => 1) Spec.cross 1 := by
  classical
  refine ⟨⟨_, _, rfl, rfl, fun q => ?_⟩, fun dz => ⟨_, _, rfl, rfl, fun q => ?_⟩⟩
  · rw [show Spec.cross.pr = 1 from rfl]
    simp only [cross_grid, Spec.opposite]
    obtain ⟨i, j⟩ := q
    fin_cases i <;> fin_cases j <;> norm_num [Fin.rev]
  · rw [show Spec.cross.pr = 1 from rfl]
    simp only [Spec.opposite, gridPoint_rev 1 1 (by norm_num : 2 ≤ 3)]
    exact opdAt_opposite (1 / 2) (1 / 2) dz _ _

/-- All of `C148_slope`, `C148_residual`, `C148_variance` and `C148_errors` apply here: the coefficient of the
defocus term, the only one that is fitted, with three equal maps out of focus. -/
example : ∃ (r : ℝ → List ℝ) (J cov corr : _), (∀ t, residualTrue ([1, -10, 2, 0, 0] ++ [0, 0, 0, 0, t, 0]) (fun _ => .fin 0)
      Spec.crossU Spec.crossV (fun _ => -1 / 8) 1 (fun _ _ _ _ => .ok fun _ => 1) Spec.cross 1 = .ok (r t)) ∧
    (∀ k : Fin (3 * 3), HasDerivAt (fun t => (r t).getD k 0) (J k 0) 0) ∧
    coMatrices (n := 1) (fun k : Fin (3 * 3) => (r 0).getD k 0) J 1 = .ok (some (cov, corr)) ∧
    (∑ k : Fin (3 * 3), (r 0).getD k 0 ^ 2) / (((3 * 3 : ℕ) : ℝ) - (1 : ℕ)) * 15 ^ 2 ≤
      cov 0 0 * ((3 * 3 : ℕ) * (400 * Real.pi ^ 2) ^ 2) := by
  obtain ⟨r, hr, hv⟩ := cross_residual
  have hk : ∀ k : Fin (3 * 3), (k : ℕ) = (k.divNat : ℕ) * 3 + k.modNat := fun k => by
    have := Nat.div_add_mod (k : ℕ) 3
    simp [Fin.divNat, Fin.modNat]
    omega
  have hJ : ∀ k : Fin (3 * 3), HasDerivAt (fun t => (r t).getD k 0) (![0, 0, -(48 / 25 * Real.pi)] k.modNat) 0 := by
    intro k
    have hev : ∀ᶠ t in nhds (0 : ℝ), |Real.sin (4 * Real.pi * t)| < 1 / 2 := by
      have hc : Continuous fun t : ℝ => |Real.sin (4 * Real.pi * t)| := by fun_prop
      exact (hc.tendsto 0).eventually_lt_const (by simp)
    have heq : (fun t => (r t).getD k 0) =ᶠ[nhds 0] fun t => -![1, 0, (3 + 6 * Real.sin (4 * Real.pi * t)) /
        (15 - 6 * Real.sin (4 * Real.pi * t))] k.modNat := by
      filter_upwards [hev] with t ht
      rw [hk k]
      exact hv t ht _ _
    refine HasDerivAt.congr_of_eventuallyEq ?_ heq
    generalize k.modNat = j
    fin_cases j
    · exact hasDerivAt_const (0 : ℝ) (-1 : ℝ)
    · exact hasDerivAt_const (0 : ℝ) (-0 : ℝ)
    · exact cross_slope
  have hr0 : (fun k : Fin (3 * 3) => (r 0).getD k 0) ≠ 0 := by
    intro h0
    have := congrFun h0 0
    have h2 := hv 0 (by simp) 0 0
    simp at this h2
    rw [this] at h2
    norm_num at h2
  obtain ⟨J, hJe⟩ : ∃ J : Matrix (Fin (3 * 3)) (Fin 1) ℝ, J = Matrix.of fun k _ => ![0, 0, -(48 / 25 * Real.pi)] k.modNat := ⟨_, rfl⟩
  obtain ⟨cov, corr, hco, -⟩ := C30_matrices (fun k : Fin (3 * 3) => (r 0).getD k 0) J 1 (by norm_num) (by
    intro v hv
    have h2 := congrFun hv 2
    rw [hJe, Matrix.mulVec, dotProduct, Fin.sum_univ_one, Matrix.of_apply, show Fin.modNat (m := 3) (n := 3) 2 = 2 from rfl] at h2
    funext j
    rw [Subsingleton.elim j 0]
    exact (mul_eq_zero.1 h2).resolve_left (neg_ne_zero.2 (mul_ne_zero (by norm_num) Real.pi_ne_zero))) hr0
  refine ⟨r, J, cov, corr, hr, fun k => by rw [hJe]; exact hJ k, hco, ?_⟩
  have hm : ∀ t, Spec.moved [0, 0, 0, 0, 0, 0] [0, 0, 0, 0, 1, 0] t = [0, 0, 0, 0, t, 0] := by
    intro t
    simp [Spec.moved]
  obtain ⟨phi, hp, -⟩ := cross_parts [1, -10, 2, 0, 0] 0 0
  have := C148_errors (N := 3) (M := 3) (1 / 2) (1 / 2) [1, -10, 2, 0, 0] [0, 0, 0, 0, 0, 0] [0, 0, 0, 0, 1, 0] rfl (fun _ => .fin 0)
    Spec.crossU Spec.crossV (fun _ => -1 / 8) 1 (fun _ _ _ _ => .ok fun _ => 1) Spec.cross 1 (by norm_num [Spec.cross]) one_ne_zero
    one_pos cross_central (fun _ _ _ => rfl) rfl (odd_only 0 0) (even_only 0 0 1 0) _ phi hp (by
      rintro ⟨i, j⟩ hq
      rw [show Spec.cross.pr = 1 from rfl, cross_grid, cross_grid] at hq
      fin_cases i <;> fin_cases j <;> first | (norm_num; done) | (norm_num at hq)) (fun _ => ![17, 2, 5])
    (fun i => by
      rw [sampled_iff, cross_row 0 i, mul_zero, Real.sin_zero]
      norm_num) 15 (by norm_num) (fun i => ⟨1, 0, by norm_num⟩) (1 / 8) (fun _ => by rw [abs_le]; norm_num) r
    (fun t => by rw [hm]; exact hr t) _ J 0 (fun k => by rw [hJe]; exact hJ k) 1 (by norm_num) cov corr hco
  refine this.trans (le_of_eq ?_)
  rw [show Spec.cross.pr = 1 from rfl]
  have hS : ∑ i : Fin 3, ∑ j : Fin 3, |if ((i, j).2 : ℕ) = 1 ∨ ((i, j).1 : ℕ) = 1 then (1 : ℝ) else 0| = 5 := by
    simp only [Fin.sum_univ_three]
    norm_num
  have hD : (([0, 0, 0, 0, 1, 0] : List ℝ).map fun x => |x|).sum = 1 := by norm_num
  rw [hS, hD]
  ring

end Verif.Props
