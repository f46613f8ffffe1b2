import Verif.Props.Noise

/-!
# A wrong blockage or illumination: the beam is that of the aperture without the shadow, less that of the shadow (C146)
-/

namespace Verif.Props

open Verif Verif.Np Verif.Zernike Verif.Aperture Verif.Fourier Verif.Core Verif.Telgeometry Finset

variable {N M : ℕ}

theorem phases_unique {I I' K : List ℝ} {dz wavel : ℝ} {illum illum' : Illum (Fin N × Fin N)}
    {tel : TelGeo (Fin N × Fin N)} {block' : (Fin N × Fin N → ℝ) → (Fin N × Fin N → ℝ) → Py (Fin N × Fin N → ℝ)} {bf : ℝ}
    {a phi a' phi' : Fin N × Fin N → ℝ} (h : Spec.Parts I K dz wavel illum tel bf a phi)
    (h' : Spec.Parts I' K dz wavel illum' { tel with block := block' } bf a' phi') : phi' = phi := by
  obtain ⟨B, W, d, Ea, -, -, h3, h4, -, h6⟩ := h
  obtain ⟨B', W', d', Ea', -, -, h3', h4', -, h6'⟩ := h'
  change tel.opd _ _ _ = _ at h3'
  change wavefront (fun q => Real.sqrt (Spec.gridPoint tel.pr bf N q.2 ^ 2 + Spec.gridPoint tel.pr bf N q.1 ^ 2) / tel.pr)
      (fun q => arctan2 (Spec.gridPoint tel.pr bf N q.1) (Spec.gridPoint tel.pr bf N q.2)) K = .ok W' at h4'
  rw [h3] at h3'
  cases h3'
  rw [h4] at h4'
  cases h4'
  funext q
  rw [h6, h6']

/-- **C146.**  The fields of two apertures add up: an aperture with an amplitude `α a + β a'` and the same phase has the field
`α F + β F'`, at the same coordinates. -/
theorem C146_superposition (I I' I'' K : List ℝ) (dz wavel : ℝ) (illum illum' illum'' : Illum (Fin N × Fin N))
    (tel : TelGeo (Fin N × Fin N)) (block' block'' : (Fin N × Fin N → ℝ) → (Fin N × Fin N → ℝ) → Py (Fin N × Fin N → ℝ))
    (bf : ℝ) (P P' P'' : Pattern N) (a a' a'' phi phi' phi'' : Fin N × Fin N → ℝ)
    (h : radiationPattern I K dz wavel illum tel bf = .ok P)
    (h' : radiationPattern I' K dz wavel illum' { tel with block := block' } bf = .ok P')
    (h'' : radiationPattern I'' K dz wavel illum'' { tel with block := block'' } bf = .ok P'')
    (hp : Spec.Parts I K dz wavel illum tel bf a phi)
    (hp' : Spec.Parts I' K dz wavel illum' { tel with block := block' } bf a' phi')
    (hp'' : Spec.Parts I'' K dz wavel illum'' { tel with block := block'' } bf a'' phi'') (α β : ℝ)
    (hsum : ∀ q, a'' q = α * a q + β * a' q) :
    P''.u = P.u ∧ P''.v = P.v ∧ ∀ q, P''.F q = α * P.F q + β * P'.F q := by
  obtain ⟨-, E, -, hPe⟩ := radiationPattern_ok h
  obtain ⟨-, E'', -, hPe''⟩ := radiationPattern_ok h''
  refine ⟨by rw [hPe, hPe''], by rw [hPe, hPe''], fun q => ?_⟩
  have e1 := phases_unique hp hp'
  have e2 := phases_unique hp hp''
  subst e1 e2
  rw [parts_of_pattern h hp, parts_of_pattern h' hp', parts_of_pattern h'' hp'', shifted_eq, shifted_eq, shifted_eq,
    Finset.mul_sum, Finset.mul_sum, ← Finset.sum_add_distrib]
  refine sum_congr rfl fun i _ => ?_
  rw [Finset.mul_sum, Finset.mul_sum, ← Finset.sum_add_distrib]
  refine sum_congr rfl fun j _ => ?_
  rw [hsum]
  push_cast
  ring

/-- **C146.**  How far the fields of two apertures are from each other: at each point at most the sum of the differences of
the amplitudes, and in the sum of squares exactly `N²` times the sum of their squares, wherever the coefficients and the
focus put it. -/
theorem C146_field (I I' K : List ℝ) (dz wavel : ℝ) (illum illum' : Illum (Fin N × Fin N))
    (tel : TelGeo (Fin N × Fin N)) (block' : (Fin N × Fin N → ℝ) → (Fin N × Fin N → ℝ) → Py (Fin N × Fin N → ℝ))
    (bf : ℝ) (P P' : Pattern N) (a a' phi phi' : Fin N × Fin N → ℝ)
    (h : radiationPattern I K dz wavel illum tel bf = .ok P)
    (h' : radiationPattern I' K dz wavel illum' { tel with block := block' } bf = .ok P')
    (hp : Spec.Parts I K dz wavel illum tel bf a phi)
    (hp' : Spec.Parts I' K dz wavel illum' { tel with block := block' } bf a' phi') :
    (∀ q, ‖P.F q - P'.F q‖ ≤ ∑ i, ∑ j, |a (i, j) - a' (i, j)|) ∧
      ∑ q, ‖P.F q - P'.F q‖ ^ 2 = (N : ℝ) ^ 2 * ∑ q, (a q - a' q) ^ 2 := by
  have e1 := phases_unique hp hp'
  subst e1
  have hd : ∀ q, P.F q - P'.F q =
      fftshift2 (fft2 fun q => ((a q - a' q : ℝ) : ℂ) * Complex.exp ((phi' q : ℂ) * Complex.I)) q := by
    intro q
    rw [parts_of_pattern h hp, parts_of_pattern h' hp', shifted_eq, shifted_eq, shifted_eq, ← Finset.sum_sub_distrib]
    refine sum_congr rfl fun i _ => ?_
    rw [← Finset.sum_sub_distrib]
    refine sum_congr rfl fun j _ => ?_
    push_cast
    ring
  constructor
  · intro q
    rw [hd, shifted_eq]
    refine (norm_sum_le _ _).trans (sum_le_sum fun i _ => (norm_sum_le _ _).trans (sum_le_sum fun j _ => ?_))
    rw [norm_mul, ew_norm, mul_one, norm_mul, Complex.norm_exp_ofReal_mul_I, mul_one, Complex.norm_real, Real.norm_eq_abs]
  · rw [Finset.sum_congr rfl fun q _ => by rw [hd q], parseval_shift]
    congr 1
    refine sum_congr rfl fun q _ => ?_
    rw [norm_mul, Complex.norm_exp_ofReal_mul_I, mul_one, Complex.norm_real, Real.norm_eq_abs, sq_abs]

theorem power_near {z w : ℂ} {S S' D : ℝ} (h1 : ‖z‖ ≤ S) (h2 : ‖w‖ ≤ S') (h3 : ‖z - w‖ ≤ D) :
    |‖z‖ ^ 2 - ‖w‖ ^ 2| ≤ (S + S') * D := by
  have e : ‖z‖ ^ 2 - ‖w‖ ^ 2 = (‖z‖ + ‖w‖) * (‖z‖ - ‖w‖) := by ring
  rw [e, abs_mul, abs_of_nonneg (by positivity)]
  exact mul_le_mul (add_le_add h1 h2) ((abs_norm_sub_norm_le _ _).trans h3) (abs_nonneg _)
    (add_nonneg ((norm_nonneg z).trans h1) ((norm_nonneg w).trans h2))

/-- **C146.**  The residual with a wrong blockage or illumination. -/
theorem C146_residual (I I' K : List ℝ) (hI : I.length = 5) (hI' : I'.length = 5) (d : Fin 3 × Fin M → Fl)
    (u v : Fin 3 × Fin M → ℝ) (dz : Fin 3 → ℝ) (wavel : ℝ) (illum illum' : Illum (Fin N × Fin N))
    (tel : TelGeo (Fin N × Fin N)) (block' : (Fin N × Fin N → ℝ) → (Fin N × Fin N → ℝ) → Py (Fin N × Fin N → ℝ))
    (bf : ℝ) (i : Fin 3) (a a' phi phi' : Fin N × Fin N → ℝ) (hp : Spec.Parts I K (dz i) wavel illum tel bf a phi)
    (hp' : Spec.Parts I' K (dz i) wavel illum' { tel with block := block' } bf a' phi')
    (b : Fin M → ℝ) (hb : Spec.Sampled (I ++ K) u v dz wavel illum tel bf i b) (r r' : List ℝ)
    (h : residualTrue (I ++ K) d u v dz wavel illum tel bf = .ok r)
    (h' : residualTrue (I' ++ K) d u v dz wavel illum' { tel with block := block' } bf = .ok r')
    (k : Fin M) (x x' : ℝ) (hx : r[(i : ℕ) * M + k]? = some x) (hx' : r'[(i : ℕ) * M + k]? = some x') (s t : Fin M) :
    |x - x'| * (b t - b s) ≤
      2 * ((∑ i, ∑ j, |a (i, j)| + ∑ i, ∑ j, |a' (i, j)|) * ∑ i, ∑ j, |a (i, j) - a' (i, j)|) := by
  rw [sampled_iff] at hb
  obtain ⟨-, -, -, h1⟩ := residual_layout _ _ _ _ _ _ _ _ _ r h
  obtain ⟨-, -, -, h2⟩ := residual_layout _ _ _ _ _ _ _ _ _ r' h'
  obtain ⟨b1, nd, nm, a1, a2, a3, a4⟩ := h1 i
  obtain ⟨b', nd', nm', c1, c2, c3, c4⟩ := h2 i
  rw [hb] at a1
  cases a1
  rw [a2] at c2
  cases c2
  obtain ⟨P, e1, e2⟩ := modelRow_ok.1 hb
  obtain ⟨P', f1, f2⟩ := modelRow_ok.1 c1
  rw [← hI, List.take_left, List.drop_left] at e1
  rw [← hI', List.take_left, List.drop_left] at f1
  obtain ⟨hN, E, -, hPe⟩ := radiationPattern_ok e1
  obtain ⟨-, E', -, hPe'⟩ := radiationPattern_ok f1
  have hu : P'.u = P.u := by rw [hPe, hPe']
  have hv : P'.v = P.v := by rw [hPe, hPe']
  rw [hu, hv] at f2
  obtain ⟨⟨m0, m1⟩, hin, rfl⟩ := (interpolator_ok_iff _ _ _ _ _).1 e2
  obtain ⟨-, -, rfl⟩ := (interpolator_ok_iff _ _ _ _ _).1 f2
  obtain ⟨c, hc⟩ : ∃ c, c = (∑ i, ∑ j, |a (i, j)| + ∑ i, ∑ j, |a' (i, j)|) * ∑ i, ∑ j, |a (i, j) - a' (i, j)| := ⟨_, rfl⟩
  have hclose : ∀ q, |‖P.F q‖ ^ 2 - ‖P'.F q‖ ^ 2| ≤ c := by
    intro q
    rw [hc]
    exact power_near (C70_bound _ _ _ _ _ _ _ _ _ _ _ e1 hp q) (C70_bound _ _ _ _ _ _ _ _ _ _ _ f1 hp' q)
      ((C146_field _ _ _ _ _ _ _ _ _ _ _ _ _ _ _ _ e1 f1 hp hp').1 q)
  have hc0 : 0 ≤ c := (abs_nonneg _).trans (hclose (⟨0, by omega⟩, ⟨0, by omega⟩))
  have : Nonempty (Fin M) := ⟨k⟩
  obtain ⟨n, n', g1, g2, g3⟩ := C97_norm _ _ c fun k => evalLinear_close hN m0 m1 hc0
    (V := fun q => ‖P.F (q.2, q.1)‖ ^ 2) (V' := fun q => ‖P'.F (q.2, q.1)‖ ^ 2)
    (fun q => hclose (q.2, q.1)) (hin k).1 (hin k).2
  rw [a3] at g1
  rw [c3] at g2
  cases g1
  cases g2
  rw [a4 k, Option.some.injEq] at hx
  rw [c4 k, Option.some.injEq] at hx'
  rw [← hx, ← hx', sub_sub_sub_cancel_left, abs_sub_comm, ← hc]
  exact g3 k s t

/-- **C146.**  The gain on the axis, without phase errors: a shadow takes away the part of the field it covers, and the
power falls by the square. -/
theorem C146_axis (I K : List ℝ) (dz wavel : ℝ) (illum : Illum (Fin N × Fin N))
    (tel : TelGeo (Fin N × Fin N)) (block' : (Fin N × Fin N → ℝ) → (Fin N × Fin N → ℝ) → Py (Fin N × Fin N → ℝ))
    (bf : ℝ) (P P' : Pattern N) (a a' phi phi' : Fin N × Fin N → ℝ)
    (h : radiationPattern I K dz wavel illum tel bf = .ok P)
    (h' : radiationPattern I K dz wavel illum { tel with block := block' } bf = .ok P')
    (hp : Spec.Parts I K dz wavel illum tel bf a phi)
    (hp' : Spec.Parts I K dz wavel illum { tel with block := block' } bf a' phi') (phi0 : ℝ)
    (hphi : ∀ q, a q ≠ 0 → phi q = phi0) (S : Finset (Fin N × Fin N)) (hS : ∀ q ∈ S, a' q = 0) (hS' : ∀ q ∉ S, a' q = a q) (ha : ∀ q, 0 ≤ a q)
    (hpos : 0 < ∑ q, a q) (c : Fin N) (hc : (c : ℕ) = N / 2) :
    ‖P'.F (c, c)‖ ^ 2 = (1 - (∑ q ∈ S, a q) / ∑ q, a q) ^ 2 * ‖P.F (c, c)‖ ^ 2 := by
  have e1 := phases_unique hp hp'
  have ha' : ∀ q, 0 ≤ a' q := fun q => by
    by_cases hq : q ∈ S
    · rw [hS q hq]
    · rw [hS' q hq]; exact ha q
  have v1 := (C70_on_axis I K dz wavel N illum tel bf P a phi h hp ha phi0 hphi c hc).1
  have hphi' : ∀ q, a' q ≠ 0 → phi' q = phi0 := fun q hq => by
    rw [e1]
    by_cases hq' : q ∈ S
    · exact absurd (hS q hq') hq
    · exact hphi q (by rwa [← hS' q hq'])
  have v2 := (C70_on_axis I K dz wavel N illum _ bf P' a' phi' h' hp' ha' phi0 hphi' c hc).1
  have s1 : ∑ q, a' q = ∑ q, a q - ∑ q ∈ S, a q := by
    rw [← Finset.sum_add_sum_compl S a', ← Finset.sum_add_sum_compl S a, Finset.sum_eq_zero hS]
    have : ∑ q ∈ Sᶜ, a' q = ∑ q ∈ Sᶜ, a q := sum_congr rfl fun q hq => hS' q (Finset.mem_compl.1 hq)
    rw [this]
    ring
  rw [v1, v2, ← Fintype.sum_prod_type (f := a), ← Fintype.sum_prod_type (f := a'), s1, ← mul_pow, sub_mul, one_mul,
    div_mul_cancel₀ _ hpos.ne']

/-- **C146.**  Two telescopes made with `block_manual` and the same dish: their amplitudes differ at the pixels that one of
them sees and the other does not, by the illumination there. -/
theorem C146_manual (pr sr l L sr' l' L' Fp F bf : ℝ) (I K : List ℝ) (dz wavel : ℝ) (illum : Illum (Fin N × Fin N))
    (a a' phi phi' Ea : Fin N × Fin N → ℝ)
    (hp : Spec.Parts I K dz wavel illum (manualTel pr sr l L Fp F) bf a phi)
    (hp' : Spec.Parts I K dz wavel illum (manualTel pr sr' l' L' Fp F) bf a' phi')
    (hE : illum (fun q => Spec.gridPoint pr bf N q.2) (fun q => Spec.gridPoint pr bf N q.1) I pr = .ok Ea)
    (S : Finset (Fin N × Fin N)) (hS : ∀ q, q ∈ S ↔
      ¬(Spec.visible pr sr l L (Spec.gridPoint pr bf N q.2) (Spec.gridPoint pr bf N q.1) ↔
        Spec.visible pr sr' l' L' (Spec.gridPoint pr bf N q.2) (Spec.gridPoint pr bf N q.1))) :
    ∑ i, ∑ j, |a (i, j) - a' (i, j)| = ∑ q ∈ S, |Ea q| := by
  obtain ⟨B, W, d, E1, h1, h2, -, -, h5, -⟩ := hp
  obtain ⟨B', W', d', E2, h1', h2', -, -, h5', -⟩ := hp'
  change illum (fun q => Spec.gridPoint pr bf N q.2) (fun q => Spec.gridPoint pr bf N q.1) I pr = _ at h2 h2'
  rw [hE] at h2 h2'
  cases h2
  cases h2'
  obtain ⟨C, c1, c2⟩ := C24_value pr sr l L (fun q : Fin N × Fin N => Spec.gridPoint pr bf N q.2)
    fun q => Spec.gridPoint pr bf N q.1
  obtain ⟨C', c1', c2'⟩ := C24_value pr sr' l' L' (fun q : Fin N × Fin N => Spec.gridPoint pr bf N q.2)
    fun q => Spec.gridPoint pr bf N q.1
  have k1 : Except.ok C = (Except.ok B : Py _) := c1.symm.trans h1
  have k1' : Except.ok C' = (Except.ok B' : Py _) := c1'.symm.trans h1'
  cases k1
  cases k1'
  rw [← Fintype.sum_prod_type (f := fun q => |a q - a' q|), ← Finset.sum_add_sum_compl S]
  have z : ∑ q ∈ Sᶜ, |a q - a' q| = 0 := Finset.sum_eq_zero fun q hq => by
    rw [Finset.mem_compl, hS, not_not] at hq
    rw [h5, h5']
    by_cases hv : Spec.visible pr sr l L (Spec.gridPoint pr bf N q.2) (Spec.gridPoint pr bf N q.1)
    · rw [(c2 q).1 hv, (c2' q).1 (hq.1 hv)]; simp
    · rw [(c2 q).2 hv, (c2' q).2 fun h => hv (hq.2 h)]; simp
  rw [z, add_zero]
  refine sum_congr rfl fun q hq => ?_
  rw [hS] at hq
  rw [h5, h5']
  by_cases hv : Spec.visible pr sr l L (Spec.gridPoint pr bf N q.2) (Spec.gridPoint pr bf N q.1)
  · have hv' : ¬Spec.visible pr sr' l' L' (Spec.gridPoint pr bf N q.2) (Spec.gridPoint pr bf N q.1) := fun h =>
      hq ⟨fun _ => h, fun _ => hv⟩
    rw [(c2 q).1 hv, (c2' q).2 hv', one_mul, zero_mul, sub_zero]
  · have hv' : Spec.visible pr sr' l' L' (Spec.gridPoint pr bf N q.2) (Spec.gridPoint pr bf N q.1) := by
      by_contra h
      exact hq ⟨fun h' => absurd h' hv, fun h' => absurd h' h⟩
    rw [(c2 q).2 hv, (c2' q).1 hv', one_mul, zero_mul, zero_sub, abs_neg]

theorem flat_parts (i c x0 y0 pr sr l L Fp F wavel bf : ℝ) (n : ℕ) (B Ea : Fin N × Fin N → ℝ)
    (hB : blockManual pr sr l L (fun q => Spec.gridPoint pr bf N q.2) (fun q => Spec.gridPoint pr bf N q.1) = .ok B)
    (hE : illumGauss (fun q => Spec.gridPoint pr bf N q.2) (fun q => Spec.gridPoint pr bf N q.1) [i, c, x0, y0] pr = .ok Ea) :
    ∃ phi, (∀ q, phi q = 0) ∧ Spec.Parts [i, c, x0, y0] (List.replicate ((n + 1) * (n + 2) / 2) 0) 0 wavel illumGauss
      (manualTel pr sr l L Fp F) bf (fun q => B q * Ea q) phi := by
  have hW := wavefront_ok (fun q : Fin N × Fin N => Real.sqrt (Spec.gridPoint pr bf N q.2 ^ 2 +
        Spec.gridPoint pr bf N q.1 ^ 2) / pr)
      (fun q => arctan2 (Spec.gridPoint pr bf N q.1) (Spec.gridPoint pr bf N q.2))
      (List.replicate ((n + 1) * (n + 2) / 2) 0) n (by simp [tri])
  refine ⟨_, fun q => ?_, B, _, _, Ea, hB, hE, rfl, hW, fun _ => rfl, fun _ => rfl⟩
  have : ∀ k : ℕ, (List.replicate ((n + 1) * (n + 2) / 2) (0 : ℝ)).getD k 0 = 0 := by
    intro k
    by_cases hk : k < (n + 1) * (n + 2) / 2
    · simp [List.getD_eq_getElem?_getD, List.getElem?_replicate, hk]
    · simp [List.getD_eq_getElem?_getD, List.getElem?_replicate, hk]
  simp only [wfVal, this]
  simp [opdAt]

/-- **C146.**  A telescope of manual geometry, in focus and without aberrations, and one with a larger sub-reflector or
larger legs: the power on the axis falls by the square of the part of the field in the pixels that only the first sees. -/
theorem C146_gauss (i c x0 y0 pr sr l L sr' l' L' Fp F wavel bf : ℝ) (n N : ℕ) (hi : 0 < i)
    (h0 : 0 ≤ sr) (hsr : sr ≤ sr') (hl : l ≤ l') (hL : sr + L ≤ sr' + L') (P P' : Pattern N)
    (h : radiationPattern [i, c, x0, y0] (List.replicate ((n + 1) * (n + 2) / 2) 0) 0 wavel illumGauss
      (manualTel pr sr l L Fp F) bf = .ok P)
    (h' : radiationPattern [i, c, x0, y0] (List.replicate ((n + 1) * (n + 2) / 2) 0) 0 wavel illumGauss
      (manualTel pr sr' l' L' Fp F) bf = .ok P') (Ea : Fin N × Fin N → ℝ)
    (hE : illumGauss (fun q => Spec.gridPoint pr bf N q.2) (fun q => Spec.gridPoint pr bf N q.1) [i, c, x0, y0] pr = .ok Ea)
    (V V' : Finset (Fin N × Fin N))
    (hV : ∀ q, q ∈ V ↔ Spec.visible pr sr l L (Spec.gridPoint pr bf N q.2) (Spec.gridPoint pr bf N q.1))
    (hV' : ∀ q, q ∈ V' ↔ Spec.visible pr sr' l' L' (Spec.gridPoint pr bf N q.2) (Spec.gridPoint pr bf N q.1))
    (hne : V.Nonempty) (m : Fin N) (hm : (m : ℕ) = N / 2) :
    V' ⊆ V ∧ 0 < ∑ q ∈ V, Ea q ∧
      ‖P'.F (m, m)‖ ^ 2 = (1 - (∑ q ∈ V \ V', Ea q) / ∑ q ∈ V, Ea q) ^ 2 * ‖P.F (m, m)‖ ^ 2 := by
  have hE0 : ∀ q, 0 < Ea q := by
    intro q
    simp only [illumGauss] at hE
    cases hE
    simp only [gaussAt]
    have hs := taper_pos (QNum.bare c)
    have := Real.pi_pos
    exact mul_pos (mul_pos hi (Real.sqrt_pos.2 (by positivity))) (Real.exp_pos _)
  obtain ⟨B, b1, b2⟩ := C24_value pr sr l L (fun q : Fin N × Fin N => Spec.gridPoint pr bf N q.2)
    fun q => Spec.gridPoint pr bf N q.1
  obtain ⟨B', b1', b2'⟩ := C24_value pr sr' l' L' (fun q : Fin N × Fin N => Spec.gridPoint pr bf N q.2)
    fun q => Spec.gridPoint pr bf N q.1
  obtain ⟨phi, hphi, hp⟩ := flat_parts i c x0 y0 pr sr l L Fp F wavel bf n B Ea b1 hE
  obtain ⟨phi', -, hp'⟩ := flat_parts i c x0 y0 pr sr' l' L' Fp F wavel bf n B' Ea b1' hE
  have hin : ∀ q ∈ V, B q = 1 := fun q hq => (b2 q).1 ((hV q).1 hq)
  have hout : ∀ q ∉ V, B q = 0 := fun q hq => (b2 q).2 fun hv => hq ((hV q).2 hv)
  have hin' : ∀ q ∈ V', B' q = 1 := fun q hq => (b2' q).1 ((hV' q).1 hq)
  have hout' : ∀ q ∉ V', B' q = 0 := fun q hq => (b2' q).2 fun hv => hq ((hV' q).2 hv)
  have hsub : V' ⊆ V := fun q hq => by
    obtain ⟨v1, v2, v3, v4⟩ := (hV' q).1 hq
    exact (hV q).2 ⟨by nlinarith, v2, fun hh => v3 ⟨by linarith [hh.1], by linarith [hh.2]⟩,
      fun hh => v4 ⟨by linarith [hh.1], by linarith [hh.2]⟩⟩
  have hBn : ∀ q, 0 ≤ B q := fun q => by
    by_cases hq : q ∈ V
    · rw [hin q hq]; norm_num
    · rw [hout q hq]
  have hsum : ∑ q, B q * Ea q = ∑ q ∈ V, Ea q := by
    rw [← Finset.sum_subset (Finset.subset_univ V) fun q _ hq => by rw [hout q hq, zero_mul]]
    exact sum_congr rfl fun q hq => by rw [hin q hq, one_mul]
  have hpos : 0 < ∑ q ∈ V, Ea q := Finset.sum_pos (fun q _ => hE0 q) hne
  refine ⟨hsub, hpos, ?_⟩
  have := C146_axis _ _ 0 wavel illumGauss (manualTel pr sr l L Fp F) (blockManual pr sr' l' L') bf P P'
    (fun q => B q * Ea q) (fun q => B' q * Ea q) phi phi' h h' hp hp' 0 (fun q _ => hphi q) V'ᶜ
    (fun q hq => by rw [hout' q (Finset.mem_compl.1 hq), zero_mul])
    (fun q hq => by
      rw [Finset.mem_compl, not_not] at hq
      rw [hin' q hq, hin q (hsub hq)])
    (fun q => mul_nonneg (hBn q) (hE0 q).le) (by rw [hsum]; exact hpos) m hm
  rw [this, hsum]
  have e2 : ∑ q ∈ V'ᶜ, B q * Ea q = ∑ q ∈ V \ V', Ea q := by
    rw [← Finset.sum_subset (s₁ := V \ V') (s₂ := V'ᶜ) (fun q hq => by
        rw [Finset.mem_sdiff] at hq
        exact Finset.mem_compl.2 hq.2) fun q hq hq' => by
      have : q ∉ V := fun hv => hq' (Finset.mem_sdiff.2 ⟨hv, Finset.mem_compl.1 hq⟩)
      rw [hout q this, zero_mul]]
    exact sum_congr rfl fun q hq => by rw [hin q (Finset.mem_sdiff.1 hq).1, one_mul]
  rw [e2]

/-! ## The Effelsberg values, with a sub-reflector of 3.25 m and one of 10 m -/

theorem shadow_pattern (sr : ℝ) (n : ℕ) (K : List ℝ) (hK : K.length = tri (n + 1)) (dz : ℝ) : ∃ P : Pattern 256,
    radiationPattern [1, -14, 0, 0] K dz 0.009 illumGauss (manualTel 50 sr 1 20 30 387.39435) 5 = .ok P := by
  rw [C14_ok_iff _ _ _ _ _ (by norm_num)]
  exact ⟨_, aperture_ok_iff.2 ⟨_, _, _, _, rfl, wavefront_ok _ _ _ n hK, rfl, rfl, rfl⟩⟩

/-- A beam with aberrations out of focus: the field differs by at most the illumination of the pixels between the circles. -/
example : ∃ P P' : Pattern 256,
    radiationPattern [1, -14, 0, 0] [0, 0.1, 0.2] 0.022 0.009 illumGauss (manualTel 50 3.25 1 20 30 387.39435) 5 = .ok P ∧
    radiationPattern [1, -14, 0, 0] [0, 0.1, 0.2] 0.022 0.009 illumGauss (manualTel 50 10 1 20 30 387.39435) 5 = .ok P' ∧
    ∃ (Ea : Fin 256 × Fin 256 → ℝ) (S : Finset (Fin 256 × Fin 256)), illumGauss (fun q => Spec.gridPoint 50 5 256 q.2)
      (fun q => Spec.gridPoint 50 5 256 q.1) [1, -14, 0, 0] 50 = .ok Ea ∧ (136, 130) ∉ S ∧ (131, 131) ∈ S ∧
      ∀ q, ‖P.F q - P'.F q‖ ≤ ∑ q ∈ S, |Ea q| := by
  classical
  obtain ⟨P, h⟩ := shadow_pattern 3.25 1 [0, 0.1, 0.2] rfl 0.022
  obtain ⟨P', h'⟩ := shadow_pattern 10 1 [0, 0.1, 0.2] rfl 0.022
  obtain ⟨a, phi, hp⟩ := C70_parts _ _ _ _ _ _ _ _ _ h
  obtain ⟨a', phi', hp'⟩ := C70_parts _ _ _ _ _ _ _ _ _ h'
  obtain ⟨Ea, hE⟩ : ∃ Ea : Fin 256 × Fin 256 → ℝ, illumGauss (fun q => Spec.gridPoint 50 5 256 q.2)
      (fun q => Spec.gridPoint 50 5 256 q.1) [1, -14, 0, 0] 50 = .ok Ea := ⟨_, rfl⟩
  refine ⟨P, P', h, h', Ea, Finset.univ.filter fun q => ¬(Spec.visible 50 3.25 1 20 (Spec.gridPoint 50 5 256 q.2)
    (Spec.gridPoint 50 5 256 q.1) ↔ Spec.visible 50 10 1 20 (Spec.gridPoint 50 5 256 q.2) (Spec.gridPoint 50 5 256 q.1)),
    hE, ?_, ?_, fun q => ?_⟩
  rotate_left 2
  · rw [← C146_manual 50 3.25 1 20 10 1 20 30 387.39435 5 [1, -14, 0, 0] [0, 0.1, 0.2] 0.022 0.009 illumGauss a a' phi phi'
      Ea hp hp' hE _ fun q => by simp]
    exact (C146_field [1, -14, 0, 0] [1, -14, 0, 0] [0, 0.1, 0.2] 0.022 0.009 illumGauss illumGauss
      (manualTel 50 3.25 1 20 30 387.39435) (blockManual 50 10 1 20) 5 P P' a a' phi phi' h h' hp hp').1 q
  · have e1 : (((136 : Fin 256) : ℕ) : ℝ) = 136 := by norm_num
    have e2 : (((130 : Fin 256) : ℕ) : ℝ) = 130 := by norm_num
    rw [Finset.mem_filter]
    norm_num [Spec.visible, Spec.gridPoint, e1, e2, abs_of_pos]
  · have e1 : (((131 : Fin 256) : ℕ) : ℝ) = 131 := by norm_num
    rw [Finset.mem_filter]
    norm_num [Spec.visible, Spec.gridPoint, e1, abs_of_pos]

theorem visible_set (pr sr l L bf : ℝ) : ∃ V : Finset (Fin N × Fin N), ∀ q, q ∈ V ↔
    Spec.visible pr sr l L (Spec.gridPoint pr bf N q.2) (Spec.gridPoint pr bf N q.1) := by
  classical
  exact ⟨Finset.univ.filter fun q => Spec.visible pr sr l L (Spec.gridPoint pr bf N q.2) (Spec.gridPoint pr bf N q.1),
    fun q => by simp⟩

/-- Babinet: the field of the blocked dish is that of the open one less that of the shadow alone. -/
example : ∃ P P' P'' : Pattern 256,
    radiationPattern [1, -14, 0, 0] [0, 0.1, 0.2] 0.022 0.009 illumGauss (manualTel 50 0 1 20 30 387.39435) 5 = .ok P ∧
    radiationPattern [1, -14, 0, 0] [0, 0.1, 0.2] 0.022 0.009 illumGauss
      ⟨fun x y => do
        let B ← blockManual 50 0 1 20 x y
        let B' ← blockManual 50 10 1 20 x y
        .ok fun q => B q - B' q, opdManual 30 387.39435, 50⟩ 5 = .ok P' ∧
    radiationPattern [1, -14, 0, 0] [0, 0.1, 0.2] 0.022 0.009 illumGauss (manualTel 50 10 1 20 30 387.39435) 5 = .ok P'' ∧
    ∀ q, P''.F q = P.F q - P'.F q := by
  obtain ⟨P, h⟩ := shadow_pattern 0 1 [0, 0.1, 0.2] rfl 0.022
  obtain ⟨P'', h''⟩ := shadow_pattern 10 1 [0, 0.1, 0.2] rfl 0.022
  obtain ⟨P', h'⟩ : ∃ P' : Pattern 256, radiationPattern [1, -14, 0, 0] [0, 0.1, 0.2] 0.022 0.009 illumGauss
      ⟨fun x y => do
        let B ← blockManual 50 0 1 20 x y
        let B' ← blockManual 50 10 1 20 x y
        .ok fun q => B q - B' q, opdManual 30 387.39435, 50⟩ 5 = .ok P' := by
    rw [C14_ok_iff _ _ _ _ _ (by norm_num)]
    exact ⟨_, aperture_ok_iff.2 ⟨_, _, _, _, rfl, wavefront_ok _ _ _ 1 rfl, rfl, rfl, rfl⟩⟩
  refine ⟨P, P', P'', h, h', h'', ?_⟩
  obtain ⟨a, phi, hp⟩ := C70_parts _ _ _ _ _ _ _ _ _ h
  obtain ⟨a', phi', hp'⟩ := C70_parts _ _ _ _ _ _ _ _ _ h'
  obtain ⟨a'', phi'', hp''⟩ := C70_parts _ _ _ _ _ _ _ _ _ h''
  have hsum : ∀ q, a'' q = 1 * a q + -1 * a' q := by
    obtain ⟨B, -, -, E, h1, h2, -, -, h5, -⟩ := hp
    obtain ⟨B1, -, -, E1, k1, k2, -, -, k5, -⟩ := hp'
    obtain ⟨B2, -, -, E2, l1, l2, -, -, l5, -⟩ := hp''
    have eE : E1 = E := Except.ok.inj (k2.symm.trans h2)
    have eE' : E2 = E := Except.ok.inj (l2.symm.trans h2)
    have eB : B1 = fun q => B q - B2 q := by
      simp only [manualTel] at h1 k1 l1
      rw [h1, l1] at k1
      exact (Except.ok.inj k1).symm
    intro q
    rw [h5, k5, l5, eE, eE', eB]
    ring
  intro q
  rw [(C146_superposition [1, -14, 0, 0] [1, -14, 0, 0] [1, -14, 0, 0] [0, 0.1, 0.2] 0.022 0.009 illumGauss illumGauss
    illumGauss (manualTel 50 0 1 20 30 387.39435) _ (blockManual 50 10 1 20) 5 P P' P'' a a' a'' phi phi' phi'' h h' h''
    hp hp' hp'' 1 (-1) hsum).2.2 q]
  push_cast
  ring

/-- A residual with a sub-reflector taken as 10 m instead of 3.25 m. -/
example (d : Fin 3 × Fin M → Fl) (u v : Fin 3 × Fin M → ℝ) (r r' : List ℝ) (b : Fin M → ℝ)
    (hb : Spec.Sampled [1, -14, 2, 0, 0, 0, 0.1, 0.2] u v ![-0.022, 0, 0.022] 0.009 illumGauss
      (manualTel 50 3.25 1 20 30 387.39435) 5 (N := 256) 1 b)
    (h : residualTrue [1, -14, 2, 0, 0, 0, 0.1, 0.2] d u v ![-0.022, 0, 0.022] 0.009 illumGauss
      (manualTel 50 3.25 1 20 30 387.39435) 5 (N := 256) = .ok r)
    (h' : residualTrue [1, -14, 2, 0, 0, 0, 0.1, 0.2] d u v ![-0.022, 0, 0.022] 0.009 illumGauss
      (manualTel 50 10 1 20 30 387.39435) 5 (N := 256) = .ok r')
    (k : Fin M) (x x' : ℝ) (hx : r[M + k]? = some x) (hx' : r'[M + k]? = some x') (s t : Fin M) :
    ∃ a a' : Fin 256 × Fin 256 → ℝ, |x - x'| * (b t - b s) ≤
      2 * ((∑ i, ∑ j, |a (i, j)| + ∑ i, ∑ j, |a' (i, j)|) * ∑ i, ∑ j, |a (i, j) - a' (i, j)|) := by
  have ⟨P, e1, _⟩ := hb
  obtain ⟨-, -, -, hl⟩ := residual_layout _ _ _ _ _ _ _ _ _ r' h'
  obtain ⟨b', -, -, c1, -⟩ := hl 1
  obtain ⟨P', f1, -⟩ := modelRow_ok.1 c1
  obtain ⟨a, phi, hp⟩ := C70_parts _ _ _ _ _ _ _ _ _ e1
  obtain ⟨a', phi', hp'⟩ := C70_parts _ _ _ _ _ _ _ _ _ f1
  exact ⟨a, a', C146_residual [1, -14, 2, 0, 0] [1, -14, 2, 0, 0] [0, 0.1, 0.2] rfl rfl d u v ![-0.022, 0, 0.022] 0.009
    illumGauss illumGauss (manualTel 50 3.25 1 20 30 387.39435) (blockManual 50 10 1 20) 5 1 a a' phi phi' hp hp' b hb r r'
    h h' k x x' (by simpa using hx) (by simpa using hx') s t⟩

/-- In focus and without aberrations: the power on the axis falls by the square of the part of the field that is lost. -/
example (m : Fin 256) (hm : (m : ℕ) = 256 / 2) : ∃ (P P' : Pattern 256) (Ea : Fin 256 × Fin 256 → ℝ)
    (V V' : Finset (Fin 256 × Fin 256)),
    radiationPattern [1, -14, 0, 0] [0, 0, 0] 0 0.009 illumGauss (manualTel 50 3.25 1 20 30 387.39435) 5 = .ok P ∧
    radiationPattern [1, -14, 0, 0] [0, 0, 0] 0 0.009 illumGauss (manualTel 50 10 1 20 30 387.39435) 5 = .ok P' ∧
      0 < ∑ q ∈ V, Ea q ∧
      ‖P'.F (m, m)‖ ^ 2 = (1 - (∑ q ∈ V \ V', Ea q) / ∑ q ∈ V, Ea q) ^ 2 * ‖P.F (m, m)‖ ^ 2 := by
  classical
  obtain ⟨P, h⟩ := shadow_pattern 3.25 1 [0, 0, 0] rfl 0
  obtain ⟨P', h'⟩ := shadow_pattern 10 1 [0, 0, 0] rfl 0
  obtain ⟨Ea, hE⟩ : ∃ Ea : Fin 256 × Fin 256 → ℝ, illumGauss (fun q => Spec.gridPoint 50 5 256 q.2)
      (fun q => Spec.gridPoint 50 5 256 q.1) [1, -14, 0, 0] 50 = .ok Ea := ⟨_, rfl⟩
  obtain ⟨V, hV⟩ := visible_set (N := 256) 50 3.25 1 20 5
  obtain ⟨V', hV'⟩ := visible_set (N := 256) 50 10 1 20 5
  have hne : V.Nonempty := by
    refine ⟨(136, 136), (hV _).2 ?_⟩
    have e1 : (((136 : Fin 256) : ℕ) : ℝ) = 136 := by norm_num
    norm_num [Spec.visible, Spec.gridPoint, e1, abs_of_pos]
  exact ⟨P, P', Ea, V, V', h, h', (C146_gauss 1 (-14) 0 0 50 3.25 1 20 10 1 20 30 387.39435 0.009 5 1 256 (by norm_num)
    (by norm_num) (by norm_num) le_rfl (by norm_num) P P' h h' Ea hE V V' hV hV' hne m hm).2⟩

end Verif.Props
