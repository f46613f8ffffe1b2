import Verif.Lemmas.ZernikeSpan
import Verif.Props.Stability
import Verif.Props.MathFn
import Mathlib.Topology.ContinuousMap.StoneWeierstrass

/-! # C112: the coefficients describe every smooth surface -/

namespace Verif.Props

open Verif Verif.Np Verif.Zernike Verif.Aperture Verif.Fourier Verif.Telgeometry Finset

/-! ## Specification -/

/-- A polynomial in `x` and `y` of degree at most `n`. -/
def Spec.surface (n : ℕ) (c : ℕ → ℕ → ℝ) (x y : ℝ) : ℝ :=
  ∑ a ∈ range (n + 1), ∑ b ∈ range (n + 1 - a), c a b * x ^ a * y ^ b

/-- The telescope with a deformed surface: the deformation `f`, a function of the place in units of the radius, makes
the path longer by `f` wavelengths. -/
noncomputable def Spec.deformed {ι : Type} (tel : TelGeo ι) (f : ℝ → ℝ → ℝ) (wavel : ℝ) : TelGeo ι :=
  { tel with opd := fun x y dz => (tel.opd x y dz).map fun d q => d q + wavel * f (x q / tel.pr) (y q / tel.pr) }

/-- The unit disc. -/
def Spec.InUnitDisc (x y : ℝ) : Prop := x ^ 2 + y ^ 2 ≤ 1

/-! ## Polynomials -/

theorem surface_mem (n : ℕ) (c : ℕ → ℕ → ℝ) : (fun p : ℝ × ℝ => Spec.surface n c p.1 p.2) ∈ polyBelow n := by
  have e : (fun p : ℝ × ℝ => Spec.surface n c p.1 p.2) =
      ∑ a ∈ range (n + 1), ∑ b ∈ range (n + 1 - a), c a b • monom a b := by
    funext p
    simp only [Finset.sum_apply, Pi.smul_apply, smul_eq_mul, monom, Spec.surface, mul_assoc]
  rw [e]
  refine Submodule.sum_mem _ fun a ha => Submodule.sum_mem _ fun b hb => Submodule.smul_mem _ _ (monom_mem ?_)
  rw [mem_range] at ha hb
  omega

theorem mem_surface {n : ℕ} {f : ℝ × ℝ → ℝ} (hf : f ∈ polyBelow n) :
    ∃ c, ∀ x y, f (x, y) = Spec.surface n c x y := by
  unfold polyBelow at hf
  induction hf using Submodule.span_induction with
  | mem f hf =>
    obtain ⟨a, b, hab, rfl⟩ := mem_monoms.1 (mem_coe.1 hf)
    refine ⟨fun a' b' => if a' = a ∧ b' = b then 1 else 0, fun x y => ?_⟩
    unfold Spec.surface
    rw [Finset.sum_eq_single a, Finset.sum_eq_single b]
    · simp [monom]
    · intro b' _ hb'
      simp [hb']
    · intro h
      rw [mem_range] at h
      omega
    · intro a' _ ha'
      refine Finset.sum_eq_zero fun b' _ => ?_
      simp [ha']
    · intro h
      rw [mem_range] at h
      omega
  | zero => exact ⟨fun _ _ => 0, fun x y => by simp [Spec.surface]⟩
  | add f g _ _ h1 h2 =>
    obtain ⟨c, hc⟩ := h1
    obtain ⟨d, hd⟩ := h2
    refine ⟨fun a b => c a b + d a b, fun x y => ?_⟩
    rw [Pi.add_apply, hc, hd]
    unfold Spec.surface
    simp only [← Finset.sum_add_distrib, add_mul]
  | smul t f _ h =>
    obtain ⟨c, hc⟩ := h
    refine ⟨fun a b => t * c a b, fun x y => ?_⟩
    rw [Pi.smul_apply, hc, smul_eq_mul]
    unfold Spec.surface
    simp only [Finset.mul_sum, mul_assoc]

theorem tri_len {n : ℕ} {K : List ℝ} (h : K.length = (n + 1) * (n + 2) / 2) : K.length = tri (n + 1) := h

/-- A wavefront as a polynomial. -/
theorem wfVal_poly (m : ℕ) (L : List ℝ) (hL : L.length = tri (m + 1)) : ∃ P ∈ polyBelow m,
    ∀ rho theta, wfVal m L rho theta = P (rho * Real.cos theta, rho * Real.sin theta) := by
  obtain ⟨P, h1, h2⟩ := wfVal_mem m
  refine ⟨P (fun i => L[i.1]'(by rw [hL]; exact i.2)), h1 _, fun rho theta => ?_⟩
  rw [← h2]
  congr 1
  apply List.ext_getElem
  · simp [hL]
  · intro i h3 h4
    simp

/-- **C112.**  Every polynomial surface of degree at most `n` is the wavefront of exactly one set of coefficients of
order `n`. -/
theorem C112_exact (n : ℕ) (c : ℕ → ℕ → ℝ) : ∃! K : List ℝ, K.length = (n + 1) * (n + 2) / 2 ∧
    ∀ (ι : Type) (rho theta : ι → ℝ), wavefront rho theta K =
      .ok fun q => Spec.surface n c (rho q * Real.cos (theta q)) (rho q * Real.sin (theta q)) := by
  obtain ⟨K, hK, h⟩ := exists_wfVal (surface_mem n c)
  refine ⟨K, ⟨hK, fun ι rho theta => ?_⟩, ?_⟩
  · rw [wavefront_ok rho theta K n hK]
    simp only [h]
  · rintro L ⟨hL, h'⟩
    refine C68_wavefront L K n hL (hK.trans hL.symm) ?_
    rw [h', wavefront_ok _ _ K n hK]
    simp only [h]

/-- **C112.**  And every wavefront of order `n` is such a surface. -/
theorem C112_converse (n : ℕ) (K : List ℝ) (hK : K.length = (n + 1) * (n + 2) / 2) :
    ∃ c, ∀ (ι : Type) (rho theta : ι → ℝ), wavefront rho theta K =
      .ok fun q => Spec.surface n c (rho q * Real.cos (theta q)) (rho q * Real.sin (theta q)) := by
  obtain ⟨P, hP, h⟩ := wfVal_poly n K hK
  obtain ⟨c, hc⟩ := mem_surface hP
  refine ⟨c, fun ι rho theta => ?_⟩
  rw [wavefront_ok rho theta K n hK]
  simp only [h, hc]

/-! ## The beam of a deformed telescope -/

theorem plane_cos (x y pr : ℝ) : (cart2pol x y).1 / pr * Real.cos (cart2pol x y).2 = x / pr := by
  have := (C29_polar x y).2.2.2.1
  rw [div_mul_eq_mul_div, this]

theorem plane_sin (x y pr : ℝ) : (cart2pol x y).1 / pr * Real.sin (cart2pol x y).2 = y / pr := by
  have := (C29_polar x y).2.2.2.2
  rw [div_mul_eq_mul_div, this]

theorem aperture_deformed {ι : Type} (x y : ι → ℝ) (I L K : List ℝ) (dz wavel : ℝ) (hw : wavel ≠ 0) (illum : Illum ι)
    (tel : TelGeo ι) (f : ℝ → ℝ → ℝ) (m n : ℕ) (hL : L.length = tri (m + 1)) (hK : K.length = tri (n + 1))
    (h : ∀ rho theta, wfVal n K rho theta =
      wfVal m L rho theta + f (rho * Real.cos theta) (rho * Real.sin theta)) :
    aperture x y I L dz wavel illum (Spec.deformed tel f wavel) = aperture x y I K dz wavel illum tel := by
  unfold aperture Spec.deformed
  simp only
  rw [wavefront_ok _ _ L m hL, wavefront_ok _ _ K n hK]
  cases tel.block x y with
  | error e => rfl
  | ok B =>
    cases tel.opd x y dz with
    | error e => rfl
    | ok d =>
      cases illum x y I tel.pr with
      | error e => rfl
      | ok Ea =>
        show Except.ok _ = Except.ok _
        congr 1
        funext q
        simp only [h, plane_cos, plane_sin]
        congr 4
        field_simp
        ring

theorem pattern_deformed (I L K : List ℝ) (dz wavel : ℝ) (hw : wavel ≠ 0) {N : ℕ} (illum : Illum (Fin N × Fin N))
    (tel : TelGeo (Fin N × Fin N)) (bf : ℝ) (f : ℝ → ℝ → ℝ) (m n : ℕ) (hL : L.length = tri (m + 1))
    (hK : K.length = tri (n + 1))
    (h : ∀ rho theta, wfVal n K rho theta =
      wfVal m L rho theta + f (rho * Real.cos theta) (rho * Real.sin theta)) :
    radiationPattern I L dz wavel illum (Spec.deformed tel f wavel) bf = radiationPattern I K dz wavel illum tel bf := by
  unfold radiationPattern
  simp only [aperture_deformed _ _ I L K dz wavel hw illum tel f m n hL hK h]
  rfl

/-- **C112.**  A polynomial deformation of degree at most `n` of the surface changes the beam exactly as some set of
coefficients does, the same one for every focus, wavelength, grid, illumination and geometry. -/
theorem C112_beam_exact (m n : ℕ) (hmn : m ≤ n) (L : List ℝ) (hL : L.length = (m + 1) * (m + 2) / 2)
    (c : ℕ → ℕ → ℝ) : ∃ K : List ℝ, K.length = (n + 1) * (n + 2) / 2 ∧
      ∀ (I : List ℝ) (dz wavel : ℝ) (N : ℕ) (illum : Illum (Fin N × Fin N)) (tel : TelGeo (Fin N × Fin N)) (bf : ℝ),
        wavel ≠ 0 → radiationPattern I L dz wavel illum (Spec.deformed tel (Spec.surface n c) wavel) bf =
          radiationPattern I K dz wavel illum tel bf := by
  obtain ⟨P, hP, hPL⟩ := wfVal_poly m L hL
  obtain ⟨K, hK, h⟩ := exists_wfVal ((polyBelow n).add_mem (polyBelow_mono hmn hP) (surface_mem n c))
  refine ⟨K, hK, fun I dz wavel N illum tel bf hw => ?_⟩
  refine pattern_deformed I L K dz wavel hw illum tel bf _ m n hL hK fun rho theta => ?_
  rw [h, hPL]
  rfl

/-! ## Surfaces that are no polynomials -/

/-- The closed unit disc as a space. -/
abbrev Disc := {p : ℝ × ℝ // p.1 ^ 2 + p.2 ^ 2 ≤ 1}

instance : CompactSpace Disc := by
  have hc : IsClosed {p : ℝ × ℝ | p.1 ^ 2 + p.2 ^ 2 ≤ 1} := isClosed_le (by fun_prop) continuous_const
  have hs : {p : ℝ × ℝ | p.1 ^ 2 + p.2 ^ 2 ≤ 1} ⊆ Set.Icc (-1) 1 ×ˢ Set.Icc (-1) 1 := by
    intro p hp
    have hp' : p.1 ^ 2 + p.2 ^ 2 ≤ 1 := hp
    have h1 : |p.1| ≤ 1 := by rw [← sq_le_one_iff_abs_le_one]; nlinarith [sq_nonneg p.2]
    have h2 : |p.2| ≤ 1 := by rw [← sq_le_one_iff_abs_le_one]; nlinarith [sq_nonneg p.1]
    exact ⟨abs_le.1 h1, abs_le.1 h2⟩
  have hk : IsCompact {p : ℝ × ℝ | p.1 ^ 2 + p.2 ^ 2 ≤ 1} := (isCompact_Icc.prod isCompact_Icc).of_isClosed_subset hc hs
  exact isCompact_iff_compactSpace.1 hk

/-- The polynomial functions on the disc. -/
def discPoly : Subalgebra ℝ C(Disc, ℝ) where
  carrier := {g | ∃ n, ∃ f ∈ polyBelow n, ∀ p : Disc, g p = f p.1}
  mul_mem' := by
    rintro g h ⟨n, f, hf, hg⟩ ⟨m, k, hk, hh⟩
    exact ⟨n + m, _, polyBelow_mul hf hk, fun p => by rw [ContinuousMap.mul_apply, hg, hh]⟩
  add_mem' := by
    rintro g h ⟨n, f, hf, hg⟩ ⟨m, k, hk, hh⟩
    refine ⟨max n m, f + k, (polyBelow _).add_mem (polyBelow_mono (le_max_left _ _) hf)
      (polyBelow_mono (le_max_right _ _) hk), fun p => by rw [ContinuousMap.add_apply, hg, hh]; rfl⟩
  algebraMap_mem' := fun r => ⟨0, _, polyBelow_const r 0, fun p => rfl⟩

theorem discPoly_separates : discPoly.SeparatesPoints := by
  intro p q hpq
  by_cases h : p.1.1 = q.1.1
  · refine ⟨fun p : Disc => p.1.2, ⟨⟨fun p : Disc => p.1.2, by fun_prop⟩, ⟨1, _, polyBelow_y, fun p => rfl⟩, rfl⟩, ?_⟩
    intro h'
    exact hpq (Subtype.ext (Prod.ext h h'))
  · exact ⟨fun p : Disc => p.1.1, ⟨⟨fun p : Disc => p.1.1, by fun_prop⟩, ⟨1, _, polyBelow_x, fun p => rfl⟩, rfl⟩, h⟩

theorem near_poly (f : ℝ → ℝ → ℝ) (hf : ContinuousOn (fun p : ℝ × ℝ => f p.1 p.2) {p | p.1 ^ 2 + p.2 ^ 2 ≤ 1})
    (ε : ℝ) (hε : 0 < ε) : ∃ n, ∃ g ∈ polyBelow n, ∀ x y, x ^ 2 + y ^ 2 ≤ 1 → |g (x, y) - f x y| ≤ ε := by
  obtain ⟨⟨g, n, k, hk, hg⟩, h⟩ := ContinuousMap.exists_mem_subalgebra_near_continuous_of_separatesPoints discPoly
    discPoly_separates (fun p : Disc => f p.1.1 p.1.2) (continuousOn_iff_continuous_domRestrict.1 hf) ε hε
  refine ⟨n, k, hk, fun x y hxy => ?_⟩
  have := h ⟨(x, y), hxy⟩
  rw [Real.norm_eq_abs] at this
  have e := hg ⟨(x, y), hxy⟩
  simp only at e
  rw [← e]
  exact this.le

/-- **C112.**  Every continuous surface is approached by wavefronts: from some order on there are coefficients of every
order whose wavefront is nowhere in the dish further than `ε` from it. -/
theorem C112_dense (f : ℝ → ℝ → ℝ) (hf : ContinuousOn (fun p : ℝ × ℝ => f p.1 p.2) {p | Spec.InUnitDisc p.1 p.2})
    (ε : ℝ) (hε : 0 < ε) : ∃ n₀, ∀ n ≥ n₀, ∃ K : List ℝ, K.length = (n + 1) * (n + 2) / 2 ∧
      ∀ (ι : Type) (rho theta : ι → ℝ), ∃ W, wavefront rho theta K = .ok W ∧
        ∀ q, |rho q| ≤ 1 → |W q - f (rho q * Real.cos (theta q)) (rho q * Real.sin (theta q))| ≤ ε := by
  obtain ⟨n₀, g, hg, h⟩ := near_poly f hf ε hε
  refine ⟨n₀, fun n hn => ?_⟩
  obtain ⟨K, hK, hw⟩ := exists_wfVal (polyBelow_mono hn hg)
  refine ⟨K, hK, fun ι rho theta => ⟨_, wavefront_ok rho theta K n hK, fun q hq => ?_⟩⟩
  rw [hw]
  refine h _ _ ?_
  rw [mul_pow, mul_pow, ← mul_add, Real.cos_sq_add_sin_sq, mul_one]
  exact (sq_le_one_iff_abs_le_one _).2 hq

/-- **C112.**  The phase maps, on every grid: with the coefficients of `C112_dense` for a map `f` of the phase in
radians every pixel of the dish is within `ε`. -/
theorem C112_map (f : ℝ → ℝ → ℝ) (hf : ContinuousOn (fun p : ℝ × ℝ => f p.1 p.2) {p | Spec.InUnitDisc p.1 p.2})
    (ε : ℝ) (hε : 0 < ε) : ∃ n₀, ∀ n ≥ n₀, ∃ K : List ℝ, K.length = (n + 1) * (n + 2) / 2 ∧
      ∀ (pr : ℝ) (N : ℕ), 0 < pr → ∃ M, phase K pr true true N = .ok M ∧
        ∀ i j, M.x j ^ 2 + M.y i ^ 2 ≤ pr ^ 2 → |M.phi (i, j) - f (M.x j / pr) (M.y i / pr)| ≤ ε := by
  obtain ⟨n₀, h⟩ := C112_dense (fun x y => f x y / (2 * Real.pi)) (hf.div_const _) (ε / (2 * Real.pi))
    (by have := Real.pi_pos; positivity)
  refine ⟨n₀, fun n hn => ?_⟩
  obtain ⟨K, hK, hw⟩ := h n hn
  refine ⟨K, hK, fun pr N hpr => ?_⟩
  obtain ⟨M, K', hM, hK', hu, hv⟩ := C10_phase K pr true true N n hK (by simp)
  have hKK : K' = K := by
    apply List.ext_getElem hK'
    intro i h1 h2
    have := hu i
    simp only [Spec.usedCoeff] at this
    simpa [List.getD_eq_getElem?_getD, h1, h2] using this
  subst hKK
  refine ⟨M, hM, fun i j hij => ?_⟩
  obtain ⟨w, hw1, hw2⟩ := (hv i j).2 hij
  obtain ⟨W, hW1, hW2⟩ := hw Unit (fun _ => Real.sqrt (M.x j ^ 2 + M.y i ^ 2) / pr) fun _ => arctan2 (M.y i) (M.x j)
  rw [hw1] at hW1
  cases hW1
  have hr : |Real.sqrt (M.x j ^ 2 + M.y i ^ 2) / pr| ≤ 1 := by
    rw [abs_of_nonneg (by positivity), div_le_one hpr]
    exact Real.sqrt_le_iff.2 ⟨hpr.le, hij⟩
  have h1 := hW2 () hr
  have e1 := plane_cos (M.x j) (M.y i) pr
  have e2 := plane_sin (M.x j) (M.y i) pr
  unfold cart2pol at e1 e2
  simp only at e1 e2
  rw [e1, e2] at h1
  have h2 : |2 * Real.pi * (w () - f (M.x j / pr) (M.y i / pr) / (2 * Real.pi))| ≤ ε := by
    rw [abs_mul, abs_of_pos (by have := Real.pi_pos; positivity : (0 : ℝ) < 2 * Real.pi)]
    have hp : (0 : ℝ) < 2 * Real.pi := by have := Real.pi_pos; positivity
    calc 2 * Real.pi * |w () - f (M.x j / pr) (M.y i / pr) / (2 * Real.pi)|
        ≤ 2 * Real.pi * (ε / (2 * Real.pi)) := mul_le_mul_of_nonneg_left h1 hp.le
      _ = ε := by field_simp
  rw [hw2]
  have e : 2 * Real.pi * (w () - f (M.x j / pr) (M.y i / pr) / (2 * Real.pi)) =
      2 * Real.pi * w () - f (M.x j / pr) (M.y i / pr) := by
    have := Real.pi_pos
    field_simp
  rwa [e] at h2

/-- **C112.**  The beam of a telescope with any continuous deformation of the surface: from some order on there are
coefficients of every order that give the beam of the deformed telescope within `2π ε` times the sum of the amplitudes, the
same ones for every focus, wavelength, grid, illumination and geometry that is dark outside the dish. -/
theorem C112_beam (f : ℝ → ℝ → ℝ) (hf : ContinuousOn (fun p : ℝ × ℝ => f p.1 p.2) {p | Spec.InUnitDisc p.1 p.2})
    (m : ℕ) (L : List ℝ) (hL : L.length = (m + 1) * (m + 2) / 2) (ε : ℝ) (hε : 0 < ε) :
    ∃ n₀, ∀ n ≥ n₀, ∃ K : List ℝ, K.length = (n + 1) * (n + 2) / 2 ∧
      ∀ (I : List ℝ) (dz wavel : ℝ) (N : ℕ) (illum : Illum (Fin N × Fin N)) (tel : TelGeo (Fin N × Fin N)) (bf : ℝ)
        (P P' : Pattern N) (a phi : Fin N × Fin N → ℝ), 0 < tel.pr → wavel ≠ 0 →
        radiationPattern I L dz wavel illum (Spec.deformed tel f wavel) bf = .ok P →
        radiationPattern I K dz wavel illum tel bf = .ok P' →
        Spec.Parts I K dz wavel illum tel bf a phi →
        (∀ q, tel.pr ^ 2 < Spec.gridPoint tel.pr bf N q.2 ^ 2 + Spec.gridPoint tel.pr bf N q.1 ^ 2 → a q = 0) →
        ∀ q, ‖P.F q - P'.F q‖ ≤ 2 * Real.pi * ε * ∑ i, ∑ j, |a (i, j)| := by
  obtain ⟨n₀, g, hg, hnear⟩ := near_poly f hf ε hε
  obtain ⟨PL, hPL, hL'⟩ := wfVal_poly m L hL
  refine ⟨max m n₀, fun n hn => ?_⟩
  obtain ⟨K, hK, hw⟩ := exists_wfVal ((polyBelow n).add_mem (polyBelow_mono ((le_max_left _ _).trans hn) hPL)
    (polyBelow_mono ((le_max_right _ _).trans hn) hg))
  refine ⟨K, hK, fun I dz wavel N illum tel bf P P' a phi hpr hwl h h' hp hdark q => ?_⟩
  obtain ⟨a', phi', hp'⟩ := C70_parts _ _ _ _ _ _ _ _ _ h
  have ha : a' = a := by
    obtain ⟨B, W, d, Ea, h1, h2, -, -, h3, -⟩ := hp
    obtain ⟨B', W', d', Ea', h1', h2', -, -, h3', -⟩ := hp'
    have e1 : Except.ok B' = Except.ok B := h1'.symm.trans h1
    have e2 : Except.ok Ea' = Except.ok Ea := h2'.symm.trans h2
    cases e1
    cases e2
    funext q
    rw [h3, h3']
  subst ha
  rw [parts_of_pattern h hp', parts_of_pattern h' hp, shifted_eq, shifted_eq, ← Finset.sum_sub_distrib, Finset.mul_sum]
  refine (norm_sum_le _ _).trans (sum_le_sum fun i _ => ?_)
  rw [← Finset.sum_sub_distrib, Finset.mul_sum]
  refine (norm_sum_le _ _).trans (sum_le_sum fun j _ => ?_)
  rw [← sub_mul, norm_mul, ew_norm, mul_one, ← mul_sub, norm_mul, Complex.norm_real, Real.norm_eq_abs, mul_comm]
  by_cases hin : tel.pr ^ 2 < Spec.gridPoint tel.pr bf N j ^ 2 + Spec.gridPoint tel.pr bf N i ^ 2
  · rw [hdark (i, j) hin]; simp
  · refine mul_le_mul_of_nonneg_right ((exp_lipschitz _ _).trans ?_) (abs_nonneg _)
    obtain ⟨B, W, d, Ea, -, -, h3, h4, -, h6⟩ := hp
    obtain ⟨B', W', d', Ea', -, -, h3', h4', -, h6'⟩ := hp'
    rw [wavefront_ok _ _ K n hK] at h4
    rw [wavefront_ok _ _ L m hL] at h4'
    cases h4
    cases h4'
    have e3 : Except.ok d' = Except.map (fun d q => d q + wavel * f (Spec.gridPoint tel.pr bf N q.2 / tel.pr)
        (Spec.gridPoint tel.pr bf N q.1 / tel.pr)) (tel.opd (fun q => Spec.gridPoint tel.pr bf N q.2)
          (fun q => Spec.gridPoint tel.pr bf N q.1) dz) := h3'.symm
    rw [h3] at e3
    have e4 := Except.ok.inj e3
    subst e4
    set x := Spec.gridPoint tel.pr bf N j with hx
    set y := Spec.gridPoint tel.pr bf N i with hy
    have hpos : (0 : ℝ) < 2 * Real.pi := by have := Real.pi_pos; positivity
    have c1 := plane_cos x y tel.pr
    have c2 := plane_sin x y tel.pr
    unfold cart2pol at c1 c2
    simp only at c1 c2
    rw [h6, h6', ← mul_sub, abs_mul, abs_of_pos hpos]
    refine mul_le_mul_of_nonneg_left ?_ hpos.le
    simp only [hw, hL', Pi.add_apply]
    show |PL (Real.sqrt (x ^ 2 + y ^ 2) / tel.pr * Real.cos (arctan2 y x), Real.sqrt (x ^ 2 + y ^ 2) / tel.pr * Real.sin (arctan2 y x))
      + (d (i, j) + wavel * f (x / tel.pr) (y / tel.pr)) / wavel
      - (PL (Real.sqrt (x ^ 2 + y ^ 2) / tel.pr * Real.cos (arctan2 y x), Real.sqrt (x ^ 2 + y ^ 2) / tel.pr * Real.sin (arctan2 y x))
      + g (Real.sqrt (x ^ 2 + y ^ 2) / tel.pr * Real.cos (arctan2 y x), Real.sqrt (x ^ 2 + y ^ 2) / tel.pr * Real.sin (arctan2 y x))
      + d (i, j) / wavel)| ≤ ε
    rw [c1, c2]
    have e5 : PL (x / tel.pr, y / tel.pr) + (d (i, j) + wavel * f (x / tel.pr) (y / tel.pr)) / wavel
        - (PL (x / tel.pr, y / tel.pr) + g (x / tel.pr, y / tel.pr) + d (i, j) / wavel) =
        -(g (x / tel.pr, y / tel.pr) - f (x / tel.pr) (y / tel.pr)) := by
      field_simp
      ring
    rw [e5, abs_neg]
    refine hnear _ _ ?_
    rw [div_pow, div_pow, ← add_div, div_le_one (by positivity)]
    exact not_lt.1 hin

/-- **C112.**  Continuity is needed: no coefficients of any order come nearer than half its height to a step, as between two
panels that are not level. -/
theorem C112_step (height : ℝ) (n : ℕ) (K : List ℝ) (hK : K.length = (n + 1) * (n + 2) / 2)
    (δ : ℝ) (hδ : 0 < δ) : ∃ rho theta W, 0 ≤ rho ∧ rho ≤ 1 ∧
      wavefront (fun _ : Unit => rho) (fun _ => theta) K = .ok W ∧
      (|height| - δ) / 2 ≤ |W () - if 0 < rho * Real.cos theta then height else 0| := by
  have hc : Continuous fun r : ℝ => wfVal n K r 0 := by
    unfold wfVal
    refine continuous_finset_sum _ fun i _ => continuous_finset_sum _ fun k hk => continuous_const.mul ?_
    have hk' : k ≤ i := by rw [mem_range] at hk; omega
    have h := (Uv_continuous i k hk').comp (show Continuous fun r : ℝ => (r, (0 : ℝ)) by fun_prop)
    simpa only [Function.comp_def] using h
  obtain ⟨η, hη, h⟩ := Metric.continuous_iff.1 hc 0 δ hδ
  set r := min (η / 2) 1 with hr
  have hr0 : 0 < r := lt_min (by linarith) one_pos
  have hd := h r (by rw [Real.dist_eq, sub_zero, abs_of_pos hr0]; exact (min_le_left _ _).trans_lt (by linarith))
  rw [Real.dist_eq] at hd
  by_cases hz : (|height| - δ) / 2 ≤ |wfVal n K 0 0|
  · refine ⟨0, 0, _, le_rfl, zero_le_one, wavefront_ok _ _ K n hK, ?_⟩
    simpa using hz
  · refine ⟨r, 0, _, hr0.le, min_le_right _ _, wavefront_ok _ _ K n hK, ?_⟩
    simp only [Real.cos_zero, mul_one, if_pos hr0]
    rw [not_le] at hz
    have h1 : |height| ≤ |wfVal n K r 0 - height| + |wfVal n K r 0 - wfVal n K 0 0| + |wfVal n K 0 0| := by
      have e : height = -(wfVal n K r 0 - height) + (wfVal n K r 0 - wfVal n K 0 0) + wfVal n K 0 0 := by ring
      calc |height| = |-(wfVal n K r 0 - height) + (wfVal n K r 0 - wfVal n K 0 0) + wfVal n K 0 0| := by rw [← e]
        _ ≤ |-(wfVal n K r 0 - height) + (wfVal n K r 0 - wfVal n K 0 0)| + |wfVal n K 0 0| := abs_add_le _ _
        _ ≤ |-(wfVal n K r 0 - height)| + |wfVal n K r 0 - wfVal n K 0 0| + |wfVal n K 0 0| := by
            linarith [abs_add_le (-(wfVal n K r 0 - height)) (wfVal n K r 0 - wfVal n K 0 0)]
        _ = _ := by rw [abs_neg]
    linarith

/-! ## Cases -/

/-- The saddle `x y` has one set of coefficients of order 2. -/
example : ∃! K : List ℝ, K.length = 6 ∧ ∀ (ι : Type) (rho theta : ι → ℝ), wavefront rho theta K =
    .ok fun q => (rho q * Real.cos (theta q)) * (rho q * Real.sin (theta q)) := by
  have h := C112_exact 2 fun a b => if a = 1 ∧ b = 1 then 1 else 0
  simpa [Spec.surface, Finset.sum_range_succ] using h

/-- A dent like `exp(-|x|)`, continuous but not smooth, is approached. -/
example : ∃ n₀, ∀ n ≥ n₀, ∃ K : List ℝ, K.length = (n + 1) * (n + 2) / 2 ∧
    ∀ (ι : Type) (rho theta : ι → ℝ), ∃ W, wavefront rho theta K = .ok W ∧
      ∀ q, |rho q| ≤ 1 → |W q - Real.exp (-|rho q * Real.cos (theta q)|)| ≤ 0.01 :=
  C112_dense (fun x _ => Real.exp (-|x|)) (Continuous.continuousOn (by fun_prop)) 0.01 (by norm_num)

/-- A telescope with such a dent and the beam of coefficients for it. -/
example : ∃ n₀, ∀ n ≥ n₀, ∃ K : List ℝ, K.length = (n + 1) * (n + 2) / 2 ∧
    ∀ (P P' : Pattern 256) (a phi : Fin 256 × Fin 256 → ℝ),
      radiationPattern [1, -14, 2, 0, 0] [0, 0.1, 0.2] 0.022 0.009 illumGauss
        (Spec.deformed (manualTel 50 3.25 1 20 30 387.39435) (fun x _ => Real.exp (-|x|)) 0.009) 5 = .ok P →
      radiationPattern [1, -14, 2, 0, 0] K 0.022 0.009 illumGauss (manualTel 50 3.25 1 20 30 387.39435) 5 = .ok P' →
      Spec.Parts [1, -14, 2, 0, 0] K 0.022 0.009 illumGauss (manualTel 50 3.25 1 20 30 387.39435) 5 a phi →
      ∀ q, ‖P.F q - P'.F q‖ ≤ 2 * Real.pi * 0.01 * ∑ i, ∑ j, |a (i, j)| := by
  obtain ⟨n₀, h⟩ := C112_beam (fun x _ => Real.exp (-|x|)) (Continuous.continuousOn (by fun_prop)) 1 [0, 0.1, 0.2] rfl 0.01
    (by norm_num)
  refine ⟨n₀, fun n hn => ?_⟩
  obtain ⟨K, hK, hb⟩ := h n hn
  refine ⟨K, hK, fun P P' a phi h1 h2 hp => ?_⟩
  exact hb _ _ _ 256 _ _ 5 P P' a phi (by norm_num [manualTel]) (by norm_num) h1 h2 hp
    (C80_manual _ _ _ _ _ _ _ _ _ _ 0.022 _ _ a phi hp).1

end Verif.Props
