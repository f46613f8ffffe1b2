import Verif.Props.Optics
import Verif.Props.Residual

/-!
# Units of length (C78) and scaling of the wavelength (C79)
-/

namespace Verif.Props

open Verif Verif.Np Verif.Zernike Verif.Aperture Verif.Telgeometry Verif.Core Finset

/-! ## C78 -/

theorem gridPoint_scale (s pr bf : ℝ) {N : ℕ} (i : Fin N) :
    Spec.gridPoint (s * pr) bf N i = s * Spec.gridPoint pr bf N i := by
  unfold Spec.gridPoint
  ring

theorem cart2pol_scale {s : ℝ} (hs : 0 < s) (x y pr : ℝ) :
    (cart2pol (s * x) (s * y)).1 / (s * pr) = (cart2pol x y).1 / pr ∧
    (cart2pol (s * x) (s * y)).2 = (cart2pol x y).2 := by
  constructor
  · simp only [cart2pol]
    rw [show (s * x) ^ 2 + (s * y) ^ 2 = s ^ 2 * (x ^ 2 + y ^ 2) by ring,
      Real.sqrt_mul (by positivity), Real.sqrt_sq hs.le, mul_div_mul_left _ _ hs.ne']
  · simp only [cart2pol, arctan2]
    have : (⟨s * x, s * y⟩ : ℂ) = (s : ℂ) * ⟨x, y⟩ := by
      apply Complex.ext <;> simp
    rw [this, Complex.arg_real_mul _ hs]

theorem opdAt_scale {s : ℝ} (hs : 0 < s) (Fp F x y dz : ℝ) :
    opdAt (s * Fp) (s * F) (s * x) (s * y) (s * dz) = s * opdAt Fp F x y dz := by
  unfold opdAt
  have h : Real.sqrt ((s * x) ^ 2 + (s * y) ^ 2) = s * Real.sqrt (x ^ 2 + y ^ 2) := by
    rw [show (s * x) ^ 2 + (s * y) ^ 2 = s ^ 2 * (x ^ 2 + y ^ 2) by ring,
      Real.sqrt_mul (by positivity), Real.sqrt_sq hs.le]
  have h1 : ∀ f : ℝ, s * Real.sqrt (x ^ 2 + y ^ 2) / (2 * (s * f)) = Real.sqrt (x ^ 2 + y ^ 2) / (2 * f) := by
    intro f
    rw [show 2 * (s * f) = s * (2 * f) by ring, mul_div_mul_left _ _ hs.ne']
  simp only [h, h1]
  ring

theorem visible_scale {s : ℝ} (hs : 0 < s) (pr sr a L x y : ℝ) :
    Spec.visible (s * pr) (s * sr) (s * a) (s * L) (s * x) (s * y) ↔ Spec.visible pr sr a L x y := by
  unfold Spec.visible
  have e : (s * x) ^ 2 + (s * y) ^ 2 = s ^ 2 * (x ^ 2 + y ^ 2) := by ring
  have h2 : 0 < s ^ 2 := by positivity
  rw [e, show (s * pr) ^ 2 = s ^ 2 * pr ^ 2 by ring, show (s * sr) ^ 2 = s ^ 2 * sr ^ 2 by ring,
    show s * sr + s * L = s * (sr + L) by ring, abs_mul, abs_mul, abs_of_pos hs]
  simp only [mul_lt_mul_iff_right₀ h2, mul_lt_mul_iff_right₀ hs]

theorem blockManual_scale {ι : Type} {s : ℝ} (hs : 0 < s) (pr sr a L : ℝ) (x y : ι → ℝ) :
    blockManual (s * pr) (s * sr) (s * a) (s * L) (fun q => s * x q) (fun q => s * y q) =
      blockManual pr sr a L x y := by
  obtain ⟨B, h1, h2⟩ := C24_value (s * pr) (s * sr) (s * a) (s * L) (fun q => s * x q) (fun q => s * y q)
  obtain ⟨B', h1', h2'⟩ := C24_value pr sr a L x y
  rw [h1, h1']
  congr 1
  funext q
  by_cases h : Spec.visible pr sr a L (x q) (y q)
  · rw [(h2 q).1 ((visible_scale hs _ _ _ _ _ _).2 h), (h2' q).1 h]
  · rw [(h2 q).2 (fun h' => h ((visible_scale hs _ _ _ _ _ _).1 h')), (h2' q).2 h]

theorem illum_scale {ι : Type} {s : ℝ} (hs : 0 < s) (i c q x0 y0 pr : ℝ) (hpr : pr ≠ 0) (x y : ι → ℝ)
    (illum : Illum ι) (hi : illum = illumGauss ∨ illum = illumParabolic) :
    illum (fun q => s * x q) (fun q => s * y q) [i, c, q, s * x0, s * y0] (s * pr) =
      illum x y [i, c, q, x0, y0] pr := by
  have e : ∀ a b : ℝ, (s * a - s * x0) ^ 2 + (s * b - s * y0) ^ 2 =
      s ^ 2 * ((a - x0) ^ 2 + (b - y0) ^ 2) := by
    intro a b; ring
  rcases hi with rfl | rfl
  · show Except.ok _ = Except.ok _
    congr 1
    funext p
    simp only [gaussAt, offset, taper]
    rw [e]
    congr 2
    rw [show 2 * ((10 : ℝ) ^ (c / 20) * (s * pr)) ^ 2 = s ^ 2 * (2 * ((10 : ℝ) ^ (c / 20) * pr) ^ 2) by ring,
      ← mul_neg, mul_div_mul_left _ _ (by positivity)]
  · show Except.ok _ = Except.ok _
    congr 1
    funext p
    simp only [parabolicAt, offset, taper]
    rw [e, Real.sqrt_mul (by positivity), Real.sqrt_sq hs.le]
    have : Fl.div (.fin (s * Real.sqrt ((x p - x0) ^ 2 + (y p - y0) ^ 2))) (.fin (s * pr)) =
        Fl.div (.fin (Real.sqrt ((x p - x0) ^ 2 + (y p - y0) ^ 2))) (.fin pr) := by
      rw [Fl.div_fin _ (mul_ne_zero hs.ne' hpr), Fl.div_fin _ hpr, mul_div_mul_left _ _ hs.ne']
    rw [this]

theorem aperture_units {ι : Type} {s : ℝ} (hs : 0 < s) (x y : ι → ℝ) (i c q x0 y0 : ℝ) (K : List ℝ)
    (dz wavel pr sr a L Fp F : ℝ) (hpr : pr ≠ 0) (illum : Illum ι)
    (hi : illum = illumGauss ∨ illum = illumParabolic) :
    aperture (fun q => s * x q) (fun q => s * y q) [i, c, q, s * x0, s * y0] K (s * dz) (s * wavel) illum
        (manualTel (s * pr) (s * sr) (s * a) (s * L) (s * Fp) (s * F)) =
      aperture x y [i, c, q, x0, y0] K dz wavel illum (manualTel pr sr a L Fp F) := by
  unfold aperture
  simp only [manualTel]
  rw [blockManual_scale hs, illum_scale hs _ _ _ _ _ _ hpr _ _ _ hi]
  simp only [(cart2pol_scale hs _ _ _).1, (cart2pol_scale hs _ _ pr).2, opdManual, opdAt_scale hs,
    mul_div_mul_left _ _ hs.ne', bind, Except.bind]

/-- **C78.**  The unit of length does not matter: with every length (the radii, the leg, the foci, the
illumination offsets, the radial offset and the wavelength) multiplied by the same positive number the
pattern is the same, coordinates and all. -/
theorem C78_units {N : ℕ} {s : ℝ} (hs : 0 < s) (i c q x0 y0 : ℝ) (K : List ℝ)
    (dz wavel pr sr a L Fp F bf : ℝ) (hpr : pr ≠ 0) (illum : Illum (Fin N × Fin N))
    (hi : illum = illumGauss ∨ illum = illumParabolic) :
    radiationPattern [i, c, q, s * x0, s * y0] K (s * dz) (s * wavel) illum
        (manualTel (s * pr) (s * sr) (s * a) (s * L) (s * Fp) (s * F)) bf =
      radiationPattern [i, c, q, x0, y0] K dz wavel illum (manualTel pr sr a L Fp F) bf := by
  rcases Nat.lt_or_ge N 2 with hN | hN
  · rw [radiationPattern_small _ _ _ _ hN, radiationPattern_small _ _ _ _ hN]
  · rw [radiationPattern_eq _ _ _ _ hN, radiationPattern_eq _ _ _ _ hN]
    have hg := aperture_units hs (fun q : Fin N × Fin N => Spec.gridPoint pr bf N q.2)
      (fun q => Spec.gridPoint pr bf N q.1) i c q x0 y0 K dz wavel pr sr a L Fp F hpr illum hi
    simp only [← gridPoint_scale] at hg
    rw [linspace_grid, linspace_grid]
    show Except.map _ (aperture (fun q : Fin N × Fin N => Spec.gridPoint (s * pr) bf N q.2)
      (fun q => Spec.gridPoint (s * pr) bf N q.1) _ _ _ _ _ _) = Except.map _ (aperture
        (fun q : Fin N × Fin N => Spec.gridPoint pr bf N q.2) (fun q => Spec.gridPoint pr bf N q.1)
        _ _ _ _ _ _)
    rw [hg]
    have hax : ∀ j : Fin N, (((j : ℕ) : ℝ) - ((N / 2 : ℕ) : ℝ)) /
          (N * (2 * (s * pr * bf) / ((N : ℝ) - 1))) * (s * wavel) =
        (((j : ℕ) : ℝ) - ((N / 2 : ℕ) : ℝ)) / (N * (2 * (pr * bf) / ((N : ℝ) - 1))) * wavel := by
      intro j
      rw [show (N : ℝ) * (2 * (s * pr * bf) / ((N : ℝ) - 1)) =
        s * (N * (2 * (pr * bf) / ((N : ℝ) - 1))) by ring, mul_comm s, ← div_div]
      field_simp
    simp only [manualTel, hax]

/-- **C78.**  So the objective of the fit does not depend on it either: the coordinates of the maps are
angles. -/
theorem C78_residual {N M : ℕ} {s : ℝ} (hs : 0 < s) (i c q x0 y0 : ℝ) (K : List ℝ)
    (beam : Fin 3 × Fin M → Fl) (u v : Fin 3 × Fin M → ℝ) (dz : Fin 3 → ℝ)
    (wavel pr sr a L Fp F bf : ℝ) (hpr : pr ≠ 0) (illum : Illum (Fin N × Fin N))
    (hi : illum = illumGauss ∨ illum = illumParabolic) :
    residualTrue (i :: c :: q :: (s * x0) :: (s * y0) :: K) beam u v (fun j => s * dz j) (s * wavel) illum
        (manualTel (s * pr) (s * sr) (s * a) (s * L) (s * Fp) (s * F)) bf =
      residualTrue (i :: c :: q :: x0 :: y0 :: K) beam u v dz wavel illum (manualTel pr sr a L Fp F) bf := by
  have hrow : ∀ j, modelRow (i :: c :: q :: (s * x0) :: (s * y0) :: K) u v (fun j => s * dz j) (s * wavel)
        illum (manualTel (s * pr) (s * sr) (s * a) (s * L) (s * Fp) (s * F)) bf j =
      modelRow (i :: c :: q :: x0 :: y0 :: K) u v dz wavel illum (manualTel pr sr a L Fp F) bf j := by
    intro j
    unfold modelRow
    have := C78_units hs i c q x0 y0 K (dz j) wavel pr sr a L Fp F bf hpr illum hi
    simp only [List.take_succ_cons, List.take_zero, List.drop_succ_cons, List.drop_zero, this]
  unfold residualTrue
  simp only [hrow]

/-- Metres and millimetres. -/
example : radiationPattern (N := 256) [1, -14, 2, 1000 * 0.1, 1000 * 0] [0, 0.1, 0.2] (1000 * 0.022)
      (1000 * 0.009) illumParabolic
      (manualTel (1000 * 50) (1000 * 3.25) (1000 * 1) (1000 * 20) (1000 * 30) (1000 * 387.39435)) 5 =
    radiationPattern [1, -14, 2, 0.1, 0] [0, 0.1, 0.2] 0.022 0.009 illumParabolic
      (manualTel 50 3.25 1 20 30 387.39435) 5 :=
  C78_units (by norm_num) _ _ _ _ _ _ _ _ _ _ _ _ _ _ _ (by norm_num) _ (Or.inr rfl)

/-! ## C79 -/

/-- The path difference is proportional to the radial offset. -/
def Spec.OpdLinear {ι : Type} (tel : TelGeo ι) : Prop :=
  ∀ x y dz s, tel.opd x y (s * dz) = (tel.opd x y dz).map fun d q => s * d q

theorem aperture_wavelength {ι : Type} {s : ℝ} (hs : s ≠ 0) (x y : ι → ℝ) (I K : List ℝ)
    (dz wavel : ℝ) (illum : Illum ι) (tel : TelGeo ι) (ho : Spec.OpdLinear tel) :
    aperture x y I K (s * dz) (s * wavel) illum tel = aperture x y I K dz wavel illum tel := by
  unfold aperture
  rw [ho]
  cases tel.block x y with
  | error e => rfl
  | ok B =>
    cases wavefront (fun q => (cart2pol (x q) (y q)).1 / tel.pr) (fun q => (cart2pol (x q) (y q)).2) K with
    | error e => rfl
    | ok W =>
      cases tel.opd x y dz with
      | error e => rfl
      | ok d => simp only [bind, Except.bind, Except.map, mul_div_mul_left _ _ hs]

/-- **C79.**  Wavelength and radial offset multiplied by the same number: the same values on a grid that
is stretched by that number. -/
theorem C79_pattern {N : ℕ} {s : ℝ} (hs : s ≠ 0) (I K : List ℝ) (dz wavel : ℝ)
    (illum : Illum (Fin N × Fin N)) (tel : TelGeo (Fin N × Fin N)) (bf : ℝ) (ho : Spec.OpdLinear tel) :
    radiationPattern I K (s * dz) (s * wavel) illum tel bf =
      (radiationPattern I K dz wavel illum tel bf).map fun P =>
        ⟨fun j => s * P.u j, fun j => s * P.v j, P.F⟩ := by
  rcases Nat.lt_or_ge N 2 with hN | hN
  · rw [radiationPattern_small _ _ _ _ hN, radiationPattern_small _ _ _ _ hN]
    rfl
  · rw [radiationPattern_eq _ _ _ _ hN, radiationPattern_eq _ _ _ _ hN, aperture_wavelength hs _ _ _ _ _ _ _ _ ho]
    cases aperture (fun q : Fin N × Fin N => linspace (-(tel.pr * bf)) (tel.pr * bf) N q.2)
      (fun q => linspace (-(tel.pr * bf)) (tel.pr * bf) N q.1) I K dz wavel illum tel with
    | error e => rfl
    | ok E =>
      simp only [Except.map]
      congr 2
      · funext j; ring
      · funext j; ring

theorem gridAt_scale {n : ℕ} (s : ℝ) (g : Fin n → ℝ) (i : ℕ) :
    gridAt (fun j => s * g j) i = s * gridAt g i := by
  unfold gridAt
  split_ifs <;> simp

theorem cellIdx_scale {n : ℕ} {s : ℝ} (hs : 0 < s) (g : Fin n → ℝ) (x : ℝ) :
    cellIdx (fun j => s * g j) (s * x) = cellIdx g x := by
  unfold cellIdx searchsorted
  simp only [mul_lt_mul_iff_right₀ hs]

theorem cellDist_scale {n : ℕ} {s : ℝ} (hs : 0 < s) (g : Fin n → ℝ) (x : ℝ) :
    cellDist (fun j => s * g j) (s * x) = cellDist g x := by
  unfold cellDist
  rw [cellIdx_scale hs, gridAt_scale, gridAt_scale, ← mul_sub, ← mul_sub, mul_div_mul_left _ _ hs.ne']

theorem interpolator_scale {n M : ℕ} {s : ℝ} (hs : 0 < s) (g0 g1 : Fin n → ℝ) (V : Fin n × Fin n → ℝ)
    (xi : Fin M → ℝ × ℝ) :
    interpolator (fun j => s * g0 j) (fun j => s * g1 j) V (fun k => (s * (xi k).1, s * (xi k).2)) =
      interpolator g0 g1 V xi := by
  have hm : ∀ g : Fin n → ℝ, StrictMono (fun j => s * g j) ↔ StrictMono g := by
    intro g
    unfold StrictMono
    simp only [mul_lt_mul_iff_right₀ hs]
  have hg : ∀ (g : Fin n → ℝ) (x : ℝ), inGrid (fun j => s * g j) (s * x) ↔ inGrid g x := by
    intro g x
    unfold inGrid
    simp only [mul_le_mul_iff_right₀ hs]
  have hx : (∃ k, ¬ (inGrid (fun j => s * g0 j) (s * (xi k).1) ∧ inGrid (fun j => s * g1 j) (s * (xi k).2))) ↔
      ∃ k, ¬ (inGrid g0 (xi k).1 ∧ inGrid g1 (xi k).2) :=
    exists_congr fun k => not_congr (and_congr (hg g0 _) (hg g1 _))
  unfold interpolator
  simp only [hm, evalLinear, cellIdx_scale hs, cellDist_scale hs]
  by_cases h1 : StrictMono g0 ∧ StrictMono g1
  · rw [if_neg (not_not.2 h1), if_neg (not_not.2 h1)]
    by_cases h2 : ∃ k, ¬ (inGrid g0 (xi k).1 ∧ inGrid g1 (xi k).2)
    · rw [if_pos h2, if_pos (hx.2 h2)]
    · rw [if_neg h2, if_neg (fun h => h2 (hx.1 h))]
  · rw [if_pos h1, if_pos h1]

/-- **C79.**  The objective of the fit does not change when the wavelength, the radial offsets and the
angles of the maps are multiplied by the same positive number: a shorter wavelength is the same problem
on a smaller scale. -/
theorem C79_residual {N M : ℕ} {s : ℝ} (hs : 0 < s) (params : List ℝ) (beam : Fin 3 × Fin M → Fl)
    (u v : Fin 3 × Fin M → ℝ) (dz : Fin 3 → ℝ) (wavel : ℝ) (illum : Illum (Fin N × Fin N))
    (tel : TelGeo (Fin N × Fin N)) (bf : ℝ) (ho : Spec.OpdLinear tel) :
    residualTrue params beam (fun q => s * u q) (fun q => s * v q) (fun i => s * dz i) (s * wavel) illum
        tel bf = residualTrue params beam u v dz wavel illum tel bf := by
  have hrow : ∀ i, modelRow params (fun q => s * u q) (fun q => s * v q) (fun i => s * dz i) (s * wavel)
      illum tel bf i = modelRow params u v dz wavel illum tel bf i := by
    intro i
    unfold modelRow
    dsimp only
    rw [C79_pattern hs.ne' _ _ _ _ _ _ _ ho]
    cases radiationPattern (params.take 5) (params.drop 5) (dz i) wavel illum tel bf with
    | error e => rfl
    | ok P =>
      simp only [Except.map, bind, Except.bind]
      exact interpolator_scale hs P.u P.v _ fun k => (u (i, k), v (i, k))
  unfold residualTrue
  simp only [hrow]

/-- **C79.**  The path differences of the package are proportional to the offset. -/
theorem C79_package {ι : Type} (pr sr a L Fp F alpha : ℝ) :
    Spec.OpdLinear (manualTel pr sr a L Fp F : TelGeo ι) ∧
    Spec.OpdLinear (⟨blockEffelsberg alpha, opdEffelsberg, 50⟩ : TelGeo ι) := by
  constructor
  · intro x y dz s
    simp only [manualTel, opdManual, opdAt, Except.map]
    congr 1
    funext q
    ring
  · intro x y dz s
    simp only [opdEffelsberg, Except.map]
    congr 1
    funext q
    ring

example (params : List ℝ) (beam : Fin 3 × Fin 100 → Fl) (u v : Fin 3 × Fin 100 → ℝ) :
    residualTrue (N := 256) params beam (fun q => 0.5 * u q) (fun q => 0.5 * v q)
        (fun i => 0.5 * ![-0.022, 0, 0.022] i) (0.5 * 0.009) illumGauss (manualTel 50 3.25 1 20 30 387) 5 =
      residualTrue (N := 256) params beam u v ![-0.022, 0, 0.022] 0.009 illumGauss (manualTel 50 3.25 1 20 30 387) 5 :=
  C79_residual (by norm_num) _ _ _ _ _ _ _ _ _ (C79_package 50 3.25 1 20 30 387 0).1

end Verif.Props
