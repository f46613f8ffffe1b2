import Verif.Props.Offgrid
import Verif.Props.Optics

/-! # C140: a pointing error of the observation goes into the tilts -/

namespace Verif.Props

open Verif Verif.Np Verif.Aperture Verif.Telgeometry Verif.Core

/-! ## Specification -/

/-- The distance of two directions of the far-field grid. -/
noncomputable def Spec.beamStep (pr bf wavel : ℝ) (N : ℕ) : ℝ := wavel / (N * (2 * pr * bf / ((N : ℝ) - 1)))

/-- A direction within the far-field grid: between its first and its last direction. -/
def Spec.OnGrid (pr bf wavel : ℝ) (N : ℕ) (x : ℝ) : Prop :=
  -(((N / 2 : ℕ) : ℝ) * Spec.beamStep pr bf wavel N) ≤ x ∧
    x ≤ ((N : ℝ) - 1 - ((N / 2 : ℕ) : ℝ)) * Spec.beamStep pr bf wavel N

/-! ## The power of a tilted aperture -/

/-- A linear phase moves the power pattern. -/
theorem exactPower_tilt {N : ℕ} (E : Fin N × Fin N → ℂ) (pr bf wavel a b u v : ℝ) (hpr : pr ≠ 0) (hw : wavel ≠ 0) :
    Spec.exactPower (fun q => Complex.exp (2 * Real.pi * (((a * Spec.gridPoint pr bf N q.2 +
        b * Spec.gridPoint pr bf N q.1) / pr : ℝ) : ℂ) * Complex.I) * E q) pr bf wavel (u + a * wavel / pr)
      (v + b * wavel / pr) = Spec.exactPower E pr bf wavel u v := by
  unfold Spec.exactPower
  congr 2
  refine Finset.sum_congr rfl fun i _ => Finset.sum_congr rfl fun j _ => ?_
  simp only
  rw [mul_comm (Complex.exp _), mul_assoc, ← Complex.exp_add]
  congr 2
  have hpr' : (pr : ℂ) ≠ 0 := by exact_mod_cast hpr
  have hw' : (wavel : ℂ) ≠ 0 := by exact_mod_cast hw
  push_cast
  field_simp
  ring

theorem tilt_norm (x : ℝ) (z : ℂ) : ‖Complex.exp (2 * Real.pi * (x : ℂ) * Complex.I) * z‖ = ‖z‖ := by
  rw [norm_mul, show (2 * Real.pi * (x : ℂ) * Complex.I) = ((2 * Real.pi * x : ℝ) : ℂ) * Complex.I by push_cast; ring,
    Complex.norm_exp_ofReal_mul_I, one_mul]

/-! ## Interpolation does not depend on the cell -/

/-- The piecewise linear function with the values `g` at the integers. -/
noncomputable def lerpZ (g : ℤ → ℝ) (x : ℝ) : ℝ := g ⌊x⌋ * (1 - Int.fract x) + g (⌊x⌋ + 1) * Int.fract x

theorem lerpZ_cell (g : ℤ → ℝ) (x : ℝ) (m : ℤ) (h1 : (m : ℝ) ≤ x) (h2 : x ≤ m + 1) :
    lerpZ g x = g m * (m + 1 - x) + g (m + 1) * (x - m) := by
  unfold lerpZ
  rcases h2.lt_or_eq with h2 | h2
  · have : ⌊x⌋ = m := Int.floor_eq_iff.2 ⟨h1, h2⟩
    rw [Int.fract, this]
    ring
  · have : ⌊x⌋ = m + 1 := Int.floor_eq_iff.2 ⟨by rw [h2]; push_cast; exact le_rfl, by rw [h2]; push_cast; linarith⟩
    rw [Int.fract, this, h2]
    push_cast
    ring

theorem bilinear_lerp (G : ℤ → ℤ → ℝ) (h : ℝ) (hh : 0 < h) (m n : ℤ) (x y r : ℝ)
    (hx : m * h ≤ x ∧ x ≤ (m + 1) * h) (hy : n * h ≤ y ∧ y ≤ (n + 1) * h)
    (hr : Spec.isBilinear (m * h) ((m + 1) * h) (n * h) ((n + 1) * h) (G m n) (G (m + 1) n) (G m (n + 1))
      (G (m + 1) (n + 1)) x y r) :
    r = lerpZ (fun m => lerpZ (fun n => G m n) (y / h)) (x / h) := by
  have ex : (m : ℝ) ≤ x / h ∧ x / h ≤ m + 1 := ⟨(le_div_iff₀ hh).2 hx.1, (div_le_iff₀ hh).2 hx.2⟩
  have ey : (n : ℝ) ≤ y / h ∧ y / h ≤ n + 1 := ⟨(le_div_iff₀ hh).2 hy.1, (div_le_iff₀ hh).2 hy.2⟩
  rw [lerpZ_cell _ _ m ex.1 ex.2, lerpZ_cell _ _ n ey.1 ey.2, lerpZ_cell _ _ n ey.1 ey.2]
  unfold Spec.isBilinear at hr
  obtain ⟨s, rfl⟩ : ∃ s, x = s * h := ⟨x / h, by field_simp⟩
  obtain ⟨t, rfl⟩ : ∃ t, y = t * h := ⟨y / h, by field_simp⟩
  rw [mul_div_cancel_right₀ _ hh.ne', mul_div_cancel_right₀ _ hh.ne']
  have hne : h * h ≠ 0 := by positivity
  refine mul_right_cancel₀ hne ?_
  linear_combination hr

theorem beamStep_pos {pr bf wavel : ℝ} {N : ℕ} (hpr : 0 < pr) (hbf : 0 < bf) (hw : 0 < wavel) (hN : 2 ≤ N) :
    0 < Spec.beamStep pr bf wavel N := by
  unfold Spec.beamStep
  have hN : (2 : ℝ) ≤ N := by exact_mod_cast hN
  have : (0 : ℝ) < (N : ℝ) - 1 := by linarith
  positivity

/-- A row of the model, in terms of the power of the aperture at the directions of the grid. -/
theorem sampled_lerp {N M : ℕ} (params : List ℝ) (u v : Fin 3 × Fin M → ℝ) (dz : Fin 3 → ℝ) (wavel : ℝ)
    (illum : Illum (Fin N × Fin N)) (tel : TelGeo (Fin N × Fin N)) (bf : ℝ) (hpr : 0 < tel.pr) (hbf : 0 < bf)
    (hw : 0 < wavel) (i : Fin 3) (b : Fin M → ℝ) (hb : Spec.Sampled params u v dz wavel illum tel bf i b)
    (E : Fin N × Fin N → ℂ)
    (hE : aperture (fun q => Spec.gridPoint tel.pr bf N q.2) (fun q => Spec.gridPoint tel.pr bf N q.1)
      (params.take 5) (params.drop 5) (dz i) wavel illum tel = .ok E) (k : Fin M) (h : ℝ)
    (hh : h = Spec.beamStep tel.pr bf wavel N) :
    b k = lerpZ (fun m => lerpZ (fun n => Spec.exactPower E tel.pr bf wavel (m * h) (n * h)) (v (i, k) / h))
      (u (i, k) / h) := by
  obtain ⟨P, hP, mu, mv, hcell⟩ := hb
  obtain ⟨c, r, hc, hr, ⟨u1, u2⟩, ⟨v1, v2⟩, hbil⟩ := hcell k
  obtain ⟨E', hE', hnode⟩ := exact_node _ _ _ _ _ _ _ P hpr.ne' hbf.ne' hw.ne' hP
  obtain rfl : E = E' := Except.ok.inj (hE.symm.trans hE')
  obtain ⟨huv, -, h0, hstep⟩ := C14_axes _ _ _ _ _ _ _ _ P hpr hbf hw hP
  have hpos : 0 < h := hh ▸ beamStep_pos hpr hbf hw (by omega)
  have hax := axis_int P.u h h0 (fun i j e => by rw [hstep i j e, hh]; rfl)
  rw [hnode, hnode, hnode, hnode] at hbil
  rw [← huv] at hbil v1 v2
  have d1 : ∀ j : ℕ, ((((j + 1 : ℕ) : ℤ) - (N / 2 : ℕ) : ℤ) : ℝ) = (((j : ℤ) - (N / 2 : ℕ) : ℤ) : ℝ) + 1 :=
    fun j => cast_step j _
  simp only [hax, d1] at hbil u1 u2 v1 v2
  refine bilinear_lerp (fun m n => Spec.exactPower E tel.pr bf wavel (m * h) (n * h)) h hpos _ _ _ _ _ ⟨u1, u2⟩
    ⟨v1, v2⟩ ?_
  simpa only [Int.cast_add, Int.cast_one] using hbil

theorem onGrid_in {N : ℕ} {pr bf wavel : ℝ} (hN : 2 ≤ N) (g : Fin N → ℝ)
    (hg : ∀ j : Fin N, g j = (((j : ℕ) : ℤ) - (N / 2 : ℕ) : ℤ) * Spec.beamStep pr bf wavel N) (x : ℝ)
    (hx : Spec.OnGrid pr bf wavel N x) : inGrid g x := by
  refine ⟨⟨⟨0, by omega⟩, ?_⟩, ⟨N - 1, by omega⟩, ?_⟩
  · rw [hg]
    refine le_trans (le_of_eq ?_) hx.1
    rw [Int.cast_sub, Int.cast_natCast, Int.cast_natCast, Nat.cast_zero]
    ring
  · rw [hg]
    refine hx.2.trans (le_of_eq ?_)
    rw [show (((N - 1 : ℕ) : ℤ) - ((N / 2 : ℕ) : ℤ) : ℤ) = (N : ℤ) - 1 - ((N / 2 : ℕ) : ℤ) by omega]
    push_cast
    rfl

/-- Directions on the grid can be sampled whenever there is an aperture. -/
theorem sampled_onGrid {N M : ℕ} (hN : 2 ≤ N) (params : List ℝ) (u v : Fin 3 × Fin M → ℝ) (dz : Fin 3 → ℝ) (wavel : ℝ)
    (illum : Illum (Fin N × Fin N)) (tel : TelGeo (Fin N × Fin N)) (bf : ℝ) (hpr : 0 < tel.pr) (hbf : 0 < bf)
    (hw : 0 < wavel) (i : Fin 3) (E : Fin N × Fin N → ℂ)
    (hE : aperture (fun q => Spec.gridPoint tel.pr bf N q.2) (fun q => Spec.gridPoint tel.pr bf N q.1)
      (params.take 5) (params.drop 5) (dz i) wavel illum tel = .ok E)
    (hg : ∀ k, Spec.OnGrid tel.pr bf wavel N (u (i, k)) ∧ Spec.OnGrid tel.pr bf wavel N (v (i, k))) :
    ∃ b, Spec.Sampled params u v dz wavel illum tel bf i b := by
  obtain ⟨P, hP⟩ : ∃ P, radiationPattern (params.take 5) (params.drop 5) (dz i) wavel illum tel bf = .ok P := by
    rw [C14_ok_iff _ _ _ _ _ hN, linspace_grid]
    exact ⟨_, hE⟩
  obtain ⟨huv, hmono, h0, hstep⟩ := C14_axes _ _ _ _ _ _ _ _ P hpr hbf hw hP
  have hax := axis_int P.u (Spec.beamStep tel.pr bf wavel N) h0 (fun i j e => by rw [hstep i j e]; rfl)
  refine ⟨_, sampled_iff.2 (modelRow_ok.2 ⟨P, hP, (interpolator_ok_iff _ _ _ _ _).2 ⟨⟨hmono, huv ▸ hmono⟩,
    fun k => ⟨onGrid_in hN P.u hax _ (hg k).1, onGrid_in hN P.v (huv ▸ hax) _ (hg k).2⟩, rfl⟩⟩)⟩

/-! ## Whole pixels -/

/-- **C140** the samples of a map that is moved by whole steps of the far-field grid, `s` along u and `t` along v, are
the same as before with the two tilts changed by `s (N - 1) / (2 N bf)` and `t (N - 1) / (2 N bf)`. -/
theorem C140_row {N M : ℕ} (I Ks : List ℝ) (hI : I.length = 5) (k0 k1 k2 : ℝ) (u v : Fin 3 × Fin M → ℝ)
    (dz : Fin 3 → ℝ) (wavel : ℝ) (illum : Illum (Fin N × Fin N)) (tel : TelGeo (Fin N × Fin N)) (bf : ℝ)
    (hpr : 0 < tel.pr) (hbf : 0 < bf) (hw : 0 < wavel) (i : Fin 3) (b : Fin M → ℝ) (s t : ℤ)
    (hb : Spec.Sampled (I ++ k0 :: k1 :: k2 :: Ks) u v dz wavel illum tel bf i b)
    (hg : ∀ k, Spec.OnGrid tel.pr bf wavel N (u (i, k) + s * Spec.beamStep tel.pr bf wavel N) ∧
      Spec.OnGrid tel.pr bf wavel N (v (i, k) + t * Spec.beamStep tel.pr bf wavel N)) :
    Spec.Sampled (I ++ k0 :: (k1 + t * ((N : ℝ) - 1) / (2 * N * bf)) :: (k2 + s * ((N : ℝ) - 1) / (2 * N * bf)) :: Ks)
      (fun q => u q + s * Spec.beamStep tel.pr bf wavel N) (fun q => v q + t * Spec.beamStep tel.pr bf wavel N) dz wavel
      illum tel bf i b := by
  have hN : 2 ≤ N := by
    obtain ⟨P, hP, -⟩ := hb
    exact (radiationPattern_ok hP).1
  have tk : ∀ K : List ℝ, (I ++ K).take 5 = I ∧ (I ++ K).drop 5 = K := fun K => by
    rw [← hI]; simp
  obtain ⟨E, hE⟩ : ∃ E, aperture (fun q => Spec.gridPoint tel.pr bf N q.2) (fun q => Spec.gridPoint tel.pr bf N q.1) I
      (k0 :: k1 :: k2 :: Ks) (dz i) wavel illum tel = .ok E := by
    obtain ⟨P, hP, -⟩ := hb
    rw [(tk _).1, (tk _).2] at hP
    obtain ⟨E, hE, -⟩ := exact_node _ _ _ _ _ _ _ P hpr.ne' hbf.ne' hw.ne' hP
    exact ⟨E, hE⟩
  have hE' := C69_aperture _ _ I Ks k0 k1 k2 (s * ((N : ℝ) - 1) / (2 * N * bf)) (t * ((N : ℝ) - 1) / (2 * N * bf)) (dz i)
    wavel illum tel E hpr.ne' hE
  obtain ⟨b', hb'⟩ := sampled_onGrid hN (I ++ k0 :: (k1 + t * ((N : ℝ) - 1) / (2 * N * bf)) ::
    (k2 + s * ((N : ℝ) - 1) / (2 * N * bf)) :: Ks) (fun q => u q + s * Spec.beamStep tel.pr bf wavel N)
    (fun q => v q + t * Spec.beamStep tel.pr bf wavel N) dz wavel illum tel bf hpr hbf hw i _
    (by rw [(tk _).1, (tk _).2]; exact hE') hg
  have hbb : b' = b := by
    funext k
    have hpos := beamStep_pos hpr hbf hw hN
    rw [sampled_lerp _ _ _ dz wavel illum tel bf hpr hbf hw i b hb E (by rw [(tk _).1, (tk _).2]; exact hE) k _ rfl,
      sampled_lerp _ _ _ dz wavel illum tel bf hpr hbf hw i b' hb' _ (by rw [(tk _).1, (tk _).2]; exact hE') k _ rfl]
    have hN1 : (0 : ℝ) < (N : ℝ) - 1 := by
      have : (2 : ℝ) ≤ N := by exact_mod_cast hN
      linarith
    have hN0 : (0 : ℝ) < N := by linarith
    have e : ∀ m : ℤ, m * ((N : ℝ) - 1) / (2 * N * bf) * wavel / tel.pr = m * Spec.beamStep tel.pr bf wavel N := by
      intro m
      unfold Spec.beamStep
      field_simp
    generalize Spec.beamStep tel.pr bf wavel N = h at *
    have sh : ∀ (g g' : ℤ → ℝ) (x : ℝ) (m : ℤ), (∀ j, g' (j + m) = g j) → lerpZ g' ((x + m * h) / h) = lerpZ g (x / h) := by
      intro g g' x m hgg
      unfold lerpZ
      rw [add_div, mul_div_cancel_right₀ _ hpos.ne', Int.floor_add_intCast, Int.fract_add_intCast, hgg,
        show ⌊x / h⌋ + m + 1 = ⌊x / h⌋ + 1 + m by ring, hgg]
    refine sh _ _ _ s fun m => ?_
    refine sh _ _ _ t fun n => ?_
    have := exactPower_tilt E tel.pr bf wavel (s * ((N : ℝ) - 1) / (2 * N * bf)) (t * ((N : ℝ) - 1) / (2 * N * bf))
      (m * h) (n * h) hpr.ne' hw.ne'
    rw [e, e] at this
    rw [← this]
    push_cast
    rw [add_mul, add_mul]
  exact hbb ▸ hb'

/-- **C140** so the residual is the same list of numbers. -/
theorem C140_residual {N M : ℕ} (I Ks : List ℝ) (hI : I.length = 5) (k0 k1 k2 : ℝ) (beam : Fin 3 × Fin M → Fl)
    (u v : Fin 3 × Fin M → ℝ) (dz : Fin 3 → ℝ) (wavel : ℝ) (illum : Illum (Fin N × Fin N))
    (tel : TelGeo (Fin N × Fin N)) (bf : ℝ) (hpr : 0 < tel.pr) (hbf : 0 < bf) (hw : 0 < wavel) (s t : ℤ) (r : List ℝ)
    (h : residualTrue (I ++ k0 :: k1 :: k2 :: Ks) beam u v dz wavel illum tel bf = .ok r)
    (hg : ∀ q, Spec.OnGrid tel.pr bf wavel N (u q + s * Spec.beamStep tel.pr bf wavel N) ∧
      Spec.OnGrid tel.pr bf wavel N (v q + t * Spec.beamStep tel.pr bf wavel N)) :
    residualTrue (I ++ k0 :: (k1 + t * ((N : ℝ) - 1) / (2 * N * bf)) :: (k2 + s * ((N : ℝ) - 1) / (2 * N * bf)) :: Ks)
      beam (fun q => u q + s * Spec.beamStep tel.pr bf wavel N) (fun q => v q + t * Spec.beamStep tel.pr bf wavel N) dz
      wavel illum tel bf = .ok r := by
  obtain ⟨b, hb, hrest⟩ := residualTrue_ok.1 h
  exact residualTrue_ok.2 ⟨b, fun i => sampled_iff.1 (C140_row I Ks hI k0 k1 k2 u v dz wavel illum tel bf hpr hbf hw i
    (b i) s t (sampled_iff.2 (hb i)) fun k => hg (i, k)), hrest⟩

/-- **C140** a best fit of the moved maps is a best fit of the maps with other tilts, whatever the loss. -/
theorem C140_best {N M : ℕ} (I Ks : List ℝ) (hI : I.length = 5) (k0 k1 k2 : ℝ) (beam : Fin 3 × Fin M → Fl)
    (u v : Fin 3 × Fin M → ℝ) (dz : Fin 3 → ℝ) (wavel : ℝ) (illum : Illum (Fin N × Fin N))
    (tel : TelGeo (Fin N × Fin N)) (bf : ℝ) (hpr : 0 < tel.pr) (hbf : 0 < bf) (hw : 0 < wavel) (s t : ℤ)
    (hg0 : ∀ q, Spec.OnGrid tel.pr bf wavel N (u q) ∧ Spec.OnGrid tel.pr bf wavel N (v q))
    (hg : ∀ q, Spec.OnGrid tel.pr bf wavel N (u q + s * Spec.beamStep tel.pr bf wavel N) ∧
      Spec.OnGrid tel.pr bf wavel N (v q + t * Spec.beamStep tel.pr bf wavel N)) (loss : List ℝ → ℝ) (r : List ℝ)
    (hr : residualTrue (I ++ k0 :: k1 :: k2 :: Ks) beam u v dz wavel illum tel bf = .ok r)
    (hbest : ∀ K2 r2, K2.length = (k0 :: k1 :: k2 :: Ks).length →
      residualTrue (I ++ K2) beam u v dz wavel illum tel bf = .ok r2 → loss r ≤ loss r2) :
    residualTrue (I ++ k0 :: (k1 + t * ((N : ℝ) - 1) / (2 * N * bf)) :: (k2 + s * ((N : ℝ) - 1) / (2 * N * bf)) :: Ks)
        beam (fun q => u q + s * Spec.beamStep tel.pr bf wavel N) (fun q => v q + t * Spec.beamStep tel.pr bf wavel N) dz
        wavel illum tel bf = .ok r ∧
      ∀ K2 r2, K2.length = (k0 :: k1 :: k2 :: Ks).length →
        residualTrue (I ++ K2) beam (fun q => u q + s * Spec.beamStep tel.pr bf wavel N)
          (fun q => v q + t * Spec.beamStep tel.pr bf wavel N) dz wavel illum tel bf = .ok r2 → loss r ≤ loss r2 := by
  refine ⟨C140_residual I Ks hI k0 k1 k2 beam u v dz wavel illum tel bf hpr hbf hw s t r hr hg, fun K2 r2 hl h2 => ?_⟩
  obtain ⟨c0, c1, c2, Cs, rfl⟩ : ∃ c0 c1 c2 Cs, K2 = c0 :: c1 :: c2 :: Cs := by
    match K2, hl with
    | c0 :: c1 :: c2 :: Cs, _ => exact ⟨c0, c1, c2, Cs, rfl⟩
  have hc : ∀ (x c : ℝ) (m : ℤ), x + m * c + ((-m : ℤ) : ℝ) * c = x := fun x c m => by push_cast; ring
  have := C140_residual I Cs hI c0 c1 c2 beam _ _ dz wavel illum tel bf hpr hbf hw (-s) (-t) r2 h2 (by
    intro q
    simp only [hc]
    exact hg0 q)
  simp only [hc] at this
  refine hbest _ r2 ?_ this
  simpa using hl

/-! ## Any pointing error -/

/-- **C140** for a pointing error that is not a whole number of pixels the samples are nearly the same: the difference
is at most twice the error of the interpolation. -/
theorem C140_near {N M : ℕ} (I Ks : List ℝ) (hI : I.length = 5) (k0 k1 k2 : ℝ) (u v : Fin 3 × Fin M → ℝ)
    (dz : Fin 3 → ℝ) (wavel : ℝ) (illum : Illum (Fin N × Fin N)) (tel : TelGeo (Fin N × Fin N)) (bf : ℝ)
    (hpr : 0 < tel.pr) (hbf : 0 < bf) (hw : 0 < wavel) (i : Fin 3) (b b' : Fin M → ℝ) (du dv : ℝ)
    (hb : Spec.Sampled (I ++ k0 :: k1 :: k2 :: Ks) u v dz wavel illum tel bf i b)
    (hb' : Spec.Sampled (I ++ k0 :: (k1 + dv * tel.pr / wavel) :: (k2 + du * tel.pr / wavel) :: Ks)
      (fun q => u q + du) (fun q => v q + dv) dz wavel illum tel bf i b') (E : Fin N × Fin N → ℂ)
    (hE : aperture (fun q => Spec.gridPoint tel.pr bf N q.2) (fun q => Spec.gridPoint tel.pr bf N q.1) I
      (k0 :: k1 :: k2 :: Ks) (dz i) wavel illum tel = .ok E) (k : Fin M) :
    |b k - b' k| ≤
      2 * (Real.pi ^ 2 / (4 * bf ^ 2) * (∑ q, ‖E q‖) * (Spec.spreadOf E tel.pr bf / tel.pr ^ 2)) := by
  have tk : ∀ K : List ℝ, (I ++ K).take 5 = I ∧ (I ++ K).drop 5 = K := fun K => by
    rw [← hI]; simp
  have hE' := C69_aperture _ _ I Ks k0 k1 k2 (du * tel.pr / wavel) (dv * tel.pr / wavel) (dz i) wavel illum tel E hpr.ne' hE
  have h1 := C117_between _ _ _ dz wavel illum tel bf hpr hbf hw i b hb E (by rw [(tk _).1, (tk _).2]; exact hE) k
  have h2 := C117_between _ _ _ dz wavel illum tel bf hpr hbf hw i b' hb' _ (by rw [(tk _).1, (tk _).2]; exact hE') k
  have e := exactPower_tilt E tel.pr bf wavel (du * tel.pr / wavel) (dv * tel.pr / wavel) (u (i, k)) (v (i, k)) hpr.ne'
    hw.ne'
  have ed : ∀ d : ℝ, d * tel.pr / wavel * wavel / tel.pr = d := fun d => by field_simp
  rw [ed, ed] at e
  simp only [e] at h2
  have e1 : ∀ q, ‖Complex.exp (2 * Real.pi * (((du * tel.pr / wavel * Spec.gridPoint tel.pr bf N q.2 +
      dv * tel.pr / wavel * Spec.gridPoint tel.pr bf N q.1) / tel.pr : ℝ) : ℂ) * Complex.I) * E q‖ = ‖E q‖ :=
    fun q : Fin N × Fin N => tilt_norm _ _
  have e2 : Spec.spreadOf (fun q => Complex.exp (2 * Real.pi * (((du * tel.pr / wavel * Spec.gridPoint tel.pr bf N q.2 +
      dv * tel.pr / wavel * Spec.gridPoint tel.pr bf N q.1) / tel.pr : ℝ) : ℂ) * Complex.I) * E q) tel.pr bf =
      Spec.spreadOf E tel.pr bf := by
    unfold Spec.spreadOf
    simp only [e1]
  rw [e2] at h2
  simp only [e1] at h2
  have := abs_sub_le (b k) (Spec.exactPower E tel.pr bf wavel (u (i, k)) (v (i, k))) (b' k)
  have e3 := abs_sub_comm (Spec.exactPower E tel.pr bf wavel (u (i, k)) (v (i, k))) (b' k)
  linarith

/-- **C140** and so are the residuals: the change of each of them, times the spread of the model map, is at most four
times the error of the interpolation. -/
theorem C140_near_residual {N M : ℕ} (I Ks : List ℝ) (hI : I.length = 5) (k0 k1 k2 : ℝ) (beam : Fin 3 × Fin M → Fl)
    (u v : Fin 3 × Fin M → ℝ) (dz : Fin 3 → ℝ) (wavel : ℝ) (illum : Illum (Fin N × Fin N))
    (tel : TelGeo (Fin N × Fin N)) (bf : ℝ) (hpr : 0 < tel.pr) (hbf : 0 < bf) (hw : 0 < wavel) (du dv : ℝ)
    (r r' : List ℝ) (h : residualTrue (I ++ k0 :: k1 :: k2 :: Ks) beam u v dz wavel illum tel bf = .ok r)
    (h' : residualTrue (I ++ k0 :: (k1 + dv * tel.pr / wavel) :: (k2 + du * tel.pr / wavel) :: Ks) beam
      (fun q => u q + du) (fun q => v q + dv) dz wavel illum tel bf = .ok r') (i : Fin 3) (k : Fin M) (x x' : ℝ)
    (hx : r[(i : ℕ) * M + k]? = some x) (hx' : r'[(i : ℕ) * M + k]? = some x') :
    ∃ (b : Fin M → ℝ) (E : Fin N × Fin N → ℂ),
      Spec.Sampled (I ++ k0 :: k1 :: k2 :: Ks) u v dz wavel illum tel bf i b ∧
      aperture (fun q => Spec.gridPoint tel.pr bf N q.2) (fun q => Spec.gridPoint tel.pr bf N q.1) I
        (k0 :: k1 :: k2 :: Ks) (dz i) wavel illum tel = .ok E ∧
      ∀ m n, |x - x'| * (b n - b m) ≤
        4 * (Real.pi ^ 2 / (4 * bf ^ 2) * (∑ q, ‖E q‖) * (Spec.spreadOf E tel.pr bf / tel.pr ^ 2)) := by
  have tk : ∀ K : List ℝ, (I ++ K).take 5 = I ∧ (I ++ K).drop 5 = K := fun K => by
    rw [← hI]; simp
  obtain ⟨-, -, -, hrow⟩ := C42_layout _ _ _ _ dz wavel illum tel bf r h
  obtain ⟨b, nd, nm, hb, hnd, hnm, hr⟩ := hrow i
  obtain ⟨-, -, -, hrow'⟩ := C42_layout _ _ _ _ dz wavel illum tel bf r' h'
  obtain ⟨b', nd', nm', hb', hnd', hnm', hr'⟩ := hrow' i
  obtain ⟨E, hE⟩ : ∃ E, aperture (fun q => Spec.gridPoint tel.pr bf N q.2) (fun q => Spec.gridPoint tel.pr bf N q.1) I
      (k0 :: k1 :: k2 :: Ks) (dz i) wavel illum tel = .ok E := by
    obtain ⟨P, hP, -⟩ := hb
    rw [(tk _).1, (tk _).2] at hP
    obtain ⟨E, hE, -⟩ := exact_node _ _ _ _ _ _ _ P hpr.ne' hbf.ne' hw.ne' hP
    exact ⟨E, hE⟩
  refine ⟨b, E, hb, hE, fun m n => ?_⟩
  have : Nonempty (Fin M) := ⟨k⟩
  obtain ⟨a, a', e1, e2, e3⟩ := C97_norm b b' _ fun q => C140_near I Ks hI k0 k1 k2 u v dz wavel illum tel bf hpr hbf hw i b b'
    du dv hb hb' E hE q
  rw [e1] at hnm
  rw [e2] at hnm'
  cases hnm
  cases hnm'
  rw [hnd] at hnd'
  cases hnd'
  have f1 := hr k
  have f2 := hr' k
  rw [hx, Option.some.injEq] at f1
  rw [hx', Option.some.injEq] at f2
  have := e3 k m n
  rw [f1, f2, show nd k - nm k - (nd k - nm' k) = -(nm k - nm' k) by ring, abs_neg]
  linarith

/-! ## What is left of it in the results -/

/-- **C140** the phase error without tilt does not know about it. -/
theorem C140_phase (k0 k1 k2 k1' k2' pr : ℝ) (Ks : List ℝ) (piston : Bool) (N : ℕ) :
    phase (k0 :: k1' :: k2' :: Ks) pr piston false N = phase (k0 :: k1 :: k2 :: Ks) pr piston false N := by
  have : maskCoeff (k0 :: k1' :: k2' :: Ks) piston false = maskCoeff (k0 :: k1 :: k2 :: Ks) piston false := by
    cases piston <;> rfl
  unfold phase
  rw [this]

/-! ## Example -/

/-- Three maps of the telescope of the documentation with two samples each, observed one pixel off in u and two in v:
both residuals are there, and they are equal. -/
example (K : Fin 6 → ℝ) (dz : Fin 3 → ℝ) (beam : Fin 3 × Fin 2 → Fl) : ∃ r,
    residualTrue ([1, -14, 2, 0, 0] ++ [K 0, K 1, K 2, K 3, K 4, K 5]) beam (fun q => ![0.0001, 0.0003] q.2)
      (fun q => ![0.0002, -0.001] q.2) dz 0.009 illumGauss
      (manualTel 50 3.25 1 20 30 387.39435 : TelGeo (Fin 256 × Fin 256)) 5 = .ok r ∧
    residualTrue ([1, -14, 2, 0, 0] ++ [K 0, K 1 - 2 * (255 / 2560), K 2 + 255 / 2560, K 3, K 4, K 5]) beam
      (fun q => ![0.0001, 0.0003] q.2 + 0.009 * 255 / (256 * 500))
      (fun q => ![0.0002, -0.001] q.2 - 2 * (0.009 * 255 / (256 * 500))) dz 0.009 illumGauss
      (manualTel 50 3.25 1 20 30 387.39435 : TelGeo (Fin 256 × Fin 256)) 5 = .ok r := by
  have hpr : 0 < (manualTel 50 3.25 1 20 30 387.39435 : TelGeo (Fin 256 × Fin 256)).pr := by norm_num [manualTel]
  have hrow : ∀ i, ∃ b, Spec.Sampled ([1, -14, 2, 0, 0] ++ [K 0, K 1, K 2, K 3, K 4, K 5])
      (fun q : Fin 3 × Fin 2 => ![0.0001, 0.0003] q.2) (fun q => ![0.0002, -0.001] q.2) dz 0.009 illumGauss
      (manualTel 50 3.25 1 20 30 387.39435 : TelGeo (Fin 256 × Fin 256)) 5 i b := by
    intro i
    obtain ⟨P, hP⟩ : ∃ P : Pattern 256, radiationPattern [1, -14, 2, 0, 0] [K 0, K 1, K 2, K 3, K 4, K 5] (dz i) 0.009
        illumGauss (manualTel 50 3.25 1 20 30 387.39435) 5 = .ok P := by
      rw [C14_ok_iff _ _ _ _ _ (by norm_num)]
      exact ⟨_, aperture_ok_iff.2 ⟨_, _, _, _, rfl, wavefront_ok _ _ _ 2 rfl, rfl, rfl, rfl⟩⟩
    obtain ⟨E, hE, -⟩ := exact_node _ _ _ _ _ _ _ P hpr.ne' (by norm_num) (by norm_num) hP
    refine sampled_onGrid (by norm_num) _ _ _ dz 0.009 illumGauss _ 5 hpr (by norm_num) (by norm_num) i E hE fun b => ?_
    unfold Spec.OnGrid Spec.beamStep
    fin_cases b <;> norm_num [manualTel]
  choose b hb using hrow
  obtain ⟨nd, hnd, -⟩ := C27_axis1 (by norm_num) beam
  obtain ⟨nm, hnm, -⟩ := C27_axis1 (by norm_num) fun q : Fin 3 × Fin 2 => Fl.fin (b q.1 q.2)
  have h := residualTrue_ok.2 ⟨b, fun i => sampled_iff.1 (hb i), nd, nm, hnd, hnm, rfl⟩
  refine ⟨_, h, ?_⟩
  have := C140_residual [1, -14, 2, 0, 0] [K 3, K 4, K 5] rfl (K 0) (K 1) (K 2) beam _ _ dz 0.009 illumGauss
    (manualTel 50 3.25 1 20 30 387.39435 : TelGeo (Fin 256 × Fin 256)) 5 hpr (by norm_num) (by norm_num) 1 (-2) _ h
    (by
      rintro ⟨a, b⟩
      unfold Spec.OnGrid Spec.beamStep
      fin_cases b <;> norm_num [manualTel])
  have e1 : ((1 : ℤ) : ℝ) * Spec.beamStep (manualTel 50 3.25 1 20 30 387.39435 : TelGeo (Fin 256 × Fin 256)).pr 5 0.009 256 =
      0.009 * 255 / (256 * 500) := by
    unfold Spec.beamStep
    norm_num [manualTel]
  have e2 : ((-2 : ℤ) : ℝ) * Spec.beamStep (manualTel 50 3.25 1 20 30 387.39435 : TelGeo (Fin 256 × Fin 256)).pr 5 0.009 256 =
      -(2 * (0.009 * 255 / (256 * 500))) := by
    unfold Spec.beamStep
    norm_num [manualTel]
  have e3 : ((1 : ℤ) : ℝ) * (((256 : ℕ) : ℝ) - 1) / (2 * ((256 : ℕ) : ℝ) * 5) = 255 / 2560 := by norm_num
  have e4 : ((-2 : ℤ) : ℝ) * (((256 : ℕ) : ℝ) - 1) / (2 * ((256 : ℕ) : ℝ) * 5) = -(2 * (255 / 2560)) := by norm_num
  rw [e1, e2, e3, e4, ← sub_eq_add_neg] at this
  simpa only [← sub_eq_add_neg] using this

end Verif.Props
