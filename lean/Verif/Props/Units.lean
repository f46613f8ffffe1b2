import Verif.Lemmas.Fl
import Verif.Lemmas.Units

/-!
# C87: lengths and angles in any unit

All other properties are stated for lengths in metres and angles in radians.  Here it is shown that the
results of `phase`, `radiation_pattern` and `residual_true` do not depend on the unit in which the
radius, the offsets, the wavelength, the foci and the sky coordinates are handed over.
-/

namespace Verif.Props

open Verif Verif.Np Verif.Aperture Verif.Units Verif.Units.Val

namespace Spec

/-- The array is a Quantity of the dimension of a length and holds `f` metres. -/
def Metres {ι : Type} (v : Val ι) (f : ι → ℝ) : Prop :=
  ∃ x c, 0 < c ∧ v = .qty x ⟨c, Pi.single .length 1⟩ ∧ ∀ q, x q * c = f q

/-- The array is a Quantity of the dimension of an angle and holds `f` radians. -/
def Radians {ι : Type} (v : Val ι) (f : ι → ℝ) : Prop :=
  ∃ x c, 0 < c ∧ v = .qty x ⟨c, Pi.single .angle 1⟩ ∧ ∀ q, x q * c = f q

/-- A scalar length, or the plain number 0 ("to exclude **sr**, **a** or **L** set them to zero"). -/
def Metres0 (s : Sc) (r : ℝ) : Prop := Metres s (fun _ => r) ∨ (s = .num fun _ => 0) ∧ r = 0

/-- Both raise the same exception, or both return and the results are in the relation `R`. -/
def Agree {α β : Type} (R : α → β → Prop) (x : Py α) (y : Py β) : Prop :=
  (∃ a b, x = .ok a ∧ y = .ok b ∧ R a b) ∨ ∃ e, x = .error e ∧ y = .error e

/-- The telescope functions with Quantities do the same as those in metres. -/
structure SameTel {ι : Type} (telU : TelGeoU ι) (tel : TelGeo ι) : Prop where
  pr : Metres telU.pr fun _ => tel.pr
  block : ∀ x y f g, Metres x f → Metres y g → telU.block x y = tel.block f g
  opd : ∀ x y f g dz d, Metres x f → Metres y g → Metres dz (fun _ => d) →
    Agree Metres (telU.opd x y dz) (tel.opd f g d)

/-- The illumination with Quantities does for the coefficients `IU` the same as the one in metres for
the numbers `I`. -/
def SameIllum {ι : Type} (illumU : IllumU ι) (IU : List Sc) (illum : Illum ι) (I : List ℝ) (pr : ℝ) :
    Prop :=
  ∀ x y f g prU, Metres x f → Metres y g → Metres prU (fun _ => pr) →
    illumU x y IU prU = illum f g I pr

/-- A coefficient of the illumination, a plain number or a Quantity of dimension `d`. -/
def Coeff (d : Base) (s : Sc) (z : QNum) : Prop :=
  (∃ r, s = .num (fun _ => r) ∧ z = .bare r) ∨
    ∃ r c, 0 < c ∧ s = .qty (fun _ => r) ⟨c, Pi.single d 1⟩ ∧ z = .quant r c

end Spec

section
variable {ι : Type}

theorem metres_iff {v : Val ι} {f : ι → ℝ} : Spec.Metres v f ↔ IsQ v AUnit.m.dim f := by
  constructor
  · rintro ⟨x, c, hc, rfl, h⟩
    exact ⟨x, _, rfl, hc, rfl, h⟩
  · rintro ⟨x, ⟨c, d⟩, rfl, hc, hd, h⟩
    simp only at hd
    subst hd
    exact ⟨x, c, hc, rfl, h⟩

theorem radians_iff {v : Val ι} {f : ι → ℝ} : Spec.Radians v f ↔ IsQ v AUnit.rad.dim f := by
  constructor
  · rintro ⟨x, c, hc, rfl, h⟩
    exact ⟨x, _, rfl, hc, rfl, h⟩
  · rintro ⟨x, ⟨c, d⟩, rfl, hc, hd, h⟩
    simp only at hd
    subst hd
    exact ⟨x, c, hc, rfl, h⟩

theorem agree_iff {α β : Type} {R : α → β → Prop} {x : Py α} {y : Py β} :
    Spec.Agree R x y ↔ PyRel R x y := by
  constructor
  · rintro (⟨a, b, rfl, rfl, h⟩ | ⟨e, rfl, rfl⟩)
    · exact h
    · rfl
  · intro h
    cases x <;> cases y <;> simp only [PyRel] at h
    · exact Or.inr ⟨_, rfl, by rw [h]⟩
    · exact Or.inl ⟨_, _, rfl, rfl, h⟩

/-- `linspace(-b, b, N)`. -/
theorem linspaceU_is {b : Sc} {d : Dim} {r : Unit → ℝ} (h : IsQ b d r) (N : ℕ) :
    ∃ x, linspaceU b.neg b N = .ok x ∧ IsQ x d (linspace (-r ()) (r ()) N) := by
  obtain ⟨f, g, u, hal, hu, hd, hf, hg⟩ := alignQ h.neg h
  refine ⟨_, by simp only [linspaceU, hal, bind, Except.bind, pure, Except.pure]; rfl,
    ⟨_, u, rfl, hu, hd, fun i => ?_⟩⟩
  simp only [linspace]
  rw [← hg, show -(g () * u.scale) = f () * u.scale by rw [hf, hg]]
  ring

theorem div_same {v : Val ι} {s : Sc} {d : Dim} {f : ι → ℝ} {r : ℝ} (h : IsQ v d f)
    (hs : IsQ s d fun _ => r) : IsQ (v.div (bc s)) 0 fun q => f q / r :=
  (h.divQ (hs.bc).is).congr (by simp) fun _ => rfl

/-- The aperture distribution does not depend on the units. -/
theorem apertureU_eq {x y : Val ι} {f g : ι → ℝ} (hx : Spec.Metres x f) (hy : Spec.Metres y g)
    {IU : List Sc} {I : List ℝ} (K : List ℝ) {dz wavel : Sc} {d w : ℝ}
    (hdz : Spec.Metres dz fun _ => d) (hw : Spec.Metres wavel fun _ => w) {illumU : IllumU ι}
    {illum : Illum ι} {telU : TelGeoU ι} {tel : TelGeo ι} (ht : Spec.SameTel telU tel)
    (hi : Spec.SameIllum illumU IU illum I tel.pr) :
    apertureU x y IU K dz wavel illumU telU = aperture f g I K d w illum tel := by
  obtain ⟨r, h1, h2⟩ := cart2pol_is (metres_iff.1 hx) (metres_iff.1 hy)
  have hW := wavefrontU_eq (div_same h2 (metres_iff.1 ht.pr))
    (isQ_rad fun q => (cart2pol (f q) (g q)).2) K
  simp only [apertureU, aperture, h1, ht.block x y f g hx hy, hW, hi x y f g _ hx hy ht.pr, bind,
    Except.bind]
  cases tel.block f g with
  | error e => rfl
  | ok B =>
    dsimp only
    cases wavefront (fun q => (cart2pol (f q) (g q)).1 / tel.pr) (fun q => (cart2pol (f q) (g q)).2) K with
    | error e => rfl
    | ok W =>
      dsimp only
      rcases ht.opd x y f g dz d hx hy hdz with ⟨δ, δ', e1, e2, hδ⟩ | ⟨e, e1, e2⟩
      · simp only [e1, e2]
        cases illum f g I tel.pr with
        | error e => rfl
        | ok Ea =>
          dsimp only
          rw [num_add (div_same (metres_iff.1 hδ) (metres_iff.1 hw))]
          simp only [pure, Except.pure, Val.mul, nm, expI, AUnit.mul, AUnit.one, AUnit.rad]
          rw [if_pos (by intro b hb; simp [hb])]
          simp
      · simp only [e1, e2]

/-- The field of the beam does not depend on the units. -/
theorem radiationPatternU_rel {N : ℕ} {IU : List Sc} {I : List ℝ} (K : List ℝ) {dz wavel : Sc} {d w : ℝ}
    (hdz : Spec.Metres dz fun _ => d) (hw : Spec.Metres wavel fun _ => w)
    {illumU : IllumU (Fin N × Fin N)} {illum : Illum (Fin N × Fin N)} {telU : TelGeoU (Fin N × Fin N)}
    {tel : TelGeo (Fin N × Fin N)} (ht : Spec.SameTel telU tel)
    (hi : Spec.SameIllum illumU IU illum I tel.pr) (bf : ℝ) :
    PyRel (fun P Q => IsQ P.u AUnit.rad.dim Q.u ∧ IsQ P.v AUnit.rad.dim Q.v ∧ P.F = Q.F)
      (radiationPatternU IU K dz wavel illumU telU bf)
      (radiationPattern I K d w illum tel bf) := by
  have hbox : IsQ (telU.pr.mul (nm bf)) AUnit.m.dim fun _ => tel.pr * bf :=
    ((metres_iff.1 ht.pr).mulQ (is_nm bf)).congr (by simp) fun _ => rfl
  obtain ⟨x, hx, hxq⟩ := linspaceU_is hbox N
  simp only [radiationPatternU, radiationPatternBoxU, hx, bind, Except.bind]
  by_cases hN : N < 2
  · rw [radiationPattern_small I K d w hN]
    have : ¬ 1 < N := by omega
    simp only [Val.idx, this, dif_neg, not_false_eq_true]
    rfl
  · have h1 : 1 < N := by omega
    have h0 : 0 < N := by omega
    obtain ⟨dx, hdx, hdq⟩ := sub_isQ (hxq.comap fun _ : Unit => (⟨1, h1⟩ : Fin N))
      (hxq.comap fun _ : Unit => (⟨0, h0⟩ : Fin N))
    have hap := apertureU_eq (metres_iff.2 (hxq.comap fun q : Fin N × Fin N => q.2))
      (metres_iff.2 (hxq.comap fun q : Fin N × Fin N => q.1)) K hdz hw ht hi
    have hfreq : IsQ (fftfreqU N dx) (-AUnit.m.dim) (fftfreq N
        (linspace (-(tel.pr * bf)) (tel.pr * bf) N ⟨1, h1⟩ -
          linspace (-(tel.pr * bf)) (tel.pr * bf) N ⟨0, h0⟩)) := by
      obtain ⟨f, u, rfl, hu, hd, hf⟩ := hdq
      refine ⟨_, u.inv, rfl, inv_pos.2 hu, by simp [AUnit.inv, hd], fun i => ?_⟩
      have := hf ()
      beta_reduce at this
      rw [← this]
      simp only [fftfreq, AUnit.inv, one_div, mul_inv]
      ring
    have hu : IsQ ((((fftfreqU N dx).comap shiftIdx).mul (bc wavel)).mul (.qty (fun _ => 1) .rad))
        AUnit.rad.dim fun i => fftshift1 (fftfreq N
        (linspace (-(tel.pr * bf)) (tel.pr * bf) N ⟨1, h1⟩ -
          linspace (-(tel.pr * bf)) (tel.pr * bf) N ⟨0, h0⟩)) i * w := by
      refine (((hfreq.comap shiftIdx).mulQ (metres_iff.1 hw).bc.is).mulQ (isQ_rad _).is).congr ?_ ?_
      · simp
      · intro i; simp [fftshift1]
    simp only [Val.idx, h1, h0, dif_pos, hdx, hap]
    simp only [radiationPattern, pyIdx_ofFn _ 1 h1, pyIdx_ofFn _ 0 h0, bind, Except.bind]
    cases hE : aperture (meshX (linspace (-(tel.pr * bf)) (tel.pr * bf) N)
        (linspace (-(tel.pr * bf)) (tel.pr * bf) N)) (meshY (linspace (-(tel.pr * bf)) (tel.pr * bf) N)
        (linspace (-(tel.pr * bf)) (tel.pr * bf) N)) I K d w illum tel with
    | error e =>
      have hE' : aperture (fun q : Fin N × Fin N => linspace (-(tel.pr * bf)) (tel.pr * bf) N q.2)
        (fun q : Fin N × Fin N => linspace (-(tel.pr * bf)) (tel.pr * bf) N q.1) I K d w illum tel =
          .error e := hE
      rw [hE']
      rfl
    | ok E =>
      have hE' : aperture (fun q : Fin N × Fin N => linspace (-(tel.pr * bf)) (tel.pr * bf) N q.2)
        (fun q : Fin N × Fin N => linspace (-(tel.pr * bf)) (tel.pr * bf) N q.1) I K d w illum tel =
          .ok E := hE
      rw [hE']
      exact ⟨hu, hu, rfl⟩

end

/-- **C87.**  The field pattern of a telescope, defocus and wavelength given in any length units is
the one of the same lengths in metres, number by number, and the axes are the same angles: both calls
raise the same exception or both return and agree. -/
theorem C87_pattern {N : ℕ} (IU : List Sc) (I K : List ℝ) (dz wavel : Sc) (d w : ℝ)
    (hdz : Spec.Metres dz fun _ => d) (hw : Spec.Metres wavel fun _ => w)
    (illumU : IllumU (Fin N × Fin N)) (illum : Illum (Fin N × Fin N)) (telU : TelGeoU (Fin N × Fin N))
    (tel : TelGeo (Fin N × Fin N)) (ht : Spec.SameTel telU tel)
    (hi : Spec.SameIllum illumU IU illum I tel.pr) (bf : ℝ) :
    Spec.Agree (fun P Q => Spec.Radians P.u Q.u ∧ Spec.Radians P.v Q.v ∧ P.F = Q.F)
      (radiationPatternU IU K dz wavel illumU telU bf)
      (radiationPattern I K d w illum tel bf) := by
  have h := radiationPatternU_rel K hdz hw ht hi bf
  rw [agree_iff]
  cases h1 : radiationPatternU IU K dz wavel illumU telU bf <;>
    cases h2 : radiationPattern I K d w illum tel bf <;> rw [h1, h2] at h
  · exact h
  · exact h.elim
  · exact h.elim
  · exact ⟨radians_iff.2 h.1, radians_iff.2 h.2.1, h.2.2⟩

/-- **C87.**  The residual of the fit is the same for the same lengths and angles in any units. -/
theorem C87_residual {N M : ℕ} (params : List ℝ) (beam : Fin 3 × Fin M → Fl)
    (u v : Val (Fin 3 × Fin M)) (u' v' : Fin 3 × Fin M → ℝ) (dz : Val (Fin 3)) (d : Fin 3 → ℝ)
    (wavel : Sc) (w : ℝ) (hu : Spec.Radians u u') (hv : Spec.Radians v v') (hdz : Spec.Metres dz d)
    (hw : Spec.Metres wavel fun _ => w) (illumU : IllumU (Fin N × Fin N))
    (illum : Illum (Fin N × Fin N)) (telU : TelGeoU (Fin N × Fin N)) (tel : TelGeo (Fin N × Fin N))
    (ht : Spec.SameTel telU tel)
    (hi : Spec.SameIllum illumU ((params.take 5).map fun r => .num fun _ => r) illum (params.take 5) tel.pr)
    (bf : ℝ) :
    residualTrueU params beam u v dz wavel illumU telU bf =
      Core.residualTrue params beam u' v' d w illum tel bf := by
  have hrow : ∀ i, modelRowU params u v dz wavel illumU telU bf i =
      Core.modelRow params u' v' d w illum tel bf i := by
    intro i
    have h := radiationPatternU_rel (params.drop 5) (metres_iff.2 ((metres_iff.1 hdz).comap fun _ => i))
      hw ht hi bf
    refine PyRel.eq (PyRel.bind h fun P Q hPQ => ?_)
    simp only [toValue_rad hPQ.1, toValue_rad hPQ.2.1, toValue_rad (radians_iff.1 hu),
      toValue_rad (radians_iff.1 hv), bind, Except.bind, hPQ.2.2]
    exact PyRel.refl _
  simp only [residualTrueU, Core.residualTrue, hrow]

/-- **C87.**  The phase map for a radius in any length unit: the same phases, the same axes. -/
theorem C87_phase (K : List ℝ) (prU : Sc) (pr : ℝ) (hpr : Spec.Metres prU fun _ => pr)
    (piston tilt : Bool) (N : ℕ) :
    Spec.Agree (fun P Q => Spec.Metres P.x Q.x ∧ Spec.Metres P.y Q.y ∧ Spec.Radians P.phi Q.phi)
      (phaseU K prU piston tilt N) (phase K pr piston tilt N) := by
  rw [agree_iff]
  have hp := metres_iff.1 hpr
  obtain ⟨x, hx, hxq⟩ := linspaceU_is hp N
  simp only [phaseU, phase, hx]
  refine PyRel.bind (PyRel.refl _) fun K' K'' hK => ?_
  subst hK
  have h1 := hxq.comap fun q : Fin N × Fin N => q.2
  have h2 := hxq.comap fun q : Fin N × Fin N => q.1
  obtain ⟨r, hc, hr⟩ := cart2pol_is h1 h2
  obtain ⟨r2, ha, hr2⟩ := add_isQ (h1.zpow 2) (h2.zpow 2)
  have hl := lt_is (IsQ.bc (hp.zpow 2)).is hr2.is
  simp only [hc, ha, bind, Except.bind, wavefrontU_eq (div_same hr hp) (isQ_rad _) K']
  simp only [hl, pure, Except.pure, meshX, meshY]
  refine PyRel.bind (PyRel.refl _) fun W W' hW => ?_
  subst hW
  refine ⟨metres_iff.2 hxq, metres_iff.2 hxq, radians_iff.2 ?_⟩
  refine (isQ_rad _).congr rfl fun q => ?_
  norm_cast

/-! ### The functions of the package -/

theorem opdManual_is {ι : Type} {Fp F : Sc} {fp ff : ℝ} (hFp : Spec.Metres Fp fun _ => fp)
    (hF : Spec.Metres F fun _ => ff) {x y : Val ι} {f g : ι → ℝ} {dz : Sc} {d : ℝ}
    (hx : Spec.Metres x f) (hy : Spec.Metres y g) (hdz : Spec.Metres dz fun _ => d) :
    Spec.Agree Spec.Metres (opdManualU Fp F x y dz) (Telgeometry.opdManual fp ff f g d) := by
  obtain ⟨r2, h1, h2⟩ := add_isQ ((metres_iff.1 hx).zpow 2) ((metres_iff.1 hy).zpow 2)
  have hr : IsQ r2.sqrt AUnit.m.dim fun q => Real.sqrt (f q ^ 2 + g q ^ 2) :=
    h2.sqrt.congr (by funext b; push_cast; ring) fun q => by norm_cast
  have hq : ∀ (G : Sc) (c : ℝ), Spec.Metres G (fun _ => c) →
      IsQ ((r2.sqrt.div (bc ((nm 2).mul G))).zpow 2) 0
        fun q => (Real.sqrt (f q ^ 2 + g q ^ 2) / (2 * c)) ^ 2 := by
    intro G c hG
    have h3 : IsQ ((nm 2 : Sc).mul G) AUnit.m.dim fun _ => 2 * c :=
      ((is_nm 2).mulQ (metres_iff.1 hG)).congr (by simp) fun _ => rfl
    exact ((div_same hr h3).zpow 2).congr (by funext b; simp) fun q => by norm_cast
  have ha := hq Fp fp hFp
  have hb := hq F ff hF
  obtain ⟨s, h5, h6⟩ := add_isQ
    (((isQ_one fun q => 1 - (Real.sqrt (f q ^ 2 + g q ^ 2) / (2 * fp)) ^ 2).divQ
      (isQ_one fun q => 1 + (Real.sqrt (f q ^ 2 + g q ^ 2) / (2 * fp)) ^ 2).is).congr
        (e := 0) (by simp) fun _ => rfl)
    (((isQ_one fun q => 1 - (Real.sqrt (f q ^ 2 + g q ^ 2) / (2 * ff)) ^ 2).divQ
      (isQ_one fun q => 1 + (Real.sqrt (f q ^ 2 + g q ^ 2) / (2 * ff)) ^ 2).is).congr
        (e := 0) (by simp) fun _ => rfl)
  refine Or.inl ⟨(bc dz).mul s, _, ?_, rfl, metres_iff.2 ?_⟩
  · simp only [opdManualU, h1, bind, Except.bind]
    simp only [nm] at ha hb h5 ⊢
    simp only [num_sub ha, num_add ha, num_sub hb, num_add hb, h5, pure, Except.pure]
  · exact ((metres_iff.1 hdz).bc.mulQ h6.is).congr (by simp) fun q => rfl

theorem metres0_iff {s : Sc} {r : ℝ} (h : Spec.Metres0 s r) : Is0 s AUnit.m.dim fun _ => r := by
  rcases h with h | ⟨h, h'⟩
  · exact Or.inl (metres_iff.1 h).is
  · exact Or.inr ⟨h, fun _ => h'⟩

theorem blockManual_eq {ι : Type} {pr sr a L : Sc} {p s b l : ℝ} (hpr : Spec.Metres pr fun _ => p)
    (hsr : Spec.Metres0 sr s) (ha : Spec.Metres0 a b) (hL : Spec.Metres0 L l) {x y : Val ι}
    {f g : ι → ℝ} (hx : Spec.Metres x f) (hy : Spec.Metres y g) :
    blockManualU pr sr a L x y = Telgeometry.blockManual p s b l f g := by
  have hX : Is0 x AUnit.m.dim f := Or.inl (metres_iff.1 hx).is
  have hY : Is0 y AUnit.m.dim g := Or.inl (metres_iff.1 hy).is
  have hA := metres0_iff ha
  obtain ⟨r2, h1, h2⟩ := add0 hX.sq hY.sq
  obtain ⟨S, h3, h4⟩ := add0 (metres0_iff hsr) (metres0_iff hL)
  have hP : Is0 pr AUnit.m.dim fun _ => p := Or.inl (metres_iff.1 hpr).is
  simp only [blockManualU, h1, h3, bind, Except.bind, lt0 h2 hP.sq.bc, lt0 (metres0_iff hsr).sq.bc h2,
    lt0 h4.neg.bc hX, lt0 hX h4.bc, lt0 hA.neg.bc hY, lt0 hY hA.bc, lt0 h4.neg.bc hY, lt0 hY h4.bc,
    lt0 hA.neg.bc hX, lt0 hX hA.bc, pure, Except.pure, Telgeometry.blockManual]
  norm_cast

/-- **C87.**  `block_manual` and `opd_manual` do the same for lengths in any unit; the sub-reflector
radius and the size of the legs may be the plain number 0. -/
theorem C87_manual {ι : Type} (pr sr a L Fp F : Sc) (p s b l fp ff : ℝ)
    (hpr : Spec.Metres pr fun _ => p) (hsr : Spec.Metres0 sr s) (ha : Spec.Metres0 a b)
    (hL : Spec.Metres0 L l) (hFp : Spec.Metres Fp fun _ => fp) (hF : Spec.Metres F fun _ => ff) :
    Spec.SameTel (manualTelU pr sr a L Fp F : TelGeoU ι) (Telgeometry.manualTel p s b l fp ff) :=
  ⟨hpr, fun _ _ _ _ hx hy => blockManual_eq hpr hsr ha hL hx hy,
    fun _ _ _ _ _ _ hx hy hdz => opdManual_is hFp hF hx hy hdz⟩

/-- **C87.**  `opd_effelsberg` for lengths in any unit. -/
theorem C87_effelsberg {ι : Type} (x y : Val ι) (f g : ι → ℝ) (dz : Sc) (d : ℝ) (hx : Spec.Metres x f)
    (hy : Spec.Metres y g) (hdz : Spec.Metres dz fun _ => d) :
    Spec.Agree Spec.Metres (opdEffelsbergU x y dz) (Telgeometry.opdEffelsberg f g d) :=
  opdManual_is (metres_iff.2 (isQ_m _)) (metres_iff.2 (isQ_m _)) hx hy hdz

theorem taper_is {c : Sc} {z : QNum} (h : Spec.Coeff .dB c z) :
    ∃ v, taperU c = .ok v ∧ Is v 0 (fun _ => taper z) ∧ v.raw = taper z ∧
      ((v = .num fun _ => taper z) ∨ v = .qty (fun _ => taper z) .one) := by
  rcases h with ⟨r, rfl, rfl⟩ | ⟨r, k, hk, rfl, rfl⟩
  · exact ⟨_, rfl, is_num _, rfl, Or.inl rfl⟩
  · have h1 : IsQ (((Val.qty (fun _ : Unit => r) ⟨k, Pi.single .dB 1⟩).div (nm 20)).div
        (.qty (fun _ => 1) .dB)) 0 fun _ => r * k / 20 := by
      have e1 : IsQ (Val.qty (fun _ : Unit => r) ⟨k, Pi.single .dB 1⟩) AUnit.dB.dim fun _ => r * k :=
        ⟨_, _, rfl, hk, rfl, fun _ => rfl⟩
      have e2 : IsQ (Val.qty (fun _ : Unit => 1) .dB) AUnit.dB.dim fun _ => 1 :=
        ⟨_, _, rfl, one_pos, rfl, fun _ => by simp [AUnit.dB]⟩
      exact ((e1.divQ (is_nm 20)).divQ e2.is).congr (by simp) fun _ => by simp
    refine ⟨.qty (fun _ => taper (.quant r k)) .one, ?_, (isQ_one _).is, rfl, Or.inr rfl⟩
    simp only [taperU]
    rw [fn1_is _ h1]
    rfl

theorem offset_is {s : Sc} {z : QNum} (h : Spec.Coeff .length s z) :
    IsQ (offsetU s) AUnit.m.dim fun _ => offset z := by
  rcases h with ⟨r, rfl, rfl⟩ | ⟨r, k, hk, rfl, rfl⟩
  · exact isQ_m _
  · exact ⟨_, _, rfl, hk, rfl, fun _ => rfl⟩

/-- **C87.**  The parabolic illumination for lengths in any unit, a taper and offsets with or without
unit. -/
theorem C87_parabolic {ι : Type} (x y : Val ι) (f g : ι → ℝ) (i q : ℝ) (c x0 y0 : Sc)
    (c' x0' y0' : QNum) (prU : Sc) (pr : ℝ) (hpr : pr ≠ 0) (hx : Spec.Metres x f) (hy : Spec.Metres y g)
    (hp : Spec.Metres prU fun _ => pr) (hc : Spec.Coeff .dB c c') (hx0 : Spec.Coeff .length x0 x0')
    (hy0 : Spec.Coeff .length y0 y0') :
    illumParabolicU x y [.num fun _ => i, c, .num fun _ => q, x0, y0] prU =
      illumParabolicQ f g [.bare i, c', .bare q, x0', y0'] pr := by
  obtain ⟨v, hv, -, hraw, -⟩ := taper_is hc
  obtain ⟨dx, hdx, hdxq⟩ := sub_isQ (metres_iff.1 hx) (offset_is hx0).bc
  obtain ⟨dy, hdy, hdyq⟩ := sub_isQ (metres_iff.1 hy) (offset_is hy0).bc
  obtain ⟨r2, h1, h2⟩ := add_isQ (hdxq.zpow 2) (hdyq.zpow 2)
  have hr : IsQ r2.sqrt AUnit.m.dim fun q =>
      Real.sqrt ((f q - offset x0') ^ 2 + (g q - offset y0') ^ 2) :=
    h2.sqrt.congr (by funext b; push_cast; ring) fun q => by norm_cast
  have hb : IsQ ((r2.sqrt.div (bc prU)).zpow 2) 0 fun q =>
      (Real.sqrt ((f q - offset x0') ^ 2 + (g q - offset y0') ^ 2) / pr) ^ 2 :=
    ((div_same hr (metres_iff.1 hp)).zpow 2).congr (by funext b; simp) fun q => by norm_cast
  have hs := num_sub (f := fun _ => 1) hb
  simp only [illumParabolicU, illumParabolicQ, hv, hdx, hdy, h1, bind, Except.bind]
  simp only [nm, hs, Val.value, pure, Except.pure, Val.raw]
  congr 1
  funext p
  simp only [parabolicAt, Fl.div_fin _ hpr, Fl.pow_fin_two, Fl.sub, Fl.add, Fl.neg, offset]
  congr 6

theorem gaussU_eq {ι : Type} {x y : Val ι} {f g : ι → ℝ} {i : ℝ} {c x0 y0 : Sc}
    {c' x0' y0' : QNum} {prU : Sc} {pr : ℝ} (hx : Spec.Metres x f) (hy : Spec.Metres y g)
    (hp : Spec.Metres prU fun _ => pr) (hc : Spec.Coeff .dB c c') (hx0 : Spec.Coeff .length x0 x0')
    (hy0 : Spec.Coeff .length y0 y0') :
    gaussU x y (.num fun _ => i) c x0 y0 prU = .ok fun p => gaussAt i c' x0' y0' pr (f p) (g p) := by
  obtain ⟨v, hv, hvi, -, hcase⟩ := taper_is hc
  obtain ⟨dx, hdx, hdxq⟩ := sub_isQ (metres_iff.1 hx) (offset_is hx0).bc
  obtain ⟨dy, hdy, hdyq⟩ := sub_isQ (metres_iff.1 hy) (offset_is hy0).bc
  obtain ⟨r2, h1, h2⟩ := add_isQ (hdxq.zpow 2) (hdyq.zpow 2)
  have hden : IsQ ((nm 2 : Sc).mul ((v.mul prU).zpow 2)) (fun b => 2 * AUnit.m.dim b)
      fun _ => 2 * (taper c' * pr) ^ 2 :=
    ((is_nm 2).mulQ ((hvi.mulQ (metres_iff.1 hp)).zpow 2)).congr (by funext b; simp) fun _ => by norm_cast
  have he : IsQ (r2.neg.div (bc ((nm 2 : Sc).mul ((v.mul prU).zpow 2)))) 0 fun q =>
      -((f q - offset x0') ^ 2 + (g q - offset y0') ^ 2) / (2 * (taper c' * pr) ^ 2) :=
    (h2.neg.divQ hden.bc.is).congr (by funext b; simp) fun q => by norm_cast
  simp only [gaussU, hv, hdx, hdy, h1, bind, Except.bind, fn1_is _ he]
  rcases hcase with rfl | rfl <;>
    simp only [Val.mul, Val.zpow, Val.sqrt, nm, bc, Val.comap, Val.value] <;> rfl

/-- **C87.**  The same for the Gaussian illumination, with any coefficients between the taper and the
offsets. -/
theorem C87_gauss {ι : Type} (x y : Val ι) (f g : ι → ℝ) (i : ℝ) (c x0 y0 : Sc) (mid : List Sc)
    (mid' : List QNum)
    (c' x0' y0' : QNum) (prU : Sc) (pr : ℝ) (hx : Spec.Metres x f) (hy : Spec.Metres y g)
    (hp : Spec.Metres prU fun _ => pr) (hc : Spec.Coeff .dB c c') (hx0 : Spec.Coeff .length x0 x0')
    (hy0 : Spec.Coeff .length y0 y0') :
    illumGaussU x y ((.num fun _ => i) :: c :: (mid ++ [x0, y0])) prU =
      illumGaussQ f g (.bare i :: c' :: (mid' ++ [x0', y0'])) pr := by
  have e1 : ∀ (A : Type) (p q r s : A) (m : List A), (p :: q :: (m ++ [r, s])).drop
      ((p :: q :: (m ++ [r, s])).length - 2) = [r, s] := by
    intro A p q r s m
    simp
  simp only [illumGaussU, illumGaussQ, e1, List.take_succ_cons, List.take_zero,
    gaussU_eq hx hy hp hc hx0 hy0]
  rfl

theorem coeff_bare (d : Base) (r : ℝ) : Spec.Coeff d (.num fun _ => r) (.bare r) := Or.inl ⟨r, rfl, rfl⟩

/-- **C87.**  For plain coefficients, as the fit uses them, both illuminations do the same in any
length unit. -/
theorem C87_illum {ι : Type} (I : List ℝ) (pr : ℝ) (hpr : pr ≠ 0) :
    Spec.SameIllum (illumParabolicU : IllumU ι) (I.map fun r => .num fun _ => r) illumParabolic I pr ∧
      Spec.SameIllum (illumGaussU : IllumU ι) (I.map fun r => .num fun _ => r) illumGauss I pr := by
  constructor
  · intro x y f g prU hx hy hp
    match I with
    | [i, c, q, x0, y0] =>
      exact C87_parabolic x y f g i q _ _ _ _ _ _ prU pr hpr hx hy hp (coeff_bare _ _)
        (coeff_bare _ _) (coeff_bare _ _)
    | [] => rfl
    | [_] => rfl
    | [_, _] => rfl
    | [_, _, _] => rfl
    | [_, _, _, _] => rfl
    | _ :: _ :: _ :: _ :: _ :: _ :: _ => rfl
  · intro x y f g prU hx hy hp
    simp only [illumGaussU, illumGauss, illumGaussQ, List.length_map, ← List.map_take, ← List.map_drop]
    generalize List.take 2 I = A
    generalize List.drop (I.length - 2) I = B
    match A, B with
    | [i, c], [x0, y0] =>
      exact gaussU_eq hx hy hp (coeff_bare _ _) (coeff_bare _ _) (coeff_bare _ _)
    | [], _ => rfl
    | [_], _ => rfl
    | _ :: _ :: _ :: _, _ => rfl
    | [_, _], [] => rfl
    | [_, _], [_] => rfl
    | [_, _], _ :: _ :: _ :: _ => rfl

/-- **C87.**  The residual of the fit for the package's own telescope and illumination functions, every
length and angle in a unit of its own. -/
theorem C87_fit {N M : ℕ} (params : List ℝ) (beam : Fin 3 × Fin M → Fl)
    (u v : Val (Fin 3 × Fin M)) (u' v' : Fin 3 × Fin M → ℝ) (dz : Val (Fin 3)) (d : Fin 3 → ℝ)
    (wavel : Sc) (w : ℝ) (hu : Spec.Radians u u') (hv : Spec.Radians v v') (hdz : Spec.Metres dz d)
    (hw : Spec.Metres wavel fun _ => w) (pr sr a L Fp F : Sc) (p s b l fp ff : ℝ) (hp : p ≠ 0)
    (hpr : Spec.Metres pr fun _ => p) (hsr : Spec.Metres0 sr s) (ha : Spec.Metres0 a b)
    (hL : Spec.Metres0 L l) (hFp : Spec.Metres Fp fun _ => fp) (hF : Spec.Metres F fun _ => ff)
    (bf : ℝ) :
    (residualTrueU (N := N) params beam u v dz wavel illumParabolicU (manualTelU pr sr a L Fp F) bf =
      Core.residualTrue (N := N) params beam u' v' d w illumParabolic (Telgeometry.manualTel p s b l fp ff) bf) ∧
    (residualTrueU (N := N) params beam u v dz wavel illumGaussU (manualTelU pr sr a L Fp F) bf =
      Core.residualTrue (N := N) params beam u' v' d w illumGauss (Telgeometry.manualTel p s b l fp ff) bf) :=
  ⟨C87_residual params beam u v u' v' dz d wavel w hu hv hdz hw _ _ _ _
      (C87_manual pr sr a L Fp F p s b l fp ff hpr hsr ha hL hFp hF) (C87_illum _ p hp).1 bf,
    C87_residual params beam u v u' v' dz d wavel w hu hv hdz hw _ _ _ _
      (C87_manual pr sr a L Fp F p s b l fp ff hpr hsr ha hL hFp hF) (C87_illum _ p hp).2 bf⟩

/-- **C87.**  A wavelength that is no length (a frequency, say) never gives a pattern. -/
theorem C87_wavelength {N : ℕ} (IU : List Sc) (K : List ℝ) (dz : Sc) (d w : ℝ)
    (hdz : Spec.Metres dz fun _ => d) (unit : AUnit) (b : Base) (hb : b ≠ .angle)
    (hne : unit.dim b ≠ AUnit.m.dim b) (illumU : IllumU (Fin N × Fin N))
    (telU : TelGeoU (Fin N × Fin N)) (tel : TelGeo (Fin N × Fin N)) (ht : Spec.SameTel telU tel)
    (bf : ℝ) (P : PatternU N) :
    radiationPatternU IU K dz (.qty (fun _ => w) unit) illumU telU bf ≠ .ok P := by
  intro h
  have hbox : IsQ (telU.pr.mul (nm bf)) AUnit.m.dim fun _ => tel.pr * bf :=
    ((metres_iff.1 ht.pr).mulQ (is_nm bf)).congr (by simp) fun _ => rfl
  obtain ⟨x, hx, hxq⟩ := linspaceU_is hbox N
  have hX := metres_iff.2 (hxq.comap fun q : Fin N × Fin N => q.2)
  have hY := metres_iff.2 (hxq.comap fun q : Fin N × Fin N => q.1)
  have key : ∀ E, apertureU (x.comap fun q : Fin N × Fin N => q.2)
      (x.comap fun q : Fin N × Fin N => q.1) IU K dz (.qty (fun _ => w) unit) illumU telU ≠ .ok E := by
    intro E hE
    obtain ⟨r, h1, -⟩ := cart2pol_is (metres_iff.1 hX) (metres_iff.1 hY)
    simp only [apertureU, h1, bind, Except.bind] at hE
    split at hE
    · cases hE
    split at hE
    · cases hE
    rename_i W _
    rcases ht.opd _ _ _ _ dz d hX hY hdz with ⟨δ, δ', e1, -, hδ⟩ | ⟨e, e1, -⟩
    · simp only [e1] at hE
      split at hE
      · cases hE
      obtain ⟨δ₀, c, hc, rfl, -⟩ := hδ
      have hdim : ((⟨c, Pi.single .length 1⟩ : AUnit).mul unit.inv).dim b ≠ 0 := by
        simp only [AUnit.mul, AUnit.inv, Pi.add_apply, Pi.neg_apply]
        intro h0
        exact hne (by simp only [AUnit.m]; linarith)
      have hdim0 : ((⟨c, Pi.single .length 1⟩ : AUnit).mul unit.inv).dim ≠ 0 := fun h0 =>
        hdim (by rw [h0]; rfl)
      simp only [Val.div, bc, Val.comap, add, align, hdim0, if_false, bind, Except.bind] at hE
      split at hE
      · cases hE
      rename_i s hs
      split at hs
      · cases hs
      rename_i t htt
      split at htt
      · cases htt
        cases hs
        simp only [Val.mk, Val.mul, nm, expI] at hE
        rw [if_neg] at hE
        · cases hE
        · intro hall
          have := hall b hb
          apply hdim
          simp only [AUnit.mul, AUnit.rad, Pi.add_apply, Pi.single_apply, hb, if_false, add_zero] at this ⊢
          exact this
      · cases htt
    · simp only [e1] at hE
      cases hE
  simp only [radiationPatternU, radiationPatternBoxU, hx, bind, Except.bind] at h
  repeat' split at h
  all_goals first
    | cases h
    | skip
  all_goals
    rename_i hE
    exact key _ hE

/-! ### Plain numbers -/

theorem sum_num {ι : Type} (l : List (Val ι)) (h : ∀ v ∈ l, ∃ f, v = .num f) :
    ∃ f, Val.sum l = .ok (.num f) := by
  have key : ∀ (l : List (Val ι)) (a : ι → ℝ), (∀ v ∈ l, ∃ f, v = .num f) →
      ∃ f, l.foldlM add (.num a) = .ok (.num f) := by
    intro l
    induction l with
    | nil => intro a _; exact ⟨a, rfl⟩
    | cons v l ih =>
      intro a hl
      obtain ⟨f, rfl⟩ := hl v (by simp)
      exact ih _ fun w hw => hl w (by simp [hw])
  exact key l _ h

theorem mapM_mem {α β : Type} {f : α → Py β} {P : β → Prop} (hP : ∀ a b, f a = .ok b → P b)
    (l : List α) (r : List β) (h : l.mapM f = .ok r) : ∀ b ∈ r, P b := by
  induction l generalizing r with
  | nil => cases h; simp
  | cons a l ih =>
    rw [List.mapM_cons] at h
    cases ha : f a with
    | error e => rw [ha] at h; cases h
    | ok b =>
      cases hl : l.mapM f with
      | error e => rw [ha, hl] at h; cases h
      | ok bs =>
        rw [ha, hl] at h
        cases h
        intro c hc
        rcases List.mem_cons.1 hc with rfl | hc
        · exact hP a c ha
        · exact ih bs hl c hc

theorem rTermU_num {ι : Type} {n a b : ℤ} {f : ι → ℝ} {s : ℕ} {v : Val ι}
    (h : rTermU n a b (.num f) s = .ok v) : ∃ g, v = .num g := by
  simp only [rTermU, bind, Except.bind, pure, Except.pure] at h
  repeat' split at h
  all_goals first
    | cases h
    | skip
  exact ⟨_, rfl⟩

theorem RU_num {ι : Type} {n m : ℤ} {f : ι → ℝ} {v : Val ι} (h : RU n m (.num f) = .ok v) :
    ∃ g, v = .num g := by
  simp only [RU, bind, Except.bind] at h
  split at h
  · cases h
  · rename_i ts hts
    obtain ⟨g, hg⟩ := sum_num ts (mapM_mem (P := fun v => ∃ f, v = .num f)
      (fun _ _ h => rTermU_num h) _ _ hts)
    rw [hg] at h
    cases h
    exact ⟨g, rfl⟩

theorem UU_num {ι : Type} {n l : ℤ} {f g : ι → ℝ} {v : Val ι} (h : UU n l (.num f) (.num g) = .ok v) :
    ∃ w, v = .num w := by
  unfold UU at h
  split at h
  · cases h
  · simp only [bind, Except.bind] at h
    split at h
    · cases h
    · rename_i R hR
      obtain ⟨R', rfl⟩ := RU_num hR
      split at h <;> (cases h; exact ⟨_, rfl⟩)

/-- The wavefront of plain arrays: the sum has no attribute `value`. -/
theorem wavefrontU_num {ι : Type} (f g W : ι → ℝ) (K : List ℝ) :
    wavefrontU (.num f) (.num g) K ≠ .ok W := by
  intro h
  simp only [wavefrontU, bind, Except.bind] at h
  split at h
  · cases h
  · rename_i ts hts
    obtain ⟨s, hs⟩ := sum_num ts (mapM_mem (P := fun v => ∃ f, v = .num f) (fun i v h => by
      simp only [wfTermU, bind, Except.bind, pure, Except.pure] at h
      repeat' split at h
      all_goals cases h
      rename_i u hu
      obtain ⟨w, rfl⟩ := UU_num hu
      exact ⟨_, rfl⟩) _ _ hts)
    rw [hs] at h
    cases h

/-- **C87.**  A radius without a unit never gives a phase map: the call raises. -/
theorem C87_plain (K : List ℝ) (pr : ℝ) (piston tilt : Bool) (N : ℕ) (P : PhaseMapU N) :
    phaseU K (.num fun _ => pr) piston tilt N ≠ .ok P := by
  intro h
  simp only [phaseU, linspaceU, align, Val.neg, bind, Except.bind, pure, Except.pure, Val.mk, Val.comap,
    cart2polU, add, atan2, Val.zpow, Option.map, Val.sqrt, Val.div, bc] at h
  split at h
  · cases h
  · split at h
    · cases h
    · rename_i hW
      exact wavefrontU_num _ _ _ _ hW

/-! ### Examples -/

/-- A telescope with a radius of 50 m given in centimetres, no blockage (plain zeros), foci in metres. -/
noncomputable def Spec.cmTel (N : ℕ) : TelGeoU (Fin N × Fin N) :=
  manualTelU (.qty (fun _ => 5000) .cm) (.num fun _ => 0) (.num fun _ => 0) (.num fun _ => 0)
    (.qty (fun _ => 30) .m) (.qty (fun _ => 387000) .mm)

theorem cmTel_same (N : ℕ) : Spec.SameTel (Spec.cmTel N) (Telgeometry.manualTel 50 0 0 0 30 387) := by
  refine C87_manual _ _ _ _ _ _ _ _ _ _ _ _ ⟨_, 1 / 100, by norm_num, rfl, by norm_num⟩
    (Or.inr ⟨rfl, rfl⟩) (Or.inr ⟨rfl, rfl⟩) (Or.inr ⟨rfl, rfl⟩) ⟨_, 1, by norm_num, rfl, by norm_num⟩
    ⟨_, 1 / 1000, by norm_num, rfl, by norm_num⟩

/-- A fit residual with the radius in centimetres, the sky in degrees, the wavelength in millimetres and
the defocus in centimetres. -/
example {N M : ℕ} (params : List ℝ) (beam : Fin 3 × Fin M → Fl) (u v : Fin 3 × Fin M → ℝ) :
    residualTrueU (N := N) params beam (.qty u .deg) (.qty v .deg) (.qty ![-2, 0, 2] .cm)
      (.qty (fun _ => 9) .mm) illumParabolicU (Spec.cmTel N) 5 =
    Core.residualTrue (N := N) params beam (fun q => u q * (Real.pi / 180))
      (fun q => v q * (Real.pi / 180)) (fun i => ![-2, 0, 2] i * (1 / 100)) (9 * (1 / 1000))
      illumParabolic (Telgeometry.manualTel 50 0 0 0 30 387) 5 :=
  C87_residual params beam _ _ _ _ _ _ _ _ ⟨u, _, by positivity, rfl, fun _ => rfl⟩
    ⟨v, _, by positivity, rfl, fun _ => rfl⟩ ⟨_, 1 / 100, by norm_num, rfl, fun _ => rfl⟩
    ⟨_, 1 / 1000, by norm_num, rfl, fun _ => rfl⟩ _ _ _ _ (cmTel_same N)
    (C87_illum _ (50 : ℝ) (by norm_num)).1 5

/-- The phase map of a 50 m dish given in centimetres returns. -/
example : ∃ P, phaseU [0, 1 / 10, 0] (.qty (fun _ => 5000) .cm) true true 4 = .ok P := by
  obtain ⟨Q, hQ⟩ : ∃ Q, phase [0, 1 / 10, 0] 50 true true 4 = .ok Q := by
    have h : ∀ f g : Fin 4 × Fin 4 → ℝ, ∃ W, wavefront f g [0, 1 / 10, 0] = .ok W := fun f g =>
      ⟨_, wavefront_ok f g [0, 1 / 10, 0] 1 (by rfl)⟩
    simp only [phase, maskCoeff]
    obtain ⟨W, hW⟩ := h (fun q => (cart2pol (meshX (linspace (-50) 50 4) (linspace (-50) 50 4) q)
        (meshY (linspace (-50) 50 4) (linspace (-50) 50 4) q)).1 / 50)
      (fun q => (cart2pol (meshX (linspace (-50) 50 4) (linspace (-50) 50 4) q)
        (meshY (linspace (-50) 50 4) (linspace (-50) 50 4) q)).2)
    exact ⟨_, by simp only [Bool.not_true, Bool.false_eq_true, if_false, bind, Except.bind, pure,
      Except.pure, hW]; rfl⟩
  rcases C87_phase [0, 1 / 10, 0] (.qty (fun _ => 5000) .cm) 50
    ⟨_, 1 / 100, by norm_num, rfl, by norm_num⟩ true true 4 with ⟨P, _, hP, -⟩ | ⟨e, -, he⟩
  · exact ⟨P, hP⟩
  · rw [hQ] at he; cases he

/-- A frequency in place of the wavelength. -/
example {N : ℕ} (I : List Sc) (K : List ℝ) (illumU : IllumU (Fin N × Fin N)) (P : PatternU N) :
    radiationPatternU I K (.qty (fun _ => 2) .cm) (.qty (fun _ => 32) .Hz) illumU (Spec.cmTel N) 5 ≠
      .ok P :=
  C87_wavelength I K _ (2 * (1 / 100)) 32 ⟨_, 1 / 100, by norm_num, rfl, fun _ => rfl⟩ .Hz .time
    (by decide) (by simp [AUnit.Hz, AUnit.m]) illumU _ _ (cmTel_same N) 5 P

end Verif.Props
