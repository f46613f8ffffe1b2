import Verif.Lemmas.Wavefront
import Verif.Props.Units
import Verif.Props.Zernike

/-!
# C119: what the documentation says about the functions

The pages under docs/ give a table of the Zernike circle polynomials, say when the radial polynomial
vanishes, call the aperture functions along a line with `y=0` and compute a radiation pattern with
`box_factor=5 * pr`.  Here is what the code does in each case.
-/

namespace Verif.Props

open Verif Verif.Np Verif.Aperture Verif.Units Verif.Units.Val

/-! ### The table of polynomials -/

namespace Spec

/-- docs/zernike/index.rst, the table of the polynomials to order four, as printed but for (4, -4). -/
noncomputable def zernikeTable (r t : ℝ) : List ((ℤ × ℤ) × ℝ) :=
  [((0, 0), 1),
   ((1, -1), r * Real.sin t), ((1, 1), r * Real.cos t),
   ((2, -2), r ^ 2 * Real.sin (2 * t)), ((2, 0), 2 * r ^ 2 - 1), ((2, 2), r ^ 2 * Real.cos (2 * t)),
   ((3, -3), r ^ 3 * Real.sin (3 * t)), ((3, -1), (3 * r ^ 3 - 2 * r) * Real.sin t),
   ((3, 1), (3 * r ^ 3 - 2 * r) * Real.cos t), ((3, 3), r ^ 3 * Real.cos (3 * t)),
   ((4, -4), r ^ 4 * Real.sin (4 * t)), ((4, -2), (4 * r ^ 4 - 3 * r ^ 2) * Real.sin (2 * t)),
   ((4, 0), 6 * r ^ 4 - 6 * r ^ 2 + 1), ((4, 2), (4 * r ^ 4 - 3 * r ^ 2) * Real.cos (2 * t)),
   ((4, 4), r ^ 4 * Real.cos (4 * t))]

end Spec

open Zernike in
theorem R_small (r : ℝ) : R 0 0 r = .ok 1 ∧ R 1 1 r = .ok r ∧ R 2 2 r = .ok (r ^ 2) ∧
    R 2 0 r = .ok (2 * r ^ 2 - 1) ∧ R 3 3 r = .ok (r ^ 3) ∧ R 3 1 r = .ok (3 * r ^ 3 - 2 * r) ∧
    R 4 4 r = .ok (r ^ 4) ∧ R 4 2 r = .ok (4 * r ^ 4 - 3 * r ^ 2) ∧
    R 4 0 r = .ok (6 * r ^ 4 - 6 * r ^ 2 + 1) := by
  refine ⟨?_, ?_, ?_, ?_, ?_, ?_, ?_, ?_, ?_⟩ <;>
    (simp [R, rTerm, factorial, List.range_succ, Nat.factorial, bind, Except.bind, pure, Except.pure]
     try norm_cast
     try ring_nf
     try (simp only [Int.cast_negSucc]; norm_num; ring))

/-- **C119.**  The table of the documentation holds for every radius and angle, with the sine for
`(4, -4)`; its order is the order of the coefficients. -/
theorem C119_table (r t : ℝ) :
    (∀ p ∈ Spec.zernikeTable r t, Zernike.U (.int p.1.1) (.int p.1.2) r t = .ok p.2) ∧
      (Spec.zernikeTable r t).map Prod.fst = nlList 4 := by
  obtain ⟨h00, h11, h22, h20, h33, h31, h44, h42, h40⟩ := R_small r
  constructor
  · simp only [Spec.zernikeTable, List.forall_mem_cons, List.not_mem_nil, false_imp_iff, implies_true,
      and_true]
    refine ⟨?_, ?_, ?_, ?_, ?_, ?_, ?_, ?_, ?_, ?_, ?_, ?_, ?_, ?_, ?_⟩ <;>
      simp [Zernike.U, h00, h11, h22, h20, h33, h31, h44, h42, h40, bind, Except.bind, pure, Except.pure]
  · rfl

/-- **C119.**  The table printed has `ρ⁴ cos 4θ` for `(4, -4)`; that is not what `U` returns: the two
differ wherever `tan 4θ ≠ 1` away from the centre. -/
theorem C119_misprint (r t : ℝ) (hr : r ≠ 0) (ht : Real.sin (4 * t) ≠ Real.cos (4 * t)) :
    Zernike.U (.int 4) (.int (-4)) r t ≠ .ok (r ^ 4 * Real.cos (4 * t)) := by
  rw [(C119_table r t).1 ((4, -4), r ^ 4 * Real.sin (4 * t)) (by simp [Spec.zernikeTable])]
  intro h
  injection h with h
  exact ht (mul_left_cancel₀ (pow_ne_zero 4 hr) h)

/-- **C119.**  "The expression only works when `n - m` is even, otherwise it vanishes": for an odd
`n - m` the function `R` does not vanish; as for an even one it is zero for finitely many radii
only. -/
theorem C119_odd (n m : ℕ) (h : m ≤ n) : {rho : ℝ | Zernike.R n m rho = .ok 0}.Finite := by
  classical
  set a : ℤ := ((n : ℤ) + m) / 2 with ha
  set b : ℤ := ((n : ℤ) - m) / 2 with hb
  let c : ℕ → ℝ := fun s => (-1) ^ s * (((n : ℤ) - s).toNat.factorial : ℝ) /
    (((s : ℤ).toNat.factorial : ℝ) * (a - s).toNat.factorial * (b - s).toNat.factorial)
  let P : Polynomial ℝ := ∑ s ∈ Finset.range (b + 1).toNat, Polynomial.C (c s) * Polynomial.X ^ (n - 2 * s)
  have hP : P ≠ 0 := by
    intro h0
    have hc : P.coeff n = c 0 := by
      simp only [P, Polynomial.finsetSum_coeff, Polynomial.coeff_C_mul_X_pow]
      rw [Finset.sum_eq_single_of_mem 0 (Finset.mem_range.2 (by omega))]
      · simp
      · intro s hs hs0
        rw [Finset.mem_range] at hs
        rw [if_neg (by omega)]
    rw [h0, Polynomial.coeff_zero] at hc
    have : c 0 ≠ 0 := by simp only [c]; positivity
    exact this hc.symm
  refine (Polynomial.finite_setOf_isRoot hP).subset fun rho hr => ?_
  have hr' : Zernike.R n m rho = .ok 0 := hr
  rw [R_rv (by omega) (by omega)] at hr'
  injection hr' with hr'
  show P.eval rho = 0
  rw [← hr', Polynomial.eval_finset_sum, ← List.sum_toFinset _ List.nodup_range, List.toFinset_range]
  refine Finset.sum_congr rfl fun s hs => ?_
  rw [Finset.mem_range] at hs
  have e : ((n : ℤ) - 2 * s) = ((n - 2 * s : ℕ) : ℤ) := by omega
  simp only [Polynomial.eval_mul, Polynomial.eval_C, Polynomial.eval_pow, Polynomial.eval_X, rv, c]
  rw [e, zpow_natCast]
  ring

/-! ### Along a line -/

section
variable {ι : Type}

/-- The sum of the squares and the polar coordinates for a plain 0. -/
theorem line_same {x : Val ι} {f : ι → ℝ} (hx : Spec.Metres x f) : ∃ y₀, Spec.Metres y₀ (fun _ => 0) ∧
    add (x.zpow 2) ((nm 0 : Val ι).zpow 2) = add (x.zpow 2) (y₀.zpow 2) ∧
    atan2 (nm 0) x = atan2 y₀ x := by
  obtain ⟨g, c, hc, rfl, hg⟩ := hx
  refine ⟨.qty (fun _ => 0) ⟨c, Pi.single .length 1⟩, ⟨_, c, hc, rfl, by simp⟩, ?_, ?_⟩
  · have hd : (AUnit.zpow ⟨c, Pi.single .length 1⟩ 2).dim ≠ 0 := by
      intro h
      have := congrFun h .length
      simp [AUnit.zpow] at this
    simp [add, align, Val.zpow, nm, hd]
  · have hd : (Pi.single Base.length (1 : ℚ)) ≠ (0 : Dim) := by
      intro h
      have := congrFun h .length
      simp at this
    simp [atan2, align, nm, hd, hc.ne']

theorem line_sub {w : Sc} {r : ℝ} (h : Spec.Metres w fun _ => r) :
    ∃ d, sub (nm 0 : Val ι) (bc w) = .ok d ∧ IsQ d AUnit.m.dim fun _ => 0 - r := by
  obtain ⟨g, c, hc, rfl, hg⟩ := h
  have hd : (Pi.single Base.length (1 : ℚ)) ≠ (0 : Dim) := by
    intro h
    have := congrFun h .length
    simp at this
  refine ⟨.qty (fun _ => 0 - g ()) ⟨c, Pi.single .length 1⟩, ?_, ?_⟩
  · simp [sub, align, nm, bc, Val.comap, hd, bind, Except.bind, pure, Except.pure, Val.mk]
  · exact ⟨_, _, rfl, hc, rfl, fun q => by have := hg (); simp only at this ⊢; rw [← this]; ring⟩

theorem line_opd {Fp F : Sc} {fp ff : ℝ} (hFp : Spec.Metres Fp fun _ => fp)
    (hF : Spec.Metres F fun _ => ff) {x : Val ι} {f : ι → ℝ} {dz : Sc} {d : ℝ}
    (hx : Spec.Metres x f) (hdz : Spec.Metres dz fun _ => d) :
    Spec.Agree Spec.Metres (opdManualU Fp F x (nm 0) dz)
      (Telgeometry.opdManual fp ff f (fun _ => 0) d) := by
  obtain ⟨y₀, hy, h1, -⟩ := line_same hx
  have := opdManual_is hFp hF hx hy hdz
  simp only [opdManualU] at this ⊢
  rw [h1]
  exact this

theorem line_block {pr sr a L : Sc} {p s b l : ℝ} (hpr : Spec.Metres pr fun _ => p)
    (hsr : Spec.Metres0 sr s) (ha : Spec.Metres0 a b) (hL : Spec.Metres0 L l) {x : Val ι}
    {f : ι → ℝ} (hx : Spec.Metres x f) :
    blockManualU pr sr a L x (nm 0) = Telgeometry.blockManual p s b l f fun _ => 0 := by
  have hX : Is0 x AUnit.m.dim f := Or.inl (metres_iff.1 hx).is
  have hY : Is0 (nm 0 : Val ι) AUnit.m.dim fun _ => 0 := Or.inr ⟨rfl, fun _ => rfl⟩
  have hA := metres0_iff ha
  obtain ⟨r2, h1, h2⟩ := add0 hX.sq hY.sq
  obtain ⟨S, h3, h4⟩ := add0 (metres0_iff hsr) (metres0_iff hL)
  have hP : Is0 pr AUnit.m.dim fun _ => p := Or.inl (metres_iff.1 hpr).is
  simp only [blockManualU, h1, h3, bind, Except.bind, lt0 h2 hP.sq.bc, lt0 (metres0_iff hsr).sq.bc h2,
    lt0 h4.neg.bc hX, lt0 hX h4.bc, lt0 hA.neg.bc hY, lt0 hY hA.bc, lt0 h4.neg.bc hY, lt0 hY h4.bc,
    lt0 hA.neg.bc hX, lt0 hX hA.bc, pure, Except.pure, Telgeometry.blockManual]
  norm_cast

theorem line_parabolic {x : Val ι} {f : ι → ℝ} {i q : ℝ} {c x0 y0 : Sc} {c' x0' y0' : QNum} {prU : Sc}
    {pr : ℝ} (hpr : pr ≠ 0) (hx : Spec.Metres x f) (hp : Spec.Metres prU fun _ => pr)
    (hc : Spec.Coeff .dB c c') (hx0 : Spec.Coeff .length x0 x0') (hy0 : Spec.Coeff .length y0 y0') :
    illumParabolicU x (nm 0) [.num fun _ => i, c, .num fun _ => q, x0, y0] prU =
      illumParabolicQ f (fun _ => 0) [.bare i, c', .bare q, x0', y0'] pr := by
  obtain ⟨v, hv, -, hraw, -⟩ := taper_is hc
  obtain ⟨dx, hdx, hdxq⟩ := sub_isQ (metres_iff.1 hx) (offset_is hx0).bc
  obtain ⟨dy, hdy, hdyq⟩ := line_sub (ι := ι) (metres_iff.2 (offset_is hy0))
  obtain ⟨r2, h1, h2⟩ := add_isQ (hdxq.zpow 2) (hdyq.zpow 2)
  have hr : IsQ r2.sqrt AUnit.m.dim fun q =>
      Real.sqrt ((f q - offset x0') ^ 2 + (0 - offset y0') ^ 2) :=
    h2.sqrt.congr (by funext b; push_cast; ring) fun q => by norm_cast
  have hb : IsQ ((r2.sqrt.div (bc prU)).zpow 2) 0 fun q =>
      (Real.sqrt ((f q - offset x0') ^ 2 + (0 - offset y0') ^ 2) / pr) ^ 2 :=
    ((div_same hr (metres_iff.1 hp)).zpow 2).congr (by funext b; simp) fun q => by norm_cast
  have hs := num_sub (f := fun _ => 1) hb
  simp only [illumParabolicU, illumParabolicQ, hv, hdx, hdy, h1, bind, Except.bind]
  simp only [nm, hs, Val.value, pure, Except.pure, Val.raw]
  congr 1
  funext p
  simp only [parabolicAt, Fl.div_fin _ hpr, Fl.pow_fin_two, Fl.sub, Fl.add, Fl.neg, offset]
  congr 6

theorem line_gauss {x : Val ι} {f : ι → ℝ} {i : ℝ} {c x0 y0 : Sc} {c' x0' y0' : QNum} {prU : Sc}
    {pr : ℝ} (hx : Spec.Metres x f) (hp : Spec.Metres prU fun _ => pr) (hc : Spec.Coeff .dB c c')
    (hx0 : Spec.Coeff .length x0 x0') (hy0 : Spec.Coeff .length y0 y0') :
    gaussU x (nm 0) (.num fun _ => i) c x0 y0 prU =
      .ok fun p => gaussAt i c' x0' y0' pr (f p) 0 := by
  obtain ⟨v, hv, hvi, -, hcase⟩ := taper_is hc
  obtain ⟨dx, hdx, hdxq⟩ := sub_isQ (metres_iff.1 hx) (offset_is hx0).bc
  obtain ⟨dy, hdy, hdyq⟩ := line_sub (ι := ι) (metres_iff.2 (offset_is hy0))
  obtain ⟨r2, h1, h2⟩ := add_isQ (hdxq.zpow 2) (hdyq.zpow 2)
  have hden : IsQ ((nm 2 : Sc).mul ((v.mul prU).zpow 2)) (fun b => 2 * AUnit.m.dim b)
      fun _ => 2 * (taper c' * pr) ^ 2 :=
    ((is_nm 2).mulQ ((hvi.mulQ (metres_iff.1 hp)).zpow 2)).congr (by funext b; simp) fun _ => by norm_cast
  have he : IsQ (r2.neg.div (bc ((nm 2 : Sc).mul ((v.mul prU).zpow 2)))) 0 fun q =>
      -((f q - offset x0') ^ 2 + (0 - offset y0') ^ 2) / (2 * (taper c' * pr) ^ 2) :=
    (h2.neg.divQ hden.bc.is).congr (by funext b; simp) fun q => by norm_cast
  simp only [gaussU, hv, hdx, hdy, h1, bind, Except.bind, fn1_is _ he]
  rcases hcase with rfl | rfl <;>
    simp only [Val.mul, Val.zpow, Val.sqrt, nm, bc, Val.comap, Val.value] <;> rfl

end

/-- **C119.**  "They can also be used in one dimensional analysis by adding `y=0`": with the plain
number 0 for `y` the blockage, the path difference and both illuminations along the line are, for
lengths in any unit, the values at `(x, 0 m)`. -/
theorem C119_line {ι : Type} (x : Val ι) (f : ι → ℝ) (hx : Spec.Metres x f) :
    (∀ pr sr a L p s b l, Spec.Metres pr (fun _ => p) → Spec.Metres0 sr s → Spec.Metres0 a b →
      Spec.Metres0 L l →
      blockManualU pr sr a L x (nm 0) = Telgeometry.blockManual p s b l f fun _ => 0) ∧
    (∀ Fp F fp ff dz d, Spec.Metres Fp (fun _ => fp) → Spec.Metres F (fun _ => ff) →
      Spec.Metres dz (fun _ => d) → Spec.Agree Spec.Metres (opdManualU Fp F x (nm 0) dz)
        (Telgeometry.opdManual fp ff f (fun _ => 0) d)) ∧
    (∀ dz d, Spec.Metres dz (fun _ => d) → Spec.Agree Spec.Metres (opdEffelsbergU x (nm 0) dz)
        (Telgeometry.opdEffelsberg f (fun _ => 0) d)) ∧
    (∀ i q c x0 y0 c' x0' y0' prU pr, pr ≠ 0 → Spec.Metres prU (fun _ => pr) → Spec.Coeff .dB c c' →
      Spec.Coeff .length x0 x0' → Spec.Coeff .length y0 y0' →
      illumParabolicU x (nm 0) [.num fun _ => i, c, .num fun _ => q, x0, y0] prU =
        illumParabolicQ f (fun _ => 0) [.bare i, c', .bare q, x0', y0'] pr) ∧
    (∀ i c x0 y0 c' x0' y0' prU pr, Spec.Metres prU (fun _ => pr) → Spec.Coeff .dB c c' →
      Spec.Coeff .length x0 x0' → Spec.Coeff .length y0 y0' →
      illumGaussU x (nm 0) [.num fun _ => i, c, x0, y0] prU =
        illumGaussQ f (fun _ => 0) [.bare i, c', x0', y0'] pr) := by
  refine ⟨fun pr sr a L p s b l h1 h2 h3 h4 => line_block h1 h2 h3 h4 hx,
    fun Fp F fp ff dz d h1 h2 h3 => line_opd h1 h2 hx h3,
    fun dz d h => line_opd (metres_iff.2 (isQ_m _)) (metres_iff.2 (isQ_m _)) hx h,
    fun i q c x0 y0 c' x0' y0' prU pr hpr hp hc h1 h2 => line_parabolic hpr hx hp hc h1 h2,
    fun i c x0 y0 c' x0' y0' prU pr hp hc h1 h2 => ?_⟩
  show gaussU x (nm 0) (.num fun _ => i) c x0 y0 prU = _
  rw [line_gauss hx hp hc h1 h2]
  rfl

/-- **C119.**  The aperture distribution along the line `y=0`, for the package's own telescope and
illumination functions: the values at `(x, 0 m)`. -/
theorem C119_aperture {ι : Type} (x : Val ι) (f : ι → ℝ) (hx : Spec.Metres x f) (i q c x0 y0 : ℝ)
    (K : List ℝ) (dz wavel : Sc) (d w : ℝ) (hdz : Spec.Metres dz fun _ => d)
    (hw : Spec.Metres wavel fun _ => w) (pr sr a L Fp F : Sc) (p s b l fp ff : ℝ) (hp : p ≠ 0)
    (hpr : Spec.Metres pr fun _ => p) (hsr : Spec.Metres0 sr s) (ha : Spec.Metres0 a b)
    (hL : Spec.Metres0 L l) (hFp : Spec.Metres Fp fun _ => fp) (hF : Spec.Metres F fun _ => ff) :
    apertureU x (nm 0) [nm i, nm c, nm q, nm x0, nm y0] K dz wavel illumParabolicU
        (manualTelU pr sr a L Fp F) =
      aperture f (fun _ => 0) [i, c, q, x0, y0] K d w illumParabolic
        (Telgeometry.manualTel p s b l fp ff) ∧
    apertureU x (nm 0) [nm i, nm c, nm q, nm x0, nm y0] K dz wavel illumGaussU
        (manualTelU pr sr a L Fp F) =
      aperture f (fun _ => 0) [i, c, q, x0, y0] K d w illumGauss
        (Telgeometry.manualTel p s b l fp ff) := by
  obtain ⟨y₀, hy, h1, h2⟩ := line_same hx
  obtain ⟨B, O, -, -, -⟩ := C119_line x f hx
  have hB := B pr sr a L p s b l hpr hsr ha hL
  have hB₀ := blockManual_eq hpr hsr ha hL hx hy
  have hO : opdManualU Fp F x (nm 0) dz = opdManualU Fp F x y₀ dz := by
    simp only [opdManualU]
    rw [h1]
  have hC : cart2polU x (nm 0) = cart2polU x y₀ := by
    simp only [cart2polU]
    rw [h1, h2]
  have hP : illumParabolicU x (nm 0) [nm i, nm c, nm q, nm x0, nm y0] pr =
      illumParabolicU x y₀ [nm i, nm c, nm q, nm x0, nm y0] pr :=
    (line_parabolic hp hx hpr (coeff_bare _ _) (coeff_bare _ _) (coeff_bare _ _)).trans
      (C87_parabolic x y₀ f _ i q _ _ _ _ _ _ pr p hp hx hy hpr (coeff_bare _ _) (coeff_bare _ _)
        (coeff_bare _ _)).symm
  have hG : illumGaussU x (nm 0) [nm i, nm c, nm q, nm x0, nm y0] pr =
      illumGaussU x y₀ [nm i, nm c, nm q, nm x0, nm y0] pr :=
    (line_gauss hx hpr (coeff_bare _ _) (coeff_bare _ _) (coeff_bare _ _)).trans
      (gaussU_eq hx hy hpr (coeff_bare _ _) (coeff_bare _ _) (coeff_bare _ _)).symm
  have hT : Spec.SameTel (manualTelU pr sr a L Fp F : TelGeoU ι) (Telgeometry.manualTel p s b l fp ff) :=
    C87_manual pr sr a L Fp F p s b l fp ff hpr hsr ha hL hFp hF
  have hI := C87_illum (ι := ι) [i, c, q, x0, y0] p hp
  constructor
  · refine Eq.trans ?_ (apertureU_eq hx hy K hdz hw hT hI.1)
    simp only [apertureU, manualTelU, hC, hB, hB₀, hO, hP, List.map_cons, List.map_nil]
    rfl
  · refine Eq.trans ?_ (apertureU_eq hx hy K hdz hw hT hI.2)
    simp only [apertureU, manualTelU, hC, hB, hB₀, hO, hG, List.map_cons, List.map_nil]
    rfl

/-- **C119.**  Any plain number but 0 for `y` raises `TypeError`, as does a plain `y` array with an
element that is not 0, whatever the telescope and the illumination. -/
theorem C119_plain {ι : Type} (x : Val ι) (f g : ι → ℝ) (hx : Spec.Metres x f) (q : ι) (hq : g q ≠ 0)
    (I : List Sc) (K : List ℝ) (dz wavel : Sc) (illumU : IllumU ι) (telU : TelGeoU ι) :
    apertureU x (.num g) I K dz wavel illumU telU = .error .typeError := by
  obtain ⟨g', c, hc, rfl, -⟩ := hx
  have hd : (AUnit.zpow ⟨c, Pi.single .length 1⟩ 2).dim ≠ 0 := by
    intro h
    have := congrFun h .length
    simp [AUnit.zpow] at this
  have h0 : ¬ ∀ q, g q ^ (2 : ℤ) = 0 := fun h => hq (by simpa using h q)
  simp only [apertureU, cart2polU, add, align, Val.zpow, hd, if_false, h0, bind, Except.bind]

/-! ### A box factor that is a length -/

section
variable {ι : Type}

/-- The piston has no unit, the tilt the unit of the radius. -/
theorem UU_first {rho theta : Val ι} {d : Dim} {f g : ι → ℝ} (h : IsQ rho d f)
    (ht : IsQ theta AUnit.rad.dim g) :
    (∃ v w, UU 0 0 rho theta = .ok v ∧ IsQ v 0 w) ∧ ∃ v w, UU 1 (-1) rho theta = .ok v ∧ IsQ v d w := by
  classical
  have hm : ∀ k : ℤ, IsQ ((nm (k : ℝ) : Val ι).mul theta) AUnit.rad.dim fun q => (k : ℝ) * g q :=
    fun k => ((is_nm _).mulQ ht).congr (by simp) fun _ => rfl
  have key : ∀ n : ℤ, 0 ≤ n → n ≤ 1 → ∃ v w, RU n n rho = .ok v ∧
      IsQ v (fun b => (n : ℚ) * d b) w := by
    intro n h0 h1
    have hs := h.zpow n
    have hn : n = 0 ∨ n = 1 := by omega
    obtain ⟨r, u, hr, hu, hd, hf⟩ := (((is_nm (ι := ι) ((-1) ^ 0 * (n.toNat.factorial : ℝ))).mulQ hs).divQ
      (is_nm ((1 : ℝ) * n.toNat.factorial * 1)))
    have hterm : rTermU n n 0 rho 0 = .ok (.qty r u) := by
      rw [← hr]
      simp [rTermU, Zernike.factorial, bind, Except.bind, pure, Except.pure, show ¬ n < 0 by omega]
    have hu' : u.dim = fun b => (n : ℚ) * d b := by rw [hd]; funext b; simp
    refine ⟨.qty (if u.dim = 0 then fun q => r q * u.scale else r) (if u.dim = 0 then .one else u),
      if u.dim = 0 then fun q => r q * u.scale else fun q => r q * u.scale, ?_, ?_⟩
    · simp only [RU]
      have e1 : (n + n) / 2 = n := by omega
      have e2 : (n - n) / 2 = 0 := by omega
      rw [e1, e2]
      simp only [show ((0 : ℤ) + 1).toNat = 1 from rfl, List.range_one, List.mapM_cons, List.mapM_nil,
        hterm, bind, Except.bind, pure, Except.pure, Val.sum, List.foldlM_cons, List.foldlM_nil, add, align,
        nm]
      by_cases hd0 : u.dim = 0
      · simp [hd0, Val.mk]
      · simp [hd0, Val.mk]
    · by_cases hd0 : u.dim = 0
      · rw [← hu', hd0]
        simp only [if_true]
        exact isQ_one _
      · rw [← hu']
        simp only [hd0, if_false]
        exact ⟨_, _, rfl, hu, rfl, fun _ => rfl⟩
  constructor
  · obtain ⟨v, w, hv, hw⟩ := key 0 le_rfl (by norm_num)
    refine ⟨_, _, ?_, (hw.mulQ (isQ_one fun q => Real.cos (((0 : ℤ) : ℝ) * g q)).is).congr
      (by funext b; simp) fun _ => rfl⟩
    · have := trig_is Real.cos (hm 0)
      simp only [UU, lt_irrefl, if_false, abs_zero, hv, bind, Except.bind, pure, Except.pure, this]
  · obtain ⟨v, w, hv, hw⟩ := key 1 (by norm_num) le_rfl
    refine ⟨_, _, ?_, (hw.mulQ (isQ_one fun q => Real.sin (((1 : ℤ) : ℝ) * g q)).is).congr
      (by funext b; simp) fun _ => rfl⟩
    · have := trig_is Real.sin (hm 1)
      simp only [UU, abs_neg, abs_one, hv, bind, Except.bind, pure, Except.pure, this]
      norm_num

theorem mapM_two {α β : Type} {F : α → Py β} {a b : α} {l : List α} {r : List β}
    (h : (a :: b :: l).mapM F = .ok r) : ∃ x y t, F a = .ok x ∧ F b = .ok y ∧ r = x :: y :: t := by
  simp only [List.mapM_cons, bind, Except.bind, pure, Except.pure] at h
  repeat' split at h
  all_goals first
    | cases h
    | skip
  rename_i x hx _ t ht
  split at ht
  · cases ht
  · rename_i y hy
    split at ht
    · cases ht
    · cases ht
      exact ⟨_, _, _, hx, hy, rfl⟩

/-- A radial coordinate with a dimension gives no wavefront of two and more coefficients. -/
theorem wavefrontU_dim {rho theta : Val ι} {d : Dim} (hd : d ≠ 0) {f g : ι → ℝ} (h : IsQ rho d f)
    (ht : IsQ theta AUnit.rad.dim g) (K : List ℝ) (hK : 2 ≤ K.length) (W : ι → ℝ) :
    wavefrontU rho theta K ≠ .ok W := by
  intro hW
  obtain ⟨⟨v0, w0, hv0, hw0⟩, v1, w1, hv1, hw1⟩ := UU_first h ht
  match K, hK with
  | k0 :: k1 :: K', _ =>
    simp only [wavefrontU, bind, Except.bind] at hW
    split at hW
    · cases hW
    rename_i ts hts
    have hr : List.range (k0 :: k1 :: K').length = 0 :: 1 :: (List.range K'.length).map (· + 2) := by
      simp [List.range_succ_eq_map, Function.comp_def]
    rw [hr] at hts
    obtain ⟨t0, t1, t, h0, h1, rfl⟩ := mapM_two hts
    have hlen : 3 ≤ (k0 :: k1 :: K').length ∨ K' = [] := by
      cases K' with
      | nil => exact Or.inr rfl
      | cons => left; simp
    rcases hlen with hlen | rfl
    · obtain ⟨n, hn1, hn⟩ : ∃ n : ℕ, 1 ≤ n ∧ Aperture.orderOf (k0 :: k1 :: K').length = n := by
        obtain ⟨n, a1, a2⟩ := exists_tri (k0 :: k1 :: K').length (by omega)
        refine ⟨n, ?_, orderOf_eq _ _ a1 a2⟩
        by_contra h0
        obtain rfl : n = 0 := by omega
        have : tri (0 + 2) = 3 := rfl
        omega
      rw [hn] at h0 h1
      have g0 : (nlList n)[0]? = some (0, 0) := by
        have := nlList_get n 0 0 (by omega) (by omega)
        simpa [tri] using this
      have g1 : (nlList n)[1]? = some (1, -1) := by
        have := nlList_get n 1 0 (by omega) (by omega)
        simpa [tri] using this
      simp only [wfTermU, g0, g1, hv0, hv1, bind, Except.bind, pure, Except.pure, pyIdx,
        List.getElem?_cons_zero, List.getElem?_cons_succ] at h0 h1
      cases h0
      cases h1
      obtain ⟨a0, u0, e0, hu0, hd0, -⟩ := (is_nm (ι := ι) k0).mulQ hw0
      obtain ⟨a1, u1, e1, hu1, hd1, -⟩ := (is_nm (ι := ι) k1).mulQ hw1
      have hd0' : u0.dim = 0 := by rw [hd0]; simp
      have hd1' : u1.dim = d := by rw [hd1]; simp
      rw [e0, e1] at hW
      simp only [Val.sum, List.foldlM_cons, add, align, nm, hd0', hd1', if_true, Val.mk, bind,
        Except.bind, pure, Except.pure, AUnit.one, hd, if_false] at hW
      cases hW
    · have hn : Aperture.orderOf [k0, k1].length = 0 := orderOf_eq 2 0 (by decide) (by decide)
      rw [hn] at h1
      simp [wfTermU, pyIdx, nlList, pyRange, bind, Except.bind] at h1

end

/-- **C119.**  `box_factor=5 * pr`, as docs/aperture has it: a box factor with a unit (of whatever
dimension) never gives a pattern for two and more coefficients, whatever the telescope and the
illumination. -/
theorem C119_box {N : ℕ} (I : List Sc) (K : List ℝ) (hK : 2 ≤ K.length) (dz wavel : Sc)
    (illumU : IllumU (Fin N × Fin N)) (telU : TelGeoU (Fin N × Fin N)) (p : ℝ)
    (hp : Spec.Metres telU.pr fun _ => p) (r : ℝ) (unit : AUnit) (hs : 0 < unit.scale)
    (hd : unit.dim ≠ 0) (P : PatternU N) :
    radiationPatternBoxU I K dz wavel illumU telU (.qty (fun _ => r) unit) ≠ .ok P := by
  intro h
  obtain ⟨x, hx, hxq⟩ := linspaceU_is ((metres_iff.1 hp).mulQ (isQ_qty (fun _ => r) hs).is) N
  obtain ⟨ρ, h1, h2⟩ := cart2pol_is (hxq.comap fun q : Fin N × Fin N => q.2)
    (hxq.comap fun q : Fin N × Fin N => q.1)
  have hρ : IsQ (ρ.div (bc telU.pr)) unit.dim _ := (h2.divQ (metres_iff.1 hp).bc.is).congr (by simp)
    fun _ => rfl
  have hW := wavefrontU_dim hd hρ (isQ_rad fun q : Fin N × Fin N => (cart2pol
    (linspace (-(p * (r * unit.scale))) (p * (r * unit.scale)) N q.2)
    (linspace (-(p * (r * unit.scale))) (p * (r * unit.scale)) N q.1)).2) K hK
  simp only [radiationPatternBoxU, hx, bind, Except.bind] at h
  repeat' split at h
  all_goals first
    | cases h
    | skip
  all_goals
    rename_i hE
    simp only [apertureU, h1, bind, Except.bind] at hE
    split at hE
    · cases hE
    split at hE
    · cases hE
    rename_i W hW'
    exact hW W hW'

/-- **C119.**  With `block_manual` it is a `TypeError`, for any number of coefficients and two and more
pixels. -/
theorem C119_boxManual {N : ℕ} (hN : 2 ≤ N) (I : List Sc) (K : List ℝ) (dz wavel : Sc)
    (illumU : IllumU (Fin N × Fin N)) (pr sr a L Fp F : Sc) (p : ℝ) (hp : Spec.Metres pr fun _ => p)
    (r : ℝ) (unit : AUnit) (hs : 0 < unit.scale) (hd : unit.dim ≠ 0) :
    radiationPatternBoxU (N := N) I K dz wavel illumU (manualTelU pr sr a L Fp F)
      (.qty (fun _ => r) unit) = .error .typeError := by
  have hbox := (metres_iff.1 hp).mulQ (isQ_qty (fun _ : Unit => r) hs).is
  obtain ⟨x, hx, hxq⟩ := linspaceU_is hbox N
  have hX := hxq.comap fun q : Fin N × Fin N => q.2
  have hY := hxq.comap fun q : Fin N × Fin N => q.1
  obtain ⟨ρ, h1, -⟩ := cart2pol_is hX hY
  obtain ⟨r2, h3, g, u, rfl, hu, hdu, -⟩ := add_isQ (hX.zpow 2) (hY.zpow 2)
  obtain ⟨dx, hdx, -⟩ := sub_isQ (hxq.comap fun _ : Unit => (⟨1, by omega⟩ : Fin N))
    (hxq.comap fun _ : Unit => (⟨0, by omega⟩ : Fin N))
  obtain ⟨g', c, hc, rfl, -⟩ := hp
  have hne : (AUnit.zpow ⟨c, Pi.single .length 1⟩ 2).dim ≠ u.dim := by
    rw [hdu]
    intro h0
    apply hd
    funext b
    have := congrFun h0 b
    simp only [AUnit.zpow, AUnit.m, Pi.add_apply, Int.cast_ofNat, mul_add] at this
    simp only [Pi.zero_apply]
    linarith
  have hx' : linspaceU ((manualTelU (.qty g' ⟨c, Pi.single .length 1⟩) sr a L Fp F :
      TelGeoU (Fin N × Fin N)).pr.mul (.qty (fun _ => r) unit)).neg
      ((manualTelU (.qty g' ⟨c, Pi.single .length 1⟩) sr a L Fp F :
      TelGeoU (Fin N × Fin N)).pr.mul (.qty (fun _ => r) unit)) N = .ok x := hx
  have e1 : 1 < N := by omega
  have e0 : 0 < N := by omega
  simp only [radiationPatternBoxU, hx', bind, Except.bind, Val.idx, e1, e0, dif_pos, hdx]
  simp only [apertureU, h1, bind, Except.bind, manualTelU, blockManualU, h3]
  simp only [Val.zpow, bc, Val.comap, lt, align, hne, if_false, bind, Except.bind]

/-! ### Examples -/

/-- `R(1, 0, rho)` is `rho`, not 0. -/
example (rho : ℝ) : Zernike.R (1 : ℕ) (0 : ℕ) rho = .ok rho := by
  simp [Zernike.R, Zernike.rTerm, Zernike.factorial, bind, Except.bind, pure, Except.pure]

/-- The path difference of Effelsberg along a line given in centimetres. -/
example {n : ℕ} (x : Fin n → ℝ) :
    ∃ v, opdEffelsbergU (.qty x .cm) (nm 0) (.qty (fun _ => 2) .cm) = .ok v ∧
      ∀ w, Telgeometry.opdEffelsberg (fun i => x i * (1 / 100)) (fun _ => 0) (2 * (1 / 100)) = .ok w →
        Spec.Metres v w := by
  rcases (C119_line (.qty x .cm) _ ⟨x, 1 / 100, by norm_num, rfl, fun _ => rfl⟩).2.2.1
    (.qty (fun _ => 2) .cm) (2 * (1 / 100)) ⟨_, 1 / 100, by norm_num, rfl, fun _ => rfl⟩ with
    ⟨v, w, h1, h2, h3⟩ | ⟨e, h1, h2⟩
  · refine ⟨v, h1, fun w' hw' => ?_⟩
    rw [h2] at hw'
    cases hw'
    exact h3
  · cases h2

/-- `y=1` without a unit. -/
example {n : ℕ} (x : Fin (n + 1) → ℝ) (I : List Sc) (K : List ℝ) (dz wavel : Sc)
    (illumU : IllumU (Fin (n + 1))) (telU : TelGeoU (Fin (n + 1))) :
    apertureU (.qty x .m) (nm 1) I K dz wavel illumU telU = .error .typeError :=
  C119_plain _ x _ ⟨x, 1, one_pos, rfl, by simp⟩ 0 one_ne_zero I K dz wavel illumU telU

/-- The call in docs/aperture: `box_factor=5 * pr` for a radius of 50 m. -/
example {N : ℕ} (hN : 2 ≤ N) (I : List Sc) (K : List ℝ) (dz wavel : Sc) (illumU : IllumU (Fin N × Fin N)) :
    radiationPatternBoxU I K dz wavel illumU (Spec.cmTel N) (.qty (fun _ => 250) .m) =
      .error .typeError :=
  C119_boxManual hN I K dz wavel illumU _ _ _ _ _ _ (50 : ℝ) ⟨_, 1 / 100, by norm_num, rfl, by norm_num⟩
    250 .m one_pos (by intro h; have := congrFun h .length; simp [AUnit.m] at this)

end Verif.Props
