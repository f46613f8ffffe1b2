import Verif.Model.DoubleField
import Verif.Model.Illum
import Verif.Model.Telgeometry

/-!
# The path difference, the blockage and the illuminations in the arithmetic of doubles

`opd_manual` and `block_manual` (`pyoof/telgeometry/telgeometry.py`:65-100, 180-215), `illum_parabolic` and `illum_gauss`
(`pyoof/aperture/aperture.py`:72-200), with the rounding `rnd` after every operation.  Lengths are numbers of one unit, the
coefficients bare numbers; `x ** 2` of an array or a Quantity is `x * x`.
-/

namespace Verif.Dbl

open Verif Verif.Np Verif.Aperture

/-- The mathematical library with `np.power` for a real exponent and `np.exp` of a real number. -/
structure LibmP extends LibmC where
  powr : Fl → Fl → Fl
  exp : Fl → Fl

/-- `(1 - a ** 2) / (1 + a ** 2)` for `a = r / (2 * F)`, telgeometry.py:90-95. -/
noncomputable def opdTerm (rnd : ℝ → Fl) (r F : Fl) : Fl :=
  let a := div rnd r (mul rnd (.fin 2) F)
  let a2 := mul rnd a a
  div rnd (sub rnd (.fin 1) a2) (add rnd (.fin 1) a2)

/-- `opd_manual(Fp, F)(x, y, d_z)` at one element, telgeometry.py:88-97. -/
noncomputable def opdAt (rnd : ℝ → Fl) (Fp F x y dz : Fl) : Fl :=
  let r := sqrt rnd (sumSq rnd x y)
  mul rnd dz (add rnd (opdTerm rnd r Fp) (opdTerm rnd r F))

/-- `opd_manual(Fp, F)`, telgeometry.py:65-100. -/
noncomputable def opdManual (rnd : ℝ → Fl) {ι : Type} (Fp F : Fl) (x y : ι → Fl) (dz : Fl) : Py (ι → Fl) :=
  .ok fun q => opdAt rnd Fp F (x q) (y q) dz

/-- `block_manual(pr, sr, a, L)(x, y)`, telgeometry.py:206-213. -/
noncomputable def blockManual (rnd : ℝ → Fl) {ι : Type} (pr sr a L : Fl) (x y : ι → Fl) : Py (ι → Fl) :=
  let s := add rnd sr L
  let b0 : ι → ℝ := fun _ => 0
  let b1 := Telgeometry.setWhere (fun q => Fl.lt (sumSq rnd (x q) (y q)) (mul rnd pr pr) ∧
    Fl.lt (mul rnd sr sr) (sumSq rnd (x q) (y q))) 1 b0
  let b2 := Telgeometry.setWhere (fun q => Fl.lt (Fl.neg s) (x q) ∧ Fl.lt (x q) s ∧ Fl.lt (Fl.neg a) (y q) ∧
    Fl.lt (y q) a) 0 b1
  let b3 := Telgeometry.setWhere (fun q => Fl.lt (Fl.neg s) (y q) ∧ Fl.lt (y q) s ∧ Fl.lt (Fl.neg a) (x q) ∧
    Fl.lt (x q) a) 0 b2
  .ok fun q => .fin (b3 q)

/-- `telgeo = [block_manual(...), opd_manual(...), pr]`, as the package's own example scripts do. -/
noncomputable def manualTel (rnd : ℝ → Fl) {ι : Type} (pr sr a L Fp F : Fl) : TelGeo ι :=
  ⟨blockManual rnd pr sr a L, opdManual rnd Fp F, pr⟩

/-- `10 ** (c_dB / 20.)`, aperture.py:121 and :183. -/
noncomputable def taper (rnd : ℝ → Fl) (L : LibmP) (c : Fl) : Fl := L.powr (.fin 10) (div rnd c (.fin 20))

/-- `illum_parabolic` at one element, aperture.py:117-137. -/
noncomputable def parabolicAt (rnd : ℝ → Fl) (L : LibmP) (i c q x0 y0 pr x y : Fl) : Fl :=
  let C := taper rnd L c
  let r := sqrt rnd (sumSq rnd (sub rnd x x0) (sub rnd y y0))
  let rho := div rnd r pr
  let base := sub rnd (.fin 1) (mul rnd rho rho)
  .fin (Fl.nanToNum (mul rnd i (add rnd C (mul rnd (sub rnd (.fin 1) C) (L.powr base q)))))

/-- `illum_parabolic(x, y, I_coeff, pr)`, aperture.py:115-139. -/
noncomputable def illumParabolic (rnd : ℝ → Fl) (L : LibmP) {ι : Type} : Illum ι := fun x y I pr =>
  match I with
  | [i, c, q, x0, y0] => .ok fun p => parabolicAt rnd L i c q x0 y0 pr (x p) (y p)
  | _ => .error .valueError

/-- `illum_gauss` at one element, aperture.py:179-192.  `sigma ** 2` is a power of a scalar. -/
noncomputable def gaussAt (rnd : ℝ → Fl) (L : LibmP) (i c x0 y0 pr x y : Fl) : Fl :=
  let sigma := taper rnd L c
  let amp := mul rnd i (sqrt rnd (mul rnd (mul rnd (.fin 2) (rnd Real.pi)) (L.powr sigma (.fin 2))))
  let sp := mul rnd sigma pr
  let t := div rnd (Fl.neg (sumSq rnd (sub rnd x x0) (sub rnd y y0))) (mul rnd (.fin 2) (mul rnd sp sp))
  mul rnd amp (L.exp t)

/-- `illum_gauss(x, y, I_coeff, pr)`, aperture.py:176-192. -/
noncomputable def illumGauss (rnd : ℝ → Fl) (L : LibmP) {ι : Type} : Illum ι := fun x y I pr =>
  match I.take 2, I.drop (I.length - 2) with
  | [i, c], [x0, y0] => .ok fun p => gaussAt rnd L i c x0 y0 pr (x p) (y p)
  | _, _ => .error .valueError

end Verif.Dbl
