import Verif.Model.DoubleOptics

/-!
# The Effelsberg telescope in the arithmetic of doubles

`opd_effelsberg` and `block_effelsberg` (`pyoof/telgeometry/telgeometry.py`:12-62, 103-177) and `line_equation`
(`pyoof/math_functions.py`:103-129), with the rounding `rnd` after every operation.  Lengths are in metres, the angle in
degrees; `np.sin` and `np.tan` of a Quantity in degrees multiply it by the double `np.pi / 180` first.
-/

namespace Verif.Dbl

open Verif Verif.Np Verif.Aperture

/-- The mathematical library with `np.tan`. -/
structure LibmT extends LibmP where
  tan : Fl → Fl

/-- `opd_effelsberg(x, y, d_z)`, telgeometry.py:12-62: `30 * apu.m` and `387.39435 * apu.m` are doubles. -/
noncomputable def opdEffelsberg (rnd : ℝ → Fl) {ι : Type} (x y : ι → Fl) (dz : Fl) : Py (ι → Fl) :=
  .ok fun q => opdAt rnd (.fin 30) (rnd 387.39435) (x q) (y q) dz

/-- `line_equation(P1, P2, x)`, math_functions.py:125-128. -/
noncomputable def lineEquation (rnd : ℝ → Fl) (P1 P2 : Fl × Fl) (x : Fl) : Fl :=
  add rnd (mul rnd (div rnd (sub rnd P2.2 P1.2) (sub rnd P2.1 P1.1)) (sub rnd x P1.1)) P1.2

/-- Degrees to radians. -/
noncomputable def radians (rnd : ℝ → Fl) (alpha : Fl) : Fl := mul rnd alpha (div rnd (rnd Real.pi) (.fin 180))

/-- `circ(s)`, telgeometry.py:161-162. -/
noncomputable def circ (rnd : ℝ → Fl) (pr s : Fl) : Fl :=
  sqrt rnd (Fl.abs (sub rnd (mul rnd pr pr) (mul rnd s s)))

/-- The base of the triangle `d`, telgeometry.py:141-144. -/
noncomputable def shadeBase (rnd : ℝ → Fl) (L : LibmT) (pr a alpha : Fl) : Fl :=
  let csc2 := L.powr (L.sin (radians rnd alpha)) (.fin (-2))
  div rnd (add rnd (Fl.neg a)
    (sqrt rnd (sub rnd (mul rnd a a) (mul rnd (sub rnd (mul rnd a a) (mul rnd pr pr)) csc2)))) csc2

/-- `block_effelsberg(alpha)(x, y)`, telgeometry.py:103-177.  The first three assignments are those of `block_manual`. -/
noncomputable def blockEffelsberg (rnd : ℝ → Fl) (L : LibmT) {ι : Type} (alpha : Fl) (x y : ι → Fl) : Py (ι → Fl) := do
  let pr : Fl := .fin 50
  let sr : Fl := .fin 3.25
  let len : Fl := .fin 20
  let a : Fl := .fin 1
  let s := add rnd sr len
  let b0 : ι → ℝ := fun _ => 0
  let b1 := Telgeometry.setWhere (fun q => Fl.lt (sumSq rnd (x q) (y q)) (mul rnd pr pr) ∧
    Fl.lt (mul rnd sr sr) (sumSq rnd (x q) (y q))) 1 b0
  let b2 := Telgeometry.setWhere (fun q => Fl.lt (Fl.neg s) (x q) ∧ Fl.lt (x q) s ∧ Fl.lt (Fl.neg a) (y q) ∧
    Fl.lt (y q) a) 0 b1
  let b3 := Telgeometry.setWhere (fun q => Fl.lt (Fl.neg s) (y q) ∧ Fl.lt (y q) s ∧ Fl.lt (Fl.neg a) (x q) ∧
    Fl.lt (x q) a) 0 b2
  let d := shadeBase rnd L pr a alpha
  let A := s
  let B := a
  let C := div rnd d (L.tan (radians rnd alpha))
  let D := add rnd a d
  let mA := A.neg
  let mB := B.neg
  let mC := C.neg
  let mD := D.neg
  let y1 := fun q => lineEquation rnd (A, B) (C, D) (x q)
  let y2 := fun q => lineEquation rnd (A, mB) (C, mD) (x q)
  let x3 := fun q => lineEquation rnd (mA, B) (mC, D) (y q)
  let x4 := fun q => lineEquation rnd (mA, mB) (mC, mD) (y q)
  let y5 := fun q => lineEquation rnd (mA, mB) (mC, mD) (x q)
  let y6 := fun q => lineEquation rnd (mA, B) (mC, D) (x q)
  let x7 := fun q => lineEquation rnd (A, mB) (C, mD) (y q)
  let x8 := fun q => lineEquation rnd (A, B) (C, D) (y q)
  let c := circ rnd pr
  let b4 := Telgeometry.setWhere (fun q => A.lt (x q) ∧ (x q).lt C ∧ (y q).lt (y1 q) ∧ (y2 q).lt (y q)) 0 b3
  let b5 := Telgeometry.setWhere (fun q => (x q).lt pr ∧ C.lt (x q) ∧ (y q).lt (c (x q)) ∧ (c (x q)).neg.lt (y q)) 0 b4
  let b6 := Telgeometry.setWhere (fun q => (y q).lt mA ∧ mC.lt (y q) ∧ (x4 q).lt (x q) ∧ (x q).lt (x3 q)) 0 b5
  let b7 := Telgeometry.setWhere (fun q => pr.neg.lt (y q) ∧ (y q).lt mC ∧ (x q).lt (c (y q)) ∧ (c (y q)).neg.lt (x q)) 0 b6
  let b8 := Telgeometry.setWhere (fun q => (x q).lt mA ∧ mC.lt (x q) ∧ (y5 q).lt (y q) ∧ (y q).lt (y6 q)) 0 b7
  let b9 := Telgeometry.setWhere (fun q => pr.neg.lt (x q) ∧ (x q).lt mC ∧ (y q).lt (c (x q)) ∧ (c (x q)).neg.lt (y q)) 0 b8
  let b10 := Telgeometry.setWhere (fun q => A.lt (y q) ∧ (y q).lt C ∧ (x7 q).lt (x q) ∧ (x q).lt (x8 q)) 0 b9
  let b11 := Telgeometry.setWhere (fun q => (y q).lt pr ∧ C.lt (y q) ∧ (y q).lt (c (x q)) ∧ (c (x q)).neg.lt (y q)) 0 b10
  return fun q => .fin (b11 q)

/-- `[block_effelsberg(alpha), opd_effelsberg, 50 m]`, scripts/pyoof_effelsberg_mpi.py:21-25. -/
noncomputable def effelsbergTel (rnd : ℝ → Fl) (L : LibmT) {ι : Type} (alpha : Fl) : TelGeo ι :=
  ⟨blockEffelsberg rnd L alpha, opdEffelsberg rnd, .fin 50⟩

end Verif.Dbl

namespace Verif.Telgeometry

open Verif Verif.Aperture

/-- The same in exact numbers, `alpha` in radians. -/
noncomputable def effelsbergTel {ι : Type} (alpha : ℝ) : TelGeo ι := ⟨blockEffelsberg alpha, opdEffelsberg, 50⟩

end Verif.Telgeometry
