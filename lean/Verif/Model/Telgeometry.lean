import Verif.Model.Aperture
import Verif.Model.Fl

/-!
# Model of `pyoof/telgeometry/telgeometry.py` and `line_equation` (`pyoof/math_functions.py`)

Lengths in metres, angles in radians.
-/

namespace Verif.Telgeometry

open Verif

/-- The element of `opd_manual(Fp, F)(x, y, d_z)` at a point, telgeometry.py:88-98.  The foci are
taken to be non zero (a zero focus gives nan in numpy, not modelled). -/
noncomputable def opdAt (Fp F x y dz : ℝ) : ℝ :=
  let r := Real.sqrt (x ^ 2 + y ^ 2)
  let a := r / (2 * Fp)
  let b := r / (2 * F)
  dz * ((1 - a ^ 2) / (1 + a ^ 2) + (1 - b ^ 2) / (1 + b ^ 2))

/-- `opd_manual(Fp, F)`, telgeometry.py:65-100. -/
noncomputable def opdManual {ι : Type} (Fp F : ℝ) (x y : ι → ℝ) (dz : ℝ) : Py (ι → ℝ) :=
  .ok fun q => opdAt Fp F (x q) (y q) dz

/-- `opd_effelsberg(x, y, d_z)`, telgeometry.py:12-62, written out with its own constants. -/
noncomputable def opdEffelsberg {ι : Type} (x y : ι → ℝ) (dz : ℝ) : Py (ι → ℝ) :=
  .ok fun q =>
    let Fp : ℝ := 30
    let F : ℝ := 387.39435
    let r := Real.sqrt (x q ^ 2 + y q ^ 2)
    let a := r / (2 * Fp)
    let b := r / (2 * F)
    dz * ((1 - a ^ 2) / (1 + a ^ 2) + (1 - b ^ 2) / (1 + b ^ 2))

/-- Masked assignment `block[mask] = v`. -/
noncomputable def setWhere {ι : Type} (m : ι → Prop) (v : ℝ) (b : ι → ℝ) : ι → ℝ :=
  open Classical in fun q => if m q then v else b q

/-- `block_manual(pr, sr, a, L)(x, y)`, telgeometry.py:180-215. -/
noncomputable def blockManual {ι : Type} (pr sr a L : ℝ) (x y : ι → ℝ) : Py (ι → ℝ) :=
  let b0 : ι → ℝ := fun _ => 0
  let b1 := setWhere (fun q => x q ^ 2 + y q ^ 2 < pr ^ 2 ∧ x q ^ 2 + y q ^ 2 > sr ^ 2) 1 b0
  let b2 := setWhere (fun q => -(sr + L) < x q ∧ x q < sr + L ∧ -a < y q ∧ y q < a) 0 b1
  let b3 := setWhere (fun q => -(sr + L) < y q ∧ y q < sr + L ∧ -a < x q ∧ x q < a) 0 b2
  .ok b3

/-- `line_equation(P1, P2, x)`, math_functions.py:103-129:
`(y2 - y1) / (x2 - x1) * (x - x1) + y1`. -/
noncomputable def lineEquation (P1 P2 : Fl × Fl) (x : Fl) : Fl :=
  Fl.add (Fl.mul (Fl.div (Fl.sub P2.2 P1.2) (Fl.sub P2.1 P1.1)) (Fl.sub x P1.1)) P1.2

/-- `block_effelsberg(alpha)(x, y)`, telgeometry.py:103-177; `alpha` in radians.  Everything
that depends on `alpha` goes through `Fl`, since `alpha = 0` gives inf and nan.  Where the cosine is zero the tangent is 0 here
and not large; of such angles only `C25_below_manual` speaks, which holds for every corner. -/
noncomputable def blockEffelsberg {ι : Type} (alpha : ℝ) (x y : ι → ℝ) : Py (ι → ℝ) :=
  let pr : ℝ := 50
  let sr : ℝ := 3.25
  let L : ℝ := 20
  let a : ℝ := 1
  let b0 : ι → ℝ := fun _ => 0
  let b1 := setWhere (fun q => x q ^ 2 + y q ^ 2 < pr ^ 2 ∧ x q ^ 2 + y q ^ 2 > sr ^ 2) 1 b0
  let b2 := setWhere (fun q => -(sr + L) < x q ∧ x q < sr + L ∧ -a < y q ∧ y q < a) 0 b1
  let b3 := setWhere (fun q => -(sr + L) < y q ∧ y q < sr + L ∧ -a < x q ∧ x q < a) 0 b2
  let csc2 := Fl.pow (.fin (Real.sin alpha)) (-2)                                    -- :141
  let d := Fl.div (Fl.add (.fin (-a))
    (Fl.sqrt (Fl.sub (.fin (a ^ 2)) (Fl.mul (.fin (a ^ 2 - pr ^ 2)) csc2)))) csc2   -- :144
  let A := Fl.fin (sr + L)
  let B := Fl.fin a
  let C := Fl.div d (.fin (Real.tan alpha))
  let D := Fl.add (.fin a) d
  let mA := A.neg
  let mB := B.neg
  let mC := C.neg
  let mD := D.neg
  let X := fun q => Fl.fin (x q)
  let Y := fun q => Fl.fin (y q)
  let y1 := fun q => lineEquation (A, B) (C, D) (X q)
  let y2 := fun q => lineEquation (A, mB) (C, mD) (X q)
  let x3 := fun q => lineEquation (mA, B) (mC, D) (Y q)
  let x4 := fun q => lineEquation (mA, mB) (mC, mD) (Y q)
  let y5 := fun q => lineEquation (mA, mB) (mC, mD) (X q)
  let y6 := fun q => lineEquation (mA, B) (mC, D) (X q)
  let x7 := fun q => lineEquation (A, mB) (C, mD) (Y q)
  let x8 := fun q => lineEquation (A, B) (C, D) (Y q)
  let circ := fun s : ℝ => Real.sqrt |pr ^ 2 - s ^ 2|                                -- :161
  let b4 := setWhere (fun q => A.lt (X q) ∧ (X q).lt C ∧ (Y q).lt (y1 q) ∧ (y2 q).lt (Y q)) 0 b3
  let b5 := setWhere (fun q => x q < pr ∧ C.lt (X q) ∧ y q < circ (x q) ∧ -circ (x q) < y q) 0 b4
  let b6 := setWhere (fun q => (Y q).lt mA ∧ mC.lt (Y q) ∧ (x4 q).lt (X q) ∧ (X q).lt (x3 q)) 0 b5
  let b7 := setWhere (fun q => -pr < y q ∧ (Y q).lt mC ∧ x q < circ (y q) ∧ -circ (y q) < x q) 0 b6
  let b8 := setWhere (fun q => (X q).lt mA ∧ mC.lt (X q) ∧ (y5 q).lt (Y q) ∧ (Y q).lt (y6 q)) 0 b7
  let b9 := setWhere (fun q => -pr < x q ∧ (X q).lt mC ∧ y q < circ (x q) ∧ -circ (x q) < y q) 0 b8
  let b10 := setWhere (fun q => A.lt (Y q) ∧ (Y q).lt C ∧ (x7 q).lt (X q) ∧ (X q).lt (x8 q)) 0 b9
  let b11 := setWhere (fun q => y q < pr ∧ C.lt (Y q) ∧ y q < circ (x q) ∧ -circ (x q) < y q) 0 b10
  .ok b11

/-- `telgeo = [block_manual(...), opd_manual(...), pr]`, as the package's own example scripts do. -/
noncomputable def manualTel {ι : Type} (pr sr a L Fp F : ℝ) : Aperture.TelGeo ι :=
  ⟨blockManual pr sr a L, opdManual Fp F, pr⟩

end Verif.Telgeometry
