import Verif.Model.ActUnits
import Verif.Model.Simulate

/-!
# Model of the units in `block_effelsberg` and `simulate_data_pyoof`

In terms of the arithmetic of `Verif.Model.Units`, and of the same arithmetic for floats with nan and
infinities.
-/

namespace Verif.ActUnits

open Verif Verif.Np Verif.Aperture Verif.Units Verif.Units.Val

namespace FVal

variable {ι : Type}

def neg : FVal ι → FVal ι
  | num f => num fun q => (f q).neg
  | qty f u => qty (fun q => (f q).neg) u

/-- See `Val.align`. -/
noncomputable def align (a b : FVal ι) : Py ((ι → Fl) × (ι → Fl) × Option AUnit) := open Classical in
  match a, b with
  | num f, num g => .ok (f, g, none)
  | qty f u, qty g v =>
    if v.dim = u.dim then .ok (f, fun q => Fl.mul (g q) (.fin (v.scale / u.scale)), some u)
    else .error .typeError
  | num f, qty g v =>
    if v.dim = 0 then .ok (f, fun q => Fl.mul (g q) (.fin v.scale), some .one)
    else if ∀ q, QArr.anyUnit (f q) then .ok (f, g, some v) else .error .typeError
  | qty f u, num g =>
    if u.dim = 0 then .ok (fun q => Fl.mul (f q) (.fin u.scale), g, some .one)
    else if ∀ q, QArr.anyUnit (g q) then .ok (f, g, some u) else .error .typeError

def mk (f : ι → Fl) : Option AUnit → FVal ι
  | none => num f
  | some u => qty f u

noncomputable def add (a b : FVal ι) : Py (FVal ι) := do
  let (f, g, u) ← align a b
  return mk (fun q => Fl.add (f q) (g q)) u

noncomputable def sub (a b : FVal ι) : Py (FVal ι) := do
  let (f, g, u) ← align a b
  return mk (fun q => Fl.sub (f q) (g q)) u

noncomputable def lt (a b : FVal ι) : Py (ι → Prop) := do
  let (f, g, _) ← align a b
  return fun q => Fl.lt (f q) (g q)

/-- `x ** (-2)` of a number without dimension; other exponents of the unit do not occur. -/
noncomputable def invSq : FVal ι → FVal ι
  | num f => num fun q => Fl.pow (f q) (-2)
  | qty f u => qty (fun q => Fl.pow (f q) (-2)) (u.zpow (-2))

end FVal

/-- `line_equation(P1, P2, x)`, math_functions.py:124-129. -/
noncomputable def lineEquationU {ι : Type} (P1 P2 : FVal ι × FVal ι) (x : FVal ι) : Py (FVal ι) := do
  let dy ← P2.2.sub P1.2
  let dx ← P2.1.sub P1.1
  let t ← x.sub P1.1
  ((dy.div dx).mul t).add P1.2

/-- `circ(s)`, telgeometry.py:161-162. -/
noncomputable def circU {ι : Type} (pr : Sc) (s : Val ι) : Py (Val ι) := do
  let w ← Val.sub (bc (pr.zpow 2)) (s.zpow 2)
  return match w with
    | .num f => .num fun q => Real.sqrt |f q|
    | .qty f u => .qty (fun q => Real.sqrt |f q|) u.sqrt

/-- `block_effelsberg(alpha)(x, y)`, telgeometry.py:127-175.  The lines 134-138 are those of
`block_manual`. -/
noncomputable def blockEffelsbergU {ι : Type} (alpha : Sc) (x y : Val ι) : Py (ι → ℝ) := do
  let pr : Sc := .qty (fun _ => 50) .m
  let sr : Sc := .qty (fun _ => 3.25) .m
  let L : Sc := .qty (fun _ => 20) .m
  let a : Sc := .qty (fun _ => 1) .m
  let b3 ← blockManualU pr sr a L x y
  let csc2 : FVal ι := (FVal.ofVal (bc (← trig Real.sin alpha))).invSq
  let aF : FVal ι := FVal.ofVal (bc a)
  let a2 : FVal ι := FVal.ofVal (bc (a.zpow 2))
  let k ← Val.sub (a.zpow 2) (pr.zpow 2)
  let w ← a2.sub ((FVal.ofVal (bc k)).mul csc2)
  let d0 ← aF.neg.add w.sqrt
  let d := d0.div csc2
  let A : FVal ι := FVal.ofVal (bc (← Val.add sr L))
  let B := aF
  let C := d.div (FVal.ofVal (bc (← trig Real.tan alpha)))
  let D ← aF.add d
  let mA := A.neg
  let mB := B.neg
  let mC := C.neg
  let mD := D.neg
  let X := FVal.ofVal x
  let Y := FVal.ofVal y
  let y1 ← lineEquationU (A, B) (C, D) X
  let y2 ← lineEquationU (A, mB) (C, mD) X
  let x3 ← lineEquationU (mA, B) (mC, D) Y
  let x4 ← lineEquationU (mA, mB) (mC, mD) Y
  let y5 ← lineEquationU (mA, mB) (mC, mD) X
  let y6 ← lineEquationU (mA, B) (mC, D) X
  let x7 ← lineEquationU (A, mB) (C, mD) Y
  let x8 ← lineEquationU (A, B) (C, D) Y
  let cx ← circU pr x
  let cy ← circU pr y
  let c1 ← A.lt X
  let c2 ← X.lt C
  let c3 ← Y.lt y1
  let c4 ← y2.lt Y
  let b4 := Telgeometry.setWhere (fun q => c1 q ∧ c2 q ∧ c3 q ∧ c4 q) 0 b3
  let c1 ← Val.lt x (bc pr)
  let c2 ← C.lt X
  let c3 ← Val.lt y cx
  let c4 ← Val.lt cx.neg y
  let b5 := Telgeometry.setWhere (fun q => c1 q ∧ c2 q ∧ c3 q ∧ c4 q) 0 b4
  let c1 ← Y.lt mA
  let c2 ← mC.lt Y
  let c3 ← x4.lt X
  let c4 ← X.lt x3
  let b6 := Telgeometry.setWhere (fun q => c1 q ∧ c2 q ∧ c3 q ∧ c4 q) 0 b5
  let c1 ← Val.lt (bc pr.neg) y
  let c2 ← Y.lt mC
  let c3 ← Val.lt x cy
  let c4 ← Val.lt cy.neg x
  let b7 := Telgeometry.setWhere (fun q => c1 q ∧ c2 q ∧ c3 q ∧ c4 q) 0 b6
  let c1 ← X.lt mA
  let c2 ← mC.lt X
  let c3 ← y5.lt Y
  let c4 ← Y.lt y6
  let b8 := Telgeometry.setWhere (fun q => c1 q ∧ c2 q ∧ c3 q ∧ c4 q) 0 b7
  let c1 ← Val.lt (bc pr.neg) x
  let c2 ← X.lt mC
  let c3 ← Val.lt y cx
  let c4 ← Val.lt cx.neg y
  let b9 := Telgeometry.setWhere (fun q => c1 q ∧ c2 q ∧ c3 q ∧ c4 q) 0 b8
  let c1 ← A.lt Y
  let c2 ← Y.lt C
  let c3 ← x7.lt X
  let c4 ← X.lt x8
  let b10 := Telgeometry.setWhere (fun q => c1 q ∧ c2 q ∧ c3 q ∧ c4 q) 0 b9
  let c1 ← Val.lt y (bc pr)
  let c2 ← C.lt Y
  let c3 ← Val.lt y cx
  let c4 ← Val.lt cx.neg y
  return Telgeometry.setWhere (fun q => c1 q ∧ c2 q ∧ c3 q ∧ c4 q) 0 b10

/-- `[block_effelsberg(alpha), opd_effelsberg, 50 * apu.m]` -/
noncomputable def effelsbergTelU {ι : Type} (alpha : Sc) : TelGeoU ι :=
  ⟨blockEffelsbergU alpha, opdEffelsbergU, .qty (fun _ => 50) .m⟩

end Verif.ActUnits

namespace Verif.SimUnits

open Verif Verif.Np Verif.Fs Verif.Aperture Verif.Units Verif.Units.Val Verif.Sim

/-- The arguments of `simulate_data_pyoof` with their units; see `Sim.Input`. -/
structure InputU (N : ℕ) where
  I : List Sc
  K : List ℝ
  wavel : Sc
  dz : Val (Fin 3)
  illum : IllumU (Fin N × Fin N)
  tel : TelGeoU (Fin N × Fin N)
  noise : ℝ
  boxFactor : ℝ
  workDir : Path
  draws : ℕ → ℕ → ℕ → ℝ
  now : Str
  f32 : ℝ → ℝ

/-- `v[i]` of the three offsets. -/
def offsetAt (v : Val (Fin 3)) (i : Fin 3) : Sc := v.comap fun _ => i

/-- `size_in_bw.to_value(apu.rad)`, simulate_data.py:96-102. -/
noncomputable def limit {N : ℕ} (a : InputU N) : Py ℝ := do
  let bw := (((nm 1.22).mul (.qty (fun _ => 1) .rad)).mul a.wavel).div ((nm 2).mul a.tel.pr)
  return (← ((nm 8).mul bw).toValue .rad) ()

/-- Trimmed maps: the power, and `u`, `v` in the unit they have in the pattern. -/
structure TrimU where
  p : List (List ℝ)
  u : List (List ℝ)
  v : List (List ℝ)
  uu : Option AUnit
  vu : Option AUnit

/-- The numbers of an array and its unit. -/
def parts {ι : Type} : Val ι → (ι → ℝ) × Option AUnit
  | .num f => (f, none)
  | .qty f u => (f, some u)

/-- The trimming of one map, simulate_data.py:119-144; `lim` is in radians. -/
noncomputable def trimU {N : ℕ} (P : PatternU N) (lim : ℝ) : Py TrimU := do
  let uu : Val (Fin N × Fin N) := P.u.comap fun q => q.2
  let vv : Val (Fin N × Fin N) := P.v.comap fun q => q.1
  let hiL : Val (Fin N × Fin N) := .qty (fun _ => lim) .rad
  let loL : Val (Fin N × Fin N) := .qty (fun _ => -lim) .rad
  let u0 ← Val.lt uu loL
  let u1 ← Val.lt hiL uu
  let v0 ← Val.lt vv loL
  let v1 ← Val.lt hiL vv
  let pp : Fin N × Fin N → Option ℝ := fun q => some (‖P.F q‖ ^ 2)
  let pp := putNan pp u0
  let pp := putNan pp u1
  let pp := putNan pp v0
  let pp := putNan pp v1
  let p1 := (cOrder N).filterMap pp
  let size := (pyInt (Real.sqrt p1.length)).toNat
  let w0 ← Val.lt loL uu
  let w1 ← Val.lt uu hiL
  let w2 ← Val.lt loL vv
  let w3 ← Val.lt vv hiL
  let box : Fin N × Fin N → Prop := fun q => w0 q ∧ w1 q ∧ w2 q ∧ w3 q
  let p ← reshape p1 size size
  let u ← reshape (select (parts uu).1 box) size size
  let v ← reshape (select (parts vv).1 box) size size
  return ⟨p, u, v, (parts uu).2, (parts vv).2⟩

/-- `u[i].to_value(apu.rad).flatten()`, simulate_data.py:155-156. -/
noncomputable def toSave (l : List (List ℝ)) : Option AUnit → Py (List ℝ)
  | none => .error .attributeError
  | some u => open Classical in
    if u.dim = AUnit.rad.dim then .ok (l.flatten.map fun x => x * (u.scale / AUnit.rad.scale))
    else .error .typeError

/-- One round of the loop, simulate_data.py:107-144. -/
noncomputable def simMapU {N : ℕ} (a : InputU N) (lim : ℝ) (i : Fin 3) : Py TrimU := do
  let P ← radiationPatternU a.I a.K (offsetAt a.dz i) a.wavel a.illum a.tel a.boxFactor
  trimU P lim

/-- `P[i] + normal(0, noise)`, simulate_data.py:147-153. -/
noncomputable def addNoiseU {N : ℕ} (a : InputU N) (i : ℕ) (p : List (List ℝ)) :
    Py (List (List ℝ)) := open Classical in
  if a.noise = 0 then .ok p
  else if a.noise < 0 then .error .valueError
  else .ok (p.mapIdx fun r row => row.mapIdx fun c x => x + a.noise * a.draws i r c)

/-- The table of one map, simulate_data.py:155-176. -/
noncomputable def tableHduU {N : ℕ} (a : InputU N) (t : TrimU) (p : List (List ℝ)) :
    Py (List (Str × List ℝ)) := do
  let u ← toSave t.u t.uu
  let v ← toSave t.v t.vu
  return [("U".toList, u.map a.f32), ("V".toList, v.map a.f32), ("BEAM".toList, p.flatten.map a.f32)]

/-- The three tables, simulate_data.py:95-176. -/
noncomputable def tablesU {N : ℕ} (a : InputU N) : Py (List (List (Str × List ℝ))) := do
  let lim ← limit a
  let t0 ← simMapU a lim 0
  let t1 ← simMapU a lim 1
  let t2 ← simMapU a lim 2
  let p0 ← addNoiseU a 0 t0.p
  let p1 ← addNoiseU a 1 t1.p
  let p2 ← addNoiseU a 2 t2.p
  let h0 ← tableHduU a t0 p0
  let h1 ← tableHduU a t1 p1
  let h2 ← tableHduU a t2 p2
  return [h0, h1, h2]

/-- The HDU list, simulate_data.py:186-204: frequency in hertz, wavelength and offsets in metres. -/
noncomputable def hduListU {N : ℕ} (a : InputU N) (tabs : List (List (Str × List ℝ))) (i : ℕ) :
    Py (List AuxFn.Hdu) := do
  let freq ← (ActUnits.light.div a.wavel).toValue .Hz
  let wl ← a.wavel.toValue .m
  let pri : AuxFn.Hdu := ⟨[("FREQ".toList, .num (freq ())), ("WAVEL".toList, .num (wl ())),
    ("MEANEL".toList, .num 0), ("OBJECT".toList, .str (testName i)), ("DATE_OBS".toList, .str a.now),
    ("COMMENT".toList, .str "Generated data pyoof package".toList),
    ("AUTHOR".toList, .str "Tomas Cassanelli".toList)], []⟩
  let names : List Str := ["MINUS OOF".toList, "ZERO OOF".toList, "PLUS OOF".toList]
  let dz ← a.dz.toValue .m
  return pri :: ((tabs.zip names).zipIdx.map fun x =>
    ⟨[("DZ".toList, .num (dz (Fin.ofNat 3 x.2))), ("EXTNAME".toList, .str x.1.2)], x.1.1⟩)

/-- The loop of simulate_data.py:182-208. -/
noncomputable def saveLoopU {N : ℕ} (a : InputU N) (tabs : List (List (Str × List ℝ))) (dir : Path) :
    List ℕ → Prog File (List AuxFn.Hdu)
  | [] => .raise .unboundLocalError
  | i :: rest => do
    let p := dir.join (testFile i)
    let e ← existsP p
    if !e then do
      let l ← Prog.lift (hduListU a tabs i)
      writeto p l
      return l
    else saveLoopU a tabs dir rest

/-- `(d_z[0] > 0) or (d_z[1] != 0) or (d_z[2] < 0)`, simulate_data.py:87: comparisons with the plain
number 0, which goes with every unit. -/
noncomputable def badOffsets (v : Val (Fin 3)) : Py Prop := do
  let p ← Val.lt (nm 0) (offsetAt v 0)
  let n ← Val.align (offsetAt v 1) (nm 0)
  let q ← Val.lt (offsetAt v 2) (nm 0)
  return p () ∨ n.1 () ≠ n.2.1 () ∨ q ()

/-- `simulate_data_pyoof(...)` -/
noncomputable def simulateU {N : ℕ} (a : InputU N) : Prog File (List AuxFn.Hdu) := open Classical in do
  let bad ← Prog.lift (badOffsets a.dz)
  if bad then .raise .valueError
  else do
    let tabs ← Prog.lift (tablesU a)
    let dir := a.workDir.join "data_generated".toList
    let e ← existsP dir
    if !e then makedirs dir false
    saveLoopU a tabs dir (List.range 101)

end Verif.SimUnits
