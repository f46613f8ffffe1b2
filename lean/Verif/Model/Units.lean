import Verif.Model.Illum
import Verif.Model.Residual
import Verif.Model.Telgeometry
import Mathlib.Algebra.Group.Pi.Basic
import Mathlib.Data.Rat.Defs

/-!
# Model of the units

The other model files take lengths in metres and angles in radians.  In the code they are astropy
Quantities, numbers with a unit.  Here is the arithmetic of astropy Quantities and, in terms of it,
`cart2pol`, `R`, `U`, `wavefront`, `phase`, `illum_parabolic`, `illum_gauss`, `opd_manual`,
`opd_effelsberg`, `block_manual`, `aperture`, `radiation_pattern` and `residual_true`, with the places
where the unit is dropped (`.value`, `to_value`).  `block_effelsberg` is in `Model/SimUnits.lean`.

A unit conversion error of astropy is a `TypeError`.  Not modelled: division by zero (the value is 0
in Lean), astropy before version 4.
-/

namespace Verif.Units

open Verif Verif.Np Verif.Aperture

/-- The base dimensions that occur. -/
inductive Base
  | length | time | angle | dB
  deriving DecidableEq

/-- The exponents of the base dimensions. -/
abbrev Dim := Base → ℚ

/-- A unit: how many of the reference units (metre, second, radian, decibel) and of what dimension. -/
structure AUnit where
  scale : ℝ
  dim : Dim

namespace AUnit

/-- `dimensionless_unscaled` -/
def one : AUnit := ⟨1, 0⟩
def m : AUnit := ⟨1, Pi.single .length 1⟩
noncomputable def cm : AUnit := ⟨1 / 100, Pi.single .length 1⟩
noncomputable def mm : AUnit := ⟨1 / 1000, Pi.single .length 1⟩
def rad : AUnit := ⟨1, Pi.single .angle 1⟩
noncomputable def deg : AUnit := ⟨Real.pi / 180, Pi.single .angle 1⟩
def dB : AUnit := ⟨1, Pi.single .dB 1⟩
def Hz : AUnit := ⟨1, Pi.single .time (-1)⟩

def mul (u v : AUnit) : AUnit := ⟨u.scale * v.scale, u.dim + v.dim⟩
noncomputable def inv (u : AUnit) : AUnit := ⟨u.scale⁻¹, -u.dim⟩
noncomputable def zpow (u : AUnit) (k : ℤ) : AUnit := ⟨u.scale ^ k, fun b => k * u.dim b⟩
noncomputable def sqrt (u : AUnit) : AUnit := ⟨Real.sqrt u.scale, fun b => u.dim b / 2⟩

end AUnit

/-- An array over `ι`: a plain numpy array (or a number) or a Quantity. -/
inductive Val (ι : Type)
  | num (f : ι → ℝ)
  | qty (f : ι → ℝ) (u : AUnit)

/-- A scalar, a number or a Quantity. -/
abbrev Sc := Val Unit

namespace Val

variable {ι κ : Type}

/-- The elements at other positions: broadcasting, indexing, shifting, `meshgrid`. -/
def comap (e : κ → ι) : Val ι → Val κ
  | num f => num fun q => f (e q)
  | qty f u => qty (fun q => f (e q)) u

/-- A scalar against an array. -/
def bc (s : Sc) : Val ι := s.comap fun _ => ()

/-- A plain number. -/
def nm (r : ℝ) : Val ι := num fun _ => r

/-- With a unit or without. -/
def mk (f : ι → ℝ) : Option AUnit → Val ι
  | none => num f
  | some u => qty f u

/-- The operands of `+`, `-`, `<` and `arctan2` in a common unit, `get_converters_and_unit` of
`astropy.units.quantity_helper`: the second operand goes to the unit of the first; a Quantity with a
plain array goes to a plain number; a plain array of zeros goes with every unit. -/
noncomputable def align (a b : Val ι) : Py ((ι → ℝ) × (ι → ℝ) × Option AUnit) := open Classical in
  match a, b with
  | num f, num g => .ok (f, g, none)
  | qty f u, qty g v =>
    if v.dim = u.dim then .ok (f, fun q => g q * (v.scale / u.scale), some u) else .error .typeError
  | num f, qty g v =>
    if v.dim = 0 then .ok (f, fun q => g q * v.scale, some .one)
    else if ∀ q, f q = 0 then .ok (f, g, some v) else .error .typeError
  | qty f u, num g =>
    if u.dim = 0 then .ok (fun q => f q * u.scale, g, some .one)
    else if ∀ q, g q = 0 then .ok (f, g, some u) else .error .typeError

noncomputable def add (a b : Val ι) : Py (Val ι) := do
  let (f, g, u) ← align a b
  return mk (fun q => f q + g q) u

noncomputable def sub (a b : Val ι) : Py (Val ι) := do
  let (f, g, u) ← align a b
  return mk (fun q => f q - g q) u

noncomputable def lt (a b : Val ι) : Py (ι → Prop) := do
  let (f, g, _) ← align a b
  return fun q => f q < g q

/-- `np.arctan2(y, x)` of Quantities is in radians, of plain arrays a plain array. -/
noncomputable def atan2 (y x : Val ι) : Py (Val ι) := do
  let (f, g, u) ← align y x
  return mk (fun q => arctan2 (f q) (g q)) (u.map fun _ => .rad)

def neg : Val ι → Val ι
  | num f => num fun q => -f q
  | qty f u => qty (fun q => -f q) u

def mul : Val ι → Val ι → Val ι
  | num f, num g => num fun q => f q * g q
  | num f, qty g v => qty (fun q => f q * g q) v
  | qty f u, num g => qty (fun q => f q * g q) u
  | qty f u, qty g v => qty (fun q => f q * g q) (u.mul v)

noncomputable def div : Val ι → Val ι → Val ι
  | num f, num g => num fun q => f q / g q
  | num f, qty g v => qty (fun q => f q / g q) v.inv
  | qty f u, num g => qty (fun q => f q / g q) u
  | qty f u, qty g v => qty (fun q => f q / g q) (u.mul v.inv)

/-- `a ** k` for a Python integer. -/
noncomputable def zpow (k : ℤ) : Val ι → Val ι
  | num f => num fun q => f q ^ k
  | qty f u => qty (fun q => f q ^ k) (u.zpow k)

noncomputable def sqrt : Val ι → Val ι
  | num f => num fun q => Real.sqrt (f q)
  | qty f u => qty (fun q => Real.sqrt (f q)) u.sqrt

/-- `np.sin`, `np.cos`: the angle in radians; `TypeError` for a Quantity that is no angle. -/
noncomputable def trig (fn : ℝ → ℝ) : Val ι → Py (Val ι)
  | num f => .ok (num fun q => fn (f q))
  | qty f u => open Classical in
    if u.dim = AUnit.rad.dim then .ok (qty (fun q => fn (f q * u.scale)) .one) else .error .typeError

/-- A function of plain numbers (`np.exp`, `10 ** x`): `TypeError` for a Quantity with a dimension. -/
noncomputable def fn1 (fn : ℝ → ℝ) : Val ι → Py (Val ι)
  | num f => .ok (num fun q => fn (f q))
  | qty f u => open Classical in
    if u.dim = 0 then .ok (qty (fun q => fn (f q * u.scale)) .one) else .error .typeError

/-- `np.exp(phi * 1j)` with `dimensionless_angles` enabled: powers of the radian are plain numbers. -/
noncomputable def expI : Val ι → Py (ι → ℂ)
  | num f => .ok fun q => Complex.exp ((f q : ℂ) * Complex.I)
  | qty f u => open Classical in
    if ∀ b, b ≠ Base.angle → u.dim b = 0 then
      .ok fun q => Complex.exp (((f q * u.scale : ℝ) : ℂ) * Complex.I)
    else .error .typeError

/-- The attribute `.value`: the numbers, whatever the unit.  A plain array has no such attribute. -/
def value : Val ι → Py (ι → ℝ)
  | num _ => .error .attributeError
  | qty f _ => .ok f

/-- `a.to_value(unit)` -/
noncomputable def toValue (v : AUnit) : Val ι → Py (ι → ℝ)
  | num _ => .error .attributeError
  | qty f u => open Classical in
    if u.dim = v.dim then .ok fun q => f q * (u.scale / v.scale) else .error .typeError

/-- `sum(generator)`: from the number 0 on. -/
noncomputable def sum (l : List (Val ι)) : Py (Val ι) := l.foldlM add (nm 0)

end Val

open Val

/-- `np.linspace(start, stop, num)` of Quantities: in the unit of `start`. -/
noncomputable def linspaceU (start stop : Sc) (N : ℕ) : Py (Val (Fin N)) := do
  let (f, g, u) ← align start stop
  return Val.mk (linspace (f ()) (g ()) N) u

/-- `np.fft.fftfreq(n, d)`: integers times `1.0 / (n * d)`. -/
noncomputable def fftfreqU (n : ℕ) : Sc → Val (Fin n)
  | .num d => .num (fftfreq n (d ()))
  | .qty d u => .qty (fftfreq n (d ())) u.inv

/-- `cart2pol`, math_functions.py:60-63. -/
noncomputable def cart2polU {ι : Type} (x y : Val ι) : Py (Val ι × Val ι) := do
  let r2 ← add (x.zpow 2) (y.zpow 2)
  let t ← atan2 y x
  return (r2.sqrt, t)

/-- One summand of `R`, zernike.py:66-67. -/
noncomputable def rTermU {ι : Type} (n a b : ℤ) (rho : Val ι) (s : ℕ) : Py (Val ι) := do
  let f1 ← Zernike.factorial (n - s)
  let f2 ← Zernike.factorial s
  let f3 ← Zernike.factorial (a - s)
  let f4 ← Zernike.factorial (b - s)
  return (mul (nm ((-1) ^ s * (f1 : ℝ))) (rho.zpow (n - 2 * s))).div (nm ((f2 : ℝ) * f3 * f4))

/-- `R(n, m, rho)`, zernike.py:14-71. -/
noncomputable def RU {ι : Type} (n m : ℤ) (rho : Val ι) : Py (Val ι) := do
  let a := (n + m) / 2
  let b := (n - m) / 2
  let terms ← (List.range (b + 1).toNat).mapM (rTermU n a b rho)
  Val.sum terms

/-- `U(n, l, rho, theta)`, zernike.py:74-152, for integers `n` and `l`. -/
noncomputable def UU {ι : Type} (n l : ℤ) (rho theta : Val ι) : Py (Val ι) :=
  if n < 0 then .error .typeError
  else do
    let m : ℤ := |l|
    let radial ← RU n m rho
    if l < 0 then return radial.mul (← trig Real.sin (mul (nm m) theta))
    else return radial.mul (← trig Real.cos (mul (nm m) theta))

/-- `K_coeff[i] * U(*nl[i], rho, theta)`, aperture.py:249. -/
noncomputable def wfTermU {ι : Type} (rho theta : Val ι) (K : List ℝ) (nl : List (ℤ × ℤ)) (i : ℕ) :
    Py (Val ι) := do
  let k ← pyIdx K i
  let p ← pyIdx nl i
  let u ← UU p.1 p.2 rho theta
  return mul (nm k) u

/-- `wavefront(rho, theta, K_coeff)`, aperture.py:242-253: the attribute `value` of the sum. -/
noncomputable def wavefrontU {ι : Type} (rho theta : Val ι) (K : List ℝ) : Py (ι → ℝ) := do
  let nl := nlList (Aperture.orderOf K.length)
  let terms ← (List.range K.length).mapM (wfTermU rho theta K nl)
  (← Val.sum terms).value

/-- Result of `phase`. -/
structure PhaseMapU (N : ℕ) where
  x : Val (Fin N)
  y : Val (Fin N)
  phi : Val (Fin N × Fin N)

/-- `phase(K_coeff, pr, piston, tilt, resolution)`, aperture.py:324-348. -/
noncomputable def phaseU (K : List ℝ) (pr : Sc) (piston tilt : Bool) (N : ℕ) : Py (PhaseMapU N) := do
  let K' ← maskCoeff K piston tilt
  let x ← linspaceU pr.neg pr N
  let y ← linspaceU pr.neg pr N
  let xg : Val (Fin N × Fin N) := x.comap fun q => q.2
  let yg : Val (Fin N × Fin N) := y.comap fun q => q.1
  let p ← cart2polU xg yg
  let W ← wavefrontU (p.1.div (bc pr)) p.2 K'
  let r2 ← add (xg.zpow 2) (yg.zpow 2)
  let out ← lt (bc (pr.zpow 2)) r2
  let W' := fun q => open Classical in if out q then 0 else W q
  return ⟨x, y, .qty (fun q => W' q * 2 * Real.pi) .rad⟩

/-- `telgeo` with Quantities. -/
structure TelGeoU (ι : Type) where
  block : Val ι → Val ι → Py (ι → ℝ)
  opd : Val ι → Val ι → Sc → Py (Val ι)
  pr : Sc

/-- An illumination function with Quantities; the result is a plain array. -/
abbrev IllumU (ι : Type) := Val ι → Val ι → List Sc → Sc → Py (ι → ℝ)

/-- `aperture(x, y, I_coeff, K_coeff, d_z, wavel, illum_func, telgeo)`, aperture.py:415-436. -/
noncomputable def apertureU {ι : Type} (x y : Val ι) (I : List Sc) (K : List ℝ) (dz wavel : Sc)
    (illum : IllumU ι) (tel : TelGeoU ι) : Py (ι → ℂ) := do
  let p ← cart2polU x y
  let B ← tel.block x y
  let W ← wavefrontU (p.1.div (bc tel.pr)) p.2 K
  let delta ← tel.opd x y dz
  let Ea ← illum x y I tel.pr
  let s ← add (.num W) (delta.div (bc wavel))
  let phi := ((s.mul (nm 2)).mul (nm Real.pi)).mul (.qty (fun _ => 1) .rad)
  let e ← phi.expI
  return fun q => ((B q * Ea q : ℝ) : ℂ) * e q

/-- Result of `radiation_pattern`. -/
structure PatternU (N : ℕ) where
  u : Val (Fin N)
  v : Val (Fin N)
  F : Fin N × Fin N → ℂ

/-- `x[i]` of a one dimensional array. -/
def Val.idx {N : ℕ} (x : Val (Fin N)) (i : ℕ) : Py Sc :=
  if h : i < N then .ok (x.comap fun _ => ⟨i, h⟩) else .error .indexError

/-- `radiation_pattern(...)`, aperture.py:511-556, astropy version 4 and later, for a `box_factor` with
or without a unit.  For a primary radius without a unit `aperture` raises (there is no `.value` in
`wavefront`), so the last branch of the code, for arrays without unit, is never reached. -/
noncomputable def radiationPatternBoxU (I : List Sc) (K : List ℝ) (dz wavel : Sc) {N : ℕ}
    (illum : IllumU (Fin N × Fin N)) (tel : TelGeoU (Fin N × Fin N)) (boxFactor : Sc) :
    Py (PatternU N) := do
  let boxSize := tel.pr.mul boxFactor
  let x ← linspaceU boxSize.neg boxSize N
  let y := x
  let dx ← sub (← x.idx 1) (← x.idx 0)
  let dy ← sub (← y.idx 1) (← y.idx 0)
  let E ← apertureU (x.comap fun q => q.2) (y.comap fun q => q.1) I K dz wavel illum tel
  let u := (fftfreqU N dx).comap shiftIdx
  let v := (fftfreqU N dy).comap shiftIdx
  return ⟨(u.mul (bc wavel)).mul (.qty (fun _ => 1) .rad),
    (v.mul (bc wavel)).mul (.qty (fun _ => 1) .rad), fftshift2 (fft2 E)⟩

/-- `radiation_pattern(...)`, aperture.py:511-556, for a plain number `box_factor`. -/
noncomputable def radiationPatternU (I : List Sc) (K : List ℝ) (dz wavel : Sc) {N : ℕ}
    (illum : IllumU (Fin N × Fin N)) (tel : TelGeoU (Fin N × Fin N)) (boxFactor : ℝ) :
    Py (PatternU N) :=
  radiationPatternBoxU I K dz wavel illum tel (nm boxFactor)

/-! ### The functions of the package for `telgeo` and the illumination -/

/-- `opd_manual(Fp, F)`, telgeometry.py:88-98. -/
noncomputable def opdManualU {ι : Type} (Fp F : Sc) (x y : Val ι) (dz : Sc) : Py (Val ι) := do
  let r2 ← add (x.zpow 2) (y.zpow 2)
  let a : Val ι := r2.sqrt.div (bc ((nm 2).mul Fp))
  let b : Val ι := r2.sqrt.div (bc ((nm 2).mul F))
  let n1 ← sub (nm 1) (a.zpow 2)
  let d1 ← add (nm 1) (a.zpow 2)
  let n2 ← sub (nm 1) (b.zpow 2)
  let d2 ← add (nm 1) (b.zpow 2)
  let s ← add (n1.div d1) (n2.div d2)
  return (bc dz).mul s

/-- `opd_effelsberg`, telgeometry.py:54-62. -/
noncomputable def opdEffelsbergU {ι : Type} (x y : Val ι) (dz : Sc) : Py (Val ι) :=
  opdManualU (.qty (fun _ => 30) .m) (.qty (fun _ => 387.39435) .m) x y dz

/-- `block_manual(pr, sr, a, L)(x, y)`, telgeometry.py:206-213. -/
noncomputable def blockManualU {ι : Type} (pr sr a L : Sc) (x y : Val ι) : Py (ι → ℝ) := do
  let r2 ← add (x.zpow 2) (y.zpow 2)
  let m1 ← lt r2 (bc (pr.zpow 2))
  let m2 ← lt (bc (sr.zpow 2)) r2
  let b1 := Telgeometry.setWhere (fun q => m1 q ∧ m2 q) 1 fun _ : ι => 0
  let s ← add sr L
  let x1 ← lt (bc s.neg) x
  let x2 ← lt x (bc s)
  let x3 ← lt (bc a.neg) y
  let x4 ← lt y (bc a)
  let b2 := Telgeometry.setWhere (fun q => x1 q ∧ x2 q ∧ x3 q ∧ x4 q) 0 b1
  let y1 ← lt (bc s.neg) y
  let y2 ← lt y (bc s)
  let y3 ← lt (bc a.neg) x
  let y4 ← lt x (bc a)
  return Telgeometry.setWhere (fun q => y1 q ∧ y2 q ∧ y3 q ∧ y4 q) 0 b2

/-- `10 ** (c_dB / 20. / apu.dB)` or `10 ** (c_dB / 20.)`, aperture.py:118-121 and :180-183. -/
noncomputable def taperU : Sc → Py Sc
  | .qty f u => fn1 (fun r => (10 : ℝ) ^ r) ((Val.qty f u).div (nm 20) |>.div (.qty (fun _ => 1) .dB))
  | .num f => fn1 (fun r => (10 : ℝ) ^ r) ((Val.num f).div (nm 20))

/-- `x0 *= apu.m` when it is no Quantity, aperture.py:122-125 and :184-187. -/
def offsetU : Sc → Sc
  | .qty f u => .qty f u
  | .num f => .qty f .m

/-- The number in a scalar, whatever the unit. -/
def Val.raw : Sc → ℝ
  | .num f => f ()
  | .qty f _ => f ()

/-- `illum_parabolic(x, y, I_coeff, pr)`, aperture.py:115-139, for `i_amp` and `q` plain numbers (the
unit of `i_amp` is dropped by `.value`). -/
noncomputable def illumParabolicU {ι : Type} (x y : Val ι) (I : List Sc) (pr : Sc) : Py (ι → ℝ) :=
  match I with
  | [i, c, q, x0, y0] => do
    let c ← taperU c
    let dx ← sub x (bc (offsetU x0))
    let dy ← sub y (bc (offsetU y0))
    let r2 ← add (dx.zpow 2) (dy.zpow 2)
    let base ← (← sub (nm 1) ((r2.sqrt.div (bc pr)).zpow 2)).value
    return fun p => Fl.nanToNum (Fl.mul (.fin i.raw) (Fl.add (.fin c.raw)
      (Fl.mul (.fin (1 - c.raw)) (Fl.pow (.fin (base p)) q.raw))))
  | _ => .error .valueError

/-- `illum_gauss` for unpacked coefficients, aperture.py:179-192. -/
noncomputable def gaussU {ι : Type} (x y : Val ι) (i c x0 y0 pr : Sc) : Py (ι → ℝ) := do
  let sigma ← taperU c
  let dx ← sub x (bc (offsetU x0))
  let dy ← sub y (bc (offsetU y0))
  let r2 ← add (dx.zpow 2) (dy.zpow 2)
  let den := (nm 2).mul ((sigma.mul pr).zpow 2)
  let e ← fn1 Real.exp (r2.neg.div (bc den))
  let amp := i.mul (((nm 2).mul (nm Real.pi)).mul (sigma.zpow 2)).sqrt
  ((bc amp : Val ι).mul e).value

/-- `illum_gauss(x, y, I_coeff, pr)`, aperture.py:176-192. -/
noncomputable def illumGaussU {ι : Type} (x y : Val ι) (I : List Sc) (pr : Sc) : Py (ι → ℝ) :=
  match I.take 2, I.drop (I.length - 2) with
  | [i, c], [x0, y0] => gaussU x y i c x0 y0 pr
  | _, _ => .error .valueError

/-- `[block_manual(pr, sr, a, L), opd_manual(Fp, F), pr]` -/
noncomputable def manualTelU {ι : Type} (pr sr a L Fp F : Sc) : TelGeoU ι :=
  ⟨blockManualU pr sr a L, opdManualU Fp F, pr⟩

/-! ### `residual_true` -/

/-- One round of the loop, core.py:96-126; `params` are plain numbers. -/
noncomputable def modelRowU {N M : ℕ} (params : List ℝ) (u v : Val (Fin 3 × Fin M)) (dz : Val (Fin 3))
    (wavel : Sc) (illum : IllumU (Fin N × Fin N)) (tel : TelGeoU (Fin N × Fin N)) (boxFactor : ℝ)
    (i : Fin 3) : Py (Fin M → ℝ) := do
  let P ← radiationPatternU ((params.take 5).map fun r => nm r) (params.drop 5)
    (dz.comap fun _ => i) wavel illum tel boxFactor
  let pu ← P.u.toValue .rad
  let pv ← P.v.toValue .rad
  let du ← u.toValue .rad
  let dv ← v.toValue .rad
  Core.interpolator pu pv (fun q => ‖P.F (q.2, q.1)‖ ^ 2) (fun k => (du (i, k), dv (i, k)))

/-- `residual_true(...)` with `interp=True` and flat maps, core.py:94-132. -/
noncomputable def residualTrueU {N M : ℕ} (params : List ℝ) (beam : Fin 3 × Fin M → Fl)
    (u v : Val (Fin 3 × Fin M)) (dz : Val (Fin 3)) (wavel : Sc) (illum : IllumU (Fin N × Fin N))
    (tel : TelGeoU (Fin N × Fin N)) (boxFactor : ℝ) : Py (List ℝ) := do
  let b0 ← modelRowU params u v dz wavel illum tel boxFactor 0
  let b1 ← modelRowU params u v dz wavel illum tel boxFactor 1
  let b2 ← modelRowU params u v dz wavel illum tel boxFactor 2
  let model : Fin 3 × Fin M → ℝ := fun q => (![b0, b1, b2] q.1) q.2
  let nd ← MathFn.normAxis1 beam
  let nm ← MathFn.normAxis1 (fun q => Fl.fin (model q))
  return Core.flatten3 fun q => nd q - nm q

/-- The limits of the fitted beam figure, core.py:438-443: the least and the greatest coordinate of the
first map in radians, times the unit of `u_data`. -/
noncomputable def fitPlimU {M : ℕ} (u v : Val (Fin 3 × Fin M)) : Py (Val (Fin 4)) := do
  let uu ← u.toValue .rad
  let vv ← v.toValue .rad
  let a ← MathFn.minR fun k => uu (0, k)
  let b ← MathFn.maxR fun k => uu (0, k)
  let c ← MathFn.minR fun k => vv (0, k)
  let d ← MathFn.maxR fun k => vv (0, k)
  return (Val.num ![a, b, c, d]).mul (match u with
    | .num _ => .nm 1
    | .qty _ w => .qty (fun _ => 1) w)

end Verif.Units
