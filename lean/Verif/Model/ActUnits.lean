import Verif.Model.Actuator
import Verif.Model.Units

/-!
# Model of the units in `EffelsbergActuator`

`Verif.Model.Actuator` has displacements in micrometres, radii in metres and phases in radians.  Here
are the methods of the class with astropy Quantities in any unit, in terms of the arithmetic of
`Verif.Model.Units`.

The positions of the actuators are those of `Verif.Model.Actuator`.  An attribute that `__init__`
computes (`wavel`, `tfactor`) is computed by the methods that use it, so that an object that cannot be
made is a method that raises.  Elevations that are `Angle` objects of astropy and no Quantities are
not modelled, nor are axes of the ellipsoid that are 0.
-/

namespace Verif.ActUnits

open Verif Verif.Np Verif.Aperture Verif.Units Verif.Units.Val Verif.Actuator

noncomputable def um : AUnit := ⟨1 / 1000000, Pi.single .length 1⟩

/-- `constants.c`, metres per second. -/
def light : Sc := .qty (fun _ => 299792458) ⟨1, Pi.single .length 1 + Pi.single .time (-1)⟩

/-- Elementwise. -/
def each (g : Fl → Fl) : Arr → Arr
  | .d1 n f => .d1 n fun i => g (f i)
  | .d2 A => .d2 (A.map g)
  | .d3 d A => .d3 d (A.map fun x i => g (x i))

/-- `np.rot90` in the last two axes; `ValueError` for one dimension. -/
def rotate (k : ℤ) : Arr → Py Arr
  | .d1 _ _ => .error .valueError
  | .d2 A => .ok (.d2 (A.rot90 k))
  | .d3 d A => .ok (.d3 d (A.rot90 k))

/-- An array of floats of one to three dimensions: a plain one or a Quantity. -/
inductive QArr
  | plain (A : Arr)
  | qty (A : Arr) (u : AUnit)

namespace QArr

/-- `np.rot90` of it. -/
def rot90 (k : ℤ) : QArr → Py QArr
  | plain A => do return plain (← rotate k A)
  | qty A u => do return qty (← rotate k A) u

/-- `s * A` for a scalar. -/
noncomputable def scale (s : Sc) : QArr → QArr
  | plain A => match s with
    | .num r => plain (each (fun x => Fl.mul (.fin (r ())) x) A)
    | .qty r u => qty (each (fun x => Fl.mul (.fin (r ())) x) A) u
  | qty A v => match s with
    | .num r => qty (each (fun x => Fl.mul (.fin (r ())) x) A) v
    | .qty r u => qty (each (fun x => Fl.mul (.fin (r ())) x) A) (u.mul v)

/-- `A / s` for a scalar. -/
noncomputable def over (s : Sc) : QArr → QArr
  | plain A => match s with
    | .num r => plain (each (fun x => Fl.div x (.fin (r ()))) A)
    | .qty r u => qty (each (fun x => Fl.div x (.fin (r ()))) A) u.inv
  | qty A v => match s with
    | .num r => qty (each (fun x => Fl.div x (.fin (r ()))) A) v
    | .qty r u => qty (each (fun x => Fl.div x (.fin (r ()))) A) (v.mul u.inv)

/-- `A.to_value(unit)` -/
noncomputable def toValue (v : AUnit) : QArr → Py Arr
  | plain _ => .error .attributeError
  | qty A u => open Classical in
    if u.dim = v.dim then .ok (each (fun x => Fl.mul x (.fin (u.scale / v.scale))) A)
    else .error .typeError

/-- `A.to(unit)` -/
noncomputable def toUnit (v : AUnit) (A : QArr) : Py QArr := do return qty (← A.toValue v) v

/-- A scalar in the unit `u` of an array it is compared with or assigned to: a plain number goes with
a dimensionless array, and 0 with every one. -/
noncomputable def own (u : AUnit) : Sc → Py ℝ
  | .qty r v => open Classical in
    if v.dim = u.dim then .ok (r () * (v.scale / u.scale)) else .error .typeError
  | .num r => open Classical in
    if u.dim = 0 then .ok (r () / u.scale) else if r () = 0 then .ok 0 else .error .typeError

/-- nan, an infinity or zero: goes with every unit. -/
def anyUnit : Fl → Prop
  | .fin r => r = 0
  | _ => True

/-- All entries. -/
def all (P : Fl → Prop) : Arr → Prop
  | .d1 _ f => ∀ i, P (f i)
  | .d2 A => ∀ q, P (A.f q)
  | .d3 _ A => ∀ q i, P (A.f q i)

/-- `A[mask] = lim` where `mask` is `A > lim` or `A < lim`, actuator.py:273-274 and :346-347.  A plain
array that can be compared with a limit that has a unit is handed on unchanged: the next step is its
`to_value`, which it does not have. -/
noncomputable def limit (cmp : Fl → Fl → Prop) (lim : Sc) : QArr → Py QArr
  | qty A u => do
    let l ← own u lim
    return qty (each (fun x => open Classical in if cmp x (.fin l) then .fin l else x) A) u
  | plain A => open Classical in
    match lim with
    | .num r => .ok (plain (each (fun x => if cmp x (.fin (r ())) then .fin (r ()) else x) A))
    | .qty _ v => if v.dim = 0 ∨ all anyUnit A then .ok (plain A) else .error .typeError

end QArr

/-- An array of floats with nan and infinities, plain or a Quantity. -/
inductive FVal (ι : Type)
  | num (f : ι → Fl)
  | qty (f : ι → Fl) (u : AUnit)

namespace FVal

variable {ι : Type}

def ofVal : Val ι → FVal ι
  | .num f => num fun q => .fin (f q)
  | .qty f u => qty (fun q => .fin (f q)) u

noncomputable def sqrt : FVal ι → FVal ι
  | num f => num fun q => Fl.sqrt (f q)
  | qty f u => qty (fun q => Fl.sqrt (f q)) u.sqrt

noncomputable def mul : FVal ι → FVal ι → FVal ι
  | num f, num g => num fun q => Fl.mul (f q) (g q)
  | num f, qty g v => qty (fun q => Fl.mul (f q) (g q)) v
  | qty f u, num g => qty (fun q => Fl.mul (f q) (g q)) u
  | qty f u, qty g v => qty (fun q => Fl.mul (f q) (g q)) (u.mul v)

noncomputable def div : FVal ι → FVal ι → FVal ι
  | num f, num g => num fun q => Fl.div (f q) (g q)
  | num f, qty g v => qty (fun q => Fl.div (f q) (g q)) v.inv
  | qty f u, num g => qty (fun q => Fl.div (f q) (g q)) u
  | qty f u, qty g v => qty (fun q => Fl.div (f q) (g q)) (u.mul v.inv)

/-- `np.sin(np.arctan(np.abs(m)))`: `TypeError` for a Quantity with a dimension; the angle between is
in radians and the result a Quantity without unit. -/
noncomputable def sinArctanAbs : FVal ι → Py (FVal ι)
  | num f => .ok (num fun q => Act.sinArctan (Fl.abs (f q)))
  | qty f u => open Classical in
    if u.dim = 0 then
      .ok (qty (fun q => Act.sinArctan (Fl.mul (Fl.abs (f q)) (.fin u.scale))) .one)
    else .error .typeError

/-- `.value` -/
def value : FVal ι → Py (ι → Fl)
  | num _ => .error .attributeError
  | qty f _ => .ok f

end FVal

/-- The attributes of the object with their units; see `Act` for the two functions of scipy. -/
structure ActU where
  frequency : Sc
  nrot : ℤ
  sign : ℤ
  order : ℕ
  sr : Sc
  pr : Sc
  resolution : ℕ
  minAmp : Sc
  maxAmp : Sc
  nReflections : ℤ
  spline : {m n : ℕ} → (Fin m → ℝ) → (Fin n → ℝ) → (Fin m × Fin n → Fl) → Py (ℝ → ℝ → Fl)
  griddata : (n : ℕ) → List ℝ → List ℝ → List ℤ → (Fin n × Fin n → ℝ × ℝ) → Py (Fin n × Fin n → Fl)

namespace ActU

variable (a : ActU)

/-- `(constants.c / frequency).to(apu.mm)`, actuator.py:64. -/
noncomputable def wavel : Py Sc := do
  let v ← (light.div a.frequency).toValue .mm
  return .qty v .mm

/-- `N_K_coeff`, actuator.py:70. -/
def nK : ℕ := (a.order + 1) * (a.order + 2) / 2

/-- `tfactor`, actuator.py:75-77. -/
noncomputable def tfactor : Py Sc := do
  let w ← a.wavel
  return ((nm (a.sign * 2 * a.nReflections * Real.pi)).mul (.qty (fun _ => 1) .rad)).div w

/-- `transform(actuator_sr)`, actuator.py:225-238. -/
noncomputable def transform (v : QArr) : Py QArr := do
  let t ← a.tfactor
  let r ← v.rot90 a.nrot
  (r.scale t).toUnit .rad

/-- `[min_amplitude, max_amplitude] = self.limits_amplitude` and the two assignments,
actuator.py:272-274 and :345-347. -/
noncomputable def clip (v : QArr) : Py QArr := do
  let w ← v.limit (fun x l => Fl.lt l x) a.maxAmp
  w.limit (fun x l => Fl.lt x l) a.minAmp

/-- `itransform(phase_pr)`, actuator.py:260-276. -/
noncomputable def itransform (v : QArr) : Py QArr := do
  let t ← a.tfactor
  let p ← (v.over t).toUnit um
  let r ← p.rot90 (-a.nrot)
  a.clip r

/-- `interp_surface2rings(actuator_sr)`, actuator.py:302-319: `IndexError` when the array has fewer
than three dimensions or no map `j`, `ValueError` when the shape of a map is not that of the grid. -/
noncomputable def interp (v : QArr) : Py (Fin 11 × Fin 96 → Fl) := do
  let x ← linspaceU a.sr.neg a.sr a.resolution
  let rows ← (List.range 11).mapM fun j => do
    let xm ← x.toValue .mm
    let ym ← x.toValue .mm
    match ← v.toValue um with
    | .d3 d A =>
      if hj : j < d then
        if h : A.n = a.resolution ∧ A.m = a.resolution then do
          let s ← a.spline xm ym fun q => A.f (q.2.cast h.2.symm, q.1.cast h.1.symm) ⟨j, hj⟩
          return fun k : Fin 96 => s (Act.actX.getD k 0 * 1000) (Act.actY.getD k 0 * 1000)
        else .error .valueError
      else .error .indexError
    | _ => .error .indexError
  return fun q => rows.getD q.1 (fun _ => .fin 0) q.2

/-- The lines of a table, which is an array of numbers of micrometres by now, actuator.py:351-356. -/
noncomputable def writeText : Arr → Py Unit × Str
  | .d1 _ _ => (.error .indexError, [])
  | .d2 A => Act.writeLines A.f (List.range 96)
  | .d3 _ _ => (.error .indexError, [])

/-- The number of axes is three, actuator.py:340. -/
def isStack : QArr → Bool
  | .plain (.d3 _ _) => true
  | .qty (.d3 _ _) _ => true
  | _ => false

/-- The table that is written, in micrometres, actuator.py:340-348. -/
noncomputable def lookupTable (v : QArr) : Py Arr := do
  let t ← if isStack v then do
      let t ← a.interp v
      pure (QArr.qty (.d2 ⟨11, 96, t⟩) um)
    else pure v
  let c ← a.clip t
  c.toValue um

/-- `write_lookup(fname, actuator_sr)`, actuator.py:340-356: the exception if any, and the text of the
file, `none` when it has not been opened. -/
noncomputable def writeLookup (v : QArr) : Py Unit × Option Str :=
  match a.lookupTable v with
  | .error e => (.error e, none)
  | .ok t => ((writeText t).1, some (writeText t).2)

/-- A map on the grid of the object. -/
abbrev Map := Fin a.resolution × Fin a.resolution → Fl

/-- One round of the loop in `read_lookup(True)`, actuator.py:139-164, for the column `v`. -/
noncomputable def surfaceMap (v : List ℤ) : Py (Map a) := do
  let x ← linspaceU a.sr.neg a.sr a.resolution
  let xx : Val (Fin a.resolution × Fin a.resolution) := x.comap fun q => q.2
  let yy : Val (Fin a.resolution × Fin a.resolution) := x.comap fun q => q.1
  let r2 ← add (xx.zpow 2) (yy.zpow 2)
  let inside ← lt r2 (bc (a.sr.zpow 2))
  let xm ← x.toValue .m
  let ym ← x.toValue .m
  if v.length ≠ 96 then throw .valueError
  let g ← a.griddata a.resolution Act.actX Act.actY v fun q => (meshX xm ym q, meshY xm ym q)
  return fun q => open Classical in if inside q then Act.nanToNum (g q) else .fin 0

/-- `read_lookup(True)` of a file with the text `s`, actuator.py:121-164 and :171. -/
noncomputable def readSurface (s : Str) : Py (List (Map a)) := do
  let rows ← Act.fileRows s
  let cols ← (List.range 11).mapM fun j => Act.intColumn rows (j + 3)
  cols.mapM a.surfaceMap

/-- A stack of maps as a Quantity. -/
def stackOf (u : AUnit) (l : List (Map a)) : QArr :=
  .qty (.d3 l.length ⟨a.resolution, a.resolution, fun q i => l.get i q⟩) u

/-- `phase_pr_lookup` as `__init__` computes it from the file, actuator.py:99-100. -/
noncomputable def phaseLookup (s : Str) : Py QArr := do
  a.transform (a.stackOf um (← a.readSurface s))

/-- `grav_deformation(g_coeff, alpha)`, actuator.py:195-203. -/
noncomputable def gravDeformation (g : List ℝ) (alpha : Sc) : Py ℝ := do
  let x ← match alpha with
    | .num r => .ok r
    | .qty r u => Val.toValue .rad (.qty r u)
  let g0 ← pyIdx g 0
  let g1 ← pyIdx g 1
  let g2 ← pyIdx g 2
  return g0 * Real.sin (x ()) + g1 * Real.cos (x ()) + g2

/-- `ellipsoidal_actuator_correction(r, a, b)` for a radius `r` that is given, actuator.py:602-606. -/
noncomputable def correctionOf {ι : Type} (ea eb : Sc) (r : Val ι) : Py (ι → Fl) := do
  let w ← sub (nm 1) ((r.zpow 2).div (bc (eb.zpow 2)))
  let m := (((FVal.ofVal (bc ((eb.zpow 2).div ea))).mul (FVal.ofVal w).sqrt).div (FVal.ofVal r))
  (← m.sinArctanAbs).value

/-- `ellipsoidal_actuator_correction()`, actuator.py:596-606. -/
noncomputable def correction : Py (Map a) := do
  let x ← linspaceU a.sr.neg a.sr a.resolution
  let xx : Val (Fin a.resolution × Fin a.resolution) := x.comap fun q => q.2
  let yy : Val (Fin a.resolution × Fin a.resolution) := x.comap fun q => q.1
  let r2 ← add (xx.zpow 2) (yy.zpow 2)
  correctionOf (.qty (fun _ => 14.3050) .m) (.qty (fun _ => 7.3872) .m) r2.sqrt

/-- The coefficients of one elevation, actuator.py:547-553. -/
noncomputable def gravCoeffs (g : List (List ℝ)) (alpha : Sc) : Py (List ℝ) :=
  (List.range a.nK).mapM fun k => do gravDeformation (← pyIdx g k) alpha

/-- The loop of `generate_phase_pr` from the index `i` on, actuator.py:545-564; the stack is in
radians. -/
noncomputable def genLoop (g : List (List ℝ)) (eac : Bool) :
    ℕ → List Sc → List (Map a) → Py (List (Map a))
  | _, [], phases => .ok phases
  | i, alpha :: rest, phases => do
    let K ← a.gravCoeffs g alpha
    let p ← phaseU K a.pr false false a.resolution
    let phi ← p.phi.toValue .rad
    let phases := phases.set i fun q => .fin (phi q)
    if eac then do
      let c ← a.correction
      genLoop g eac (i + 1) rest (phases.map fun m q => Fl.mul (m q) (c q))
    else genLoop g eac (i + 1) rest phases

/-- `generate_phase_pr(g_coeff, alpha, eac)`, actuator.py:541-566, in radians. -/
noncomputable def generatePhasePr (g : List (List ℝ)) (alphas : List Sc) (eac : Bool) :
    Py (List (Map a)) :=
  a.genLoop g eac 0 alphas (List.replicate alphas.length fun _ => .fin 0)

/-- `residual_phase`, actuator.py:388-396 and :401-409. -/
noncomputable def residualPhase (fem : Bool) (K : List ℝ)
    (data : Fin a.resolution × Fin a.resolution → ℝ) :
    Py (Fin a.resolution × Fin a.resolution → ℝ) := do
  let p ← if fem then phaseU ([0, 0, 0] ++ K) a.pr false false a.resolution
    else phaseU K a.pr false true a.resolution
  let phi ← p.phi.toValue .rad
  return fun q => data q - phi q

/-- `phase_pr[i, ...]` -/
def mapAt {d N : ℕ} (v : Val (Fin d × Fin N × Fin N)) (i : ℕ) : Py (Val (Fin N × Fin N)) :=
  if h : i < d then .ok (v.comap fun q => (⟨i, h⟩, q)) else .error .indexError

/-- `fit_zpoly(phase_pr, alpha, fem)`, actuator.py:387-429; `count` is `alpha.size`. -/
noncomputable def fitZpoly (solver : Act.Solver (Fin a.resolution × Fin a.resolution → ℝ)) {d : ℕ}
    (phases : Val (Fin d × Fin a.resolution × Fin a.resolution)) (count : ℕ) (fem : Bool) :
    Py (List (List ℝ)) := do
  if fem ∧ a.nK < 3 then throw .valueError
  let x0 := List.replicate (if fem then a.nK - 3 else a.nK) (0.1 : ℝ)
  let rows ← (List.range count).mapM fun i => do
    let data ← (← mapAt phases i).toValue .rad
    let x ← solver (fun K => a.residualPhase fem K data) x0
    return List.ofFn x
  if x0.length ≠ a.nK then return rows.map fun r => [0, 0, 0] ++ r
  else return rows

/-- `residual_grav_deformation`, actuator.py:458-460. -/
noncomputable def residualGrav (g : List ℝ) (knl : List ℝ) (alphas : List Sc) : Py (List ℝ) := do
  let model ← alphas.mapM (gravDeformation g)
  if knl.length = model.length then return List.zipWith (· - ·) knl model
  else throw .valueError

/-- `fit_grav_deformation(K_coeff_alpha, alpha)`, actuator.py:463-478. -/
noncomputable def fitGrav (solver : Act.Solver (List ℝ)) (Kalpha : List (List ℝ))
    (alphas : List Sc) : Py (List (List ℝ)) :=
  (List.range a.nK).mapM fun k => do
    let col ← Kalpha.mapM fun r => pyIdx r k
    let x ← solver (fun g => residualGrav g col alphas) [0.1, 0.1, 0.1]
    return List.ofFn x

/-- `fit_all(phase_pr, alpha)`, actuator.py:508-513. -/
noncomputable def fitAll (s1 : Act.Solver (Fin a.resolution × Fin a.resolution → ℝ))
    (s2 : Act.Solver (List ℝ)) {d : ℕ} (phases : Val (Fin d × Fin a.resolution × Fin a.resolution))
    (alphas : List Sc) : Py (List (List ℝ) × List (List ℝ)) := do
  let K ← a.fitZpoly s1 phases alphas.length true
  let g ← a.fitGrav s2 K alphas
  return (g, K)

end ActU

end Verif.ActUnits
