import Verif.Model.Aperture
import Verif.Model.Fl
import Verif.Model.Text
import Mathlib.Analysis.SpecialFunctions.Trigonometric.Arctan

/-!
# Model of `EffelsbergActuator`, `pyoof/actuator/actuator.py`

Displacements, amplitudes and the wavelength are in micrometres, positions and radii in metres, phases
in radians; the unit conversions of astropy are exact.  The interpolations of `read_lookup(True)` and
of `interp_surface2rings` (cubic and quintic, from scipy) are the parameters `griddata` and `spline`.
Not modelled: printing; `plot` is in `Verif.Model.ActPlot`.
-/

namespace Verif.Actuator

open Verif Verif.Np Verif.Aperture

/-! ## Two dimensional arrays of any shape -/

/-- A two dimensional array.  An array of shape `(d, m, n)` is one whose entries are vectors of
length `d`: the functions below only move the last two axes of it. -/
structure Mat (α : Type) where
  m : ℕ
  n : ℕ
  f : Fin m × Fin n → α

namespace Mat

variable {α β : Type}

/-- Elementwise. -/
def map (g : α → β) (A : Mat α) : Mat β := ⟨A.m, A.n, fun q => g (A.f q)⟩

/-- `np.flip` of the first of the two axes. -/
def flip0 (A : Mat α) : Mat α := ⟨A.m, A.n, fun q => A.f (q.1.rev, q.2)⟩

/-- `np.flip` of the second one. -/
def flip1 (A : Mat α) : Mat α := ⟨A.m, A.n, fun q => A.f (q.1, q.2.rev)⟩

/-- `np.transpose` with the two axes exchanged. -/
def transpose (A : Mat α) : Mat α := ⟨A.n, A.m, fun q => A.f (q.2, q.1)⟩

/-- `np.rot90(m, k, axes)` in terms of flip and transpose, numpy `rot90`. -/
def rot90 (A : Mat α) (k : ℤ) : Mat α :=
  if k % 4 = 0 then A
  else if k % 4 = 2 then A.flip0.flip1
  else if k % 4 = 1 then A.flip1.transpose
  else A.transpose.flip1

end Mat

/-- The arrays `transform` and `itransform` can be called with: one, two or three dimensions. -/
inductive Arr
  | d1 (n : ℕ) (f : Fin n → Fl)
  | d2 (A : Mat Fl)
  | d3 (d : ℕ) (A : Mat (Fin d → Fl))

/-! ## The object -/

/-- The attributes set by `__init__`, actuator.py:57-77, and two functions of scipy.  `spline x y z` is
`RectBivariateSpline(x, y, z, kx=5, ky=5)` with `grid=False`, for arrays whose sizes match;
`griddata n x y v g` is `griddata((x, y), v, g, method='cubic')` on `n × n` points. -/
structure Act where
  frequency : ℝ
  nrot : ℤ
  sign : ℤ
  order : ℕ
  sr : ℝ
  pr : ℝ
  resolution : ℕ
  minAmp : ℝ
  maxAmp : ℝ
  nReflections : ℤ
  spline : {m n : ℕ} → (Fin m → ℝ) → (Fin n → ℝ) → (Fin m × Fin n → Fl) → Py (ℝ → ℝ → Fl)
  griddata : (n : ℕ) → List ℝ → List ℝ → List ℤ → (Fin n × Fin n → ℝ × ℝ) → Py (Fin n × Fin n → Fl)

namespace Act

variable (a : Act)

/-- `constants.c / frequency` in micrometres, actuator.py:64. -/
noncomputable def wavel : ℝ := 299792458 / a.frequency * 1000000

/-- `N_K_coeff`, actuator.py:70. -/
def nK : ℕ := (a.order + 1) * (a.order + 2) / 2

/-- `tfactor`, actuator.py:75-77, radians per micrometre. -/
noncomputable def tfactor : ℝ := a.sign * 2 * a.nReflections * Real.pi / a.wavel

/-- `theta`, actuator.py:80, in degrees. -/
noncomputable def theta (j : Fin 24) : ℝ := linspace 7.5 (360 - 7.5) 24 j

/-- `R`, actuator.py:81, in millimetres. -/
def ringR : List ℝ := [3250, 2600, 1880, 1210]

/-- `act_x`, actuator.py:85, in metres: `np.outer(R, np.cos(theta)).reshape(-1)`. -/
noncomputable def actX : List ℝ :=
  ringR.flatMap fun r => List.ofFn fun j => r / 1000 * Real.cos (theta j * (Real.pi / 180))

/-- `act_y`, actuator.py:86. -/
noncomputable def actY : List ℝ :=
  ringR.flatMap fun r => List.ofFn fun j => r / 1000 * Real.sin (theta j * (Real.pi / 180))

/-! ## transform, itransform -/

/-- `transform(actuator_sr)`, actuator.py:225-238.  `np.rot90` raises `ValueError` for one
dimension. -/
noncomputable def transform : Arr → Py Arr
  | .d1 _ _ => .error .valueError
  | .d2 A => .ok (.d2 ((A.rot90 a.nrot).map fun x => Fl.mul (.fin a.tfactor) x))
  | .d3 d A => .ok (.d3 d ((A.rot90 a.nrot).map fun x i => Fl.mul (.fin a.tfactor) (x i)))

/-- The two masked assignments with the stroke limits, actuator.py:272-274 and :345-347. -/
noncomputable def clip (x : Fl) : Fl := open Classical in
  let y := if Fl.lt (.fin a.maxAmp) x then .fin a.maxAmp else x
  if Fl.lt y (.fin a.minAmp) then .fin a.minAmp else y

/-- `itransform(phase_pr)`, actuator.py:260-276.  The array that is changed in place is a new one. -/
noncomputable def itransform : Arr → Py Arr
  | .d1 _ _ => .error .valueError
  | .d2 A => .ok (.d2 (((A.map fun x => Fl.div x (.fin a.tfactor)).rot90 (-a.nrot)).map a.clip))
  | .d3 d A => .ok (.d3 d (((A.map fun x i => Fl.div (x i) (.fin a.tfactor)).rot90 (-a.nrot)).map
      fun x i => a.clip (x i)))

/-! ## The look-up table -/

/-- One round of the loop in `interp_surface2rings`, actuator.py:308-319: `IndexError` when there is
no map `j`, `ValueError` when its shape is not that of the grid. -/
noncomputable def ringRow {d : ℕ} (A : Mat (Fin d → Fl)) (j : ℕ) : Py (Fin 96 → Fl) :=
  let x : Fin a.resolution → ℝ := fun i => linspace (-a.sr) a.sr a.resolution i * 1000
  if hj : j < d then
    if h : A.n = a.resolution ∧ A.m = a.resolution then do
      let s ← a.spline x x fun q => A.f (q.2.cast h.2.symm, q.1.cast h.1.symm) ⟨j, hj⟩
      return fun k => s (actX.getD k 0 * 1000) (actY.getD k 0 * 1000)
    else .error .valueError
  else .error .indexError

/-- `interp_surface2rings(actuator_sr)`, actuator.py:302-319. -/
noncomputable def interp (d : ℕ) (A : Mat (Fin d → Fl)) : Py (Fin 11 × Fin 96 → Fl) := do
  let rows ← (List.range 11).mapM (a.ringRow A)
  return fun q => rows.getD q.1 (fun _ => .fin 0) q.2

/-- `np.around(x, 0)` of a finite number: to the nearest integer, ties to even. -/
noncomputable def around (x : ℝ) : ℤ :=
  if x - ⌊x⌋ < 1 / 2 then ⌊x⌋
  else if x - ⌊x⌋ > 1 / 2 then ⌊x⌋ + 1
  else if ⌊x⌋ % 2 = 0 then ⌊x⌋ else ⌊x⌋ + 1

/-- `.astype(int)` of an integral float: nan, infinities and numbers out of range become the
smallest 64 bit integer (x86-64). -/
noncomputable def toInt64 (z : Option ℤ) : ℤ :=
  match z with
  | some z => if -(2 : ℤ) ^ 63 ≤ z ∧ z < 2 ^ 63 then z else -(2 : ℤ) ^ 63
  | none => -(2 : ℤ) ^ 63

/-- `np.around(x, 0).astype(int)`, actuator.py:353-354. -/
noncomputable def commandOf (x : Fl) : ℤ :=
  match x with
  | .fin r => toInt64 (some (around r))
  | _ => toInt64 none

/-- `f'NR {k + 1} ffff ' + '  '.join(row) + '\n'`, actuator.py:355. -/
def lookupLine (k : ℕ) (row : List Str) : Str :=
  "NR ".toList ++ decNat (k + 1) ++ " ffff ".toList ++ "  ".toList.intercalate row ++ ['\n']

/-- The loop over the lines, actuator.py:352-356: the text written and the exception, `IndexError`
when the table has no column `k`. -/
noncomputable def writeLines {m n : ℕ} (t : Fin m × Fin n → Fl) : List ℕ → Py Unit × Str
  | [] => (.ok (), "**ENDE**\n".toList)
  | k :: ks =>
    if h : k < n then
      let r := writeLines t ks
      (r.1, lookupLine k (List.ofFn fun j : Fin m => decInt (commandOf (t (j, ⟨k, h⟩)))) ++ r.2)
    else (.error .indexError, [])

/-- `write_lookup(fname, actuator_sr)`, actuator.py:340-356: the exception if any and the text that is
in the file afterwards; `none` stands for a file that has not been opened. -/
noncomputable def writeLookup : Arr → Py Unit × Option Str
  | .d1 _ _ => (.error .indexError, some [])
  | .d2 A =>
    let r := writeLines (fun q => a.clip (A.f q)) (List.range 96)
    (r.1, some r.2)
  | .d3 d A =>
    match a.interp d A with
    | .error e => (.error e, none)
    | .ok t =>
      let r := writeLines (fun q => a.clip (t q)) (List.range 96)
      (r.1, some r.2)

/-- `s.split('**ENDE**')[0]`: what is before the first occurrence. -/
def beforeEnd : Str → Str
  | [] => []
  | c :: s => if "**ENDE**".toList.isPrefixOf (c :: s) then [] else c :: beforeEnd s

/-- The words of a line, separated by blanks. -/
def words (s : Str) : List Str := (s.splitOnP fun c => c = ' ' ∨ c = '\t').filter fun w => !w.isEmpty

/-- The lines of a text that are not blank, as lists of words. -/
def tableRows (s : Str) : List (List Str) :=
  ((s.splitOnP fun c => c = '\n').map words).filter fun l => !l.isEmpty

/-- The value of a string of decimal digits. -/
def parseNat : Str → Option ℕ
  | [] => none
  | s => s.foldlM (fun (acc : ℕ) c => if '0' ≤ c ∧ c ≤ '9' then some (10 * acc + (c.toNat - 48)) else none) 0

/-- `int(s)` -/
def parseInt : Str → Option ℤ
  | '-' :: s => (parseNat s).map fun n : ℕ => -(n : ℤ)
  | '+' :: s => (parseNat s).map fun n : ℕ => (n : ℤ)
  | s => (parseNat s).map fun n : ℕ => (n : ℤ)

/-- Column `c` of the table, as integers; `TypeError` stands for a column that is not made of
integers (real numbers are not modelled). -/
def intColumn (rows : List (List Str)) (c : ℕ) : Py (List ℤ) :=
  match rows.mapM fun r => (r[c]?).bind parseInt with
  | some l => .ok l
  | none => .error .typeError

/-- Assignment of a column to a row with 96 entries: one value is broadcast, any other number is a
`ValueError`. -/
def assign96 (l : List ℤ) : Py (List ℤ) :=
  if l.length = 96 then .ok l
  else match l with
  | [x] => .ok (List.replicate 96 x)
  | _ => .error .valueError

/-- `QTable.read` of the text `s` of the file, actuator.py:121-135.  The ascii reader takes words separated by
blanks; a table without rows or with a row that has not 14 words is an `InconsistentTableError`, a subclass of
`ValueError`.  A text without a line break is taken for the name of a file; it is assumed that there is none. -/
def fileRows (s : Str) : Py (List (List Str)) :=
  if '\n' ∉ beforeEnd s then .error .fileNotFoundError
  else if tableRows (beforeEnd s) = [] ∨ ∃ r ∈ tableRows (beforeEnd s), r.length ≠ 14 then .error .valueError
  else .ok (tableRows (beforeEnd s))

/-- `read_lookup(False)` of a file with the text `s`, actuator.py:121-135 and :166-171. -/
def readLookup (s : Str) : Py (List (List ℤ)) := do
  let rows ← fileRows s
  let cols ← (List.range 11).mapM fun j => intColumn rows (j + 3)
  cols.mapM assign96

/-- A map on the grid of the object. -/
abbrev Map := Fin a.resolution × Fin a.resolution → Fl

/-- `np.nan_to_num`: the infinities become the largest and the smallest double. -/
noncomputable def nanToNum : Fl → Fl
  | .nan => .fin 0
  | .pinf => .fin ((2 - 2 ^ (-52 : ℤ)) * 2 ^ (1023 : ℤ))
  | .ninf => .fin (-((2 - 2 ^ (-52 : ℤ)) * 2 ^ (1023 : ℤ)))
  | .fin r => .fin r

/-- One round of the loop in `read_lookup(True)`, actuator.py:149-164, for the column `v`;
`griddata` raises `ValueError` when it has not as many values as points.  `np.nan_to_num` is
applied to the other maps as well, which are free of nan. -/
noncomputable def surfaceMap (v : List ℤ) : Py (Map a) := do
  let x := linspace (-a.sr) a.sr a.resolution
  if v.length ≠ 96 then throw .valueError
  let g ← a.griddata a.resolution actX actY v fun q => (meshX x x q, meshY x x q)
  return fun q => open Classical in
    if a.sr ^ 2 ≤ meshX x x q ^ 2 + meshY x x q ^ 2 then .fin 0 else nanToNum (g q)

/-- `read_lookup(True)` of a file with the text `s`, actuator.py:121-164 and :171. -/
noncomputable def readSurface (s : Str) : Py (List (Map a)) := do
  let rows ← fileRows s
  let cols ← (List.range 11).mapM fun j => intColumn rows (j + 3)
  cols.mapM a.surfaceMap

/-- A stack of maps as an array. -/
def stackOf (l : List (Map a)) : Arr :=
  .d3 l.length ⟨a.resolution, a.resolution, fun q i => l.get i q⟩

/-- `phase_pr_lookup` as `__init__` computes it from the file, actuator.py:99-100. -/
noncomputable def phaseLookup (s : Str) : Py Arr := do
  a.transform (a.stackOf (← a.readSurface s))

/-- `alpha_lookup`, actuator.py:125, degrees. -/
def alphaLookup : List ℕ := [7, 10, 20, 30, 32, 40, 50, 60, 70, 80, 90]

/-! ## Gravitational model -/

/-- An elevation: a Quantity with a unit of `scale` radians, or a bare number. -/
inductive Angle
  | quant (v scale : ℝ)
  | bare (r : ℝ)

/-- `alpha.to_value(apu.rad)` for a Quantity, actuator.py:195-196. -/
def Angle.rad : Angle → ℝ
  | .quant v s => v * s
  | .bare r => r

/-- `grav_deformation(g_coeff, alpha)`, actuator.py:195-203. -/
noncomputable def gravDeformation (g : List ℝ) (alpha : Angle) : Py ℝ := do
  let x := alpha.rad
  let g0 ← pyIdx g 0
  let g1 ← pyIdx g 1
  let g2 ← pyIdx g 2
  return g0 * Real.sin x + g1 * Real.cos x + g2

/-- `np.sin(np.arctan(x))` -/
noncomputable def sinArctan : Fl → Fl
  | .nan => .nan
  | .pinf => .fin 1
  | .ninf => .fin (-1)
  | .fin r => .fin (Real.sin (Real.arctan r))

/-- The correction at a radius `r`, actuator.py:603-604; `ea`, `eb` are the axes. -/
noncomputable def correctionAt (ea eb r : ℝ) : Fl :=
  let m := Fl.div (Fl.mul (.fin (eb ^ 2 / ea)) (Fl.sqrt (.fin (1 - r ^ 2 / eb ^ 2)))) (.fin r)
  sinArctan (Fl.abs m)

/-- `ellipsoidal_actuator_correction()` with its default arguments, actuator.py:596-606. -/
noncomputable def correction : Fin a.resolution × Fin a.resolution → Fl :=
  let x := linspace (-a.sr) a.sr a.resolution
  let xx := meshX x x
  let yy := meshY x x
  fun q => correctionAt 14.3050 7.3872 (Real.sqrt (xx q ^ 2 + yy q ^ 2))

/-- The coefficients of one elevation, actuator.py:547-553: `IndexError` when `g_coeff` has too few
rows. -/
noncomputable def gravCoeffs (g : List (List ℝ)) (alpha : Angle) : Py (List ℝ) :=
  (List.range a.nK).mapM fun k => do gravDeformation (← pyIdx g k) alpha

/-- The loop of `generate_phase_pr` from the index `i` on, actuator.py:545-564; `phases` is the
stack, which `eac` multiplies as a whole. -/
noncomputable def genLoop (g : List (List ℝ)) (eac : Bool) :
    ℕ → List Angle → List (Map a) → Py (List (Map a))
  | _, [], phases => .ok phases
  | i, alpha :: rest, phases => do
    let K ← a.gravCoeffs g alpha
    let p ← phase K a.pr false false a.resolution
    let phases := phases.set i fun q => .fin (p.phi q)
    let phases := if eac then phases.map fun m q => Fl.mul (m q) (a.correction q) else phases
    genLoop g eac (i + 1) rest phases

/-- `generate_phase_pr(g_coeff, alpha, eac)`, actuator.py:541-566. -/
noncomputable def generatePhasePr (g : List (List ℝ)) (alphas : List Angle) (eac : Bool) :
    Py (List (Map a)) :=
  a.genLoop g eac 0 alphas (List.replicate alphas.length fun _ => .fin 0)

/-! ## A new look-up table -/

/-- `A - B` of numpy arrays with the same shape; `B` is real. -/
noncomputable def subTable (old : List (List ℤ)) (t : Fin 11 × Fin 96 → Fl) : Fin 11 × Fin 96 → Fl :=
  fun q => Fl.sub (.fin ((old.getD q.1 []).getD q.2 0 : ℤ)) (t q)

/-- The part of scripts/create_lookup.py:95-99 and :149-157 that makes the new table from the
gravitational coefficients `g` and the text `s` of the present one: the exception, or the text of
the new file. -/
noncomputable def createLookup (g : List (List ℝ)) (s : Str) : Py Str := do
  let phases ← a.generatePhasePr g (alphaLookup.map fun n : ℕ => .quant n (Real.pi / 180)) true
  let old ← readLookup s
  match ← a.itransform (a.stackOf phases) with
  | .d3 d A => do
    let model ← a.interp d A
    match a.writeLookup (.d2 ⟨11, 96, subTable old model⟩) with
    | (.ok _, some text) => return text
    | (.error e, _) => throw e
    | _ => throw .valueError
  | _ => throw .indexError

/-! ## Fits -/

/-- The optimiser without bounds, for a residual function and a start vector. -/
abbrev Solver (ρ : Type) := (List ℝ → Py ρ) → (x0 : List ℝ) → Py (Fin x0.length → ℝ)

/-- `residual_phase`, actuator.py:388-396 (`fem=True`) and :401-409. -/
noncomputable def residualPhase (fem : Bool) (K : List ℝ)
    (data : Fin a.resolution × Fin a.resolution → ℝ) :
    Py (Fin a.resolution × Fin a.resolution → ℝ) := do
  let p ← if fem then phase ([0, 0, 0] ++ K) a.pr false false a.resolution
    else phase K a.pr false true a.resolution
  return fun q => data q - p.phi q

/-- `fit_zpoly(phase_pr, alpha, fem)`, actuator.py:387-429; `count` is `alpha.size`.  The last step
inserts the three columns of zeros; `np.zeros` raises `ValueError` for a negative length. -/
noncomputable def fitZpoly (solver : Solver (Fin a.resolution × Fin a.resolution → ℝ))
    (phases : List (Fin a.resolution × Fin a.resolution → ℝ)) (count : ℕ) (fem : Bool) :
    Py (List (List ℝ)) := do
  if fem ∧ a.nK < 3 then throw .valueError
  let x0 := List.replicate (if fem then a.nK - 3 else a.nK) (0.1 : ℝ)
  let rows ← (List.range count).mapM fun i => do
    let data ← pyIdx phases i
    let x ← solver (fun K => a.residualPhase fem K data) x0
    return List.ofFn x
  if x0.length ≠ a.nK then return rows.map fun r => [0, 0, 0] ++ r
  else return rows

/-- `residual_grav_deformation`, actuator.py:458-460.  Simplified: numpy would also repeat one elevation
(or one coefficient) to the length of the other array; here different lengths are a `ValueError`. -/
noncomputable def residualGrav (g : List ℝ) (knl : List ℝ) (alphas : List Angle) : Py (List ℝ) := do
  let model ← alphas.mapM (gravDeformation g)
  if knl.length = model.length then return List.zipWith (· - ·) knl model
  else throw .valueError

/-- `fit_grav_deformation(K_coeff_alpha, alpha)`, actuator.py:463-478. -/
noncomputable def fitGrav (solver : Solver (List ℝ)) (Kalpha : List (List ℝ))
    (alphas : List Angle) : Py (List (List ℝ)) :=
  (List.range a.nK).mapM fun k => do
    let col ← Kalpha.mapM fun r => pyIdx r k
    let x ← solver (fun g => residualGrav g col alphas) [0.1, 0.1, 0.1]
    return List.ofFn x

/-- `fit_all(phase_pr, alpha)`, actuator.py:508-513. -/
noncomputable def fitAll (s1 : Solver (Fin a.resolution × Fin a.resolution → ℝ))
    (s2 : Solver (List ℝ)) (phases : List (Fin a.resolution × Fin a.resolution → ℝ))
    (alphas : List Angle) : Py (List (List ℝ) × List (List ℝ)) := do
  let K ← a.fitZpoly s1 phases alphas.length true
  let g ← a.fitGrav s2 K alphas
  return (g, K)

end Act

end Verif.Actuator
