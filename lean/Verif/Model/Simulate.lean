import Verif.Model.AuxFn
import Verif.Model.Aperture

/-!
# Model of `simulate_data_pyoof`, `pyoof/simulate_data.py`:16-210

Not modelled: a wavelength or primary radius of zero, the textual form of header values (numbers are
exact), the keywords that astropy adds on its own.
-/

namespace Verif.Sim

open Verif Verif.Fs Verif.Np Verif.Aperture Verif.AuxFn

/-! ## Arrays -/

/-- The indices of a two dimensional array in memory (row major) order. -/
def cOrder (N : ℕ) : List (Fin N × Fin N) :=
  (List.finRange N).flatMap fun i => (List.finRange N).map fun j => (i, j)

/-- The first `n` pieces of length `m`. -/
def chunks (m : ℕ) : ℕ → List ℝ → List (List ℝ)
  | 0, _ => []
  | n + 1, l => l.take m :: chunks m n (l.drop m)

/-- `a.reshape(n, m)` of a one dimensional array: `ValueError` for another size. -/
def reshape (l : List ℝ) (n m : ℕ) : Py (List (List ℝ)) :=
  if l.length = n * m then .ok (chunks m n l) else .error .valueError

/-- `a[mask] = nan` -/
noncomputable def putNan {N : ℕ} (a : Fin N × Fin N → Option ℝ) (mask : Fin N × Fin N → Prop) :
    Fin N × Fin N → Option ℝ := open Classical in fun q => if mask q then none else a q

/-- `a[mask]` -/
noncomputable def select {N : ℕ} (a : Fin N × Fin N → ℝ) (mask : Fin N × Fin N → Prop) : List ℝ :=
  open Classical in ((cOrder N).filter fun q => mask q).map a

/-- The trimmed maps: power, `u`, `v`. -/
structure Trim where
  p : List (List ℝ)
  u : List (List ℝ)
  v : List (List ℝ)

/-- The trimming of one map, simulate_data.py:122-144; `lim` is the limit `size_in_bw`. -/
noncomputable def trim {N : ℕ} (P : Pattern N) (lim : ℝ) : Py Trim := do
  let uu := meshX P.u P.v
  let vv := meshY P.u P.v
  let pp : Fin N × Fin N → Option ℝ := fun q => some (‖P.F q‖ ^ 2)
  let pp := putNan pp fun q => -lim > uu q
  let pp := putNan pp fun q => lim < uu q
  let pp := putNan pp fun q => -lim > vv q
  let pp := putNan pp fun q => lim < vv q
  let p1 := (cOrder N).filterMap pp
  let size := (pyInt (Real.sqrt p1.length)).toNat
  let box : Fin N × Fin N → Prop := fun q => -lim < uu q ∧ lim > uu q ∧ -lim < vv q ∧ lim > vv q
  let p ← reshape p1 size size
  let u ← reshape (select uu box) size size
  let v ← reshape (select vv box) size size
  return ⟨p, u, v⟩

/-! ## The function -/

/-- The arguments; `draws i a b` is the entry of a standard normal random array, `now` the current
time, `f32` the rounding of a number to single precision (column format `'E'`). -/
structure Input (N : ℕ) where
  I : List ℝ
  K : List ℝ
  wavel : ℝ
  dz : Fin 3 → ℝ
  illum : Illum (Fin N × Fin N)
  tel : TelGeo (Fin N × Fin N)
  noise : ℝ
  boxFactor : ℝ
  workDir : Path
  draws : ℕ → ℕ → ℕ → ℝ
  now : Str
  f32 : ℝ → ℝ

/-- `size_in_bw`, simulate_data.py:96-97. -/
noncomputable def sizeInBw {N : ℕ} (a : Input N) : ℝ := 8 * (1.22 * a.wavel / (2 * a.tel.pr))

/-- One round of the loop of simulate_data.py:107-148. -/
noncomputable def simMap {N : ℕ} (a : Input N) (i : Fin 3) : Py Trim := do
  let P ← radiationPattern a.I a.K (a.dz i) a.wavel a.illum a.tel a.boxFactor
  trim P (sizeInBw a)

/-- `P[i] + normal(0, noise)`, simulate_data.py:150-157, the map `i`.  `np.random.normal` raises
`ValueError` for a negative scale. -/
noncomputable def addNoise {N : ℕ} (a : Input N) (i : ℕ) (p : List (List ℝ)) : Py (List (List ℝ)) :=
  open Classical in
  if a.noise = 0 then .ok p
  else if a.noise < 0 then .error .valueError
  else .ok (p.mapIdx fun r row => row.mapIdx fun c x => x + a.noise * a.draws i r c)

/-- The table of map `i`: the columns, simulate_data.py:159-181. -/
noncomputable def tableHdu {N : ℕ} (a : Input N) (t : Trim) (p : List (List ℝ)) :
    List (Str × List ℝ) :=
  [("U".toList, t.u.flatten.map a.f32), ("V".toList, t.v.flatten.map a.f32),
    ("BEAM".toList, p.flatten.map a.f32)]

/-- The three tables.  The maps have the same shape, `np.array(P)` is a three dimensional array. -/
noncomputable def tables {N : ℕ} (a : Input N) : Py (List (List (Str × List ℝ))) := do
  let t0 ← simMap a 0
  let t1 ← simMap a 1
  let t2 ← simMap a 2
  let p0 ← addNoise a 0 t0.p
  let p1 ← addNoise a 1 t1.p
  let p2 ← addNoise a 2 t2.p
  return [tableHdu a t0 p0, tableHdu a t1 p1, tableHdu a t2 p2]

/-- What can be in a file: a FITS file being written, a FITS file, something else. -/
inductive File
  | part
  | fits (l : List Hdu)
  | other (n : ℕ)

/-- `f'test{j}'` -/
def testName (i : ℕ) : Str := "test".toList ++ pad3 i

/-- `f'test{j}.fits'` -/
def testFile (i : ℕ) : Str := testName i ++ ".fits".toList

/-- The HDU list, simulate_data.py:190-207. -/
noncomputable def hduList {N : ℕ} (a : Input N) (tabs : List (List (Str × List ℝ))) (i : ℕ) :
    List Hdu :=
  let pri : Hdu := ⟨[("FREQ".toList, .num (lightSpeed / a.wavel)), ("WAVEL".toList, .num a.wavel),
    ("MEANEL".toList, .num 0), ("OBJECT".toList, .str (testName i)), ("DATE_OBS".toList, .str a.now),
    ("COMMENT".toList, .str "Generated data pyoof package".toList),
    ("AUTHOR".toList, .str "Tomas Cassanelli".toList)], []⟩
  let names : List Str := ["MINUS OOF".toList, "ZERO OOF".toList, "PLUS OOF".toList]
  pri :: ((tabs.zip names).zipIdx.map fun x =>
    ⟨[("DZ".toList, .num (a.dz (Fin.ofNat 3 x.2))), ("EXTNAME".toList, .str x.1.2)], x.1.1⟩)

/-- `hdulist.writeto(p)`: `OSError` for an existing file (astropy, `overwrite=False`). -/
def writeto (p : Path) (l : List Hdu) : Prog File Unit := do
  let e ← existsP p
  if e then .raise .osError
  else writeFile .part p (.fits l)

/-- The loop of simulate_data.py:187-209. -/
noncomputable def saveLoop {N : ℕ} (a : Input N) (tabs : List (List (Str × List ℝ))) (dir : Path) :
    List ℕ → Prog File (List Hdu)
  | [] => .raise .unboundLocalError
  | i :: rest => do
    let p := dir.join (testFile i)
    let e ← existsP p
    if !e then do
      let l := hduList a tabs i
      writeto p l
      return l
    else saveLoop a tabs dir rest

/-- `simulate_data_pyoof(...)` -/
noncomputable def simulate {N : ℕ} (a : Input N) : Prog File (List Hdu) := open Classical in
  if a.dz 0 > 0 ∨ a.dz 1 ≠ 0 ∨ a.dz 2 < 0 then .raise .valueError
  else do
    let tabs ← Prog.lift (tables a)
    let dir := a.workDir.join "data_generated".toList
    let e ← existsP dir
    if !e then makedirs dir false
    saveLoop a tabs dir (List.range 101)

/-! ## Reading it again -/

/-- The text of a resolved path. -/
def pathStr : Path → Str
  | [] => []
  | f :: d => pathStr d ++ '/' :: f

/-- The components of an absolute path, last one first; repeated slashes count once. -/
def resolveAux : Str → Str → Path → Path
  | [], cur, d => if cur = [] then d else cur :: d
  | c :: s, cur, d =>
    if c = '/' then resolveAux s [] (if cur = [] then d else cur :: d)
    else resolveAux s (cur ++ [c]) d

/-- The place a path string refers to. -/
def resolve (s : Str) : Path := resolveAux s [] []

/-- `fits.open(s)` on the file system `fs`. -/
def fitsOpen (fs : FS File) (s : Str) : Py (List Hdu) :=
  match fs (resolve s) with
  | some (.file (.fits l)) => .ok l
  | some _ => .error .osError
  | none => .error .fileNotFoundError

/-! ## The script -/

/-- `fits.open` of the file at `p` by a program. -/
def openP (p : Path) : Prog File (Py (List Hdu)) := .op (.read p) fun
  | .data (.fits l) => .ret (.ok l)
  | .data _ => .ret (.error .osError)
  | _ => .ret (.error .fileNotFoundError)

/-- `scripts/pyoof_simulate_data.py`:28-46, without the figure: the simulation in the current directory
(`work_dir=None`), then the data of `'data_generated/test000.fits'` there. -/
noncomputable def script {N : ℕ} (a : Input N) : Prog File Extract := do
  let _ ← simulate a
  let r ← openP ((a.workDir.join "data_generated".toList).join "test000.fits".toList)
  Prog.lift (extractPyoof (fun _ => r) "data_generated/test000.fits".toList)

end Verif.Sim
