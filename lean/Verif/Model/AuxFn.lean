import Verif.Model.MathFn
import Verif.Model.Store

/-!
# Model of the other functions of `pyoof/aux_functions.py`

FITS files are given by what `astropy.io.fits.open` returns for a path: headers with keywords and
values and tables with named columns.  Not modelled: other kinds of HDU, columns of different
lengths (`np.array` of these), units.
-/

namespace Verif.AuxFn

open Verif Verif.Fs Verif.Store Verif.MathFn

/-! ## `os.path` -/

/-- `p.rfind(c)` for one character. -/
def rfind (c : Char) : Str → ℤ
  | [] => -1
  | a :: l => if c ∈ l then rfind c l + 1 else if a = c then 0 else -1

/-- `p.rstrip(c)` -/
def rstrip (c : Char) (p : Str) : Str := (p.reverse.dropWhile (· = c)).reverse

/-- `os.path.split(p)`, CPython `posixpath.split`. -/
def split (p : Str) : Str × Str :=
  let i := (rfind '/' p + 1).toNat
  let head := p.take i
  let tail := p.drop i
  if head ≠ [] ∧ head ≠ List.replicate head.length '/' then (rstrip '/' head, tail) else (head, tail)

/-- `os.path.splitext(p)`, CPython `genericpath._splitext`: the loop over the leading dots of the
file name returns at the first character that is not a dot. -/
def splitext (p : Str) : Str × Str :=
  let sepIndex := rfind '/' p
  let dotIndex := rfind '.' p
  if dotIndex > sepIndex ∧
      ((p.take dotIndex.toNat).drop (sepIndex + 1).toNat).any (fun c => c ≠ '.') then
    (p.take dotIndex.toNat, p.drop dotIndex.toNat)
  else (p, [])

/-- `s[:-5]` -/
def dropLast5 (s : Str) : Str := s.take (s.length - 5)

/-! ## FITS files -/

/-- The value of a header keyword. -/
inductive HVal
  | num (r : ℝ)
  | str (s : Str)

/-- An HDU: header keywords and table columns. -/
structure Hdu where
  header : List (Str × HVal)
  data : List (Str × List ℝ)

/-- `hdu.header[k]`: `KeyError` when the keyword is missing. -/
def Hdu.key (h : Hdu) (k : String) : Py HVal :=
  match h.header.lookup k.toList with
  | some v => .ok v
  | none => .error .keyError

/-- `hdu.data[k]` -/
def Hdu.col (h : Hdu) (k : String) : Py (List ℝ) :=
  match h.data.lookup k.toList with
  | some v => .ok v
  | none => .error .keyError

/-- `hdulist[i]` -/
def hduAt (l : List Hdu) (i : ℕ) : Py Hdu :=
  match l[i]? with
  | some h => .ok h
  | none => .error .indexError

/-- A header value times a unit: a string cannot be multiplied. -/
def HVal.quantity : HVal → Py ℝ
  | .num r => .ok r
  | .str _ => .error .typeError

/-- What the extract functions return. -/
structure Extract where
  name : Str
  pthto : Str
  obsObject : HVal
  obsDate : HVal
  freq : ℝ
  wavel : Fl
  dz : List ℝ
  meanel : ℝ
  beam : List (List ℝ)
  u : List (List ℝ)
  v : List (List ℝ)

/-- `extract_data_pyoof(pathfits)`, aux_functions.py:66-97. -/
def extractPyoof (fitsOpen : Str → Py (List Hdu)) (pathfits : Str) : Py Extract := do
  if (splitext pathfits).2 ≠ ".fits".toList then throw .valueError
  let l ← fitsOpen pathfits
  let pthto := (split pathfits).1
  let name := dropLast5 (split pathfits).2
  let h0 ← hduAt l 0
  if !(["FREQ", "WAVEL", "MEANEL", "OBJECT", "DATE_OBS"].all fun k =>
      (h0.header.lookup k.toList).isSome) then throw .valueError
  let freq ← (← h0.key "FREQ").quantity
  let wavel ← (← h0.key "WAVEL").quantity
  let meanel ← (← h0.key "MEANEL").quantity
  let obsObject ← h0.key "OBJECT"
  let obsDate ← h0.key "DATE_OBS"
  let beam ← [1, 2, 3].mapM fun i => do (← hduAt l i).col "BEAM"
  let u ← [1, 2, 3].mapM fun i => do (← hduAt l i).col "U"
  let v ← [1, 2, 3].mapM fun i => do (← hduAt l i).col "V"
  let dz ← [1, 2, 3].mapM fun i => do (← (← hduAt l i).key "DZ").quantity
  return ⟨name, pthto, obsObject, obsDate, freq, .fin wavel, dz, meanel, beam, u, v⟩

/-- The speed of light in metres per second. -/
def lightSpeed : ℝ := 299792458

/-- `extract_data_effelsberg(pathfits)`, aux_functions.py:135-163. -/
noncomputable def extractEffelsberg (fitsOpen : Str → Py (List Hdu)) (pathfits : Str) : Py Extract := do
  if (splitext pathfits).2 ≠ ".fits".toList then throw .valueError
  let pos := [3, 1, 2]
  let l ← fitsOpen pathfits
  let h0 ← hduAt l 0
  let freq ← (← h0.key "FREQ").quantity
  let wavel := Fl.div (.fin lightSpeed) (.fin freq)
  let meanel ← (← h0.key "MEANEL").quantity
  let obsObject ← h0.key "OBJECT"
  let obsDate ← h0.key "DATE_OBS"
  let dz ← pos.mapM fun i => do (← (← hduAt l i).key "DZ").quantity
  let beam ← pos.mapM fun i => do (← hduAt l i).col "fnu"
  let u ← pos.mapM fun i => do (← hduAt l i).col "DX"
  let v ← pos.mapM fun i => do (← hduAt l i).col "DY"
  let pthto := (split pathfits).1
  let name := dropLast5 (split pathfits).2
  return ⟨name, pthto, obsObject, obsDate, freq, wavel, dz, meanel, beam, u, v⟩

/-! ## `str2LaTeX`, aux_functions.py:166-189 -/

/-- One round of the loop: `string_list[idx]`, a list of strings. -/
def latexStep (l : List Str) (idx : ℕ) : List Str :=
  if l[idx]? = some ['_'] then l.set idx ['\\', '_'] else l

/-- `str2LaTeX(python_string)` -/
def str2LaTeX (s : Str) : Str :=
  let l := s.map fun c => [c]
  ((List.range l.length).foldl latexStep l).flatten

/-! ## `uv_ratio`, aux_functions.py:289-318 -/

/-- `uv_ratio(u, v)` -/
noncomputable def uvRatio {m n : ℕ} (u : Fin m → ℝ) (v : Fin n → ℝ) : Py (Fl × ℝ) := do
  let u1 ← maxR u
  let u0 ← minR u
  let v1 ← maxR v
  let v0 ← minR v
  let ratio := Fl.div (.fin (u1 - u0)) (.fin (v1 - v0))
  let height := 5
  return (Fl.mul (Fl.mul ratio (.fin 2.25)) (.fin height), height)

/-! ## `table_pyoof_out`, aux_functions.py:321-389 -/

/-- One row of the table. -/
structure Row where
  name : Str
  telName : Str
  obsObject : Str
  obsDate : Str
  meanel : ℝ
  iAmp : ℝ
  cdB : ℝ
  q : ℝ
  phaseRms : Option ℝ
  eRs : Option ℝ
  snr : List Fl

/-- A number of a text file; infinities do not occur in phase-error files. -/
def toNum : Fl → Option ℝ
  | .fin r => some r
  | _ => none

/-- `np.genfromtxt` of a file with more than one row and column; `ValueError` for rows of different
lengths.  A single row or column is squeezed to one dimension. -/
def genfromtxt (rows : List (List Fl)) : Py Arr :=
  let n := (rows.headD []).length
  if ¬ ∀ r ∈ rows, r.length = n then .error .valueError
  else if rows.length ≤ 1 ∨ n ≤ 1 then
    .ok (.d1 rows.flatten.length fun i => toNum (rows.flatten.get i))
  else
    .ok (.d2 rows.length n fun q => toNum ((rows.getD q.1 []).getD q.2 .nan))

/-- One round of the loop, aux_functions.py:353-381.  `KeyError` stands for a file that is not what
the writers of pyoof produce. -/
noncomputable def tableRow (order : ℕ) (p : Path) : Prog Content Row := do
  let c ← readFile (p.join "pyoof_info.yml".toList)
  let info ← Prog.lift (match c with | .info i => .ok i | _ => .error .keyError)
  let c ← readFile (p.join (fileName "phase" order))
  let phase ← Prog.lift (match c with | .csv _ rows => genfromtxt rows | _ => .error .valueError)
  let r1 := rms phase true
  let phaseRms ← Prog.lift r1.1
  let r2 := eRs r1.2 true            -- the array as `rms` left it
  let phaseErs ← Prog.lift r2.1
  let c ← readFile (p.join (fileName "fitpar" order))
  let fit ← Prog.lift (match c with | .params _ fit _ => .ok fit | _ => .error .keyError)
  let iCoeff := fit.take 5
  let i0 ← Prog.lift (Np.pyIdx iCoeff 0)
  let i1 ← Prog.lift (Np.pyIdx iCoeff 1)
  let i2 ← Prog.lift (Np.pyIdx iCoeff 2)
  if info.snr.length ≠ 3 then .raise .valueError   -- `add_row` wants 13 values
  else
    return ⟨info.name, info.telName, info.obsObject, info.obsDate, info.meanel, i0, i1, i2,
      phaseRms, phaseErs, info.snr⟩

/-- `table_pyoof_out(path_pyoof_out, order)` up to the conversion of the columns to quantities and
times. -/
noncomputable def tablePyoofOut (order : ℕ) : List Path → Prog Content (List Row)
  | [] => .ret []
  | p :: ps => do
    let r ← tableRow order p
    let rs ← tablePyoofOut order ps
    return r :: rs

end Verif.AuxFn
