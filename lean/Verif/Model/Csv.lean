import Mathlib.Data.Int.Log
import Verif.Model.Actuator

/-!
# The text of the csv files: `np.savetxt` and `np.genfromtxt`

`store_data_csv` calls `np.savetxt(fname, X, header)` (aux_functions.py:235-239), with numpy's default format
`'%.18e'`, delimiter `' '` and comments `'# '`; the files are read with `np.genfromtxt(fname)`
(aux_functions.py:358-360, plot_routines.py:662-678).  Not modelled: the encoding of the header, the sign of
zero, arrays with one row or column (which `genfromtxt` returns with fewer dimensions).
-/

namespace Verif.Csv

open Verif Verif.Actuator.Act

/-- The digits, as a number, and the exponent of `'%.18e' % x` for `x ≠ 0`: nineteen digits, rounded to the
nearest, ties to even. -/
noncomputable def sci (x : ℝ) : ℕ × ℤ :=
  let e := Int.log 10 |x|
  let d := (around (|x| / 10 ^ (e - 18))).toNat
  if d = 10 ^ 19 then (10 ^ 18, e + 1) else (d, e)

/-- The exponent of `%e`: a sign and at least two digits. -/
def expText (e : ℤ) : Str :=
  (if e < 0 then '-' else '+') :: (List.replicate (2 - (decNat e.natAbs).length) '0' ++ decNat e.natAbs)

/-- One digit, the point, eighteen digits, the exponent. -/
def sciText (digits : Str) (e : ℤ) : Str := digits.take 1 ++ '.' :: digits.drop 1 ++ 'e' :: expText e

/-- `'%.18e' % x` -/
noncomputable def fmt18 : Fl → Str
  | .nan => "nan".toList
  | .pinf => "inf".toList
  | .ninf => "-inf".toList
  | .fin x => open Classical in
    if x = 0 then sciText (List.replicate 19 '0') 0
    else (if x < 0 then ['-'] else []) ++ sciText (decNat (sci x).1) (sci x).2

/-- `header.replace('\n', '\n# ')`, numpy `savetxt`. -/
def commentHeader (s : Str) : Str := s.flatMap fun c => if c = '\n' then "\n# ".toList else [c]

/-- The text that `np.savetxt(fname, X, header)` writes. -/
noncomputable def savetxt (header : Str) (rows : List (List Fl)) : Str :=
  "# ".toList ++ commentHeader header ++ '\n' ::
    rows.flatMap fun r => " ".toList.intercalate (r.map fmt18) ++ ['\n']

/-- The value of a decimal number without sign: digits, a point and digits, an exponent. -/
noncomputable def parseDec (s : Str) : Option ℝ := do
  let mant := s.takeWhile (· ≠ 'e')
  let e ← match s.dropWhile (· ≠ 'e') with
    | [] => some 0
    | _ :: t => parseInt t
  let ip := mant.takeWhile (· ≠ '.')
  let fp := (mant.dropWhile (· ≠ '.')).drop 1
  let n ← parseNat (ip ++ fp)
  return n * 10 ^ (e - (fp.length : ℤ))

/-- `float(s)`; `rd` is the rounding of a real number to a double. -/
noncomputable def parseFloat (rd : ℝ → Fl) (s : Str) : Option Fl :=
  if s = "nan".toList then some .nan
  else if s = "inf".toList then some .pinf
  else if s = "-inf".toList then some .ninf
  else match s with
    | '-' :: t => (parseDec t).map fun r => rd (-r)
    | '+' :: t => (parseDec t).map rd
    | t => (parseDec t).map rd

/-- `np.genfromtxt` of a text: the part of each line before `#`, split at blanks; lines without words are
left out; rows of different lengths are a `ValueError`; a word that is no number is nan. -/
noncomputable def genfromtxt (rd : ℝ → Fl) (s : Str) : Py (List (List Fl)) :=
  let lines := s.splitOnP fun c => c = '\n' ∨ c = '\r'
  let rows := (lines.map fun l => words (l.takeWhile (· ≠ '#'))).filter fun l => !l.isEmpty
  match rows with
  | [] => .ok []
  | r :: rs =>
    if rs.all (fun r' => r'.length == r.length) then
      .ok ((r :: rs).map fun r => r.map fun w => (parseFloat rd w).getD .nan)
    else .error .valueError

end Verif.Csv
