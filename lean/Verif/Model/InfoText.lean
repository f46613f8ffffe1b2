import Verif.Model.Store
import Verif.Model.Yaml

/-!
# The text of `pyoof_info.yml` and of the parameter tables

core.py:557-583 (`yaml.dump`), aux_functions.py:277-286 (`Table.write` to a name that ends in `.csv`), and how
they are read: aux_functions.py:355-371, plot_routines.py:649-654, core.py:457.  PyYAML and astropy are modelled
for what pyoof gives them: text of printable ASCII characters, integers, floats, lists of floats.  A line is
folded by PyYAML at a blank beyond column 80; that, and characters that are not ASCII (written in double quotes),
are outside (`none`).  The sign of zero is not modelled.
-/

namespace Verif.InfoText

open Verif Verif.Csv Verif.Yaml Verif.Store Verif.Actuator.Act

/-! ## `repr` of a float -/

/-- The shortest digits of a positive double that are read as this double, `d₁d₂…`, and the exponent `p` such that
the number is `0.d₁d₂… · 10ᵖ`.  A parameter: which digits these are is not modelled. -/
abbrev Digits := ℝ → List (Fin 10) × ℤ

/-- Digits as text. -/
def digText (l : List (Fin 10)) : Str := l.map fun d : Fin 10 => digitChar d.val

/-- Python's `repr` (format code `r`) and numpy's `str` of a positive double with these digits: a fixed point from
10⁻⁴ to 10¹⁶, otherwise an exponent of at least two digits. -/
def reprPos (ds : Str) (p : ℤ) : Str :=
  if -4 < p ∧ p ≤ 16 then
    if p ≤ 0 then '0' :: '.' :: (List.replicate (-p).toNat '0' ++ ds)
    else if ds.length ≤ p.toNat then ds ++ (List.replicate (p.toNat - ds.length) '0' ++ ['.', '0'])
    else ds.take p.toNat ++ '.' :: ds.drop p.toNat
  else ds.take 1 ++ ((if ds.length = 1 then [] else '.' :: ds.drop 1) ++ 'e' :: expText (p - 1))

/-- `repr(x)` -/
noncomputable def repr (D : Digits) (x : ℝ) : Str := open Classical in
  if x = 0 then "0.0".toList
  else (if x < 0 then ['-'] else []) ++ reprPos (digText (D |x|).1) (D |x|).2

/-! ## `yaml.dump` -/

/-- A number or a string. -/
inductive Scalar
  | str (s : Str)
  | int (z : ℤ)
  | float (x : Fl)

/-- A value of the dictionary. -/
inductive Obj
  | one (x : Scalar)
  | list (l : List Scalar)

/-- `value.replace('e', '.0e', 1)` -/
def pointE : Str → Str
  | [] => []
  | c :: s => if c = 'e' then '.' :: '0' :: 'e' :: s else c :: pointE s

/-- PyYAML, `represent_float`. -/
noncomputable def floatText (D : Digits) : Fl → Str
  | .nan => ".nan".toList
  | .pinf => ".inf".toList
  | .ninf => "-.inf".toList
  | .fin x => let r := repr D x; if '.' ∉ r ∧ 'e' ∈ r then pointE r else r

/-- PyYAML, `analyze_scalar`: a colon before a blank or the end, or `#` after a blank. -/
def marks (prev : Char) : Str → Bool
  | [] => false
  | c :: s => (c = ':' && blankFirst s) || (c = '#' && prev = ' ') || marks c s

/-- PyYAML, `analyze_scalar`: text that may be written without quotes (`allow_block_plain`). -/
def blockPlain (s : Str) : Bool :=
  match s with
  | [] => true
  | c :: r => c ≠ ' ' && (c :: r).getLast? ≠ some ' ' &&
      !("---".toList.isPrefixOf (c :: r)) && !("...".toList.isPrefixOf (c :: r)) &&
      !("#,[]{}&*!|>'\"%@`".toList.contains c) && !("?:-".toList.contains c && blankFirst r) &&
      !marks c r

/-- In single quotes; a quote is doubled. -/
def quoted (s : Str) : Str := '\'' :: (s.flatMap fun c => if c = '\'' then ['\'', '\''] else [c]) ++ ['\'']

/-- PyYAML, `choose_scalar_style`: a string is written without quotes if it is read as a string. -/
noncomputable def scalarText (D : Digits) (other : Str → Tag) : Scalar → Str
  | .str s => if resolve other s = .str ∧ blockPlain s then s else quoted s
  | .int z => decInt z
  | .float x => floatText D x

/-- A character of a string that is inside the model. -/
def ascii (c : Char) : Bool := 32 ≤ c.toNat && c.toNat ≤ 126

/-- Strings that are inside the model, with the characters before them on the line. -/
def writable (D : Digits) (other : Str → Tag) (before : ℕ) (x : Scalar) : Prop :=
  match x with
  | .str s => s.all ascii ∧ (before + (scalarText D other (.str s)).length ≤ 80 ∨ ' ' ∉ s)
  | _ => True

/-- The lines of an entry of the dictionary. -/
noncomputable def entryLines (D : Digits) (other : Str → Tag) (k : Str) : Obj → List Str
  | .one x => [k ++ ": ".toList ++ scalarText D other x]
  | .list [] => [k ++ ": []".toList]
  | .list l => (k ++ ":".toList) :: l.map fun x => "- ".toList ++ scalarText D other x

/-- What of an entry has to be inside the model; a key has to be a word that is read as a string. -/
def entryOk (D : Digits) (other : Str → Tag) (k : Str) (v : Obj) : Prop :=
  k ≠ [] ∧ k.all keyChar ∧ resolve other k = .str ∧ k.length ≤ 80 ∧
    match v with
    | .one x => writable D other (k.length + 2) x
    | .list l => ∀ x ∈ l, writable D other 2 x

/-- The order of the keys, `sort_keys=True`. -/
def keyLe (a b : Str × Obj) : Bool := (a.1.map Char.toNat) ≤ (b.1.map Char.toNat)

/-- The text of `pyoof_info.yml`: a comment (core.py:578), then `yaml.dump`. -/
noncomputable def dump (D : Digits) (other : Str → Tag) (doc : List (Str × Obj)) : Option Str := open Classical in
  if ∀ e ∈ doc, entryOk D other e.1 e.2 then
    some (("# pyoof relevant information".toList :: (doc.mergeSort keyLe).flatMap fun e =>
      entryLines D other e.1 e.2).flatMap fun l => l ++ ['\n'])
  else none

/-! ## `yaml.load` -/

/-- PyYAML, `construct_yaml_float`. -/
noncomputable def floatOf (rd : ℝ → Fl) (w : Str) : Option Fl :=
  let t := unsign (w.map Char.toLower)
  let x := if t = ".inf".toList then some .pinf else if t = ".nan".toList then some .nan else parseFloat rd t
  if w.head? = some '-' then x.map Fl.neg else x

/-- The value of a scalar. -/
noncomputable def scalarOf (rd : ℝ → Fl) (other : Str → Tag) : Tok → Option Scalar
  | .plain w => match resolve other w with
    | .str => some (.str w)
    | .int => (parseInt w).map .int
    | .float => (floatOf rd w).map .float
    | _ => none
  | .quoted w => some (.str w)
  | .emptySeq => none

/-- The value of a key. -/
noncomputable def objOf (rd : ℝ → Fl) (other : Str → Tag) : Val → Option Obj
  | .null => none
  | .scalar t => (scalarOf rd other t).map .one
  | .seq l => (l.mapM (scalarOf rd other)).map .list

/-- `yaml.load`: the pairs in the order of the text. -/
noncomputable def loadDoc (rd : ℝ → Fl) (other : Str → Tag) (text : Str) : Option (List (Str × Obj)) :=
  (load text).bind fun doc => doc.mapM fun e => (objOf rd other e.2).map fun v => (e.1, v)

/-- `pyoof_info[k]` -/
def entryOf (doc : List (Str × Obj)) (k : String) : Option Obj :=
  (doc.reverse.find? fun e => e.1 = k.toList).map (·.2)

/-- The dictionary of core.py:559-575; `box` is the box factor as it was given, an integer or a float. -/
def infoDoc (i : Info) (box : Scalar) : List (Str × Obj) := [
  ("tel_name".toList, .one (.str i.telName)),
  ("tel_opd".toList, .one (.str i.telOpd)),
  ("pr".toList, .one (.float (.fin i.pr))),
  ("name".toList, .one (.str i.name)),
  ("obs_object".toList, .one (.str i.obsObject)),
  ("obs_date".toList, .one (.str i.obsDate)),
  ("d_z".toList, .list (i.dz.map fun x => .float (.fin x))),
  ("wavel".toList, .one (.float (.fin i.wavel))),
  ("frequency".toList, .one (.float (.fin i.frequency))),
  ("illumination".toList, .one (.str i.illumination)),
  ("meanel".toList, .one (.float (.fin i.meanel))),
  ("fft_resolution".toList, .one (.int i.fftResolution)),
  ("box_factor".toList, .one box),
  ("snr".toList, .list (i.snr.map .float))]

/-! ## The tables of parameters -/

/-- A field of a csv file, `csv.QUOTE_MINIMAL`. -/
def csvField (s : Str) : Str :=
  if s.any fun c => c = ',' || c = '"' || c = '\n' || c = '\r' then
    '"' :: (s.flatMap fun c => if c = '"' then ['"', '"'] else [c]) ++ ['"']
  else s

/-- numpy's `str` of a `float64`. -/
noncomputable def numText (D : Digits) : Fl → Str
  | .nan => "nan".toList
  | .pinf => "inf".toList
  | .ninf => "-inf".toList
  | .fin x => repr D x

/-- A line. -/
def csvLine (l : List Str) : Str := ",".toList.intercalate (l.map csvField) ++ ['\n']

/-- `Table(...).write(...)`, aux_functions.py:278-286. -/
noncomputable def tableText (D : Digits) (names : List Str) (fit init : List Fl) : Str :=
  csvLine ["parname".toList, "parfit".toList, "parinit".toList] ++
    (names.zip (fit.zip init)).flatMap fun r => csvLine [r.1, numText D r.2.1, numText D r.2.2]

/-- The rest of a field in quotes, and what follows. -/
def unquoteField : Str → Option (Str × Str)
  | [] => none
  | '"' :: '"' :: s => (unquoteField s).map fun p => ('"' :: p.1, p.2)
  | '"' :: s => some ([], s)
  | c :: s => (unquoteField s).map fun p => (c :: p.1, p.2)

/-- The first field of a line, and what follows. -/
def field : Str → Option (Str × Str)
  | '"' :: s => unquoteField s
  | s => some (s.takeWhile (· ≠ ','), s.dropWhile (· ≠ ','))

/-- The fields of a line; at most `k` of them. -/
def fields : ℕ → Str → Option (List Str)
  | 0, _ => none
  | k + 1, s => (field s).bind fun p => match p.2 with
      | [] => some [p.1]
      | c :: r => if c = ',' then (fields k r).map (p.1 :: ·) else none

/-- A row. -/
noncomputable def tableRow (rd : ℝ → Fl) (l : Str) : Option (Str × Fl × Fl) :=
  match fields 3 l with
  | some [a, b, c] => (parseFloat rd b).bind fun x => (parseFloat rd c).map fun y => (a, x, y)
  | _ => none

/-- `Table.read(..., format='ascii')` of such a file: of the formats that astropy tries it is csv.  Nothing is said
about tables with other columns or with fields that are no numbers. -/
noncomputable def readTable (rd : ℝ → Fl) (text : Str) : Option (List Str × List Fl × List Fl) :=
  match (text.splitOn '\n').filter (fun l => !l.isEmpty) with
  | [] => none
  | h :: rows =>
    if fields 3 h = some ["parname".toList, "parfit".toList, "parinit".toList] then
      (rows.mapM (tableRow rd)).map fun l => (l.map (·.1), l.map (·.2.1), l.map (·.2.2))
    else none

end Verif.InfoText
