import Verif.Model.Csv

/-!
# The part of YAML that the files of pyoof use

`yaml.load(file, Loader=yaml.Loader)`, core.py:395-399 (the configuration), aux_functions.py:355-356 and
plot_routines.py:653-654 (`pyoof_info.yml`), as PyYAML does it for texts of this form: one mapping, whose
keys stand at the beginning of their lines; the value of a key is on the same line, or a list with one entry
on each of the next lines (`- entry`), or nothing; entries are plain or in single quotes and end on their
line; comments.  For other texts (`none`) nothing is said.
-/

namespace Verif.Yaml

open Verif Verif.Csv Verif.Actuator.Act

/-- A value on one line. -/
inductive Tok
  | plain (w : Str)
  | quoted (w : Str)
  | emptySeq
  deriving DecidableEq

/-- A line. -/
inductive Line
  | blank
  | item (t : Tok)
  | key (k : Str) (t : Tok)
  deriving DecidableEq

/-- After a blank: further blanks, then a comment or nothing. -/
def afterBlank : Str → Bool
  | [] => true
  | c :: s => if c = ' ' then afterBlank s else c = '#'

/-- What may follow a value in quotes. -/
def tailOk : Str → Bool
  | [] => true
  | c :: s => c = ' ' && afterBlank s

/-- The rest of a text in single quotes (a quote is doubled) and what follows it. -/
def unquote : Str → Option (Str × Str)
  | [] => none
  | '\'' :: '\'' :: s => (unquote s).map fun p => ('\'' :: p.1, p.2)
  | '\'' :: s => some ([], s)
  | c :: s => (unquote s).map fun p => (c :: p.1, p.2)

/-- The text up to a comment, which begins with a blank and `#`. -/
def uncomment : Str → Str
  | [] => []
  | ' ' :: '#' :: _ => []
  | c :: s => c :: uncomment s

/-- `s.rstrip(' ')` -/
def rstrip (s : Str) : Str := (s.reverse.dropWhile (· = ' ')).reverse

/-- A colon before a blank or at the end would be a key. -/
def noKey : Str → Bool
  | [] => true
  | [c] => c ≠ ':'
  | c :: d :: s => !(c = ':' && d = ' ') && noKey (d :: s)

/-- A plain value may not begin with one of the characters that have a meaning. -/
def plainOk : Str → Bool
  | [] => true
  | c :: s => (if c = '-' || c = '?' || c = ':' then !s.isEmpty && s.head? != some ' '
      else !(",[]{}#&*!|>'\"%@`".toList.contains c)) && noKey (c :: s)

/-- The value that begins after `-` or `:`. -/
def value (s : Str) : Option Tok :=
  match s.dropWhile (· = ' ') with
  | [] => some (.plain [])
  | c :: r =>
    if c = '#' then some (.plain [])
    else if c = '\'' then (unquote r).bind fun p => if tailOk p.2 then some (.quoted p.1) else none
    else
      let w := rstrip (uncomment (c :: r))
      if w = ['[', ']'] then some .emptySeq else if plainOk w then some (.plain w) else none

/-- The characters of a key. -/
def keyChar (c : Char) : Bool := c.isAlphanum || c = '_'

/-- Nothing, or a blank first. -/
def blankFirst (s : Str) : Bool := s.isEmpty || s.head? == some ' '

/-- A line of the text. -/
def line (s : Str) : Option Line :=
  if afterBlank s then some .blank
  else match s with
    | '-' :: r => if blankFirst r then (value r).map .item else none
    | s =>
      let k := s.takeWhile (· ≠ ':')
      match s.dropWhile (· ≠ ':') with
      | [] => none
      | _ :: r => if !k.isEmpty && k.all keyChar && blankFirst r then (value r).map (.key k) else none

/-- The value of a key. -/
inductive Val
  | null
  | scalar (t : Tok)
  | seq (l : List Tok)
  deriving DecidableEq

/-- The lines from the last to the first: the entries that still need a key, and the mapping so far. -/
def step (x : Line) (acc : List Tok × List (Str × Val)) : Option (List Tok × List (Str × Val)) :=
  match x with
  | .blank => some acc
  | .item t => some (t :: acc.1, acc.2)
  | .key k (.plain []) => some ([], (k, if acc.1.isEmpty then .null else .seq acc.1) :: acc.2)
  | .key k .emptySeq => if acc.1.isEmpty then some ([], (k, .seq []) :: acc.2) else none
  | .key k t => if acc.1.isEmpty then some ([], (k, .scalar t) :: acc.2) else none

/-- All lines. -/
def group : List Line → Option (List Tok × List (Str × Val))
  | [] => some ([], [])
  | x :: l => (group l).bind (step x)

/-- A character that is printed, or the end of a line. -/
def okChar (c : Char) : Bool :=
  c = '\n' || (32 ≤ c.toNat && c.toNat ≤ 126) ||
    (160 ≤ c.toNat && c.toNat ≠ 8232 && c.toNat ≠ 8233 && c.toNat ≠ 65279)

/-- `yaml.load` -/
def load (text : Str) : Option (List (Str × Val)) :=
  if text.all okChar then
    ((text.splitOn '\n').mapM line).bind fun l => (group l).bind fun p =>
      if p.1.isEmpty then some p.2 else none
  else none

/-- The value of a key: the last one, if a key is given again. -/
def get (doc : List (Str × Val)) (k : Str) : Option Val :=
  (doc.reverse.find? fun p => p.1 = k).map (·.2)

/-! ## Types of plain values -/

/-- What a plain value is. -/
inductive Tag
  | null
  | int
  | float
  | str
  | other
  deriving DecidableEq

/-- `[-+]?` -/
def unsign : Str → Str
  | '-' :: s => s
  | '+' :: s => s
  | s => s

/-- Decimal integers: `[-+]?(?:0|[1-9][0-9]*)` -/
def isInt (w : Str) : Bool :=
  match unsign w with
  | [] => false
  | c :: s => (c = '0' && s.isEmpty) || (c ≠ '0' && (c :: s).all Char.isDigit)

/-- `(?:[eE][-+][0-9]+)?` -/
def isExp : Str → Bool
  | [] => true
  | e :: g :: s => (e = 'e' || e = 'E') && (g = '-' || g = '+') && !s.isEmpty && s.all Char.isDigit
  | _ => false

/-- `[-+]?[0-9]+\.[0-9]*(?:[eE][-+][0-9]+)?` or `\.[0-9]+(?:[eE][-+][0-9]+)?`; without a point (`1e-3`), without
the sign of the exponent (`1.e3`), or with a sign before the point (`-.5`) it is a string. -/
def isFloat (w : Str) : Bool :=
  let t := unsign w
  let ip := t.takeWhile Char.isDigit
  match t.dropWhile Char.isDigit with
  | '.' :: r =>
    let fp := r.takeWhile Char.isDigit
    (!ip.isEmpty || (t = w && !fp.isEmpty)) && isExp (r.dropWhile Char.isDigit)
  | _ => false

/-- `[-+]?\.(?:inf|Inf|INF)` or `\.(?:nan|NaN|NAN)` -/
def isSpecial (w : Str) : Bool :=
  unsign w ∈ [".inf".toList, ".Inf".toList, ".INF".toList] || w ∈ [".nan".toList, ".NaN".toList, ".NAN".toList]

/-- The resolver of PyYAML.  `other` stands for the forms not spelled out here: booleans, dates, integers to other
bases or with `_`; strings. -/
def resolve (other : Str → Tag) (w : Str) : Tag :=
  if w = [] ∨ w = "~".toList ∨ w = "null".toList ∨ w = "Null".toList ∨ w = "NULL".toList then .null
  else if isInt w then .int
  else if isFloat w || isSpecial w then .float
  else other w

end Verif.Yaml
