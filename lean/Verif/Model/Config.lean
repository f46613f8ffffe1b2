import Verif.Model.Fit
import Verif.Model.Yaml

/-!
# The configuration file of `fit_zpoly`, core.py:392-399, 463-476, 276-278

Numbers of the configuration go through `float`: numpy and scipy convert lists that hold integers or strings
(`np.delete` of a list with strings gives strings; `least_squares` and `np.insert` convert them).  Entries that
are no finite decimal numbers are outside (`none`).  The lists are looked at in the order of the first round of
the loop; a missing `fixed` is found a little later there, at the first residual.
-/

namespace Verif.Config

open Verif Verif.Fs Verif.Store Verif.Core Verif.Yaml Verif.Csv Verif.Actuator.Act

/-- A result, an exception, or nothing said. -/
abbrev M (α : Type) := ExceptT PyErr Option α

/-- Nothing said. -/
def outside {α : Type} : M α := ExceptT.mk none

/-- `float(w)` of a decimal number, rounded by `rd`. -/
noncomputable def decimal (rd : ℝ → Fl) (w : Str) : M ℝ :=
  match parseFloat rd (w.map Char.toLower) with
  | some (.fin x) => pure x
  | _ => outside

/-- The number of an entry of a list. -/
noncomputable def number (rd : ℝ → Fl) (other : Str → Tag) : Tok → M ℝ
  | .plain w => match resolve other w with
    | .int => decimal rd w
    | .float => decimal rd w
    | .str => decimal rd w
    | _ => outside
  | .quoted w => decimal rd w
  | .emptySeq => outside

/-- A list of numbers; `None + [0.1]` and `'text' + [0.1]` are a `TypeError`. -/
noncomputable def numbers (rd : ℝ → Fl) (other : Str → Tag) : Val → M (List ℝ)
  | .seq l => l.mapM (number rd other)
  | _ => throw .typeError

/-- An entry of `excluded`: what is no integer is an `IndexError` in `np.delete`. -/
def index (other : Str → Tag) : Tok → M ℤ
  | .plain w => match resolve other w with
    | .int => match parseInt w with
      | some z => pure z
      | none => outside
    | .other => outside
    | _ => throw .indexError
  | _ => throw .indexError

/-- `excluded`: `np.delete(a, None)` and `np.delete(a, 'None')` are an `IndexError`; a single integer is a `TypeError`
of `for i in ...` in `params_complete`. -/
def indices (other : Str → Tag) : Val → M (List ℤ)
  | .null => throw .indexError
  | .scalar t => do
    let _ ← index other t
    throw .typeError
  | .seq l => l.mapM (index other)

/-- `config_params[k]` -/
def entry (doc : List (Str × Val)) (k : String) : M Val :=
  if doc.isEmpty then throw .typeError
  else match get doc k.toList with
    | some n => pure n
    | none => throw .keyError

/-- The configuration, in the order in which `fit_zpoly` looks at it. -/
noncomputable def ofDoc (rd : ℝ → Fl) (other : Str → Tag) (doc : List (Str × Val)) : M Config := do
  let init ← numbers rd other (← entry doc "init")
  let excluded ← indices other (← entry doc "excluded")
  let boundMin ← numbers rd other (← entry doc "bound_min")
  let boundMax ← numbers rd other (← entry doc "bound_max")
  let fixed ← numbers rd other (← entry doc "fixed")
  return ⟨excluded, fixed, init, boundMin, boundMax⟩

/-- `fit_zpoly(..., config_params_file=...)` for a configuration file that holds `text`, core.py:378-616: the text
is read before the directory is made, the entries are looked at after it. -/
noncomputable def fitText {N M : ℕ} (rd : ℝ → Fl) (other : Str → Tag) (text : Str) (a : Verif.Fit.Input N M) :
    Option (Prog Content Path) :=
  (load text).bind fun doc =>
    (ofDoc rd other doc).run.map fun cfg => do
      let nameDir ← Verif.Fit.allocDir a.workDir a.name
      let s0 ← Prog.lift (a.snr 0)
      let s1 ← Prog.lift (a.snr 1)
      let s2 ← Prog.lift (a.snr 2)
      if a.orderMax = 0 then return nameDir
      let cfg ← Prog.lift cfg
      Verif.Fit.fitLoop { a with cfg := cfg } [s0, s1, s2] nameDir 1 a.orderMax
      return nameDir

end Verif.Config
