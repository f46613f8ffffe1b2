import Verif.Model.Csv
import Verif.Model.DoubleRms

/-!
# From the text of a csv file to the columns of the phase in the table of the fits

`table_pyoof_out` (`pyoof/aux_functions.py`:358-362) reads `phase_n{order}.csv` with `np.genfromtxt` and calls `rms` and
`e_rs` with what it returns.  Units are not modelled: the product with `apu.rad` is a new array with the same numbers.
-/

namespace Verif.Csv

open Verif

/-- The array that `np.genfromtxt` returns: a number, or an array with one or two dimensions. -/
inductive Loaded
  | d0 (x : Fl)
  | arr (a : Dbl.Arr)

/-- `np.genfromtxt` (numpy) removes the dimensions of length one from its table; without rows it returns an empty
one-dimensional array. -/
def squeeze : List (List Fl) → Loaded
  | [] => .arr (.d1 0 fun i => i.elim0)
  | [[x]] => .d0 x
  | [r] => .arr (.d1 r.length fun i => r.get i)
  | r :: s :: rs =>
    if r.length = 1 then
      .arr (.d1 (r :: s :: rs).length fun i => ((r :: s :: rs).getD i []).getD 0 .nan)
    else .arr (.d2 (r :: s :: rs).length r.length fun q => ((r :: s :: rs).getD q.1 []).getD q.2 .nan)

/-- `np.genfromtxt(fname)`: the array for the text of the file, aux_functions.py:358-360, plot_routines.py:662-678. -/
noncomputable def load (rd : ℝ → Fl) (text : Str) : Py Loaded := do
  let t ← genfromtxt rd text
  return squeeze t

/-- The columns `phase-rms` and `e_rs` of a row of the table, from the array of the phase, aux_functions.py:361-362; `e_rs`
gets the array that `rms` has changed.  A number has no `shape[0]`, math_functions.py:147. -/
noncomputable def columns (rnd : ℝ → Fl) (L : Dbl.LibmP) (adds : ∀ k, Dbl.Adds k) : Loaded → Py (Fl × Fl)
  | .d0 _ => .error .indexError
  | .arr a => do
    let r := Dbl.rms rnd adds a true
    let v ← r.1
    let w ← (Dbl.eRs rnd L adds r.2 true).1
    return (v, w)

/-- The same columns from the text of the file `phase_n{order}.csv`, aux_functions.py:358-362. -/
noncomputable def phaseColumns (rd rnd : ℝ → Fl) (L : Dbl.LibmP) (adds : ∀ k, Dbl.Adds k) (text : Str) :
    Py (Fl × Fl) := do
  let a ← load rd text
  columns rnd L adds a

end Verif.Csv
