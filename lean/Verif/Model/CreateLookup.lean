import Verif.Model.Actuator
import Verif.Model.AuxFn

/-!
# Model of `scripts/create_lookup.py`

The script from the stored fits to the new look-up table.  Parameters: the list of directories found
by `glob` (in any order), the conversion of the dates to `Time` with the sorting of the table by date,
the optimiser, the present look-up table (the text of a file), the name of the new file.  Not here:
the figures (made before and after the table is written) and `K_coeff_model`, which only the figures use; they
are in `Model/LookupPlots.lean`.
-/

namespace Verif.CreateLookup

open Verif Verif.Fs Verif.Store Verif.AuxFn Verif.Actuator

/-- `name.split('-')[-1]`: what follows the last dash. -/
def lastPart (name : Str) : Str := (name.reverse.takeWhile fun c => c ≠ '-').reverse

/-- `(tab['beam-snr-in'] > 200.) & ~idx_offset`, create_lookup.py:58-63. -/
noncomputable def selected (r : Row) : Bool := open Classical in
  decide (Fl.lt (.fin 200) (r.snr.getD 1 .nan)) && !decide (lastPart r.name = "offset".toList)

/-- `K_coeff_obs[j, :] = x` for a row of length `n`: numpy broadcasts one number. -/
def assignRow (n : ℕ) (x : List ℝ) : Py (List ℝ) :=
  if x.length = n then .ok x
  else match x with
    | [t] => .ok (List.replicate n t)
    | _ => .error .valueError

/-- One round of the loop over the selected observations, create_lookup.py:73-78.  `out` is
`path_pyoof_out`, `run` is `pyoof_run`. -/
def rowCoeffs (out : Path) (run : Str) (n : ℕ) (r : Row) : Prog Content (List ℝ) := do
  let c ← readFile ((out.join (r.name ++ '-' :: run)).join (fileName "fitpar" n))
  match c with
  | .params _ fit _ => Prog.lift (assignRow ((n + 1) * (n + 2) / 2) (fit.drop 5))
  | _ => .raise .keyError

/-- `K_coeff_obs`, create_lookup.py:70-78. -/
def coeffRows (out : Path) (run : Str) (n : ℕ) : List Row → Prog Content (List (List ℝ))
  | [] => .ret []
  | r :: rs => do
    let k ← rowCoeffs out run n r
    let ks ← coeffRows out run n rs
    return k :: ks

/-- The selected observations with their coefficients, create_lookup.py:43-75. -/
noncomputable def observed (out : Path) (run : Str) (n : ℕ) (sort : List Row → Py (List Row)) (dirs : List Path) :
    Prog Content (List Row × List (List ℝ)) := do
  let rows ← tablePyoofOut n dirs
  let tab ← Prog.lift (sort rows)
  let sel := tab.filter selected
  let K ← coeffRows out run n sel
  return (sel, K)

/-- The observations that enter the model: elevations and coefficients, create_lookup.py:43-80. -/
noncomputable def observations (out : Path) (run : Str) (n : ℕ) (sort : List Row → Py (List Row))
    (dirs : List Path) : Prog Content (List Act.Angle × List (List ℝ)) := do
  let obs ← observed out run n sort dirs
  return (obs.1.map fun r => .quant r.meanel (Real.pi / 180), obs.2)

/-- The directory for the results, create_lookup.py:141-142. -/
def saveDir (save : Path) : Prog Content Unit := do
  let e ← isdirP save
  if !e then makedirs save true

/-- The new table, create_lookup.py:144-157. -/
noncomputable def writeTable (a : Act) (g : List (List ℝ)) (lookup save : Path) (fname : Str) :
    Prog Content Unit := do
  let c ← readFile lookup
  let old ← Prog.lift (match c with | .text s => .ok s | _ => .error .valueError)
  let new ← Prog.lift (a.createLookup g old)
  writeFile .part (save.join fname) (.text new)

/-- The script: the present table is at `lookup`, the new one goes to `fname` in `save`.  The
constructor of `EffelsbergActuator` reads the table first; the minimum of no elevations is a
`ValueError`, create_lookup.py:87. -/
noncomputable def script (a : Act) (solver : Act.Solver (List ℝ)) (out : Path) (run : Str)
    (sort : List Row → Py (List Row)) (dirs : List Path) (lookup save : Path) (fname : Str) :
    Prog Content Unit := do
  let _ ← readFile lookup
  let obs ← observations out run a.order sort dirs
  let g ← Prog.lift (a.fitGrav solver obs.2 obs.1)
  let _ ← Prog.lift (if obs.1.isEmpty then .error .valueError else .ok ())
  let _ ← Prog.lift (a.generatePhasePr g (Act.alphaLookup.map fun n : ℕ => .quant n (Real.pi / 180)) true)
  saveDir save
  writeTable a g lookup save fname

end Verif.CreateLookup
