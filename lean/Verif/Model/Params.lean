import Verif.Model.Numpy

/-!
# Model of `params_complete`, `pyoof/core.py`:243-304, and of `np.delete`, `np.insert`
-/

namespace Verif.Core

open Verif

/-- The position meant by a Python index `i` in an array with `n` entries, if any. -/
def wrapIdx (n : ℕ) (i : ℤ) : Option ℕ :=
  if 0 ≤ i ∧ i < n then some i.toNat
  else if i < 0 ∧ -(n : ℤ) ≤ i then some (i + n).toNat
  else none

/-- The entries of `l`, which start at position `k`, whose position is not in `S`. -/
def dropAt {α : Type} (S : List ℕ) : ℕ → List α → List α
  | _, [] => []
  | k, a :: l => if k ∈ S then dropAt S (k + 1) l else a :: dropAt S (k + 1) l

/-- `np.delete(arr, obj)` of a one dimensional array and a list of ints: `IndexError` for an index
out of bounds; the order and repetitions in `obj` do not matter. -/
def npDelete {α : Type} (l : List α) (obj : List ℤ) : Py (List α) :=
  match obj.mapM (wrapIdx l.length) with
  | none => .error .indexError
  | some S => .ok (dropAt S 0 l)

/-- `np.insert(arr, i, v)` for a non negative scalar index. -/
def npInsert {α : Type} (l : List α) (i : ℕ) (v : α) : Py (List α) :=
  if i ≤ l.length then .ok (l.insertIdx i v) else .error .indexError

/-- The entries of the configuration file used for the parameters (`config_params`). -/
structure Config where
  excluded : List ℤ
  fixed : List ℝ
  init : List ℝ
  boundMin : List ℝ
  boundMax : List ℝ

/-- The configuration that comes with the package, pyoof/data/config_params.yml. -/
noncomputable def defaultConfig : Config where
  excluded := [1, 2, 3, 4, 5]
  fixed := [1, -14.5, 1.4, 0, 0, 0, 0, 0]
  init := [0.01, -10, 1.5, 0, 0, 0.1, 0.1, 0.1]
  boundMin := [0, -25, 1, -0.01, -0.01, -5, -5, -5]
  boundMax := [10, -1, 2, 0.01, 0.01, 5, 5, 5]

/-- One round of the loop in `params_complete`, core.py:284-300. -/
def completeStep (f0 f1 f2 f3 f4 f5 f6 f7 : ℝ) (p : List ℝ) (i : ℤ) : Py (List ℝ) :=
  if i = 0 then npInsert p 0 f0
  else if i = 1 then npInsert p 1 f1
  else if i = 2 then npInsert p 2 f2
  else if i = 3 then npInsert p 3 f3
  else if i = 4 then npInsert p 4 f4
  else if i = 5 then npInsert p 5 f5
  else if i = 6 then npInsert p 6 f6
  else if i = 7 then npInsert p 7 f7
  else .ok p

/-- `params_complete(params, N_K_coeff, config_params)`, core.py:277-304.  Unpacking a `fixed` list
of another length raises `ValueError`. -/
def paramsComplete (params : List ℝ) (nK : ℕ) (cfg : Config) : Py (List ℝ) :=
  match cfg.fixed with
  | [f0, f1, f2, f3, f4, f5, f6, f7] =>
    if params.length ≠ 5 + nK then
      cfg.excluded.foldlM (completeStep f0 f1 f2 f3 f4 f5 f6 f7) params
    else .ok params
  | _ => .error .valueError

end Verif.Core
