import Verif.Model.MathFn

/-!
# Arithmetic of doubles: `norm` and the residual with the rounding of every operation

In the other modules the arithmetic is exact.  Here the operations of `norm`,
`pyoof/math_functions.py`:30-38, and of `residual_true`, `pyoof/core.py`:129, are followed by the rounding
`rnd` to a double (infinity beyond the largest one).  `min` and `max` are exact.  The sign of zero is not
modelled.
-/

namespace Verif.Dbl

open Verif Verif.Np Verif.MathFn Finset

/-- The result of an operation on doubles: the exact value is rounded; nan and the infinities stay. -/
def rop (rnd : ℝ → Fl) : Fl → Fl
  | .fin r => rnd r
  | x => x

/-- `x - y` -/
noncomputable def sub (rnd : ℝ → Fl) (x y : Fl) : Fl := rop rnd (Fl.sub x y)

/-- `x / y` -/
noncomputable def div (rnd : ℝ → Fl) (x y : Fl) : Fl := rop rnd (Fl.div x y)

/-- `np.nan_to_num((P - P.min()) / (P.max() - P.min()))`, `norm(P)`, math_functions.py:30-31, 38, in the
arithmetic of doubles. -/
noncomputable def norm (rnd : ℝ → Fl) {ι : Type} [Fintype ι] (P : ι → Fl) : Py (ι → ℝ) := do
  let mn ← arrMin (univ.toList.map P)
  let mx ← arrMax (univ.toList.map P)
  return fun q => Fl.nanToNum (div rnd (sub rnd (P q) mn) (sub rnd mx mn))

/-- `norm(P, axis=1)`, math_functions.py:34-36, 38, in the arithmetic of doubles. -/
noncomputable def normAxis1 (rnd : ℝ → Fl) {m n : ℕ} (P : Fin m × Fin n → Fl) :
    Py (Fin m × Fin n → ℝ) := do
  let mn ← seqArr fun i : Fin m => arrMin (List.ofFn fun j : Fin n => P (i, j))
  let mx ← seqArr fun i : Fin m => arrMax (List.ofFn fun j : Fin n => P (i, j))
  return fun q => Fl.nanToNum (div rnd (sub rnd (P q) (mn q.1)) (sub rnd (mx q.1) (mn q.1)))

/-- `norm(beam_data, axis=1) - norm(beam_model, axis=1)`, core.py:129, in the arithmetic of doubles, for the
two arrays that the line gets. -/
noncomputable def difference (rnd : ℝ → Fl) {m n : ℕ} (data model : Fin m × Fin n → Fl) :
    Py (Fin m × Fin n → Fl) := do
  let d ← normAxis1 rnd data
  let b ← normAxis1 rnd model
  return fun q => sub rnd (.fin (d q)) (.fin (b q))

end Verif.Dbl
