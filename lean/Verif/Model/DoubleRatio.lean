import Verif.Model.AuxFn
import Verif.Model.DoubleZernike

/-!
# The size of the figures in the arithmetic of doubles
-/

namespace Verif.Dbl

open Verif Verif.Np Verif.AuxFn Verif.MathFn

/-- `uv_ratio(u, v)`, aux_functions.py:308-318, for axes of doubles in the same unit, with the rounding `rnd` after every
operation.  `max` and `min` choose an element and do not round; `decompose` multiplies by the scale one. -/
noncomputable def uvRatio (rnd : ℝ → Fl) {m n : ℕ} (u : Fin m → ℝ) (v : Fin n → ℝ) : Py (Fl × ℝ) := do
  let u1 ← maxR u
  let u0 ← minR u
  let v1 ← maxR v
  let v0 ← minR v
  let ratio := div rnd (sub rnd (.fin u1) (.fin u0)) (sub rnd (.fin v1) (.fin v0))
  let height := 5
  return (mul rnd (mul rnd ratio (.fin 2.25)) (.fin height), height)

end Verif.Dbl
