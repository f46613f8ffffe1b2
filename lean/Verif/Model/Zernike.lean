import Verif.Model.Base
import Mathlib.Analysis.SpecialFunctions.Trigonometric.Basic
import Mathlib.Algebra.BigOperators.Group.List.Basic

/-!
# Model of `pyoof/zernike/zernike.py`

`rho` and `theta` are numpy arrays in the code and every operation on them is elementwise;
the model is the value at one element.  Floating point numbers are exact reals.
-/

namespace Verif.Zernike

open Verif

/-- `math.factorial` (imported as `f`, zernike.py:6): raises `ValueError` on negative input. -/
def factorial (z : ℤ) : Py ℕ :=
  if z < 0 then .error .valueError else .ok z.toNat.factorial

/-- One summand of `R`, zernike.py:66-67:
`(-1) ** s * f(n - s) * rho ** (n - 2 * s) / (f(s) * f(a - s) * f(b - s))`. -/
noncomputable def rTerm (n a b : ℤ) (rho : ℝ) (s : ℕ) : Py ℝ := do
  let f1 ← factorial (n - s)
  let f2 ← factorial s
  let f3 ← factorial (a - s)
  let f4 ← factorial (b - s)
  return (-1) ^ s * (f1 : ℝ) * rho ^ (n - 2 * s) / ((f2 : ℝ) * f3 * f4)

/-- `R(n, m, rho)`, zernike.py:14-71.  `//` on ints is floor division, which for the positive
divisor 2 is Lean's `/` on `ℤ`; `range(0, b + 1)` is empty for `b < 0`.
Simplification: `sum` of an empty generator is the scalar `0`, not an array. -/
noncomputable def R (n m : ℤ) (rho : ℝ) : Py ℝ := do
  let a := (n + m) / 2
  let b := (n - m) / 2
  let terms ← (List.range (b + 1).toNat).mapM (rTerm n a b rho)
  return terms.sum

/-- `U(n, l, rho, theta)`, zernike.py:74-152. -/
noncomputable def U (n l : PyNum) (rho theta : ℝ) : Py ℝ :=
  match l with
  | .other _ => .error .typeError          -- :137-140
  | .int l =>
    match n with
    | .other _ => .error .typeError        -- :141-142
    | .int n =>
      if n < 0 then .error .typeError      -- :141-142
      else do
        let m : ℤ := |l|                   -- :144
        let radial ← R n m rho             -- :145
        if l < 0 then                      -- :147-150
          return radial * Real.sin (m * theta)
        else
          return radial * Real.cos (m * theta)

end Verif.Zernike
