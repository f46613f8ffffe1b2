import Mathlib.Algebra.Polynomial.Derivative
import Mathlib.Data.Real.Basic

/-!
# Specification side for the Zernike polynomials (no reference to the model)
-/

namespace Verif.Spec

open Polynomial

/-- The index pairs for which Born & Wolf define circle polynomials:
`|l| ≤ n` and `n - l` even. -/
def Allowed (n : ℕ) (l : ℤ) : Prop := |l| ≤ n ∧ Even ((n : ℤ) - l)

/-- The polynomial inside the Rodrigues-type formula of the `R` docstring
(zernike.py:35-47): with `t = ϱ²`,
`(d/dt)^((n-m)/2) { t^((n+m)/2) (t - 1)^((n-m)/2) }`. -/
noncomputable def rodrigues (n m : ℕ) : ℝ[X] :=
  derivative^[(n - m) / 2] (X ^ ((n + m) / 2) * (X - 1) ^ ((n - m) / 2))

end Verif.Spec
