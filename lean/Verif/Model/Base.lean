import Mathlib.Data.Real.Basic
import Mathlib.Data.Int.Notation

/-!
# Base definitions shared by all model files

Python exceptions are values of `PyErr`; a Python call that may raise is modelled by
`Py α = Except PyErr α`.
-/

namespace Verif

/-- Exceptions that the modelled pyoof code (or the numpy / scipy call it makes) can raise. -/
inductive PyErr
  | typeError
  | valueError
  | indexError
  | keyError
  | attributeError
  | unboundLocalError
  | linAlgError
  | fileNotFoundError
  | osError
  deriving DecidableEq, Repr

/-- Result of a Python call: a value or a raised exception. -/
abbrev Py (α : Type*) := Except PyErr α

/-- A Python number handed to a function that tests `isinstance(_, int)`.
`int` is a Python `int` (or `bool`, a subclass of `int`); `other` is any other real number
object, e.g. `float` or `numpy.int64`. -/
inductive PyNum
  | int (z : ℤ)
  | other (r : ℝ)

end Verif
