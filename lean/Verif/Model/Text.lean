import Mathlib.Data.Nat.Digits.Defs
import Verif.Model.Base

/-!
# Text: Python strings as lists of characters, `str` of an integer, `%03d`
-/

namespace Verif

/-- A Python `str`. -/
abbrev Str := List Char

/-- The character of a decimal digit. -/
def digitChar (d : ℕ) : Char := Char.ofNat (48 + d)

/-- `str(n)` of a non negative integer. -/
def decNat (n : ℕ) : Str := if n = 0 then ['0'] else (Nat.digits 10 n).reverse.map digitChar

/-- `str(z)`, also `f'{z}'`, of an integer. -/
def decInt (z : ℤ) : Str := if z < 0 then '-' :: decNat z.natAbs else decNat z.natAbs

/-- `'%03d' % n`: padded with zeros to three characters. -/
def pad3 (n : ℕ) : Str := List.replicate (3 - (decNat n).length) '0' ++ decNat n

end Verif
