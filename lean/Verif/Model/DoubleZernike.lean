import Verif.Model.Double
import Verif.Model.Aperture

/-!
# The Zernike polynomials and the wavefront in the arithmetic of doubles

`R`, `U` (`pyoof/zernike/zernike.py`:14-152) and `wavefront` (`pyoof/aperture/aperture.py`:203-253) at one
element, with the rounding `rnd` after every operation.  The functions of the mathematical library are the
parameter `L`.  Python integers are exact; where one meets an array it becomes a double.  This is so up to the
largest 64 bit integer, that is for orders up to 20; beyond, numpy has arrays of Python objects, which are not
modelled.
-/

namespace Verif.Dbl

open Verif Verif.Np Verif.Zernike Verif.Aperture

/-- `x + y` -/
noncomputable def add (rnd : ℝ → Fl) (x y : Fl) : Fl := rop rnd (Fl.add x y)

/-- `x * y` -/
noncomputable def mul (rnd : ℝ → Fl) (x y : Fl) : Fl := rop rnd (Fl.mul x y)

/-- A Python integer in an operation with an array. -/
def ofInt (rnd : ℝ → Fl) (z : ℤ) : Fl := rnd z

/-- `np.power` with an integer exponent, `np.sin`, `np.cos` of doubles. -/
structure Libm where
  pow : Fl → ℤ → Fl
  sin : Fl → Fl
  cos : Fl → Fl

/-- `sum(l)`, from the integer 0 on. -/
noncomputable def sum (rnd : ℝ → Fl) (l : List Fl) : Fl := l.foldl (add rnd) (ofInt rnd 0)

/-- One summand of `R`, zernike.py:66-67. -/
noncomputable def rTerm (rnd : ℝ → Fl) (L : Libm) (n a b : ℤ) (rho : Fl) (s : ℕ) : Py Fl := do
  let f1 ← factorial (n - s)
  let f2 ← factorial s
  let f3 ← factorial (a - s)
  let f4 ← factorial (b - s)
  return div rnd (mul rnd (ofInt rnd ((-1) ^ s * f1)) (L.pow rho (n - 2 * s))) (ofInt rnd (f2 * f3 * f4 : ℕ))

/-- `R(n, m, rho)`, zernike.py:62-71. -/
noncomputable def R (rnd : ℝ → Fl) (L : Libm) (n m : ℤ) (rho : Fl) : Py Fl := do
  let a := (n + m) / 2
  let b := (n - m) / 2
  let terms ← (List.range (b + 1).toNat).mapM (rTerm rnd L n a b rho)
  return sum rnd terms

/-- `U(n, l, rho, theta)`, zernike.py:137-152, for integers `n` and `l`. -/
noncomputable def U (rnd : ℝ → Fl) (L : Libm) (n l : ℤ) (rho theta : Fl) : Py Fl :=
  if n < 0 then .error .typeError
  else do
    let m : ℤ := |l|
    let radial ← R rnd L n m rho
    if l < 0 then
      return mul rnd radial (L.sin (mul rnd (ofInt rnd m) theta))
    else
      return mul rnd radial (L.cos (mul rnd (ofInt rnd m) theta))

/-- One summand of `wavefront`, aperture.py:249. -/
noncomputable def wfTerm (rnd : ℝ → Fl) (L : Libm) (rho theta : Fl) (K : List Fl) (nl : List (ℤ × ℤ)) (i : ℕ) :
    Py Fl := do
  let k ← pyIdx K i
  let p ← pyIdx nl i
  let u ← U rnd L p.1 p.2 rho theta
  return mul rnd k u

/-- `wavefront(rho, theta, K_coeff)`, aperture.py:242-253, at one element. -/
noncomputable def wavefront (rnd : ℝ → Fl) (L : Libm) (rho theta : Fl) (K : List Fl) : Py Fl := do
  let n := Aperture.orderOf K.length
  let nl := nlList n
  let terms ← (List.range K.length).mapM (wfTerm rnd L rho theta K nl)
  if terms.isEmpty then .error .attributeError
  else return sum rnd terms

end Verif.Dbl
