import Verif.Model.DoubleZernike

/-!
# The phase map in the arithmetic of doubles

`phase` (`pyoof/aperture/aperture.py`:256-348) with the rounding `rnd` after every operation: the grid of
`np.linspace`, the polar coordinates, the normalised radius, the wavefront, the cut at the rim and the factor
`2 * np.pi`.  The coordinates and the radius are numbers of the same unit; `x ** 2` of an array is `x * x`.
-/

namespace Verif.Dbl

open Verif Verif.Np Verif.Aperture

/-- The mathematical library with `np.arctan2`. -/
structure LibmA extends Libm where
  arctan2 : Fl → Fl → Fl

/-- `np.sqrt`, correctly rounded (IEEE 754). -/
noncomputable def sqrt (rnd : ℝ → Fl) (x : Fl) : Fl := rop rnd (Fl.sqrt x)

/-- `np.linspace(start, stop, num)[i]` (`numpy/_core/function_base.py`): `arange(num) * step + start`, the last
element is `stop`. -/
noncomputable def linspace (rnd : ℝ → Fl) (start stop : Fl) (num : ℕ) (i : Fin num) : Fl :=
  if 1 < num ∧ (i : ℕ) + 1 = num then stop
  else
    let y := ofInt rnd (i : ℕ)
    let delta := sub rnd stop start
    let count := ofInt rnd ((num : ℤ) - 1)
    let step := div rnd delta count
    let scaled :=
      if num = 1 then mul rnd y delta
      else if step = .fin 0 then mul rnd (div rnd y count) delta
      else mul rnd y step
    add rnd scaled start

/-- Result of `phase`. -/
structure PhaseMap (N : ℕ) where
  x : Fin N → Fl
  y : Fin N → Fl
  phi : Fin N × Fin N → Fl

/-- `x_grid ** 2 + y_grid ** 2`, aperture.py:344 and math_functions.py:60. -/
noncomputable def sumSq (rnd : ℝ → Fl) (x y : Fl) : Fl := add rnd (mul rnd x x) (mul rnd y y)

/-- `phase(K_coeff, pr, piston, tilt, resolution)`, aperture.py:324-348. -/
noncomputable def phase (rnd : ℝ → Fl) (L : LibmA) (K : List ℝ) (pr : ℝ) (piston tilt : Bool) (N : ℕ) :
    Py (PhaseMap N) := do
  let K' ← maskCoeff K piston tilt
  let x := linspace rnd (.fin (-pr)) (.fin pr) N
  let y := linspace rnd (.fin (-pr)) (.fin pr) N
  let xg := meshX x y
  let yg := meshY x y
  let r := fun q => sqrt rnd (sumSq rnd (xg q) (yg q))
  let t := fun q => L.arctan2 (yg q) (xg q)
  let W ← seqArr fun q => wavefront rnd L.toLibm (div rnd (r q) (.fin pr)) (t q) (K'.map .fin)
  let W' := fun q => open Classical in
    if Fl.lt (mul rnd (.fin pr) (.fin pr)) (sumSq rnd (xg q) (yg q)) then .fin 0 else W q
  return ⟨x, y, fun q => mul rnd (mul rnd (W' q) (ofInt rnd 2)) (rnd Real.pi)⟩

end Verif.Dbl
