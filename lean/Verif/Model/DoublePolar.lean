import Verif.Model.DoublePhase

/-!
# Polar coordinates in the arithmetic of doubles
-/

namespace Verif.Dbl

open Verif

/-- `cart2pol(x, y)` at one element, math_functions.py:60-63, with the rounding `rnd` after every operation; the angle is
that of the mathematical library. -/
noncomputable def cart2pol (rnd : ℝ → Fl) (L : LibmA) (x y : Fl) : Fl × Fl :=
  (sqrt rnd (sumSq rnd x y), L.arctan2 y x)

end Verif.Dbl
