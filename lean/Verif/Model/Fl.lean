import Mathlib.Analysis.SpecialFunctions.Pow.Real

/-!
# Floating point values with nan and infinities

`fin r` stands for a finite double; finite arithmetic is exact (no rounding, no overflow).  The
rules for the special values are those of IEEE 754 / numpy, with one zero only: `x / 0` is an
infinity with the sign of `x`.
-/

namespace Verif

inductive Fl
  | nan
  | pinf
  | ninf
  | fin (r : ℝ)

namespace Fl

noncomputable instance : DecidableEq Fl := Classical.decEq _

def isFin : Fl → Prop
  | fin _ => True
  | _ => False

/-- `-x` -/
def neg : Fl → Fl
  | nan => nan
  | pinf => ninf
  | ninf => pinf
  | fin r => fin (-r)

/-- `x + y` -/
noncomputable def add : Fl → Fl → Fl
  | nan, _ => nan
  | _, nan => nan
  | pinf, ninf => nan
  | ninf, pinf => nan
  | pinf, _ => pinf
  | _, pinf => pinf
  | ninf, _ => ninf
  | _, ninf => ninf
  | fin a, fin b => fin (a + b)

/-- `x - y` -/
noncomputable def sub (x y : Fl) : Fl := add x (neg y)

/-- infinity with the sign of `r`, nan for 0 (the value of `r * inf`) -/
noncomputable def infSign (r : ℝ) : Fl := if 0 < r then pinf else if r < 0 then ninf else nan

/-- `x * y` -/
noncomputable def mul : Fl → Fl → Fl
  | nan, _ => nan
  | _, nan => nan
  | pinf, pinf => pinf
  | pinf, ninf => ninf
  | ninf, pinf => ninf
  | ninf, ninf => pinf
  | pinf, fin r => infSign r
  | fin r, pinf => infSign r
  | ninf, fin r => neg (infSign r)
  | fin r, ninf => neg (infSign r)
  | fin a, fin b => fin (a * b)

/-- `x / y` -/
noncomputable def div : Fl → Fl → Fl
  | nan, _ => nan
  | _, nan => nan
  | pinf, pinf => nan
  | pinf, ninf => nan
  | ninf, pinf => nan
  | ninf, ninf => nan
  | pinf, fin r => if r < 0 then ninf else pinf
  | ninf, fin r => if r < 0 then pinf else ninf
  | fin _, pinf => fin 0
  | fin _, ninf => fin 0
  | fin a, fin b => if b = 0 then infSign a else fin (a / b)

/-- `np.sqrt` -/
noncomputable def sqrt : Fl → Fl
  | nan => nan
  | pinf => pinf
  | ninf => nan
  | fin r => if r < 0 then nan else fin (Real.sqrt r)

/-- `np.abs` -/
noncomputable def abs : Fl → Fl
  | nan => nan
  | pinf => pinf
  | ninf => pinf
  | fin r => fin |r|

/-- `x < y`, false when one of them is nan -/
def lt : Fl → Fl → Prop
  | nan, _ => False
  | _, nan => False
  | pinf, _ => False
  | _, ninf => False
  | ninf, _ => True
  | _, pinf => True
  | fin a, fin b => a < b

/-- `x ** q` for a finite exponent `q` (numpy power rules, one zero). -/
noncomputable def pow : Fl → ℝ → Fl := open Classical in fun x q =>
  if q = 0 then fin 1
  else match x with
  | nan => nan
  | pinf => if 0 < q then pinf else fin 0
  | ninf => if 0 < q then (if ∃ k : ℤ, q = 2 * k + 1 then ninf else pinf) else fin 0
  | fin r =>
    if r = 0 then (if 0 < q then fin 0 else pinf)
    else if r < 0 ∧ ¬ ∃ k : ℤ, q = k then nan
    else fin (r ^ q)

/-- The largest finite double, `(2 - 2^(-52)) * 2^1023`. -/
noncomputable def maxFloat : ℝ := (2 - (2 : ℝ) ^ (-52 : ℤ)) * 2 ^ (1023 : ℕ)

/-- `np.nan_to_num`: nan to 0, infinities to the largest finite double. -/
noncomputable def nanToNum : Fl → ℝ
  | nan => 0
  | pinf => maxFloat
  | ninf => -maxFloat
  | fin r => r

end Fl

end Verif
