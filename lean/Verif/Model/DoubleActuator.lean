import Verif.Model.Actuator
import Verif.Model.DoubleEffelsberg

/-!
# `EffelsbergActuator` in the arithmetic of doubles

`transform`, `itransform` and `grav_deformation` with the rounding of every operation.  The displacements are in
micrometres, as `read_lookup` and `itransform` return them; the wavelength is in millimetres.  `write_lookup` of a
table with one column per actuator has no arithmetic, its model in `Verif.Model.Actuator` is exact for doubles as well.
-/

namespace Verif.Dbl

open Verif Verif.Np Verif.Actuator

/-- The attributes, actuator.py:57-77, and the factors with which astropy converts: `toMm` is the one of
`(constants.c / frequency).to(apu.mm)`, `toRad` that of `.to(apu.rad)` in `transform`, `toUm` that of `.to(apu.um)` in
`itransform`; the limits are in micrometres. -/
structure Act where
  frequency : ℝ
  nrot : ℤ
  sign : ℤ
  nReflections : ℤ
  minAmp : ℝ
  maxAmp : ℝ
  toMm : ℝ
  toRad : ℝ
  toUm : ℝ

namespace Act

variable (rnd : ℝ → Fl) (d : Act)

/-- `(constants.c / frequency).to(apu.mm)`, actuator.py:64. -/
noncomputable def wavel : Fl := mul rnd (div rnd (.fin 299792458) (.fin d.frequency)) (.fin d.toMm)

/-- `tfactor`, actuator.py:75-77, in radians per millimetre.  The product of the integers is one of Python. -/
noncomputable def tfactor : Fl :=
  div rnd (mul rnd (ofInt rnd (d.sign * 2 * d.nReflections)) (rnd Real.pi)) (wavel rnd d)

/-- One entry of `transform`, actuator.py:230-236. -/
noncomputable def toPhase (x : Fl) : Fl := mul rnd (mul rnd (tfactor rnd d) x) (.fin d.toRad)

/-- `transform(actuator_sr)`, actuator.py:225-238. -/
noncomputable def transform : Arr → Py Arr
  | .d1 _ _ => .error .valueError
  | .d2 A => .ok (.d2 ((A.rot90 d.nrot).map (toPhase rnd d)))
  | .d3 n A => .ok (.d3 n ((A.rot90 d.nrot).map fun x i => toPhase rnd d (x i)))

/-- One entry of the array that `itransform` turns, actuator.py:266. -/
noncomputable def toShift (p : Fl) : Fl := mul rnd (div rnd p (tfactor rnd d)) (.fin d.toUm)

/-- The two masked assignments, actuator.py:272-274. -/
noncomputable def clip (x : Fl) : Fl := open Classical in
  let y := if Fl.lt (.fin d.maxAmp) x then .fin d.maxAmp else x
  if Fl.lt y (.fin d.minAmp) then .fin d.minAmp else y

/-- `itransform(phase_pr)`, actuator.py:260-276. -/
noncomputable def itransform : Arr → Py Arr
  | .d1 _ _ => .error .valueError
  | .d2 A => .ok (.d2 (((A.map (toShift rnd d)).rot90 (-d.nrot)).map (clip d)))
  | .d3 n A => .ok (.d3 n (((A.map fun x i => toShift rnd d (x i)).rot90 (-d.nrot)).map fun x i => clip d (x i)))

end Act

/-- `grav_deformation(g_coeff, alpha)`, actuator.py:195-203, with `alpha` in degrees. -/
noncomputable def gravDeformation (rnd : ℝ → Fl) (L : Libm) (g : List Fl) (alpha : Fl) : Py Fl := do
  let x := radians rnd alpha
  let g0 ← pyIdx g 0
  let g1 ← pyIdx g 1
  let g2 ← pyIdx g 2
  return add rnd (add rnd (mul rnd g0 (L.sin x)) (mul rnd g1 (L.cos x))) g2

end Verif.Dbl
