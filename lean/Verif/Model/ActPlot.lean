import Verif.Model.Actuator
import Verif.Model.Plot

/-!
# Model of `EffelsbergActuator.plot`, `pyoof/actuator/actuator.py`:608-709

What is handed to matplotlib, as in `Verif.Model.Plot`.  Not modelled: `sign = 0`, for which the levels
are not finite.
-/

namespace Verif.Actuator

open Verif Verif.Np Verif.MathFn Verif.Plot

namespace Act

variable (a : Act)

/-- One panel, actuator.py:681-704: the image, the axes and levels of the contours and the elevation in
the legend, degrees. -/
structure Panel (N : ℕ) where
  img : Img N N Fl
  cx : Fin N → ℝ
  cy : Fin N → ℝ
  levels : List ℝ
  alpha : ℕ

/-- `levels`, actuator.py:634 and :645-646, in radians for a phase and in micrometres for a
displacement. -/
noncomputable def levels (isPhase : Bool) : List ℝ :=
  let l := List.ofFn (linspace (-2) 2 9)
  if isPhase then l
  else (l.map fun x => x * (a.wavel / (a.sign * 4 * Real.pi))).insertionSort (· ≤ ·)

/-- `plot(data_r)` with `data_r` an array of shape `(d, A.m, A.n)`, actuator.py:634-709; `isPhase` tells
whether its unit is an angle.  `contour` raises `TypeError` when the map is not as large as the axes
or smaller than two by two. -/
noncomputable def plot (org : Origin) (isPhase : Bool) (d : ℕ) (A : Mat (Fin d → Fl)) :
    Py (List (Panel a.resolution)) := do
  let radius := if isPhase then a.pr else a.sr
  let x := linspace (-radius) radius a.resolution
  let all := (Finset.univ : Finset ((Fin A.m × Fin A.n) × Fin d)).toList.map fun q => A.f q.1 q.2
  let vmin ← arrMin all
  let vmax ← arrMax all
  ((List.range alphaLookup.length).zip alphaLookup).mapM fun p =>
    if hj : p.1 < d then
      if h : A.m = a.resolution ∧ A.n = a.resolution ∧ 2 ≤ a.resolution then
        .ok ⟨⟨fun q => A.f (q.1.cast h.1.symm, q.2.cast h.2.1.symm) ⟨p.1, hj⟩,
          -radius, radius, -radius, radius, org, vmin, vmax⟩, x, x, a.levels isPhase, p.2⟩
      else .error .typeError
    else .error .indexError

/-- `plot()` with the table of the object, actuator.py:631-632. -/
noncomputable def plotDefault (org : Origin) (s : Str) : Py (List (Panel a.resolution)) := do
  match ← a.phaseLookup s with
  | .d3 d A => a.plot org true d A
  | _ => .error .indexError

end Act

end Verif.Actuator
