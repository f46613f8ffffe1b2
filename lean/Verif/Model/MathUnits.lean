import Verif.Model.AuxFn
import Verif.Model.Units

/-!
# `rms`, `e_rs`, `snr` and `uv_ratio` on Quantities with any unit

`pyoof/math_functions.py`:132-214, `pyoof/aperture/aperture.py`:18-69 and `pyoof/aux_functions.py`:289-318.
-/

namespace Verif.Units

open Verif Verif.Np Verif.MathFn

/-- `rms(phase, circ)`, math_functions.py:132-157, for a plain array (`none`) or a Quantity: the result with its unit, and
the numbers in the caller's array afterwards.  Squares have the squared unit, `np.sqrt` takes its root; `np.nan` is accepted
as a value of every unit. -/
noncomputable def rmsU (a : Arr) (w : Option AUnit) (circ : Bool) : Py (Option ℝ × Option AUnit) × Arr :=
  let r := rms a circ
  (r.1.map fun o => (o, w.map fun u => (u.zpow 2).sqrt), r.2)

/-- `e_rs(phase, circ)`, aperture.py:66-69: `np.exp(-rms ** 2)` with `dimensionless_angles` enabled, where powers of the
radian are plain numbers; `TypeError` for any other dimension. -/
noncomputable def eRsU (a : Arr) (w : Option AUnit) (circ : Bool) : Py (Option ℝ) × Arr := open Classical in
  let r := rmsU a w circ
  (r.1.bind fun o => match o.2 with
    | none => .ok (o.1.map fun v => Real.exp (-v ^ 2))
    | some u =>
      if ∀ b, b ≠ Base.angle → (u.zpow 2).dim b = 0 then
        .ok (o.1.map fun v => Real.exp (-v ^ 2 * (u.zpow 2).scale))
      else .error .typeError, r.2)

/-- The two dimensional branch of `snr`, math_functions.py:208-214. -/
noncomputable def snrU {m n : ℕ} (beam : Fin m × Fin n → Option ℝ) (u : Val (Fin n)) (v : Val (Fin m))
    (centre radius : Sc) : Py Fl := open Classical in do
  let uu : Val (Fin m × Fin n) := u.comap fun q => q.2
  let vv : Val (Fin m × Fin n) := v.comap fun q => q.1
  let a ← uu.sub centre.bc
  let b ← vv.sub centre.bc
  let s ← (a.zpow 2).add (b.zpow 2)
  let mask ← s.lt (Val.bc (radius.zpow 2))
  let sel := (Finset.univ.toList.filter fun q => mask q).filterMap beam
  let mx ← nanmax beam
  return Fl.div mx (std sel)

/-- `.max()`, the unit stays. -/
noncomputable def maxU {M : ℕ} : Val (Fin M) → Py Sc
  | .num f => (maxR f).map fun r => .num fun _ => r
  | .qty f u => (maxR f).map fun r => .qty (fun _ => r) u

/-- `.min()` -/
noncomputable def minU {M : ℕ} : Val (Fin M) → Py Sc
  | .num f => (minR f).map fun r => .num fun _ => r
  | .qty f u => (minR f).map fun r => .qty (fun _ => r) u

/-- The numbers of an array, whatever the unit: what scipy sees. -/
def bare {ι : Type} : Val ι → ι → ℝ
  | .num f => f
  | .qty f _ => f

/-- The one dimensional branch of `snr`, math_functions.py:189-207.  `griddata` stands for `scipy.interpolate.griddata` of the
given points, values and grid; it drops the units. -/
noncomputable def snr1U {M : ℕ}
    (griddata : (Fin M → ℝ) → (Fin M → ℝ) → (Fin M → ℝ) → (Fin 300 → ℝ) → (Fin 300 → ℝ) →
      Fin 300 × Fin 300 → Option ℝ)
    (beam : Fin M → ℝ) (u v : Val (Fin M)) (centre radius : Sc) : Py Fl := do
  let u0 ← minU u
  let u1 ← maxU u
  let ung ← linspaceU u0 u1 300
  let v0 ← minU v
  let v1 ← maxU v
  let vng ← linspaceU v0 v1 300
  snrU (griddata (bare u) (bare v) beam (bare ung) (bare vng)) ung vng centre radius

/-- `uv_ratio(u, v)`, aux_functions.py:308-318: the ratio of two extents; if it is a Quantity, `decompose().value` multiplies
by the scale of its unit and drops what is left of the unit. -/
noncomputable def uvRatioU {m n : ℕ} (u : Val (Fin m)) (v : Val (Fin n)) : Py (Fl × ℝ) := do
  let u1 ← maxU u
  let u0 ← minU u
  let du ← u1.sub u0
  let v1 ← maxU v
  let v0 ← minU v
  let dv ← v1.sub v0
  let q := Fl.div (.fin du.raw) (.fin dv.raw)
  let ratio := match du.div dv with
    | .num _ => q
    | .qty _ w => Fl.mul q (.fin w.scale)
  let height := 5
  return (Fl.mul (Fl.mul ratio (.fin 2.25)) (.fin height), height)

end Verif.Units
