import Verif.Model.Aperture
import Verif.Model.Fl

/-!
# Model of the illumination functions, `pyoof/aperture/aperture.py`:72-200
-/

namespace Verif.Aperture

open Verif

/-- A coefficient that may be a bare number or an astropy Quantity.  `quant v s` is the Quantity
with value `v` in a unit that is `s` times the reference unit (metre for lengths, dB for the
taper). -/
inductive QNum
  | bare (r : ℝ)
  | quant (v scale : ℝ)

/-- `type(c_dB) == Quantity` branch, aperture.py:118-121 and :180-183:
`10 ** (c_dB / 20. / apu.dB)` or `10 ** (c_dB / 20.)`. -/
noncomputable def taper : QNum → ℝ
  | .quant v s => (10 : ℝ) ^ (v * s / 20)
  | .bare r => (10 : ℝ) ^ (r / 20)

/-- `x0 *= apu.m` when it is not a Quantity, aperture.py:122-125 and :184-187; length in metres. -/
noncomputable def offset : QNum → ℝ
  | .quant v s => v * s
  | .bare r => r

/-- The element of `illum_parabolic` at a point, aperture.py:117-137, for unpacked
coefficients.  Lengths in metres. -/
noncomputable def parabolicAt (iAmp : ℝ) (cdB : QNum) (q : ℝ) (x0 y0 : QNum) (pr x y : ℝ) : ℝ :=
  let c := taper cdB
  let r := Real.sqrt ((x - offset x0) ^ 2 + (y - offset y0) ^ 2)
  let rp := Fl.div (.fin r) (.fin pr)
  let base := Fl.sub (.fin 1) (Fl.pow rp 2)
  let v := Fl.mul (.fin iAmp) (Fl.add (.fin c) (Fl.mul (.fin (1 - c)) (Fl.pow base q)))
  Fl.nanToNum v

/-- `illum_parabolic(x, y, I_coeff, pr)`, aperture.py:72-139; unpacking a list that has not five
entries raises `ValueError`.  `i_amp` and `q` are bare numbers. -/
noncomputable def illumParabolicQ {ι : Type} (x y : ι → ℝ) (I : List QNum) (pr : ℝ) : Py (ι → ℝ) :=
  match I with
  | [i, c, q, x0, y0] => .ok fun p => parabolicAt (offset i) c (offset q) x0 y0 pr (x p) (y p)
  | _ => .error .valueError

/-- The element of `illum_gauss` at a point, aperture.py:179-192. -/
noncomputable def gaussAt (iAmp : ℝ) (cdB : QNum) (x0 y0 : QNum) (pr x y : ℝ) : ℝ :=
  let sigma := taper cdB
  iAmp * Real.sqrt (2 * Real.pi * sigma ^ 2) *
    Real.exp (-((x - offset x0) ^ 2 + (y - offset y0) ^ 2) / (2 * (sigma * pr) ^ 2))

/-- `illum_gauss(x, y, I_coeff, pr)`, aperture.py:142-200: `i_amp, c_dB = I_coeff[:2]` and
`x0, y0 = I_coeff[-2:]` raise `ValueError` when fewer than two entries are there. -/
noncomputable def illumGaussQ {ι : Type} (x y : ι → ℝ) (I : List QNum) (pr : ℝ) : Py (ι → ℝ) :=
  match I.take 2, I.drop (I.length - 2) with
  | [i, c], [x0, y0] => .ok fun p => gaussAt (offset i) c x0 y0 pr (x p) (y p)
  | _, _ => .error .valueError

/-- The illumination functions as called by the fit: bare numbers only. -/
noncomputable def illumParabolic {ι : Type} : Illum ι := fun x y I pr =>
  illumParabolicQ x y (I.map .bare) pr

noncomputable def illumGauss {ι : Type} : Illum ι := fun x y I pr =>
  illumGaussQ x y (I.map .bare) pr

end Verif.Aperture
