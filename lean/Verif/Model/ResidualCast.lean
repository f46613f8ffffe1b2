import Verif.Model.Residual

/-!
# `residual_true` for maps of another data type, `pyoof/core.py`:94-132

`beam_model = np.zeros_like(beam_data)`, core.py:95, has the data type of the observed maps; the
assignment of a row converts the model power to it.
-/

namespace Verif.Core

open Verif Verif.Np Verif.Aperture Verif.MathFn

/-- The conversion of a float to an integer type: the fraction is cut off.  Values beyond the range
of the type are not modelled. -/
noncomputable def truncInt (x : ℝ) : ℝ := if 0 ≤ x then (⌊x⌋ : ℝ) else (⌈x⌉ : ℝ)

/-- `residual_true(...)` with `interp=True` and flat maps, core.py:94-132; `conv` is the conversion to
the data type of `beam_data`. -/
noncomputable def residualTrueOf {N M : ℕ} (conv : ℝ → ℝ) (params : List ℝ) (beam : Fin 3 × Fin M → Fl)
    (u v : Fin 3 × Fin M → ℝ) (dz : Fin 3 → ℝ) (wavel : ℝ) (illum : Illum (Fin N × Fin N))
    (tel : TelGeo (Fin N × Fin N)) (boxFactor : ℝ) : Py (List ℝ) := do
  let b0 ← modelRow params u v dz wavel illum tel boxFactor 0
  let b1 ← modelRow params u v dz wavel illum tel boxFactor 1
  let b2 ← modelRow params u v dz wavel illum tel boxFactor 2
  let model : Fin 3 × Fin M → ℝ := fun q => conv ((![b0, b1, b2] q.1) q.2)
  let nd ← normAxis1 beam
  let nm ← normAxis1 (fun q => Fl.fin (model q))
  return flatten3 fun q => nd q - nm q

end Verif.Core
