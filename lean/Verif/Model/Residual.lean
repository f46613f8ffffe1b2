import Verif.Model.Aperture
import Verif.Model.MathFn
import Verif.Model.Params

/-!
# Model of `residual_true` and `residual`, `pyoof/core.py`:25-240

Angles are real numbers in radians.  `beam_data` has entries in `Fl` (nan and infinities allowed);
the coordinates `u_data`, `v_data` are finite.
-/

namespace Verif.Core

open Verif Verif.Np Verif.Aperture Verif.MathFn Finset

/-! ## `scipy.interpolate.RegularGridInterpolator`, two dimensions, `method='linear'` -/

/-- `g[i]` -/
noncomputable def gridAt {n : ℕ} (g : Fin n → ℝ) (i : ℕ) : ℝ := if h : i < n then g ⟨i, h⟩ else 0

/-- `np.searchsorted(g, x)` (side left) of an ascending grid: the number of entries below `x`. -/
noncomputable def searchsorted {n : ℕ} (g : Fin n → ℝ) (x : ℝ) : ℕ :=
  open Classical in (univ.filter fun k => g k < x).card

/-- The cell index of `_find_indices`: `searchsorted - 1`, clipped to `0 .. n - 2`. -/
noncomputable def cellIdx {n : ℕ} (g : Fin n → ℝ) (x : ℝ) : ℕ := min (searchsorted g x - 1) (n - 2)

/-- The normalised distance in the cell. -/
noncomputable def cellDist {n : ℕ} (g : Fin n → ℝ) (x : ℝ) : ℝ :=
  (x - gridAt g (cellIdx g x)) / (gridAt g (cellIdx g x + 1) - gridAt g (cellIdx g x))

/-- `values[i][j]` -/
noncomputable def valAt {n : ℕ} (V : Fin n × Fin n → ℝ) (i j : ℕ) : ℝ :=
  if h : i < n ∧ j < n then V (⟨i, h.1⟩, ⟨j, h.2⟩) else 0

/-- `_evaluate_linear`: the sum over the four corners of weight times value. -/
noncomputable def evalLinear {n : ℕ} (g0 g1 : Fin n → ℝ) (V : Fin n × Fin n → ℝ) (x y : ℝ) : ℝ :=
  let i := cellIdx g0 x
  let j := cellIdx g1 y
  let s := cellDist g0 x
  let t := cellDist g1 y
  valAt V i j * ((1 - s) * (1 - t)) + valAt V i (j + 1) * ((1 - s) * t) +
    valAt V (i + 1) j * (s * (1 - t)) + valAt V (i + 1) (j + 1) * (s * t)

/-- `x` lies within the grid `g`. -/
def inGrid {n : ℕ} (g : Fin n → ℝ) (x : ℝ) : Prop := (∃ k, g k ≤ x) ∧ ∃ k, x ≤ g k

/-- `RegularGridInterpolator((g0, g1), values)(xi)` with the default `bounds_error=True`:
`ValueError` for axes that are not strictly ascending and for a point outside the grid.
(Later scipy versions accept strictly descending axes; these only come with a negative
wavelength.) -/
noncomputable def interpolator {n M : ℕ} (g0 g1 : Fin n → ℝ) (V : Fin n × Fin n → ℝ)
    (xi : Fin M → ℝ × ℝ) : Py (Fin M → ℝ) := open Classical in
  if ¬ (StrictMono g0 ∧ StrictMono g1) then .error .valueError
  else if ∃ k, ¬ (inGrid g0 (xi k).1 ∧ inGrid g1 (xi k).2) then .error .valueError
  else .ok fun k => evalLinear g0 g1 V (xi k).1 (xi k).2

/-! ## `residual_true`, flat maps -/

/-- One round of the loop, core.py:96-126, `interp=True`: row `i` of `beam_model`. -/
noncomputable def modelRow {N M : ℕ} (params : List ℝ) (u v : Fin 3 × Fin M → ℝ) (dz : Fin 3 → ℝ)
    (wavel : ℝ) (illum : Illum (Fin N × Fin N)) (tel : TelGeo (Fin N × Fin N)) (boxFactor : ℝ)
    (i : Fin 3) : Py (Fin M → ℝ) := do
  let I := params.take 5
  let K := params.drop 5
  let P ← radiationPattern I K (dz i) wavel illum tel boxFactor
  let power : Fin N × Fin N → ℝ := fun q => ‖P.F q‖ ^ 2
  interpolator P.u P.v (fun q => power (q.2, q.1)) (fun k => (u (i, k), v (i, k)))

/-- Row-major `flatten()` of a `(3, M)` array. -/
def flatten3 {M : ℕ} (f : Fin 3 × Fin M → ℝ) : List ℝ :=
  (List.finRange 3).flatMap fun i => (List.finRange M).map fun k => f (i, k)

/-- `residual_true(...)` with `interp=True` and flat maps, core.py:94-132.  The conversion to the
data type of `beam_data` (`np.zeros_like`) is the identity for float64 maps. -/
noncomputable def residualTrue {N M : ℕ} (params : List ℝ) (beam : Fin 3 × Fin M → Fl)
    (u v : Fin 3 × Fin M → ℝ) (dz : Fin 3 → ℝ) (wavel : ℝ) (illum : Illum (Fin N × Fin N))
    (tel : TelGeo (Fin N × Fin N)) (boxFactor : ℝ) : Py (List ℝ) := do
  let b0 ← modelRow params u v dz wavel illum tel boxFactor 0
  let b1 ← modelRow params u v dz wavel illum tel boxFactor 1
  let b2 ← modelRow params u v dz wavel illum tel boxFactor 2
  let model : Fin 3 × Fin M → ℝ := fun q => (![b0, b1, b2] q.1) q.2
  let nd ← normAxis1 beam
  let nm ← normAxis1 (fun q => Fl.fin (model q))
  return flatten3 fun q => nd q - nm q

/-- `residual(params, N_K_coeff, ...)`, core.py:224-240. -/
noncomputable def residual {N M : ℕ} (params : List ℝ) (nK : ℕ) (beam : Fin 3 × Fin M → Fl)
    (u v : Fin 3 × Fin M → ℝ) (dz : Fin 3 → ℝ) (wavel : ℝ) (illum : Illum (Fin N × Fin N))
    (tel : TelGeo (Fin N × Fin N)) (boxFactor : ℝ) (cfg : Config) : Py (List ℝ) := do
  let p ← paramsComplete params nK cfg
  residualTrue p beam u v dz wavel illum tel boxFactor

/-! ## Shapes, for `interp=False` -/

/-- Broadcasting of two shapes, both given with the last dimension first. -/
def bcastRev : List ℕ → List ℕ → Option (List ℕ)
  | [], b => some b
  | a, [] => some a
  | x :: a, y :: b =>
    if x = y ∨ x = 1 then (bcastRev a b).map (y :: ·)
    else if y = 1 then (bcastRev a b).map (x :: ·)
    else none

/-- The shape of `A op B`: `ValueError` when the shapes do not broadcast. -/
def bcast (a b : List ℕ) : Py (List ℕ) :=
  match bcastRev a.reverse b.reverse with
  | some s => .ok s.reverse
  | none => .error .valueError

/-- Can an array of the first shape be assigned into one of the second (last dimension first)?
Leading dimensions of length 1 of the source are dropped. -/
def assignRev : List ℕ → List ℕ → Bool
  | [], _ => true
  | x :: a, [] => x == 1 && assignRev a []
  | x :: a, y :: b => (x == y || x == 1) && assignRev a b

/-- `target[...] = source` -/
def assignShape (src tgt : List ℕ) : Py Unit :=
  if assignRev src.reverse tgt.reverse then .ok () else .error .valueError

/-- The shape of `norm(P, axis=1)`, math_functions.py:34-38: `P.min(axis=1)` (an `IndexError`, numpy's
`AxisError`, for one dimension, `ValueError` for a zero-size axis), `reshape(-1, 1)`, broadcast. -/
def normAxis1Shape (s : List ℕ) : Py (List ℕ) :=
  match s with
  | [] => .error .indexError
  | [_] => .error .indexError
  | m :: a :: rest =>
    if a = 0 ∧ (m :: rest).prod ≠ 0 then .error .valueError
    else do
      let d ← bcast s [(m :: rest).prod, 1]
      bcast d [(m :: rest).prod, 1]

/-- `residual_true(...)` with `interp=False`, core.py:94-132: the shape of the result for
`beam_data` of shape `shape` (its first dimension at least 3). -/
noncomputable def residualTrueGrid {N : ℕ} (params : List ℝ) (shape : List ℕ) (dz : Fin 3 → ℝ)
    (wavel : ℝ) (illum : Illum (Fin N × Fin N)) (tel : TelGeo (Fin N × Fin N)) (boxFactor : ℝ) :
    Py (List ℕ) := do
  let _ ← radiationPattern (params.take 5) (params.drop 5) (dz 0) wavel illum tel boxFactor
  assignShape [N, N] shape.tail
  let _ ← radiationPattern (params.take 5) (params.drop 5) (dz 1) wavel illum tel boxFactor
  assignShape [N, N] shape.tail
  let _ ← radiationPattern (params.take 5) (params.drop 5) (dz 2) wavel illum tel boxFactor
  assignShape [N, N] shape.tail
  let a ← normAxis1Shape shape
  let b ← normAxis1Shape shape
  let c ← bcast a b
  return [c.prod]

end Verif.Core
