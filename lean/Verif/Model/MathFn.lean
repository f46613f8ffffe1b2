import Verif.Model.Numpy
import Verif.Model.Fl
import Mathlib.LinearAlgebra.Matrix.NonsingularInverse
import Mathlib.Data.Fintype.BigOperators

/-!
# Model of `pyoof/math_functions.py` (except `line_equation`, see Telgeometry, and `cart2pol`, see
Aperture) and of `e_rs`, `pyoof/aperture/aperture.py`:18-69
-/

namespace Verif.MathFn

open Verif Verif.Np Finset

/-! ## norm -/

/-- `np.minimum`: nan if one of the arguments is nan. -/
noncomputable def min2 (a b : Fl) : Fl := open Classical in
  if a = .nan ∨ b = .nan then .nan else if Fl.lt b a then b else a

/-- `np.maximum` -/
noncomputable def max2 (a b : Fl) : Fl := open Classical in
  if a = .nan ∨ b = .nan then .nan else if Fl.lt a b then b else a

/-- `.min()` of the elements: `ValueError` when there are none. -/
noncomputable def arrMin : List Fl → Py Fl
  | [] => .error .valueError
  | a :: l => .ok (l.foldl min2 a)

/-- `.max()` of the elements. -/
noncomputable def arrMax : List Fl → Py Fl
  | [] => .error .valueError
  | a :: l => .ok (l.foldl max2 a)

/-- `np.nan_to_num((P - P.min()) / (P.max() - P.min()))` for an array with index set `ι` (any
shape), `norm(P)` with `axis=None`, math_functions.py:30-31, 38. -/
noncomputable def norm {ι : Type} [Fintype ι] (P : ι → Fl) : Py (ι → ℝ) := do
  let mn ← arrMin (univ.toList.map P)
  let mx ← arrMax (univ.toList.map P)
  return fun q => Fl.nanToNum (Fl.div (Fl.sub (P q) mn) (Fl.sub mx mn))

/-- `norm(P, axis=0)` of a two dimensional array, math_functions.py:32-33: per column, the minima
of the columns broadcast over the rows. -/
noncomputable def normAxis0 {m n : ℕ} (P : Fin m × Fin n → Fl) : Py (Fin m × Fin n → ℝ) := do
  let mn ← seqArr fun j : Fin n => arrMin (List.ofFn fun i : Fin m => P (i, j))
  let mx ← seqArr fun j : Fin n => arrMax (List.ofFn fun i : Fin m => P (i, j))
  return fun q => Fl.nanToNum (Fl.div (Fl.sub (P q) (mn q.2)) (Fl.sub (mx q.2) (mn q.2)))

/-- `norm(P, axis=1)` of a two dimensional array, math_functions.py:34-36: per row, the minima of
the rows reshaped to a column. -/
noncomputable def normAxis1 {m n : ℕ} (P : Fin m × Fin n → Fl) : Py (Fin m × Fin n → ℝ) := do
  let mn ← seqArr fun i : Fin m => arrMin (List.ofFn fun j : Fin n => P (i, j))
  let mx ← seqArr fun i : Fin m => arrMax (List.ofFn fun j : Fin n => P (i, j))
  return fun q => Fl.nanToNum (Fl.div (Fl.sub (P q) (mn q.1)) (Fl.sub (mx q.1) (mn q.1)))

/-! ## co_matrices -/

/-- `np.linalg.inv`: `LinAlgError` for a singular matrix. -/
noncomputable def inv {n : ℕ} (A : Matrix (Fin n) (Fin n) ℝ) : Py (Matrix (Fin n) (Fin n) ℝ) :=
  open Classical in if A.det = 0 then .error .linAlgError else .ok A⁻¹

/-- `co_matrices(res, jac, n_pars)`, math_functions.py:66-100.  `none` stands for the matrices
with infinities or nan that come out when there are no positive degrees of freedom
(`m <= n_pars`); they are not modelled further, nor is the `LinAlgError` of a zero residual with
`m < n_pars`. -/
noncomputable def coMatrices {m n : ℕ} (res : Fin m → ℝ) (jac : Matrix (Fin m) (Fin n) ℝ)
    (nPars : ℕ) : Py (Option (Matrix (Fin n) (Fin n) ℝ × Matrix (Fin n) (Fin n) ℝ)) := do
  let p : ℤ := (m : ℤ) - nPars
  let iJ ← inv (jac.transpose * jac)
  if p ≤ 0 then return none
  else
    let cov := ((res ⬝ᵥ res) / (p : ℝ)) • iJ
    let sigmas2 := Matrix.diagonal (fun i => cov i i)
    let D ← inv (sigmas2.map Real.sqrt)
    let corr := D * cov * D
    return some (cov, corr)

/-! ## rms and e_rs -/

/-- A one or two dimensional array of finite numbers or nan (`none`); infinities are not
modelled. -/
inductive Arr
  | d1 (n : ℕ) (f : Fin n → Option ℝ)
  | d2 (m n : ℕ) (f : Fin m × Fin n → Option ℝ)

/-- Square, nan stays nan; `np.nansum(np.square(phase))`. -/
noncomputable def nansumSq {ι : Type} [Fintype ι] (f : ι → Option ℝ) : ℝ :=
  ∑ q, ((f q).getD 0) ^ 2

/-- `np.sqrt(s / size)` for a sum of squares `s`; `0 / 0` is nan. -/
noncomputable def sqrtMean (s : ℝ) (size : ℕ) : Option ℝ :=
  if size = 0 then none else some (Real.sqrt (s / size))

/-- The number of entries that are not nan. -/
def numReal {ι : Type} [Fintype ι] (f : ι → Option ℝ) : ℕ := (univ.filter fun q => (f q).isSome).card

/-- The mask of rms, math_functions.py:147-151: `xx ** 2 + yy ** 2 > 1 ** 2` with
`x = linspace(-1, 1, shape[0])`, `y = linspace(-1, 1, shape[1])`; the mask has shape
`(shape[1], shape[0])`. -/
noncomputable def circMask (m n : ℕ) : Fin n × Fin m → Prop :=
  let x := linspace (-1) 1 m
  let y := linspace (-1) 1 n
  fun q => meshX x y q ^ 2 + meshY x y q ^ 2 > 1 ^ 2

/-- `phase[mask] = nan` for a mask of the shape of the array (`m = n`), otherwise
`IndexError`, math_functions.py:151. -/
noncomputable def maskNan {m n : ℕ} (mask : Fin n × Fin m → Prop) (f : Fin m × Fin n → Option ℝ) :
    Py (Fin m × Fin n → Option ℝ) := open Classical in
  if h : m = n then
    .ok fun q => if mask (q.1.cast h, q.2.cast h.symm) then none else f q
  else .error .indexError

/-- `rms(phase, circ)`, math_functions.py:132-157: the result, and the content of the caller's
array afterwards.  The result `none` is nan. -/
noncomputable def rms (a : Arr) (circ : Bool) : Py (Option ℝ) × Arr :=
  match circ, a with
  | true, .d1 n f => (.error .indexError, .d1 n f)          -- phase.shape[1]
  | true, .d2 m n f =>
    match maskNan (circMask m n) f with
    | .error e => (.error e, .d2 m n f)
    | .ok g =>
      -- phase_real = phase[~isnan(phase)] has no nan left
      (.ok (sqrtMean (nansumSq g) (numReal g)), .d2 m n g)
  | false, .d1 n f => (.ok (sqrtMean (nansumSq f) n), .d1 n f)
  | false, .d2 m n f => (.ok (sqrtMean (nansumSq f) (m * n)), .d2 m n f)

/-- `e_rs(phase, circ)`, aperture.py:66-69: `exp(-rms ** 2)`, and the caller's array afterwards. -/
noncomputable def eRs (a : Arr) (circ : Bool) : Py (Option ℝ) × Arr :=
  let r := rms a circ
  (r.1.map fun o => o.map fun v => Real.exp (-v ^ 2), r.2)

/-! ## snr -/

/-- `np.nanstd` of a list without nan entries: nan for an empty list. -/
noncomputable def std (l : List ℝ) : Fl :=
  if l.length = 0 then .nan
  else
    let mean := l.sum / l.length
    .fin (Real.sqrt ((l.map fun v => (v - mean) ^ 2).sum / l.length))

/-- `np.nanmax`: nan when all is nan (numpy only warns); an empty array raises `ValueError`. -/
noncomputable def nanmax {ι : Type} [Fintype ι] (f : ι → Option ℝ) : Py Fl :=
  if Fintype.card ι = 0 then .error .valueError
  else match (univ.toList.filterMap f) with
    | [] => .ok .nan
    | a :: l => .ok (.fin (l.foldl max a))

/-- The two dimensional branch of `snr`, math_functions.py:208-214; angles in one unit. -/
noncomputable def snr {m n : ℕ} (beam : Fin m × Fin n → Option ℝ) (u : Fin n → ℝ) (v : Fin m → ℝ)
    (centre radius : ℝ) : Py Fl := open Classical in do
  let uu := meshX u v
  let vv := meshY u v
  let sel := (univ.toList.filter fun q =>
    (uu q - centre) ^ 2 + (vv q - centre) ^ 2 < radius ^ 2).filterMap beam
  let s := std sel
  let mx ← nanmax beam
  return Fl.div mx s

/-- `.min()` of a one dimensional array of finite numbers: `ValueError` when empty. -/
noncomputable def minR {M : ℕ} (u : Fin M → ℝ) : Py ℝ :=
  match List.ofFn u with
  | [] => .error .valueError
  | a :: l => .ok (l.foldl min a)

/-- `.max()` -/
noncomputable def maxR {M : ℕ} (u : Fin M → ℝ) : Py ℝ :=
  match List.ofFn u with
  | [] => .error .valueError
  | a :: l => .ok (l.foldl max a)

/-- The one dimensional branch of `snr`, math_functions.py:189-207.  `griddata` stands for
`scipy.interpolate.griddata` of the given points, values and grid (nan outside the hull). -/
noncomputable def snr1 {M : ℕ}
    (griddata : (Fin M → ℝ) → (Fin M → ℝ) → (Fin M → ℝ) → (Fin 300 → ℝ) → (Fin 300 → ℝ) →
      Fin 300 × Fin 300 → Option ℝ)
    (beam : Fin M → ℝ) (u v : Fin M → ℝ) (centre radius : ℝ) : Py Fl := do
  let ung := linspace (← minR u) (← maxR u) 300
  let vng := linspace (← minR v) (← maxR v) 300
  snr (griddata u v beam ung vng) ung vng centre radius

end Verif.MathFn
