import Verif.Model.DoubleField
import Verif.Model.Residual

/-!
# The residual in the arithmetic of doubles

`residual_true` (`pyoof/core.py`:94-132) with `interp=True` and flat maps, with the rounding `rnd` after every operation.
Comparisons and look-ups are exact.  The interpolator is that of `Verif.Core.interpolator`.
-/

namespace Verif.Dbl

open Verif Verif.Np Verif.Aperture Verif.MathFn Finset

/-- `x <= y`, false when one of them is nan -/
def le (x y : Fl) : Prop := Fl.lt x y ∨ (x = y ∧ x ≠ .nan)

/-- `g[i]` -/
def gridAt {n : ℕ} (g : Fin n → Fl) (i : ℕ) : Fl := if h : i < n then g ⟨i, h⟩ else .nan

/-- `np.searchsorted(g, x)` of an ascending grid. -/
noncomputable def searchsorted {n : ℕ} (g : Fin n → Fl) (x : Fl) : ℕ :=
  open Classical in (univ.filter fun k => Fl.lt (g k) x).card

/-- The cell index of `_find_indices`. -/
noncomputable def cellIdx {n : ℕ} (g : Fin n → Fl) (x : Fl) : ℕ := min (searchsorted g x - 1) (n - 2)

/-- `(x - grid[i]) / (grid[i + 1] - grid[i])` -/
noncomputable def cellDist (rnd : ℝ → Fl) {n : ℕ} (g : Fin n → Fl) (x : Fl) : Fl :=
  div rnd (sub rnd x (gridAt g (cellIdx g x))) (sub rnd (gridAt g (cellIdx g x + 1)) (gridAt g (cellIdx g x)))

/-- `values[i][j]` -/
def valAt {n : ℕ} (V : Fin n × Fin n → Fl) (i j : ℕ) : Fl :=
  if h : i < n ∧ j < n then V (⟨i, h.1⟩, ⟨j, h.2⟩) else .nan

/-- One corner of `_evaluate_linear`: the weights start at 1 and are multiplied one after the other. -/
noncomputable def corner (rnd : ℝ → Fl) (V w0 w1 : Fl) : Fl := mul rnd V (mul rnd (mul rnd (.fin 1) w0) w1)

/-- `_evaluate_linear`: the sum over the four corners, from 0 on. -/
noncomputable def evalLinear (rnd : ℝ → Fl) {n : ℕ} (g0 g1 : Fin n → Fl) (V : Fin n × Fin n → Fl) (x y : Fl) : Fl :=
  let i := cellIdx g0 x
  let j := cellIdx g1 y
  let s := cellDist rnd g0 x
  let t := cellDist rnd g1 y
  let s' := sub rnd (.fin 1) s
  let t' := sub rnd (.fin 1) t
  add rnd (add rnd (add rnd (add rnd (.fin 0) (corner rnd (valAt V i j) s' t')) (corner rnd (valAt V i (j + 1)) s' t))
    (corner rnd (valAt V (i + 1) j) s t')) (corner rnd (valAt V (i + 1) (j + 1)) s t)

/-- `np.all(np.diff(g) > 0)` -/
def ascending (rnd : ℝ → Fl) {n : ℕ} (g : Fin n → Fl) : Prop :=
  ∀ i, i + 1 < n → Fl.lt (.fin 0) (sub rnd (gridAt g (i + 1)) (gridAt g i))

/-- `g[0] <= x` and `x <= g[-1]` -/
def inGrid {n : ℕ} (g : Fin n → Fl) (x : Fl) : Prop := le (gridAt g 0) x ∧ le x (gridAt g (n - 1))

/-- `RegularGridInterpolator((g0, g1), values)(xi)`, core.py:113-125. -/
noncomputable def interpolator (rnd : ℝ → Fl) {n M : ℕ} (g0 g1 : Fin n → Fl) (V : Fin n × Fin n → Fl)
    (xi : Fin M → Fl × Fl) : Py (Fin M → Fl) := open Classical in
  if ¬ (ascending rnd g0 ∧ ascending rnd g1) then .error .valueError
  else if ∃ k, ¬ (inGrid g0 (xi k).1 ∧ inGrid g1 (xi k).2) then .error .valueError
  else .ok fun k => evalLinear rnd g0 g1 V (xi k).1 (xi k).2

/-- One round of the loop, core.py:96-126. -/
noncomputable def modelRow (rnd : ℝ → Fl) (L : LibmC) {N M : ℕ} (fft : (Fin N × Fin N → Cx) → Fin N × Fin N → Cx)
    (params : List Fl) (u v : Fin 3 × Fin M → Fl) (dz : Fin 3 → Fl) (wavel : Fl) (illum : Illum (Fin N × Fin N))
    (tel : TelGeo (Fin N × Fin N)) (boxFactor : Fl) (i : Fin 3) : Py (Fin M → Fl) := do
  let I := params.take 5
  let K := params.drop 5
  let P ← radiationPattern rnd L fft I K (dz i) wavel illum tel boxFactor
  let power : Fin N × Fin N → Fl := fun q => Dbl.power rnd L (P.F q)
  interpolator rnd P.u P.v (fun q => power (q.2, q.1)) (fun k => (u (i, k), v (i, k)))

/-- Row-major `flatten()` of a `(3, M)` array. -/
def flatten3 {M : ℕ} (f : Fin 3 × Fin M → Fl) : List Fl :=
  (List.finRange 3).flatMap fun i => (List.finRange M).map fun k => f (i, k)

/-- `residual_true(...)`, core.py:94-132, for maps of doubles. -/
noncomputable def residualTrue (rnd : ℝ → Fl) (L : LibmC) {N M : ℕ} (fft : (Fin N × Fin N → Cx) → Fin N × Fin N → Cx)
    (params : List Fl) (beam : Fin 3 × Fin M → Fl) (u v : Fin 3 × Fin M → Fl) (dz : Fin 3 → Fl) (wavel : Fl)
    (illum : Illum (Fin N × Fin N)) (tel : TelGeo (Fin N × Fin N)) (boxFactor : Fl) : Py (List Fl) := do
  let b0 ← modelRow rnd L fft params u v dz wavel illum tel boxFactor 0
  let b1 ← modelRow rnd L fft params u v dz wavel illum tel boxFactor 1
  let b2 ← modelRow rnd L fft params u v dz wavel illum tel boxFactor 2
  let model : Fin 3 × Fin M → Fl := fun q => (![b0, b1, b2] q.1) q.2
  let r ← difference rnd beam model
  return flatten3 r

end Verif.Dbl
