import Verif.Model.DoubleRms

/-!
# The signal-to-noise ratio in the arithmetic of doubles

The two dimensional branch of `snr`, `pyoof/math_functions.py`:208-216, with the rounding `rnd` after every operation.  The
angles are numbers in one unit.  `np.nanstd` puts 0 for nan before it adds; here these entries are left out of the sums,
which is the same, because the sum of a double and 0 is exact and the order of the additions is a parameter.
-/

namespace Verif.Dbl

open Verif Verif.Np

/-- `np.nanstd` of entries without nan: the mean, the deviations, the mean of their squares, the root; nan without entries. -/
noncomputable def std (rnd : ℝ → Fl) (adds : ∀ k, Adds k) (l : List Fl) : Fl :=
  if l.length = 0 then .nan
  else
    let mean := div rnd ((adds l.length).eval rnd fun i => l.get i) (ofInt rnd (l.length : ℤ))
    sqrtMean rnd ((adds l.length).eval rnd fun i => mul rnd (sub rnd (l.get i) mean) (sub rnd (l.get i) mean)) l.length

/-- `np.nanstd`, math_functions.py:211. -/
noncomputable def nanstd (rnd : ℝ → Fl) (adds : ∀ k, Adds k) (l : List Fl) : Fl := std rnd adds (l.filter notNan)

/-- The larger of two numbers. -/
noncomputable def larger (a b : Fl) : Fl := open Classical in if Fl.lt a b then b else a

/-- `np.nanmax`, math_functions.py:214: nan when all is nan (numpy only warns); an empty array raises `ValueError`. -/
noncomputable def nanmax {m n : ℕ} (f : Fin m × Fin n → Fl) : Py Fl :=
  if m * n = 0 then .error .valueError
  else match (rows f).filter notNan with
    | [] => .ok .nan
    | a :: l => .ok (l.foldl larger a)

/-- The pixels row by row. -/
def pixels (m n : ℕ) : List (Fin m × Fin n) :=
  (List.finRange m).flatMap fun i => (List.finRange n).map fun j => (i, j)

/-- `(uu - centre) ** 2 + (vv - centre) ** 2 < radius ** 2`, math_functions.py:210-212. -/
def nearCentre (rnd : ℝ → Fl) {m n : ℕ} (u : Fin n → Fl) (v : Fin m → Fl) (centre radius : Fl) : Fin m × Fin n → Prop :=
  fun q => Fl.lt (sumSq rnd (sub rnd (meshX u v q) centre) (sub rnd (meshY u v q) centre)) (mul rnd radius radius)

/-- The two dimensional branch of `snr`, math_functions.py:208-216. -/
noncomputable def snr (rnd : ℝ → Fl) (adds : ∀ k, Adds k) {m n : ℕ} (beam : Fin m × Fin n → Fl) (u : Fin n → Fl)
    (v : Fin m → Fl) (centre radius : Fl) : Py Fl := open Classical in do
  let sel := ((pixels m n).filter fun q => nearCentre rnd u v centre radius q).map beam
  let s := nanstd rnd adds sel
  let mx ← nanmax beam
  return div rnd mx s

end Verif.Dbl
