import Verif.Model.DoublePhase

/-!
# `co_matrices` in the arithmetic of doubles

`co_matrices`, `pyoof/math_functions.py`:66-100, with the rounding `rnd` after every operation of numpy itself.  The
products of vectors and matrices (BLAS) and the inverse (LAPACK) are parameters: neither the order of the additions nor the
algorithm is promised by numpy.
-/

namespace Verif.Dbl

open Verif Verif.Np

/-- `np.dot` of two vectors, and `np.linalg.inv`. -/
structure LinAlg where
  dot : ∀ {k : ℕ}, (Fin k → Fl) → (Fin k → Fl) → Fl
  inv : ∀ {n : ℕ}, (Fin n → Fin n → Fl) → Py (Fin n → Fin n → Fl)

/-- `co_matrices(res, jac, n_pars)`, math_functions.py:66-100.  The product of two matrices is taken entry by entry. -/
noncomputable def coMatrices (rnd : ℝ → Fl) (L : LinAlg) {m n : ℕ} (res : Fin m → Fl) (jac : Fin m → Fin n → Fl)
    (nPars : ℕ) : Py ((Fin n → Fin n → Fl) × (Fin n → Fin n → Fl)) := do
  let p : ℤ := (m : ℤ) - nPars
  let rr := L.dot res res
  let jj : Fin n → Fin n → Fl := fun i j => L.dot (fun k => jac k i) (fun k => jac k j)
  let iJ ← L.inv jj
  let s := div rnd rr (ofInt rnd p)
  let cov : Fin n → Fin n → Fl := fun i j => mul rnd s (iJ i j)
  let sigmas2 : Fin n → Fin n → Fl := fun i j => if i = j then cov i i else .fin 0
  let D ← L.inv fun i j => sqrt rnd (sigmas2 i j)
  let dc : Fin n → Fin n → Fl := fun i j => L.dot (fun k => D i k) (fun k => cov k j)
  let corr : Fin n → Fin n → Fl := fun i j => L.dot (fun k => dc i k) (fun k => D k j)
  return (cov, corr)

end Verif.Dbl
