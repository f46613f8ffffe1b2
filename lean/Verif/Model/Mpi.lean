import Verif.Model.Base

/-!
# Distribution of the files over the ranks, `scripts/pyoof_effelsberg_mpi.py`
-/

namespace Verif.Mpi

/-- `np.cumsum` of a list of integers, starting from `s`. -/
def cumsum (s : ℕ) : List ℕ → List ℕ
  | [] => []
  | x :: l => (s + x) :: cumsum (s + x) l

/-- `np.array_split(ary, n)`, numpy `lib/shape_base.py`: the section sizes, their cumulated sum, then
the slices `ary[st:end]`.  `ValueError` when `n` is not positive. -/
def arraySplit {α : Type} (l : List α) (n : ℤ) : Py (List (List α)) :=
  if n ≤ 0 then .error .valueError
  else
    let n := n.toNat
    let each := l.length / n
    let extras := l.length % n
    let sizes := [0] ++ List.replicate extras (each + 1) ++ List.replicate (n - extras) each
    let points := cumsum 0 sizes
    .ok ((List.range n).map fun i =>
      (l.take (points.getD (i + 1) 0)).drop (points.getD i 0))

/-- The files of one rank, pyoof_effelsberg_mpi.py:88-91: `files` is what `glob.glob` returns on this
rank. -/
def rankFiles {α : Type} (files : List α) (size rank : ℕ) : Py (List α) := do
  let parts ← arraySplit files size
  match parts[rank]? with
  | some p => .ok p
  | none => .error .indexError

end Verif.Mpi
