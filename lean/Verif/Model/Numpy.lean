import Verif.Model.Base
import Mathlib.Analysis.Real.Sqrt
import Mathlib.Algebra.Order.Floor.Ring
import Mathlib.Algebra.Order.Archimedean.Real.Basic
import Mathlib.Analysis.SpecialFunctions.Complex.Arg
import Mathlib.Analysis.SpecialFunctions.Exp

/-!
# numpy and Python primitives used by the model

Each definition states the documented numpy/Python semantics (over exact reals) of the primitive.
-/

namespace Verif.Np

open Verif

/-- Python `range(start, stop, step)` for a positive step. -/
def pyRange (start stop step : ℤ) : List ℤ :=
  (List.range ((stop - start + step - 1) / step).toNat).map fun k : ℕ => start + step * (k : ℤ)

/-- Python `int(x)` of a float: truncation towards zero. -/
noncomputable def pyInt (x : ℝ) : ℤ := if 0 ≤ x then ⌊x⌋ else ⌈x⌉

/-- Indexing `l[i]` with a non negative index. -/
def pyIdx {α : Type*} (l : List α) (i : ℕ) : Py α :=
  match l[i]? with
  | some v => .ok v
  | none => .error .indexError

/-- Assignment `l[i] = v` with a non negative index. -/
def pySet {α : Type*} (l : List α) (i : ℕ) (v : α) : Py (List α) :=
  if i < l.length then .ok (l.set i v) else .error .indexError

/-- Elementwise evaluation of a function that may raise over an array with index set `ι`: the
array of the results, or an exception when the evaluation of one element raises. -/
noncomputable def seqArr {ι α : Type} (f : ι → Py α) : Py (ι → α) :=
  open Classical in
  if h : ∃ g : ι → α, ∀ q, f q = .ok (g q) then .ok h.choose
  else if h2 : ∃ e q, f q = .error e then .error h2.choose
  else .error .typeError

/-- `np.linspace(start, stop, num)[i]`. -/
noncomputable def linspace (start stop : ℝ) (num : ℕ) (i : Fin num) : ℝ :=
  start + (i : ℕ) * ((stop - start) / ((num : ℝ) - 1))

/-- `np.meshgrid(x, y)[0]`, indexing `'xy'`: `xx[i][j] = x[j]`. -/
def meshX {n m : ℕ} {α : Type*} (x : Fin n → α) (_y : Fin m → α) : Fin m × Fin n → α :=
  fun q => x q.2

/-- `np.meshgrid(x, y)[1]`: `yy[i][j] = y[i]`. -/
def meshY {n m : ℕ} {α : Type*} (_x : Fin n → α) (y : Fin m → α) : Fin m × Fin n → α :=
  fun q => y q.1

/-- `np.arctan2(y, x)` (signed zeros ignored): the argument of `x + i y`, in `(-π, π]`. -/
noncomputable def arctan2 (y x : ℝ) : ℝ := Complex.arg ⟨x, y⟩

/-- `np.fft.fftfreq(n, d)[i]`: `results[:N] = arange(0, N)`, `results[N:] = arange(-(n//2), 0)`
with `N = (n-1)//2 + 1`, times `1.0 / (n * d)`. -/
noncomputable def fftfreq (n : ℕ) (d : ℝ) (i : Fin n) : ℝ :=
  let N := (n - 1) / 2 + 1
  (((if (i : ℕ) < N then ((i : ℕ) : ℤ) else -((n / 2 : ℕ) : ℤ) + (((i : ℕ) - N : ℕ) : ℤ)) : ℤ) : ℝ) *
    (1 / ((n : ℝ) * d))

/-- The source index of `np.fft.fftshift`, which is `np.roll(x, n//2)`:
`out[i] = in[(i - n//2) % n]`. -/
def shiftIdx {n : ℕ} (i : Fin n) : Fin n :=
  ⟨((((i : ℕ) : ℤ) - ((n / 2 : ℕ) : ℤ)) % (n : ℤ)).toNat, by
    have hn : 0 < n := i.pos
    have h1 := Int.emod_nonneg (((i : ℕ) : ℤ) - ((n / 2 : ℕ) : ℤ)) (by omega : (n : ℤ) ≠ 0)
    have h2 := Int.emod_lt_of_pos (((i : ℕ) : ℤ) - ((n / 2 : ℕ) : ℤ)) (by omega : (0 : ℤ) < n)
    omega⟩

/-- `np.fft.fftshift` of a one dimensional array. -/
def fftshift1 {n : ℕ} {α : Type*} (f : Fin n → α) (i : Fin n) : α := f (shiftIdx i)

/-- `np.fft.fft2(E)[k][l] = Σ_{a,b} E[a][b] exp(-2πi (k a / n + l b / n))`. -/
noncomputable def fft2 {n : ℕ} (E : Fin n × Fin n → ℂ) (q : Fin n × Fin n) : ℂ :=
  ∑ a : Fin n, ∑ b : Fin n, E (a, b) *
    Complex.exp (-(2 * Real.pi * Complex.I) *
      ((((q.1 : ℕ) : ℂ) * ((a : ℕ) : ℂ) + ((q.2 : ℕ) : ℂ) * ((b : ℕ) : ℂ)) / (n : ℂ)))

/-- `np.fft.fftshift` of a two dimensional array (both axes). -/
def fftshift2 {n : ℕ} {α : Type*} (F : Fin n × Fin n → α) (q : Fin n × Fin n) : α :=
  F (shiftIdx q.1, shiftIdx q.2)

end Verif.Np
