import Verif.Model.DoubleOptics

/-!
# The rms of a phase map and the random-surface-error efficiency in the arithmetic of doubles

`rms` (`pyoof/math_functions.py`:132-157) and `e_rs` (`pyoof/aperture/aperture.py`:66-69) with the rounding `rnd` after
every operation.  numpy does not promise an order of the additions in `np.sum`; the order is a parameter.  Units are not
modelled: the entries are numbers of radians.
-/

namespace Verif.Dbl

open Verif Verif.Np

/-- An order of the additions in a sum of `k` numbers. -/
inductive Adds (k : ℕ)
  | zero
  | item (i : Fin k)
  | both (a b : Adds k)

/-- The sum of `f` in that order. -/
noncomputable def Adds.eval (rnd : ℝ → Fl) {k : ℕ} (f : Fin k → Fl) : Adds k → Fl
  | .zero => .fin 0
  | .item i => f i
  | .both a b => add rnd (a.eval rnd f) (b.eval rnd f)

/-- A one or two dimensional array of doubles. -/
inductive Arr
  | d1 (n : ℕ) (f : Fin n → Fl)
  | d2 (m n : ℕ) (f : Fin m × Fin n → Fl)

/-- The entries row by row. -/
def rows {m n : ℕ} (f : Fin m × Fin n → Fl) : List Fl :=
  (List.finRange m).flatMap fun i => List.ofFn fun j => f (i, j)

/-- nan is replaced by 0, as `np.nansum` does before it adds. -/
def nanZero : Fl → Fl
  | .nan => .fin 0
  | x => x

/-- `~np.isnan(x)` -/
def notNan : Fl → Bool
  | .nan => false
  | _ => true

/-- `np.nansum(np.square(phase))`, math_functions.py:153, 155, with the additions in the order `adds`. -/
noncomputable def nansumSq (rnd : ℝ → Fl) (adds : ∀ k, Adds k) (l : List Fl) : Fl :=
  (adds l.length).eval rnd fun i => nanZero (mul rnd (l.get i) (l.get i))

/-- `np.sqrt(s / size)`, math_functions.py:153, 155. -/
noncomputable def sqrtMean (rnd : ℝ → Fl) (s : Fl) (size : ℕ) : Fl :=
  sqrt rnd (div rnd s (ofInt rnd (size : ℤ)))

/-- `xx ** 2 + yy ** 2 > 1 ** 2`, math_functions.py:147-151; the mask has shape `(shape[1], shape[0])`. -/
noncomputable def circMask (rnd : ℝ → Fl) (m n : ℕ) : Fin n × Fin m → Prop :=
  let x := linspace rnd (.fin (-1)) (.fin 1) m
  let y := linspace rnd (.fin (-1)) (.fin 1) n
  fun q => Fl.lt (ofInt rnd 1) (sumSq rnd (meshX x y q) (meshY x y q))

/-- `phase[mask] = nan` for a mask of the shape of the array (`m = n`), otherwise `IndexError`,
math_functions.py:151. -/
noncomputable def maskNan {m n : ℕ} (mask : Fin n × Fin m → Prop) (f : Fin m × Fin n → Fl) :
    Py (Fin m × Fin n → Fl) := open Classical in
  if h : m = n then
    .ok fun q => if mask (q.1.cast h, q.2.cast h.symm) then .nan else f q
  else .error .indexError

/-- `rms(phase, circ)`, math_functions.py:132-157: the result and the caller's array afterwards. -/
noncomputable def rms (rnd : ℝ → Fl) (adds : ∀ k, Adds k) (a : Arr) (circ : Bool) : Py Fl × Arr :=
  match circ, a with
  | true, .d1 n f => (.error .indexError, .d1 n f)          -- phase.shape[1]
  | true, .d2 m n f =>
    match maskNan (circMask rnd m n) f with
    | .error e => (.error e, .d2 m n f)
    | .ok g =>
      let real := (rows g).filter notNan
      (.ok (sqrtMean rnd (nansumSq rnd adds real) real.length), .d2 m n g)
  | false, .d1 n f => (.ok (sqrtMean rnd (nansumSq rnd adds (List.ofFn f)) n), .d1 n f)
  | false, .d2 m n f => (.ok (sqrtMean rnd (nansumSq rnd adds (rows f)) (m * n)), .d2 m n f)

/-- `-x` -/
def neg : Fl → Fl := Fl.neg

/-- `e_rs(phase, circ)`, aperture.py:66-69: `np.exp(-rms_rad ** 2)`, and the caller's array afterwards.  The square of
the scalar is `pow` of the mathematical library. -/
noncomputable def eRs (rnd : ℝ → Fl) (L : LibmP) (adds : ∀ k, Adds k) (a : Arr) (circ : Bool) : Py Fl × Arr :=
  let r := rms rnd adds a circ
  (r.1.map fun v => L.exp (neg (L.powr v (.fin 2))), r.2)

end Verif.Dbl
