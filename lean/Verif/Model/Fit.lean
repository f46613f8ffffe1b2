import Verif.Model.Residual
import Verif.Model.Store

/-!
# Model of `fit_zpoly`, `pyoof/core.py`:307-616

The optimiser is a parameter.  Not modelled: printing, what is in the figures, beam maps that are not
flat (these end in a `ValueError`, C44).  The entries of the configuration file are given as a `Config`;
`Model/Config.lean` reads them from its text.  The signal-to-noise ratios are a parameter (`np.round(snr(...), 2)`, see
`MathFn.snr1`).
-/

namespace Verif.Fit

open Verif Verif.Fs Verif.Store Verif.Core Verif.Aperture Verif.MathFn

/-- The result of `scipy.optimize.least_squares` for `m` residuals and `p` parameters. -/
structure LsqResult (m p : ℕ) where
  x : Fin p → ℝ
  fn : Fin m → ℝ
  jac : Matrix (Fin m) (Fin p) ℝ
  grad : Fin p → ℝ

/-- The iteration of the optimiser, for a residual function, a start vector and bounds. -/
abbrev Solver (m : ℕ) := (List ℝ → Py (List ℝ)) → (x0 lb ub : List ℝ) → Py (LsqResult m x0.length)

/-- `optimize.least_squares(fun, x0, bounds=(lb, ub), method='trf')`: `ValueError` for bounds of
another length, for a lower bound that is not below the upper bound and for a start vector outside
the bounds (scipy `least_squares`, checks before the iteration). -/
noncomputable def leastSquares {m : ℕ} (solver : Solver m) (f : List ℝ → Py (List ℝ))
    (x0 lb ub : List ℝ) : Py (LsqResult m x0.length) := open Classical in
  if lb.length ≠ x0.length ∨ ub.length ≠ x0.length then .error .valueError
  else if ¬ List.Forall₂ (· < ·) lb ub then .error .valueError
  else if ¬ (List.Forall₂ (· ≤ ·) lb x0 ∧ List.Forall₂ (· ≤ ·) x0 ub) then .error .valueError
  else solver f x0 lb ub

/-- The arguments of `fit_zpoly` and the external functions it uses; `meanel` in degrees. -/
structure Input (N M : ℕ) where
  name : Str
  obsObject : Str
  obsDate : Str
  freq : ℝ
  wavel : ℝ
  dz : Fin 3 → ℝ
  meanel : ℝ
  beam : Fin 3 × Fin M → Fl
  u : Fin 3 × Fin M → ℝ
  v : Fin 3 × Fin M → ℝ
  orderMax : ℕ
  illum : Illum (Fin N × Fin N)
  illumName : Str
  tel : TelGeo (Fin N × Fin N)
  opdName : Str
  telName : Str
  boxFactor : ℝ
  fitPrevious : Bool
  cfg : Config
  makePlots : Bool
  workDir : Path
  snr : Fin 3 → Py Fl
  solver : Solver (3 * M)

/-- The rows of a `(3, M)` array. -/
def rows3 {M : ℕ} (f : Fin 3 × Fin M → Fl) : List (List Fl) :=
  List.ofFn fun i => List.ofFn fun k => f (i, k)

/-- `res_lsq.fun.reshape(3, -1)`, core.py:515. -/
def reshape3 {M : ℕ} (f : Fin (3 * M) → ℝ) : Fin 3 × Fin M → Fl :=
  fun q => .fin (f (finProdFinEquiv q))

/-- The rows of a matrix. -/
def matRows {m p : ℕ} (A : Matrix (Fin m) (Fin p) ℝ) : List (List Fl) :=
  List.ofFn fun i => List.ofFn fun j => .fin (A i j)

/-- `np.vstack((header, matrix))`: `ValueError` when the numbers of columns differ. -/
def vstack {p : ℕ} (hdr : List ℝ) (A : List (List Fl)) : Py (List (List Fl)) :=
  if hdr.length = p then .ok (hdr.map Fl.fin :: A) else .error .valueError

/-- What one order stores. -/
structure OrderOut where
  sol : List ℝ
  save : List (List (List Fl))

/-- The start vector, core.py:448-466. -/
noncomputable def startVector {N M : ℕ} (a : Input N M) (nameDir : Path) (n : ℕ) :
    Prog Content (List ℝ) :=
  let nK := (n + 1) * (n + 2) / 2
  if a.fitPrevious && n != 1 then do
    let nKprev := n * (n + 1) / 2
    let c ← readFile (nameDir.join (fileName "fitpar" (n - 1)))
    match c with
    | .params _ fit _ => return fit ++ List.replicate (nK - nKprev) 0.1
    | _ => .raise .keyError
  else .ret (a.cfg.init ++ List.replicate (nK - 3) 0.1)

/-- The numerical part of one round of the loop, core.py:468-536. -/
noncomputable def solveOrder {N M : ℕ} (a : Input N M) (n : ℕ) (init : List ℝ) : Py OrderOut := do
  let nK := (n + 1) * (n + 2) / 2
  let initTrue ← npDelete init a.cfg.excluded
  let boundMin := a.cfg.boundMin ++ List.replicate (nK - 3) (-5)
  let boundMax := a.cfg.boundMax ++ List.replicate (nK - 3) 5
  let boundMinTrue ← npDelete boundMin a.cfg.excluded
  let boundMaxTrue ← npDelete boundMax a.cfg.excluded
  let r ← leastSquares a.solver
    (fun p => residual p nK a.beam a.u a.v a.dz a.wavel a.illum a.tel a.boxFactor a.cfg)
    initTrue boundMinTrue boundMaxTrue
  let sol ← paramsComplete (List.ofFn r.x) nK a.cfg
  let co ← coMatrices r.fn r.jac initTrue.length
  let hdr ← npDelete ((List.range (nK + 5)).map fun k : ℕ => (k : ℝ)) a.cfg.excluded
  let cov := match co with
    | some c => matRows c.1
    | none => List.replicate initTrue.length (List.replicate initTrue.length .nan)
  let cor := match co with
    | some c => matRows c.2
    | none => List.replicate initTrue.length (List.replicate initTrue.length .nan)
  let covP ← vstack (p := initTrue.length) hdr cov
  let corP ← vstack (p := initTrue.length) hdr cor
  let ph ← phase (sol.drop 5) a.tel.pr false false 1000
  return ⟨sol, [rows3 a.beam, rows3 fun q => .fin (a.u q), rows3 fun q => .fin (a.v q),
    rows3 (reshape3 r.fn), matRows r.jac, List.ofFn fun j => [.fin (r.grad j)],
    List.ofFn fun i => List.ofFn fun j => .fin (ph.phi (i, j)), covP, corP]⟩

/-- `plot_fit_path(..., save=True)`, plot_routines.py:642-754: the directory and the files. The plot
functions read the stored files and do not write. -/
def plotFitPath (nameDir : Path) (n : ℕ) : Prog Content Unit := do
  let plots := nameDir.join "plots".toList
  let e ← existsP plots
  if !e then makedirs plots false
  let pdf := fun kind : String => plots.join (kind.toList ++ "_n".toList ++ decNat n ++ ".pdf".toList)
  writeFile .part (pdf "fitbeam") .plot
  writeFile .part (pdf "fitphase") .plot
  writeFile .part (pdf "residual") .plot
  writeFile .part (pdf "cov") .plot
  writeFile .part (pdf "corr") .plot
  if n = 1 then writeFile .part (plots.join "obsbeam.pdf".toList) .plot

/-- `pyoof_info`, core.py:559-575. -/
def infoOf {N M : ℕ} (a : Input N M) (snrs : List Fl) : Info :=
  ⟨a.telName, a.opdName, a.tel.pr, a.name, a.obsObject, a.obsDate, List.ofFn a.dz, a.wavel, a.freq,
    a.illumName, a.meanel, N, a.boxFactor, snrs⟩

/-- One round of the loop, core.py:432-613. -/
noncomputable def fitOrder {N M : ℕ} (a : Input N M) (snrs : List Fl) (nameDir : Path) (n : ℕ) :
    Prog Content Unit := do
  let init ← startVector a nameDir n
  let out ← Prog.lift (solveOrder a n init)
  storeDataAscii nameDir n out.sol init
  if n = 1 then
    writeFile .part (nameDir.join "pyoof_info.yml".toList) (.info (infoOf a snrs))
  storeDataCsv a.name nameDir n out.save
  if a.makePlots then plotFitPath nameDir n

/-- `for order in range(1, order_max + 1)`, from `order = n` on, `k` rounds. -/
noncomputable def fitLoop {N M : ℕ} (a : Input N M) (snrs : List Fl) (nameDir : Path) :
    ℕ → ℕ → Prog Content Unit
  | _, 0 => .ret ()
  | n, k + 1 => do
    fitOrder a snrs nameDir n
    fitLoop a snrs nameDir (n + 1) k

/-- `name + '-' + j` -/
def runName (name : Str) (i : ℕ) : Str := name ++ '-' :: pad3 i

/-- The loop of core.py:405-409; `cur` is the value of `name_dir`. -/
def allocLoop (out : Path) (name : Str) : List ℕ → Option Path → Prog Content (Option Path)
  | [], cur => .ret cur
  | i :: rest, _ => do
    let d := out.join (runName name i)
    let e ← existsP d
    if !e then do
      makedirs d true
      return some d
    else allocLoop out name rest (some d)

/-- `pyoof_out` and the directory of the run, core.py:402-409. -/
def allocDir (workDir : Path) (name : Str) : Prog Content Path := do
  let out := workDir.join "pyoof_out".toList
  let e ← existsP out
  if !e then makedirs out true
  let d ← allocLoop out name (List.range 101) none
  match d with
  | some d => return d
  | none => .raise .unboundLocalError

/-- `fit_zpoly(...)`: the result is `name_dir`, core.py:378-616. -/
noncomputable def fitZpoly {N M : ℕ} (a : Input N M) : Prog Content Path := do
  let nameDir ← allocDir a.workDir a.name
  let s0 ← Prog.lift (a.snr 0)
  let s1 ← Prog.lift (a.snr 1)
  let s2 ← Prog.lift (a.snr 2)
  fitLoop a [s0, s1, s2] nameDir 1 a.orderMax
  return nameDir

end Verif.Fit
