import Verif.Model.Fit
import Verif.Model.Plot

/-!
# Model of `fit_zpoly` with its figures, `pyoof/core.py`:307-616

`Model/Fit.lean` takes the figures to succeed.  Here one round of the loop calls the model of
`plot_fit_path`, which can end in an exception.
-/

namespace Verif.Fit

open Verif Verif.Fs Verif.Store Verif.Core Verif.Plot Verif.AuxFn Verif.MathFn

/-- `plim`, core.py:438-443, in radians. -/
noncomputable def fitPlim {N M : ℕ} (a : Input N M) : Py (ℝ × ℝ × ℝ × ℝ) := do
  let u0 ← minR fun k => a.u (0, k)
  let u1 ← maxR fun k => a.u (0, k)
  let v0 ← minR fun k => a.v (0, k)
  let v1 ← maxR fun k => a.v (0, k)
  return (u0, u1, v0, v1)

/-- One round of the loop, core.py:432-613.  `e` holds what `plot_fit_path` uses; its `plim` is the
one of the round. -/
noncomputable def fitOrderP {N M : ℕ} (a : Input N M) (e : PlotEnv) (snrs : List Fl) (nameDir : Path)
    (n : ℕ) : Prog Content Unit := do
  let lim ← Prog.lift (fitPlim a)
  let init ← startVector a nameDir n
  let out ← Prog.lift (solveOrder a n init)
  storeDataAscii nameDir n out.sol init
  if n = 1 then
    writeFile .part (nameDir.join "pyoof_info.yml".toList) (.info (infoOf a snrs))
  storeDataCsv a.name nameDir n out.save
  if a.makePlots then do
    let _ ← Plot.plotFitPath { e with plim := some lim } nameDir n true
    return ()

/-- `for order in range(1, order_max + 1)`, from `order = n` on, `k` rounds. -/
noncomputable def fitLoopP {N M : ℕ} (a : Input N M) (e : PlotEnv) (snrs : List Fl) (nameDir : Path) :
    ℕ → ℕ → Prog Content Unit
  | _, 0 => .ret ()
  | n, k + 1 => do
    fitOrderP a e snrs nameDir n
    fitLoopP a e snrs nameDir (n + 1) k

/-- `fit_zpoly(...)`, core.py:378-616. -/
noncomputable def fitZpolyP {N M : ℕ} (a : Input N M) (e : PlotEnv) : Prog Content Path := do
  let nameDir ← allocDir a.workDir a.name
  let s0 ← Prog.lift (a.snr 0)
  let s1 ← Prog.lift (a.snr 1)
  let s2 ← Prog.lift (a.snr 2)
  fitLoopP a e [s0, s1, s2] nameDir 1 a.orderMax
  return nameDir

end Verif.Fit
