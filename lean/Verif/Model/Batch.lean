import Verif.Model.AuxFn
import Verif.Model.Fit
import Verif.Model.Mpi

/-!
# The batch scripts, `scripts/pyoof_effelsberg.py` and the loop of one rank of `pyoof_effelsberg_mpi.py`

For each FITS file: `extract_data_effelsberg`, then one `fit_zpoly` for each configuration of the telescope.
The FITS files are not among the files that the fits write; `fitsOpen` does not change during the run.
-/

namespace Verif.Batch

open Verif Verif.Fs Verif.Store Verif.Core Verif.Fit Verif.Aperture Verif.AuxFn

/-- The arguments of `fit_zpoly` that the script fixes, pyoof_effelsberg.py:60-73 (with one entry of the
dictionary `telescope`); `snr` and `solver` stand for the functions of these names as in `Input`. -/
structure Setup where
  N : ℕ
  orderMax : ℕ
  illum : Illum (Fin N × Fin N)
  illumName : Str
  tel : TelGeo (Fin N × Fin N)
  opdName : Str
  telName : Str
  boxFactor : ℝ
  fitPrevious : Bool
  cfg : Config
  makePlots : Bool
  snr : List ℝ → List ℝ → List ℝ → Py Fl
  solver : (M : ℕ) → Solver (3 * M)

/-- One call of `fit_zpoly`: the size of the Fourier grid, the number of points of a map, the arguments. -/
abbrev Job := Σ N : ℕ, Σ M : ℕ, Input N M

/-- `np.array` of three columns: an entry. -/
def entry {M : ℕ} (l : List (List ℝ)) (q : Fin 3 × Fin M) : ℝ := (l.getD q.1 []).getD q.2 0

/-- The arguments of `fit_zpoly` from what `extract_data_effelsberg` returns, pyoof_effelsberg.py:53-73.
Simplified: columns of different lengths, an `OBJECT` or `DATE_OBS` that is not a string and a wavelength
that is not finite (`FREQ` zero) give a `ValueError` here. -/
noncomputable def inputOf (w : Path) (c : Setup) (x : Extract) : Py Job :=
  let M := (x.beam.getD 0 []).length
  match x.obsObject, x.obsDate, x.wavel with
  | .str o, .str t, .fin wavel =>
    if (x.beam ++ x.u ++ x.v).all (fun l => l.length == M) then
      .ok ⟨c.N, M, { name := x.name, obsObject := o, obsDate := t, freq := x.freq, wavel := wavel,
                     dz := fun i => x.dz.getD i 0, meanel := x.meanel,
                     beam := fun q => .fin (entry x.beam q), u := entry x.u, v := entry x.v,
                     orderMax := c.orderMax, illum := c.illum, illumName := c.illumName, tel := c.tel,
                     opdName := c.opdName, telName := c.telName, boxFactor := c.boxFactor,
                     fitPrevious := c.fitPrevious, cfg := c.cfg, makePlots := c.makePlots, workDir := w,
                     snr := fun i => c.snr (x.beam.getD i []) (x.u.getD i []) (x.v.getD i []),
                     solver := c.solver M }⟩
    else .error .valueError
  | _, _, _ => .error .valueError

/-- `fit_zpoly(...)` for one configuration; the model returns the directory of the run. -/
noncomputable def fitJob (w : Path) (c : Setup) (x : Extract) : Prog Content Path := do
  let j ← Prog.lift (inputOf w c x)
  fitZpoly j.2.2

/-- `for configuration in telescope.keys()`, pyoof_effelsberg.py:58-73. -/
noncomputable def configLoop (w : Path) (x : Extract) : List Setup → Prog Content (List Path)
  | [] => .ret []
  | c :: cs => do
    let d ← fitJob w c x
    let ds ← configLoop w x cs
    return d :: ds

/-- `compute_phase_error(pathfits, order_max)`, pyoof_effelsberg.py:48-73. -/
noncomputable def computePhaseError (fitsOpen : Str → Py (List Hdu)) (w : Path) (cs : List Setup) (f : Str) :
    Prog Content (List Path) := do
  let x ← Prog.lift (extractEffelsberg fitsOpen f)
  configLoop w x cs

/-- `for _f in files`, pyoof_effelsberg.py:81-82 and pyoof_effelsberg_mpi.py:92-93.  The model returns the
directories of the runs in their order. -/
noncomputable def fileLoop (fitsOpen : Str → Py (List Hdu)) (w : Path) (cs : List Setup) :
    List Str → Prog Content (List Path)
  | [] => .ret []
  | f :: fs => do
    let ds ← computePhaseError fitsOpen w cs f
    let ds' ← fileLoop fitsOpen w cs fs
    return ds ++ ds'

/-- One rank, pyoof_effelsberg_mpi.py:86-93: its part of the files, one after the other.  (The script names
`aperture.illum_pedestal`, which the package does not have; the illumination is a parameter here.) -/
noncomputable def rankProgram (fitsOpen : Str → Py (List Hdu)) (w : Path) (cs : List Setup) (files : List Str)
    (size rank : ℕ) : Prog Content (List Path) := do
  let part ← Prog.lift (Mpi.rankFiles files size rank)
  fileLoop fitsOpen w cs part

end Verif.Batch
