import Verif.Model.Aperture
import Verif.Model.Fl
import Verif.Model.Fs

/-!
# Model of the files of a fit: `store_data_ascii`, `store_data_csv`

`pyoof/aux_functions.py`:192-286.  Numbers in text files are exact (the writers print a `float` so
that it is read back unchanged, `np.savetxt` with 19 significant digits).
-/

namespace Verif.Store

open Verif Verif.Fs

/-- What `pyoof_info.yml` holds, core.py:559-575. -/
structure Info where
  telName : Str
  telOpd : Str
  pr : ℝ
  name : Str
  obsObject : Str
  obsDate : Str
  dz : List ℝ
  wavel : ℝ
  frequency : ℝ
  illumination : Str
  meanel : ℝ
  fftResolution : ℕ
  boxFactor : ℝ
  snr : List Fl

/-- The contents of a file. -/
inductive Content
  /-- a file that is open for writing and not complete -/
  | part
  /-- a parameter table: columns `parname`, `parfit`, `parinit` -/
  | params (names : List Str) (fit init : List ℝ)
  /-- `np.savetxt` of an array with a header line -/
  | csv (header : Str) (rows : List (List Fl))
  /-- `pyoof_info.yml` -/
  | info (i : Info)
  /-- a figure -/
  | plot
  /-- a text file, for example a look-up table -/
  | text (s : Str)
  /-- any other file -/
  | other (n : ℕ)

/-- `f'K({N[i]}, {L[i]})'`, aux_functions.py:275. -/
def kName (N L : List ℤ) (i : ℕ) : Py Str := do
  let a ← Np.pyIdx N i
  let b ← Np.pyIdx L i
  return "K(".toList ++ decInt a ++ ", ".toList ++ decInt b ++ ")".toList

/-- The names in the table, aux_functions.py:265-275: `ln` holds pairs `(l, n)`, `L` and `N` are its
columns. -/
def paramNames (n : ℕ) : Py (List Str) := do
  let nK := (n + 1) * (n + 2) / 2
  let ln : List (ℤ × ℤ) := (Aperture.nlList n).map fun q => (q.2, q.1)
  let L := ln.map Prod.fst
  let N := ln.map Prod.snd
  let tail ← (List.range nK).mapM (kName N L)
  return ["i_amp".toList, "c_dB".toList, "q".toList, "x_0".toList, "y_0".toList] ++ tail

/-- `f'{kind}_n{order}.csv'` -/
def fileName (kind : String) (n : ℕ) : Str := kind.toList ++ "_n".toList ++ decNat n ++ ".csv".toList

/-- `store_data_ascii(name, name_dir, order, params_solution, params_init)`, aux_functions.py:242-286.
`Table` raises `ValueError` for columns of different lengths. -/
def storeDataAscii (nameDir : Path) (n : ℕ) (sol init : List ℝ) : Prog Content Unit := do
  let names ← Prog.lift (paramNames n)
  if names.length = sol.length ∧ sol.length = init.length then
    writeFile .part (nameDir.join (fileName "fitpar" n)) (.params names sol init)
  else .raise .valueError

/-- The loop over `zip(fnames, headers, save_to_csv)`, aux_functions.py:234-239. -/
def saveLoop (name : Str) (nameDir : Path) : List (Str × Str × List (List Fl)) → Prog Content Unit
  | [] => .ret ()
  | (fname, header, x) :: rest => do
    writeFile .part (nameDir.join fname) (.csv (header ++ ' ' :: name) x)
    saveLoop name nameDir rest

/-- `store_data_csv(name, name_dir, order, save_to_csv)`, aux_functions.py:192-239. -/
def storeDataCsv (name : Str) (nameDir : Path) (order : ℕ) (save : List (List (List Fl))) :
    Prog Content Unit :=
  let headers : List Str := ["Normalized beam".toList, "u vector radians".toList,
    "v vector radians".toList, "Residual".toList, "Jacobian".toList, "Gradient".toList,
    "Phase-error radians".toList,
    "Variance-Covariance matrix (first row fitted parameters idx)".toList,
    "Correlation matrix (first row fitted parameters idx)".toList]
  let fnames : List Str := ["beam_data.csv".toList, "u_data.csv".toList, "v_data.csv".toList,
    fileName "res" order, fileName "jac" order, fileName "grad" order, fileName "phase" order,
    fileName "cov" order, fileName "corr" order]
  if order ≠ 1 then
    saveLoop name nameDir ((fnames.drop 3).zip ((headers.drop 3).zip (save.drop 3)))
  else saveLoop name nameDir (fnames.zip (headers.zip save))

end Verif.Store
