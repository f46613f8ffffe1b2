import Verif.Model.Fit
import Verif.Model.AuxFn

/-!
# Model of `pyoof/plot_routines.py`

A figure is what is handed to matplotlib: the images with their extent and origin, the axes of the
contours, the colour range, the levels, the limits of the axes and the tick labels.  Not modelled:
titles, fonts, line styles, the layout of the axes, what matplotlib makes of it (only where `imshow`
puts a pixel, see `Img`) and the warnings it gives.  Angles are converted with a factor `c` (1 rad is
`c` of the unit asked for).  A primary radius of zero is not modelled.
-/

namespace Verif.Plot

open Verif Verif.Np Verif.Aperture Verif.MathFn Verif.AuxFn Verif.Fs Verif.Store

/-- `rcParams['image.origin']`: `lower` when `pyoof.mplstyle` is in use, which `pyoof/__init__.py`:54-57
makes depend on a LaTeX installation; matplotlib's default is `upper`. -/
inductive Origin
  | lower
  | upper

/-- `ax.imshow(X, extent=[left, right, bottom, top], origin, vmin, vmax)`. -/
structure Img (m n : ℕ) (α : Type) where
  data : Fin m × Fin n → α
  left : ℝ
  right : ℝ
  bottom : ℝ
  top : ℝ
  origin : Origin
  vmin : Fl
  vmax : Fl

/-! ## `plot_variance`, plot_routines.py:481-577 -/

/-- `''.join(('$K_{', f'{N[i]}', '\\,', f'{L[i]}', '}$'))`, plot_routines.py:517-520. -/
def kLabel (N L : List ℤ) (i : ℕ) : Py Str := do
  let a ← pyIdx N i
  let b ← pyIdx L i
  return "$K_{".toList ++ decInt a ++ "\\,".toList ++ decInt b ++ "}$".toList

/-- `params_names`, plot_routines.py:507-521. -/
def paramLabels (n : ℕ) : Py (List Str) := do
  let nK := (n + 1) * (n + 2) / 2
  let ln : List (ℤ × ℤ) := (nlList n).map fun q => (q.2, q.1)
  let L := ln.map Prod.fst
  let N := ln.map Prod.snd
  let tail ← (List.range nK).mapM (kLabel N L)
  return ["$A_{E_\\mathrm{a}}$".toList, "$c_\\mathrm{dB}$".toList, "q".toList, "$x_0$".toList,
    "$y_0$".toList] ++ tail

/-- `a[i]` of a numpy array for any integer index. -/
def npIdx {α : Type} (l : List α) (i : ℤ) : Py α :=
  if 0 ≤ i then pyIdx l i.toNat
  else if 0 ≤ i + l.length then pyIdx l (i + l.length).toNat
  else .error .indexError

/-- `int(x)`: `ValueError` for nan. -/
noncomputable def intOf : Option ℝ → Py ℤ
  | some x => .ok (pyInt x)
  | none => .error .valueError

/-- `.min()` or `.max()` of an array that may hold nan, with `f` one of `arrMin`, `arrMax`. -/
noncomputable def ext {m n : ℕ} (f : List Fl → Py Fl) (A : Fin m × Fin n → Option ℝ) : Py Fl :=
  f (Finset.univ.toList.map fun q => match A q with | some r => .fin r | none => .nan)

/-- The figure of `plot_variance`: the masked entries of the image are `none`, nan is `some none`. -/
structure VarFig (m n : ℕ) where
  img : Img n m (Option (Option ℝ))
  xTicks : List ℝ
  xLabels : List Str
  yTicks : List ℝ
  yLabels : List Str

/-- `l[:-1]` -/
def dropLast1 {α : Type} (l : List α) : List α := l.take (l.length - 1)

/-- `ax.set_xticklabels` after `ax.set_xticks`: from matplotlib 3.3 on (`strict`) a `ValueError` when
the numbers differ. -/
def tickLabels (strict : Bool) (ticks : List ℝ) (labels : List Str) : Py Unit :=
  if strict && ticks.length != labels.length then .error .valueError else .ok ()

/-- `plot_variance(matrix, order, diag, ...)` of a two dimensional array with `m + 1` rows.  The
mask `np.tri(m, k=k)` has shape `(m, m)`: `np.ma.array` raises (a `MaskError`, here `ValueError`) for
another shape. -/
noncomputable def plotVariance2 {m n : ℕ} (strict : Bool) (matrix : Fin (m + 1) × Fin n → Option ℝ)
    (order : ℕ) (diag : Bool) : Py (VarFig m n) := do
  let names ← paramLabels order
  let used ← (List.ofFn fun j => matrix (0, j)).mapM intOf
  let body : Fin m × Fin n → Option ℝ := fun q => matrix (q.1.succ, q.2)
  let all ← used.mapM (npIdx names)
  let k : ℤ := if diag then -1 else 0
  let labelsX := if diag then all else dropLast1 all
  let labelsY := if diag then labelsX.reverse else dropLast1 labelsX.reverse
  if m ≠ n then .error .valueError
  else
    -- np.tri(m, k=k)[i][j] is 1 for j <= i + k
    let data : Fin n × Fin m → Option (Option ℝ) := fun q =>
      if ((q.1 : ℕ) : ℤ) ≤ ((q.2 : ℕ) : ℤ) + k then none else some (body (q.2, q.1))
    let vmax ← ext arrMax body
    let vmin ← ext arrMin body
    let xt := (List.range m).map fun i : ℕ => (i : ℝ) + 0.5
    let yt := (List.range n).map fun i : ℕ => (i : ℝ) + 0.5
    tickLabels strict xt labelsX
    tickLabels strict yt labelsY
    return ⟨⟨data, 0, m, 0, n, .upper, vmin, vmax⟩, xt, labelsX, yt, labelsY⟩

/-- `plot_variance` of what `np.genfromtxt` read: one dimension only (a single fitted parameter) ends
in `TypeError: 'numpy.float64' object is not iterable`, plot_routines.py:523. -/
noncomputable def plotVariance (strict : Bool) (matrix : MathFn.Arr) (order : ℕ) (diag : Bool) :
    Py (Σ m n, VarFig m n) :=
  match matrix with
  | .d1 0 _ => .error .indexError
  | .d1 (_ + 1) _ => do
    let _ ← paramLabels order
    .error .typeError
  | .d2 0 _ _ => .error .indexError
  | .d2 (m + 1) n f => do
    let r ← plotVariance2 strict f order diag
    return ⟨m, n, r⟩

/-! ## `plot_beam`, plot_routines.py:26-197 -/

/-- One of the three maps of `plot_beam` and `plot_beam_data`. -/
structure Panel (N : ℕ) (α : Type) where
  img : Img N N α
  /-- axes and levels of the contours -/
  cu : Fin N → ℝ
  cv : Fin N → ℝ
  levels : Fin 10 → Fl
  /-- the offset in the title -/
  dz : ℝ
  xlim : Option (ℝ × ℝ)
  ylim : Option (ℝ × ℝ)

/-- The normalised power of one map, plot_routines.py:100-116. -/
noncomputable def beamMap {N : ℕ} (I K : List ℝ) (wavel : ℝ) (illum : Illum (Fin N × Fin N))
    (tel : TelGeo (Fin N × Fin N)) (bf dz : ℝ) : Py (Pattern N × (Fin N × Fin N → ℝ)) := do
  let P ← radiationPattern I K dz wavel illum tel bf
  let p ← norm fun q => .fin (‖P.F q‖ ^ 2)
  return (P, p)

/-- `a[b == b.max()][0]` of two dimensional arrays: the first entry, in memory order, where `b` is
at its maximum. -/
noncomputable def firstMax {N : ℕ} (a b : Fin N × Fin N → ℝ) : Py ℝ := open Classical in do
  let order := (List.finRange N).flatMap fun i => (List.finRange N).map fun j => (i, j)
  let mx ← arrMax (order.map fun q => .fin (b q))
  pyIdx ((order.filter fun q => Fl.fin (b q) = mx).map a) 0

/-- The limits when none are given, plot_routines.py:119-134, in radians: `umin, umax, vmin, vmax`. -/
noncomputable def autoLimits {N : ℕ} (wavel pr : ℝ) (P : Pattern N) (p : Fin N × Fin N → ℝ) :
    Py (ℝ × ℝ × ℝ × ℝ) := do
  let bw := 1.22 * wavel / (2 * pr)
  let s := bw * 8
  let u0 ← firstMax (meshX P.u P.v) p
  let v0 ← firstMax (meshY P.u P.v) p
  return (-s + u0, s + u0, -s + v0, s + v0)

/-- The minimum or maximum of a real array. -/
noncomputable def extR {N : ℕ} (f : List Fl → Py Fl) (A : Fin N × Fin N → ℝ) : Py Fl :=
  f (Finset.univ.toList.map fun q => .fin (A q))

/-- `np.linspace(vmin, vmax, 10)` -/
noncomputable def levels10 (a b : Fl) (i : Fin 10) : Fl :=
  Fl.add a (Fl.mul (.fin (i : ℕ)) (Fl.div (Fl.sub b a) (.fin 9)))

/-- `ax.contour(..., levels=levels)`: `ValueError: Contour levels must be increasing` when two
consecutive levels do not increase (a comparison with nan is false). -/
noncomputable def contour (levels : Fin 10 → Fl) : Py Unit := open Classical in
  if ∃ (i j : Fin 10) (a b : ℝ), (j : ℕ) = i + 1 ∧ levels i = .fin a ∧ levels j = .fin b ∧ b ≤ a
  then .error .valueError else .ok ()

/-- One panel, plot_routines.py:161-193. -/
noncomputable def beamPanel {N : ℕ} (org : Origin) (c : ℝ) (lim : ℝ × ℝ × ℝ × ℝ) (dz : ℝ)
    (x : Pattern N × (Fin N × Fin N → ℝ)) : Py (Panel N ℝ) := do
  let vmin ← extR arrMin x.2
  let vmax ← extR arrMax x.2
  let u : Fin N → ℝ := fun j => x.1.u j * c
  let v : Fin N → ℝ := fun i => x.1.v i * c
  contour (levels10 vmin vmax)
  return ⟨⟨x.2, ← minR u, ← maxR u, ← minR v, ← maxR v, org, vmin, vmax⟩, u, v,
    levels10 vmin vmax, dz, some (lim.1 * c, lim.2.1 * c), some (lim.2.2.1 * c, lim.2.2.2 * c)⟩

/-- `plot_beam(...)`.  `plim` in radians.  The maps of all offsets are computed, the second gives the
centre, the first three are plotted: `IndexError` for fewer than three. -/
noncomputable def plotBeam {N : ℕ} (org : Origin) (I K : List ℝ) (dz : List ℝ) (wavel : ℝ)
    (illum : Illum (Fin N × Fin N)) (tel : TelGeo (Fin N × Fin N)) (bf : ℝ)
    (plim : Option (ℝ × ℝ × ℝ × ℝ)) (c : ℝ) : Py (List (Panel N ℝ)) := do
  let maps ← dz.mapM (beamMap I K wavel illum tel bf)
  let lim ← match plim with
    | some l => Except.ok l
    | none => do
      let m1 ← pyIdx maps 1
      autoLimits wavel tel.pr m1.1 m1.2
  let ds ← (List.range 3).mapM (pyIdx dz)
  let ms ← (List.range 3).mapM (pyIdx maps)
  (ds.zip ms).mapM fun x => beamPanel org c lim x.1 x.2

/-! ## `plot_beam_data`, plot_routines.py:200-332 -/

/-- `scipy.interpolate.griddata` with `method='cubic'` for `M` points and a grid of size `N`: nan
(`none`) outside the hull. -/
abbrev GridData (M N : ℕ) := (Fin M → ℝ) → (Fin M → ℝ) → (Fin M → ℝ) → (Fin N → ℝ) → (Fin N → ℝ) →
  Py (Fin N × Fin N → Option ℝ)

/-- One panel, plot_routines.py:283-329. -/
noncomputable def dataPanel {M N : ℕ} (org : Origin) (griddata : GridData M N) (c : ℝ) (dz : ℝ)
    (u v beam : Fin M → ℝ) : Py (Panel N (Option ℝ)) := do
  let u : Fin M → ℝ := fun k => u k * c
  let v : Fin M → ℝ := fun k => v k * c
  let ung := linspace (← minR u) (← maxR u) N
  let vng := linspace (← minR v) (← maxR v) N
  let g ← griddata u v beam ung vng
  let vmin ← ext arrMin g
  let vmax ← ext arrMax g
  contour (levels10 vmin vmax)
  return ⟨⟨g, ← minR ung, ← maxR ung, ← minR vng, ← maxR vng, org, vmin, vmax⟩, ung, vng,
    levels10 vmin vmax, dz, none, none⟩

/-- `plot_beam_data(u_data, v_data, beam_data, d_z, resolution, angle, title, res_mode)` for three maps
of `M` points; the maps are finite when `res_mode` is set. -/
noncomputable def plotBeamData {M N : ℕ} (org : Origin) (griddata : GridData M N) (c : ℝ)
    (u v : Fin 3 × Fin M → ℝ) (beam : Fin 3 × Fin M → ℝ) (dz : List ℝ) (resMode : Bool) :
    Py (List (Panel N (Option ℝ))) := do
  let beam ← if resMode then Except.ok beam else normAxis1 fun q => .fin (beam q)
  let ds ← (List.range 3).mapM (pyIdx dz)
  let _ ← uvRatio (fun k => u (0, k)) (fun k => v (0, k))
  (ds.zip (List.finRange 3)).mapM fun x => dataPanel org griddata c x.1 (fun k => u (x.2, k))
    (fun k => v (x.2, k)) (fun k => beam (x.2, k))

/-! ## `plot_phase` and `plot_phase_data`, plot_routines.py:335-478 -/

/-- A phase map: the image and the axes of the contours, with levels from −2 to 2 rad. -/
structure PhaseFig (m n : ℕ) where
  data : Fin m × Fin n → ℝ
  left : ℝ
  right : ℝ
  bottom : ℝ
  top : ℝ
  origin : Origin
  cx : Fin n → ℝ
  cy : Fin m → ℝ
  levels : Fin 9 → ℝ
  /-- does the title of the colour bar say that piston / tilt are left out? -/
  noPiston : Bool
  noTilt : Bool

/-- `plot_phase(K_coeff, pr, piston, tilt, title)`; `phase` has a default resolution of 1000. -/
noncomputable def plotPhase (org : Origin) (K : List ℝ) (pr : ℝ) (piston tilt : Bool) :
    Py (PhaseFig 1000 1000) := do
  let (noP, noT) :=
    if !tilt && !piston then (true, true)
    else if !tilt && piston then (false, true)
    else if tilt && !piston then (true, false)
    else (false, false)
  let p ← phase K pr piston tilt 1000
  return ⟨p.phi, -pr, pr, -pr, pr, org, p.x, p.y, linspace (-2) 2 9, noP, noT⟩

/-- `plot_phase_data(phase_data, pr, title)`: both axes have the length of the first axis of the
array, `contour` raises `TypeError` when that is not the number of columns. -/
noncomputable def plotPhaseData {m n : ℕ} (org : Origin) (data : Fin m × Fin n → ℝ) (pr : ℝ) :
    Py (PhaseFig m n) :=
  if h : m = n then
    .ok ⟨data, -pr, pr, -pr, pr, org, fun j => linspace (-pr) pr m (j.cast h.symm), linspace (-pr) pr m,
      linspace (-2) 2 9, false, false⟩
  else .error .typeError

/-! ## `plot_fit_path`, plot_routines.py:580-754 -/

/-- The figures. -/
structure FitFigs (N : ℕ) where
  data : Option (List (Panel N (Option ℝ)))
  beam : List (Panel N ℝ)
  phase : PhaseFig 1000 1000
  res : List (Panel N (Option ℝ))
  cov : Σ m n, VarFig m n
  corr : Σ m n, VarFig m n

/-- What `plot_fit_path` is given beside the path: illumination and geometry as functions of any grid,
the functions of scipy and matplotlib. -/
structure PlotEnv where
  org : Origin
  strict : Bool
  illum : ∀ N : ℕ, Illum (Fin N × Fin N)
  tel : ∀ N : ℕ, TelGeo (Fin N × Fin N)
  griddata : ∀ M N : ℕ, GridData M N
  c : ℝ
  plim : Option (ℝ × ℝ × ℝ × ℝ)

/-- `np.genfromtxt` of a file that holds numbers. -/
noncomputable def readArr (p : Path) : Prog Content MathFn.Arr := do
  let c ← readFile p
  Prog.lift (match c with | .csv _ rows => genfromtxt rows | _ => .error .valueError)

/-- Three maps, `a[0, :]`, `a[1, :]`, `a[2, :]`, all finite: `IndexError` for one dimension or fewer
rows.  Maps with nan are not modelled (`ValueError` stands for them). -/
noncomputable def threeRows (a : MathFn.Arr) : Py (Σ M, Fin 3 × Fin M → ℝ) := open Classical in
  match a with
  | .d1 _ _ => .error .indexError
  | .d2 m n f =>
    if h : 3 ≤ m then
      if ∀ i : Fin 3, ∀ j, (f (i.castLE h, j)).isSome then
        .ok ⟨n, fun q => (f (q.1.castLE h, q.2)).getD 0⟩
      else .error .valueError
    else .error .indexError

/-- The maps on common points: `ValueError` from `griddata` when the sizes differ. -/
noncomputable def sameSize (a b : Σ M, Fin 3 × Fin M → ℝ) : Py (Fin 3 × Fin a.1 → ℝ) :=
  if h : b.1 = a.1 then .ok fun q => b.2 (q.1, q.2.cast h.symm) else .error .valueError

/-- The figures from what the files hold, plot_routines.py:667-741.  The shapes of the arrays are
checked before the first figure is made, not on the way, which matters only for which of several
exceptions is raised. -/
noncomputable def figsOf (e : PlotEnv) (n : ℕ) (fit : List ℝ) (info : Info)
    (beam res u v cov corr : MathFn.Arr) : Py (Σ N, FitFigs N) := do
  let N := info.fftResolution
  let K := fit.drop 5
  let u3 ← threeRows u
  let v3 ← sameSize u3 (← threeRows v)
  let data ←
    if n = 1 then do
      let b3 ← sameSize u3 (← threeRows beam)
      let r ← plotBeamData (N := N) e.org (e.griddata u3.1 N) e.c u3.2 v3 b3 info.dz false
      Except.ok (some r)
    else .ok none
  let fb ← plotBeam e.org (fit.take 5) K info.dz info.wavel (e.illum N) (e.tel N) info.boxFactor
    e.plim e.c
  let fp ← plotPhase e.org K info.pr false false
  let r3 ← sameSize u3 (← threeRows res)
  let fr ← plotBeamData (N := N) e.org (e.griddata u3.1 N) e.c u3.2 v3 r3 info.dz true
  let fc ← plotVariance e.strict cov n true
  let fk ← plotVariance e.strict corr n true
  return ⟨N, data, fb, fp, fr, fc, fk⟩

/-- The part of `plot_fit_path` that reads and plots, plot_routines.py:650-741. -/
noncomputable def fitFigs (e : PlotEnv) (d : Path) (n : ℕ) : Prog Content (Σ N, FitFigs N) := do
  let c ← readFile (d.join (fileName "fitpar" n))
  let fit ← Prog.lift (match c with | .params _ fit _ => .ok fit | _ => .error .keyError)
  let c ← readFile (d.join "pyoof_info.yml".toList)
  let info ← Prog.lift (match c with | .info i => .ok i | _ => .error .keyError)
  let beam ← readArr (d.join "beam_data.csv".toList)
  let res ← readArr (d.join (fileName "res" n))
  let u ← readArr (d.join "u_data.csv".toList)
  let v ← readArr (d.join "v_data.csv".toList)
  let cov ← readArr (d.join (fileName "cov" n))
  let corr ← readArr (d.join (fileName "corr" n))
  Prog.lift (figsOf e n fit info beam res u v cov corr)

/-- The directory of the figures, plot_routines.py:642-645. -/
def plotsDir (d : Path) : Prog Content Unit := do
  let ex ← existsP (d.join "plots".toList)
  if ex then .ret () else makedirs (d.join "plots".toList) false

/-- The files of the figures, plot_routines.py:743-754. -/
def savePdfs (d : Path) (n : ℕ) : Prog Content Unit := do
  let plots := d.join "plots".toList
  let pdf := fun kind : String => plots.join (kind.toList ++ "_n".toList ++ decNat n ++ ".pdf".toList)
  writeFile .part (pdf "fitbeam") .plot
  writeFile .part (pdf "fitphase") .plot
  writeFile .part (pdf "residual") .plot
  writeFile .part (pdf "cov") .plot
  writeFile .part (pdf "corr") .plot
  if n = 1 then writeFile .part (plots.join "obsbeam.pdf".toList) .plot

/-- `plot_fit_path(path_pyoof_out, order, illum_func, telgeo, angle, plim, save)`.  The function
returns nothing, here the figures it has made. -/
noncomputable def plotFitPath (e : PlotEnv) (d : Path) (n : ℕ) (save : Bool) :
    Prog Content (Σ N, FitFigs N) := do
  plotsDir d
  let figs ← fitFigs e d n
  let _ ← if save then savePdfs d n else .ret ()
  return figs

end Verif.Plot
