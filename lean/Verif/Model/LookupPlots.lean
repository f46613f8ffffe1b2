import Verif.Model.CreateLookup
import Verif.Model.ActPlot

/-!
# Model of `scripts/create_lookup.py` with its figures

`Model/CreateLookup.lean` has the script without the figures.  Here they are made where the script makes them; they can end in
an exception.  `org` is the setting `image.origin` of matplotlib.  The dates in the names of the files are parameters, since the
script asks for the time anew for every name.
-/

namespace Verif.CreateLookup

open Verif Verif.Np Verif.Fs Verif.Store Verif.AuxFn Verif.Actuator Verif.Plot

/-- One panel of `fig_gravfit`: the points with their sizes, the curves (one for each call), the limits of the elevation, the
labels at the axes and in the legend. -/
structure GravPanel where
  points : List (ℝ × ℝ × Fl)
  curves : List (List (ℝ × ℝ))
  xlim : Option (ℝ × ℝ)
  ylabel : Bool
  xlabel : Bool
  legend : Option Str

/-- A panel as `plt.subplots` makes it. -/
def GravPanel.blank : GravPanel := ⟨[], [], none, false, false, none⟩

/-- `alpha_list` in degrees, create_lookup.py:83-87. -/
noncomputable def alphaList (num : ℕ) : List ℝ → Py (List ℝ)
  | [] => .error .valueError
  | x :: xs => .ok (List.ofFn (linspace (xs.foldl min x) (xs.foldl max x) num))

/-- `K_coeff_model`, create_lookup.py:90-93. -/
noncomputable def coeffModel (nK : ℕ) (g : List (List ℝ)) (xs : List ℝ) : Py (List (List ℝ)) :=
  xs.mapM fun x => (List.range nK).mapM fun i => do Act.gravDeformation (← pyIdx g i) (.quant x (Real.pi / 180))

/-- The inner loop for one observation on a panel, create_lookup.py:113-135. -/
noncomputable def gravPoint (j : ℕ) (xs : List ℝ) (curve : List ℝ) (p : GravPanel) (r : Row) (k : ℝ) : GravPanel :=
  { p with
    points := p.points ++ [(r.meanel, k * 2 * Real.pi, Fl.div (r.snr.getD 1 .nan) (.fin 100))]
    curves := p.curves ++ [xs.zip (curve.map fun y => y * 2 * Real.pi)]
    xlim := some (7, 90)
    ylabel := p.ylabel || j % 3 == 0
    xlabel := p.xlabel || decide (14 < j) }

/-- Panel `j`, create_lookup.py:112-138: six by three axes, so that `ax[j]` is an `IndexError` from 18 on. -/
noncomputable def gravPanel (n : ℕ) (sel : List Row) (K : List (List ℝ)) (xs : List ℝ) (model : List (List ℝ)) (j : ℕ) :
    Py GravPanel := do
  let nl := Aperture.nlList n
  if 18 ≤ j then throw .indexError
  let col ← K.mapM fun row => pyIdx row (j + 3 : ℕ)
  let curve ← model.mapM fun row => pyIdx row (j + 3 : ℕ)
  let q ← pyIdx nl (j + 3 : ℕ)
  let p := (sel.zip col).foldl (fun p rk => gravPoint j xs curve p rk.1 rk.2) GravPanel.blank
  return { p with legend := some ("K(".toList ++ decInt q.1 ++ ", ".toList ++ decInt q.2 ++ ")".toList) }

/-- `fig_gravfit`, create_lookup.py:107-139. -/
noncomputable def gravFigure (n : ℕ) (sel : List Row) (K : List (List ℝ)) (xs : List ℝ) (model : List (List ℝ)) :
    Py (List GravPanel) := do
  let m := (n + 1) * (n + 2) / 2 - 3
  let l ← (List.range m).mapM (gravPanel n sel K xs model)
  return l ++ List.replicate (18 - m) GravPanel.blank

/-- The text of a look-up table. -/
def readTable (p : Path) : Prog Content Str := do
  let c ← readFile p
  Prog.lift (match c with | .text s => .ok s | _ => .error .valueError)

/-- `actuators.plot(data_r=phases_pr_model, ...)`, create_lookup.py:101-104. -/
noncomputable def plotPhases (a : Act) (org : Origin) (phases : List a.Map) : Py (List (Act.Panel a.resolution)) :=
  match a.stackOf phases with
  | .d3 d A => a.plot org true d A
  | _ => .error .indexError

/-- The four figures. -/
structure Figures (N : ℕ) where
  model : List (Act.Panel N)
  lookup : List (Act.Panel N)
  correction : List (Act.Panel N)
  gravfit : List GravPanel

/-- The names of the files, create_lookup.py:145-147 and :174-183. -/
def tableName (date : Str) : Str := "FEM_OOF_Table_".toList ++ date ++ ".dat".toList

def modelName (date : Str) : Str := "phase_pr_model_".toList ++ date ++ ".pdf".toList

def lookupName : Str := "phase_pr_lookup.pdf".toList

def correctionName (date : Str) : Str := "phases_pr_correction_".toList ++ date ++ ".pdf".toList

def gravfitName (date : Str) : Str := "gravfit_".toList ++ date ++ ".pdf".toList

/-- What the script does before it writes anything, create_lookup.py:32-139: the coefficients of the model and the figures of the
model, of the present table and of the fit. -/
noncomputable def prepare (a : Act) (org : Origin) (solver : Act.Solver (List ℝ)) (out : Path) (run : Str)
    (sort : List Row → Py (List Row)) (dirs : List Path) (lookup : Path) :
    Prog Content (List (List ℝ) × List (Act.Panel a.resolution) × List (Act.Panel a.resolution) × List GravPanel) := do
  let s ← readTable lookup
  let _ ← Prog.lift (a.phaseLookup s)
  let obs ← observed out run a.order sort dirs
  let g ← Prog.lift (a.fitGrav solver obs.2 (obs.1.map fun r => .quant r.meanel (Real.pi / 180)))
  let xs ← Prog.lift (alphaList a.resolution (obs.1.map fun r => r.meanel))
  let model ← Prog.lift (coeffModel a.nK g xs)
  let phases ← Prog.lift (a.generatePhasePr g (Act.alphaLookup.map fun n : ℕ => .quant n (Real.pi / 180)) true)
  let f1 ← Prog.lift (plotPhases a org phases)
  let f2 ← Prog.lift (a.plotDefault org s)
  let f3 ← Prog.lift (gravFigure a.order obs.1 obs.2 xs model)
  return (g, f1, f2, f3)

/-- The script with its figures; `dates` are the dates in the names of the table, of the figure of the model, of the figure of
the new table and of the figure of the fit.  The second actuator object has the parameters of the first one and the new table. -/
noncomputable def scriptP (a : Act) (org : Origin) (solver : Act.Solver (List ℝ)) (out : Path) (run : Str)
    (sort : List Row → Py (List Row)) (dirs : List Path) (lookup save : Path) (dates : Fin 4 → Str) :
    Prog Content (Figures a.resolution) := do
  let p ← prepare a org solver out run sort dirs lookup
  saveDir save
  writeTable a p.1 lookup save (tableName (dates 0))
  let s ← readTable (save.join (tableName (dates 0)))
  let f4 ← Prog.lift (a.plotDefault org s)
  writeFile .part (save.join (modelName (dates 1))) .plot
  writeFile .part (save.join lookupName) .plot
  writeFile .part (save.join (correctionName (dates 2))) .plot
  writeFile .part (save.join (gravfitName (dates 3))) .plot
  return ⟨p.2.1, p.2.2.1, f4, p.2.2.2⟩

end Verif.CreateLookup
