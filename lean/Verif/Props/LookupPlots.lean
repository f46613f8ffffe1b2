import Verif.Model.LookupPlots
import Verif.Props.Observations
import Verif.Props.ActPlot
import Verif.Props.NewTable
import Verif.Props.Names
import Verif.Props.Latex

/-! # C114: the figures of the script that makes a look-up table -/

namespace Verif.Props

open Verif Verif.Np Verif.Fs Verif.Store Verif.AuxFn Verif.Actuator Verif.CreateLookup Verif.Plot

/-! ## Specification -/

/-- The size of a marker: a hundredth of the signal-to-noise ratio. -/
noncomputable def Spec.markerSize : Fl → Fl
  | .fin x => .fin (x / 100)
  | x => x

/-- The gravitational model of a coefficient at `deg` degrees, in radians of phase. -/
noncomputable def Spec.gravPhase (b : List ℝ) (deg : ℝ) : ℝ :=
  2 * Real.pi * (b.getD 0 0 * Real.sin (deg * (Real.pi / 180)) + b.getD 1 0 * Real.cos (deg * (Real.pi / 180)) + b.getD 2 0)

/-- The curve of a coefficient with the model `b`: `num` points at equal distances from the elevation `lo` to `hi`. -/
structure Spec.Curve (b : List ℝ) (lo hi : ℝ) (num : ℕ) (c : List (ℝ × ℝ)) : Prop where
  length : c.length = num
  points : ∀ (t : ℕ) x y, c[t]? = some (x, y) → x = lo + t * ((hi - lo) / ((num : ℝ) - 1)) ∧ y = Spec.gravPhase b x

/-- Panel `j` shows the coefficient number `j + 3`, whose name in the parameter table is in row `j + 8`: the points (elevation in
degrees, phase in radians, size), the model, the labels. -/
structure Spec.ShowsCoeff (j : ℕ) (names : List Str) (pts : List (ℝ × ℝ × Fl)) (b : List ℝ) (num : ℕ) (p : GravPanel) :
    Prop where
  legend : p.legend.isSome ∧ p.legend = names[j + 8]?
  points : p.points = pts
  curves : p.curves.length = pts.length ∧ ∃ lo hi, (∃ q ∈ pts, q.1 = lo) ∧ (∃ q ∈ pts, q.1 = hi) ∧
    (∀ q ∈ pts, lo ≤ q.1 ∧ q.1 ≤ hi) ∧ ∀ c ∈ p.curves, Spec.Curve b lo hi num c
  range : p.xlim = some (7, 90)
  ylabel : p.ylabel = true ↔ j % 3 = 0
  xlabel : p.xlabel = true ↔ 15 ≤ j

/-! ## The figure of the fit -/

theorem foldl_gravPoint (j : ℕ) (xs curve : List ℝ) (l : List (Row × ℝ)) (p : GravPanel) :
    l.foldl (fun p rk => gravPoint j xs curve p rk.1 rk.2) p =
      { points := p.points ++ l.map fun rk => (rk.1.meanel, rk.2 * 2 * Real.pi, Fl.div (rk.1.snr.getD 1 .nan) (.fin 100))
        curves := p.curves ++ List.replicate l.length (xs.zip (curve.map fun y => y * 2 * Real.pi))
        xlim := if l = [] then p.xlim else some (7, 90)
        ylabel := p.ylabel || (!l.isEmpty && j % 3 == 0)
        xlabel := p.xlabel || (!l.isEmpty && decide (14 < j))
        legend := p.legend } := by
  induction l generalizing p with
  | nil => simp
  | cons rk l ih =>
    rw [List.foldl_cons, ih]
    unfold gravPoint
    simp only [List.append_assoc, List.singleton_append, List.map_cons, List.length_cons, List.replicate_succ,
      List.isEmpty_cons, Bool.not_false, Bool.true_and, List.cons_ne_nil, if_false, GravPanel.mk.injEq, and_true, true_and,
      ite_self]
    refine ⟨?_, ?_⟩
    · cases p.ylabel <;> cases (j % 3 == 0) <;> simp
    · cases p.xlabel <;> cases (decide (14 < j)) <;> simp

theorem div_hundred (s : Fl) : Fl.div s (.fin 100) = Spec.markerSize s := by
  cases s with
  | fin x => exact Fl.div_fin x (by norm_num)
  | nan => rfl
  | pinf => simp [Fl.div, Spec.markerSize]
  | ninf => simp [Fl.div, Spec.markerSize]

theorem alphaList_ok (num : ℕ) (l : List ℝ) (h : l ≠ []) :
    ∃ lo hi, alphaList num l = .ok (List.ofFn (linspace lo hi num)) ∧ lo ∈ l ∧ hi ∈ l ∧ ∀ x ∈ l, lo ≤ x ∧ x ≤ hi := by
  cases l with
  | nil => exact absurd rfl h
  | cons x xs =>
    obtain ⟨a3, a1, a2⟩ := foldl_min_spec xs x
    obtain ⟨b3, b1, b2⟩ := foldl_max_spec xs x
    refine ⟨xs.foldl min x, xs.foldl max x, rfl, ?_, ?_, fun y hy => ?_⟩
    · rcases a3 with e | e
      · rw [e]; exact List.mem_cons_self
      · exact List.mem_cons_of_mem _ e
    · rcases b3 with e | e
      · rw [e]; exact List.mem_cons_self
      · exact List.mem_cons_of_mem _ e
    · rcases List.mem_cons.1 hy with rfl | hy
      · exact ⟨a1, b1⟩
      · exact ⟨a2 y hy, b2 y hy⟩

theorem coeffModel_ok (nK : ℕ) (g : List (List ℝ)) (hg : g.length = nK) (h3 : ∀ b ∈ g, b.length = 3) (xs : List ℝ) :
    coeffModel nK g xs = .ok (xs.map fun x => (List.range nK).map fun i =>
      (g.getD i []).getD 0 0 * Real.sin (x * (Real.pi / 180)) + (g.getD i []).getD 1 0 * Real.cos (x * (Real.pi / 180)) +
        (g.getD i []).getD 2 0) := by
  unfold coeffModel
  refine mapM_ok _ _ _ fun x _ => mapM_ok _ _ _ fun i hi => ?_
  have hi' : i < g.length := by rw [hg]; exact List.mem_range.1 hi
  have : pyIdx g i = .ok g[i] := by simp only [pyIdx, List.getElem?_eq_getElem hi']
  rw [this]
  show Act.gravDeformation g[i] _ = _
  rw [grav_ok (h3 _ (List.getElem_mem _)).ge, List.getD_eq_getElem?_getD (l := g), List.getElem?_eq_getElem hi']
  rfl

/-- **C114.**  The figure of the fit has eighteen panels; the panel that is labelled with the name of a coefficient shows the
values of that coefficient and its model, the remaining ones are empty. -/
theorem C114_gravfit (n : ℕ) (hn : 1 ≤ n) (hn5 : n ≤ 5) (sel : List Row) (hsel : sel ≠ []) (K : List (List ℝ))
    (hK : K.length = sel.length) (hrow : ∀ r ∈ K, r.length = Spec.nK n) (g : List (List ℝ)) (hg : g.length = Spec.nK n)
    (hg3 : ∀ b ∈ g, b.length = 3) (num : ℕ) :
    ∃ xs model ps names, alphaList num (sel.map fun r => r.meanel) = .ok xs ∧ coeffModel (Spec.nK n) g xs = .ok model ∧
      gravFigure n sel K xs model = .ok ps ∧ paramNames n = .ok names ∧ ps.length = 18 ∧
      (∀ j p, j + 3 < Spec.nK n → ps[j]? = some p → Spec.ShowsCoeff j names
        ((sel.zip K).map fun q => (q.1.meanel, 2 * Real.pi * q.2.getD (j + 3) 0, Spec.markerSize (q.1.snr.getD 1 .nan)))
        (g.getD (j + 3) []) num p) ∧
      ∀ j, Spec.nK n ≤ j + 3 → j < 18 → ps[j]? = some GravPanel.blank := by
  obtain ⟨lo, hi, h1, h2, h3, h4⟩ := alphaList_ok num (sel.map fun r => r.meanel) (by simpa using hsel)
  have h5 := coeffModel_ok (Spec.nK n) g hg hg3 (List.ofFn (linspace lo hi num))
  have h18 : Spec.nK n ≤ 21 := by
    unfold Spec.nK
    interval_cases n <;> norm_num
  have h3K : 3 ≤ Spec.nK n := by
    unfold Spec.nK
    interval_cases n <;> norm_num
  set xs := List.ofFn (linspace lo hi num) with hxs
  set model := xs.map fun x => (List.range (Spec.nK n)).map fun i =>
      (g.getD i []).getD 0 0 * Real.sin (x * (Real.pi / 180)) + (g.getD i []).getD 1 0 * Real.cos (x * (Real.pi / 180)) +
        (g.getD i []).getD 2 0 with hmodel
  have hnames := paramNames_eq n
  set names := ["i_amp".toList, "c_dB".toList, "q".toList, "x_0".toList, "y_0".toList] ++
      (Aperture.nlList n).map fun p => Spec.kName p.1 p.2 with hnm
  have hnl : (Aperture.nlList n).length = Spec.nK n := C07_length n
  let panel : ℕ → GravPanel := fun j =>
    { points := (sel.zip K).map fun q => (q.1.meanel, 2 * Real.pi * q.2.getD (j + 3) 0, Spec.markerSize (q.1.snr.getD 1 .nan))
      curves := List.replicate sel.length (xs.map fun x => (x, Spec.gravPhase (g.getD (j + 3) []) x))
      xlim := some (7, 90)
      ylabel := j % 3 == 0
      xlabel := decide (14 < j)
      legend := names[j + 8]? }
  have hpanel : ∀ j ∈ List.range (Spec.nK n - 3), gravPanel n sel K xs model j = .ok (panel j) := by
    intro j hj
    have hj' : j + 3 < Spec.nK n := by have := List.mem_range.1 hj; omega
    unfold gravPanel
    rw [if_neg (by omega)]
    have c1 : K.mapM (fun row => pyIdx row (j + 3 : ℕ)) = .ok (K.map fun row => row.getD (j + 3) 0) := by
      refine mapM_ok _ _ _ fun r hr => ?_
      have hl := hrow r hr
      simp only [pyIdx, List.getD_eq_getElem?_getD, List.getElem?_eq_getElem (show j + 3 < r.length by omega)]
      rfl
    have c2 : model.mapM (fun row => pyIdx row (j + 3 : ℕ)) = .ok (xs.map fun x => 
        (g.getD (j + 3) []).getD 0 0 * Real.sin (x * (Real.pi / 180)) +
          (g.getD (j + 3) []).getD 1 0 * Real.cos (x * (Real.pi / 180)) + (g.getD (j + 3) []).getD 2 0) := by
      rw [hmodel, List.mapM_map]
      refine mapM_ok _ _ _ fun x _ => ?_
      simp only [Function.comp, pyIdx, List.getElem?_map, List.getElem?_range hj', Option.map_some]
    have c3 : pyIdx (Aperture.nlList n) (j + 3 : ℕ) = .ok ((Aperture.nlList n)[j + 3]'(by omega)) := by
      simp only [pyIdx, List.getElem?_eq_getElem (show j + 3 < (Aperture.nlList n).length by omega)]
    rw [c1, c2, c3]
    simp only [pure, Except.pure, bind, Except.bind, foldl_gravPoint]
    have hl : (sel.zip (K.map fun row => row.getD (j + 3) 0)).length = sel.length := by simp [hK]
    have hne : sel.zip (K.map fun row => row.getD (j + 3) 0) ≠ [] := by
      intro h
      rw [h] at hl
      exact hsel (List.length_eq_zero_iff.1 hl.symm)
    have hie : (sel.zip (K.map fun row => row.getD (j + 3) 0)).isEmpty = false := by
      rw [List.isEmpty_eq_false_iff]; exact hne
    simp only [hl, hie, if_neg hne, GravPanel.blank, List.nil_append, Bool.not_false, Bool.true_and, Bool.false_or, panel]
    congr 2
    · rw [List.zip_map_right, List.map_map]
      refine List.map_congr_left fun q _ => ?_
      simp only [Function.comp, div_hundred, Prod.map]
      refine congrArg (Prod.mk _) (congrArg₂ Prod.mk (by ring) rfl)
    · congr 1
      rw [List.map_map, ← List.map_prod_left_eq_zip]
      refine List.map_congr_left fun x _ => ?_
      simp only [Function.comp, Spec.gravPhase]
      refine congrArg (Prod.mk _) (by ring)
    · rw [hnm, List.getElem?_append_right (by simp)]
      simp only [List.length_cons, List.length_nil, Nat.zero_add, Nat.reduceAdd, Nat.add_sub_add_right,
        show j + 8 - 5 = j + 3 by omega, List.getElem?_map, List.getElem?_eq_getElem (show j + 3 < (Aperture.nlList n).length by omega),
        Option.map_some]
      simp [Spec.kName]
  refine ⟨xs, model, (List.range (Spec.nK n - 3)).map panel ++ List.replicate (18 - (Spec.nK n - 3)) GravPanel.blank, names,
    h1, h5, ?_, hnames, ?_, fun j p hj hp => ?_, fun j hj hj' => ?_⟩
  · unfold gravFigure
    show ((List.range (Spec.nK n - 3)).mapM _ >>= _) = _
    rw [mapM_ok _ _ panel hpanel]
    rfl
  · simp
    omega
  · rw [List.getElem?_append_left (by simp; omega), List.getElem?_map, List.getElem?_range (by omega)] at hp
    cases hp
    refine ⟨⟨?_, rfl⟩, rfl, ⟨?_, lo, hi, ?_, ?_, ?_, ?_⟩, rfl, ?_, ?_⟩
    · show (names[j + 8]?).isSome = true
      rw [List.getElem?_eq_getElem]
      · rfl
      · rw [hnm, List.length_append, List.length_map, hnl]
        simp
        omega
    · simp [panel, hK]
    · obtain ⟨r, hr, e⟩ := List.mem_map.1 h2
      obtain ⟨i, hi', rfl⟩ := List.getElem_of_mem hr
      exact ⟨_, List.mem_map.2 ⟨(sel[i], K[i]), by
        rw [← List.getElem_zip (h := by simp; omega)]; exact List.getElem_mem _, rfl⟩, e⟩
    · obtain ⟨r, hr, e⟩ := List.mem_map.1 h3
      obtain ⟨i, hi', rfl⟩ := List.getElem_of_mem hr
      exact ⟨_, List.mem_map.2 ⟨(sel[i], K[i]), by
        rw [← List.getElem_zip (h := by simp; omega)]; exact List.getElem_mem _, rfl⟩, e⟩
    · intro q hq
      obtain ⟨z, hz, rfl⟩ := List.mem_map.1 hq
      exact h4 _ (List.mem_map.2 ⟨z.1, (List.of_mem_zip hz).1, rfl⟩)
    · intro c hc
      rw [List.eq_of_mem_replicate hc]
      refine ⟨by simp [hxs], fun t x y ht => ?_⟩
      rw [List.getElem?_map, hxs, List.getElem?_ofFn] at ht
      split_ifs at ht with htn
      · cases ht
        exact ⟨rfl, rfl⟩
      · cases ht
    · simp [panel]
    · simp [panel]
      omega
  · rw [List.getElem?_append_right (by simp; omega), List.getElem?_replicate, if_pos]
    simp
    omega

/-! ## The script -/

/-- From order six on there are more coefficients than panels: the script ends in an exception, whatever the observations, and
writes nothing, neither table nor figures. -/
theorem gravFigure_six (n : ℕ) (hn : 6 ≤ n) (sel : List Row) (K : List (List ℝ)) (xs : List ℝ) (model : List (List ℝ)) :
    ∃ e, gravFigure n sel K xs model = .error e := by
  unfold gravFigure
  dsimp only
  cases h : (List.range ((n + 1) * (n + 2) / 2 - 3)).mapM (gravPanel n sel K xs model) with
  | error e => exact ⟨e, rfl⟩
  | ok l =>
    exfalso
    obtain ⟨h1, h2⟩ := mapM_split _ _ _ h
    have h18 : 18 < (n + 1) * (n + 2) / 2 - 3 := by
      have : 28 ≤ (n + 1) * (n + 2) / 2 := by
        rw [Nat.le_div_iff_mul_le (by norm_num)]
        nlinarith
      omega
    rw [List.length_range] at h1
    have := h2 18 18 (l[18]'(by omega)) (List.getElem?_range h18) (List.getElem?_eq_getElem (by omega))
    unfold gravPanel at this
    rw [if_pos le_rfl] at this
    cases this

theorem writes_tableRow {S : Path → Prop} (order : ℕ) (p : Path) : Writes S (tableRow order p) := by
  unfold tableRow
  repeat' first
    | exact writes_readFile _
    | exact writes_lift _
    | exact trivial
    | refine writes_bind ?_ fun _ => ?_
    | split

theorem writes_table {S : Path → Prop} (order : ℕ) (l : List Path) : Writes S (tablePyoofOut order l) := by
  induction l with
  | nil => exact trivial
  | cons p l ih =>
    unfold tablePyoofOut
    exact writes_bind (writes_tableRow _ _) fun _ => writes_bind ih fun _ => trivial

theorem writes_coeffRows {S : Path → Prop} (out : Path) (run : Str) (n : ℕ) (l : List Row) :
    Writes S (coeffRows out run n l) := by
  induction l with
  | nil => exact trivial
  | cons r l ih =>
    unfold coeffRows
    refine writes_bind ?_ fun _ => writes_bind ih fun _ => trivial
    unfold rowCoeffs
    refine writes_bind (writes_readFile _) fun c => ?_
    cases c <;> first | exact writes_lift _ | exact trivial

theorem writes_observed {S : Path → Prop} (out : Path) (run : Str) (n : ℕ) (sort : List Row → Py (List Row))
    (l : List Path) : Writes S (observed out run n sort l) := by
  unfold observed
  exact writes_bind (writes_table _ _) fun _ => writes_bind (writes_lift _) fun _ =>
    writes_bind (writes_coeffRows _ _ _ _) fun _ => trivial

theorem writes_readTable {S : Path → Prop} (p : Path) : Writes S (readTable p) :=
  writes_bind (writes_readFile _) fun _ => writes_lift _

/-- Up to the figures nothing is written. -/
theorem writes_prepare {S : Path → Prop} (a : Act) (org : Origin) (solver : Act.Solver (List ℝ)) (out : Path) (run : Str)
    (sort : List Row → Py (List Row)) (dirs : List Path) (lookup : Path) :
    Writes S (prepare a org solver out run sort dirs lookup) := by
  unfold prepare
  exact writes_bind (writes_readTable _) fun _ => writes_bind (writes_lift _) fun _ =>
    writes_bind (writes_observed _ _ _ _ _) fun _ =>
    writes_bind (writes_lift _) fun _ => writes_bind (writes_lift _) fun _ => writes_bind (writes_lift _) fun _ =>
    writes_bind (writes_lift _) fun _ => writes_bind (writes_lift _) fun _ => writes_bind (writes_lift _) fun _ =>
    writes_bind (writes_lift _) fun _ => trivial

theorem prepare_six (a : Act) (org : Origin) (solver : Act.Solver (List ℝ)) (out : Path) (run : Str)
    (sort : List Row → Py (List Row)) (dirs : List Path) (lookup : Path) (h6 : 6 ≤ a.order) (fs fs' : FS Content) (r) :
    (prepare a org solver out run sort dirs lookup).run fs ≠ (.ok r, fs') := by
  intro h
  unfold prepare at h
  obtain ⟨s, fs1, -, h⟩ := Prog.run_bind_ok.1 h
  obtain ⟨-, fs2, -, h⟩ := Prog.run_bind_ok.1 h
  obtain ⟨obs, fs3, -, h⟩ := Prog.run_bind_ok.1 h
  obtain ⟨g, fs4, -, h⟩ := Prog.run_bind_ok.1 h
  obtain ⟨xs, fs5, -, h⟩ := Prog.run_bind_ok.1 h
  obtain ⟨model, fs6, -, h⟩ := Prog.run_bind_ok.1 h
  obtain ⟨phases, fs7, -, h⟩ := Prog.run_bind_ok.1 h
  obtain ⟨f1, fs8, -, h⟩ := Prog.run_bind_ok.1 h
  obtain ⟨f2, fs9, -, h⟩ := Prog.run_bind_ok.1 h
  obtain ⟨f3, fs10, h, -⟩ := Prog.run_bind_ok.1 h
  obtain ⟨e, he⟩ := gravFigure_six a.order h6 obs.1 obs.2 xs model
  rw [Prog.run_lift, he] at h
  cases h

/-- **C114.**  From order six on there are more coefficients than panels: whatever the observations, the script ends in an
exception and writes nothing, no table either. -/
theorem C114_order (a : Act) (org : Origin) (solver : Act.Solver (List ℝ)) (out : Path) (run : Str)
    (sort : List Row → Py (List Row)) (dirs : List Path) (lookup save : Path) (dates : Fin 4 → Str) (h6 : 6 ≤ a.order)
    (fs : FS Content) :
    ∃ e, (scriptP a org solver out run sort dirs lookup save dates).run fs = (.error e, fs) := by
  unfold scriptP
  rw [Prog.run_bind]
  rcases h : (prepare a org solver out run sort dirs lookup).run fs with ⟨e | r, fs'⟩
  · have : fs' = fs := funext fun q => run_frame (S := fun _ => False) (writes_prepare _ _ _ _ _ _ _ _) h id
    rw [this]
    exact ⟨e, rfl⟩
  · exact absurd h (prepare_six a org solver out run sort dirs lookup h6 fs fs' r)

/-- The files that the script writes. -/
def Spec.ScriptFile (save : Path) (dates : Fin 4 → Str) (q : Path) : Prop :=
  q = ("FEM_OOF_Table_".toList ++ dates 0 ++ ".dat".toList) :: save ∨
  q = ("phase_pr_model_".toList ++ dates 1 ++ ".pdf".toList) :: save ∨ q = "phase_pr_lookup.pdf".toList :: save ∨
  q = ("phases_pr_correction_".toList ++ dates 2 ++ ".pdf".toList) :: save ∨
  q = ("gravfit_".toList ++ dates 3 ++ ".pdf".toList) :: save

theorem puts_saveDir {S : Path → Prop} (save : Path) : Puts S (saveDir save) := by
  unfold saveDir
  refine puts_bind (puts_isdirP _) fun e => ?_
  cases e
  · exact puts_makedirs _ _
  · exact trivial

theorem puts_writeTable (a : Act) (g : List (List ℝ)) (lookup save : Path) (fname : Str) :
    Puts (fun p => p = fname :: save) (writeTable a g lookup save fname) := by
  unfold writeTable
  exact puts_bind (puts_readFile _) fun _ => puts_bind (puts_lift _) fun _ => puts_bind (puts_lift _)
    fun _ => puts_writeFile (S := fun p => p = fname :: save) rfl _ _

theorem puts_of_writes {S : Path → Prop} {α : Type} {p : Prog Content α} (h : Writes S p) : Puts S p := by
  induction p with
  | ret a => trivial
  | raise e => trivial
  | op o k ih => exact ⟨fun p c e => h.1 p (by rw [e]; rfl), fun r => ih r (h.2 r)⟩

theorem puts_prepare {S : Path → Prop} (a : Act) (org : Origin) (solver : Act.Solver (List ℝ)) (out : Path) (run : Str)
    (sort : List Row → Py (List Row)) (dirs : List Path) (lookup : Path) :
    Puts S (prepare a org solver out run sort dirs lookup) := puts_of_writes (writes_prepare _ _ _ _ _ _ _ _)

/-- **C114.**  Whatever the input, and wherever the script is stopped: nothing that was there is changed, except the files of
the new table and of the figures. -/
theorem C114_untouched (a : Act) (org : Origin) (solver : Act.Solver (List ℝ)) (out : Path) (run : Str)
    (sort : List Row → Py (List Row)) (dirs : List Path) (lookup save : Path) (dates : Fin 4 → Str)
    (fs fs' : FS Content) (h : fs' ∈ (scriptP a org solver out run sort dirs lookup save dates).trace fs) (q : Path)
    (hq : fs q ≠ none) (hne : ¬ Spec.ScriptFile save dates q) : fs' q = fs q := by
  refine trace_puts (S := Spec.ScriptFile save dates) ?_ h (Option.isSome_iff_ne_none.2 hq) hne
  unfold scriptP
  exact puts_bind (puts_prepare _ _ _ _ _ _ _ _) fun _ => puts_bind (puts_saveDir _) fun _ =>
    puts_bind (puts_mono (fun q h => .inl h) (puts_writeTable _ _ _ _ _)) fun _ => puts_bind (puts_of_writes (writes_readTable _)) fun _ =>
    puts_bind (puts_lift _) fun _ => puts_bind (puts_writeFile (.inr (.inl rfl)) _ _) fun _ =>
    puts_bind (puts_writeFile (.inr (.inr (.inl rfl))) _ _) fun _ =>
    puts_bind (puts_writeFile (.inr (.inr (.inr (.inl rfl)))) _ _) fun _ =>
    puts_bind (puts_writeFile (.inr (.inr (.inr (.inr rfl)))) _ _) fun _ => trivial

/-! ## The names of the files -/

theorem prefix_ne {p p' r r' : Str} (k : ℕ) (h : k < p.length) (h' : k < p'.length) (hk : p[k]? ≠ p'[k]?) :
    p ++ r ≠ p' ++ r' := by
  intro e
  have := congrArg (·[k]?) e
  simp only [List.getElem?_append_left h, List.getElem?_append_left h'] at this
  exact hk this

theorem names_ne (d : Fin 4 → Str) :
    tableName (d 0) ≠ modelName (d 1) ∧ tableName (d 0) ≠ lookupName ∧ tableName (d 0) ≠ correctionName (d 2) ∧
    tableName (d 0) ≠ gravfitName (d 3) ∧ modelName (d 1) ≠ lookupName ∧ modelName (d 1) ≠ correctionName (d 2) ∧
    modelName (d 1) ≠ gravfitName (d 3) ∧ lookupName ≠ correctionName (d 2) ∧ lookupName ≠ gravfitName (d 3) ∧
    correctionName (d 2) ≠ gravfitName (d 3) := by
  unfold tableName modelName correctionName gravfitName
  have hl : lookupName = "phase_pr_lookup.pdf".toList ++ [] := (List.append_nil _).symm
  rw [hl]
  simp only [List.append_assoc]
  exact ⟨prefix_ne 0 (by decide) (by decide) (by decide), prefix_ne 0 (by decide) (by decide) (by decide),
    prefix_ne 0 (by decide) (by decide) (by decide), prefix_ne 0 (by decide) (by decide) (by decide),
    prefix_ne 9 (by decide) (by decide) (by decide), prefix_ne 5 (by decide) (by decide) (by decide),
    prefix_ne 0 (by decide) (by decide) (by decide), prefix_ne 5 (by decide) (by decide) (by decide),
    prefix_ne 0 (by decide) (by decide) (by decide), prefix_ne 0 (by decide) (by decide) (by decide)⟩

theorem long_not_suffix {f : Str} {d : Path} : ¬ (f :: d) <:+ d := by
  intro h
  have := h.length_le
  simp at this

theorem writes_saveDir (save : Path) : Writes (fun q => q <:+ save) (saveDir save) := by
  unfold saveDir
  refine writes_bind (writes_isdirP _) fun e => ?_
  cases e
  · exact writes_makedirs _ _
  · exact trivial

theorem writes_writeTable (a : Act) (g : List (List ℝ)) (lookup save : Path) (fname : Str) :
    Writes (fun p => p = fname :: save) (writeTable a g lookup save fname) := by
  unfold writeTable
  exact writes_bind (writes_readFile _) fun _ => writes_bind (writes_lift _) fun _ => writes_bind (writes_lift _)
    fun _ => writes_writeFile (S := fun p => p = fname :: save) rfl _ _

/-- **C114.**  The figures are written when the table is complete: wherever the script is stopped, the files of the figures
are as before or the table is there as the complete script leaves it. -/
theorem C114_after (a : Act) (org : Origin) (solver : Act.Solver (List ℝ)) (out : Path) (run : Str)
    (sort : List Row → Py (List Row)) (dirs : List Path) (lookup save : Path) (dates : Fin 4 → Str)
    (fs f : FS Content) (h : f ∈ (scriptP a org solver out run sort dirs lookup save dates).trace fs) :
    (∀ q, Spec.ScriptFile save dates q → q ≠ ("FEM_OOF_Table_".toList ++ dates 0 ++ ".dat".toList) :: save → f q = fs q) ∨
    ∃ s, f (("FEM_OOF_Table_".toList ++ dates 0 ++ ".dat".toList) :: save) = some (.file (.text s)) ∧
      ((scriptP a org solver out run sort dirs lookup save dates).run fs).2
        (("FEM_OOF_Table_".toList ++ dates 0 ++ ".dat".toList) :: save) = some (.file (.text s)) := by
  obtain ⟨n1, n2, n3, n4, -⟩ := names_ne dates
  set T : Path := ("FEM_OOF_Table_".toList ++ dates 0 ++ ".dat".toList) :: save with hT
  have hlong : ∀ q, Spec.ScriptFile save dates q → ¬ q <:+ save := by
    rintro q (rfl | rfl | rfl | rfl | rfl) <;> exact long_not_suffix
  unfold scriptP at h ⊢
  rcases Prog.mem_trace_bind h with h1 | ⟨p, fs1, e1, h1⟩
  · exact .inl fun q _ _ => trace_frame (S := fun _ => False) (writes_prepare _ _ _ _ _ _ _ _) h1 id
  have k1 : fs1 = fs := funext fun q => run_frame (S := fun _ => False) (writes_prepare _ _ _ _ _ _ _ _) e1 id
  subst k1
  rcases Prog.mem_trace_bind h1 with h2 | ⟨⟨⟩, fs2, e2, h2⟩
  · exact .inl fun q hq _ => trace_frame (writes_saveDir save) h2 (hlong q hq)
  have k2 : ∀ q, ¬ q <:+ save → fs2 q = fs1 q := fun q hq => run_frame (writes_saveDir save) e2 hq
  rcases Prog.mem_trace_bind h2 with h4 | ⟨⟨⟩, fs3, e3, h4⟩
  · exact .inl fun q hq hne => (trace_frame (writes_writeTable _ _ _ _ _) h4 hne).trans (k2 q (hlong q hq))
  right
  have h3 : ∃ s, fs3 T = some (.file (.text s)) := by
    unfold writeTable at e3
    obtain ⟨c, g1, -, e3⟩ := Prog.run_bind_ok.1 e3
    obtain ⟨old, g2, -, e3⟩ := Prog.run_bind_ok.1 e3
    obtain ⟨new, g3, -, e3⟩ := Prog.run_bind_ok.1 e3
    rw [run_writeFile] at e3
    split_ifs at e3
    · cases e3
      exact ⟨new, update_same _ _ _⟩
    · cases e3
  obtain ⟨s, h3⟩ := h3
  let R : Prog Content (Figures a.resolution) := do
    let s ← readTable (save.join (tableName (dates 0)))
    let f4 ← Prog.lift (a.plotDefault org s)
    writeFile .part (save.join (modelName (dates 1))) .plot
    writeFile .part (save.join lookupName) .plot
    writeFile .part (save.join (correctionName (dates 2))) .plot
    writeFile .part (save.join (gravfitName (dates 3))) .plot
    return ⟨p.2.1, p.2.2.1, f4, p.2.2.2⟩
  have hR : Writes (fun q => q ≠ T) R := by
    refine writes_bind (writes_readTable _) fun _ => writes_bind (writes_lift _) fun _ =>
      writes_bind (writes_writeFile (fun e => ?_) _ _) fun _ => writes_bind (writes_writeFile (fun e => ?_) _ _) fun _ =>
      writes_bind (writes_writeFile (fun e => ?_) _ _) fun _ => writes_bind (writes_writeFile (fun e => ?_) _ _) fun _ => trivial
    · exact n1 (List.cons.inj e).1.symm
    · exact n2 (List.cons.inj e).1.symm
    · exact n3 (List.cons.inj e).1.symm
    · exact n4 (List.cons.inj e).1.symm
  refine ⟨s, ?_, ?_⟩
  · rw [← h3]
    exact trace_frame hR h4 fun e => e rfl
  · rw [Prog.run_bind, e1]
    dsimp only
    rw [Prog.run_bind, e2]
    dsimp only
    rw [Prog.run_bind, e3]
    dsimp only
    rw [← h3]
    exact trace_frame hR (Prog.run_mem_trace R fs3) fun e => e rfl

/-! ## A complete run -/

theorem transform_stack (a : Act) {d n : ℕ} (u : Fin d → Fin n → Fin n → ℝ) :
    ∃ f : Fin d → Fin n → Fin n → ℝ, a.transform (Spec.stack u) = .ok (Spec.stack f) := by
  have h : a.nrot % 4 = 0 ∨ a.nrot % 4 = 1 ∨ a.nrot % 4 = 2 ∨ a.nrot % 4 = 3 := by omega
  rcases h with h | h | h | h
  · exact ⟨_, (C58_stack a u).1 h⟩
  · exact ⟨_, (C58_stack a u).2.1 h⟩
  · exact ⟨_, (C58_stack a u).2.2.1 h⟩
  · exact ⟨_, (C58_stack a u).2.2.2 h⟩

theorem phase_table (a : Act) (v : Fin 11 → Fin 96 → ℤ)
    (hg : ∀ e, ∃ g, a.griddata a.resolution Act.actX Act.actY (List.ofFn (v e)) (Spec.points a) = .ok g) :
    ∃ f : Fin 11 → Fin a.resolution → Fin a.resolution → ℝ, a.phaseLookup (Spec.lookupText v) = .ok (Spec.stack f) := by
  obtain ⟨h1, h2⟩ := C74_read a v
  obtain ⟨maps, hm⟩ := h2 hg
  obtain ⟨hl, h3⟩ := h1 maps hm
  have h4 : ∀ e : Fin 11, ∃ r : Fin a.resolution → Fin a.resolution → ℝ, ∀ q,
      (maps[(e : ℕ)]'(by omega)) q = .fin (r q.1 q.2) := by
    intro e
    obtain ⟨g, -, h5⟩ := h3 e _ (List.getElem?_eq_getElem (by omega))
    choose r hr using fun q => (h5 q).1
    exact ⟨fun i j => r (i, j), fun q => hr q⟩
  choose u hu using h4
  obtain ⟨f, hf⟩ := transform_stack a u
  refine ⟨f, ?_⟩
  unfold Act.phaseLookup
  rw [hm]
  show a.transform (a.stackOf maps) = _
  rw [stackOf_eq a maps hl u fun i hi q => hu ⟨i, hl ▸ hi⟩ q, hf]

theorem plot_stack (a : Act) (org : Origin) (hpr : 0 < a.pr) (hsr : 0 < a.sr) (hN : 2 ≤ a.resolution)
    (f : Fin 11 → Fin a.resolution → Fin a.resolution → ℝ) :
    ∃ ps, a.plot org true 11 ⟨a.resolution, a.resolution, fun q e => .fin (f e q.1 q.2)⟩ = .ok ps ∧ ps.length = 11 ∧
      ∀ (e : Fin 11) p, ps[(e : ℕ)]? = some p → Spec.ShowsMap org a.pr f e p ∧ p.levels = a.levels true :=
  C86_panels a org true hpr hsr hN le_rfl f

theorem table_run (a : Act) (g : List (List ℝ)) (v w : Fin 11 → Fin 96 → ℤ)
    (hw : a.createLookup g (Spec.lookupText v) = .ok (Spec.lookupText w)) (fs : FS Content) (lookup : Path)
    (hlook : fs lookup = some (.file (.text (Spec.lookupText v)))) (sf : Str) (sd : Path)
    (hsave : isDir fs (sf :: sd) ∨ fs (sf :: sd) = none ∧ isDir fs sd) (fname : Str)
    (hname : ¬ isDir fs (fname :: sf :: sd)) :
    ∃ fs1 fs2, (saveDir (sf :: sd)).run fs = (.ok (), fs1) ∧
      (writeTable a g lookup (sf :: sd) fname).run fs1 = (.ok (), fs2) ∧ isDir fs2 (sf :: sd) ∧
      fs2 (fname :: sf :: sd) = some (.file (.text (Spec.lookupText w))) ∧
      ∀ q, q ≠ fname :: sf :: sd → q ≠ sf :: sd → fs2 q = fs q := by
  obtain ⟨fs1, d1, d2, d3⟩ : ∃ fs1, (saveDir (sf :: sd)).run fs = (.ok (), fs1) ∧
      isDir fs1 (sf :: sd) ∧ ∀ q, q ≠ sf :: sd → fs1 q = fs q := by
    rcases hsave with h | ⟨h, h'⟩
    · refine ⟨fs, ?_, h, fun _ _ => rfl⟩
      rw [saveDir, Prog.run_bind, run_isdirP, h]
      rfl
    · have hnd : isDir fs (sf :: sd) = false := by
        simp [isDir, h]
      have hp : present fs (sf :: sd) = false := by
        simp [present, h]
      refine ⟨update fs (sf :: sd) .dir, ?_, by rw [isDir_iff, update_same], fun q hq => update_ne _ _ hq⟩
      rw [saveDir, Prog.run_bind, run_isdirP, hnd]
      simp only [Bool.not_false, if_true]
      rw [run_makedirs_leaf _ _ _ _ h', if_neg (by rw [hp]; simp)]
  have hlook1 : fs1 lookup = some (.file (.text (Spec.lookupText v))) := by
    by_cases e : lookup = sf :: sd
    · exfalso
      subst e
      rcases hsave with h | ⟨h, -⟩
      · rw [isDir_iff, hlook] at h
        cases h
      · rw [hlook] at h
        cases h
    · rw [d3 _ e, hlook]
  have hname1 : isDir fs1 (fname :: sf :: sd) = false := by
    rw [Bool.eq_false_iff]
    intro h
    rw [isDir_iff, d3 _ (by simp)] at h
    exact hname (isDir_iff.2 h)
  refine ⟨fs1, update fs1 (fname :: sf :: sd) (.file (.text (Spec.lookupText w))), d1, ?_, ?_, update_same _ _ _,
    fun q q1 q2 => by rw [update_ne _ _ q1, d3 _ q2]⟩
  · unfold writeTable
    rw [Prog.run_bind, run_readFile, hlook1]
    dsimp only
    rw [Prog.run_bind, Prog.run_lift]
    dsimp only
    rw [Prog.run_bind, Prog.run_lift, hw]
    dsimp only
    rw [run_writeFile, if_pos]
    simp only [Path.join, hname1, List.tail_cons, d2, Bool.not_false, Bool.and_self]
  · rw [isDir_iff, update_ne _ _ (by simp)]
    exact isDir_iff.1 d2

theorem run_put {f : Str} {d : Path} {fs : FS Content} (hd : isDir fs d) (hf : ¬ isDir fs (f :: d)) (c : Content) :
    (writeFile .part (f :: d) c).run fs = (.ok (), update fs (f :: d) (.file c)) := by
  rw [run_writeFile, if_pos]
  rw [List.tail_cons, hd, Bool.eq_false_iff.2 hf]
  rfl

theorem isDir_put {f : Str} {d : Path} {fs : FS Content} {c : Content} {q : Path} (hq : q ≠ f :: d) :
    isDir (update fs (f :: d) (.file c)) q = isDir fs q := by
  cases q with
  | nil => rfl
  | cons x t => simp only [isDir, update_ne _ _ hq]

open Classical in
/-- **C114.**  The script with its figures under the conditions of C89 and up to order five: it ends well; the table is that of
the model; the figures show the phases of the model, of the present table and of the new one and the fit of every coefficient,
each used observation as one point, on the curve; nothing else is changed. -/
theorem C114_script (a : Act) (org : Origin) (hq : Spec.Quintic a.spline) (hr : 6 ≤ a.resolution) (hpr : 0 < a.pr)
    (hsr : 0 < a.sr) (hsr' : a.sr ≤ 5.2) (hfr : a.frequency ≠ 0) (hsg : a.sign ≠ 0) (hn : a.nReflections ≠ 0)
    (hgd : ∀ l : List ℤ, ∃ G, a.griddata a.resolution Act.actX Act.actY l (Spec.points a) = .ok G)
    (ha : Spec.Writable a) (ho : 1 ≤ a.order) (ho5 : a.order ≤ 5) (solver : Act.Solver (List ℝ))
    (hsol : Spec.Exact Spec.costL solver) (out : Path) (run : Str) (sort : List Row → Py (List Row))
    (hs : Spec.Sorts sort) (fs : FS Content) (l : List Spec.StoredFit)
    (hl : ∀ x ∈ l, x.On fs a.order ∧ x.Named out run ∧ x.fit.length = 5 + Spec.nK a.order)
    (g : List (List ℝ)) (hg : g.length = Spec.nK a.order)
    (hfol : ∀ x ∈ l, Spec.Used x.info → List.Forall₂ (Spec.Gravity x.info.meanel) g (x.fit.drop 5))
    (h3 : ∃ x ∈ l, ∃ y ∈ l, ∃ z ∈ l, Spec.Used x.info ∧ Spec.Used y.info ∧ Spec.Used z.info ∧
      x.info.meanel < y.info.meanel ∧ y.info.meanel < z.info.meanel ∧ z.info.meanel < x.info.meanel + 360)
    (v : Fin 11 → Fin 96 → ℤ) (lookup : Path) (hlook : fs lookup = some (.file (.text (Spec.lookupText v))))
    (sf : Str) (sd : Path) (hsave : isDir fs (sf :: sd) ∨ fs (sf :: sd) = none ∧ isDir fs sd) (dates : Fin 4 → Str)
    (hname : ∀ q, Spec.ScriptFile (sf :: sd) dates q → ¬ isDir fs q) :
    ∃ (fs' : FS Content) (w : Fin 11 → Fin 96 → ℤ) (F : Figures a.resolution),
      a.createLookup g (Spec.lookupText v) = .ok (Spec.lookupText w) ∧
      (scriptP a org solver out run sort (l.map fun x => x.dir) lookup (sf :: sd) dates).run fs = (.ok F, fs') ∧
      fs' (("FEM_OOF_Table_".toList ++ dates 0 ++ ".dat".toList) :: sf :: sd) = some (.file (.text (Spec.lookupText w))) ∧
      (∀ q, Spec.ScriptFile (sf :: sd) dates q → q ≠ ("FEM_OOF_Table_".toList ++ dates 0 ++ ".dat".toList) :: sf :: sd →
        fs' q = some (.file .plot)) ∧
      (∀ q, ¬ Spec.ScriptFile (sf :: sd) dates q → q ≠ sf :: sd → fs' q = fs q) ∧
      (∃ f0 f1 f2 : Fin 11 → Fin a.resolution → Fin a.resolution → ℝ, (∀ e, Spec.ModelPhase a g e (f0 e)) ∧
        a.phaseLookup (Spec.lookupText v) = .ok (Spec.stack f1) ∧ a.phaseLookup (Spec.lookupText w) = .ok (Spec.stack f2) ∧
        F.model.length = 11 ∧ F.lookup.length = 11 ∧ F.correction.length = 11 ∧
        ∀ (e : Fin 11) p, (F.model[(e : ℕ)]? = some p → Spec.ShowsMap org a.pr f0 e p) ∧
          (F.lookup[(e : ℕ)]? = some p → Spec.ShowsMap org a.pr f1 e p) ∧
          (F.correction[(e : ℕ)]? = some p → Spec.ShowsMap org a.pr f2 e p)) ∧
      ∃ names, paramNames a.order = .ok names ∧ F.gravfit.length = 18 ∧
        (∀ j p, j + 3 < Spec.nK a.order → F.gravfit[j]? = some p →
          ∃ pts, pts.Perm ((l.filter fun x => decide (Spec.Used x.info)).map fun x =>
              (x.info.meanel, 2 * Real.pi * x.fit.getD (j + 8) 0, Spec.markerSize (x.info.snr.getD 1 .nan))) ∧
            Spec.ShowsCoeff j names pts (g.getD (j + 3) []) a.resolution p ∧
            ∀ q ∈ pts, q.2.1 = Spec.gravPhase (g.getD (j + 3) []) q.1) ∧
        ∀ j, Spec.nK a.order ≤ j + 3 → j < 18 → F.gravfit[j]? = some GravPanel.blank := by
  obtain ⟨l', sel, p1, q1, h1⟩ := observed_run out run a.order sort hs fs (l.map fun x => (x, x.fit)) (by
      intro y hy
      obtain ⟨x, hx, rfl⟩ := List.mem_map.1 hy
      exact (hl x hx).1) (by
      intro y hy _
      obtain ⟨x, hx, rfl⟩ := List.mem_map.1 hy
      obtain ⟨e1, e2, e3⟩ := hl x hx
      refine ⟨e3, ?_⟩
      have := e1.params
      rw [e2] at this
      exact this)
  rw [List.map_map] at h1
  have hmem : ∀ y, y ∈ l' ↔ ∃ x ∈ l, Spec.Used x.info ∧ y = (x, x.fit) := by
    intro y
    rw [p1.mem_iff]
    simp only [List.mem_filter, List.mem_map, decide_eq_true_eq]
    constructor
    · rintro ⟨⟨x, hx, rfl⟩, hu⟩
      exact ⟨x, hx, hu, rfl⟩
    · rintro ⟨x, hx, hu, rfl⟩
      exact ⟨⟨x, hx, rfl⟩, hu⟩
  have hpi := Real.pi_pos
  have hrow : ∀ r ∈ g, r.length = 3 := by
    obtain ⟨x, hx, -, -, -, -, hu, -⟩ := h3
    intro r hr
    obtain ⟨i, hi, rfl⟩ := List.getElem_of_mem hr
    have h := hfol x hx hu
    obtain ⟨b, c, d, e, -⟩ := (List.forall₂_iff_get.1 h).2 i hi (h.length_eq ▸ hi)
    have e : g[i] = [b, c, d] := e
    rw [e]; rfl
  have hel : (sel.map fun r => Act.Angle.quant r.meanel (Real.pi / 180)) =
      l'.map fun x => Act.Angle.quant x.1.info.meanel (Real.pi / 180) := by
    clear p1 h1 hmem
    induction q1 with
    | nil => rfl
    | cons h _ ih =>
      simp only [List.map_cons, List.cons.injEq]
      exact ⟨by rw [h.2.meanel], ih⟩
  have hgrav := C65_gravity a solver hsol
    (l'.map fun x => Act.Angle.quant x.1.info.meanel (Real.pi / 180)) (by
      obtain ⟨x, hx, y, hy, z, hz, ux, uy, uz, h4, h5, h6⟩ := h3
      refine ⟨_, List.mem_map.2 ⟨_, (hmem _).2 ⟨x, hx, ux, rfl⟩, rfl⟩,
        _, List.mem_map.2 ⟨_, (hmem _).2 ⟨y, hy, uy, rfl⟩, rfl⟩,
        _, List.mem_map.2 ⟨_, (hmem _).2 ⟨z, hz, uz, rfl⟩, rfl⟩, ?_, ?_, ?_⟩
      · simp only [Act.Angle.rad]; nlinarith
      · simp only [Act.Angle.rad]; nlinarith
      · simp only [Act.Angle.rad]; nlinarith) g hg hrow
    (l'.map fun x => x.2.drop 5) (by
      rw [List.forall₂_map_left_iff, List.forall₂_map_right_iff, List.forall₂_same]
      intro y hy
      obtain ⟨x, hx, hu, rfl⟩ := (hmem y).1 hy
      refine (hfol x hx hu).imp ?_
      rintro gr k ⟨b, c, d, rfl, rfl⟩
      rfl)
  have hlen : l'.length = sel.length := q1.length_eq
  have hsel : sel ≠ [] := by
    obtain ⟨x, hx, -, -, -, -, hu, -⟩ := h3
    have := (hmem _).2 ⟨x, hx, hu, rfl⟩
    intro h
    rw [h] at hlen
    rw [List.length_eq_zero_iff.1 hlen] at this
    simp at this
  have hen : Spec.Enough a g := ⟨ho, hg.ge, fun r hr => (hrow r hr).ge⟩
  obtain ⟨-, -, -, w, -, -, -, hw, -⟩ := C75_commands a hq hr hsr hsr' hfr hsg hn ha g hen v
  obtain ⟨L, f0, hL, hL2, hL3⟩ := model_phases a hsr.le hsr' g hen
  obtain ⟨f1, hf1⟩ := phase_table a v fun e => hgd _
  obtain ⟨f2, hf2⟩ := phase_table a w fun e => hgd _
  obtain ⟨P0, hP0, n0, s0⟩ := plot_stack a org hpr hsr (by omega) f0
  obtain ⟨P1, hP1, n1, s1⟩ := plot_stack a org hpr hsr (by omega) f1
  obtain ⟨P2, hP2, n2, s2⟩ := plot_stack a org hpr hsr (by omega) f2
  have hfit : ∀ y ∈ l', y.2 = y.1.fit ∧ y.1.fit.length = 5 + Spec.nK a.order := by
    intro y hy
    obtain ⟨x, hx, -, rfl⟩ := (hmem y).1 hy
    exact ⟨rfl, (hl x hx).2.2⟩
  obtain ⟨xs, model, ps, names, c1, c2, c3, c4, c5, c6, c7⟩ := C114_gravfit a.order ho ho5 sel hsel
    (l'.map fun x => x.2.drop 5) (by rw [List.length_map, hlen]) (by
      intro r hr
      obtain ⟨y, hy, rfl⟩ := List.mem_map.1 hr
      rw [List.length_drop, (hfit y hy).1, (hfit y hy).2]
      omega) g hg hrow a.resolution
  have hprep : (prepare a org solver out run sort (l.map fun x => x.dir) lookup).run fs = (.ok (g, P0, P1, ps), fs) := by
    unfold prepare readTable
    rw [Prog.run_bind, Prog.run_bind, run_readFile, hlook]
    dsimp only
    rw [Prog.run_lift]
    dsimp only
    rw [Prog.run_bind, Prog.run_lift, hf1]
    dsimp only
    rw [Prog.run_bind, show l.map (fun x => x.dir) = l.map ((fun x : Spec.StoredFit × List ℝ => x.1.dir) ∘
      fun x => (x, x.fit)) from rfl, h1]
    dsimp only
    rw [Prog.run_bind, Prog.run_lift, hel, hgrav]
    dsimp only
    rw [Prog.run_bind, Prog.run_lift, c1]
    dsimp only
    rw [Prog.run_bind, Prog.run_lift, show a.nK = Spec.nK a.order from rfl, c2]
    dsimp only
    rw [Prog.run_bind, Prog.run_lift, hL]
    dsimp only
    have e1 : plotPhases a org L = .ok P0 := by
      unfold plotPhases
      rw [hL2]
      exact hP0
    have e2 : a.plotDefault org (Spec.lookupText v) = .ok P1 := by
      unfold Act.plotDefault
      rw [hf1]
      exact hP1
    rw [Prog.run_bind, Prog.run_lift, e1]
    dsimp only
    rw [Prog.run_bind, Prog.run_lift, e2]
    dsimp only
    rw [Prog.run_bind, Prog.run_lift, c3]
    rfl
  have e2' : a.plotDefault org (Spec.lookupText w) = .ok P2 := by
    unfold Act.plotDefault
    rw [hf2]
    exact hP2
  obtain ⟨fs1, fs2, t1, t2, t3, t4, t5⟩ := table_run a g v w hw fs lookup hlook sf sd hsave (tableName (dates 0))
    (hname _ (.inl rfl))
  obtain ⟨m1, m2, m3, m4, m5, m6, m7, m8, m9, m10⟩ := names_ne dates
  have hnd : ∀ f : Str, f ≠ tableName (dates 0) → Spec.ScriptFile (sf :: sd) dates (f :: sf :: sd) →
      ¬ isDir fs2 (f :: sf :: sd) := by
    intro f hf hS
    rw [isDir_iff, t5 _ (fun e => hf (List.cons.inj e).1) (by simp), ← isDir_iff]
    exact hname _ hS
  set S : Path := sf :: sd with hSdef
  have cne : ∀ {x y : Str}, x ≠ y → (x :: S : Path) ≠ y :: S := fun h e => h (List.cons.inj e).1
  have sne : ∀ {x : Str}, S ≠ x :: S := fun {x} e => by
    have := congrArg List.length e
    simp at this
  set fA := update fs2 (modelName (dates 1) :: S) (.file .plot) with hA
  set fB := update fA (lookupName :: S) (.file .plot) with hB
  set fC := update fB (correctionName (dates 2) :: S) (.file .plot) with hC
  set fD := update fC (gravfitName (dates 3) :: S) (.file .plot) with hD
  have w1 := run_put (c := .plot) t3 (hnd (modelName (dates 1)) m1.symm (.inr (.inl rfl)))
  have w2 := run_put (fs := fA) (f := lookupName) (d := S) (c := .plot) (by rw [hA, isDir_put sne]; exact t3)
    (by rw [hA, isDir_put (cne m5.symm)]; exact hnd _ m2.symm (.inr (.inr (.inl rfl))))
  have w3 := run_put (fs := fB) (f := correctionName (dates 2)) (d := S) (c := .plot)
    (by rw [hB, isDir_put sne, hA, isDir_put sne]; exact t3)
    (by rw [hB, isDir_put (cne m8.symm), hA, isDir_put (cne m6.symm)]; exact hnd _ m3.symm (.inr (.inr (.inr (.inl rfl)))))
  have w4 := run_put (fs := fC) (f := gravfitName (dates 3)) (d := S) (c := .plot)
    (by rw [hC, isDir_put sne, hB, isDir_put sne, hA, isDir_put sne]; exact t3)
    (by rw [hC, isDir_put (cne m10.symm), hB, isDir_put (cne m9.symm), hA, isDir_put (cne m7.symm)]
        exact hnd _ m4.symm (.inr (.inr (.inr (.inr rfl)))))
  refine ⟨fD, w, ⟨P0, P1, P2, ps⟩, hw, ?_, ?_, ?_, ?_, ⟨f0, f1, f2, hL3, hf1, hf2, n0, n1, n2, fun e p =>
    ⟨fun h => (s0 e p h).1, fun h => (s1 e p h).1, fun h => (s2 e p h).1⟩⟩, names, c4, c5, ?_, c7⟩
  · unfold scriptP
    rw [Prog.run_bind, hprep]
    dsimp only
    rw [Prog.run_bind, t1]
    dsimp only
    rw [Prog.run_bind, t2]
    dsimp only
    unfold readTable
    rw [Prog.run_bind, Prog.run_bind, run_readFile]
    rw [show S.join (tableName (dates 0)) = tableName (dates 0) :: S from rfl, t4]
    dsimp only
    rw [Prog.run_lift]
    dsimp only
    rw [Prog.run_bind, Prog.run_lift, e2']
    dsimp only
    rw [Prog.run_bind, show S.join (modelName (dates 1)) = modelName (dates 1) :: S from rfl, w1]
    dsimp only
    rw [Prog.run_bind, show S.join lookupName = lookupName :: S from rfl, w2]
    dsimp only
    rw [Prog.run_bind, show S.join (correctionName (dates 2)) = correctionName (dates 2) :: S from rfl, w3]
    dsimp only
    rw [Prog.run_bind, show S.join (gravfitName (dates 3)) = gravfitName (dates 3) :: S from rfl, w4]
    rfl
  · show fD (tableName (dates 0) :: S) = _
    rw [hD, update_ne _ _ (cne m4), hC, update_ne _ _ (cne m3), hB, update_ne _ _ (cne m2), hA, update_ne _ _ (cne m1), t4]
  · rintro q (rfl | rfl | rfl | rfl | rfl) hne
    · exact absurd rfl hne
    · show fD (modelName (dates 1) :: S) = _
      rw [hD, update_ne _ _ (cne m7), hC, update_ne _ _ (cne m6), hB, update_ne _ _ (cne m5), hA, update_same]
    · show fD (lookupName :: S) = _
      rw [hD, update_ne _ _ (cne m9), hC, update_ne _ _ (cne m8), hB, update_same]
    · show fD (correctionName (dates 2) :: S) = _
      rw [hD, update_ne _ _ (cne m10), hC, update_same]
    · show fD (gravfitName (dates 3) :: S) = _
      rw [hD, update_same]
  · intro q hq hq'
    have r1 : q ≠ gravfitName (dates 3) :: S := fun e => hq (.inr (.inr (.inr (.inr e))))
    have r2 : q ≠ correctionName (dates 2) :: S := fun e => hq (.inr (.inr (.inr (.inl e))))
    have r3 : q ≠ lookupName :: S := fun e => hq (.inr (.inr (.inl e)))
    have r4 : q ≠ modelName (dates 1) :: S := fun e => hq (.inr (.inl e))
    rw [hD, update_ne _ _ r1, hC, update_ne _ _ r2, hB, update_ne _ _ r3, hA, update_ne _ _ r4]
    exact t5 q (fun e => hq (.inl e)) hq'
  · intro j p hj hp
    have hpts : ((sel.zip (l'.map fun x => x.2.drop 5)).map fun q =>
        (q.1.meanel, 2 * Real.pi * q.2.getD (j + 3) 0, Spec.markerSize (q.1.snr.getD 1 .nan))) =
        l'.map fun x => (x.1.info.meanel, 2 * Real.pi * x.1.fit.getD (j + 8) 0, Spec.markerSize (x.1.info.snr.getD 1 .nan)) := by
      clear p1 h1 hmem hel hgrav hlen hsel c1 c3 c6 hprep
      induction q1 with
      | nil => rfl
      | cons h _ ih =>
        simp only [List.map_cons, List.zip_cons_cons, List.cons.injEq]
        refine ⟨?_, ih fun y hy => hfit y (List.mem_cons_of_mem _ hy)⟩
        rw [h.2.meanel, h.2.snr, (hfit _ List.mem_cons_self).1, List.getD_eq_getElem?_getD, List.getElem?_drop,
          List.getD_eq_getElem?_getD, show 5 + (j + 3) = j + 8 by omega]
        simp
    have hshow := c6 j p hj hp
    rw [hpts] at hshow
    refine ⟨_, ?_, hshow, ?_⟩
    · have := p1.map fun x : Spec.StoredFit × List ℝ =>
        (x.1.info.meanel, 2 * Real.pi * x.1.fit.getD (j + 8) 0, Spec.markerSize (x.1.info.snr.getD 1 .nan))
      rw [List.filter_map, List.map_map] at this
      exact this
    · intro q hq
      obtain ⟨y, hy, rfl⟩ := List.mem_map.1 hq
      obtain ⟨x, hx, hu, rfl⟩ := (hmem y).1 hy
      have h := hfol x hx hu
      have hj1 : j + 3 < g.length := by omega
      obtain ⟨b, c, d, e, e'⟩ := (List.forall₂_iff_get.1 h).2 (j + 3) hj1 (h.length_eq ▸ hj1)
      have e : g[j + 3] = [b, c, d] := e
      have e' : (x.fit.drop 5)[j + 3]'(h.length_eq ▸ hj1) = _ := e'
      rw [List.getElem_drop] at e'
      dsimp only
      have hlx := (hl x hx).2.2
      rw [List.getD_eq_getElem?_getD (l := x.fit), List.getElem?_eq_getElem (show j + 8 < x.fit.length by omega),
        List.getD_eq_getElem?_getD (l := g), List.getElem?_eq_getElem hj1, e]
      simp only [Option.getD_some, Spec.gravPhase]
      have : x.fit[j + 8]'(by omega) = x.fit[5 + (j + 3)]'(by omega) := by
        congr 1
        omega
      rw [this, e']
      simp

/-! ## Three observations -/

/-- Observation `i`, at 10, 30 or 50 degrees, with a fit of order two. -/
noncomputable def Spec.trio (i : Fin 3) : Spec.StoredFit where
  dir := [(["a-000", "b-000", "c-000"].map String.toList).getD i [], "pyoof_out".toList]
  info := ⟨[], [], 50, (["a", "b", "c"].map String.toList).getD i [], [], [], [], 0.009, 34e9, [], 20 * (i : ℕ) + 10, 256, 5,
    [.fin 250, .fin 300, .fin 250]⟩
  n := 3
  phase := fun q => (q.1 : ℕ) + (q.2 : ℕ)
  fit := [1, -14.5, 1.4, 0, 0, 1, 0, 0, 0, Real.sin ((20 * (i : ℕ) + 10) * (Real.pi / 180)),
    3 - Real.cos ((20 * (i : ℕ) + 10) * (Real.pi / 180))]

/-- They are stored below `pyoof_out`; there are a table and a directory. -/
noncomputable def Spec.trioFs : FS Content := fun p =>
  match p with
  | [f, d, o] =>
    let x := Spec.trio (if d = "a-000".toList then 0 else if d = "b-000".toList then 1 else 2)
    if o ≠ "pyoof_out".toList then none
    else if f = "pyoof_info.yml".toList then some (.file (.info x.info))
    else if f = Spec.file "phase" 2 then
      some (.file (.csv [] (List.ofFn fun r : Fin 3 => List.ofFn fun c : Fin 3 => .fin ((r : ℕ) + (c : ℕ) : ℝ))))
    else if f = Spec.file "fitpar" 2 then some (.file (.params [] x.fit []))
    else none
  | [f] =>
    if f = "home".toList then some .dir
    else if f = "table".toList then some (.file (.text (Spec.lookupText fun (e : Fin 11) (k : Fin 96) => (e * k : ℕ))))
    else none
  | _ => none

/-- The model of the three. -/
def Spec.trioModel : List (List ℝ) := [[0, 0, 1], [0, 0, 0], [0, 0, 0], [0, 0, 0], [1, 0, 0], [0, -1, 3]]

theorem trio_index (i : Fin 3) : (if (["a-000", "b-000", "c-000"].map String.toList).getD i [] = "a-000".toList then 0
    else if (["a-000", "b-000", "c-000"].map String.toList).getD i [] = "b-000".toList then 1 else 2 : Fin 3) = i := by
  revert i
  decide

theorem trio_on (i : Fin 3) : (Spec.trio i).On Spec.trioFs 2 where
  info := by
    show Spec.trioFs ["pyoof_info.yml".toList, (["a-000", "b-000", "c-000"].map String.toList).getD i [],
      "pyoof_out".toList] = _
    unfold Spec.trioFs
    simp only [trio_index]
    rw [if_neg (by simp), if_pos trivial]
  phase := ⟨[], by
    show Spec.trioFs [Spec.file "phase" 2, (["a-000", "b-000", "c-000"].map String.toList).getD i [],
      "pyoof_out".toList] = _
    unfold Spec.trioFs
    simp only [trio_index]
    rw [if_neg (by simp), if_neg (by simp [Spec.file]), if_pos trivial]
    rfl⟩
  params := ⟨[], [], by
    show Spec.trioFs [Spec.file "fitpar" 2, (["a-000", "b-000", "c-000"].map String.toList).getD i [],
      "pyoof_out".toList] = _
    unfold Spec.trioFs
    simp only [trio_index]
    rw [if_neg (by simp), if_neg (by simp [Spec.file]), if_neg (by simp [Spec.file]), if_pos trivial]⟩
  snr := rfl
  size := le_rfl
  fitted := by simp [Spec.trio]

theorem trio_used (i : Fin 3) : Spec.Used (Spec.trio i).info := by
  refine ⟨.fin 300, rfl, .inr ⟨300, rfl, by norm_num⟩, ?_⟩
  show (["a", "b", "c"].map String.toList).getD i [] ≠ _ ∧ ¬ "-offset".toList <:+ (["a", "b", "c"].map String.toList).getD i []
  revert i
  decide

/-- The antenna of the example, with an interpolation that gives a constant map. -/
noncomputable def Spec.trioAct : Act :=
  { Spec.splined with order := 2, griddata := fun _ _ _ _ _ => .ok fun _ => .fin 1 }

/-- Three observations that follow a model: the second panel of the figure of the fit shows `K(2, 0)` at the three elevations. -/
example : ∃ (solver : Act.Solver (List ℝ)) (fs' : FS Content) (F : Figures Spec.trioAct.resolution),
    (scriptP Spec.trioAct .upper solver ["pyoof_out".toList] "000".toList .ok [(Spec.trio 0).dir, (Spec.trio 1).dir, (Spec.trio 2).dir]
      ["table".toList] ["lookup".toList, "home".toList] fun _ => "now".toList).run Spec.trioFs = (.ok F, fs') ∧
    fs' ["gravfit_now.pdf".toList, "lookup".toList, "home".toList] = some (.file .plot) ∧
    ∃ p, F.gravfit[1]? = some p ∧ p.legend = some "K(2, 0)".toList ∧
      p.points.Perm [(10, 2 * Real.pi * Real.sin (10 * (Real.pi / 180)), .fin 3),
        (30, 2 * Real.pi * Real.sin (30 * (Real.pi / 180)), .fin 3), (50, 2 * Real.pi * Real.sin (50 * (Real.pi / 180)), .fin 3)] := by
  classical
  obtain ⟨solver, hsol⟩ := exact_exists Spec.costL
  have hmem : ∀ x ∈ [Spec.trio 0, Spec.trio 1, Spec.trio 2], ∃ i, x = Spec.trio i := by
    intro x hx
    simp only [List.mem_cons, List.not_mem_nil, or_false] at hx
    rcases hx with rfl | rfl | rfl <;> exact ⟨_, rfl⟩
  obtain ⟨fs', w, F, -, h1, -, h2, -, -, names, h3, h4, h5, -⟩ := C114_script Spec.trioAct .upper splined_quintic
    (show 6 ≤ Spec.splined.resolution from le_rfl)
    (show 0 < Spec.splined.pr by norm_num [Spec.splined, Spec.effelsberg])
    (show 0 < Spec.splined.sr by norm_num [Spec.splined, Spec.effelsberg])
    (show Spec.splined.sr ≤ 5.2 by norm_num [Spec.splined, Spec.effelsberg])
    (show Spec.splined.frequency ≠ 0 by norm_num [Spec.splined, Spec.effelsberg])
    (show Spec.splined.sign ≠ 0 by norm_num [Spec.splined, Spec.effelsberg])
    (show Spec.splined.nReflections ≠ 0 by norm_num [Spec.splined, Spec.effelsberg])
    (fun _ => ⟨_, rfl⟩) effelsberg_writable (show 1 ≤ 2 by norm_num) (show 2 ≤ 5 by norm_num) solver hsol
    ["pyoof_out".toList] "000".toList .ok (fun rows => ⟨rows, rfl, .refl _⟩) Spec.trioFs
    [Spec.trio 0, Spec.trio 1, Spec.trio 2] (by
      intro x hx
      obtain ⟨i, rfl⟩ := hmem x hx
      refine ⟨trio_on i, ?_, rfl⟩
      show [_, _] = [(["a", "b", "c"].map String.toList).getD i [] ++ '-' :: "000".toList, _]
      clear hx hmem hsol
      revert i
      decide) Spec.trioModel rfl (by
      intro x hx _
      obtain ⟨i, rfl⟩ := hmem x hx
      refine .cons ⟨_, _, _, rfl, ?_⟩ (.cons ⟨_, _, _, rfl, ?_⟩ (.cons ⟨_, _, _, rfl, ?_⟩ (.cons ⟨_, _, _, rfl, ?_⟩
        (.cons ⟨_, _, _, rfl, ?_⟩ (.cons ⟨_, _, _, rfl, ?_⟩ .nil)))))
      · ring
      · ring
      · ring
      · ring
      · show Real.sin ((20 * (i : ℕ) + 10) * (Real.pi / 180)) = 1 * Real.sin ((20 * (i : ℕ) + 10 : ℝ) * (Real.pi / 180)) +
          0 * Real.cos ((20 * (i : ℕ) + 10 : ℝ) * (Real.pi / 180)) + 0
        ring
      · show 3 - Real.cos ((20 * (i : ℕ) + 10) * (Real.pi / 180)) = 0 * Real.sin ((20 * (i : ℕ) + 10 : ℝ) * (Real.pi / 180)) +
          -1 * Real.cos ((20 * (i : ℕ) + 10 : ℝ) * (Real.pi / 180)) + 3
        ring)
    ⟨_, by simp, _, by simp, _, by simp, trio_used 0, trio_used 1, trio_used 2, by norm_num [Spec.trio], by norm_num [Spec.trio],
      by norm_num [Spec.trio]⟩
    (fun (e : Fin 11) (k : Fin 96) => (e * k : ℕ)) ["table".toList] (by simp [Spec.trioFs]) "lookup".toList ["home".toList]
    (.inr ⟨by simp [Spec.trioFs], by simp [Spec.trioFs, isDir]⟩) (fun _ => "now".toList) (by
      rintro q (rfl | rfl | rfl | rfl | rfl) <;> simp [isDir, Spec.trioFs])
  refine ⟨solver, fs', F, h1, h2 _ (.inr (.inr (.inr (.inr rfl)))) (by simp), ?_⟩
  have h6 : 1 < F.gravfit.length := by rw [h4]; norm_num
  obtain ⟨pts, k1, k2, -⟩ := h5 1 _ (show 1 + 3 < 6 by norm_num) (List.getElem?_eq_getElem h6)
  refine ⟨_, List.getElem?_eq_getElem h6, ?_, ?_⟩
  · rw [k2.legend.2]
    have : names = _ := (Except.ok.inj ((paramNames_eq 2).symm.trans h3)).symm
    rw [this]
    decide
  · rw [k2.points]
    refine k1.trans (List.Perm.of_eq ?_)
    rw [List.filter_eq_self.2 fun x hx => ?_]
    · simp only [List.map_cons, List.map_nil, Spec.trio, List.getD_cons_succ, List.getD_cons_zero, Spec.markerSize]
      norm_num
    · obtain ⟨i, rfl⟩ := hmem x hx
      exact decide_eq_true (trio_used i)

/-- With order six nothing comes out of the same state. -/
example (solver : Act.Solver (List ℝ)) : ∃ e, (scriptP { Spec.trioAct with order := 6 } .upper solver ["pyoof_out".toList]
    "000".toList .ok [(Spec.trio 0).dir, (Spec.trio 1).dir, (Spec.trio 2).dir] ["table".toList] ["lookup".toList, "home".toList]
    fun _ => "now".toList).run Spec.trioFs = (.error e, Spec.trioFs) :=
  C114_order _ _ _ _ _ _ _ _ _ _ le_rfl _

end Verif.Props
