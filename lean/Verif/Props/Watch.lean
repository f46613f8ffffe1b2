import Verif.Props.Remains
import Verif.Props.FitPlots

/-! # C116: reading and plotting while a fit is running -/

namespace Verif.Props

open Verif Verif.Fs Verif.Store Verif.Fit Verif.AuxFn

/-! ## Specification -/

/-- What somebody does while a fit is running: a table of some directories, or the figures of a directory
(`save=False`). -/
inductive Spec.Watch
  | table (order : ℕ) (dirs : List Path)
  | plot (e : Plot.PlotEnv) (d : Path) (order : ℕ)

/-- What comes out. -/
inductive Spec.Outcome
  | fit (d : Path)
  | table (rows : List Row)
  | figures (f : Σ N, Plot.FitFigs N)

noncomputable def Spec.Watch.prog : Spec.Watch → Prog Content Spec.Outcome
  | .table j dirs => Spec.Outcome.table <$> tablePyoofOut j dirs
  | .plot e d j => Spec.Outcome.figures <$> Plot.plotFitPath e d j false

/-- A program under way, and watchers that start now. -/
noncomputable def Spec.watched {ι : Type} (p : Prog Content Path) (W : ι → Spec.Watch) :
    Option ι → Prog Content Spec.Outcome
  | none => Spec.Outcome.fit <$> p
  | some i => (W i).prog

/-! ## What a fit without figures looks at -/

/-- Not the directory of the figures, nor anything below. -/
def NotPlots (n : ℕ) (q : Path) : Prop := q.length ≤ n + 1 ∧ ∀ t, q = "plots".toList :: t → t.length ≠ n

theorem fileName_not_plots (kind : String) (n : ℕ) : fileName kind n ≠ "plots".toList := by
  intro h
  have h1 : '.' ∈ fileName kind n := by simp [fileName]
  rw [h] at h1
  simp at h1

theorem touches_saveLoop_below (name : Str) (d : Path) (l : List (Str × Str × List (List Fl)))
    (hl : ∀ x ∈ l, x.1 ≠ "plots".toList) : Touches (NotPlots d.length) (saveLoop name d l) := by
  induction l with
  | nil => trivial
  | cons x l ih =>
    have hx := hl x (by simp)
    obtain ⟨f, h, x⟩ := x
    refine touches_bind' (touches_writeFile ⟨by simp, fun t ht => ?_⟩ _ _) fun _ => ih fun y hy => hl y (by simp [hy])
    rw [List.cons.injEq] at ht
    exact absurd ht.1 hx

theorem file_notPlots {d : Path} {g : Str} (hg : g ≠ "plots".toList) : NotPlots d.length (g :: d) :=
  ⟨by simp, fun t ht => by rw [List.cons.injEq] at ht; exact absurd ht.1 hg⟩

theorem touches_storeDataCsv_below (name : Str) (d : Path) (n : ℕ) (s : List (List (List Fl))) :
    Touches (NotPlots d.length) (storeDataCsv name d n s) := by
  unfold storeDataCsv
  dsimp only
  have hf : ∀ x ∈ ["beam_data.csv".toList, "u_data.csv".toList, "v_data.csv".toList,
      fileName "res" n, fileName "jac" n, fileName "grad" n, fileName "phase" n,
      fileName "cov" n, fileName "corr" n], x ≠ "plots".toList := by
    intro x hx
    simp only [List.mem_cons, List.not_mem_nil, or_false] at hx
    rcases hx with rfl | rfl | rfl | rfl | rfl | rfl | rfl | rfl | rfl <;>
      first
        | exact fileName_not_plots _ _
        | simp
  split_ifs
  · refine touches_saveLoop_below _ _ _ fun x hx => hf _ ?_
    obtain ⟨y, z⟩ := x
    exact List.mem_of_mem_drop (List.of_mem_zip hx).1
  · refine touches_saveLoop_below _ _ _ fun x hx => hf _ ?_
    obtain ⟨y, z⟩ := x
    exact (List.of_mem_zip hx).1

theorem touches_fitOrder_below {N M : ℕ} (a : Input N M) (hm : a.makePlots = false) (s : List Fl) (d : Path) (n : ℕ) :
    Touches (NotPlots d.length) (fitOrder a s d n) := by
  refine touches_bind' ?_ fun init => ?_
  · unfold startVector
    dsimp only
    split_ifs
    · refine touches_bind' (touches_readFile (file_notPlots (fileName_not_plots _ _))) fun c => ?_
      cases c <;> trivial
    · trivial
  refine touches_bind' (touches_lift _) fun out => ?_
  refine touches_bind' ?_ fun _ => ?_
  · refine touches_bind' (touches_lift _) fun names => ?_
    split_ifs
    · exact touches_writeFile (file_notPlots (fileName_not_plots _ _)) _ _
    · trivial
  have hrest : Touches (NotPlots d.length) (do
      storeDataCsv a.name d n out.save
      if a.makePlots then plotFitPath d n) := by
    refine touches_bind' (touches_storeDataCsv_below _ _ _ _) fun _ => ?_
    rw [hm]
    trivial
  dsimp only
  by_cases hn : n = 1
  · rw [if_pos hn]
    exact touches_bind' (touches_writeFile (file_notPlots (by simp)) _ _) fun _ => hrest
  · rw [if_neg hn]
    exact hrest

theorem touches_fitLoop_below {N M : ℕ} (a : Input N M) (hm : a.makePlots = false) (s : List Fl) (d : Path) (n k : ℕ) :
    Touches (NotPlots d.length) (fitLoop a s d n k) := by
  induction k generalizing n with
  | zero => trivial
  | succ k ih => exact touches_bind' (touches_fitOrder_below a hm s d n) fun _ => ih _

theorem short_notPlots {n : ℕ} {q : Path} (h : q.length ≤ n) : NotPlots n q :=
  ⟨by omega, fun t ht => by rw [ht] at h; simp at h; omega⟩

theorem touches_fit_below {N M : ℕ} (a : Input N M) (hm : a.makePlots = false) :
    Touches (NotPlots (a.workDir.length + 2)) (fitZpoly a) := by
  rw [fitZpoly_tail]
  refine touches_bind' (touches_bind' (touches_existsP (short_notPlots (by simp))) fun e => ?_) fun _ => ?_
  · cases e
    · exact touches_makedirs _ _ fun q hq => short_notPlots (by have := hq.length_le; simp at this; omega)
    · trivial
  have h100 : ∀ i ∈ List.range 101, i ≤ 100 := fun i hi => by have := List.mem_range.1 hi; omega
  refine touches_bind ?_ (rets_allocLoop a.workDir a.name _ h100 _ (by simp)) fun d hd => ?_
  · generalize (none : Option Path) = cur
    generalize List.range 101 = l
    induction l generalizing cur with
    | nil => trivial
    | cons i l ih =>
      rw [allocLoop]
      refine touches_bind' (touches_existsP (short_notPlots (by simp))) fun e => ?_
      cases e
      · exact touches_bind' (touches_makedirs _ _ fun q hq => short_notPlots (by
          have := hq.length_le; simp at this; omega)) fun _ => trivial
      · exact ih _
  · cases d with
    | none => trivial
    | some d =>
      obtain ⟨k, -, rfl⟩ := hd d rfl
      have hlen : (Spec.runDir a.workDir a.name k).length = a.workDir.length + 2 := by simp [Spec.runDir]
      rw [← hlen]
      refine touches_bind' (touches_lift _) fun s0 => ?_
      refine touches_bind' (touches_lift _) fun s1 => ?_
      refine touches_bind' (touches_lift _) fun s2 => ?_
      exact touches_bind' (touches_fitLoop_below a hm _ _ _ _) fun _ => trivial

/-! ## Watchers -/

/-- A watcher: it reads files, which have to be complete, and sees to the directory `plots`; what it returns is in
`V` when it finds in the files what is in `fs'`. -/
def Calm {α : Type} (X : Path → Prop) (d : Path) (fs' : FS Content) (V : α → Prop) : Prog Content α → Prop
  | .ret a => V a
  | .raise _ => True
  | .op o k =>
    (∃ q, ¬ X q ∧ o = .read q ∧ Calm X d fs' V (k (exec fs' (.read q)).1) ∧ (∃ e, k .no = .raise e) ∧
      ∃ e, k (.data .part) = .raise e) ∨
    (∃ q, X q ∧ (o = .present q ∨ o = .mkdir q) ∧ ∀ r, Calm X d fs' V (k r)) ∨
    (X ("plots".toList :: d) ∧ o = .present d ∧ Calm X d fs' V (k .yes))

theorem calm_lift {α : Type} {X : Path → Prop} {d : Path} {fs' : FS Content} {V : α → Prop} {x : Py α}
    (h : ∀ a, x = .ok a → V a) : Calm X d fs' V (Prog.lift x) := by
  cases x with
  | error e => trivial
  | ok a => exact h a rfl

theorem calm_bind {α β : Type} {X : Path → Prop} {d : Path} {fs' : FS Content} {V : α → Prop} {U : β → Prop}
    {p : Prog Content α} {k : α → Prog Content β} (hp : Calm X d fs' V p) (hk : ∀ a, V a → Calm X d fs' U (k a)) :
    Calm X d fs' U (p >>= k) := by
  induction p with
  | ret a => exact hk a hp
  | raise e => trivial
  | op o c ih =>
    rcases hp with ⟨q, h0, h1, h2, ⟨e, h3⟩, e', h4⟩ | ⟨q, h1, h2, h3⟩ | ⟨h0, h1, h2⟩
    · refine .inl ⟨q, h0, h1, ih _ h2, ⟨e, ?_⟩, e', ?_⟩
      · show (c .no >>= k) = _
        rw [h3]; rfl
      · show (c (.data .part) >>= k) = _
        rw [h4]; rfl
    · exact .inr (.inl ⟨q, h1, h2, fun r => ih r (h3 r)⟩)
    · exact .inr (.inr ⟨h0, h1, ih _ h2⟩)

/-- Reading a file and doing something with it that fails when it is half-written. -/
theorem calm_read {α : Type} {X : Path → Prop} {d : Path} {fs' : FS Content} {V : α → Prop} {q : Path} (hq : ¬ X q)
    {k : Content → Prog Content α} (hpart : ∃ e, k .part = .raise e)
    (hk : ∀ c, fs' q = some (.file c) → Calm X d fs' V (k c)) : Calm X d fs' V (readFile q >>= k) := by
  refine .inl ⟨q, hq, rfl, ?_, ⟨_, rfl⟩, hpart⟩
  simp only [exec]
  rcases h : fs' q with _ | (_ | c)
  · trivial
  · trivial
  · exact hk c h

/-- The values a program can return when run on `fs'`, where reading changes nothing. -/
def Gives {α : Type} (fs' : FS Content) (p : Prog Content α) (x : α) : Prop := p.run fs' = (.ok x, fs')

theorem gives_bind {α β : Type} {fs' : FS Content} {p : Prog Content α} {k : α → Prog Content β} {x : α} {y : β}
    (h : Gives fs' p x) (h' : Gives fs' (k x) y) : Gives fs' (p >>= k) y := by
  unfold Gives
  rw [Prog.run_bind_ok]
  exact ⟨x, fs', h, h'⟩

theorem gives_read {fs' : FS Content} {q : Path} {c : Content} (h : fs' q = some (.file c)) :
    Gives fs' (readFile q) c := by
  unfold Gives readFile
  rw [Prog.run_op]
  simp only [exec, h]
  rfl

theorem gives_lift {α : Type} {fs' : FS Content} {x : Py α} {a : α} (h : x = .ok a) :
    Gives fs' (Prog.lift x : Prog Content α) a := by
  rw [h]; rfl

/-- A reader is a watcher that returns what it returns on `fs'`: step by step. -/
theorem calm_gives_read {α : Type} {X : Path → Prop} {d : Path} {fs' : FS Content} {q : Path} (hq : ¬ X q)
    {k : Content → Prog Content α} (hpart : ∃ e, k .part = .raise e)
    (hk : ∀ c, Calm X d fs' (Gives fs' (k c)) (k c)) :
    Calm X d fs' (Gives fs' (readFile q >>= k)) (readFile q >>= k) := by
  refine calm_read hq hpart fun c hc => ?_
  have := calm_bind (k := fun x => Prog.ret x) (hk c) (U := Gives fs' (readFile q >>= k))
    fun x hx => gives_bind (gives_read hc) hx
  rwa [prog_bind_ret] at this

theorem calm_gives_lift {α β : Type} {X : Path → Prop} {d : Path} {fs' : FS Content} {x : Py α}
    {k : α → Prog Content β} (hk : ∀ c, Calm X d fs' (Gives fs' (k c)) (k c)) :
    Calm X d fs' (Gives fs' (Prog.lift x >>= k)) (Prog.lift x >>= k) := by
  cases x with
  | error e => trivial
  | ok a => exact hk a

theorem calm_gives_ret {α : Type} {X : Path → Prop} {d : Path} {fs' : FS Content} (a : α) :
    Calm X d fs' (Gives fs' (Prog.ret a)) (Prog.ret a) := rfl

theorem calm_gives_bind {α β : Type} {X : Path → Prop} {d : Path} {fs' : FS Content} {p : Prog Content α}
    {k : α → Prog Content β} (hp : Calm X d fs' (Gives fs' p) p) (hk : ∀ c, Calm X d fs' (Gives fs' (k c)) (k c)) :
    Calm X d fs' (Gives fs' (p >>= k)) (p >>= k) := by
  refine calm_bind hp fun x hx => ?_
  have := calm_bind (k := fun x => Prog.ret x) (hk x) (U := Gives fs' (p >>= k)) fun y hy => gives_bind hx hy
  rwa [prog_bind_ret] at this

theorem calm_tableRow {X : Path → Prop} {d : Path} {fs' : FS Content} (p : Path) (j : ℕ)
    (hX : ∀ g t, g ≠ "plots".toList → ¬ X (g :: t)) :
    Calm X d fs' (Gives fs' (tableRow j p)) (tableRow j p) := by
  unfold tableRow
  refine calm_gives_read (hX _ _ (by simp)) ⟨_, rfl⟩ fun c => calm_gives_lift fun info => ?_
  refine calm_gives_read (hX _ _ (fileName_not_plots _ _)) ⟨_, rfl⟩ fun c => calm_gives_lift fun ph => ?_
  refine calm_gives_lift fun r1 => calm_gives_lift fun r2 => ?_
  refine calm_gives_read (hX _ _ (fileName_not_plots _ _)) ⟨_, rfl⟩ fun c => calm_gives_lift fun fit => ?_
  refine calm_gives_lift fun i0 => calm_gives_lift fun i1 => calm_gives_lift fun i2 => ?_
  split
  · trivial
  · rfl

theorem calm_table {X : Path → Prop} {d : Path} {fs' : FS Content} (j : ℕ) (dirs : List Path)
    (hX : ∀ g t, g ≠ "plots".toList → ¬ X (g :: t)) :
    Calm X d fs' (Gives fs' (tablePyoofOut j dirs)) (tablePyoofOut j dirs) := by
  induction dirs with
  | nil => rfl
  | cons p ps ih =>
    rw [tablePyoofOut]
    exact calm_gives_bind (calm_tableRow p j hX) fun r => calm_gives_bind ih fun rs => rfl

theorem calm_figs {X : Path → Prop} {d : Path} {fs' : FS Content} (e : Plot.PlotEnv) (d' : Path) (j : ℕ)
    (hX : ∀ g t, g ≠ "plots".toList → ¬ X (g :: t)) :
    Calm X d fs' (Gives fs' (Plot.fitFigs e d' j)) (Plot.fitFigs e d' j) := by
  have ha : ∀ {β : Type} (q : Path) (k : _ → Prog Content β), ¬ X q → (∀ c, Calm X d fs' (Gives fs' (k c)) (k c)) →
      Calm X d fs' (Gives fs' (Plot.readArr q >>= k)) (Plot.readArr q >>= k) := by
    intro β q k hq hk
    unfold Plot.readArr
    exact calm_gives_bind (calm_gives_read hq ⟨_, rfl⟩ fun c => calm_lift fun a ha => gives_lift ha) hk
  unfold Plot.fitFigs
  refine calm_gives_read (hX _ _ (fileName_not_plots _ _)) ⟨_, rfl⟩ fun c => calm_gives_lift fun fit => ?_
  refine calm_gives_read (hX _ _ (by simp)) ⟨_, rfl⟩ fun c => calm_gives_lift fun info => ?_
  refine ha _ _ (hX _ _ (by simp)) fun _ => ?_
  refine ha _ _ (hX _ _ (fileName_not_plots _ _)) fun _ => ?_
  refine ha _ _ (hX _ _ (by simp)) fun _ => ?_
  refine ha _ _ (hX _ _ (by simp)) fun _ => ?_
  refine ha _ _ (hX _ _ (fileName_not_plots _ _)) fun _ => ?_
  refine ha _ _ (hX _ _ (fileName_not_plots _ _)) fun _ => ?_
  exact calm_lift fun a ha => gives_lift ha

theorem calm_plot {X : Path → Prop} {d : Path} {fs' : FS Content} (e : Plot.PlotEnv) (j : ℕ)
    (hX : ∀ g t, g ≠ "plots".toList → ¬ X (g :: t)) (hd : X ("plots".toList :: d)) :
    Calm X d fs' (Gives fs' (Plot.fitFigs e d j)) (Plot.plotFitPath e d j false) := by
  unfold Plot.plotFitPath
  refine calm_bind (V := fun _ => True) ?_ fun _ _ => ?_
  · unfold Plot.plotsDir
    refine .inr (.inl ⟨_, hd, .inl rfl, fun r => ?_⟩)
    have hmk : Calm X d fs' (fun _ => True) (makedirs ("plots".toList :: d) false : Prog Content Unit) := by
      refine .inr (.inr ⟨hd, rfl, ?_⟩)
      refine .inr (.inl ⟨_, hd, .inr rfl, fun r => ?_⟩)
      cases r <;> trivial
    cases r
    · trivial
    · exact hmk
    · exact hmk
  · have := calm_bind (k := fun x => Prog.ret x) (calm_figs e d j hX (d := d) (fs' := fs'))
      (U := Gives fs' (Plot.fitFigs e d j)) fun x hx => hx
    exact this

/-! ## The fit -/

/-- A fit alone, stopped at some moment: the rest of it ends as the whole. -/
theorem alone_steps {α : Type} {p : Prog Content α} {fs : FS Content} {s : Sys Content α Unit}
    (h : Sys.Steps ⟨fun _ => p, fs⟩ s) :
    (s.proc ()).run s.fs = p.run fs ∧ s.fs ∈ p.trace fs ∧ (∀ x ∈ (s.proc ()).trace s.fs, x ∈ p.trace fs) ∧
      ∀ T : Path → Prop, Touches T p → Touches T (s.proc ()) := by
  induction h with
  | refl => exact ⟨rfl, by cases p <;> simp [Prog.trace], fun x hx => hx, fun T hT => hT⟩
  | @tail s _ _ h2 ih =>
    obtain ⟨i, o, k, hk⟩ := h2
    cases i
    obtain ⟨i1, i2, i3, i4⟩ := ih
    rw [hk] at i1 i3
    refine ⟨?_, i3 _ ?_, fun x hx => i3 _ ?_, fun T hT => ?_⟩
    · rw [← i1, Prog.run_op]; simp
    · simp only [Prog.trace, List.mem_cons]
      right
      generalize k (exec s.fs o).1 = p'
      cases p' <;> simp [Prog.trace]
    · simp only [Prog.trace, List.mem_cons]
      right
      simpa using hx
    · have := i4 T hT
      rw [hk] at this
      simpa using this.2 (exec s.fs o).1

theorem touches_any {α : Type} (p : Prog Content α) : Touches (fun _ => True) p := by
  induction p with
  | ret a => trivial
  | raise e => trivial
  | op o k ih => exact ⟨trivial, fun r => ih r⟩

/-- A program that does not look at `X` does not notice what is there. -/
theorem off_run {α : Type} {X T : Path → Prop} (hX : ∀ q, T q → ¬ X q ∧ ¬ X q.tail) {p : Prog Content α}
    (hp : Touches T p) {f g : FS Content} (h : ∀ q, ¬ X q → g q = f q) :
    (p.run g).1 = (p.run f).1 ∧ ∀ q, ¬ X q → (p.run g).2 q = (p.run f).2 q := by
  induction p generalizing f g with
  | ret a => exact ⟨rfl, h⟩
  | raise e => exact ⟨rfl, h⟩
  | op o k ih =>
    obtain ⟨h1, h2⟩ := hX _ hp.1
    have hd : isDir g o.path.tail = isDir f o.path.tail := by
      cases ht : o.path.tail with
      | nil => rfl
      | cons x t =>
        rw [ht] at h2
        simp only [isDir, h _ h2]
    obtain ⟨e1, e2⟩ := exec_congr (h _ h1) hd
    rw [Prog.run_op, Prog.run_op, e1]
    refine ih _ (hp.2 _) fun q hq => ?_
    by_cases hqo : q = o.path
    · rw [hqo]; exact e2
    · rw [exec_other hqo, exec_other hqo, h q hq]

/-- What a file can be while a fit is running. -/
theorem mid_file {N M : ℕ} {a : Input N M} {fs fs' : FS Content} (hwf : WF fs) {d : Path}
    (h : (fitZpoly a).run fs = (.ok d, fs')) (hd : fs d = none) {f : FS Content}
    (hf : f ∈ (fitZpoly a).trace fs) (q : Path) : f q = fs' q ∨ f q = none ∨ f q = some (.file .part) := by
  have hfree : ∃ i ≤ 100, fs (Spec.runDir a.workDir a.name i) = none := by
    rcases C45_directory a fs fs' d h with ⟨i, hi, e, -⟩ | ⟨e, h2⟩
    · exact ⟨i, hi, e ▸ hd⟩
    · exact absurd hd (e ▸ h2 100 le_rfl)
  obtain ⟨⟨q0, b1, b2⟩, -, -⟩ := C111_snapshot a fs hwf hfree f hf
  have hf' : fs' ∈ (fitZpoly a).trace fs := by
    have := (fitZpoly a).run_mem_trace fs
    rwa [h] at this
  have hold : f q = fs q → f q = fs' q ∨ f q = none ∨ f q = some (.file .part) := fun e => by
    by_cases hn : fs q = none
    · exact .inr (.inl (e.trans hn))
    · exact .inl (e.trans (C45_preserved a fs hwf hfree fs' hf' q hn).symm)
  rw [h] at b1 b2
  by_cases hq : q = q0
  · rw [← hq] at b2
    rcases b2 with e | e | e
    · exact hold e
    · exact .inl e
    · exact .inr (.inr e)
  · rcases b1 q hq with e | e
    · exact hold e
    · exact .inl e

/-! ## Theorems -/

/-- The watchers of a fit into `d`: tables of any directories, and figures of `d` if the fit makes none and the
directory is there. -/
def Spec.MayWatch (makePlots : Bool) (f : FS Content) (d : Path) : Spec.Watch → Prop
  | .table _ _ => True
  | .plot _ d' _ => d' = d ∧ makePlots = false ∧ isDir f d

theorem calm_watch {X : Path → Prop} {d : Path} {fs' : FS Content} (W : Spec.Watch)
    (hX : ∀ g t, g ≠ "plots".toList → ¬ X (g :: t)) (hd : isDir fs' d)
    (hW : ∀ e d' j, W = .plot e d' j → d' = d ∧ X ("plots".toList :: d)) :
    Calm X d fs' (fun x => (W.prog.run fs').1 = .ok x) W.prog := by
  cases W with
  | table j dirs =>
    refine calm_bind (calm_table j dirs hX) fun rows hr => ?_
    show ((Spec.Outcome.table <$> tablePyoofOut j dirs).run fs').1 = _
    show ((tablePyoofOut j dirs >>= fun r => Prog.ret (Spec.Outcome.table r)).run fs').1 = _
    rw [Prog.run_bind, show (tablePyoofOut j dirs).run fs' = _ from hr]
    rfl
  | plot e d' j =>
    obtain ⟨rfl, hx⟩ := hW e d' j rfl
    refine calm_bind (calm_plot e j hX hx) fun figs hr => ?_
    obtain ⟨f', h1, -⟩ := plot_run e hd j
    show ((Plot.plotFitPath e d' j false >>= fun r => Prog.ret (Spec.Outcome.figures r)).run fs').1 = _
    rw [Prog.run_bind, h1, show (Plot.fitFigs e d' j).run fs' = _ from hr]
    rfl

/-- **C116.**  While a fit is running (alone until some moment), others make tables, or figures of the same
directory; they do not disturb the fit, and what they get, if they get anything, is what they would get at the
end. -/
theorem C116_undisturbed {N M : ℕ} {ι : Type} [DecidableEq ι] (a : Input N M) (fs fs' : FS Content) (hwf : WF fs)
    (d : Path) (h : (fitZpoly a).run fs = (.ok d, fs')) (hd : fs d = none) (s0 : Sys Content Path Unit)
    (h0 : Sys.Steps ⟨fun _ => fitZpoly a, fs⟩ s0) (W : ι → Spec.Watch)
    (hW : ∀ i, Spec.MayWatch a.makePlots s0.fs d (W i)) (s : Sys Content Spec.Outcome (Option ι))
    (hs : Sys.Steps ⟨Spec.watched (s0.proc ()) W, s0.fs⟩ s) :
    (∃ f, (s.proc none).run s.fs = (.ok (.fit d), f) ∧ ∀ q, q ≠ "plots".toList :: d → f q = fs' q) ∧
    (∀ x, s.proc none = .ret x → x = .fit d ∧ ∀ q, q ≠ "plots".toList :: d → s.fs q = fs' q) ∧
    (∀ e, s.proc none ≠ .raise e) ∧
    ∀ i x, s.proc (some i) = .ret x → ((W i).prog.run fs').1 = .ok x := by
  obtain ⟨r1, r2, r3, r4⟩ := alone_steps h0
  rw [h] at r1
  have hlen : d.length = a.workDir.length + 2 := by
    rcases C45_directory a fs fs' d h with ⟨i, -, e, -⟩ | ⟨e, -⟩ <;> rw [e] <;> simp [Spec.runDir]
  let X : Path → Prop := fun q => a.makePlots = false ∧ isDir s0.fs d ∧ q = "plots".toList :: d
  have hXg : ∀ g t, g ≠ "plots".toList → ¬ X (g :: t) := by
    rintro g t hg ⟨-, -, e⟩
    rw [List.cons.injEq] at e
    exact hg e.1
  have hXd : ¬ X d := fun ⟨_, _, e⟩ => by
    have := congrArg List.length e
    simp at this
  let T : Path → Prop := fun q => ¬ X q ∧ ¬ X q.tail
  have hT : Touches T (s0.proc ()) := by
    by_cases hm : a.makePlots = false
    · refine touches_mono ?_ (r4 _ (touches_fit_below a hm))
      rintro q ⟨q1, q2⟩
      refine ⟨fun ⟨_, _, e⟩ => q2 _ e hlen, fun ⟨_, _, e⟩ => ?_⟩
      have := congrArg List.length e
      simp at this
      omega
    · exact touches_mono (S := fun _ => True) (fun q _ => ⟨fun hx => hm hx.1, fun hx => hm hx.1⟩) (touches_any _)
  have hdir : isDir fs' d := by
    obtain ⟨fs1, _, _, _, h1, -, -, -, h2⟩ := fitZpoly_ok h
    exact run_isDir h2 (allocDir_isDir h1 (.inl hd))
  -- what holds at any moment
  have key : ∃ p f, s.proc none = Spec.Outcome.fit <$> p ∧ p.run f = (.ok d, fs') ∧ f ∈ (fitZpoly a).trace fs ∧
      (∀ x ∈ p.trace f, x ∈ (fitZpoly a).trace fs) ∧ (∀ q, ¬ X q → s.fs q = f q) ∧ Touches T p ∧
      (X ("plots".toList :: d) → isDir f d) ∧
      ∀ i, Calm X d fs' (fun x => ((W i).prog.run fs').1 = .ok x) (s.proc (some i)) := by
    induction hs with
    | refl =>
      refine ⟨s0.proc (), s0.fs, rfl, r1, r2, r3, fun _ _ => rfl, hT, fun hx => hx.2.1, fun i => ?_⟩
      refine calm_watch (W i) hXg hdir fun e d' j hw => ?_
      have := hW i
      rw [hw] at this
      exact ⟨this.1, this.2.1, this.2.2, rfl⟩
    | @tail s _ _ h2 ih =>
      obtain ⟨i, o, k, hk⟩ := h2
      obtain ⟨p, f, i1, i2, i3, i4, i5, i6, i7, i8⟩ := ih
      cases i with
      | none =>
        rw [i1] at hk
        cases p with
        | ret x => cases hk
        | raise e => cases hk
        | op o' k' =>
          cases hk
          obtain ⟨h1, h2⟩ := i6.1
          have hde : isDir s.fs o.path.tail = isDir f o.path.tail := by
            cases ht : o.path.tail with
            | nil => rfl
            | cons x t =>
              rw [ht] at h2
              simp only [isDir, i5 _ h2]
          obtain ⟨e1, e2⟩ := exec_congr (i5 _ h1) hde
          refine ⟨k' (exec f o).1, (exec f o).2, ?_, ?_, i4 _ ?_, fun x hx => i4 _ ?_, fun q hq => ?_, i6.2 _,
            fun hx => exec_isDir f o (i7 hx), fun i => ?_⟩
          · rw [← e1]; simp only [Function.update_self]; rfl
          · rw [← i2, Prog.run_op]
          · simp only [Prog.trace, List.mem_cons]
            right
            generalize k' (exec f o).1 = p'
            cases p' <;> simp [Prog.trace]
          · simp only [Prog.trace, List.mem_cons]
            exact .inr hx
          · by_cases hqo : q = o.path
            · rw [hqo]; exact e2
            · show (exec s.fs o).2 q = _
              rw [exec_other hqo, exec_other hqo, i5 q hq]
          · simpa using i8 i
      | some i =>
        have hc := i8 i
        rw [hk] at hc
        have hother : ∀ j, j ≠ i → Calm X d fs' (fun x => ((W j).prog.run fs').1 = .ok x)
            (Function.update s.proc (some i) (k (exec s.fs o).1) (some j)) := fun j hj => by
          rw [Function.update_of_ne (by simpa using hj)]
          exact i8 j
        have hfin : (∀ q, ¬ X q → (exec s.fs o).2 q = s.fs q) →
            Calm X d fs' (fun x => ((W i).prog.run fs').1 = .ok x) (k (exec s.fs o).1) → ∃ p f,
            Function.update s.proc (some i) (k (exec s.fs o).1) none = Spec.Outcome.fit <$> p ∧
            p.run f = (.ok d, fs') ∧ f ∈ (fitZpoly a).trace fs ∧
            (∀ x ∈ p.trace f, x ∈ (fitZpoly a).trace fs) ∧ (∀ q, ¬ X q → (exec s.fs o).2 q = f q) ∧ Touches T p ∧
            (X ("plots".toList :: d) → isDir f d) ∧
            ∀ j, Calm X d fs' (fun x => ((W j).prog.run fs').1 = .ok x)
              (Function.update s.proc (some i) (k (exec s.fs o).1) (some j)) := fun g1 g2 => by
          refine ⟨p, f, by simpa using i1, i2, i3, i4, fun q hq => (g1 q hq).trans (i5 q hq), i6, i7, fun j => ?_⟩
          by_cases hj : j = i
          · subst hj
            simpa using g2
          · exact hother j hj
        rcases hc with ⟨q, c1, rfl, c2, ⟨e, c3⟩, e', c4⟩ | ⟨q, c1, c2, c3⟩ | ⟨c1, rfl, c2⟩
        · have hex : (exec s.fs (.read q)).2 = s.fs := by
            simp only [exec]
            rcases s.fs q with _ | (_ | c) <;> rfl
          refine hfin (fun _ _ => by rw [hex]) ?_
          rcases mid_file hwf h hd i3 q with e | e | e
          · have : (exec s.fs (.read q)).1 = (exec fs' (.read q)).1 := by
              simp only [exec, i5 q c1, e]
              rcases fs' q with _ | (_ | c) <;> rfl
            rw [this]
            exact c2
          · have : (exec s.fs (.read q)).1 = .no := by simp only [exec, i5 q c1, e]
            rw [this, c3]
            trivial
          · have : (exec s.fs (.read q)).1 = .data .part := by simp only [exec, i5 q c1, e]
            rw [this, c4]
            trivial
        · refine hfin (fun q' hq' => exec_other fun e => hq' ?_) (c3 _)
          rcases c2 with rfl | rfl <;> · rw [e]; exact c1
        · refine hfin (fun q' hq' => by simp [exec]) ?_
          have : (exec s.fs (.present d)).1 = .yes := by
            have h1 : present f d = true := isDir_present (i7 c1)
            have h2 := i5 d hXd
            have : present s.fs d = true := by
              rw [← h1]
              revert h2
              generalize d = d0
              intro h2
              cases d0 with
              | nil => rfl
              | cons x t => simp only [present, h2]
            simp [exec, this]
          rw [this]
          exact c2
  obtain ⟨p, f, i1, i2, i3, i4, i5, i6, i7, i8⟩ := key
  have hXq : ∀ q, q ≠ "plots".toList :: d → ¬ X q := fun q hq hx => hq hx.2.2
  have hmap : ∀ (p : Prog Content Path), (Spec.Outcome.fit <$> p) = (p >>= fun x => .ret (Spec.Outcome.fit x)) :=
    fun _ => rfl
  refine ⟨?_, fun x hx => ?_, fun e he => ?_, fun i x hx => ?_⟩
  · obtain ⟨o1, o2⟩ := off_run (fun q hq => hq) i6 i5
    rw [i2] at o1 o2
    refine ⟨(p.run s.fs).2, ?_, fun q hq => o2 q (hXq q hq)⟩
    rw [i1, hmap, Prog.run_bind_ok]
    exact ⟨d, (p.run s.fs).2, Prod.ext o1 rfl, rfl⟩
  · rw [i1] at hx
    cases p with
    | ret y =>
      cases hx
      cases i2
      exact ⟨rfl, fun q hq => i5 q (hXq q hq)⟩
    | raise e => cases hx
    | op o k => cases hx
  · rw [i1] at he
    cases p with
    | ret y => cases he
    | raise e => cases i2
    | op o k => cases he
  · have := i8 i
    rw [hx] at this
    exact this

theorem cut_run {α β : Type} {p : Prog Content α} {k : α → Prog Content β} {fs f : FS Content} {x : α}
    (h : p.run fs = (.ok x, f)) : Sys.Steps (ι := Unit) ⟨fun _ => p >>= k, fs⟩ ⟨fun _ => k x, f⟩ := by
  have := steps_run (i := ()) (f := k) ⟨fun _ => p >>= k, fs⟩ rfl h
  rwa [show Function.update (fun _ : Unit => p >>= k) () (k x) = fun _ => k x from funext fun _ => by simp] at this

theorem cut_bind {α β : Type} {p : Prog Content α} {k : α → Prog Content β} {fs f : FS Content}
    {p' : Prog Content α} (h : Sys.Steps (ι := Unit) ⟨fun _ => p, fs⟩ ⟨fun _ => p', f⟩) :
    Sys.Steps (ι := Unit) ⟨fun _ => p >>= k, fs⟩ ⟨fun _ => p' >>= k, f⟩ := by
  have key : ∀ s : Sys Content α Unit, Sys.Steps ⟨fun _ => p, fs⟩ s →
      Sys.Steps (ι := Unit) ⟨fun _ => p >>= k, fs⟩ ⟨fun _ => s.proc () >>= k, s.fs⟩ := by
    intro s hs
    induction hs with
    | refl => exact .refl
    | @tail s _ _ h2 ih =>
      obtain ⟨i, o, c, hc⟩ := h2
      cases i
      refine ih.tail ?_
      have := Sys.Step.mk (ι := Unit) ⟨fun _ => s.proc () >>= k, s.fs⟩ () o (fun r => c r >>= k) (by
        show (s.proc () >>= k) = _
        rw [hc]; rfl)
      convert this using 2
      funext u
      simp
  exact key _ h

theorem steps_fail {α ι : Type} [DecidableEq ι] {i : ι} (s : Sys Content α ι) {e : PyErr} {fs' : FS Content}
    (hr : (s.proc i).run s.fs = (.error e, fs')) :
    Sys.Steps s ⟨Function.update s.proc i (.raise e), fs'⟩ := by
  generalize hp : s.proc i = p at hr
  induction p generalizing s with
  | ret b => cases hr
  | raise e' =>
    cases hr
    rw [← hp, Function.update_eq_self]
  | op o k ih =>
    refine .head (Sys.Step.mk s i o k hp) ?_
    rw [Prog.run_op] at hr
    have := ih (exec s.fs o).1 ⟨Function.update s.proc i (k (exec s.fs o).1), (exec s.fs o).2⟩ (by simp) hr
    simpa using this

/-- A fit with figures, until just before it makes the directory of the figures. -/
theorem before_plots {N M : ℕ} {a : Input N M} {fs fs' : FS Content} (hwf : WF fs) {d : Path}
    (h : (fitZpoly a).run fs = (.ok d, fs')) (hd : fs d = none) (hm : a.makePlots = true) (hn : 1 ≤ a.orderMax) :
    ∃ f k, Sys.Steps (ι := Unit) ⟨fun _ => fitZpoly a, fs⟩ ⟨fun _ => Fit.plotFitPath d 1 >>= k, f⟩ ∧
      isDir f d ∧ f ("plots".toList :: d) = none ∧ (∀ g, Spec.filesAt 1 g → f (g :: d) = fs' (g :: d)) ∧
      ∀ j g, 2 ≤ j → Spec.filesAt j g → f (g :: d) = none := by
  obtain ⟨fs1, s0, s1, s2, h1, e0, e1, e2, h2⟩ := fitZpoly_ok h
  have hdir := allocDir_isDir h1 (.inl hd)
  have hfresh := allocDir_fresh hwf h1 hd ("plots".toList :: d) ⟨_, d, rfl, List.suffix_refl _⟩
  obtain ⟨m, hm1⟩ : ∃ m, a.orderMax = m + 1 := ⟨a.orderMax - 1, by omega⟩
  rw [hm1, fitLoop, Prog.run_bind_ok] at h2
  obtain ⟨_, f3, h3, hl⟩ := h2
  unfold fitOrder at h3
  rw [Prog.run_bind_ok] at h3
  obtain ⟨init, g1, k1, h3⟩ := h3
  rw [Prog.run_bind_ok] at h3
  obtain ⟨out, g2, k2, h3⟩ := h3
  rw [Prog.run_bind_ok] at h3
  obtain ⟨_, g3, k3, h3⟩ := h3
  rw [if_pos rfl, Prog.run_bind_ok] at h3
  obtain ⟨_, g4, k4, h3⟩ := h3
  rw [Prog.run_bind_ok] at h3
  obtain ⟨_, g5, k5, h3⟩ := h3
  have hn : ¬ NotPlots d.length ("plots".toList :: d) := fun hc => hc.2 d rfl rfl
  have hst : Sys.Steps (ι := Unit) ⟨fun _ => fitOrder a [s0, s1, s2] d 1, fs1⟩
      ⟨fun _ => Fit.plotFitPath d 1, g5⟩ := by
    unfold fitOrder
    refine (cut_run k1).trans ((cut_run k2).trans ((cut_run k3).trans ?_))
    rw [if_pos rfl]
    refine (cut_run k4).trans ((cut_run k5).trans ?_)
    rw [if_pos hm]
  refine ⟨g5, fun _ => fitLoop a [s0, s1, s2] d 2 m >>= fun _ => .ret d, ?_, ?_, ?_, fun g hg => ?_,
    fun j g hj hg => ?_⟩
  · have hrest : fitRest a d = ((fitOrder a [s0, s1, s2] d 1 >>= fun _ => fitLoop a [s0, s1, s2] d 2 m) >>=
        fun _ => .ret d) := by
      unfold fitRest
      rw [e0, e1, e2, hm1]
      rfl
    rw [fitZpoly_eq]
    refine (cut_run h1).trans ?_
    rw [hrest, ← prog_bind_assoc]
    exact cut_bind (cut_bind hst)
  · exact run_isDir k5 (run_isDir k4 (run_isDir k3 (run_isDir k2 (run_isDir k1 hdir))))
  · have t1 : Touches (NotPlots d.length) (startVector a d 1) := by
      unfold startVector
      dsimp only
      split_ifs
      · refine touches_bind' (touches_readFile (file_notPlots (fileName_not_plots _ _))) fun c => ?_
        cases c <;> trivial
      · trivial
    have t2 : Touches (NotPlots d.length) (Prog.lift (solveOrder a 1 init) : Prog Content _) := touches_lift _
    have t3 : Touches (NotPlots d.length) (storeDataAscii d 1 out.sol init) := by
      refine touches_bind' (touches_lift _) fun names => ?_
      split_ifs
      · exact touches_writeFile (file_notPlots (fileName_not_plots _ _)) _ _
      · trivial
    have t4 : Touches (NotPlots d.length) (writeFile .part (d.join "pyoof_info.yml".toList)
        (.info (infoOf a [s0, s1, s2])) : Prog Content _) := touches_writeFile (file_notPlots (by simp)) _ _
    have u1 := touches_frame t1 hn fs1
    have u2 := touches_frame t2 hn g1
    have u3 := touches_frame t3 hn g2
    have u4 := touches_frame t4 hn g3
    have u5 := touches_frame (touches_storeDataCsv_below a.name d 1 out.save) hn g4
    rw [k1] at u1
    rw [k2] at u2
    rw [k3] at u3
    rw [k4] at u4
    rw [k5] at u5
    exact u5.trans (u4.trans (u3.trans (u2.trans (u1.trans hfresh))))
  · have hp : OrderPlace d 1 (g :: d) := .inl ⟨g, hg, rfl⟩
    rw [if_pos hm] at h3
    rw [run_frame (snap_fitLoop a [s0, s1, s2] d 2 m).writes hl, run_frame (snap_plotFitPath d 1).writes h3]
    · rintro (⟨f, -, e⟩ | hq)
      · have := congrArg List.length e
        simp at this
      · exact orderPlace_plots hp hq
    · rintro (⟨j, hj, -, hq⟩ | hq)
      · have := orderPlace_disjoint hp hq
        omega
      · exact orderPlace_plots hp hq
  · have hp : OrderPlace d j (g :: d) := .inl ⟨g, hg, rfl⟩
    have ht : g5 ∈ _ := (alone_steps hst).2.1
    rw [trace_frame (snap_fitOrder a [s0, s1, s2] d 1).writes ht]
    · exact allocDir_fresh hwf h1 hd _ ⟨_, d, rfl, List.suffix_refl _⟩
    · rintro (hq | hq)
      · have := orderPlace_disjoint hp hq
        omega
      · exact orderPlace_plots hp hq

/-- **C116.**  With figures of the fit itself it is different: somebody who plots the directory at the wrong moment
makes the fit fail, whatever order they ask for. -/
theorem C116_race {N M : ℕ} (a : Input N M) (fs fs' : FS Content) (hwf : WF fs) (d : Path)
    (h : (fitZpoly a).run fs = (.ok d, fs')) (hd : fs d = none) (hm : a.makePlots = true) (hn : 1 ≤ a.orderMax)
    (e : Plot.PlotEnv) (j : ℕ) :
    ∃ s0 : Sys Content Path Unit, Sys.Steps ⟨fun _ => fitZpoly a, fs⟩ s0 ∧
      ∃ s, Sys.Steps ⟨Spec.watched (s0.proc ()) fun _ : Unit => .plot e d j, s0.fs⟩ s ∧
        s.proc none = .raise .osError ∧ (∀ g, Spec.filesAt 1 g → s.fs (g :: d) = fs' (g :: d)) ∧
        ∀ n g, 2 ≤ n → Spec.filesAt n g → s.fs (g :: d) = none := by
  obtain ⟨f, k, h1, h2, h3, h4, h5⟩ := before_plots hwf h hd hm hn
  refine ⟨_, h1, ?_⟩
  dsimp only
  have hfp : Fit.plotFitPath d 1 = (existsP ("plots".toList :: d) >>= fun b =>
      ((if !b then makedirs ("plots".toList :: d) false else .ret ()) >>= fun _ => Plot.savePdfs d 1)) := by
    unfold Fit.plotFitPath
    refine congrArg (existsP ("plots".toList :: d) >>= ·) ?_
    funext b
    cases b <;> rfl
  obtain ⟨k', hk'⟩ : ∃ k' : Unit → Prog Content Spec.Outcome, (Spec.Outcome.fit <$> (Fit.plotFitPath d 1 >>= k)) =
      (existsP ("plots".toList :: d) >>= fun b =>
        ((if !b then makedirs ("plots".toList :: d) false else .ret ()) >>= k')) := by
    refine ⟨fun _ => (Plot.savePdfs d 1 >>= k) >>= fun x => .ret (.fit x), ?_⟩
    rw [hfp]
    show ((existsP _ >>= _) >>= _) >>= _ = _
    rw [prog_bind_assoc, prog_bind_assoc]
    congr 1
    funext b
    rw [prog_bind_assoc, prog_bind_assoc]
    simp only [prog_bind_assoc]
    rfl
  have hno : present f ("plots".toList :: d) = false := by simp only [present, h3]; rfl
  have st1 := steps_run (i := none) ⟨Spec.watched (Fit.plotFitPath d 1 >>= k) fun _ : Unit => .plot e d j, f⟩ hk'
    (run_existsP _ _)
  rw [hno] at st1
  have hpl : (Plot.plotsDir d).run f = (.ok (), update f ("plots".toList :: d) .dir) := by
    unfold Plot.plotsDir
    rw [Prog.run_bind, run_existsP]
    dsimp only
    rw [show present f (d.join "plots".toList) = false from hno, if_neg Bool.false_ne_true,
      run_makedirs_leaf _ _ _ _ h2, if_neg (fun hc => Bool.false_ne_true (hno.symm.trans hc))]
  obtain ⟨r, hr⟩ : ∃ r, (Spec.Outcome.figures <$> Plot.plotFitPath e d j false) = (Plot.plotsDir d >>= r) := by
    unfold Plot.plotFitPath
    exact ⟨_, prog_bind_assoc _ _ _⟩
  refine ⟨⟨fun o => match o with
    | none => .raise .osError
    | some () => r (), update f ("plots".toList :: d) .dir⟩, ?_, rfl, fun g hg => ?_, fun n g hn hg => ?_⟩
  rotate_left
  · dsimp only
    have hne : g :: d ≠ "plots".toList :: d := fun hc => filesAt_not_plots 1 ((List.cons.inj hc).1 ▸ hg)
    rw [update_ne _ _ hne]
    exact h4 g hg
  · dsimp only
    have hne : g :: d ≠ "plots".toList :: d := fun hc => filesAt_not_plots n ((List.cons.inj hc).1 ▸ hg)
    rw [update_ne _ _ hne]
    exact h5 n g hn hg
  refine st1.trans ?_
  refine (steps_run (i := some ()) (p := Plot.plotsDir d) (fs' := update f ("plots".toList :: d) .dir)
    (f := r) _ (by
        dsimp only
        rw [Function.update_of_ne (by simp)]
        exact hr) hpl).trans ?_
  have hmk : (makedirs ("plots".toList :: d) false).run (update f ("plots".toList :: d) .dir) =
      (.error .osError, update f ("plots".toList :: d) .dir) := by
    rw [run_makedirs_leaf _ _ _ _ ?_, if_pos ?_, if_neg (by simp)]
    · simp only [present, update_same]; rfl
    · refine isDir_mono (fun q hq => ?_) h2
      by_cases e : q = "plots".toList :: d
      · rw [e, update_same]
      · rw [update_ne _ _ e]; exact hq
  refine (steps_fail (i := none) (e := .osError) (fs' := update f ("plots".toList :: d) .dir) _ ?_).trans ?_
  · dsimp only
    rw [Function.update_of_ne (by simp), Function.update_self, if_pos (show (!false) = true from rfl), Prog.run_bind, hmk]
  · dsimp only
    refine Eq.subst (motive := fun x => Sys.Steps _ x) ?_ .refl
    congr 1
    funext o
    rcases o with _ | ⟨⟩ <;> simp

/-- A fit without figures and somebody who makes figures and a table of its directory, from when the directory has
been made: the hypotheses are met. -/
example : ∃ d fs' s0, (fitZpoly plotInput).run sampleFs = (.ok d, fs') ∧ sampleFs d = none ∧
    Sys.Steps ⟨fun _ : Unit => fitZpoly plotInput, sampleFs⟩ s0 ∧
    s0.fs ("pyoof_info.yml".toList :: d) = none ∧
    ∀ i : Bool, Spec.MayWatch plotInput.makePlots s0.fs d
      (if i then .plot plotEnv d 1 else .table 1 [d]) := by
  obtain ⟨d, fs', h⟩ := plotInput_run
  have hd : sampleFs d = none := by
    rcases C45_directory _ _ _ _ h with ⟨i, hi, hdi, hdn, -⟩ | ⟨h1, h2⟩
    · exact hdn
    · rw [h1]; simp [Spec.runDir, plotInput, sampleFs]
  obtain ⟨fs1, s0, s1, s2, h1, e0, e1, e2, h2⟩ := fitZpoly_ok h
  refine ⟨d, fs', ⟨fun _ => fitRest plotInput d, fs1⟩, h, hd, cut_run h1,
    allocDir_fresh sampleFs_wf h1 hd _ ⟨_, d, rfl, List.suffix_refl _⟩, fun i => ?_⟩
  cases i
  · trivial
  · exact ⟨rfl, rfl, allocDir_isDir h1 (.inl hd)⟩

/-- A fit with figures that somebody disturbs. -/
example (e : Plot.PlotEnv) : ∃ d fs', (fitZpoly sampleInput).run sampleFs = (.ok d, fs') ∧
    ∃ s0 : Sys Content Path Unit, Sys.Steps ⟨fun _ => fitZpoly sampleInput, sampleFs⟩ s0 ∧
      ∃ s, Sys.Steps ⟨Spec.watched (s0.proc ()) fun _ : Unit => .plot e d 5, s0.fs⟩ s ∧
        s.proc none = .raise .osError := by
  obtain ⟨d, fs', h⟩ := sample_run
  have hd : sampleFs d = none := by
    rcases C45_directory _ _ _ _ h with ⟨i, hi, hdi, hdn, -⟩ | ⟨h1, h2⟩
    · exact hdn
    · rw [h1]; simp [Spec.runDir, sampleInput, sampleFs]
  obtain ⟨s0, h0, s, h1, h2, -⟩ := C116_race sampleInput sampleFs fs' sampleFs_wf d h hd rfl (by simp [sampleInput]) e 5
  exact ⟨d, fs', h, s0, h0, s, h1, h2⟩

end Verif.Props
