import Verif.Props.Batch
import Verif.Props.Mpi

/-!
# C93: the ranks of an MPI run

Every rank does its part of the files, all at the same time, in one working directory.
-/

namespace Verif.Props

open Verif Verif.Fs Verif.Store Verif.Core Verif.Fit Verif.Aperture Verif.AuxFn Verif.Batch

/-! ## Programs that first see to `pyoof_out` -/

/-- Programs without operations, and programs that first create `pyoof_out` and then stay in `Z`. -/
def Starts {α : Type} (w : Path) (Z : Path → Prop) (p : Prog Content α) : Prop :=
  (∃ a, p = .ret a) ∨ (∃ e, p = .raise e) ∨ ∃ f, p = (allocOut (outDir w) >>= f) ∧ Touches Z (f ())

/-- No operation is left. -/
def Quiet {α : Type} (p : Prog Content α) : Prop := ∀ o k, p ≠ .op o k

/-- What belongs to each of the programs. -/
structure Regions {ι : Type} (w : Path) (Own : ι → Path → Prop) : Prop where
  tail : ∀ i q, Own i q → Own i q.tail ∨ q.tail <:+ outDir w
  notOut : ∀ i q, Own i q → ¬ q <:+ outDir w
  disjoint : ∀ i j q, Own i q → Own j q → i = j

variable {ι : Type} [DecidableEq ι] {α : Type}

/-- The invariant of `C46_no_interference` for any programs. -/
structure Ghosts (p : ι → Prog Content α) (w : Path) (Own : ι → Path → Prop) (fs0 : FS Content)
    (s : Sys Content α ι) : Prop where
  wf : WF s.fs
  dirs : ∀ q, isDir fs0 q → isDir s.fs q
  root : s.fs [] = fs0 []
  out : s.fs (outDir w) = none ∨ isDir s.fs (outDir w)
  other : ∀ q, q ≠ outDir w → (∀ i, ¬ Own i q) → s.fs q = fs0 q
  quiet : (∀ i, Quiet (p i)) → s.fs (outDir w) = fs0 (outDir w)
  each : ∀ i, (Quiet (p i) ∧ s.proc i = p i ∧ ∀ q, Own i q → s.fs q = fs0 q) ∨
    (∃ f, p i = (allocOut (outDir w) >>= f) ∧ Touches (fun q => Own i q ∨ q <:+ outDir w) (f ()) ∧
      Early (outDir w) f (s.proc i) s.fs ∧ ∀ q, Own i q → s.fs q = fs0 q) ∨
    (¬ Quiet (p i) ∧ isDir s.fs (outDir w) ∧ Touches (fun q => Own i q ∨ q <:+ outDir w) (s.proc i) ∧
      ∃ g, (∀ q, Own i q ∨ q <:+ outDir w → s.fs q = g q) ∧ (s.proc i).run g = (p i).run fs0)

theorem ghosts_step {p : ι → Prog Content α} {w : Path} {Own : ι → Path → Prop} (hreg : Regions w Own)
    {fs0 : FS Content} (hwf : WF fs0) (hwd : isDir fs0 w)
    (hout : fs0 (outDir w) = none ∨ isDir fs0 (outDir w)) {s s' : Sys Content α ι}
    (h : Ghosts p w Own fs0 s) (hst : Sys.Step s s') : Ghosts p w Own fs0 s' := by
  obtain ⟨j, o, k, hj⟩ := hst
  have hwd' := h.dirs w hwd
  have hnq : ¬ Quiet (p j) := by
    intro hq
    rcases h.each j with ⟨-, h1, -⟩ | ⟨f, h1, -⟩ | ⟨hn, -⟩
    · exact hq o k (by rw [← h1, hj])
    · obtain ⟨o, k, e⟩ := early_op (fs := fs0) (f := f) (by simp [outDir]) (.inl h1)
      exact hq _ _ e
    · exact hn hq
  -- the file system
  have hfs : (∀ q, q ≠ outDir w → (¬ Own j q) → (exec s.fs o).2 q = s.fs q) ∧
      ((exec s.fs o).2 (outDir w) = none ∨ isDir (exec s.fs o).2 (outDir w)) := by
    rcases h.each j with ⟨hq, -⟩ | ⟨f, -, -, he, -⟩ | ⟨-, hd, ht, -⟩
    · exact absurd hq hnq
    · rw [hj] at he
      obtain ⟨-, h2, h3⟩ := early_step he hwd' h.out
      exact ⟨fun q hq _ => h2 q hq, h3⟩
    · rw [hj] at ht
      refine ⟨fun q hq hm => ?_, .inr (exec_isDir _ _ hd)⟩
      rcases ht.1 with h1 | h1
      · exact exec_other fun e => hm (e ▸ h1)
      · rw [exec_dir_same (WF_suffix h.wf hd h1)]
  have hout_same : isDir s.fs (outDir w) → (exec s.fs o).2 (outDir w) = s.fs (outDir w) := by
    intro hd
    rw [isDir_iff.1 hd, isDir_iff.1 (exec_isDir s.fs o hd)]
  have hne : ∀ i q, Own i q → q ≠ outDir w := fun i q hq e => hreg.notOut i q hq (e ▸ List.suffix_refl _)
  refine ⟨exec_WF h.wf o, fun q hq => exec_isDir _ _ (h.dirs q hq), (exec_root _ _).trans h.root,
    hfs.2, fun q hq hno => (hfs.1 q hq (hno j)).trans (h.other q hq hno), fun hall => absurd (hall j) hnq,
    fun i => ?_⟩
  by_cases hij : i = j
  · subst hij
    simp only [Function.update_self]
    rcases h.each i with ⟨hq, -⟩ | ⟨f, hp, htf, he, hm⟩ | ⟨hn, hd, ht, g, hg, hr⟩
    · exact absurd hq hnq
    · rw [hj] at he
      obtain ⟨h1, h2, -⟩ := early_step he hwd' h.out
      have hm' : ∀ q, Own i q → (exec s.fs o).2 q = fs0 q := by
        intro q hq
        rw [h2 q (hne i q hq), hm q hq]
      rcases h1 with h1 | ⟨h1, hd⟩
      · exact .inr (.inl ⟨f, hp, htf, h1, hm'⟩)
      · refine .inr (.inr ⟨hnq, hd, ?_, ?_⟩)
        · rw [h1]; exact htf
        · obtain ⟨g, hg1, hg2, hg3⟩ := allocOut_run hwd hout
          refine ⟨g, fun q hq => ?_, ?_⟩
          · rcases hq with hq | hq
            · rw [hm' q hq, hg3 q (hne i q hq)]
            · rcases List.suffix_cons_iff.1 hq with rfl | hq
              · rw [isDir_iff.1 hd, isDir_iff.1 hg2]
              · have hq0 := WF_suffix hwf hwd hq
                have hne : q ≠ outDir w := by
                  rintro rfl
                  have := hq.length_le
                  simp at this
                rw [hg3 q hne]
                cases q with
                | nil => exact (exec_root _ _).trans h.root
                | cons f q =>
                  rw [isDir_iff.1 hq0, isDir_iff.1 (exec_isDir _ o (h.dirs _ hq0))]
          · rw [h1, hp, Prog.run_bind, hg1]
    · rw [hj] at ht hr
      have hc := exec_congr (o := o) (hg _ ht.1) (by
        cases e : o.path.tail with
        | nil => rfl
        | cons f q =>
          have hz : Own i o.path.tail ∨ o.path.tail <:+ outDir w := by
            rcases ht.1 with h1 | h1
            · exact hreg.tail i _ h1
            · exact .inr ((List.tail_suffix _).trans h1)
          have := hg _ hz
          rw [e] at this
          simp only [isDir, this])
      refine .inr (.inr ⟨hn, exec_isDir _ _ hd, ht.2 _, (exec g o).2, fun q hq => ?_, ?_⟩)
      · by_cases e : q = o.path
        · rw [e]; exact hc.2
        · rw [exec_other e, exec_other e]; exact hg q hq
      · rw [hc.1, ← hr, Prog.run_op]
  · simp only [Function.update_of_ne hij]
    have hmine : ∀ q, Own i q → (exec s.fs o).2 q = s.fs q := fun q hq =>
      hfs.1 q (hne i q hq) fun hm => hij (hreg.disjoint i j q hq hm)
    rcases h.each i with ⟨hq, hp, hm⟩ | ⟨f, hp, htf, he, hm⟩ | ⟨hn, hd, ht, g, hg, hr⟩
    · exact .inl ⟨hq, hp, fun q hq => by rw [hmine q hq, hm q hq]⟩
    · refine .inr (.inl ⟨f, hp, htf, ?_, fun q hq => by rw [hmine q hq, hm q hq]⟩)
      rcases he with he | he | he | ⟨he, hd⟩
      · exact .inl he
      · exact .inr (.inl he)
      · exact .inr (.inr (.inl he))
      · exact .inr (.inr (.inr ⟨he, exec_isDir _ _ hd⟩))
    · refine .inr (.inr ⟨hn, exec_isDir _ _ hd, ht, g, fun q hq => ?_, hr⟩)
      rw [← hg q hq]
      rcases hq with hq | hq
      · exact hmine q hq
      · by_cases e : q = outDir w
        · rw [e]; exact hout_same hd
        · exact hfs.1 q e fun hm => hreg.notOut j q hm hq

omit [DecidableEq ι] in
theorem ghosts_init {p : ι → Prog Content α} {w : Path} {Own : ι → Path → Prop} {fs0 : FS Content}
    (hp : ∀ i, Starts w (fun q => Own i q ∨ q <:+ outDir w) (p i)) (hwf : WF fs0)
    (hout : fs0 (outDir w) = none ∨ isDir fs0 (outDir w)) : Ghosts p w Own fs0 ⟨p, fs0⟩ where
  wf := hwf
  dirs := fun _ h => h
  root := rfl
  out := hout
  other := fun _ _ _ => rfl
  quiet := fun _ => rfl
  each := fun i => by
    rcases hp i with ⟨a, e⟩ | ⟨e', e⟩ | ⟨f, e, hf⟩
    · exact .inl ⟨fun o k h => by rw [e] at h; (cases h), rfl, fun _ _ => rfl⟩
    · exact .inl ⟨fun o k h => by rw [e] at h; (cases h), rfl, fun _ _ => rfl⟩
    · exact .inr (.inl ⟨f, e, hf, .inl e, fun _ _ => rfl⟩)

theorem ghosts_steps {p : ι → Prog Content α} {w : Path} {Own : ι → Path → Prop} (hreg : Regions w Own)
    {fs0 : FS Content} (hp : ∀ i, Starts w (fun q => Own i q ∨ q <:+ outDir w) (p i)) (hwf : WF fs0)
    (hwd : isDir fs0 w) (hout : fs0 (outDir w) = none ∨ isDir fs0 (outDir w)) {s : Sys Content α ι}
    (hs : Sys.Steps ⟨p, fs0⟩ s) : Ghosts p w Own fs0 s := by
  induction hs with
  | refl => exact ghosts_init hp hwf hout
  | tail _ hst ih => exact ghosts_step hreg hwf hwd hout ih hst

/-- A program that has ended. -/
theorem ghosts_ret {p : ι → Prog Content α} {w : Path} {Own : ι → Path → Prop} {fs0 : FS Content}
    {s : Sys Content α ι} (h : Ghosts p w Own fs0 s) (i : ι) (r : Py α)
    (hr : ∀ g : FS Content, (s.proc i).run g = (r, g)) (hq : Quiet (s.proc i)) :
    ∃ alone, (p i).run fs0 = (r, alone) ∧ ∀ q, Own i q → s.fs q = alone q := by
  rcases h.each i with ⟨-, h1, h2⟩ | ⟨f, -, -, he, -⟩ | ⟨-, -, -, g, hg, h1⟩
  · exact ⟨fs0, by rw [← h1, hr], h2⟩
  · obtain ⟨o, k, e⟩ := early_op (by simp [outDir]) he
    exact absurd e (hq o k)
  · exact ⟨g, by rw [← h1, hr], fun q hq => hg q (.inl hq)⟩

/-- The disk after all programs have ended does not depend on the interleaving. -/
theorem ghosts_unique {p : ι → Prog Content α} {w : Path} {Own : ι → Path → Prop} {fs0 : FS Content}
    {s s' : Sys Content α ι} (h : Ghosts p w Own fs0 s) (h' : Ghosts p w Own fs0 s')
    (hr : ∀ i, ∃ a, s.proc i = .ret a) (hr' : ∀ i, ∃ a, s'.proc i = .ret a) : s.fs = s'.fs := by
  funext q
  by_cases ho : ∃ i, Own i q
  · obtain ⟨i, hi⟩ := ho
    obtain ⟨a, ha⟩ := hr i
    obtain ⟨a', ha'⟩ := hr' i
    obtain ⟨g, e1, e2⟩ := ghosts_ret h i (.ok a) (fun g => by rw [ha]; rfl) (fun o k e => by rw [ha] at e; cases e)
    obtain ⟨g', e1', e2'⟩ := ghosts_ret h' i (.ok a') (fun g => by rw [ha']; rfl)
      (fun o k e => by rw [ha'] at e; cases e)
    rw [e1] at e1'
    cases e1'
    rw [e2 q hi, e2' q hi]
  · push Not at ho
    by_cases hq : q = outDir w
    · subst hq
      by_cases hall : ∀ i, Quiet (p i)
      · rw [h.quiet hall, h'.quiet hall]
      · push Not at hall
        obtain ⟨i, hi⟩ := hall
        have key : ∀ t : Sys Content α ι, Ghosts p w Own fs0 t → (∃ a, t.proc i = .ret a) →
            isDir t.fs (outDir w) := by
          rintro t ht ⟨a, ha⟩
          rcases ht.each i with ⟨h1, -⟩ | ⟨f, -, -, he, -⟩ | ⟨-, hd, -⟩
          · exact absurd h1 hi
          · obtain ⟨o, k, e⟩ := early_op (by simp [outDir]) he
            rw [ha] at e
            cases e
          · exact hd
        rw [isDir_iff.1 (key s h (hr i)), isDir_iff.1 (key s' h' (hr' i))]
    · rw [h.other q hq ho, h'.other q hq ho]

/-! ## The loop of one rank -/

/-- Where the loop over these files looks. -/
def FilesZone (w : Path) (files : List Str) (q : Path) : Prop :=
  (∃ f ∈ files, Spec.Mine w (Spec.stem f) q) ∨ q <:+ outDir w

theorem zone_files {w : Path} {files : List Str} {f : Str} (hf : f ∈ files) {q : Path}
    (h : Zone w (Spec.stem f) q) : FilesZone w files q := by
  rcases h with h | h
  · exact .inl ⟨f, hf, h⟩
  · exact .inr h

theorem touches_configLoop {fitsOpen : Str → Py (List Hdu)} {w : Path} {files : List Str} {f : Str}
    (hf : f ∈ files) {x : Extract} (hx : extractEffelsberg fitsOpen f = .ok x) (cs : List Setup) :
    Touches (FilesZone w files) (configLoop w x cs) := by
  induction cs with
  | nil => trivial
  | cons c cs ih =>
    unfold configLoop fitJob
    refine touches_bind' ?_ fun d => touches_bind' ih fun ds => trivial
    cases hj : inputOf w c x with
    | error e => trivial
    | ok j =>
      obtain ⟨h1, h2⟩ := job_spec (fitsOpen := fitsOpen) (w := w) (p := (f, c)) (j := j) ⟨x, hx, hj⟩
      have := touches_fitZpoly j.2.2
      rw [h1, h2] at this
      exact touches_mono (fun q hq => zone_files hf hq) this

theorem touches_fileLoop {fitsOpen : Str → Py (List Hdu)} {w : Path} {cs : List Setup} {files all : List Str}
    (h : ∀ f ∈ files, f ∈ all) : Touches (FilesZone w all) (fileLoop fitsOpen w cs files) := by
  induction files with
  | nil => trivial
  | cons f files ih =>
    unfold fileLoop computePhaseError
    refine touches_bind' ?_ fun d => touches_bind' (ih fun f hf => h f (by simp [hf])) fun ds => trivial
    cases hx : extractEffelsberg fitsOpen f with
    | error e => trivial
    | ok x => exact touches_configLoop (h f (by simp)) hx cs

theorem starts_fit {β : Type} {Z : Path → Prop} {N M : ℕ} (a : Input N M) (f : Path → Prog Content β)
    (hz : ∀ q, Zone a.workDir a.name q → Z q) (hf : ∀ d, Touches Z (f d)) :
    Starts a.workDir Z (fitZpoly a >>= f) := by
  refine .inr (.inr ⟨fun _ => fitTail a >>= f, ?_, touches_bind' (touches_mono hz (touches_fitTail a)) hf⟩)
  rw [fitZpoly_tail, prog_bind_assoc]

theorem starts_fileLoop {fitsOpen : Str → Py (List Hdu)} {w : Path} {cs : List Setup} {files all : List Str}
    (h : ∀ f ∈ files, f ∈ all) : Starts w (FilesZone w all) (fileLoop fitsOpen w cs files) := by
  induction files with
  | nil => exact .inl ⟨[], rfl⟩
  | cons f files ih =>
    have ih := ih fun f hf => h f (by simp [hf])
    unfold fileLoop computePhaseError
    cases hx : extractEffelsberg fitsOpen f with
    | error e => exact .inr (.inl ⟨e, rfl⟩)
    | ok x =>
      cases cs with
      | nil =>
        simp only [Prog.lift_ok, Prog.ret_bind, configLoop]
        rcases ih with ⟨a, e⟩ | ⟨e', e⟩ | ⟨g, e, hg⟩
        · exact .inl ⟨_, by rw [e]; rfl⟩
        · exact .inr (.inl ⟨e', by rw [e]; rfl⟩)
        · refine .inr (.inr ⟨fun _ => g () >>= fun ds' => pure ([] ++ ds'), ?_, touches_bind' hg fun _ => trivial⟩)
          rw [e, prog_bind_assoc]
      | cons c cs =>
        simp only [Prog.lift_ok, Prog.ret_bind, configLoop, fitJob]
        cases hj : inputOf w c x with
        | error e => exact .inr (.inl ⟨e, rfl⟩)
        | ok j =>
          obtain ⟨h1, h2⟩ := job_spec (fitsOpen := fitsOpen) (w := w) (p := (f, c)) (j := j) ⟨x, hx, hj⟩
          simp only [Prog.lift_ok, Prog.ret_bind, prog_bind_assoc]
          subst h1
          refine starts_fit (Z := FilesZone _ all) j.2.2 _ (fun q hq => zone_files (h f (by simp)) (h2 ▸ hq)) fun d => ?_
          exact touches_bind' (touches_configLoop (h f (by simp)) hx cs) fun ds =>
            touches_bind' (p := pure _) trivial fun _ =>
              touches_bind' (touches_fileLoop fun f hf => h f (by simp [hf])) fun _ => trivial

theorem fileLoop_append (fitsOpen : Str → Py (List Hdu)) (w : Path) (cs : List Setup) (l l' : List Str) :
    fileLoop fitsOpen w cs (l ++ l') = (do
      let ds ← fileLoop fitsOpen w cs l
      let ds' ← fileLoop fitsOpen w cs l'
      return ds ++ ds') := by
  induction l with
  | nil =>
    simp only [List.nil_append, fileLoop, Prog.ret_bind]
    exact (prog_bind_ret _).symm
  | cons f l ih =>
    rw [List.cons_append, fileLoop, ih, fileLoop]
    simp only [prog_bind_assoc, Prog.pure_bind, List.append_assoc]

/-! ## The ranks -/

/-- No two ranks have files of the same name. -/
def Spec.Apart (files : List Str) (size : ℕ) : Prop :=
  ∀ r < size, ∀ r' < size, ∀ p p', Mpi.rankFiles files size r = .ok p → Mpi.rankFiles files size r' = .ok p' →
    ∀ f ∈ p, ∀ f' ∈ p', Spec.stem f = Spec.stem f' → r = r'

/-- All ranks of an MPI run before their first operation. -/
noncomputable def Spec.mpiStart (fitsOpen : Str → Py (List Hdu)) (w : Path) (cs : List Setup) (files : List Str)
    (size : ℕ) (fs : FS Content) : Sys Content (List Path) (Fin size) :=
  ⟨fun r => rankProgram fitsOpen w cs files size r, fs⟩

/-- What belongs to a rank. -/
def RankOwn (w : Path) (files : List Str) (size : ℕ) (r : Fin size) (q : Path) : Prop :=
  ∃ p, Mpi.rankFiles files size r = .ok p ∧ ∃ f ∈ p, Spec.Mine w (Spec.stem f) q

theorem rank_regions {w : Path} {files : List Str} {size : ℕ} (h : Spec.Apart files size) :
    Regions w (RankOwn w files size) where
  tail := by
    rintro r q ⟨p, hp, f, hf, hq⟩
    rcases zone_tail (.inl hq) with h | h
    · exact .inl ⟨p, hp, f, hf, h⟩
    · exact .inr h
  notOut := by
    rintro r q ⟨p, hp, f, hf, hq⟩
    exact mine_not_out hq
  disjoint := by
    rintro r r' q ⟨p, hp, f, hf, hq⟩ ⟨p', hp', f', hf', hq'⟩
    exact Fin.ext (h r r.2 r' r'.2 p p' hp hp' f hf f' hf' (mine_name hq hq'))

theorem rank_part {α : Type} (files : List α) (size : ℕ) (r : Fin size) :
    ∃ p, Mpi.rankFiles files size r = .ok p := ⟨_, rank_eq files size r r.2⟩

theorem rank_program {fitsOpen : Str → Py (List Hdu)} {w : Path} {cs : List Setup} {files : List Str} {size r : ℕ}
    {p : List Str} (hp : Mpi.rankFiles files size r = .ok p) :
    rankProgram fitsOpen w cs files size r = fileLoop fitsOpen w cs p := by
  unfold rankProgram
  rw [hp]
  rfl

theorem rank_starts (fitsOpen : Str → Py (List Hdu)) (w : Path) (cs : List Setup) (files : List Str) (size : ℕ)
    (r : Fin size) : Starts w (fun q => RankOwn w files size r q ∨ q <:+ outDir w)
      (rankProgram fitsOpen w cs files size r) := by
  obtain ⟨p, hp⟩ := rank_part files size r
  rw [rank_program hp]
  have hz : ∀ q, FilesZone w p q → RankOwn w files size r q ∨ q <:+ outDir w := by
    rintro q (⟨f, hf, h⟩ | h)
    · exact .inl ⟨p, hp, f, hf, h⟩
    · exact .inr h
  rcases starts_fileLoop (fitsOpen := fitsOpen) (w := w) (cs := cs) (files := p) (all := p) fun _ h => h with
    h | h | ⟨f, h1, h2⟩
  · exact .inl h
  · exact .inr (.inl h)
  · exact .inr (.inr ⟨f, h1, touches_mono hz h2⟩)

/-- The parts of the first ranks. -/
theorem parts_take (files : List Str) (size k : ℕ) (hk : k < size) {p : List Str}
    (hp : Mpi.rankFiles files size k = .ok p) :
    files.take (Spec.firstOf files.length size (k + 1)) = files.take (Spec.firstOf files.length size k) ++ p := by
  rw [rank_eq files size k hk, Except.ok.injEq] at hp
  rw [← hp]
  have h : files.take (Spec.firstOf files.length size k) =
      (files.take (Spec.firstOf files.length size (k + 1))).take (Spec.firstOf files.length size k) := by
    rw [List.take_take, min_eq_left (firstOf_mono _ _ _)]
  rw [h, List.take_append_drop]

/-- The ranks one after the other. -/
theorem ranks_in_turn (fitsOpen : Str → Py (List Hdu)) (w : Path) (cs : List Setup) (files : List Str) (size : ℕ)
    (fs : FS Content) (k : ℕ) (hk : k ≤ size) :
    ∃ s, Sys.Steps (Spec.mpiStart fitsOpen w cs files size fs) s ∧
      (∀ r : Fin size, k ≤ r → s.proc r = rankProgram fitsOpen w cs files size r) ∧
      ((∃ D : Fin size → List Path, (∀ r : Fin size, (r : ℕ) < k → s.proc r = .ret (D r)) ∧
        (fileLoop fitsOpen w cs (files.take (Spec.firstOf files.length size k))).run fs =
          (.ok ((List.ofFn D).take k).flatten, s.fs)) ∨
      ∃ (r : Fin size) (e : PyErr), s.proc r = .raise e ∧ ∀ l,
        (fileLoop fitsOpen w cs (files.take (Spec.firstOf files.length size k) ++ l)).run fs = (.error e, s.fs)) := by
  induction k with
  | zero =>
    refine ⟨_, .refl, fun r _ => rfl, .inl ⟨fun _ => [], fun r hr => absurd hr (by omega), ?_⟩⟩
    simp [Spec.firstOf, fileLoop, Spec.mpiStart]
  | succ k ih =>
    obtain ⟨s, h1, h2, h3⟩ := ih (by omega)
    obtain ⟨p, hp⟩ := rank_part files size ⟨k, by omega⟩
    have hp' : Mpi.rankFiles files size k = .ok p := hp
    rcases h3 with ⟨D, h3, h4⟩ | ⟨r, e, h3, h4⟩
    · have hpk : s.proc ⟨k, by omega⟩ = fileLoop fitsOpen w cs p :=
        (h2 ⟨k, by omega⟩ le_rfl).trans (rank_program hp')
      rcases hr : (s.proc ⟨k, by omega⟩).run s.fs with ⟨e | ds, fs1⟩
      · refine ⟨_, h1.trans (steps_raise s hr), fun r hr => ?_, .inr ⟨⟨k, by omega⟩, e, by simp, fun l => ?_⟩⟩
        · rw [← h2 r (by omega)]
          exact Function.update_of_ne (by intro h; rw [h] at hr; simp at hr) _ _
        · rw [parts_take files size k (by omega) hp', List.append_assoc, fileLoop_append, Prog.run_bind, h4]
          simp only
          rw [Prog.run_bind, fileLoop_append, Prog.run_bind, ← hpk, hr]
      · refine ⟨_, h1.trans (steps_end s hr), fun r hr => ?_,
          .inl ⟨Function.update D ⟨k, by omega⟩ ds, fun r hr => ?_, ?_⟩⟩
        · rw [← h2 r (by omega)]
          exact Function.update_of_ne (by intro h; rw [h] at hr; simp at hr) _ _
        · by_cases e : r = ⟨k, by omega⟩
          · rw [e]; simp
          · have : (r : ℕ) < k := by
              have : (r : ℕ) ≠ k := fun h => e (Fin.ext h)
              omega
            simp only [Function.update_of_ne e]
            exact h3 r this
        · rw [parts_take files size k (by omega) hp', fileLoop_append, Prog.run_bind, h4]
          simp only
          rw [Prog.run_bind, ← hpk, hr]
          simp only [Prog.run_pure]
          congr 2
          rw [List.take_add_one, List.flatten_append]
          congr 1
          · congr 1
            refine List.ext_getElem? fun m => ?_
            simp only [List.getElem?_take]
            split_ifs with hm
            · rw [List.getElem?_ofFn, List.getElem?_ofFn]
              split_ifs with hm'
              · rw [Function.update_of_ne]
                intro h
                simp only [Fin.mk.injEq] at h
                omega
              · rfl
            · rfl
          · rw [List.getElem?_ofFn, dif_pos (by omega)]
            simp
    · refine ⟨s, h1, fun r hr => h2 r (by omega), .inr ⟨r, e, h3, fun l => ?_⟩⟩
      rw [parts_take files size k (by omega) hp', List.append_assoc]
      exact h4 _

/-! ## The theorems -/

/-- **C93**. In any interleaving a rank ends as its part of the files would alone on the disk, with the same
directories or the same exception, and its results are the same, whatever becomes of the other ranks. -/
theorem C93_rank (fitsOpen : Str → Py (List Hdu)) (w : Path) (cs : List Setup) (files : List Str) (size : ℕ)
    (hn : Spec.Apart files size) (fs : FS Content) (hwf : WF fs) (hwd : isDir fs w)
    (hout : fs ("pyoof_out".toList :: w) = none ∨ isDir fs ("pyoof_out".toList :: w))
    (s : Sys Content (List Path) (Fin size))
    (hs : Relation.ReflTransGen Sys.Step (Spec.mpiStart fitsOpen w cs files size fs) s)
    (r : Fin size) (res : Py (List Path))
    (hend : s.proc r = match res with | .ok ds => .ret ds | .error e => .raise e) :
    ∃ part alone, Mpi.rankFiles files size r = .ok part ∧
      (fileLoop fitsOpen w cs part).run fs = (res, alone) ∧
      ∀ f ∈ part, ∀ i ≤ 100, ∀ q, Spec.runDir w (Spec.stem f) i <:+ q → s.fs q = alone q := by
  obtain ⟨part, hp⟩ := rank_part files size r
  have hg := ghosts_steps (rank_regions (w := w) hn) (rank_starts fitsOpen w cs files size) hwf hwd hout hs
  obtain ⟨alone, h1, h2⟩ := ghosts_ret hg r res (fun g => by rw [hend]; cases res <;> rfl)
    (fun o k e => by rw [hend] at e; cases res <;> cases e)
  rw [rank_program hp] at h1
  exact ⟨part, alone, hp, h1, fun f hf i hi q hq => h2 q ⟨part, hp, f, hf, i, hi, hq⟩⟩

/-- **C93**. An MPI run in which all ranks have completed has left exactly what the batch without MPI leaves:
the same directories, in the order of the ranks, and the same disk. -/
theorem C93_sequential (fitsOpen : Str → Py (List Hdu)) (w : Path) (cs : List Setup) (files : List Str)
    (size : ℕ) (hsize : 0 < size) (hn : Spec.Apart files size) (fs : FS Content) (hwf : WF fs) (hwd : isDir fs w)
    (hout : fs ("pyoof_out".toList :: w) = none ∨ isDir fs ("pyoof_out".toList :: w))
    (s : Sys Content (List Path) (Fin size))
    (hs : Relation.ReflTransGen Sys.Step (Spec.mpiStart fitsOpen w cs files size fs) s)
    (ds : Fin size → List Path) (hend : ∀ r, s.proc r = .ret (ds r)) :
    (fileLoop fitsOpen w cs files).run fs = (.ok (List.ofFn ds).flatten, s.fs) := by
  obtain ⟨t, h1, -, h3⟩ := ranks_in_turn fitsOpen w cs files size fs size le_rfl
  have hg := ghosts_steps (rank_regions (w := w) hn) (rank_starts fitsOpen w cs files size) hwf hwd hout hs
  have hg' := ghosts_steps (rank_regions (w := w) hn) (rank_starts fitsOpen w cs files size) hwf hwd hout h1
  have alone := fun r => ghosts_ret hg r (.ok (ds r)) (fun g => by rw [hend r]; rfl)
    (fun o k e => by rw [hend r] at e; cases e)
  rw [firstOf_all _ _ hsize, List.take_length] at h3
  rcases h3 with ⟨D, h3, h4⟩ | ⟨r, e, h3, -⟩
  · have hD : D = ds := by
      funext r
      obtain ⟨g, e1, -⟩ := alone r
      obtain ⟨g', e1', -⟩ := ghosts_ret hg' r (.ok (D r)) (fun g => by rw [h3 r r.2]; rfl)
        (fun o k e => by rw [h3 r r.2] at e; cases e)
      rw [e1, Prod.mk.injEq, Except.ok.injEq] at e1'
      exact e1'.1.symm
    rw [h4, hD, List.take_of_length_le (by simp),
      ghosts_unique hg hg' (fun r => ⟨_, hend r⟩) (fun r => ⟨_, h3 r r.2⟩)]
  · exfalso
    obtain ⟨g, e1, -⟩ := alone r
    obtain ⟨g', e1', -⟩ := ghosts_ret hg' r (.error e) (fun g => by rw [h3]; rfl)
      (fun o k e => by rw [h3] at e; cases e)
    rw [e1] at e1'
    cases e1'

/-- **C93**. When the batch without MPI completes, so does the MPI run: whatever the interleaving up to now, no
rank has raised, all of them can still end, and when nothing is left to do all of them have and the disk is that
of the batch. -/
theorem C93_completes (fitsOpen : Str → Py (List Hdu)) (w : Path) (cs : List Setup) (files : List Str)
    (size : ℕ) (hsize : 0 < size) (hn : Spec.Apart files size) (fs fs' : FS Content) (hwf : WF fs) (hwd : isDir fs w)
    (hout : fs ("pyoof_out".toList :: w) = none ∨ isDir fs ("pyoof_out".toList :: w)) (ds : List Path)
    (hseq : (fileLoop fitsOpen w cs files).run fs = (.ok ds, fs'))
    (s : Sys Content (List Path) (Fin size))
    (hs : Relation.ReflTransGen Sys.Step (Spec.mpiStart fitsOpen w cs files size fs) s) :
    (∀ r e, s.proc r ≠ .raise e) ∧
    (∃ s', Relation.ReflTransGen Sys.Step s s' ∧ ∀ r, ∃ d, s'.proc r = .ret d) ∧
    ((∀ s', ¬ Sys.Step s s') → (∀ r, ∃ d, s.proc r = .ret d) ∧ s.fs = fs') := by
  have hghost := fun t ht => ghosts_steps (s := t) (rank_regions (w := w) hn) (rank_starts fitsOpen w cs files size)
    hwf hwd hout ht
  have noraise : ∀ s, Relation.ReflTransGen Sys.Step (Spec.mpiStart fitsOpen w cs files size fs) s → ∀ r e,
      s.proc r ≠ .raise e := by
    intro s hs r e he
    obtain ⟨t, h1, -, h3⟩ := ranks_in_turn fitsOpen w cs files size fs size le_rfl
    rw [firstOf_all _ _ hsize, List.take_length] at h3
    obtain ⟨g, e1, -⟩ := ghosts_ret (hghost s hs) r (.error e) (fun g => by rw [he]; rfl)
      (fun o k e' => by rw [he] at e'; cases e')
    rcases h3 with ⟨D, h3, h4⟩ | ⟨r', e', -, h3⟩
    · obtain ⟨g', e1', -⟩ := ghosts_ret (hghost t h1) r (.ok (D r)) (fun g => by rw [h3 r r.2]; rfl)
        (fun o k e => by rw [h3 r r.2] at e; cases e)
      rw [e1] at e1'
      cases e1'
    · have := h3 []
      rw [List.append_nil, hseq] at this
      cases this
  refine ⟨noraise s hs, ?_, ?_⟩
  · suffices h : ∀ t : Finset (Fin size), ∃ s', Relation.ReflTransGen Sys.Step s s' ∧
        ∀ i ∈ t, ∃ d, s'.proc i = .ret d by
      obtain ⟨s', h1, h2⟩ := h Finset.univ
      exact ⟨s', h1, fun i => h2 i (Finset.mem_univ i)⟩
    intro t
    induction t using Finset.induction_on with
    | empty => exact ⟨s, .refl, by simp⟩
    | insert i t hi ih =>
      obtain ⟨s', h1, h2⟩ := ih
      rcases hrun : (s'.proc i).run s'.fs with ⟨e | d, fs1⟩
      · exact absurd (by simp) (noraise _ (hs.trans (h1.trans (steps_raise s' hrun))) i e)
      · refine ⟨_, h1.trans (steps_end s' hrun), fun j hj => ?_⟩
        by_cases hji : j = i
        · subst hji
          exact ⟨d, by simp⟩
        · rcases Finset.mem_insert.1 hj with rfl | hj
          · exact absurd rfl hji
          · simpa [hji] using h2 j hj
  · intro hstuck
    have hret : ∀ r, ∃ d, s.proc r = .ret d := by
      intro i
      rcases hp : s.proc i with d | e | ⟨o, k⟩
      · exact ⟨d, rfl⟩
      · exact absurd hp (noraise s hs i e)
      · exact absurd (Sys.Step.mk s i o k hp) (hstuck _)
    refine ⟨hret, ?_⟩
    choose D hD using hret
    have := C93_sequential fitsOpen w cs files size hsize hn fs hwf hwd hout s hs D hD
    rw [hseq] at this
    cases this
    rfl

/-- **C93**. Files with different names are enough. -/
theorem C93_names (files : List Str) (hnd : (files.map Spec.stem).Nodup) (size : ℕ) : Spec.Apart files size := by
  intro r hr r' hr' p p' hp hp' f hf f' hf' hst
  have hs : 0 < size := by omega
  obtain ⟨parts, h1, h2, h3⟩ := C66_partition files size hs
  have hf1 : f ∈ files := by
    rw [← h2, List.mem_flatten]
    rw [h3 r (h1 ▸ hr), Except.ok.injEq] at hp
    exact ⟨_, List.getElem_mem _, hp ▸ hf⟩
  have hf2 : f' ∈ files := by
    rw [← h2, List.mem_flatten]
    rw [h3 r' (h1 ▸ hr'), Except.ok.injEq] at hp'
    exact ⟨_, List.getElem_mem _, hp' ▸ hf'⟩
  have he : f = f' := List.inj_on_of_nodup_map hnd hf1 hf2 hst
  subst he
  obtain ⟨rank, -, -, hu⟩ := C66_exactly_one files hnd.of_map size hs f hf1
  rw [hu r hr p hp hf, hu r' hr' p' hp' hf']

/-- A system whose programs go on with something else. -/
theorem steps_bind {C β γ ι : Type} [DecidableEq ι] {s t : Sys C β ι} (h : Sys.Steps s t) (f : ι → β → Prog C γ) :
    Sys.Steps ⟨fun i => s.proc i >>= f i, s.fs⟩ (⟨fun i => t.proc i >>= f i, t.fs⟩ : Sys C γ ι) := by
  induction h with
  | refl => exact .refl
  | @tail a b _ hst ih =>
    refine ih.tail ?_
    obtain ⟨i, o, k, hi⟩ := hst
    have e : (fun j => Function.update a.proc i (k (exec a.fs o).1) j >>= f j) =
        Function.update (fun j => a.proc j >>= f j) i (k (exec a.fs o).1 >>= f i) := by
      funext j
      by_cases hj : j = i
      · subst hj; simp
      · simp [hj]
    simp only [e]
    exact Sys.Step.mk ⟨fun i => a.proc i >>= f i, a.fs⟩ i o (fun r => k r >>= f i) (by simp only [hi]; rfl)

/-- **C93**. Files of the same name on two ranks (the script takes the files of several directories): there is an
interleaving in which both complete and have put their results into the same directory. -/
theorem C93_race (fitsOpen : Str → Py (List Hdu)) (w : Path) (c : Setup) (f g : Str)
    (hst : Spec.stem f = Spec.stem g) (x y : Extract) (hx : extractEffelsberg fitsOpen f = .ok x)
    (hy : extractEffelsberg fitsOpen g = .ok y) (j j' : Job) (hj : inputOf w c x = .ok j)
    (hj' : inputOf w c y = .ok j') (S S' : List ℕ) (hr : Spec.Runs j.2.2 S) (hr' : Spec.Runs j'.2.2 S')
    (fs : FS Content) (hwf : WF fs) (hwd : isDir fs w)
    (hout : fs ("pyoof_out".toList :: w) = none ∨ isDir fs ("pyoof_out".toList :: w))
    (hfree : ∃ i ≤ 100, fs (Spec.runDir w (Spec.stem f) i) = none) :
    ∃ s d, Relation.ReflTransGen Sys.Step (Spec.mpiStart fitsOpen w [c] [f, g] 2 fs) s ∧
      s.proc 0 = .ret [d] ∧ s.proc 1 = .ret [d] := by
  obtain ⟨a1, a2⟩ := job_spec (fitsOpen := fitsOpen) (w := w) (p := (f, c)) (j := j) ⟨x, hx, hj⟩
  obtain ⟨b1, b2⟩ := job_spec (fitsOpen := fitsOpen) (w := w) (p := (g, c)) (j := j') ⟨y, hy, hj'⟩
  let J : Fin 2 → Job := ![j, j']
  obtain ⟨s, d, h1, h2, h3⟩ := C46_race (ι := Fin 2) (N := fun i => (J i).1) (M := fun i => (J i).2.1)
    (fun i => (J i).2.2) 0 1 (by decide) (by show j.2.2.workDir = j'.2.2.workDir; rw [a1, b1])
    (by show j.2.2.name = j'.2.2.name; rw [a2, b2]; exact hst) S S' hr hr' fs hwf
    (by show isDir fs j.2.2.workDir; rw [a1]; exact hwd)
    (by show fs (j.2.2.workDir.join _) = none ∨ isDir fs (j.2.2.workDir.join _); rw [a1]; exact hout)
    (by
      show ∃ k ≤ 100, fs (Spec.runDir j.2.2.workDir j.2.2.name k) = none
      rw [a1, a2]; exact hfree)
  have key : ∀ (r : Fin 2), rankProgram fitsOpen w [c] [f, g] 2 r = (fitZpoly (J r).2.2 >>= fun d => .ret [d]) := by
    intro r
    fin_cases r
    · show rankProgram fitsOpen w [c] [f, g] 2 0 = (fitZpoly j.2.2 >>= fun d => .ret [d])
      rw [rank_program (p := [f]) (by rw [rank_eq _ _ _ (by norm_num)]; simp [Spec.firstOf])]
      simp only [fileLoop, computePhaseError, configLoop, fitJob, hx, hj, Prog.lift_ok, Prog.ret_bind,
        prog_bind_assoc, Prog.pure_bind, List.append_nil]
      rfl
    · show rankProgram fitsOpen w [c] [f, g] 2 1 = (fitZpoly j'.2.2 >>= fun d => .ret [d])
      rw [rank_program (p := [g]) (by rw [rank_eq _ _ _ (by norm_num)]; simp [Spec.firstOf])]
      simp only [fileLoop, computePhaseError, configLoop, fitJob, hy, hj', Prog.lift_ok, Prog.ret_bind,
        prog_bind_assoc, Prog.pure_bind, List.append_nil]
      rfl
  have h4 := steps_bind h1 (fun _ d => (Prog.ret [d] : Prog Content (List Path)))
  refine ⟨⟨fun i => s.proc i >>= fun d => .ret [d], s.fs⟩, d, ?_, ?_, ?_⟩
  · have e : Spec.mpiStart fitsOpen w [c] [f, g] 2 fs =
        ⟨fun r => fitZpoly (J r).2.2 >>= fun d => .ret [d], fs⟩ := by
      unfold Spec.mpiStart
      congr 1
      funext r
      exact key r
    rw [e]
    exact h4
  · simp only [h2]; rfl
  · simp only [h3]; rfl

/-! ## The hypotheses are met -/

theorem demo_extract (f : Str) (hf : f = "a/obs.fits".toList ∨ f = "b/obs.fits".toList ∨ f = "b/cal.fits".toList) :
    ∃ pth, extractEffelsberg demoOpen f = .ok { demoExtract f pth with name := Spec.stem f } := by
  rcases hf with rfl | rfl | rfl <;> exact ⟨_, by unfold demoExtract; rw [← demoWavel]; rfl⟩

/-- The call of `fit_zpoly` for one of the files. -/
noncomputable def demoJobOf (t f pth : Str) : Job :=
  ⟨64, 5, { (demoJob t f pth).2.2 with name := Spec.stem f }⟩

theorem demo_input (t f pth : Str) :
    inputOf ["home".toList] (demoSetup t) { demoExtract f pth with name := Spec.stem f } = .ok (demoJobOf t f pth) :=
  rfl

theorem demoJobOf_runs (t f pth : Str) : Spec.Runs (demoJobOf t f pth).2.2 [1, 2, 3, 4, 5] := by
  obtain ⟨h1, h2, h3, h4, h5⟩ := demoJob_runs t f pth
  exact ⟨h1, h2, h3, h4, h5⟩

/-- Two files of different names on two ranks: from every state that can be reached the run can be completed, and
is then that of the batch without MPI. -/
example : ∃ ds fs', (fileLoop demoOpen ["home".toList] [demoSetup "x".toList]
      ["a/obs.fits".toList, "b/cal.fits".toList]).run sampleFs = (.ok ds, fs') ∧
    (∃ s, Relation.ReflTransGen Sys.Step (Spec.mpiStart demoOpen ["home".toList] [demoSetup "x".toList]
      ["a/obs.fits".toList, "b/cal.fits".toList] 2 sampleFs) s ∧ s.fs = fs' ∧ ∀ r, ∃ d, s.proc r = .ret d) := by
  have hnew : ∀ n, ∀ i ≤ 100, sampleFs (Spec.runDir ["home".toList] n i) = none := by
    intro n i _
    simp [Spec.runDir, sampleFs]
  have hroom : ∀ n, ((Spec.batchJobs ["a/obs.fits".toList, "b/cal.fits".toList]
      [demoSetup "x".toList]).countP fun p => Spec.stem p.1 = n) ≤
      Spec.freeBelow sampleFs ["home".toList] n 101 := by
    intro n
    refine (List.countP_le_length).trans ?_
    unfold Spec.freeBelow
    rw [Finset.filter_true_of_mem fun j hj => hnew n j (by have := Finset.mem_range.1 hj; omega),
      Finset.card_range]
    simp [Spec.batchJobs]
  obtain ⟨ds, fs', hrun⟩ := C91_completes demoOpen ["home".toList]
    [demoSetup "x".toList] ["a/obs.fits".toList, "b/cal.fits".toList] sampleFs sampleFs_wf
    (by simp [isDir, sampleFs]) (.inl (by simp [sampleFs])) hroom (by
      intro f hf
      simp only [List.mem_cons, List.not_mem_nil, or_false] at hf
      obtain ⟨pth, hx⟩ := demo_extract f (by rcases hf with h | h <;> simp [h])
      refine ⟨_, hx, fun c hc => ?_⟩
      rw [List.mem_singleton] at hc
      subst hc
      exact ⟨_, _, demo_input _ _ _, demoJobOf_runs _ _ _⟩)
  have hap : Spec.Apart ["a/obs.fits".toList, "b/cal.fits".toList] 2 := C93_names _ (by decide) 2
  obtain ⟨-, ⟨s, h1, h2⟩, -⟩ := C93_completes demoOpen ["home".toList] [demoSetup "x".toList]
    ["a/obs.fits".toList, "b/cal.fits".toList] 2 (by norm_num) hap sampleFs fs' sampleFs_wf
    (by simp [isDir, sampleFs]) (.inl (by simp [sampleFs])) ds hrun _ .refl
  refine ⟨ds, fs', hrun, s, h1, ?_, h2⟩
  choose D hD using h2
  have := C93_sequential demoOpen ["home".toList] [demoSetup "x".toList]
    ["a/obs.fits".toList, "b/cal.fits".toList] 2 (by norm_num) hap sampleFs sampleFs_wf
    (by simp [isDir, sampleFs]) (.inl (by simp [sampleFs])) s h1 D hD
  rw [hrun] at this
  cases this
  rfl

/-- Two files of the same name from different directories: one directory for both. -/
example : ∃ s d, Relation.ReflTransGen Sys.Step (Spec.mpiStart demoOpen ["home".toList] [demoSetup "x".toList]
      ["a/obs.fits".toList, "b/obs.fits".toList] 2 sampleFs) s ∧ s.proc 0 = .ret [d] ∧ s.proc 1 = .ret [d] := by
  obtain ⟨p, hp⟩ := demo_extract "a/obs.fits".toList (by simp)
  obtain ⟨q, hq⟩ := demo_extract "b/obs.fits".toList (by simp)
  exact C93_race demoOpen _ _ _ _ (by decide) _ _ hp hq _ _ (demo_input _ _ _) (demo_input _ _ _) _ _
    (demoJobOf_runs _ _ _) (demoJobOf_runs _ _ _) sampleFs sampleFs_wf (by simp [isDir, sampleFs])
    (.inl (by simp [sampleFs])) ⟨0, by norm_num, by simp [Spec.runDir, sampleFs]⟩

end Verif.Props
