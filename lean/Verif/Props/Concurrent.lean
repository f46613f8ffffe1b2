import Verif.Lemmas.Sys
import Verif.Props.FitStart

/-! # C46: concurrent runs of `fit_zpoly` -/

namespace Verif.Props

open Verif Verif.Fs Verif.Store Verif.Fit

/-! ## Specification -/

/-- Everything at or below one of the places for runs with this name. -/
def Spec.Mine (workDir : Path) (name : Str) (q : Path) : Prop :=
  ∃ k ≤ 100, Spec.runDir workDir name k <:+ q

/-! ## Places -/

/-- `pyoof_out` -/
abbrev outDir (w : Path) : Path := w.join "pyoof_out".toList

theorem runDir_tail (w : Path) (name : Str) (k : ℕ) : ∃ f, Spec.runDir w name k = f :: outDir w :=
  ⟨_, rfl⟩

theorem runDir_name {w w' : Path} {name name' : Str} {k k' : ℕ}
    (h : Spec.runDir w name k = Spec.runDir w' name' k') : name = name' := by
  simp only [Spec.runDir, List.cons.injEq, List.append_assoc] at h
  exact (List.append_inj' h.1 (by simp)).1

theorem suffix_eq {α : Type} {l l' q : List α} (h : l <:+ q) (h' : l' <:+ q)
    (hl : l.length = l'.length) : l = l' := by
  rcases List.suffix_or_suffix_of_suffix h h' with h | h
  · exact h.eq_of_length hl
  · exact (h.eq_of_length hl.symm).symm

theorem mine_name {w : Path} {name name' : Str} {q : Path} (h : Spec.Mine w name q)
    (h' : Spec.Mine w name' q) : name = name' := by
  obtain ⟨k, -, h⟩ := h
  obtain ⟨k', -, h'⟩ := h'
  exact runDir_name (suffix_eq h h' (by simp [Spec.runDir]))

theorem mine_not_out {w : Path} {name : Str} {q : Path} (h : Spec.Mine w name q) : ¬ q <:+ outDir w := by
  obtain ⟨k, -, h⟩ := h
  obtain ⟨f, e⟩ := runDir_tail w name k
  rw [e] at h
  intro h'
  have := (h.trans h').length_le
  simp at this

/-- Where a run looks. -/
def Zone (w : Path) (name : Str) (q : Path) : Prop := Spec.Mine w name q ∨ q <:+ outDir w

theorem zone_tail {w : Path} {name : Str} {q : Path} (h : Zone w name q) : Zone w name q.tail := by
  rcases h with ⟨k, hk, h⟩ | h
  · cases q with
    | nil => exact .inr (List.nil_suffix)
    | cons f q =>
      rcases List.suffix_cons_iff.1 h with h | h
      · right
        rw [List.tail_cons]
        obtain ⟨g, e⟩ := runDir_tail w name k
        rw [e] at h
        cases h
        exact List.suffix_refl _
      · exact .inl ⟨k, hk, h⟩
  · exact .inr ((List.tail_suffix q).trans h)

/-! ## What a run looks at, what it returns -/

theorem touches_allocLoop (w : Path) (name : Str) (l : List ℕ) (hl : ∀ i ∈ l, i ≤ 100)
    (cur : Option Path) : Touches (Zone w name) (allocLoop (outDir w) name l cur) := by
  induction l generalizing cur with
  | nil => trivial
  | cons i l ih =>
    have hi := hl i (by simp)
    have hz : Zone w name ((outDir w).join (runName name i)) := by
      rw [runDir_eq w name hi]
      exact .inl ⟨i, hi, List.suffix_refl _⟩
    rw [allocLoop]
    refine touches_bind' (touches_existsP hz) fun e => ?_
    cases e
    · refine touches_bind' (touches_makedirs _ _ fun q hq => ?_) fun _ => trivial
      rcases List.suffix_cons_iff.1 hq with rfl | hq
      · exact hz
      · exact .inr hq
    · exact ih (fun j hj => hl j (by simp [hj])) _

/-- A place for a run with this name. -/
def Place (w : Path) (name : Str) (d : Path) : Prop := ∃ k ≤ 100, d = Spec.runDir w name k

theorem rets_allocLoop (w : Path) (name : Str) (l : List ℕ) (hl : ∀ i ∈ l, i ≤ 100)
    (cur : Option Path) (hc : ∀ d, cur = some d → Place w name d) :
    Rets (fun r => ∀ d, r = some d → Place w name d) (allocLoop (outDir w) name l cur) := by
  induction l generalizing cur with
  | nil => exact hc
  | cons i l ih =>
    have hi := hl i (by simp)
    have hp : ∀ d, some ((outDir w).join (runName name i)) = some d → Place w name d := by
      rintro d h
      cases h
      exact ⟨i, hi, runDir_eq w name hi⟩
    rw [allocLoop]
    refine rets_bind' fun e => ?_
    cases e
    · exact rets_bind' fun _ => hp
    · exact ih (fun j hj => hl j (by simp [hj])) _ hp

theorem touches_saveLoop (name : Str) (d : Path) (l : List (Str × Str × List (List Fl))) :
    Touches (Below d) (saveLoop name d l) := by
  induction l with
  | nil => trivial
  | cons x l ih =>
    obtain ⟨f, h, x⟩ := x
    exact touches_bind' (touches_writeFile (below_join _ _) _ _) fun _ => ih

theorem touches_storeDataCsv (name : Str) (d : Path) (n : ℕ) (s : List (List (List Fl))) :
    Touches (Below d) (storeDataCsv name d n s) := by
  unfold storeDataCsv
  split_ifs <;> exact touches_saveLoop _ _ _

theorem touches_storeDataAscii (d : Path) (n : ℕ) (a b : List ℝ) :
    Touches (Below d) (storeDataAscii d n a b) := by
  refine touches_bind' (touches_lift _) fun names => ?_
  split_ifs
  · exact touches_writeFile (below_join _ _) _ _
  · trivial

theorem below_suffix {d q : Path} (h : Below d q) : d <:+ q := by
  obtain ⟨f, e, rfl, h⟩ := h
  exact h.trans (List.suffix_cons _ _)

theorem touches_plotFitPath {w : Path} {name : Str} {d : Path} (hd : Place w name d) (n : ℕ) :
    Touches (Zone w name) (plotFitPath d n) := by
  obtain ⟨k, hk, rfl⟩ := hd
  have hb : ∀ f, Zone w name (((Spec.runDir w name k).join "plots".toList).join f) := fun f =>
    .inl ⟨k, hk, (List.suffix_cons _ _).trans (List.suffix_cons _ _)⟩
  have hp : Zone w name ((Spec.runDir w name k).join "plots".toList) :=
    .inl ⟨k, hk, List.suffix_cons _ _⟩
  unfold plotFitPath
  have hrest : Touches (Zone w name) (do
      let pdf := fun kind : String => ((Spec.runDir w name k).join "plots".toList).join
        (kind.toList ++ "_n".toList ++ decNat n ++ ".pdf".toList)
      writeFile Content.part (pdf "fitbeam") .plot
      writeFile .part (pdf "fitphase") .plot
      writeFile .part (pdf "residual") .plot
      writeFile .part (pdf "cov") .plot
      writeFile .part (pdf "corr") .plot
      if n = 1 then
        writeFile .part (((Spec.runDir w name k).join "plots".toList).join "obsbeam.pdf".toList) .plot) := by
    refine touches_bind' (touches_writeFile (hb _) _ _) fun _ => ?_
    refine touches_bind' (touches_writeFile (hb _) _ _) fun _ => ?_
    refine touches_bind' (touches_writeFile (hb _) _ _) fun _ => ?_
    refine touches_bind' (touches_writeFile (hb _) _ _) fun _ => ?_
    refine touches_bind' (touches_writeFile (hb _) _ _) fun _ => ?_
    split_ifs
    · exact touches_writeFile (hb _) _ _
    · trivial
  refine touches_bind' (touches_existsP hp) fun e => ?_
  cases e
  · refine touches_bind' (touches_makedirs _ _ fun q hq => ?_) fun _ => hrest
    rcases List.suffix_cons_iff.1 hq with rfl | hq
    · exact hp
    · obtain ⟨f, e⟩ := runDir_tail w name k
      rw [e] at hq
      rcases List.suffix_cons_iff.1 hq with rfl | hq
      · rw [← e]; exact .inl ⟨k, hk, List.suffix_refl _⟩
      · exact .inr hq
  · exact hrest

theorem zone_below {w : Path} {name : Str} {d : Path} (hd : Place w name d) (q : Path)
    (hq : Below d q) : Zone w name q := by
  obtain ⟨k, hk, rfl⟩ := hd
  exact .inl ⟨k, hk, below_suffix hq⟩

theorem touches_fitOrder {N M : ℕ} (a : Input N M) (s : List Fl) {d : Path}
    (hd : Place a.workDir a.name d) (n : ℕ) :
    Touches (Zone a.workDir a.name) (fitOrder a s d n) := by
  have hz := zone_below hd
  refine touches_bind' ?_ fun init => ?_
  · unfold startVector
    dsimp only
    split_ifs
    · refine touches_bind' (touches_readFile (hz _ (below_join _ _))) fun c => ?_
      cases c <;> trivial
    · trivial
  refine touches_bind' (touches_lift _) fun out => ?_
  refine touches_bind' (touches_mono hz (touches_storeDataAscii _ _ _ _)) fun _ => ?_
  have hrest : Touches (Zone a.workDir a.name) (do
      storeDataCsv a.name d n out.save
      if a.makePlots then plotFitPath d n) := by
    refine touches_bind' (touches_mono hz (touches_storeDataCsv _ _ _ _)) fun _ => ?_
    split_ifs
    · exact touches_plotFitPath hd _
    · trivial
  dsimp only
  by_cases hn : n = 1
  · rw [if_pos hn]
    exact touches_bind' (touches_writeFile (hz _ (below_join _ _)) _ _) fun _ => hrest
  · rw [if_neg hn]
    exact hrest

theorem touches_fitLoop {N M : ℕ} (a : Input N M) (s : List Fl) {d : Path}
    (hd : Place a.workDir a.name d) (n k : ℕ) :
    Touches (Zone a.workDir a.name) (fitLoop a s d n k) := by
  induction k generalizing n with
  | zero => trivial
  | succ k ih => exact touches_bind' (touches_fitOrder a s hd n) fun _ => ih _

theorem touches_fitRest {N M : ℕ} (a : Input N M) {d : Path} (hd : Place a.workDir a.name d) :
    Touches (Zone a.workDir a.name) (fitRest a d) := by
  refine touches_bind' (touches_lift _) fun s0 => ?_
  refine touches_bind' (touches_lift _) fun s1 => ?_
  refine touches_bind' (touches_lift _) fun s2 => ?_
  exact touches_bind' (touches_fitLoop _ _ hd _ _) fun _ => trivial

theorem rets_fitRest {N M : ℕ} (a : Input N M) (d : Path) : Rets (fun r => r = d) (fitRest a d) := by
  refine rets_bind' fun s0 => ?_
  refine rets_bind' fun s1 => ?_
  refine rets_bind' fun s2 => ?_
  exact rets_bind' fun _ => rfl

/-- `fit_zpoly` after `pyoof_out` is there. -/
noncomputable def fitTail {N M : ℕ} (a : Input N M) : Prog Content Path := do
  let d ← allocLoop (outDir a.workDir) a.name (List.range 101) none
  match d with
  | some d => fitRest a d
  | none => .raise .unboundLocalError

theorem prog_bind_assoc {C α β γ : Type} (p : Prog C α) (f : α → Prog C β) (g : β → Prog C γ) :
    (p >>= f) >>= g = p >>= fun a => f a >>= g := by
  induction p with
  | ret a => rfl
  | raise e => rfl
  | op o k ih =>
    show Prog.op o _ = Prog.op o _
    congr 1
    funext r
    exact ih r

theorem fitZpoly_tail {N M : ℕ} (a : Input N M) :
    fitZpoly a = (allocOut (outDir a.workDir) >>= fun _ => fitTail a) := by
  rw [fitZpoly_eq, allocDir_eq, prog_bind_assoc]
  congr 1
  funext _
  rw [prog_bind_assoc]
  unfold fitTail
  congr 1
  funext d
  cases d <;> rfl

theorem touches_fitTail {N M : ℕ} (a : Input N M) : Touches (Zone a.workDir a.name) (fitTail a) := by
  refine touches_bind (touches_allocLoop _ _ _ (fun i hi => ?_) _)
    (rets_allocLoop a.workDir a.name _ (fun i hi => ?_) _ (by simp)) fun d hd => ?_
  · have := List.mem_range.1 hi; omega
  · have := List.mem_range.1 hi; omega
  · cases d with
    | some d => exact touches_fitRest a (hd d rfl)
    | none => trivial

theorem rets_fitZpoly {N M : ℕ} (a : Input N M) :
    Rets (Place a.workDir a.name) (fitZpoly a) := by
  rw [fitZpoly_tail]
  refine rets_bind' fun _ => ?_
  refine rets_bind (rets_allocLoop a.workDir a.name _ (fun i hi => ?_) _ (by simp)) fun d hd => ?_
  · have := List.mem_range.1 hi; omega
  · cases d with
    | some d =>
      exact rets_mono (fun r hr => hr ▸ hd d rfl) (rets_fitRest a d)
    | none => trivial

variable {ι : Type} [DecidableEq ι]

/-- **C46**. Any number of runs, with any arguments, in any interleaving and on any file system: two
with different names do not return the same directory. -/
theorem C46_distinct {N M : ι → ℕ} (a : (i : ι) → Input (N i) (M i)) (fs : FS Content)
    (s : Sys Content Path ι) (hs : Relation.ReflTransGen Sys.Step ⟨fun i => fitZpoly (a i), fs⟩ s)
    (i j : ι) (hij : (a i).name ≠ (a j).name) (d e : Path) (hi : s.proc i = .ret d)
    (hj : s.proc j = .ret e) : d ≠ e := by
  have key : ∀ i, Rets (Place (a i).workDir (a i).name) (s.proc i) := by
    clear hi hj
    induction hs with
    | refl => exact fun i => rets_fitZpoly (a i)
    | tail _ hst ih =>
      obtain ⟨k, o, c, h⟩ := hst
      intro i
      by_cases hik : i = k
      · subst hik
        have := ih i
        rw [h] at this
        simpa using this _
      · simpa [hik] using ih i
  have h1 := key i
  have h2 := key j
  rw [hi] at h1
  rw [hj] at h2
  obtain ⟨k, -, rfl⟩ := h1
  obtain ⟨l, -, rfl⟩ := h2
  exact fun h => hij (runDir_name h)

/-! ## No interference -/

/-- The stages of `makedirs(pyoof_out, exist_ok=True)`. -/
def stage2 (out : Path) : Prog Content Unit := do
  let ok ← mkdirP out
  let ok ← (if ok then return true else isdirP out : Prog Content Bool)
  if ok then return () else .raise .osError

/-- The last stage. -/
def stage3 (out : Path) : Prog Content Unit := do
  let ok ← isdirP out
  if ok then return () else .raise .osError

/-- A run that has not passed the creation of `pyoof_out`. -/
def Early {α : Type} (out : Path) (f : Unit → Prog Content α) (p : Prog Content α) (fs : FS Content) : Prop :=
  p = (allocOut out >>= f) ∨ p = (makedirs out true >>= f) ∨ p = (stage2 out >>= f) ∨
  (p = (stage3 out >>= f) ∧ isDir fs out)

theorem exec_dir_same {C : Type} {fs : FS C} {o : Op C} (h : isDir fs o.path) : (exec fs o).2 = fs := by
  have hp := isDir_present h
  cases o with
  | present p => rfl
  | isDir p => rfl
  | mkdir p => simp only [Op.path] at hp; simp [exec, hp]
  | put p c => simp only [Op.path] at h; simp [exec, h]
  | read p => simp only [exec]; split <;> rfl

/-- One operation of an early run. -/
theorem early_step {α : Type} {w : Path} {f : Unit → Prog Content α} {o : Op Content}
    {k : Resp Content → Prog Content α} {fs : FS Content}
    (h : Early (outDir w) f (.op o k) fs) (hw : isDir fs w)
    (ho : fs (outDir w) = none ∨ isDir fs (outDir w)) :
    (Early (outDir w) f (k (exec fs o).1) (exec fs o).2 ∨
      (k (exec fs o).1 = f () ∧ isDir (exec fs o).2 (outDir w))) ∧
    (∀ q, q ≠ outDir w → (exec fs o).2 q = fs q) ∧
    ((exec fs o).2 (outDir w) = none ∨ isDir (exec fs o).2 (outDir w)) := by
  have ho' : present fs (outDir w) = isDir fs (outDir w) := by
    rcases ho with h | h
    · simp [present, isDir, outDir, Path.join] at h ⊢; rw [h]; rfl
    · rw [h, isDir_present h]
  rcases h with h | h | h | ⟨h, hd⟩
  · unfold allocOut existsP at h
    simp only [Prog.op_bind, Prog.op.injEq] at h
    obtain ⟨rfl, rfl⟩ := h
    refine ⟨?_, fun _ _ => rfl, ho⟩
    simp only [exec, ho']
    cases hd : isDir fs (outDir w)
    · left; right; left; rfl
    · right; exact ⟨rfl, rfl⟩
  · have e : (makedirs (outDir w) true >>= f) = .op (.present w) (fun r => match r with
        | .yes => stage2 (outDir w) >>= f
        | _ => (makedirsB w true >>= fun _ => stage2 (outDir w)) >>= f) := by
      unfold makedirs stage2
      rw [makedirsB, existsP]
      simp only [Prog.op_bind]
      congr 1
      funext r
      cases r <;> simp only [Prog.ret_bind, Bool.not_true, Bool.not_false, if_true, Bool.false_eq_true,
        if_false, prog_bind_assoc]
    rw [e] at h
    simp only [Prog.op.injEq] at h
    obtain ⟨rfl, rfl⟩ := h
    refine ⟨?_, fun _ _ => rfl, ho⟩
    simp only [exec, isDir_present hw, if_true]
    left; right; right; left; rfl
  · unfold stage2 mkdirP at h
    simp only [Prog.op_bind, Prog.op.injEq] at h
    obtain ⟨rfl, rfl⟩ := h
    rcases ho with h | h
    · have hp : present fs (outDir w) = false := by
        show (fs (outDir w)).isSome = false
        rw [h]; rfl
      have hw' : isDir fs (outDir w).tail = true := hw
      simp only [exec, hp, hw', Bool.not_false, Bool.and_true, if_true]
      refine ⟨.inr ⟨rfl, ?_⟩, fun q hq => update_ne _ _ hq, .inr ?_⟩ <;>
      · rw [isDir_iff, update_same]
    · have hp : present fs (outDir w) = true := isDir_present h
      simp only [exec, hp, Bool.not_true, Bool.false_and, Bool.false_eq_true, if_false]
      exact ⟨.inl (.inr (.inr (.inr ⟨rfl, h⟩))), fun _ _ => trivial, .inr h⟩
  · unfold stage3 isdirP at h
    simp only [Prog.op_bind, Prog.op.injEq] at h
    obtain ⟨rfl, rfl⟩ := h
    refine ⟨.inr ⟨?_, hd⟩, fun _ _ => rfl, .inr hd⟩
    simp only [exec, hd, if_true]
    rfl

theorem early_op {α : Type} {out : Path} {f : Unit → Prog Content α} {p : Prog Content α} {fs : FS Content}
    (hne : out ≠ []) (h : Early out f p fs) : ∃ o k, p = .op o k := by
  cases out with
  | nil => exact absurd rfl hne
  | cons g out =>
    rcases h with rfl | rfl | rfl | ⟨rfl, -⟩
    · exact ⟨_, _, rfl⟩
    · unfold makedirs
      rw [makedirsB]
      exact ⟨_, _, rfl⟩
    · exact ⟨_, _, rfl⟩
    · exact ⟨_, _, rfl⟩

theorem allocOut_run {w : Path} {fs : FS Content} (hw : isDir fs w)
    (ho : fs (outDir w) = none ∨ isDir fs (outDir w)) :
    ∃ g, (allocOut (outDir w)).run fs = (.ok (), g) ∧ isDir g (outDir w) ∧
      ∀ q, q ≠ outDir w → g q = fs q := by
  unfold allocOut
  rw [Prog.run_bind, run_existsP]
  rcases ho with ho | ho
  · have hp : present fs (outDir w) = false := by
      show (fs (outDir w)).isSome = false
      rw [ho]; rfl
    simp only [hp, Bool.not_false, if_true]
    rw [run_makedirs_leaf _ _ _ _ hw, if_neg (by rw [hp]; simp)]
    exact ⟨_, rfl, by rw [isDir_iff, update_same], fun q hq => update_ne _ _ hq⟩
  · simp only [isDir_present ho, Bool.not_true, Bool.false_eq_true, if_false]
    exact ⟨_, rfl, ho, fun _ _ => rfl⟩

theorem WF_suffix {C : Type} {fs : FS C} (h : WF fs) {p q : Path} (hp : isDir fs p) (hq : q <:+ p) :
    isDir fs q := by
  induction p with
  | nil => rw [List.suffix_nil.1 hq]; rfl
  | cons f p ih =>
    rcases List.suffix_cons_iff.1 hq with rfl | hq
    · exact hp
    · refine ih (h f p ?_) hq
      rw [isDir_iff.1 hp]; rfl

theorem exec_root {C : Type} (fs : FS C) (o : Op C) : (exec fs o).2 [] = fs [] := by
  by_cases h : o.path = []
  · rw [exec_dir_same (by rw [h]; rfl)]
  · exact exec_other (Ne.symm h)

/-- What holds in every interleaving: every run either has not passed the creation of `pyoof_out`
or is where it would be alone on a file system `g` that looks the same to it. -/
structure Ghost {N M : ι → ℕ} (a : (i : ι) → Input (N i) (M i)) (w : Path) (fs0 : FS Content)
    (s : Sys Content Path ι) : Prop where
  wf : WF s.fs
  dirs : ∀ q, isDir fs0 q → isDir s.fs q
  root : s.fs [] = fs0 []
  out : s.fs (outDir w) = none ∨ isDir s.fs (outDir w)
  each : ∀ i, (Early (outDir w) (fun _ => fitTail (a i)) (s.proc i) s.fs ∧
      ∀ q, Spec.Mine w (a i).name q → s.fs q = fs0 q) ∨
    (isDir s.fs (outDir w) ∧ Touches (Zone w (a i).name) (s.proc i) ∧
      ∃ g, (∀ q, Zone w (a i).name q → s.fs q = g q) ∧
        (s.proc i).run g = (fitZpoly (a i)).run fs0)

theorem ghost_step {N M : ι → ℕ} {a : (i : ι) → Input (N i) (M i)} {w : Path}
    (hw : ∀ i, (a i).workDir = w) (hn : ∀ i j, i ≠ j → (a i).name ≠ (a j).name)
    {fs0 : FS Content} (hwf : WF fs0) (hwd : isDir fs0 w)
    (hout : fs0 (outDir w) = none ∨ isDir fs0 (outDir w)) {s s' : Sys Content Path ι}
    (h : Ghost a w fs0 s) (hst : Sys.Step s s') : Ghost a w fs0 s' := by
  obtain ⟨j, o, k, hj⟩ := hst
  have hwd' := h.dirs w hwd
  -- the file system
  have hfs : (∀ q, q ≠ outDir w → (¬ Spec.Mine w (a j).name q) → (exec s.fs o).2 q = s.fs q) ∧
      ((exec s.fs o).2 (outDir w) = none ∨ isDir (exec s.fs o).2 (outDir w)) := by
    rcases h.each j with ⟨he, -⟩ | ⟨hd, ht, -⟩
    · rw [hj] at he
      obtain ⟨-, h2, h3⟩ := early_step he hwd' h.out
      exact ⟨fun q hq _ => h2 q hq, h3⟩
    · rw [hj] at ht
      refine ⟨fun q hq hm => ?_, .inr (exec_isDir _ _ hd)⟩
      rcases ht.1 with h1 | h1
      · exact exec_other fun e => hm (e ▸ h1)
      · rw [exec_dir_same (WF_suffix h.wf hd h1)]
  have hout_same : isDir s.fs (outDir w) → (exec s.fs o).2 (outDir w) = s.fs (outDir w) := by
    intro hd
    rw [isDir_iff.1 hd, isDir_iff.1 (exec_isDir s.fs o hd)]
  refine ⟨exec_WF h.wf o, fun q hq => exec_isDir _ _ (h.dirs q hq), (exec_root _ _).trans h.root,
    hfs.2, fun i => ?_⟩
  by_cases hij : i = j
  · subst hij
    simp only [Function.update_self]
    rcases h.each i with ⟨he, hm⟩ | ⟨hd, ht, g, hg, hr⟩
    · rw [hj] at he
      obtain ⟨h1, h2, -⟩ := early_step he hwd' h.out
      have hm' : ∀ q, Spec.Mine w (a i).name q → (exec s.fs o).2 q = fs0 q := by
        intro q hq
        rw [h2 q (fun e => mine_not_out hq (e ▸ List.suffix_refl _)), hm q hq]
      rcases h1 with h1 | ⟨h1, hd⟩
      · exact .inl ⟨h1, hm'⟩
      · refine .inr ⟨hd, ?_, ?_⟩
        · rw [h1, ← hw i]; exact touches_fitTail (a i)
        · obtain ⟨g, hg1, hg2, hg3⟩ := allocOut_run hwd hout
          refine ⟨g, fun q hq => ?_, ?_⟩
          · rcases hq with hq | hq
            · rw [hm' q hq, hg3 q (fun e => mine_not_out hq (e ▸ List.suffix_refl _))]
            · rcases List.suffix_cons_iff.1 hq with rfl | hq
              · rw [isDir_iff.1 hd, isDir_iff.1 hg2]
              · have hq0 := WF_suffix hwf hwd hq
                have hne : q ≠ outDir w := by
                  rintro rfl
                  have := hq.length_le
                  simp at this
                rw [hg3 q hne]
                cases q with
                | nil => exact (exec_root _ _).trans h.root
                | cons f q =>
                  rw [isDir_iff.1 hq0, isDir_iff.1 (exec_isDir _ o (h.dirs _ hq0))]
          · rw [h1, fitZpoly_tail, hw i, Prog.run_bind, hg1]
    · rw [hj] at ht hr
      have hc := exec_congr (o := o) (hg _ ht.1) (by
        cases e : o.path.tail with
        | nil => rfl
        | cons f q =>
          have := hg _ (zone_tail ht.1)
          rw [e] at this
          simp only [isDir, this])
      refine .inr ⟨exec_isDir _ _ hd, ht.2 _, (exec g o).2, fun q hq => ?_, ?_⟩
      · by_cases e : q = o.path
        · rw [e]; exact hc.2
        · rw [exec_other e, exec_other e]; exact hg q hq
      · rw [hc.1, ← hr, Prog.run_op]
  · simp only [Function.update_of_ne hij]
    have hmine : ∀ q, Spec.Mine w (a i).name q → (exec s.fs o).2 q = s.fs q := fun q hq =>
      hfs.1 q (fun e => mine_not_out hq (e ▸ List.suffix_refl _))
        fun hm => hn i j hij (mine_name hq hm)
    rcases h.each i with ⟨he, hm⟩ | ⟨hd, ht, g, hg, hr⟩
    · refine .inl ⟨?_, fun q hq => by rw [hmine q hq, hm q hq]⟩
      rcases he with he | he | he | ⟨he, hd⟩
      · exact .inl he
      · exact .inr (.inl he)
      · exact .inr (.inr (.inl he))
      · exact .inr (.inr (.inr ⟨he, exec_isDir _ _ hd⟩))
    · refine .inr ⟨exec_isDir _ _ hd, ht, g, fun q hq => ?_, hr⟩
      rw [← hg q hq]
      rcases hq with hq | hq
      · exact hmine q hq
      · by_cases e : q = outDir w
        · rw [e]; exact hout_same hd
        · exact hfs.1 q e fun hm => mine_not_out hm hq

omit [DecidableEq ι] in
theorem ghost_init {N M : ι → ℕ} (a : (i : ι) → Input (N i) (M i)) {w : Path}
    (hw : ∀ i, (a i).workDir = w) {fs0 : FS Content} (hwf : WF fs0)
    (hout : fs0 (outDir w) = none ∨ isDir fs0 (outDir w)) :
    Ghost a w fs0 ⟨fun i => fitZpoly (a i), fs0⟩ where
  wf := hwf
  dirs := fun _ h => h
  root := rfl
  out := hout
  each := fun i => .inl ⟨.inl (by show fitZpoly (a i) = _; rw [fitZpoly_tail, hw i]), fun _ _ => rfl⟩

/-- **C46**. Any number of runs in one working directory, with pairwise different names and any other
arguments, in any interleaving: each of them ends as it would alone, with the same directory or the
same exception, and leaves the same files. -/
theorem C46_no_interference {N M : ι → ℕ} (a : (i : ι) → Input (N i) (M i)) (w : Path)
    (hw : ∀ i, (a i).workDir = w) (hn : ∀ i j, i ≠ j → (a i).name ≠ (a j).name) (fs : FS Content)
    (hwf : WF fs) (hwd : isDir fs w)
    (hout : fs (w.join "pyoof_out".toList) = none ∨ isDir fs (w.join "pyoof_out".toList))
    (s : Sys Content Path ι) (hs : Relation.ReflTransGen Sys.Step ⟨fun i => fitZpoly (a i), fs⟩ s)
    (i : ι) :
    (∀ d, s.proc i = .ret d → ∃ alone, (fitZpoly (a i)).run fs = (.ok d, alone) ∧
      ∀ q, Spec.Mine w (a i).name q → s.fs q = alone q) ∧
    (∀ e, s.proc i = .raise e → ∃ alone, (fitZpoly (a i)).run fs = (.error e, alone) ∧
      ∀ q, Spec.Mine w (a i).name q → s.fs q = alone q) := by
  have hg : Ghost a w fs s := by
    induction hs with
    | refl => exact ghost_init a hw hwf hout
    | tail _ hst ih => exact ghost_step hw hn hwf hwd hout ih hst
  constructor
  · intro d hd
    rcases hg.each i with ⟨he, -⟩ | ⟨-, -, g, h1, h2⟩
    · obtain ⟨o, k, h⟩ := early_op (by simp [outDir]) he
      rw [hd] at h
      cases h
    · rw [hd] at h2
      exact ⟨g, h2.symm, fun q hq => h1 q (.inl hq)⟩
  · intro e hd
    rcases hg.each i with ⟨he, -⟩ | ⟨-, -, g, h1, h2⟩
    · obtain ⟨o, k, h⟩ := early_op (by simp [outDir]) he
      rw [hd] at h
      cases h
    · rw [hd] at h2
      exact ⟨g, h2.symm, fun q hq => h1 q (.inl hq)⟩

/-! ## The race -/

theorem prog_bind_ret {C α : Type} (p : Prog C α) : (p >>= Prog.ret) = p := by
  induction p with
  | ret a => rfl
  | raise e => rfl
  | op o k ih =>
    show Prog.op o _ = Prog.op o _
    congr 1
    funext r
    exact ih r

/-- One process runs alone to its end. -/
theorem steps_end {C α : Type} {i : ι} (s : Sys C α ι) {a : α} {fs' : FS C}
    (hr : (s.proc i).run s.fs = (.ok a, fs')) :
    Sys.Steps s ⟨Function.update s.proc i (.ret a), fs'⟩ :=
  steps_run (f := Prog.ret) s (prog_bind_ret _).symm hr

/-- A run looks for a free number and stops before it creates the directory. -/
theorem alloc_prefix (out : Path) (name : Str) (f : Option Path → Prog Content Path) {i : ι}
    (l : List ℕ) (cur : Option Path) (s : Sys Content Path ι)
    (h : s.proc i = (allocLoop out name l cur >>= f)) (hd : isDir s.fs out)
    (hfree : ∃ k ∈ l, s.fs (out.join (runName name k)) = none) :
    ∃ k ∈ l, s.fs (out.join (runName name k)) = none ∧
      Sys.Steps s ⟨Function.update s.proc i (makedirs (out.join (runName name k)) true >>= fun _ =>
        f (some (out.join (runName name k)))), s.fs⟩ ∧
      ∀ cur', (allocLoop out name l cur').run s.fs = (.ok (some (out.join (runName name k))),
        update s.fs (out.join (runName name k)) .dir) := by
  induction l generalizing cur s with
  | nil => obtain ⟨k, hk, -⟩ := hfree; cases hk
  | cons k l ih =>
    rw [allocLoop, prog_bind_assoc] at h
    have h1 := steps_run s h (run_existsP _ _)
    cases hp : s.fs (out.join (runName name k)) with
    | none =>
      have hp' : present s.fs (out.join (runName name k)) = false := by
        show (s.fs (out.join (runName name k))).isSome = false
        rw [hp]; rfl
      refine ⟨k, by simp, hp, ?_, fun cur' => ?_⟩
      · rw [hp'] at h1
        simp only [Bool.not_false, if_true, prog_bind_assoc] at h1
        exact h1
      · rw [allocLoop, Prog.run_bind, run_existsP]
        simp only [hp', Bool.not_false, if_true]
        rw [Prog.run_bind, run_makedirs_leaf _ _ _ _ hd, if_neg (by rw [hp']; simp)]
        rfl
    | some n =>
      have hp' : present s.fs (out.join (runName name k)) = true := by
        show (s.fs (out.join (runName name k))).isSome = true
        rw [hp]; rfl
      rw [hp'] at h1
      simp only [Bool.not_true, Bool.false_eq_true, if_false] at h1
      obtain ⟨k', hk', e1, e2, e3⟩ := ih (some (out.join (runName name k)))
        ⟨Function.update s.proc i (allocLoop out name l (some (out.join (runName name k))) >>= f), s.fs⟩
        (by simp) hd (by
          obtain ⟨k', hk', e⟩ := hfree
          rcases List.mem_cons.1 hk' with rfl | hk'
          · rw [hp] at e; cases e
          · exact ⟨k', hk', e⟩)
      refine ⟨k', by simp [hk'], e1, h1.trans ?_, fun cur' => ?_⟩
      · simpa using e2
      · rw [allocLoop, Prog.run_bind, run_existsP]
        simp only [hp', Bool.not_true, Bool.false_eq_true, if_false]
        exact e3 _

/-- **C46**. Two runs in one working directory with the same name, with any other arguments with
which they complete alone (`Spec.Runs`), and a free number: there is an interleaving in which both
complete and return the same directory. -/
theorem C46_race {N M : ι → ℕ} (a : (i : ι) → Input (N i) (M i)) (i j : ι) (hij : i ≠ j)
    (hwd : (a i).workDir = (a j).workDir) (hname : (a i).name = (a j).name)
    (S T : List ℕ) (hi : Spec.Runs (a i) S) (hj : Spec.Runs (a j) T) (fs : FS Content)
    (hwf : WF fs) (hw : isDir fs (a i).workDir)
    (hout : fs ((a i).workDir.join "pyoof_out".toList) = none ∨
      isDir fs ((a i).workDir.join "pyoof_out".toList))
    (hfree : ∃ k ≤ 100, fs (Spec.runDir (a i).workDir (a i).name k) = none) :
    ∃ s d, Relation.ReflTransGen Sys.Step ⟨fun i => fitZpoly (a i), fs⟩ s ∧
      s.proc i = .ret d ∧ s.proc j = .ret d := by
  have hji : j ≠ i := Ne.symm hij
  -- both see to `pyoof_out`
  obtain ⟨fs1, h1, hd1, hf1⟩ := allocOut_run hw hout
  have s1 := steps_run (i := i) ⟨fun i => fitZpoly (a i), fs⟩ (fitZpoly_tail (a i)) h1
  obtain ⟨fs2, h2, hd2, hf2⟩ := allocOut_run (w := (a i).workDir) (fs := fs1)
    (run_isDir h1 hw) (.inr hd1)
  have s2 := s1.trans (steps_run (i := j)
    (f := fun _ => fitTail (a j))
    ⟨Function.update (fun i => fitZpoly (a i)) i (fitTail (a i)), fs1⟩
    (by rw [hwd]; simp only [Function.update_of_ne hji]; exact fitZpoly_tail (a j)) h2)
  have hwf2 : WF fs2 := by
    have w1 : WF fs1 := by have := run_WF (p := allocOut (outDir (a i).workDir)) hwf; rwa [h1] at this
    have := run_WF (p := allocOut (outDir (a i).workDir)) w1
    rwa [h2] at this
  -- the first looks for a number
  obtain ⟨k, hk, e1, s3, e3⟩ := alloc_prefix (outDir (a i).workDir) (a i).name
    (fun d => match d with
      | some d => fitRest (a i) d
      | none => .raise .unboundLocalError) (i := i) (List.range 101) none
    ⟨Function.update (Function.update (fun i => fitZpoly (a i)) i (fitTail (a i))) j (fitTail (a j)), fs2⟩
    (by simp only [Function.update_of_ne hij, Function.update_self]; rfl) hd2 (by
      obtain ⟨k, hk, e⟩ := hfree
      refine ⟨k, List.mem_range.2 (by omega), ?_⟩
      have hne : (outDir (a i).workDir).join (runName (a i).name k) ≠ outDir (a i).workDir := by
        intro h
        have := congrArg List.length h
        simp at this
      show fs2 _ = none
      rw [hf2 _ hne, hf1 _ hne, runDir_eq _ _ hk]
      exact e)
  have s3 := s2.trans s3
  generalize hd : (outDir (a i).workDir).join (runName (a i).name k) = d at *
  -- the second takes the directory
  have s4 := s3.trans (steps_run (i := j) (p := allocLoop (outDir (a i).workDir) (a i).name (List.range 101) none)
    (f := fun d => match d with
      | some d => fitRest (a j) d
      | none => .raise .unboundLocalError) _ (by
        simp only [Function.update_of_ne hji, Function.update_self]
        rw [hwd, hname]; rfl) (e3 none))
  -- the first takes it as well
  have s5 := s4.trans (steps_run (i := i) (p := makedirs d true) (f := fun _ => fitRest (a i) d)
    (fs' := update fs2 d .dir) (a := ()) _ (by
        simp only [Function.update_of_ne hij, Function.update_self]) (by
        have hdd : update fs2 d .dir d = some .dir := update_same _ _ _
        have hdo : isDir (update fs2 d .dir) (outDir (a i).workDir) := by
          rw [isDir_iff] at hd2 ⊢
          unfold update
          split_ifs
          · rfl
          · exact hd2
        rw [← hd] at hdd hdo ⊢
        have hdd' := isDir_iff.2 hdd
        rw [run_makedirs_leaf _ _ _ _ hdo, if_pos (isDir_present hdd'), hdd']
        rfl))
  -- both go on
  have hg : Good d (update fs2 d .dir) := by
    have hb : ∀ q, Below d q → update fs2 d .dir q = none := by
      intro q hq
      rw [update_ne, WF_below hwf2 e1 (by rw [← hd]; simp) hq]
      rintro rfl
      exact not_below_self hq
    refine ⟨?_, fun q hq hqd => ?_, fun c hc => ?_⟩
    · rw [← hd, isDir_iff, update_same]
    · rw [hb q hq] at hqd; cases hqd
    · rw [hb _ (below_join d _)] at hc; cases hc
  obtain ⟨fs6, h6, hg6⟩ := fitRest_completes hi hg
  have s6 := s5.trans (steps_end (i := i) (a := d) (fs' := fs6) _ (by simpa using h6))
  obtain ⟨fs7, h7, -⟩ := fitRest_completes hj hg6
  have s7 := s6.trans (steps_end (i := j) (a := d) (fs' := fs7) _ (by
    simpa [Function.update_of_ne hji] using h7))
  exact ⟨_, d, s7, by simp [Function.update_of_ne hij], by simp⟩

/-! ## The hypotheses are met -/

theorem touches_frame {C α : Type} {S : Path → Prop} {p : Prog C α} (hp : Touches S p) {q : Path} (hq : ¬ S q)
    (fs : FS C) : (p.run fs).2 q = fs q := by
  induction p generalizing fs with
  | ret a => rfl
  | raise e => rfl
  | op o k ih =>
    rw [Prog.run_op, ih _ (hp.2 _)]
    exact exec_other fun e => hq (e ▸ hp.1)

theorem touches_fitZpoly {N M : ℕ} (a : Input N M) : Touches (Zone a.workDir a.name) (fitZpoly a) := by
  rw [fitZpoly_tail]
  refine touches_bind' (touches_bind' (touches_existsP (.inr (List.suffix_refl _))) fun e => ?_)
    fun _ => touches_fitTail a
  cases e
  · exact touches_makedirs _ _ fun q hq => .inr hq
  · trivial

theorem sample_runs : Spec.Runs sampleInput [1, 2, 3, 4, 5] where
  feasible := default_feasible
  inBounds := lazy_inBounds 15
  solves f x0 lb ub hp hl := by
    refine ⟨_, rfl, fun v hv => ?_, fun h => ?_⟩
    · funext j
      have := congrFun hv ⟨j.val, by omega⟩
      simpa [Matrix.mulVec, dotProduct, Fin.val_inj] using this
    · have := congrFun h ⟨0, by norm_num⟩
      simp at this
  enough := by simp [Spec.nK, sampleInput]
  snr _ := ⟨_, rfl⟩

/-- Two observations of the same name at different elevations. -/
example : ∃ s d, Relation.ReflTransGen Sys.Step
    (⟨fun b : Bool => fitZpoly (if b then sampleInput else { sampleInput with meanel := 70 }), sampleFs⟩ :
      Sys Content Path Bool) s ∧ s.proc true = .ret d ∧ s.proc false = .ret d := by
  have h2 : Spec.Runs { sampleInput with meanel := 70 } [1, 2, 3, 4, 5] := by
    obtain ⟨h1, h2, h3, h4, h5⟩ := sample_runs
    exact ⟨h1, h2, h3, h4, h5⟩
  exact C46_race (fun b : Bool => if b then sampleInput else { sampleInput with meanel := 70 })
    true false (by simp) rfl rfl _ _ sample_runs h2 sampleFs sampleFs_wf
    (by simp [sampleInput, sampleFs, isDir]) (.inl (by simp [sampleInput, sampleFs]))
    ⟨0, by omega, by simp [Spec.runDir, sampleInput, sampleFs]⟩

/-- Two observations of different names, run one after the other: an interleaving that ends. -/
example : ∃ s d e, Relation.ReflTransGen Sys.Step
    (⟨fun b : Bool => fitZpoly (if b then sampleInput else { sampleInput with name := "on".toList }),
      sampleFs⟩ : Sys Content Path Bool) s ∧ s.proc true = .ret d ∧ s.proc false = .ret e ∧
      d ≠ e := by
  set a : Bool → Input 64 5 := fun b => if b then sampleInput else { sampleInput with name := "on".toList }
  have h2 : Spec.Runs (a false) [1, 2, 3, 4, 5] := by
    obtain ⟨h1, h2, h3, h4, h5⟩ := sample_runs
    exact ⟨h1, h2, h3, h4, h5⟩
  have hw : isDir sampleFs sampleInput.workDir := by simp [sampleInput, sampleFs, isDir]
  obtain ⟨d, fs1, h1⟩ := sample_run
  have s1 := steps_end (i := true) ⟨fun b => fitZpoly (a b), sampleFs⟩ h1
  have hout : isDir fs1 (outDir sampleInput.workDir) := by
    rw [fitZpoly_tail, Prog.run_bind] at h1
    obtain ⟨g, hg, hd, -⟩ := allocOut_run (fs := sampleFs) hw (.inl (by simp [sampleInput, sampleFs]))
    rw [hg] at h1
    exact run_isDir h1 hd
  have hwf : WF fs1 := by
    have := run_WF (p := fitZpoly sampleInput) sampleFs_wf
    rwa [h1] at this
  obtain ⟨e, fs2, h2⟩ := C40_completes (a false) _ h2.feasible h2.inBounds h2.solves h2.enough h2.snr fs1
    hwf (run_isDir h1 hw) (.inr hout) (.inl ⟨0, by omega, by
      have hn : ¬ Zone sampleInput.workDir sampleInput.name
          (Spec.runDir (a false).workDir (a false).name 0) := by
        rintro (h | h)
        · have := mine_name h ⟨0, by omega, List.suffix_refl _⟩
          simp [a, sampleInput] at this
        · have := h.length_le
          simp [a, Spec.runDir, sampleInput] at this
      have := touches_frame (touches_fitZpoly sampleInput) hn sampleFs
      rw [h1] at this
      refine this.trans ?_
      simp [a, Spec.runDir, sampleInput, sampleFs]⟩)
  have s2 := s1.trans (steps_end (i := false) (a := e) (fs' := fs2) _ (by simpa using h2))
  refine ⟨_, d, e, s2, by simp, by simp, ?_⟩
  refine C46_distinct a sampleFs _ s2 true false ?_ d e (by simp) (by simp)
  simp [a, sampleInput]

end Verif.Props
