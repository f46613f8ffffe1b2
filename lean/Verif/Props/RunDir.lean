import Verif.Lemmas.Fs
import Verif.Lemmas.Text
import Verif.Model.Fit

/-! # C45: the directory of a run -/

namespace Verif.Props

open Verif Verif.Fs Verif.Store Verif.Fit

/-! ## Specification -/

/-- The place of run number `i` of `name` below `workDir`: `pyoof_out/name-iii`. -/
def Spec.runDir (workDir : Path) (name : Str) (i : ℕ) : Path :=
  (name ++ ['-'] ++ [digitChar (i / 100), digitChar (i / 10 % 10), digitChar (i % 10)]) ::
    "pyoof_out".toList :: workDir

theorem pad3_eq : ∀ i ≤ 100, pad3 i =
    [digitChar (i / 100), digitChar (i / 10 % 10), digitChar (i % 10)] := by
  intro i hi
  have : i < 101 := by omega
  interval_cases i <;> simp [pad3, decNat, digitChar] <;> rfl

theorem runDir_eq (w : Path) (name : Str) {i : ℕ} (hi : i ≤ 100) :
    (w.join "pyoof_out".toList).join (runName name i) = Spec.runDir w name i := by
  simp [Path.join, runName, Spec.runDir, pad3_eq i hi]

/-! ## The allocation -/

theorem writes_allocLoop (out : Path) (name : Str) (l : List ℕ) (cur : Option Path) :
    Writes (fun q => q.length ≤ out.length + 1) (allocLoop out name l cur) := by
  induction l generalizing cur with
  | nil => trivial
  | cons i l ih =>
    rw [allocLoop]
    refine writes_bind (writes_existsP _) fun e => ?_
    cases e
    · refine writes_bind (writes_mono (fun q hq => ?_) (writes_makedirs _ _)) fun _ => trivial
      exact hq.length_le
    · exact ih _

theorem puts_allocLoop (out : Path) (name : Str) (l : List ℕ) (cur : Option Path) :
    Puts (fun _ => False) (allocLoop out name l cur) := by
  induction l generalizing cur with
  | nil => trivial
  | cons i l ih =>
    rw [allocLoop]
    refine puts_bind (puts_existsP _) fun e => ?_
    cases e
    · exact puts_bind (puts_makedirs _ _) fun _ => trivial
    · exact ih _

/-- The first part of `allocDir`. -/
def allocOut (out : Path) : Prog Content Unit := do
  let e ← existsP out
  if !e then makedirs out true

theorem allocDir_eq (w : Path) (name : Str) : allocDir w name = (do
    allocOut (w.join "pyoof_out".toList)
    let d ← allocLoop (w.join "pyoof_out".toList) name (List.range 101) none
    match d with
    | some d => return d
    | none => .raise .unboundLocalError) := by
  unfold allocDir allocOut existsP
  simp only [Prog.op_bind]
  congr 1
  funext r
  cases r <;> rfl

theorem writes_allocOut (out : Path) : Writes (fun q => q <:+ out) (allocOut out) := by
  refine writes_bind (writes_existsP _) fun e => ?_
  cases e
  · exact writes_makedirs _ _
  · trivial

theorem puts_allocOut (out : Path) : Puts (fun _ => False) (allocOut out) := by
  refine puts_bind (puts_existsP _) fun e => ?_
  cases e
  · exact puts_makedirs _ _
  · trivial

theorem writes_allocDir (w : Path) (name : Str) :
    Writes (fun q => q.length ≤ w.length + 2) (allocDir w name) := by
  rw [allocDir_eq]
  refine writes_bind (writes_mono (fun q hq => ?_) (writes_allocOut _)) fun _ => ?_
  · have := hq.length_le
    simp only [List.length_cons] at this
    omega
  · refine writes_bind (writes_mono (fun q hq => ?_) (writes_allocLoop _ _ _ _)) fun d => ?_
    · simpa using hq
    · cases d <;> trivial

theorem puts_allocDir (w : Path) (name : Str) : Puts (fun _ => False) (allocDir w name) := by
  rw [allocDir_eq]
  refine puts_bind (puts_allocOut _) fun _ => ?_
  refine puts_bind (puts_allocLoop _ _ _ _) fun d => ?_
  cases d <;> trivial

theorem present_cons {C : Type} (fs : FS C) (f : Str) (d : Path) :
    present fs (f :: d) = (fs (f :: d)).isSome := rfl

/-- What the loop returns. -/
theorem allocLoop_ok {out : Path} {name : Str} {l : List ℕ} {cur r : Option Path}
    {fs fs' : FS Content} (h : (allocLoop out name l cur).run fs = (.ok r, fs')) :
    (∃ pre i post, l = pre ++ i :: post ∧ (∀ j ∈ pre, (fs (runName name j :: out)).isSome) ∧
      fs (runName name i :: out) = none ∧ r = some (runName name i :: out)) ∨
    ((∀ j ∈ l, (fs (runName name j :: out)).isSome) ∧ fs' = fs ∧
      r = (l.getLast?.map fun i => runName name i :: out).or cur) := by
  induction l generalizing cur with
  | nil =>
    rw [allocLoop, Prog.run_ret] at h
    cases h
    exact .inr ⟨by simp, rfl, by simp⟩
  | cons i l ih =>
    rw [allocLoop, Prog.run_bind, run_existsP] at h
    by_cases hp : (fs (runName name i :: out)).isSome
    · have hp' : present fs (Path.join out (runName name i)) = true := hp
      simp only [hp', Bool.not_true, Bool.false_eq_true, if_false] at h
      rcases ih h with ⟨pre, j, post, h1, h2, h3, h4⟩ | ⟨h1, h2, h3⟩
      · refine .inl ⟨i :: pre, j, post, by rw [h1]; rfl, ?_, h3, h4⟩
        intro k hk
        rcases List.mem_cons.1 hk with rfl | hk
        · exact hp
        · exact h2 k hk
      · refine .inr ⟨?_, h2, ?_⟩
        · intro k hk
          rcases List.mem_cons.1 hk with rfl | hk
          · exact hp
          · exact h1 k hk
        · rw [h3, List.getLast?_cons]
          cases l.getLast? <;> simp
    · rw [Bool.not_eq_true] at hp
      have hp' : present fs (Path.join out (runName name i)) = false := hp
      simp only [hp', Bool.not_false, if_true] at h
      rw [Prog.run_bind_ok] at h
      obtain ⟨_, _, -, h⟩ := h
      rw [Prog.run_pure] at h
      cases h
      refine .inl ⟨[], i, l, rfl, by simp, ?_, rfl⟩
      simpa using hp

theorem range_split {n : ℕ} {pre post : List ℕ} {i : ℕ} (h : List.range n = pre ++ i :: post) :
    i < n ∧ ∀ j, j < i → j ∈ pre := by
  have hi : i = pre.length := by
    have h1 : (pre ++ i :: post)[pre.length]? = some i := by simp
    rw [← h] at h1
    have h2 : pre.length < (List.range n).length := by
      rw [h]; simp
    rw [List.getElem?_eq_getElem h2, List.getElem_range] at h1
    exact (Option.some.inj h1).symm
  have hlen := congrArg List.length h
  simp only [List.length_range, List.length_append, List.length_cons] at hlen
  refine ⟨by omega, fun j hj => ?_⟩
  have h1 : (List.range n)[j]? = some j := by
    rw [List.getElem?_range (by omega)]
  rw [h, List.getElem?_append_left (by omega)] at h1
  exact List.mem_of_getElem? h1

theorem length_lt_of_suffix {q out : Path} (h : q <:+ out) : q.length ≤ out.length := h.length_le

/-- The directory that `fit_zpoly` takes, as a function of the file system it finds. -/
theorem allocDir_ok {w : Path} {name : Str} {fs fs1 : FS Content} {d : Path}
    (h : (allocDir w name).run fs = (.ok d, fs1)) :
    ∃ i ≤ 100, d = Spec.runDir w name i ∧
      ((fs d = none ∧ ∀ j < i, (fs (Spec.runDir w name j)).isSome) ∨
        (i = 100 ∧ ∀ j ≤ 100, (fs (Spec.runDir w name j)).isSome)) := by
  rw [allocDir_eq, Prog.run_bind_ok] at h
  obtain ⟨_, fs0, h0, h⟩ := h
  rw [Prog.run_bind_ok] at h
  obtain ⟨r, fs2, h1, h⟩ := h
  have hfs : ∀ j ≤ 100, fs0 (runName name j :: w.join "pyoof_out".toList) =
      fs (Spec.runDir w name j) := by
    intro j hj
    rw [← runDir_eq w name hj]
    refine run_frame (writes_allocOut _) h0 fun hs => ?_
    have := hs.length_le
    simp at this
  rcases allocLoop_ok h1 with ⟨pre, i, post, e1, e2, e3, rfl⟩ | ⟨e1, e2, rfl⟩
  · obtain ⟨hi, hpre⟩ := range_split e1
    have hi' : i ≤ 100 := by omega
    cases h
    refine ⟨i, hi', runDir_eq w name hi', .inl ⟨?_, fun j hj => ?_⟩⟩
    · rw [← e3, hfs i hi', ← runDir_eq w name hi']
    · rw [← hfs j (by omega)]
      exact e2 j (hpre j hj)
  · rw [show (List.range 101).getLast? = some 100 from rfl] at h
    cases h
    refine ⟨100, le_rfl, runDir_eq w name le_rfl, .inr ⟨rfl, fun j hj => ?_⟩⟩
    rw [← hfs j hj]
    exact e1 j (List.mem_range.2 (by omega))

/-- Strictly below `d`. -/
def Below (d q : Path) : Prop := ∃ f e, q = f :: e ∧ d <:+ e

theorem below_join (d : Path) (f : Str) : Below d (d.join f) := ⟨f, d, rfl, List.suffix_refl _⟩

theorem below_trans {d : Path} {f : Str} {q : Path} (h : Below (f :: d) q) : Below d q := by
  obtain ⟨g, e, rfl, h⟩ := h
  exact ⟨g, e, rfl, (List.suffix_cons f d).trans h⟩

theorem puts_saveLoop (name : Str) (d : Path) (l : List (Str × Str × List (List Fl))) :
    Puts (Below d) (saveLoop name d l) := by
  induction l with
  | nil => trivial
  | cons x l ih =>
    obtain ⟨f, h, x⟩ := x
    exact puts_bind (puts_writeFile (below_join _ _) _ _) fun _ => ih

theorem puts_storeDataCsv (name : Str) (d : Path) (n : ℕ) (s : List (List (List Fl))) :
    Puts (Below d) (storeDataCsv name d n s) := by
  unfold storeDataCsv
  split_ifs <;> exact puts_saveLoop _ _ _

theorem puts_storeDataAscii (d : Path) (n : ℕ) (a b : List ℝ) :
    Puts (Below d) (storeDataAscii d n a b) := by
  refine puts_bind (puts_lift _) fun names => ?_
  split_ifs
  · exact puts_writeFile (below_join _ _) _ _
  · trivial

theorem puts_plotFitPath (d : Path) (n : ℕ) : Puts (Below d) (plotFitPath d n) := by
  have hb : ∀ f, Below d ((d.join "plots".toList).join f) := fun f => below_trans (below_join _ _)
  unfold plotFitPath
  have hrest : Puts (Below d) (do
      let pdf := fun kind : String =>
        (d.join "plots".toList).join (kind.toList ++ "_n".toList ++ decNat n ++ ".pdf".toList)
      writeFile Content.part (pdf "fitbeam") .plot
      writeFile .part (pdf "fitphase") .plot
      writeFile .part (pdf "residual") .plot
      writeFile .part (pdf "cov") .plot
      writeFile .part (pdf "corr") .plot
      if n = 1 then writeFile .part ((d.join "plots".toList).join "obsbeam.pdf".toList) .plot) := by
    refine puts_bind (puts_writeFile (hb _) _ _) fun _ => ?_
    refine puts_bind (puts_writeFile (hb _) _ _) fun _ => ?_
    refine puts_bind (puts_writeFile (hb _) _ _) fun _ => ?_
    refine puts_bind (puts_writeFile (hb _) _ _) fun _ => ?_
    refine puts_bind (puts_writeFile (hb _) _ _) fun _ => ?_
    split_ifs
    · exact puts_writeFile (hb _) _ _
    · trivial
  refine puts_bind (puts_existsP _) fun e => ?_
  cases e
  · exact puts_bind (puts_makedirs _ _) fun _ => hrest
  · exact hrest

theorem puts_startVector {N M : ℕ} (a : Input N M) (d : Path) (n : ℕ) :
    Puts (Below d) (startVector a d n) := by
  unfold startVector
  dsimp only
  split_ifs
  · refine puts_bind (puts_readFile _) fun c => ?_
    cases c <;> trivial
  · trivial

theorem puts_fitOrder {N M : ℕ} (a : Input N M) (s : List Fl) (d : Path) (n : ℕ) :
    Puts (Below d) (fitOrder a s d n) := by
  refine puts_bind (puts_startVector a d n) fun init => ?_
  refine puts_bind (puts_lift _) fun out => ?_
  refine puts_bind (puts_storeDataAscii _ _ _ _) fun _ => ?_
  have hrest : Puts (Below d) (do
      storeDataCsv a.name d n out.save
      if a.makePlots then plotFitPath d n) := by
    refine puts_bind (puts_storeDataCsv _ _ _ _) fun _ => ?_
    split_ifs
    · exact puts_plotFitPath _ _
    · trivial
  dsimp only
  by_cases hn : n = 1
  · rw [if_pos hn]
    exact puts_bind (puts_writeFile (below_join _ _) _ _) fun _ => hrest
  · rw [if_neg hn]
    exact hrest

theorem puts_fitLoop {N M : ℕ} (a : Input N M) (s : List Fl) (d : Path) (n k : ℕ) :
    Puts (Below d) (fitLoop a s d n k) := by
  induction k generalizing n with
  | zero => trivial
  | succ k ih => exact puts_bind (puts_fitOrder a s d n) fun _ => ih _

/-- `fit_zpoly` after the directory is known. -/
noncomputable def fitRest {N M : ℕ} (a : Input N M) (d : Path) : Prog Content Path := do
  let s0 ← Prog.lift (a.snr 0)
  let s1 ← Prog.lift (a.snr 1)
  let s2 ← Prog.lift (a.snr 2)
  fitLoop a [s0, s1, s2] d 1 a.orderMax
  return d

theorem fitZpoly_eq {N M : ℕ} (a : Input N M) :
    fitZpoly a = (allocDir a.workDir a.name >>= fitRest a) := rfl

theorem puts_fitRest {N M : ℕ} (a : Input N M) (d : Path) : Puts (Below d) (fitRest a d) := by
  refine puts_bind (puts_lift _) fun s0 => ?_
  refine puts_bind (puts_lift _) fun s1 => ?_
  refine puts_bind (puts_lift _) fun s2 => ?_
  exact puts_bind (puts_fitLoop _ _ _ _ _) fun _ => trivial

theorem WF_below {C : Type} {fs : FS C} (h : WF fs) {d q : Path} (hd : fs d = none) (hne : d ≠ [])
    (hq : Below d q) : fs q = none := by
  obtain ⟨f, e, rfl, he⟩ := hq
  induction e generalizing f with
  | nil =>
    rw [List.suffix_nil] at he
    exact absurd he hne
  | cons g e ih =>
    rw [← Option.not_isSome_iff_eq_none]
    intro hs
    have := h _ _ hs
    rw [isDir_iff] at this
    rcases List.suffix_cons_iff.1 he with rfl | he
    · rw [hd] at this; cases this
    · rw [ih g he] at this; cases this

/-- **C45**. The directory of a run is `pyoof_out/name-NNN` with the least `NNN` that was not in use;
if all of 000 to 100 were in use it is `name-100`. -/
theorem C45_directory {N M : ℕ} (a : Input N M) (fs fs' : FS Content) (d : Path)
    (h : (fitZpoly a).run fs = (.ok d, fs')) :
    (∃ i ≤ 100, d = Spec.runDir a.workDir a.name i ∧ fs d = none ∧
      ∀ j < i, fs (Spec.runDir a.workDir a.name j) ≠ none) ∨
    (d = Spec.runDir a.workDir a.name 100 ∧
      ∀ j ≤ 100, fs (Spec.runDir a.workDir a.name j) ≠ none) := by
  rw [fitZpoly_eq, Prog.run_bind_ok] at h
  obtain ⟨d', fs1, h1, h2⟩ := h
  have hd : d' = d := by
    unfold fitRest at h2
    simp only [Prog.run_bind_ok] at h2
    obtain ⟨_, _, -, _, _, -, _, _, -, _, _, -, h2⟩ := h2
    cases h2
    rfl
  subst hd
  obtain ⟨i, hi, hd, h3 | h3⟩ := allocDir_ok h1
  · refine .inl ⟨i, hi, hd, h3.1, fun j hj => ?_⟩
    exact Option.isSome_iff_ne_none.1 (h3.2 j hj)
  · refine .inr ⟨by rw [hd, h3.1], fun j hj => Option.isSome_iff_ne_none.1 (h3.2 j hj)⟩

/-- **C45**. As long as one of the 101 numbers is free, a run changes nothing that was there before,
at whatever point it is stopped, by an exception or otherwise. -/
theorem C45_preserved {N M : ℕ} (a : Input N M) (fs : FS Content) (hw : WF fs)
    (hfree : ∃ i ≤ 100, fs (Spec.runDir a.workDir a.name i) = none) (fs' : FS Content)
    (h : fs' ∈ (fitZpoly a).trace fs) (q : Path) (hq : fs q ≠ none) : fs' q = fs q := by
  have hq' := Option.isSome_iff_ne_none.2 hq
  rw [fitZpoly_eq] at h
  rcases Prog.mem_trace_bind h with h | ⟨d, fs1, h1, h⟩
  · exact trace_puts (puts_allocDir _ _) h hq' id
  · have hm := (allocDir a.workDir a.name).run_mem_trace fs
    rw [h1] at hm
    have h2 : fs1 q = fs q := trace_puts (puts_allocDir _ _) hm hq' id
    rw [← h2]
    refine trace_puts (puts_fitRest a d) h (by rw [h2]; exact hq') fun hb => hq ?_
    obtain ⟨i, hi, hd, h3 | ⟨-, h3⟩⟩ := allocDir_ok h1
    · exact WF_below hw h3.1 (by rw [hd]; simp [Spec.runDir]) hb
    · obtain ⟨j, hj, hf⟩ := hfree
      have := h3 j hj
      rw [hf] at this
      cases this

end Verif.Props
