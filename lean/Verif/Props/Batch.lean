import Verif.Model.Batch
import Verif.Props.Pipeline
import Verif.Props.FitsPath

/-!
# C91: the batch scripts

One fit after the other, for each FITS file and each configuration of the telescope.
-/

namespace Verif.Props

open Verif Verif.Fs Verif.Store Verif.Core Verif.Fit Verif.Aperture Verif.AuxFn Verif.Batch

/-! ## Specification -/

/-- The fits of a batch in their order: for each file all configurations. -/
def Spec.batchJobs (files : List Str) (cs : List Setup) : List (Str × Setup) :=
  files.flatMap fun f => cs.map fun c => (f, c)

/-- The name of a FITS file without directory and without `.fits`. -/
def Spec.stem (p : Str) : Str := ((p.reverse.takeWhile (· ≠ '/')).drop 5).reverse

/-- How many of the numbers below `i` were free for results of this name. -/
noncomputable def Spec.freeBelow (fs : FS Content) (w : Path) (name : Str) (i : ℕ) : ℕ := by
  classical exact ((Finset.range i).filter fun j => fs (Spec.runDir w name j) = none).card

/-! ## One run -/

theorem runDir_inj {w : Path} {n n' : Str} {i i' : ℕ} (hi : i ≤ 100) (hi' : i' ≤ 100)
    (h : Spec.runDir w n i = Spec.runDir w n' i') : n = n' ∧ i = i' := by
  have hn := runDir_name h
  subst hn
  refine ⟨rfl, ?_⟩
  have h2 : pad3 i = pad3 i' := by
    rw [pad3_eq i hi, pad3_eq i' hi']
    simpa [Spec.runDir] using h
  have : ∀ a ≤ 100, ((pad3 a).foldl (fun t c => 10 * t + (c.toNat - 48)) 0) = a := by
    intro a ha
    rw [pad3_eq a ha]
    have : a < 101 := by omega
    interval_cases a <;> rfl
  rw [← this i hi, ← this i' hi', h2]

theorem allocLoop_frame {out : Path} {name : Str} {l : List ℕ} {cur : Option Path} {r : Py (Option Path)}
    {fs fs' : FS Content} (h : (allocLoop out name l cur).run fs = (r, fs')) :
    (∃ pre i post, l = pre ++ i :: post ∧ (∀ j ∈ pre, fs (runName name j :: out) ≠ none) ∧
      fs (runName name i :: out) = none ∧ (∀ x, r = .ok x → x = some (runName name i :: out)) ∧
      ∀ q, ¬ q <:+ out → q ≠ runName name i :: out → fs' q = fs q) ∨
    ((∀ j ∈ l, fs (runName name j :: out) ≠ none) ∧ fs' = fs) := by
  induction l generalizing cur with
  | nil =>
    rw [allocLoop, Prog.run_ret] at h
    cases h
    exact .inr ⟨by simp, rfl⟩
  | cons i l ih =>
    rw [allocLoop, Prog.run_bind, run_existsP] at h
    by_cases hp : fs (runName name i :: out) = none
    · have hp' : present fs (Path.join out (runName name i)) = false := by
        show (fs (runName name i :: out)).isSome = false
        rw [hp]; rfl
      simp only [hp', Bool.not_false, if_true] at h
      refine .inl ⟨[], i, l, rfl, by simp, hp, ?_, ?_⟩
      · intro x hx
        subst hx
        rw [Prog.run_bind_ok] at h
        obtain ⟨_, _, -, h⟩ := h
        rw [Prog.run_pure] at h
        cases h
        rfl
      · intro q hq hne
        have hw : Writes (fun q => q <:+ runName name i :: out) (do
            makedirs (out.join (runName name i)) true
            return some (out.join (runName name i)) : Prog Content (Option Path)) :=
          writes_bind (writes_makedirs _ _) fun _ => trivial
        refine run_frame hw h fun hs => ?_
        rcases List.suffix_cons_iff.1 hs with e | hs
        · exact hne e
        · exact hq hs
    · have hp' : present fs (Path.join out (runName name i)) = true := by
        show (fs (runName name i :: out)).isSome = true
        exact Option.isSome_iff_ne_none.2 hp
      simp only [hp', Bool.not_true, Bool.false_eq_true, if_false] at h
      rcases ih h with ⟨pre, j, post, h1, h2, h3, h4, h5⟩ | ⟨h1, h2⟩
      · refine .inl ⟨i :: pre, j, post, by rw [h1]; rfl, ?_, h3, h4, h5⟩
        intro k hk
        rcases List.mem_cons.1 hk with rfl | hk
        · exact hp
        · exact h2 k hk
      · refine .inr ⟨?_, h2⟩
        intro k hk
        rcases List.mem_cons.1 hk with rfl | hk
        · exact hp
        · exact h1 k hk

theorem writes_fitRest {N M : ℕ} (a : Input N M) (d : Path) :
    Writes (fun q => d <:+ q ∨ q <:+ d) (fitRest a d) := by
  have hloop : ∀ (s : List Fl) (n k : ℕ), Writes (fun q => d <:+ q ∨ q <:+ d) (fitLoop a s d n k) := by
    intro s n k
    induction k generalizing n with
    | zero => trivial
    | succ k ih =>
      refine writes_bind (writes_mono ?_ (writes_fitOrder a s d n)) fun _ => ih _
      rintro q (⟨f, -, rfl⟩ | h | h)
      · exact .inl (List.suffix_cons _ _)
      · exact .inl ((List.suffix_cons _ _).trans h)
      · rcases List.suffix_cons_iff.1 h with e | h
        · exact .inl (e ▸ List.suffix_cons _ _)
        · exact .inr h
  refine writes_bind (writes_lift _) fun s0 => ?_
  refine writes_bind (writes_lift _) fun s1 => ?_
  refine writes_bind (writes_lift _) fun s2 => ?_
  exact writes_bind (hloop _ _ _) fun _ => trivial

/-- The first free number. -/
theorem first_free {w : Path} {name : Str} {fs : FS Content}
    (hfree : ∃ i ≤ 100, fs (Spec.runDir w name i) = none) :
    ∃ i ≤ 100, fs (Spec.runDir w name i) = none ∧ ∀ j < i, fs (Spec.runDir w name j) ≠ none := by
  classical
  obtain ⟨i, hi, h⟩ := hfree
  have hex : ∃ i, fs (Spec.runDir w name i) = none := ⟨i, h⟩
  exact ⟨Nat.find hex, (Nat.find_min' hex h).trans hi, Nat.find_spec hex, fun j hj => Nat.find_min hex hj⟩

/-- Whatever the end of a run, it has changed only the directories above and what is below the first free
number. -/
theorem run_region {N M : ℕ} (a : Input N M) {fs fs' : FS Content} {r : Py Path}
    (h : (fitZpoly a).run fs = (r, fs')) (i : ℕ) (hi : i ≤ 100)
    (hf : fs (Spec.runDir a.workDir a.name i) = none)
    (hmin : ∀ j < i, fs (Spec.runDir a.workDir a.name j) ≠ none) :
    (∀ d, r = .ok d → d = Spec.runDir a.workDir a.name i) ∧
    ∀ q, ¬ q <:+ "pyoof_out".toList :: a.workDir → ¬ Spec.runDir a.workDir a.name i <:+ q → fs' q = fs q := by
  have huniq : ∀ j ≤ 100, fs (Spec.runDir a.workDir a.name j) = none →
      (∀ k < j, fs (Spec.runDir a.workDir a.name k) ≠ none) → j = i := by
    intro j _ hj hjm
    rcases Nat.lt_trichotomy j i with hlt | e | hlt
    · exact absurd hj (hmin j hlt)
    · exact e
    · exact absurd hf (hjm i hlt)
  constructor
  · rintro d rfl
    rcases C45_directory a fs fs' d h with ⟨j, hj, hd, hdn, hjm⟩ | ⟨-, hall⟩
    · rw [hd] at hdn
      rw [hd, huniq j hj hdn hjm]
    · exact absurd hf (hall i hi)
  · intro q hq hqd
    rw [fitZpoly_tail, Prog.run_bind] at h
    rcases h0 : (allocOut (outDir a.workDir)).run fs with ⟨e | _, fs0⟩
    · rw [h0] at h
      have h1 : (Except.error e, fs0) = (r, fs') := h
      cases h1
      exact run_frame (writes_allocOut _) h0 hq
    rw [h0] at h
    replace h : (fitTail a).run fs0 = (r, fs') := h
    have hq0 : fs0 q = fs q := run_frame (writes_allocOut _) h0 hq
    have hfs : ∀ j ≤ 100, fs0 (runName a.name j :: outDir a.workDir) =
        fs (Spec.runDir a.workDir a.name j) := by
      intro j hj
      rw [← runDir_eq a.workDir a.name hj]
      refine run_frame (writes_allocOut _) h0 fun hs => ?_
      have := hs.length_le
      simp at this
    unfold fitTail at h
    rw [Prog.run_bind] at h
    rcases h1 : (allocLoop (outDir a.workDir) a.name (List.range 101) none).run fs0 with ⟨x, fs1⟩
    have hx : (∀ d, x = .ok d → d = some (Spec.runDir a.workDir a.name i)) ∧ fs1 q = fs q := by
      rcases allocLoop_frame h1 with ⟨pre, j, post, e1, e2, e3, e4, e5⟩ | ⟨e1, -⟩
      · obtain ⟨hj, hpre⟩ := range_split e1
        have hj' : j ≤ 100 := by omega
        have hji : j = i := by
          refine huniq j hj' (by rw [← hfs j hj']; exact e3) fun k hk => ?_
          rw [← hfs k (by omega)]
          exact e2 k (hpre k hk)
        subst hji
        have hrd : runName a.name j :: outDir a.workDir = Spec.runDir a.workDir a.name j := runDir_eq _ _ hj'
        rw [hrd] at e4 e5
        exact ⟨e4, by rw [e5 q hq fun e => hqd (e ▸ List.suffix_refl _), hq0]⟩
      · refine absurd hf ?_
        rw [← hfs i hi]
        exact e1 i (List.mem_range.2 (by omega))
    rw [h1] at h
    rcases x with e | d
    · have h2 : (Except.error e, fs1) = (r, fs') := h
      cases h2
      exact hx.2
    · have hd := hx.1 d rfl
      subst hd
      replace h : (fitRest a (Spec.runDir a.workDir a.name i)).run fs1 = (r, fs') := h
      rw [run_frame (writes_fitRest a _) h, hx.2]
      rintro (hs | hs)
      · exact hqd hs
      · rcases List.suffix_cons_iff.1 hs with e | hs
        · exact hqd (e ▸ List.suffix_refl _)
        · exact hq hs

theorem run_present {N M : ℕ} (a : Input N M) {fs fs' : FS Content} {d : Path}
    (h : (fitZpoly a).run fs = (.ok d, fs')) (hd : fs d = none) : fs' d ≠ none := by
  rw [fitZpoly_eq, Prog.run_bind_ok] at h
  obtain ⟨d', fs1, h1, h2⟩ := h
  obtain rfl : d' = d := by
    unfold fitRest at h2
    simp only [Prog.run_bind_ok] at h2
    obtain ⟨_, _, -, _, _, -, _, _, -, _, _, -, h2⟩ := h2
    cases h2
    rfl
  have hdir := allocDir_isDir h1 (.inl hd)
  obtain ⟨i, -, hdi, -⟩ := allocDir_ok h1
  have hs : (fs1 d').isSome := by
    rw [hdi] at hdir ⊢
    simp only [Spec.runDir, isDir_iff] at hdir ⊢
    rw [hdir]; rfl
  have hm := (fitRest a d').run_mem_trace fs1
  rw [h2] at hm
  have : fs' d' = fs1 d' := trace_puts (puts_fitRest a d') hm hs (by
    rintro ⟨f, e, he, hsuf⟩
    have := hsuf.length_le
    rw [he] at this
    simp at this)
  rw [this]
  exact Option.isSome_iff_ne_none.1 hs

/-! ## Runs one after the other -/

/-- Runs one after the other, all of which complete, and their directories. -/
inductive Spec.Chain : FS Content → List Job → List Path → FS Content → Prop
  | nil (fs : FS Content) : Spec.Chain fs [] [] fs
  | cons {fs fs1 fs' : FS Content} {j : Job} {js : List Job} {d : Path} {ds : List Path}
      (h : (fitZpoly j.2.2).run fs = (.ok d, fs1)) (hs : Spec.Chain fs1 js ds fs') :
      Spec.Chain fs (j :: js) (d :: ds) fs'

/-- There are enough free numbers for the runs of each name. -/
def Spec.Room (fs : FS Content) (w : Path) (js : List Job) : Prop :=
  ∀ n, js.countP (fun j => j.2.2.name = n) ≤ Spec.freeBelow fs w n 101

theorem freeBelow_pos {fs : FS Content} {w : Path} {n : Str} (h : 0 < Spec.freeBelow fs w n 101) :
    ∃ i ≤ 100, fs (Spec.runDir w n i) = none := by
  classical
  unfold Spec.freeBelow at h
  obtain ⟨i, hi⟩ := Finset.card_pos.1 h
  rw [Finset.mem_filter, Finset.mem_range] at hi
  exact ⟨i, by omega, hi.2⟩

theorem freeBelow_congr {fs fs' : FS Content} {w : Path} {n : Str} {i : ℕ}
    (h : ∀ j < i, (fs (Spec.runDir w n j) = none ↔ fs' (Spec.runDir w n j) = none)) :
    Spec.freeBelow fs w n i = Spec.freeBelow fs' w n i := by
  classical
  unfold Spec.freeBelow
  congr 1
  exact Finset.filter_congr fun j hj => h j (Finset.mem_range.1 hj)

theorem freeBelow_zero {fs : FS Content} {w : Path} {n : Str} {i : ℕ}
    (h : ∀ j < i, fs (Spec.runDir w n j) ≠ none) : Spec.freeBelow fs w n i = 0 := by
  classical
  unfold Spec.freeBelow
  rw [Finset.card_eq_zero, Finset.filter_eq_empty_iff]
  exact fun j hj => h j (Finset.mem_range.1 hj)

/-- One number less. -/
theorem freeBelow_take {fs fs' : FS Content} {w : Path} {n : Str} {i k : ℕ} (hk : k < i)
    (hfree : fs (Spec.runDir w n k) = none) (hused : fs' (Spec.runDir w n k) ≠ none)
    (h : ∀ j < i, j ≠ k → fs' (Spec.runDir w n j) = fs (Spec.runDir w n j)) :
    Spec.freeBelow fs w n i = Spec.freeBelow fs' w n i + 1 := by
  classical
  unfold Spec.freeBelow
  have : (Finset.range i).filter (fun j => fs' (Spec.runDir w n j) = none) =
      ((Finset.range i).filter fun j => fs (Spec.runDir w n j) = none).erase k := by
    ext j
    simp only [Finset.mem_filter, Finset.mem_erase, Finset.mem_range]
    by_cases hj : j = k
    · subst hj; simp [hused]
    · constructor
      · rintro ⟨h1, h2⟩
        exact ⟨hj, h1, by rw [← h j h1 hj]; exact h2⟩
      · rintro ⟨-, h1, h2⟩
        exact ⟨h1, by rw [h j h1 hj]; exact h2⟩
  rw [this, Finset.card_erase_of_mem (by simp [hk, hfree])]
  have : 0 < ((Finset.range i).filter fun j => fs (Spec.runDir w n j) = none).card :=
    Finset.card_pos.2 ⟨k, by simp [hk, hfree]⟩
  omega

/-- What one run does to the numbers of all names. -/
theorem run_numbers {N M : ℕ} (a : Input N M) {fs fs1 : FS Content} {d : Path}
    (h : (fitZpoly a).run fs = (.ok d, fs1)) (hfree : ∃ i ≤ 100, fs (Spec.runDir a.workDir a.name i) = none) :
    ∃ i ≤ 100, d = Spec.runDir a.workDir a.name i ∧ fs d = none ∧ fs1 d ≠ none ∧
      (∀ j < i, fs (Spec.runDir a.workDir a.name j) ≠ none) ∧
      (∀ q, ¬ q <:+ "pyoof_out".toList :: a.workDir → ¬ d <:+ q → fs1 q = fs q) ∧
      ∀ n, ∀ j ≤ 100, (n ≠ a.name ∨ j ≠ i) → fs1 (Spec.runDir a.workDir n j) = fs (Spec.runDir a.workDir n j) := by
  obtain ⟨i, hi, hf, hmin⟩ := first_free hfree
  obtain ⟨hd, hreg⟩ := run_region a h i hi hf hmin
  have hd := hd d rfl
  subst hd
  refine ⟨i, hi, rfl, hf, run_present a h hf, hmin, hreg, fun n j hj hne => hreg _ ?_ ?_⟩
  · intro hs
    have := hs.length_le
    simp [Spec.runDir] at this
  · intro hs
    have := runDir_inj hi hj (hs.eq_of_length (by simp [Spec.runDir]))
    rcases hne with hne | hne
    · exact hne this.1.symm
    · exact hne this.2.symm

theorem room_step {fs fs1 : FS Content} {w : Path} {j : Job} {js : List Job} {d : Path}
    (hw : j.2.2.workDir = w) (h : (fitZpoly j.2.2).run fs = (.ok d, fs1)) (hroom : Spec.Room fs w (j :: js)) :
    (∃ i ≤ 100, fs (Spec.runDir w j.2.2.name i) = none) ∧ Spec.Room fs1 w js := by
  have hfree : ∃ i ≤ 100, fs (Spec.runDir w j.2.2.name i) = none := by
    refine freeBelow_pos ((hroom j.2.2.name).trans_lt' ?_)
    rw [List.countP_cons]
    simp
  refine ⟨hfree, fun n => ?_⟩
  subst hw
  obtain ⟨i, hi, hd, hf, hu, -, -, hother⟩ := run_numbers j.2.2 h hfree
  have hr := hroom n
  rw [List.countP_cons] at hr
  by_cases hn : j.2.2.name = n
  · subst hn
    rw [hd] at hf hu
    rw [freeBelow_take (i := 101) (by omega) hf hu fun k hk hki => hother _ k (by omega) (.inr hki)] at hr
    simpa using hr
  · rw [freeBelow_congr (fs' := fs1) fun k hk => by
      rw [hother n k (by omega) (.inl fun e => hn e.symm)]] at hr
    simpa [hn] using hr

/-- A run changes nothing that was there. -/
theorem run_kept {N M : ℕ} (a : Input N M) {fs fs' : FS Content} (hwf : WF fs) {r : Py Path}
    (h : (fitZpoly a).run fs = (r, fs')) (hfree : ∃ i ≤ 100, fs (Spec.runDir a.workDir a.name i) = none)
    (q : Path) (hq : fs q ≠ none) : fs' q = fs q := by
  have hm := (fitZpoly a).run_mem_trace fs
  rw [h] at hm
  exact C45_preserved a fs hwf hfree fs' hm q hq

/-- All about a chain of runs. -/
theorem chain_all {fs fs' : FS Content} {js : List Job} {ds : List Path} (h : Spec.Chain fs js ds fs')
    (w : Path) (hw : ∀ j ∈ js, j.2.2.workDir = w) (hwf : WF fs) (hroom : Spec.Room fs w js) :
    WF fs' ∧ (∀ q, fs q ≠ none → fs' q = fs q) ∧ ds.length = js.length ∧
    (∀ q, ¬ q <:+ "pyoof_out".toList :: w → (∀ d ∈ ds, ¬ d <:+ q) → fs' q = fs q) ∧
    (∀ d ∈ ds, fs d = none ∧ fs' d ≠ none ∧ d.length = w.length + 2) ∧
    ∀ k j, js[k]? = some j → ∃ d before after, ds[k]? = some d ∧
      (fitZpoly j.2.2).run before = (.ok d, after) ∧ before d = none ∧ (∀ q, d <:+ q → fs' q = after q) ∧
      ∃ i ≤ 100, d = Spec.runDir w j.2.2.name i ∧ fs d = none ∧
        Spec.freeBelow fs w j.2.2.name i = (js.take k).countP (fun j' => j'.2.2.name = j.2.2.name) := by
  induction h with
  | nil fs => exact ⟨hwf, fun _ _ => rfl, rfl, fun _ _ _ => rfl, by simp, by simp⟩
  | @cons fs fs1 fs' j js d ds h hs ih =>
    have hjw := hw j List.mem_cons_self
    obtain ⟨hfree, hroom1⟩ := room_step hjw h hroom
    subst hjw
    have hwf1 : WF fs1 := by
      have := run_WF (p := fitZpoly j.2.2) hwf
      rw [h] at this
      exact this
    obtain ⟨hwf', i1, i2, i3, i4, i5⟩ := ih (fun k hk => hw k (List.mem_cons_of_mem _ hk)) hwf1 hroom1
    obtain ⟨i, hi, hd, hf, hu, hmin, hreg, hother⟩ := run_numbers j.2.2 h hfree
    have hkept := run_kept j.2.2 hwf h hfree
    have hnone : ∀ q, fs1 q = none → fs q = none := by
      intro q hq
      by_contra hne
      exact hne (by rw [← hkept q hne]; exact hq)
    have hdlen : d.length = j.2.2.workDir.length + 2 := by rw [hd]; simp [Spec.runDir]
    refine ⟨hwf', fun q hq => ?_, by simp [i2], fun q hq hqd => ?_, fun e he => ?_, fun k b hk => ?_⟩
    · rw [i1 q (by rw [hkept q hq]; exact hq), hkept q hq]
    · rw [i3 q hq fun e he => hqd e (List.mem_cons_of_mem _ he), hreg q hq (hqd d List.mem_cons_self)]
    · rcases List.mem_cons.1 he with rfl | he
      · exact ⟨hf, by rw [i1 _ hu]; exact hu, hdlen⟩
      · exact ⟨hnone e (i4 e he).1, (i4 e he).2⟩
    · cases k with
      | zero =>
        rw [List.getElem?_cons_zero, Option.some.injEq] at hk
        subst hk
        refine ⟨d, fs, fs1, rfl, h, hf, fun q hq => ?_, i, hi, hd, hf, ?_⟩
        · refine i3 q (fun hs' => ?_) fun e he hs' => ?_
          · have := (hq.trans hs').length_le
            rw [hdlen] at this
            simp at this
          · have hlen := (i4 e he).2.2
            have : e = d := by
              rcases List.suffix_or_suffix_of_suffix hs' hq with h' | h'
              · exact h'.eq_of_length (by rw [hlen, hdlen])
              · exact (h'.eq_of_length (by rw [hlen, hdlen])).symm
            subst this
            exact hu (i4 e he).1
        · rw [freeBelow_zero hmin]; simp
      | succ k =>
        rw [List.getElem?_cons_succ] at hk
        obtain ⟨e, before, after, j1, j2, j3, j4, m, hm, j5, j6, j7⟩ := i5 k b hk
        refine ⟨e, before, after, by simpa using j1, j2, j3, j4, m, hm, j5, hnone _ j6, ?_⟩
        rw [List.take_succ_cons, List.countP_cons, ← j7]
        by_cases hn : j.2.2.name = b.2.2.name
        · have hmi : m ≠ i := by
            rintro rfl
            rw [← hn, ← hd] at j5
            rw [j5] at j6
            exact hu j6
          have him : i < m := by
            rcases Nat.lt_trichotomy m i with hlt | e' | hlt
            · refine absurd (hnone _ j6) ?_
              rw [j5, ← hn]
              exact hmin m hlt
            · exact absurd e' hmi
            · exact hlt
          rw [hd] at hf hu
          simp only [hn, decide_true, if_true]
          rw [← hn]
          exact freeBelow_take him hf hu fun k hk hki => hother _ k (by omega) (.inr hki)
        · simp only [hn, decide_false, Bool.false_eq_true, if_false, add_zero]
          exact freeBelow_congr fun k hk => by
            rw [hother _ k (by omega) (.inl fun e' => hn e'.symm)]

/-- After the runs there is a number left for one more. -/
theorem chain_free {fs fs1 : FS Content} {js : List Job} {ds : List Path} {w : Path} {j : Job}
    (hc : Spec.Chain fs js ds fs1) (hws : ∀ j ∈ js, j.2.2.workDir = w) (hroom : Spec.Room fs w (js ++ [j])) :
    ∃ i ≤ 100, fs1 (Spec.runDir w j.2.2.name i) = none := by
  induction hc with
  | nil fs =>
    refine freeBelow_pos ((hroom j.2.2.name).trans_lt' ?_)
    simp
  | cons hr _ ih =>
    exact ih (fun j hj => hws j (List.mem_cons_of_mem _ hj)) (room_step (hws _ List.mem_cons_self) hr hroom).2

theorem chain_append {fs fs1 fs' : FS Content} {js js' : List Job} {ds ds' : List Path}
    (h : Spec.Chain fs js ds fs1) (h' : Spec.Chain fs1 js' ds' fs') :
    Spec.Chain fs (js ++ js') (ds ++ ds') fs' := by
  induction h with
  | nil fs => exact h'
  | cons h _ ih => exact .cons h (ih h')

theorem run_bind_error {α β : Type} {p : Prog Content α} {f : α → Prog Content β} {fs fs' : FS Content}
    {e : PyErr} (h : (p >>= f).run fs = (.error e, fs')) :
    p.run fs = (.error e, fs') ∨ ∃ a fs1, p.run fs = (.ok a, fs1) ∧ (f a).run fs1 = (.error e, fs') := by
  rw [Prog.run_bind] at h
  rcases hp : p.run fs with ⟨e' | a, fs1⟩
  · rw [hp] at h
    have h1 : (Except.error e', fs1) = (Except.error e, fs') := h
    cases h1
    exact .inl rfl
  · rw [hp] at h
    exact .inr ⟨a, fs1, rfl, h⟩

/-! ## The loops -/

/-- The call of `fit_zpoly` for a file and a configuration. -/
def Spec.JobOf (fitsOpen : Str → Py (List Hdu)) (w : Path) (p : Str × Setup) (j : Job) : Prop :=
  ∃ x, extractEffelsberg fitsOpen p.1 = .ok x ∧ inputOf w p.2 x = .ok j

theorem configLoop_ok {w : Path} {x : Extract} {cs : List Setup} {fs fs' : FS Content} {ds : List Path}
    (h : (configLoop w x cs).run fs = (.ok ds, fs')) :
    ∃ js, List.Forall₂ (fun c j => inputOf w c x = .ok j) cs js ∧ Spec.Chain fs js ds fs' := by
  induction cs generalizing fs ds with
  | nil =>
    rw [configLoop, Prog.run_ret] at h
    cases h
    exact ⟨[], .nil, .nil _⟩
  | cons c cs ih =>
    unfold configLoop fitJob at h
    simp only [Prog.run_bind_ok, Prog.run_lift, Prod.mk.injEq] at h
    obtain ⟨d, fs1, ⟨j, _, ⟨hj, rfl⟩, hr⟩, ds', fs2, h2, h3⟩ := h
    rw [Prog.run_pure] at h3
    cases h3
    obtain ⟨js, h4, h5⟩ := ih h2
    exact ⟨j :: js, .cons hj h4, .cons hr h5⟩

theorem configLoop_error {w : Path} {x : Extract} {cs : List Setup} {fs fs' : FS Content} {e : PyErr}
    (h : (configLoop w x cs).run fs = (.error e, fs')) :
    ∃ pre c post js ds fs1, cs = pre ++ c :: post ∧
      List.Forall₂ (fun c j => inputOf w c x = .ok j) pre js ∧ Spec.Chain fs js ds fs1 ∧
      ((fs' = fs1 ∧ inputOf w c x = .error e) ∨
        ∃ j, inputOf w c x = .ok j ∧ (fitZpoly j.2.2).run fs1 = (.error e, fs')) := by
  induction cs generalizing fs with
  | nil =>
    rw [configLoop, Prog.run_ret] at h
    cases h
  | cons c cs ih =>
    unfold configLoop fitJob at h
    rcases run_bind_error h with h | ⟨d, fs1, h1, h⟩
    · refine ⟨[], c, cs, [], [], fs, rfl, .nil, .nil _, ?_⟩
      rcases run_bind_error h with h | ⟨j, fs1, h1, h⟩
      · rw [Prog.run_lift, Prod.mk.injEq] at h
        exact .inl ⟨h.2.symm, h.1⟩
      · rw [Prog.run_lift, Prod.mk.injEq] at h1
        obtain ⟨h1, rfl⟩ := h1
        exact .inr ⟨j, h1, h⟩
    · simp only [Prog.run_bind_ok, Prog.run_lift, Prod.mk.injEq] at h1
      obtain ⟨j, _, ⟨hj, rfl⟩, hr⟩ := h1
      rcases run_bind_error h with h | ⟨_, _, -, h⟩
      · obtain ⟨pre, c', post, js, ds, fs2, e1, e2, e3, e4⟩ := ih h
        exact ⟨c :: pre, c', post, j :: js, d :: ds, fs2, by rw [e1]; rfl, .cons hj e2, .cons hr e3, e4⟩
      · rw [Prog.run_pure] at h
        cases h

theorem jobOf_map {fitsOpen : Str → Py (List Hdu)} {w : Path} {f : Str} {x : Extract} {cs : List Setup}
    {js : List Job} (hx : extractEffelsberg fitsOpen f = .ok x)
    (h : List.Forall₂ (fun c j => inputOf w c x = .ok j) cs js) :
    List.Forall₂ (Spec.JobOf fitsOpen w) (cs.map fun c => (f, c)) js := by
  rw [List.forall₂_map_left_iff]
  exact h.imp fun c j hj => ⟨x, hx, hj⟩

theorem fileLoop_ok {fitsOpen : Str → Py (List Hdu)} {w : Path} {cs : List Setup} {files : List Str}
    {fs fs' : FS Content} {ds : List Path} (h : (fileLoop fitsOpen w cs files).run fs = (.ok ds, fs')) :
    ∃ js, List.Forall₂ (Spec.JobOf fitsOpen w) (Spec.batchJobs files cs) js ∧ Spec.Chain fs js ds fs' := by
  induction files generalizing fs ds with
  | nil =>
    rw [fileLoop, Prog.run_ret] at h
    cases h
    exact ⟨[], .nil, .nil _⟩
  | cons f files ih =>
    unfold fileLoop computePhaseError at h
    simp only [Prog.run_bind_ok, Prog.run_lift, Prod.mk.injEq] at h
    obtain ⟨ds1, fs1, ⟨x, _, ⟨hx, rfl⟩, hr⟩, ds2, fs2, h2, h3⟩ := h
    rw [Prog.run_pure] at h3
    cases h3
    obtain ⟨js1, h4, h5⟩ := configLoop_ok hr
    obtain ⟨js2, h6, h7⟩ := ih h2
    exact ⟨js1 ++ js2, List.rel_append (jobOf_map hx h4) h6, chain_append h5 h7⟩

/-- Where a batch stopped: the extraction of a file, or the call of `fit_zpoly`. -/
theorem fileLoop_error {fitsOpen : Str → Py (List Hdu)} {w : Path} {cs : List Setup} {files : List Str}
    {fs fs' : FS Content} {e : PyErr} (h : (fileLoop fitsOpen w cs files).run fs = (.error e, fs')) :
    ∃ pre js ds fs1 f, List.Forall₂ (Spec.JobOf fitsOpen w) pre js ∧ Spec.Chain fs js ds fs1 ∧
      ((∃ before after, files = before ++ f :: after ∧ pre = Spec.batchJobs before cs ∧
          extractEffelsberg fitsOpen f = .error e ∧ fs' = fs1) ∨
        ∃ c post, Spec.batchJobs files cs = pre ++ (f, c) :: post ∧
          ((fs' = fs1 ∧ ∃ x, extractEffelsberg fitsOpen f = .ok x ∧ inputOf w c x = .error e) ∨
            ∃ j, Spec.JobOf fitsOpen w (f, c) j ∧ (fitZpoly j.2.2).run fs1 = (.error e, fs'))) := by
  induction files generalizing fs with
  | nil =>
    rw [fileLoop, Prog.run_ret] at h
    cases h
  | cons f files ih =>
    unfold fileLoop computePhaseError at h
    rcases run_bind_error h with h | ⟨ds1, fs1, h1, h⟩
    · rcases run_bind_error h with h | ⟨x, fs1, h1, h⟩
      · rw [Prog.run_lift, Prod.mk.injEq] at h
        exact ⟨[], [], [], fs, f, .nil, .nil _, .inl ⟨[], files, rfl, rfl, h.1, h.2.symm⟩⟩
      · rw [Prog.run_lift, Prod.mk.injEq] at h1
        obtain ⟨hx, rfl⟩ := h1
        obtain ⟨pre, c, post, js, ds, fs2, e1, e2, e3, e4⟩ := configLoop_error h
        refine ⟨pre.map fun c => (f, c), js, ds, fs2, f, jobOf_map hx e2, e3,
          .inr ⟨c, (post.map fun c => (f, c)) ++ Spec.batchJobs files cs, ?_, ?_⟩⟩
        · simp [Spec.batchJobs, e1]
        · rcases e4 with ⟨e4, e5⟩ | ⟨j, e4, e5⟩
          · exact .inl ⟨e4, x, hx, e5⟩
          · exact .inr ⟨j, ⟨x, hx, e4⟩, e5⟩
    · simp only [Prog.run_bind_ok, Prog.run_lift, Prod.mk.injEq] at h1
      obtain ⟨x, _, ⟨hx, rfl⟩, hr⟩ := h1
      obtain ⟨js1, h4, h5⟩ := configLoop_ok hr
      rcases run_bind_error h with h | ⟨_, _, -, h⟩
      · obtain ⟨pre, js, ds, fs2, g, e1, e2, e3⟩ := ih h
        refine ⟨(cs.map fun c => (f, c)) ++ pre, js1 ++ js, ds1 ++ ds, fs2, g,
          List.rel_append (jobOf_map hx h4) e1, chain_append h5 e2, ?_⟩
        rcases e3 with ⟨b, a, e3, e4, e5⟩ | ⟨c, post, e3, e4⟩
        · exact .inl ⟨f :: b, a, by rw [e3]; rfl, by rw [e4]; rfl, e5⟩
        · refine .inr ⟨c, post, ?_, e4⟩
          show (cs.map fun c => (f, c)) ++ Spec.batchJobs files cs = _
          rw [e3, List.append_assoc]
      · rw [Prog.run_pure] at h
        cases h

/-! ## What is stored -/

theorem stem_eq {p dir name : Str} (h : Spec.FitsPath p dir name) : Spec.stem p = name := by
  have h1 : ∀ c ∈ (name ++ ".fits".toList).reverse, (decide (c ≠ '/')) = true := by
    intro c hc
    rw [List.mem_reverse, List.mem_append] at hc
    rw [decide_eq_true_eq]
    rintro rfl
    rcases hc with hc | hc
    · exact h.slash hc
    · exact absurd hc (by decide)
  have h2 : dir.reverse.takeWhile (fun c => decide (c ≠ '/')) = [] := by
    rcases h.dir with e | ⟨d, e⟩
    · simp [e]
    · simp [e]
  unfold Spec.stem
  rw [h.eq, List.append_assoc, List.reverse_append, List.takeWhile_append_of_pos h1, h2, List.append_nil]
  simp

theorem job_spec {fitsOpen : Str → Py (List Hdu)} {w : Path} {p : Str × Setup} {j : Job}
    (h : Spec.JobOf fitsOpen w p j) : j.2.2.workDir = w ∧ j.2.2.name = Spec.stem p.1 := by
  obtain ⟨x, hx, h⟩ := h
  obtain ⟨dir, hp, -⟩ := C48_name fitsOpen p.1 x (.inr hx)
  rw [stem_eq hp]
  unfold inputOf at h
  dsimp only at h
  split at h
  · split_ifs at h
    cases h
    exact ⟨rfl, rfl⟩
  · cases h

/-- What a fit stores about the observation: the header of the FITS file, the defocus and the three maps of
the HDUs 3, 1, 2, and the configuration. -/
structure Spec.ObsStored (fitsOpen : Str → Py (List Hdu)) (fs' : FS Content) (f : Str) (c : Setup) (d : Path)
    (h0 h1 h2 h3 : Hdu) (i : Info) (z1 z2 z3 : ℝ) (b1 b2 b3 u1 u2 u3 v1 v2 v3 : List ℝ) : Prop where
  file : ∃ rest, fitsOpen f = .ok (h0 :: h1 :: h2 :: h3 :: rest)
  info : fs' ("pyoof_info.yml".toList :: d) = some (.file (.info i))
  name : i.name = Spec.stem f
  object : Spec.HasKey h0 "OBJECT" (.str i.obsObject)
  date : Spec.HasKey h0 "DATE_OBS" (.str i.obsDate)
  freq : Spec.HasKey h0 "FREQ" (.num i.frequency)
  wavel : i.wavel * i.frequency = 299792458
  meanel : Spec.HasKey h0 "MEANEL" (.num i.meanel)
  config : i.telName = c.telName ∧ i.telOpd = c.opdName ∧ i.pr = c.tel.pr ∧ i.illumination = c.illumName ∧
    i.fftResolution = c.N ∧ i.boxFactor = c.boxFactor
  dz : Spec.HasKey h1 "DZ" (.num z1) ∧ Spec.HasKey h2 "DZ" (.num z2) ∧ Spec.HasKey h3 "DZ" (.num z3) ∧
    i.dz = [z3, z1, z2]
  beam : Spec.HasCol h1 "fnu" b1 ∧ Spec.HasCol h2 "fnu" b2 ∧ Spec.HasCol h3 "fnu" b3 ∧
    fs' ("beam_data.csv".toList :: d) = some (.file (.csv ("Normalized beam ".toList ++ Spec.stem f)
      [b3.map .fin, b1.map .fin, b2.map .fin]))
  u : Spec.HasCol h1 "DX" u1 ∧ Spec.HasCol h2 "DX" u2 ∧ Spec.HasCol h3 "DX" u3 ∧
    fs' ("u_data.csv".toList :: d) = some (.file (.csv ("u vector radians ".toList ++ Spec.stem f)
      [u3.map .fin, u1.map .fin, u2.map .fin]))
  v : Spec.HasCol h1 "DY" v1 ∧ Spec.HasCol h2 "DY" v2 ∧ Spec.HasCol h3 "DY" v3 ∧
    fs' ("v_data.csv".toList :: d) = some (.file (.csv ("v vector radians ".toList ++ Spec.stem f)
      [v3.map .fin, v1.map .fin, v2.map .fin]))
  snr : ∃ s1 s2 s3, c.snr b1 u1 v1 = .ok s1 ∧ c.snr b2 u2 v2 = .ok s2 ∧ c.snr b3 u3 v3 = .ok s3 ∧
    i.snr = [s3, s1, s2]

theorem ofFn_entry (M : ℕ) (l : List ℝ) (h : l.length = M) :
    (List.ofFn fun k : Fin M => Fl.fin (l.getD k 0)) = l.map .fin := by
  subst h
  refine List.ext_getElem (by simp) fun k h1 h2 => ?_
  simp at h1
  simp [h1]

theorem grid_entry (M : ℕ) (l : List (List ℝ)) (rows : List (List Fl)) (h : ∀ r ∈ l, r.length = M)
    (h3 : l.length = 3)
    (hg : Spec.Grid (m := 3) (n := M) (fun i k => Fl.fin (entry l (i, k))) rows) :
    rows = [(l.getD 0 []).map .fin, (l.getD 1 []).map .fin, (l.getD 2 []).map .fin] := by
  obtain ⟨a, b, c, rfl⟩ : ∃ a b c, l = [a, b, c] := by
    match l, h3 with
    | [a, b, c], _ => exact ⟨a, b, c, rfl⟩
  rw [hg, List.ofFn_succ, List.ofFn_succ, List.ofFn_succ, List.ofFn_zero]
  have ha := ofFn_entry M a (h a (by simp))
  have hb := ofFn_entry M b (h b (by simp))
  have hc := ofFn_entry M c (h c (by simp))
  show _ = [a.map Fl.fin, b.map Fl.fin, c.map Fl.fin]
  rw [← ha, ← hb, ← hc]
  rfl

theorem job_stored {fitsOpen : Str → Py (List Hdu)} {w : Path} {f : Str} {c : Setup} {j : Job}
    (hj : Spec.JobOf fitsOpen w (f, c) j) (hn : 1 ≤ c.orderMax) {before after fs' : FS Content} {d : Path}
    (h : (fitZpoly j.2.2).run before = (.ok d, after)) (hd : before d = none)
    (hsame : ∀ q, d <:+ q → fs' q = after q) :
    ∃ h0 h1 h2 h3 i z1 z2 z3 b1 b2 b3 u1 u2 u3 v1 v2 v3,
      Spec.ObsStored fitsOpen fs' f c d h0 h1 h2 h3 i z1 z2 z3 b1 b2 b3 u1 u2 u3 v1 v2 v3 := by
  obtain ⟨x, hx, hj'⟩ := hj
  dsimp only at hx hj'
  obtain ⟨dir, hp, -⟩ := C48_name fitsOpen f x (.inr hx)
  have hstem := stem_eq hp
  obtain ⟨h0, rest, ho, hf, hwl, hm, hobj, hdate, hmaps⟩ := C49_effelsberg fitsOpen f x hx
  unfold inputOf at hj'
  dsimp only at hj'
  split at hj'
  swap
  · cases hj'
  rename_i o t wavel e1 e2 e3
  split_ifs at hj' with hlen
  cases hj'
  dsimp only at h
  obtain ⟨s, beam, u, v, i, g0, g1, g1', g2, g2', g3, g3', g4, k1, k2, k3, k4, k5, k6, k7, k8, k9, k10, k11,
    k12, k13, k14⟩ := C67_observation _ before after d h (.inl hd) hn
  dsimp only at k1 k2 k3 k4 k5 k6 k7 k8 k9 k10 k11 k12 k13 k14 g0 g1 g1' g2 g2' g3 g3'
  obtain ⟨m1, m2, m3, m4, m5⟩ := hmaps
  obtain ⟨H3, l3, z3, B3, U3, V3⟩ := m5 0 3 (by simp)
  obtain ⟨H1, l1, z1, B1, U1, V1⟩ := m5 1 1 (by simp)
  obtain ⟨H2, l2, z2, B2, U2, V2⟩ := m5 2 2 (by simp)
  have hall : ∀ l ∈ x.beam ++ x.u ++ x.v, l.length = (x.beam.getD 0 []).length := by
    intro l hl
    have := List.all_eq_true.1 hlen l hl
    simpa using this
  have gb := grid_entry _ _ _ (fun r hr => hall r (by simp [hr])) m2 g1'
  have gu := grid_entry _ _ _ (fun r hr => hall r (by simp [hr])) m3 g2'
  have gv := grid_entry _ _ _ (fun r hr => hall r (by simp [hr])) m4 g3'
  have hfr : x.freq ≠ 0 := by
    intro h0'
    unfold extractEffelsberg at hx
    by_cases hs : (splitext f).2 ≠ ".fits".toList
    · rw [if_pos hs] at hx; cases hx
    rw [if_neg hs] at hx
    simp only [pyBind_ok] at hx
    obtain ⟨l, hl, h0, hh0, fv, q1, f', q1', m, q3, m', q3', o, q4, d, q5, z, hz, b, hb, u, hu, v, hv, hx⟩ := hx
    cases hx
    replace e3 : Fl.div (.fin lightSpeed) (.fin f') = .fin wavel := e3
    have : f' = 0 := h0'
    simp only [Fl.div] at e3
    rw [if_pos this] at e3
    unfold Fl.infSign at e3
    split_ifs at e3
  obtain ⟨wl, hw1, hw2⟩ := hwl hfr
  rw [e3] at hw1
  cases hw1
  refine ⟨h0, H1, H2, H3, i, _, _, _, _, _, _, _, _, _, _, _, _,
    { file := ?_, info := ?_, name := by rw [k1, hstem], object := ?_, date := ?_, freq := ?_, wavel := ?_,
      meanel := by rw [k11]; exact hm, config := ⟨k2, k3, k4, k10, k12, k13⟩,
      dz := ⟨z1, z2, z3, ?_⟩, beam := ⟨B1, B2, B3, ?_⟩, u := ⟨U1, U2, U3, ?_⟩, v := ⟨V1, V2, V3, ?_⟩,
      snr := ⟨s 1, s 2, s 0, g0 1, g0 2, g0 0, k14⟩ }⟩
  · match rest, l1, l2, l3 with
    | [], l1, _, _ => cases l1
    | [_], _, l2, _ => cases l2
    | [_, _], _, _, l3 => cases l3
    | a :: b :: c :: r, l1, l2, l3 =>
      cases l1; cases l2; cases l3
      exact ⟨r, ho⟩
  · rw [hsame _ (List.suffix_cons _ _), g4]
  · rw [k5, ← e1]; exact hobj
  · rw [k6, ← e2]; exact hdate
  · rw [k9]; exact hf
  · rw [k8, k9]; exact hw2
  · rw [k7]; rfl
  · rw [hsame _ (List.suffix_cons _ _), g1, gb, hstem]
  · rw [hsame _ (List.suffix_cons _ _), g2, gu, hstem]
  · rw [hsame _ (List.suffix_cons _ _), g3, gv, hstem]

/-! ## The theorems -/

/-- The results of one fit of a batch: below `d` is what this fit alone has left there, and the number of
the directory is the one that was free after as many others as there are earlier fits of the same name. -/
structure Spec.Done (fitsOpen : Str → Py (List Hdu)) (w : Path) (fs fs' : FS Content)
    (earlier : List (Str × Setup)) (p : Str × Setup) (d : Path) : Prop where
  alone : ∃ j before after, Spec.JobOf fitsOpen w p j ∧ (fitZpoly j.2.2).run before = (.ok d, after) ∧
    before d = none ∧ ∀ q, d <:+ q → fs' q = after q
  number : ∃ i ≤ 100, d = Spec.runDir w (Spec.stem p.1) i ∧ fs d = none ∧
    Spec.freeBelow fs w (Spec.stem p.1) i = earlier.countP fun p' => Spec.stem p'.1 = Spec.stem p.1

theorem room_of {fitsOpen : Str → Py (List Hdu)} {w : Path} {ps : List (Str × Setup)}
    {js : List Job} (h : List.Forall₂ (Spec.JobOf fitsOpen w) ps js) (n : Str) :
    js.countP (fun j => j.2.2.name = n) = ps.countP (fun p => Spec.stem p.1 = n) := by
  induction h with
  | nil => rfl
  | cons h _ ih => rw [List.countP_cons, List.countP_cons, ih, (job_spec h).2]

theorem forall₂_get {α β : Type} {R : α → β → Prop} {l : List α} {l' : List β} (h : List.Forall₂ R l l')
    {k : ℕ} {a : α} (hk : l[k]? = some a) : ∃ b, l'[k]? = some b ∧ R a b := by
  induction h generalizing k with
  | nil => simp at hk
  | cons h _ ih =>
    cases k with
    | zero =>
      rw [List.getElem?_cons_zero, Option.some.injEq] at hk
      subst hk
      exact ⟨_, rfl, h⟩
    | succ k => exact ih (by simpa using hk)

theorem forall₂_take' {α β : Type} {R : α → β → Prop} {l : List α} {l' : List β} (h : List.Forall₂ R l l')
    (k : ℕ) : List.Forall₂ R (l.take k) (l'.take k) := by
  induction h generalizing k with
  | nil => simp
  | cons h _ ih =>
    cases k with
    | zero => exact .nil
    | succ k => exact .cons h (ih k)

/-- The chain of the fits of a batch. -/
theorem chain_done {fitsOpen : Str → Py (List Hdu)} {w : Path} {fs fs1 : FS Content}
    {ps : List (Str × Setup)} {js : List Job} {ds : List Path}
    (hj : List.Forall₂ (Spec.JobOf fitsOpen w) ps js) (hc : Spec.Chain fs js ds fs1) (hwf : WF fs)
    (hroom : ∀ n, (ps.countP fun p => Spec.stem p.1 = n) ≤ Spec.freeBelow fs w n 101) :
    WF fs1 ∧ ds.length = ps.length ∧ (∀ q, fs q ≠ none → fs1 q = fs q) ∧
    (∀ q, ¬ q <:+ "pyoof_out".toList :: w → (∀ d ∈ ds, ¬ d <:+ q) → fs1 q = fs q) ∧
    (∀ d ∈ ds, fs1 d ≠ none ∧ d.length = w.length + 2) ∧
    ∀ k p, ps[k]? = some p → ∃ d, ds[k]? = some d ∧ Spec.Done fitsOpen w fs fs1 (ps.take k) p d := by
  have hw : ∀ j ∈ js, j.2.2.workDir = w := by
    intro j hj'
    obtain ⟨k, hk⟩ := List.mem_iff_getElem?.1 hj'
    obtain ⟨p, -, hp⟩ := forall₂_get hj.flip hk
    exact (job_spec hp).1
  obtain ⟨h1, h2, h3, h4, h5, h6⟩ := chain_all hc w hw hwf fun n => by
    rw [room_of hj]; exact hroom n
  refine ⟨h1, by rw [h3, hj.length_eq], h2, h4, fun d hd => (h5 d hd).2, fun k p hk => ?_⟩
  obtain ⟨j, hjk, hp⟩ := forall₂_get hj hk
  obtain ⟨d, before, after, g1, g2, g3, g4, i, hi, g5, g6, g7⟩ := h6 k j hjk
  rw [(job_spec hp).2] at g5 g7
  refine ⟨d, g1, ⟨j, before, after, hp, g2, g3, g4⟩, i, hi, g5, g6, ?_⟩
  rw [g7, room_of (forall₂_take' hj k)]

/-- **C91.**  A batch that completes has made one directory for each file and each configuration, in this
order; below each of them is what the fit alone has left there; nothing that was there before is changed and
nothing is made elsewhere. -/
theorem C91_complete (fitsOpen : Str → Py (List Hdu)) (w : Path) (cs : List Setup) (files : List Str)
    (fs fs' : FS Content) (ds : List Path) (h : (fileLoop fitsOpen w cs files).run fs = (.ok ds, fs'))
    (hwf : WF fs)
    (hroom : ∀ n, ((Spec.batchJobs files cs).countP fun p => Spec.stem p.1 = n) ≤ Spec.freeBelow fs w n 101) :
    ds.length = (Spec.batchJobs files cs).length ∧
    (∀ k p, (Spec.batchJobs files cs)[k]? = some p → ∃ d, ds[k]? = some d ∧
      Spec.Done fitsOpen w fs fs' ((Spec.batchJobs files cs).take k) p d) ∧
    (∀ q, fs q ≠ none → fs' q = fs q) ∧
    ∀ q, ¬ q <:+ "pyoof_out".toList :: w → (∀ d ∈ ds, ¬ d <:+ q) → fs' q = fs q := by
  obtain ⟨js, hj, hc⟩ := fileLoop_ok h
  obtain ⟨-, h2, h3, h4, -, h6⟩ := chain_done hj hc hwf hroom
  exact ⟨h2, h6, h3, h4⟩

/-- **C91.**  The observation that a fit of a batch has stored is the one in its FITS file, and the
configuration is its own. -/
theorem C91_observation (fitsOpen : Str → Py (List Hdu)) (w : Path) (fs fs' : FS Content)
    (earlier : List (Str × Setup)) (f : Str) (c : Setup) (d : Path) (hn : 1 ≤ c.orderMax)
    (h : Spec.Done fitsOpen w fs fs' earlier (f, c) d) :
    ∃ h0 h1 h2 h3 i z1 z2 z3 b1 b2 b3 u1 u2 u3 v1 v2 v3,
      Spec.ObsStored fitsOpen fs' f c d h0 h1 h2 h3 i z1 z2 z3 b1 b2 b3 u1 u2 u3 v1 v2 v3 := by
  obtain ⟨j, before, after, hj, hr, hd, hs⟩ := h.alone
  exact job_stored hj hn hr hd hs

/-- **C91.**  Where there were no results of this name the numbers are 000, 001, … in the order of the
fits. -/
theorem C91_numbers (fitsOpen : Str → Py (List Hdu)) (w : Path) (fs fs' : FS Content)
    (earlier : List (Str × Setup)) (p : Str × Setup) (d : Path)
    (h : Spec.Done fitsOpen w fs fs' earlier p d)
    (hnew : ∀ i ≤ 100, fs (Spec.runDir w (Spec.stem p.1) i) = none) :
    d = Spec.runDir w (Spec.stem p.1) (earlier.countP fun p' => Spec.stem p'.1 = Spec.stem p.1) := by
  classical
  obtain ⟨i, hi, hd, -, hc⟩ := h.number
  rw [hd, ← hc]
  congr 1
  unfold Spec.freeBelow
  rw [Finset.filter_true_of_mem, Finset.card_range]
  intro j hj
  exact hnew j (by have := Finset.mem_range.1 hj; omega)

/-- **C91.**  A batch that stops with an exception stops at one file: this exception is that of its
extraction or of its fit, the fits before it have their complete results, nothing that was there before is
changed, and of the names of the other files nothing is made. -/
theorem C91_stopped (fitsOpen : Str → Py (List Hdu)) (w : Path) (cs : List Setup) (files : List Str)
    (fs fs' : FS Content) (e : PyErr) (h : (fileLoop fitsOpen w cs files).run fs = (.error e, fs'))
    (hwf : WF fs)
    (hroom : ∀ n, ((Spec.batchJobs files cs).countP fun p => Spec.stem p.1 = n) ≤ Spec.freeBelow fs w n 101) :
    ∃ (pre post : List (Str × Setup)) (ds : List Path) (f : Str), f ∈ files ∧
      Spec.batchJobs files cs = pre ++ post ∧ (∀ p ∈ post.head?, p.1 = f) ∧ ds.length = pre.length ∧
      (∀ k p, pre[k]? = some p → ∃ d, ds[k]? = some d ∧ Spec.Done fitsOpen w fs fs' (pre.take k) p d) ∧
      (∀ q, fs q ≠ none → fs' q = fs q) ∧
      (∀ q, ¬ q <:+ "pyoof_out".toList :: w → (∀ d ∈ ds, ¬ d <:+ q) →
        (∀ i ≤ 100, ¬ Spec.runDir w (Spec.stem f) i <:+ q) → fs' q = fs q) ∧
      (extractEffelsberg fitsOpen f = .error e ∨
        ∃ c ∈ cs, (∃ x, extractEffelsberg fitsOpen f = .ok x ∧ inputOf w c x = .error e) ∨
          ∃ j mid, Spec.JobOf fitsOpen w (f, c) j ∧ (fitZpoly j.2.2).run mid = (.error e, fs')) := by
  obtain ⟨pre, js, ds, fs1, f, hj, hc, hcase⟩ := fileLoop_error h
  obtain ⟨post, hpost, hhead, hf⟩ : ∃ post, Spec.batchJobs files cs = pre ++ post ∧
      (∀ p ∈ post.head?, p.1 = f) ∧ f ∈ files := by
    rcases hcase with ⟨b, a, e1, e2, -⟩ | ⟨c, post, e1, -⟩
    · refine ⟨(cs.map fun c => (f, c)) ++ Spec.batchJobs a cs, ?_, ?_, by rw [e1]; simp⟩
      · rw [e1, e2]; simp [Spec.batchJobs]
      · intro p hp
        cases cs with
        | nil =>
          rw [show Spec.batchJobs a [] = [] by induction a <;> simp_all [Spec.batchJobs]] at hp
          simp at hp
        | cons c cs =>
          simp at hp
          rw [← hp]
    · refine ⟨(f, c) :: post, e1, ?_, ?_⟩
      · intro p hp
        simp at hp
        rw [← hp]
      · have : (f, c) ∈ Spec.batchJobs files cs := by rw [e1]; simp
        simp only [Spec.batchJobs, List.mem_flatMap, List.mem_map, Prod.mk.injEq] at this
        obtain ⟨a, ha, b, -, rfl, -⟩ := this
        exact ha
  have hroom1 : ∀ n, (pre.countP fun p => Spec.stem p.1 = n) ≤ Spec.freeBelow fs w n 101 := by
    intro n
    refine le_trans ?_ (hroom n)
    rw [hpost, List.countP_append]
    omega
  obtain ⟨hwf1, h2, h3, h4, h5, h6⟩ := chain_done hj hc hwf hroom1
  -- from the state after the last complete fit to the end
  have hlast : (fs' = fs1 ∧ (extractEffelsberg fitsOpen f = .error e ∨
        ∃ c ∈ cs, (∃ x, extractEffelsberg fitsOpen f = .ok x ∧ inputOf w c x = .error e))) ∨
      ∃ c ∈ cs, ∃ post', Spec.batchJobs files cs = pre ++ (f, c) :: post' ∧
        ∃ j, Spec.JobOf fitsOpen w (f, c) j ∧ (fitZpoly j.2.2).run fs1 = (.error e, fs') := by
    have hmem : ∀ {c post'}, Spec.batchJobs files cs = pre ++ (f, c) :: post' → c ∈ cs := by
      intro c post' e1
      have : (f, c) ∈ Spec.batchJobs files cs := by rw [e1]; simp
      simp only [Spec.batchJobs, List.mem_flatMap, List.mem_map, Prod.mk.injEq] at this
      obtain ⟨a, ha, b, hb, -, rfl⟩ := this
      exact hb
    rcases hcase with ⟨b, a, -, -, e3, e4⟩ | ⟨c, post', e1, ⟨e2, e3⟩ | e2⟩
    · exact .inl ⟨e4, .inl e3⟩
    · exact .inl ⟨e2, .inr ⟨c, hmem e1, e3⟩⟩
    · exact .inr ⟨c, hmem e1, post', e1, e2⟩
  have hwhy : extractEffelsberg fitsOpen f = .error e ∨
        ∃ c ∈ cs, (∃ x, extractEffelsberg fitsOpen f = .ok x ∧ inputOf w c x = .error e) ∨
          ∃ j mid, Spec.JobOf fitsOpen w (f, c) j ∧ (fitZpoly j.2.2).run mid = (.error e, fs') := by
    rcases hlast with ⟨-, h | ⟨c, hc, h⟩⟩ | ⟨c, hc, -, -, j, hj, h⟩
    · exact .inl h
    · exact .inr ⟨c, hc, .inl h⟩
    · exact .inr ⟨c, hc, .inr ⟨j, fs1, hj, h⟩⟩
  have hfin : (∀ q, fs1 q ≠ none → fs' q = fs1 q) ∧ (∀ d ∈ ds, ∀ q, d <:+ q → fs' q = fs1 q) ∧
      ∀ q, ¬ q <:+ "pyoof_out".toList :: w → (∀ i ≤ 100, ¬ Spec.runDir w (Spec.stem f) i <:+ q) →
        fs' q = fs1 q := by
    rcases hlast with ⟨e1, -⟩ | ⟨c, -, post', e1, j, hjob, hr⟩
    · subst e1
      exact ⟨fun _ _ => rfl, fun _ _ _ _ => rfl, fun _ _ _ => rfl⟩
    · obtain ⟨hjw, hjn⟩ := job_spec hjob
      -- a number is left
      have hroom2 : Spec.Room fs w (js ++ [j]) := by
        intro n
        rw [room_of (fitsOpen := fitsOpen) (w := w) (List.rel_append hj (.cons hjob .nil)) n]
        refine le_trans ?_ (hroom n)
        · rw [e1]
          rw [show pre ++ (f, c) :: post' = (pre ++ [(f, c)]) ++ post' by simp, List.countP_append (l₂ := post')]
          exact Nat.le_add_right _ _
      have hfree : ∃ i ≤ 100, fs1 (Spec.runDir w j.2.2.name i) = none := by
        have hws : ∀ j ∈ js, j.2.2.workDir = w := by
          intro j hj'
          obtain ⟨k, hk⟩ := List.mem_iff_getElem?.1 hj'
          obtain ⟨p, -, hp⟩ := forall₂_get hj.flip hk
          exact (job_spec hp).1
        exact chain_free hc hws hroom2
      subst hjw
      obtain ⟨i, hi, hfi, hmin⟩ := first_free hfree
      obtain ⟨-, hreg⟩ := run_region j.2.2 hr i hi hfi hmin
      refine ⟨run_kept j.2.2 hwf1 hr hfree, fun d hd q hq => ?_, fun q hq hqi => ?_⟩
      · obtain ⟨hpres, hlen⟩ := h5 d hd
        refine hreg q (fun hs => ?_) fun hs => ?_
        · have := (hq.trans hs).length_le
          rw [hlen] at this
          simp at this
        · have hl : (Spec.runDir j.2.2.workDir j.2.2.name i).length = d.length := by
            rw [hlen]; simp [Spec.runDir]
          have : Spec.runDir j.2.2.workDir j.2.2.name i = d := by
            rcases List.suffix_or_suffix_of_suffix hs hq with h' | h'
            · exact h'.eq_of_length hl
            · exact (h'.eq_of_length hl.symm).symm
          rw [this] at hfi
          exact hpres hfi
      · exact hreg q hq (by rw [hjn]; exact hqi i hi)
  refine ⟨pre, post, ds, f, hf, hpost, hhead, h2, fun k p hk => ?_, fun q hq => ?_, fun q hq hqd hqf => ?_, hwhy⟩
  · obtain ⟨d, hdk, hdone⟩ := h6 k p hk
    refine ⟨d, hdk, ?_, hdone.number⟩
    obtain ⟨j, before, after, g1, g2, g3, g4⟩ := hdone.alone
    exact ⟨j, before, after, g1, g2, g3, fun q hq => by
      rw [hfin.2.1 d (List.mem_of_getElem? hdk) q hq, g4 q hq]⟩
  · rw [hfin.1 q (by rw [h3 q hq]; exact hq), h3 q hq]
  · rw [hfin.2.2 q hq hqf, h4 q hq hqd]

/-- **C91.**  A batch completes when each file has an observation and each fit can be done. -/
theorem C91_completes (fitsOpen : Str → Py (List Hdu)) (w : Path) (cs : List Setup) (files : List Str)
    (fs : FS Content) (hwf : WF fs) (hwd : isDir fs w)
    (hout : fs ("pyoof_out".toList :: w) = none ∨ isDir fs ("pyoof_out".toList :: w))
    (hroom : ∀ n, ((Spec.batchJobs files cs).countP fun p => Spec.stem p.1 = n) ≤ Spec.freeBelow fs w n 101)
    (hx : ∀ f ∈ files, ∃ x, extractEffelsberg fitsOpen f = .ok x ∧ ∀ c ∈ cs, ∃ j S, inputOf w c x = .ok j ∧
      Spec.Runs j.2.2 S) :
    ∃ ds fs', (fileLoop fitsOpen w cs files).run fs = (.ok ds, fs') := by
  rcases hr : (fileLoop fitsOpen w cs files).run fs with ⟨e | ds, fs'⟩
  swap
  · exact ⟨ds, fs', rfl⟩
  exfalso
  obtain ⟨pre, js, ds, fs1, f, hj, hc, hcase⟩ := fileLoop_error hr
  rcases hcase with ⟨b, a, e1, -, e2, -⟩ | ⟨c, post, e1, e2⟩
  · obtain ⟨x, h1, -⟩ := hx f (by rw [e1]; simp)
    rw [h1] at e2
    cases e2
  · have : (f, c) ∈ Spec.batchJobs files cs := by rw [e1]; simp
    simp only [Spec.batchJobs, List.mem_flatMap, List.mem_map, Prod.mk.injEq] at this
    obtain ⟨_, hf, _, hcm, rfl, rfl⟩ := this
    obtain ⟨x, h1, h2⟩ := hx _ hf
    obtain ⟨j, S, h3, h4⟩ := h2 _ hcm
    rcases e2 with ⟨-, x', h1', e3⟩ | ⟨j', ⟨x', h1', h3'⟩, e3⟩
    · rw [h1] at h1'
      cases h1'
      rw [h3] at e3
      cases e3
    · dsimp only at h1' h3'
      rw [h1] at h1'
      cases h1'
      rw [h3] at h3'
      cases h3'
      have hjob : Spec.JobOf fitsOpen w (_, _) j := ⟨x, h1, h3⟩
      have hws : ∀ j ∈ js, j.2.2.workDir = w := by
        intro j hj'
        obtain ⟨k, hk⟩ := List.mem_iff_getElem?.1 hj'
        obtain ⟨p, -, hp⟩ := forall₂_get hj.flip hk
        exact (job_spec hp).1
      have hroom2 : Spec.Room fs w (js ++ [j]) := by
        intro n
        rw [room_of (fitsOpen := fitsOpen) (w := w) (List.rel_append hj (.cons hjob .nil)) n]
        refine le_trans ?_ (hroom n)
        rw [e1, List.append_cons, List.countP_append (l₂ := post)]
        exact Nat.le_add_right _ _
      have hfree := chain_free hc hws hroom2
      have hkeep : WF fs1 ∧ isDir fs1 w ∧
          (fs1 ("pyoof_out".toList :: w) = none ∨ isDir fs1 ("pyoof_out".toList :: w)) := by
        clear hroom2 hfree hroom hj e1 e3 hr
        induction hc with
        | nil fs => exact ⟨hwf, hwd, hout⟩
        | @cons fs fs1 fs' i is d ds h hs ih =>
          have hiw := hws i List.mem_cons_self
          have hwf1 : WF fs1 := by
            have := run_WF (p := fitZpoly i.2.2) hwf
            rw [h] at this
            exact this
          have hdir : ∀ q, isDir fs q → isDir fs1 q := fun q hq => run_isDir h hq
          refine ih hwf1 (hdir _ hwd) ?_ (fun j hj => hws j (List.mem_cons_of_mem _ hj))
          right
          rcases hout with hout | hout
          swap
          · exact hdir _ hout
          rcases C45_directory _ _ _ _ h with ⟨m, -, hd, hdn, -⟩ | ⟨-, hall⟩
          · have hp := Option.isSome_iff_ne_none.2 (run_present _ h hdn)
            rw [hd, hiw] at hp
            exact hwf1 _ _ hp
          · have hp := Option.isSome_iff_ne_none.2 (hall 0 (by omega))
            rw [hiw] at hp
            have := hwf _ _ hp
            rw [isDir_iff, hout] at this
            cases this
      obtain ⟨k1, k2, k3⟩ := hkeep
      have hjw := (job_spec hjob).1
      subst hjw
      obtain ⟨d, fs2, hd⟩ := C40_completes j.2.2 S h4.feasible h4.inBounds h4.solves h4.enough h4.snr fs1 k1 k2
        k3 (.inl hfree)
      rw [e3] at hd
      cases hd

/-! ## The hypotheses are met -/

/-- An HDU with a map of five points. -/
def demoHdu (z : ℝ) : Hdu :=
  ⟨[("DZ".toList, .num z)], [("fnu".toList, [z, 1, 2, 3, 4]), ("DX".toList, [0, 1, 2, 3, 4]),
    ("DY".toList, [0, 1, 4, 9, 16])]⟩

/-- Two files of the same name in two directories, observed at different elevations. -/
def demoOpen (p : Str) : Py (List Hdu) :=
  .ok [⟨[("FREQ".toList, .num 34e9), ("MEANEL".toList, .num (if p = "a/obs.fits".toList then 32 else 70)),
    ("OBJECT".toList, .str "3C84".toList), ("DATE_OBS".toList, .str "2020".toList)], []⟩,
    demoHdu 0, demoHdu 0.022, demoHdu (-0.022)]

noncomputable def demoSetup (tel : Str) : Setup where
  N := 64
  orderMax := 2
  illum := fun _ _ _ _ => .ok fun _ => 1
  illumName := "one".toList
  tel := ⟨fun _ _ => .ok fun _ => 1, fun _ _ _ => .ok fun _ => 0, 50⟩
  opdName := "none".toList
  telName := tel
  boxFactor := 5
  fitPrevious := true
  cfg := defaultConfig
  makePlots := true
  snr := fun _ _ _ => .ok (.fin 10)
  solver := fun M => lazySolver (3 * M)

/-- What is read from one of the files. -/
noncomputable def demoExtract (p pth : Str) : Extract :=
  ⟨"obs".toList, pth, .str "3C84".toList, .str "2020".toList, 34e9, .fin (lightSpeed / 34e9),
    [-0.022, 0, 0.022], if p = "a/obs.fits".toList then 32 else 70,
    [[-0.022, 1, 2, 3, 4], [0, 1, 2, 3, 4], [0.022, 1, 2, 3, 4]],
    [[0, 1, 2, 3, 4], [0, 1, 2, 3, 4], [0, 1, 2, 3, 4]],
    [[0, 1, 4, 9, 16], [0, 1, 4, 9, 16], [0, 1, 4, 9, 16]]⟩

theorem demoWavel : Fl.div (.fin lightSpeed) (.fin 34e9) = .fin (lightSpeed / 34e9) := by
  simp only [Fl.div]
  exact if_neg (by norm_num)

/-- The call of `fit_zpoly` for one of the files. -/
noncomputable def demoJob (t p pth : Str) : Job := ⟨64, 5,
  { name := "obs".toList, obsObject := "3C84".toList, obsDate := "2020".toList, freq := 34e9,
    wavel := lightSpeed / 34e9, dz := fun i => (demoExtract p pth).dz.getD i 0,
    meanel := (demoExtract p pth).meanel, beam := fun q => .fin (entry (demoExtract p pth).beam q),
    u := entry (demoExtract p pth).u, v := entry (demoExtract p pth).v, orderMax := 2,
    illum := (demoSetup t).illum, illumName := (demoSetup t).illumName, tel := (demoSetup t).tel,
    opdName := (demoSetup t).opdName, telName := t, boxFactor := 5, fitPrevious := true, cfg := defaultConfig,
    makePlots := true, workDir := ["home".toList], snr := fun _ => .ok (.fin 10), solver := lazySolver 15 }⟩

theorem demoJob_runs (t p pth : Str) : Spec.Runs (demoJob t p pth).2.2 [1, 2, 3, 4, 5] where
  feasible := default_feasible
  inBounds := lazy_inBounds 15
  solves f x0 lb ub hp hl := by
    refine ⟨_, rfl, fun v hv => ?_, fun h => ?_⟩
    · funext j
      have := congrFun hv ⟨j.val, by have := j.isLt; simp only [demoJob] at hl ⊢; omega⟩
      simpa [Matrix.mulVec, dotProduct, Fin.val_inj] using this
    · have := congrFun h ⟨0, by simp [demoJob]⟩
      simp at this
  enough := by simp [Spec.nK, demoJob]
  snr _ := ⟨_, rfl⟩

/-- Two files and two configurations: four directories, and what they hold. -/
example : ∃ ds fs', (fileLoop demoOpen ["home".toList] [demoSetup "x".toList, demoSetup "y".toList]
      ["a/obs.fits".toList, "b/obs.fits".toList]).run sampleFs = (.ok ds, fs') ∧
    ds = [Spec.runDir ["home".toList] "obs".toList 0, Spec.runDir ["home".toList] "obs".toList 1,
      Spec.runDir ["home".toList] "obs".toList 2, Spec.runDir ["home".toList] "obs".toList 3] ∧
    ∃ i, fs' ("pyoof_info.yml".toList :: Spec.runDir ["home".toList] "obs".toList 3) = some (.file (.info i)) ∧
      i.telName = "y".toList ∧ i.meanel = 70 ∧ i.dz = [-0.022, 0, 0.022] := by
  have hs1 : Spec.stem "a/obs.fits".toList = "obs".toList := by decide
  have hs2 : Spec.stem "b/obs.fits".toList = "obs".toList := by decide
  have hnew : ∀ n, ∀ i ≤ 100, sampleFs (Spec.runDir ["home".toList] n i) = none := by
    intro n i _
    simp [Spec.runDir, sampleFs]
  have hroom : ∀ n, ((Spec.batchJobs ["a/obs.fits".toList, "b/obs.fits".toList]
      [demoSetup "x".toList, demoSetup "y".toList]).countP fun p => Spec.stem p.1 = n) ≤
      Spec.freeBelow sampleFs ["home".toList] n 101 := by
    intro n
    refine (List.countP_le_length).trans ?_
    unfold Spec.freeBelow
    rw [Finset.filter_true_of_mem fun j hj => hnew n j (by have := Finset.mem_range.1 hj; omega),
      Finset.card_range]
    simp [Spec.batchJobs]
  obtain ⟨ds, fs', hrun⟩ := C91_completes demoOpen ["home".toList]
    [demoSetup "x".toList, demoSetup "y".toList] ["a/obs.fits".toList, "b/obs.fits".toList] sampleFs sampleFs_wf
    (by simp [isDir, sampleFs]) (.inl (by simp [sampleFs])) hroom (by
      intro f hf
      have hx : ∃ pth, extractEffelsberg demoOpen f = .ok (demoExtract f pth) := by
        simp only [List.mem_cons, List.not_mem_nil, or_false] at hf
        rcases hf with rfl | rfl <;> exact ⟨_, by unfold demoExtract; rw [← demoWavel]; rfl⟩
      obtain ⟨pth, hx⟩ := hx
      refine ⟨_, hx, fun c hc => ?_⟩
      simp only [List.mem_cons, List.not_mem_nil, or_false] at hc
      rcases hc with rfl | rfl <;> exact ⟨demoJob _ f pth, _, rfl, demoJob_runs _ _ _⟩)
  obtain ⟨h1, h2, -, -⟩ := C91_complete _ _ _ _ _ _ _ hrun sampleFs_wf hroom
  obtain ⟨d0, g0, e0⟩ := h2 0 _ rfl
  obtain ⟨d1, g1, e1⟩ := h2 1 _ rfl
  obtain ⟨d2, g2, e2⟩ := h2 2 _ rfl
  obtain ⟨d3, g3, e3⟩ := h2 3 _ rfl
  have n0 := C91_numbers _ _ _ _ _ _ _ e0 (hnew _)
  have n1 := C91_numbers _ _ _ _ _ _ _ e1 (hnew _)
  have n2 := C91_numbers _ _ _ _ _ _ _ e2 (hnew _)
  have n3 := C91_numbers _ _ _ _ _ _ _ e3 (hnew _)
  have hds : ds = [d0, d1, d2, d3] := by
    match ds, h1, g0, g1, g2, g3 with
    | [a, b, c, d], _, g0, g1, g2, g3 => cases g0; cases g1; cases g2; cases g3; rfl
  simp only [Spec.batchJobs, List.flatMap_cons, List.flatMap_nil, List.map_cons, List.map_nil, List.append_nil,
    List.cons_append, List.nil_append, List.take_succ_cons, List.take_zero, List.countP_cons, List.countP_nil,
    hs1, hs2, decide_true, if_true] at n0 n1 n2 n3
  refine ⟨ds, fs', hrun, by rw [hds, n0, n1, n2, n3], ?_⟩
  obtain ⟨H0, H1, H2, H3, i, z1, z2, z3, b1, b2, b3, u1, u2, u3, v1, v2, v3, st⟩ :=
    C91_observation _ _ _ _ _ _ _ _ (by simp [demoSetup]) e3
  obtain ⟨r, hr⟩ := st.file
  have hr' := Except.ok.inj hr
  simp only [List.cons.injEq] at hr'
  obtain ⟨r0, r1, r2, r3, -⟩ := hr'
  have hm := st.meanel
  have hz := st.dz
  rw [← r0] at hm
  rw [← r1, ← r2, ← r3] at hz
  obtain ⟨k1, k2, k3, k4⟩ := hz
  refine ⟨i, by rw [← n3]; exact st.info, st.config.1, ?_, ?_⟩
  · have hne : ¬ ("b/obs.fits".toList = "a/obs.fits".toList) := by decide
    unfold Spec.HasKey at hm
    rw [if_neg hne] at hm
    have := HVal.num.inj (Option.some.inj hm)
    exact this.symm
  · have a1 := HVal.num.inj (Option.some.inj k1)
    have a2 := HVal.num.inj (Option.some.inj k2)
    have a3 := HVal.num.inj (Option.some.inj k3)
    rw [k4, ← a1, ← a2, ← a3]

/-- The second file is no FITS file: the batch stops there. -/
example : ∃ fs', (fileLoop demoOpen ["home".toList] [demoSetup "x".toList]
      ["a/obs.fits".toList, "a/notes.txt".toList, "b/obs.fits".toList]).run sampleFs =
      (.error .valueError, fs') ∧
    fs' (Spec.runDir ["home".toList] "obs".toList 0) ≠ none ∧
    fs' (Spec.runDir ["home".toList] "obs".toList 1) = none := by
  have hx : extractEffelsberg demoOpen "a/obs.fits".toList = .ok (demoExtract "a/obs.fits".toList "a".toList) := by
    unfold demoExtract; rw [← demoWavel]; rfl
  have hc := demoJob_runs "x".toList "a/obs.fits".toList "a".toList
  obtain ⟨d, fs', hd⟩ := C40_completes _ _ hc.feasible hc.inBounds hc.solves hc.enough hc.snr sampleFs sampleFs_wf
    (by simp [isDir, sampleFs, demoJob]) (.inl (by simp [sampleFs, demoJob, Path.join]))
    (.inl ⟨0, by omega, by simp [Spec.runDir, sampleFs]⟩)
  have hnew : ∀ i, sampleFs (Spec.runDir ["home".toList] "obs".toList i) = none := by
    intro i
    simp [Spec.runDir, sampleFs]
  have hrun : (computePhaseError demoOpen ["home".toList] [demoSetup "x".toList] "a/obs.fits".toList).run sampleFs =
      (.ok [d], fs') := by
    unfold computePhaseError configLoop configLoop fitJob
    simp only [Prog.run_bind_ok, Prog.run_lift, Prod.mk.injEq]
    refine ⟨_, _, ⟨hx, rfl⟩, d, fs', ⟨demoJob "x".toList "a/obs.fits".toList "a".toList, _, ⟨rfl, rfl⟩, hd⟩, [],
      fs', ?_, rfl⟩
    rw [Prog.run_ret]
  obtain ⟨i, hi, hdi, -, hu, hmin, -, hother⟩ := run_numbers _ hd ⟨0, by omega, hnew 0⟩
  have hi0 : i = 0 := by
    by_contra h
    exact hmin 0 (by omega) (hnew 0)
  subst hi0
  refine ⟨fs', ?_, by rw [hdi] at hu; exact hu, ?_⟩
  · unfold fileLoop
    rw [Prog.run_bind, hrun]
    rfl
  · have := hother "obs".toList 1 (by omega) (.inr (by omega))
    exact this.trans (hnew 1)

end Verif.Props
