import Verif.Props.FitFiles

/-! # C47 and the overflow of C45: complete runs of `fit_zpoly` -/

namespace Verif.Props

open Verif Verif.Fs Verif.Store Verif.Fit Verif.Core

/-! ## The directory of the run -/

theorem makedirsB_true {C : Type} {p : Path} {b : Bool} {fs fs' : FS C}
    (h : (makedirsB p b).run fs = (.ok true, fs')) : isDir fs' p := by
  cases p with
  | nil => rfl
  | cons f d =>
    rw [makedirsB, Prog.run_bind_ok] at h
    obtain ⟨e, fs1, -, h⟩ := h
    have key : ∀ fs2 : FS C, (do
        let ok ← mkdirP (C := C) (f :: d)
        if ok then return true
        else if !b then return false
        else isdirP (f :: d)).run fs2 = (.ok true, fs') → isDir fs' (f :: d) := by
      intro fs2 h
      rw [Prog.run_bind_ok] at h
      obtain ⟨ok, fs3, h1, h⟩ := h
      rw [run_mkdirP] at h1
      by_cases hc : (!present fs2 (f :: d) && isDir fs2 (f :: d).tail) = true
      · rw [if_pos hc] at h1
        cases h1
        simp only [if_true, Prog.run_pure] at h
        cases h
        rw [isDir_iff, update_same]
      · rw [if_neg hc] at h1
        cases h1
        simp only [Bool.false_eq_true, if_false] at h
        cases b
        · simp at h
        · simp only [Bool.not_true, Bool.false_eq_true, if_false, run_isdirP, Prod.mk.injEq,
            Except.ok.injEq] at h
          rw [← h.2]
          exact h.1
    cases e
    · simp only [Bool.not_false, if_true] at h
      rw [Prog.run_bind_ok] at h
      obtain ⟨_, fs2, -, h⟩ := h
      exact key fs2 h
    · simp only [Bool.not_true, Bool.false_eq_true, if_false] at h
      exact key fs1 h

theorem makedirs_isDir {C : Type} {p : Path} {b : Bool} {fs fs' : FS C} {r : Unit}
    (h : (makedirs p b).run fs = (.ok r, fs')) : isDir fs' p := by
  unfold makedirs at h
  rw [Prog.run_bind_ok] at h
  obtain ⟨ok, fs1, h1, h⟩ := h
  cases ok
  · simp at h
  · simp only [if_true, Prog.run_pure] at h
    cases h
    exact makedirsB_true h1

theorem allocLoop_isDir {out : Path} {name : Str} {l : List ℕ} {cur : Option Path} {d : Path}
    {fs fs' : FS Content} (h : (allocLoop out name l cur).run fs = (.ok (some d), fs'))
    (hd : fs d = none) (hc : ∀ e, cur = some e → fs e ≠ none) : isDir fs' d := by
  induction l generalizing cur with
  | nil =>
    rw [allocLoop, Prog.run_ret] at h
    cases h
    exact absurd hd (hc d rfl)
  | cons i l ih =>
    rw [allocLoop, Prog.run_bind, run_existsP] at h
    by_cases hp : (fs (runName name i :: out)).isSome
    · have hp' : present fs (Path.join out (runName name i)) = true := hp
      simp only [hp', Bool.not_true, Bool.false_eq_true, if_false] at h
      refine ih h fun e he => ?_
      cases he
      exact Option.isSome_iff_ne_none.1 hp
    · have hp' : present fs (Path.join out (runName name i)) = false := by
        rw [Bool.eq_false_iff]; exact hp
      simp only [hp', Bool.not_false, if_true] at h
      rw [Prog.run_bind_ok] at h
      obtain ⟨_, fs1, h1, h⟩ := h
      rw [Prog.run_pure] at h
      cases h
      exact makedirs_isDir h1

theorem allocDir_isDir {w : Path} {name : Str} {fs fs1 : FS Content} {d : Path}
    (h : (allocDir w name).run fs = (.ok d, fs1)) (hd : fs d = none ∨ isDir fs d) :
    isDir fs1 d := by
  rcases hd with hd | hd
  swap
  · exact run_isDir h hd
  obtain ⟨i, hi, hdi, -⟩ := allocDir_ok h
  rw [allocDir_eq, Prog.run_bind_ok] at h
  obtain ⟨_, fs0, h0, h⟩ := h
  rw [Prog.run_bind_ok] at h
  obtain ⟨r, fs2, h1, h⟩ := h
  cases r with
  | none => simp at h
  | some d' =>
    simp only [Prog.run_pure] at h
    cases h
    refine allocLoop_isDir h1 ?_ (by simp)
    rw [← hd]
    refine run_frame (writes_allocOut _) h0 fun hs => ?_
    have := hs.length_le
    rw [hdi, ← runDir_eq w name hi] at this
    simp at this

/-- A run that ends well. -/
theorem fitZpoly_ok {N M : ℕ} {a : Input N M} {fs fs' : FS Content} {d : Path}
    (h : (fitZpoly a).run fs = (.ok d, fs')) :
    ∃ fs1 s0 s1 s2, (allocDir a.workDir a.name).run fs = (.ok d, fs1) ∧ a.snr 0 = .ok s0 ∧
      a.snr 1 = .ok s1 ∧ a.snr 2 = .ok s2 ∧
      (fitLoop a [s0, s1, s2] d 1 a.orderMax).run fs1 = (.ok (), fs') := by
  rw [fitZpoly_eq, Prog.run_bind_ok] at h
  obtain ⟨d', fs1, h1, h2⟩ := h
  unfold fitRest at h2
  simp only [Prog.run_bind_ok, Prog.run_lift, Prod.mk.injEq] at h2
  obtain ⟨s0, _, ⟨e0, rfl⟩, s1, _, ⟨e1, rfl⟩, s2, _, ⟨e2, rfl⟩, _, fs2, h3, h4⟩ := h2
  cases h4
  exact ⟨_, s0, s1, s2, h1, e0, e1, e2, h3⟩

/-- What is below the directory of the run when the loop starts, for a new directory. -/
theorem allocDir_fresh {w : Path} {name : Str} {fs fs1 : FS Content} {d : Path} (hw : WF fs)
    (h : (allocDir w name).run fs = (.ok d, fs1)) (hd : fs d = none) (q : Path) (hq : Below d q) :
    fs1 q = none := by
  obtain ⟨i, hi, hdi, -⟩ := allocDir_ok h
  rw [run_frame (writes_allocDir w name) h, WF_below hw hd (by rw [hdi]; simp [Spec.runDir]) hq]
  obtain ⟨f, e, rfl, he⟩ := hq
  have := he.length_le
  rw [hdi, ← runDir_eq w name hi] at this
  simp at this ⊢
  omega

/-! ## C47 -/

/-- **C47**. A run with `order_max = n ≥ 1` that ends well leaves in its new directory exactly the
files `{fitpar,res,jac,grad,phase,cov,corr}_n{k}.csv` for `k = 1, ..., n` and `beam_data.csv`,
`u_data.csv`, `v_data.csv`, `pyoof_info.yml`, all of them complete, and with `make_plots` the
directory `plots`; nothing else is below it. -/
theorem C47_files {N M : ℕ} (a : Input N M) (fs fs' : FS Content) (hw : WF fs) (d : Path)
    (h : (fitZpoly a).run fs = (.ok d, fs')) (hd : fs d = none) (hn : 1 ≤ a.orderMax) :
    (∀ f, (f ∈ Spec.commonFiles ∨ ∃ k, 1 ≤ k ∧ k ≤ a.orderMax ∧ f ∈ Spec.orderFiles k) →
      ∃ c, fs' (f :: d) = some (.file c) ∧ c ≠ .part) ∧
    ∀ q, Below d q → fs' q ≠ none →
      (∃ f, q = f :: d ∧
        (f ∈ Spec.commonFiles ∨ ∃ k, 1 ≤ k ∧ k ≤ a.orderMax ∧ f ∈ Spec.orderFiles k)) ∨
      (a.makePlots = true ∧ "plots".toList :: d <:+ q) := by
  obtain ⟨fs1, s0, s1, s2, h1, -, -, -, h2⟩ := fitZpoly_ok h
  obtain ⟨init, out, names, -, e2, -, e4⟩ := fitLoop_ok le_rfl (allocDir_isDir h1 (.inl hd)) h2
  constructor
  · intro f hf
    obtain ⟨k, hk1, hk2, hk⟩ : ∃ k, 1 ≤ k ∧ k ≤ a.orderMax ∧ Spec.filesAt k f := by
      rcases hf with hf | ⟨k, hk1, hk2, hf⟩
      · exact ⟨1, le_rfl, hn, .inr ⟨rfl, hf⟩⟩
      · exact ⟨k, hk1, hk2, .inl hf⟩
    obtain ⟨hso, -, -, -, hmem⟩ := e2 k hk1 (by omega)
    obtain ⟨-, -, -, -, -, -, -, -, -, hlen⟩ := solveOrder_ok hso
    rw [← orderStore_mem a [s0, s1, s2] k (names k) (init k) (out k) hlen, List.mem_map] at hk
    obtain ⟨x, hx, rfl⟩ := hk
    refine ⟨x.2, hmem x hx, ?_⟩
    unfold orderStore csvFiles at hx
    rw [List.mem_cons, List.mem_append, List.mem_map] at hx
    rcases hx with rfl | hx | ⟨y, -, rfl⟩
    · simp
    · split_ifs at hx
      · rw [List.mem_singleton] at hx; rw [hx]; simp
      · simp at hx
    · simp
  · intro q hq hne
    by_contra hcon
    push Not at hcon
    refine hne ?_
    rw [e4 q (fun hp => hcon.2 hp.1 hp.2) ?_]
    · exact allocDir_fresh hw h1 hd q hq
    · rintro m hm1 hm2 f (hf | ⟨rfl, hf⟩) rfl
      · exact (hcon.1 f rfl).2 m hm1 (by omega) hf
      · exact (hcon.1 f rfl).1 hf

theorem csvRows_filesAt (m : ℕ) (save : List (List (List Fl))) :
    ∀ x ∈ csvRows m save, Spec.filesAt m x.1 := by
  intro x hx
  unfold csvRows at hx
  dsimp only at hx
  obtain ⟨f, g, y⟩ := x
  by_cases hm : m = 1
  · subst hm
    simp only [ne_eq, not_true_eq_false, if_false] at hx
    have := (List.of_mem_zip hx).1
    simp only [List.mem_cons, List.not_mem_nil, or_false, fileName_spec] at this
    unfold Spec.filesAt Spec.orderFiles Spec.commonFiles
    rcases this with h | h | h | h | h | h | h | h | h <;> subst h <;>
      simp only [List.mem_cons, true_or, or_true, and_self]
  · simp only [ne_eq, hm, not_false_eq_true, if_true] at hx
    have := (List.of_mem_zip hx).1
    simp only [List.drop_succ_cons, List.drop_zero, List.mem_cons, List.not_mem_nil, or_false,
      fileName_spec] at this
    unfold Spec.filesAt Spec.orderFiles Spec.commonFiles
    rcases this with h | h | h | h | h | h <;> subst h <;>
      simp only [List.mem_cons, true_or, or_true]

theorem writes_plotFitPath (d : Path) (m : ℕ) :
    Writes (fun q => InPlots d q ∨ q <:+ "plots".toList :: d) (plotFitPath d m) := by
  have hin : ∀ f : Str, InPlots d (f :: "plots".toList :: d) := fun f => List.suffix_cons _ _
  have hrest : Writes (C := Content) (fun q => InPlots d q ∨ q <:+ "plots".toList :: d) (do
      let pdf := fun kind : String => (d.join "plots".toList).join
        (kind.toList ++ "_n".toList ++ decNat m ++ ".pdf".toList)
      writeFile .part (pdf "fitbeam") .plot
      writeFile .part (pdf "fitphase") .plot
      writeFile .part (pdf "residual") .plot
      writeFile .part (pdf "cov") .plot
      writeFile .part (pdf "corr") .plot
      if m = 1 then writeFile .part ((d.join "plots".toList).join "obsbeam.pdf".toList) .plot) := by
    refine writes_bind (writes_writeFile (.inl (hin _)) _ _) fun _ => ?_
    refine writes_bind (writes_writeFile (.inl (hin _)) _ _) fun _ => ?_
    refine writes_bind (writes_writeFile (.inl (hin _)) _ _) fun _ => ?_
    refine writes_bind (writes_writeFile (.inl (hin _)) _ _) fun _ => ?_
    refine writes_bind (writes_writeFile (.inl (hin _)) _ _) fun _ => ?_
    split_ifs
    · exact writes_writeFile (.inl (hin _)) _ _
    · trivial
  unfold plotFitPath
  refine writes_bind (writes_existsP _) fun e => ?_
  cases e
  · exact writes_bind (writes_mono (fun q hq => .inr hq) (writes_makedirs _ _)) fun _ => hrest
  · exact hrest

/-- The paths one round of the loop can change. -/
theorem writes_fitOrder {N M : ℕ} (a : Input N M) (s : List Fl) (d : Path) (m : ℕ) :
    Writes (fun q => (∃ f, Spec.filesAt m f ∧ q = f :: d) ∨ InPlots d q ∨ q <:+ "plots".toList :: d)
      (fitOrder a s d m) := by
  have hcsv : ∀ (l : List (Str × Str × List (List Fl))), (∀ x ∈ l, Spec.filesAt m x.1) →
      Writes (fun q => (∃ f, Spec.filesAt m f ∧ q = f :: d) ∨ InPlots d q ∨
        q <:+ "plots".toList :: d) (saveLoop a.name d l) := by
    intro l hl
    induction l with
    | nil => trivial
    | cons x l ih =>
      obtain ⟨f, g, y⟩ := x
      refine writes_bind (writes_writeFile (.inl ⟨f, hl _ List.mem_cons_self, rfl⟩) _ _) fun _ => ?_
      exact ih fun x hx => hl x (List.mem_cons_of_mem _ hx)
  unfold fitOrder
  refine writes_bind ?_ fun init => ?_
  · unfold startVector
    dsimp only
    split_ifs
    · refine writes_bind (writes_readFile _) fun c => ?_
      cases c <;> trivial
    · trivial
  refine writes_bind (writes_lift _) fun out => ?_
  refine writes_bind ?_ fun _ => ?_
  · unfold storeDataAscii
    refine writes_bind (writes_lift _) fun names => ?_
    split_ifs
    · exact writes_writeFile (.inl ⟨_, .inl (by simp [Spec.orderFiles, fileName_spec]), rfl⟩) _ _
    · trivial
  have hrest : Writes (fun q => (∃ f, Spec.filesAt m f ∧ q = f :: d) ∨ InPlots d q ∨
        q <:+ "plots".toList :: d) (do
      storeDataCsv a.name d m out.save
      if a.makePlots then plotFitPath d m) := by
    refine writes_bind ?_ fun _ => ?_
    · rw [storeDataCsv_eq]
      exact hcsv _ (csvRows_filesAt m out.save)
    · cases a.makePlots
      · trivial
      · exact writes_mono (fun q hq => .inr hq) (writes_plotFitPath d m)
  by_cases hm : m = 1
  · dsimp only
    rw [if_pos hm]
    exact writes_bind (writes_writeFile (.inl ⟨_, .inr ⟨hm, by simp [Spec.commonFiles]⟩, rfl⟩) _ _)
      fun _ => hrest
  · dsimp only
    rw [if_neg hm]
    exact hrest

/-- **C47** no order touches the files of another order, at whatever point it is stopped. -/
theorem C47_no_overwrite {N M : ℕ} (a : Input N M) (s : List Fl) (d : Path) (m m' : ℕ) (hm : m ≠ m')
    (fs fs' : FS Content) (h : fs' ∈ (fitOrder a s d m').trace fs) (f : Str)
    (hf : f ∈ Spec.orderFiles m) : fs' (f :: d) = fs (f :: d) := by
  refine trace_frame (writes_fitOrder a s d m') h ?_
  rintro (⟨g, hg, e⟩ | hp | hs)
  · cases e
    exact hm (filesAt_disjoint (.inl hf) hg)
  · exact filesAt_not_plots m (inPlots_join.1 hp ▸ .inl hf)
  · have := hs.eq_of_length (by simp)
    rw [List.cons.injEq] at this
    exact filesAt_not_plots m (this.1 ▸ .inl hf)

end Verif.Props
