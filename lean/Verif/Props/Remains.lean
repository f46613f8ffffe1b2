import Verif.Props.Killed
import Verif.Props.Table
import Verif.Props.Contents
import Verif.Props.SimConcurrent
import Verif.Model.Plot

/-! # C115: reading what a killed run has left, and simulations that are killed -/

namespace Verif.Props

open Verif Verif.Fs Verif.Store Verif.Fit Verif.AuxFn Verif.Sim

/-! ## Programs that only read -/

/-- The program reads files of `R` and does nothing else to the disk. -/
def Reads {C α : Type} (R : Path → Prop) : Prog C α → Prop
  | .ret _ => True
  | .raise _ => True
  | .op o k => (∃ q, o = .read q ∧ R q) ∧ ∀ r, Reads R (k r)

theorem reads_bind {C α β : Type} {R : Path → Prop} {p : Prog C α} {k : α → Prog C β} (hp : Reads R p)
    (hk : ∀ a, Reads R (k a)) : Reads R (p >>= k) := by
  induction p with
  | ret a => exact hk a
  | raise e => trivial
  | op o k' ih => exact ⟨hp.1, fun r => ih r (hp.2 r)⟩

theorem reads_lift {C α : Type} {R : Path → Prop} (x : Py α) : Reads R (Prog.lift x : Prog C α) := by
  cases x <;> trivial

theorem reads_readFile {C : Type} {R : Path → Prop} {p : Path} (h : R p) : Reads R (readFile p : Prog C C) :=
  ⟨⟨p, rfl, h⟩, fun r => by cases r <;> trivial⟩

/-- What such a program gives depends only on these files, and the disk stays as it is. -/
theorem reads_run {C α : Type} {R : Path → Prop} {p : Prog C α} (hp : Reads R p) {f g : FS C}
    (h : ∀ q, R q → f q = g q) : p.run f = ((p.run g).1, f) := by
  induction p with
  | ret a => rfl
  | raise e => rfl
  | op o k ih =>
    obtain ⟨⟨q, rfl, hq⟩, hk⟩ := hp
    have e1 : exec f (.read q) = ((exec g (.read q)).1, f) := by
      simp only [exec, h q hq]
      rcases g q with _ | (_ | c) <;> rfl
    have e2 : (exec g (.read q)).2 = g := by
      simp only [exec]
      rcases g q with _ | (_ | c) <;> rfl
    rw [Prog.run_op, Prog.run_op, e1, e2]
    exact ih _ (hk _)

theorem reads_table (d : Path) (j : ℕ) : Reads (fun q => q = "pyoof_info.yml".toList :: d ∨
    q = Spec.file "phase" j :: d ∨ q = Spec.file "fitpar" j :: d) (tablePyoofOut j [d]) := by
  unfold tablePyoofOut tablePyoofOut tableRow
  refine reads_bind ?_ fun _ => trivial
  refine reads_bind (reads_readFile (.inl rfl)) fun c => ?_
  refine reads_bind (reads_lift _) fun info => ?_
  refine reads_bind (reads_readFile (.inr (.inl rfl))) fun c => ?_
  refine reads_bind (reads_lift _) fun ph => ?_
  refine reads_bind (reads_lift _) fun r => ?_
  refine reads_bind (reads_lift _) fun r => ?_
  refine reads_bind (reads_readFile (.inr (.inr rfl))) fun c => ?_
  refine reads_bind (reads_lift _) fun fit => ?_
  refine reads_bind (reads_lift _) fun i0 => ?_
  refine reads_bind (reads_lift _) fun i1 => ?_
  refine reads_bind (reads_lift _) fun i2 => ?_
  split <;> trivial

theorem reads_figs (e : Plot.PlotEnv) (d : Path) (j : ℕ) : Reads (fun q => ∃ g, q = g :: d ∧
    (g ∈ Spec.commonFiles ∨ g ∈ Spec.orderFiles j)) (Plot.fitFigs e d j) := by
  have hc : ∀ g : Str, g ∈ Spec.commonFiles → ∃ g', g :: d = g' :: d ∧
      (g' ∈ Spec.commonFiles ∨ g' ∈ Spec.orderFiles j) := fun g hg => ⟨g, rfl, .inl hg⟩
  have ho : ∀ g : Str, g ∈ Spec.orderFiles j → ∃ g', g :: d = g' :: d ∧
      (g' ∈ Spec.commonFiles ∨ g' ∈ Spec.orderFiles j) := fun g hg => ⟨g, rfl, .inr hg⟩
  have ha : ∀ (R : Path → Prop) p, R p → Reads R (Plot.readArr p) := fun R p hp =>
    reads_bind (reads_readFile hp) fun _ => reads_lift _
  unfold Plot.fitFigs
  refine reads_bind (reads_readFile (ho (Spec.file "fitpar" j) (by simp [Spec.orderFiles]))) fun c => ?_
  refine reads_bind (reads_lift _) fun fit => ?_
  refine reads_bind (reads_readFile (hc _ (by simp [Spec.commonFiles]))) fun c => ?_
  refine reads_bind (reads_lift _) fun info => ?_
  refine reads_bind (ha _ _ (hc _ (by simp [Spec.commonFiles]))) fun _ => ?_
  refine reads_bind (ha _ _ (ho (Spec.file "res" j) (by simp [Spec.orderFiles]))) fun _ => ?_
  refine reads_bind (ha _ _ (hc _ (by simp [Spec.commonFiles]))) fun _ => ?_
  refine reads_bind (ha _ _ (hc _ (by simp [Spec.commonFiles]))) fun _ => ?_
  refine reads_bind (ha _ _ (ho (Spec.file "cov" j) (by simp [Spec.orderFiles]))) fun _ => ?_
  refine reads_bind (ha _ _ (ho (Spec.file "corr" j) (by simp [Spec.orderFiles]))) fun _ => ?_
  exact reads_lift _

/-- The directory of the figures. -/
theorem plotsDir_there {d : Path} {f : FS Content} (hd : isDir f d) : ∃ f', (Plot.plotsDir d).run f = (.ok (), f') ∧
    ∀ q, q ≠ "plots".toList :: d → f' q = f q := by
  unfold Plot.plotsDir
  rw [Prog.run_bind, run_existsP]
  dsimp only
  by_cases hp : present f (d.join "plots".toList) = true
  · rw [if_pos hp]
    exact ⟨f, rfl, fun _ _ => rfl⟩
  · rw [if_neg hp, run_makedirs_leaf _ _ _ _ hd, if_neg hp]
    exact ⟨_, rfl, fun q hq => update_ne _ _ hq⟩

theorem plot_run (e : Plot.PlotEnv) {d : Path} {f : FS Content} (hd : isDir f d) (j : ℕ) :
    ∃ f', (Plot.plotFitPath e d j false).run f = (((Plot.fitFigs e d j).run f).1, f') ∧
      ∀ q, q ≠ "plots".toList :: d → f' q = f q := by
  obtain ⟨f', h1, h2⟩ := plotsDir_there hd
  have hnot : "plots".toList ∉ Spec.commonFiles ∧ "plots".toList ∉ Spec.orderFiles j :=
    ⟨by simp [Spec.commonFiles], by simp [Spec.orderFiles, Spec.file]⟩
  have hr : (Plot.fitFigs e d j).run f' = (((Plot.fitFigs e d j).run f).1, f') := by
    refine reads_run (reads_figs e d j) ?_
    rintro q ⟨g, rfl, hg⟩
    refine h2 _ fun hc => ?_
    rw [List.cons.injEq] at hc
    rw [hc.1] at hg
    exact hg.elim hnot.1 hnot.2
  refine ⟨f', ?_, h2⟩
  unfold Plot.plotFitPath
  rw [Prog.run_bind, h1]
  dsimp only
  rw [Prog.run_bind, hr]
  rcases (Plot.fitFigs e d j).run f with ⟨x | x, g⟩
  · rfl
  · rfl

/-! ## What can be read of a killed fit -/

/-- **C115.**  Of a fit that has been stopped at any moment, `table_pyoof_out` and `plot_fit_path` give for each
order before the one that was under way exactly what they give for the complete fit; for each order after it
they raise an exception: `FileNotFoundError`, unless the information file is the one that is half-written. -/
theorem C115_readers {N M : ℕ} (a : Fit.Input N M) (fs fs' : FS Content) (hwf : WF fs) (d : Path)
    (h : (fitZpoly a).run fs = (.ok d, fs')) (hd : fs d = none) (f : FS Content)
    (hf : f ∈ (fitZpoly a).trace fs) :
    ∃ k, (∀ j g, 1 ≤ j → j < k → j ≤ a.orderMax → Spec.filesAt j g → f (g :: d) = fs' (g :: d) ∧
        f (g :: d) ≠ some (.file .part)) ∧
      (∀ j g, k < j → Spec.filesAt j g → f (g :: d) = none) ∧
      (∀ j, 1 ≤ j → j < k → j ≤ a.orderMax →
        (tablePyoofOut j [d]).run f = (((tablePyoofOut j [d]).run fs').1, f) ∧
        ∀ e : Plot.PlotEnv, ∃ f', (Plot.plotFitPath e d j false).run f =
            (((Plot.plotFitPath e d j false).run fs').1, f') ∧ ∀ q, q ≠ "plots".toList :: d → f' q = f q) ∧
      ∀ j, k < j →
        (∃ x, (tablePyoofOut j [d]).run f = (.error x, f) ∧
          (x = .fileNotFoundError ∨ f ("pyoof_info.yml".toList :: d) = some (.file .part))) ∧
        ∀ e : Plot.PlotEnv, isDir f d → ∃ f', (Plot.plotFitPath e d j false).run f =
            (.error .fileNotFoundError, f') ∧ ∀ q, q ≠ "plots".toList :: d → f' q = f q := by
  obtain ⟨k, k1, -, k3, -⟩ := C111_orders a fs fs' hwf d h hd f hf
  have hf' : fs' ∈ (fitZpoly a).trace fs := by
    have := (fitZpoly a).run_mem_trace fs
    rwa [h] at this
  have hinfo : "pyoof_info.yml".toList ∈ Spec.commonFiles := by simp [Spec.commonFiles]
  have hdne : d ≠ [] := by
    rintro rfl
    obtain ⟨_, -, h', -⟩ | ⟨h', -⟩ := C45_directory a fs fs' [] h <;> simp [Spec.runDir] at h'
  have hbelow : ∀ g, fs (g :: d) = none := fun g => WF_below hwf hd hdne ⟨g, d, rfl, List.suffix_refl _⟩
  have hfree : ∃ i ≤ 100, fs (Spec.runDir a.workDir a.name i) = none := by
    rcases C45_directory a fs fs' d h with ⟨i, hi, e, -⟩ | ⟨e, h2⟩
    · exact ⟨i, hi, e ▸ hd⟩
    · exact absurd hd (e ▸ h2 100 le_rfl)
  obtain ⟨b, -, b3⟩ := C111_snapshot a fs hwf hfree f hf
  rw [h] at b b3
  refine ⟨k, fun j g j1 j2 j3 hg => ?_, k3, fun j j1 j2 j3 => ?_, fun j hj => ?_⟩
  · obtain ⟨e1, c, e2, e3⟩ := k1 j g j1 j2 j3 hg
    refine ⟨e1, fun e => e3 ?_⟩
    rw [e2] at e
    cases e
    rfl
  · have agree : ∀ g, g ∈ Spec.commonFiles ∨ g ∈ Spec.orderFiles j → f (g :: d) = fs' (g :: d) := by
      rintro g (hg | hg)
      · exact (k1 1 g le_rfl (by omega) (by omega) (.inr ⟨rfl, hg⟩)).1
      · exact (k1 j g j1 j2 j3 (.inl hg)).1
    refine ⟨reads_run (reads_table d j) ?_, fun e => ?_⟩
    · rintro q (rfl | rfl | rfl)
      · exact agree _ (.inl hinfo)
      · exact agree _ (.inr (by simp [Spec.orderFiles]))
      · exact agree _ (.inr (by simp [Spec.orderFiles]))
    · obtain ⟨-, c, hc, -⟩ := k1 j (Spec.file "fitpar" j) j1 j2 j3 (.inl (by simp [Spec.orderFiles]))
      have hdf : isDir f d := trace_WF hwf hf _ _ (by rw [hc]; rfl)
      have hc' := (agree (Spec.file "fitpar" j) (.inr (by simp [Spec.orderFiles]))).symm.trans hc
      have hdf' : isDir fs' d := trace_WF hwf hf' _ _ (by rw [hc']; rfl)
      obtain ⟨g, g1, g2⟩ := plot_run e hdf j
      obtain ⟨g', g1', -⟩ := plot_run e hdf' j
      refine ⟨g, ?_, g2⟩
      rw [g1, g1']
      dsimp only
      rw [reads_run (reads_figs e d j) (f := f) (g := fs') ?_]
      rintro q ⟨x, rfl, hx⟩
      exact agree x hx
  · have hm : ∀ g, g ∈ Spec.orderFiles j → f (g :: d) = none := fun g hg => k3 j g hj (.inl hg)
    refine ⟨?_, fun e hdf => ?_⟩
    · unfold tablePyoofOut tablePyoofOut
      have key : ∃ x, (tableRow j d).run f = (.error x, f) ∧
          (x = .fileNotFoundError ∨ f ("pyoof_info.yml".toList :: d) = some (.file .part)) := by
        have hinfo' : ∀ c, f ("pyoof_info.yml".toList :: d) = some (.file c) → c = .part ∨ ∃ i, c = .info i := by
          intro c hc
          by_cases hn : 1 ≤ a.orderMax
          · obtain ⟨-, -, -, -, i, -, -, -, -, -, -, -, hi, -⟩ := C67_observation a fs fs' d h (.inl hd) hn
            obtain ⟨q0, b1, b2⟩ := b
            have hnone := hbelow ("pyoof_info.yml".toList)
            have hcase : f ("pyoof_info.yml".toList :: d) = fs ("pyoof_info.yml".toList :: d) ∨
                f ("pyoof_info.yml".toList :: d) = fs' ("pyoof_info.yml".toList :: d) ∨
                f ("pyoof_info.yml".toList :: d) = some (.file .part) := by
              by_cases hq : "pyoof_info.yml".toList :: d = q0
              · rw [hq]; exact b2
              · exact (b1 _ hq).imp id .inl
            rcases hcase with e | e | e
            · rw [hc, hnone] at e; cases e
            · rw [hc, hi] at e
              cases e
              exact .inr ⟨i, rfl⟩
            · rw [hc] at e
              cases e
              exact .inl rfl
          · exfalso
            obtain ⟨fs1, s0, s1, s2, h1, -, -, -, h2⟩ := fitZpoly_ok h
            rw [show a.orderMax = 0 by omega, fitLoop] at h2
            cases h2
            exact b3 _ (by rw [hc]; simp) (allocDir_fresh hwf h1 hd _ ⟨_, d, rfl, List.suffix_refl _⟩)
        unfold tableRow
        rw [Prog.run_bind, run_readFile]
        rcases hi : f (d.join "pyoof_info.yml".toList) with _ | (_ | c)
        · exact ⟨_, rfl, .inl rfl⟩
        · exact ⟨_, rfl, .inl rfl⟩
        · dsimp only
          rcases hinfo' c hi with rfl | ⟨i, rfl⟩
          · exact ⟨_, rfl, .inr rfl⟩
          · refine ⟨.fileNotFoundError, ?_, .inl rfl⟩
            have : (readFile (d.join (fileName "phase" j))).run f = (.error .fileNotFoundError, f) := by
              rw [run_readFile, show f (d.join (fileName "phase" j)) = none from
                hm (Spec.file "phase" j) (by simp [Spec.orderFiles])]
            rw [Prog.run_bind, Prog.run_lift]
            dsimp only
            rw [Prog.run_bind, this]
      obtain ⟨x, hx, hx'⟩ := key
      refine ⟨x, ?_, hx'⟩
      rw [Prog.run_bind, hx]
    · obtain ⟨g, g1, g2⟩ := plot_run e hdf j
      refine ⟨g, ?_, g2⟩
      rw [g1]
      have : (readFile (d.join (fileName "fitpar" j))).run f = (.error .fileNotFoundError, f) := by
        rw [run_readFile, show f (d.join (fileName "fitpar" j)) = none from
          hm (Spec.file "fitpar" j) (by simp [Spec.orderFiles])]
      unfold Plot.fitFigs
      rw [Prog.run_bind, this]

/-! ## Simulations that are killed -/

theorem noput_between {C α : Type} {p : Prog C α} (hp : Puts (fun _ => False) p) (fs f : FS C)
    (hf : f ∈ p.trace fs) (q : Path) : f q = fs q ∨ f q = (p.run fs).2 q := by
  induction p generalizing fs with
  | ret a => simp only [Prog.trace, List.mem_singleton] at hf; rw [hf]; exact .inl rfl
  | raise e => simp only [Prog.trace, List.mem_singleton] at hf; rw [hf]; exact .inl rfl
  | op o k ih =>
    simp only [Prog.trace, List.mem_cons] at hf
    rcases hf with hf | hf
    · rw [hf]; exact .inl rfl
    · rcases ih _ (hp.2 _) _ hf with h | h
      · rw [Prog.run_op]
        by_cases hq : (fs q).isSome
        · left
          rw [h]
          exact exec_mkdir_frame fs o q (fun c hc => hp.1 _ c hc) hq
        · by_cases hq2 : ((exec fs o).2 q).isSome
          · right
            rw [h]
            exact (trace_puts (hp.2 _) (Prog.run_mem_trace _ _) hq2 id).symm
          · left
            rw [h, Option.not_isSome_iff_eq_none.1 hq2, Option.not_isSome_iff_eq_none.1 hq]
      · exact .inr h

theorem writeFile_mid {C : Type} (x c : C) (p : Path) (fs f : FS C) (hf : f ∈ (writeFile x p c).trace fs) :
    f p = fs p ∨ f p = ((writeFile x p c).run fs).2 p ∨ f p = some (.file x) := by
  rw [run_writeFile]
  unfold writeFile at hf
  simp only [Prog.trace, List.mem_cons] at hf
  rcases hf with rfl | hf
  · exact .inl rfl
  by_cases hc : (!isDir fs p && isDir fs p.tail) = true
  · have e1 : exec fs (.put p x) = (.yes, update fs p (.file x)) := by
      simp only [exec]; rw [if_pos hc]
    rw [if_pos hc]
    rw [e1] at hf
    simp only [Prog.trace, List.mem_cons] at hf
    rcases hf with rfl | hf
    · exact .inr (.inr (update_same _ _ _))
    · by_cases hc2 : (!isDir (update fs p (.file x)) p && isDir (update fs p (.file x)) p.tail) = true
      · have e2 : exec (update fs p (.file x)) (.put p c) =
            (.yes, update (update fs p (.file x)) p (.file c)) := by simp only [exec]; rw [if_pos hc2]
        rw [e2] at hf
        simp only [Prog.trace, List.mem_singleton] at hf
        rw [hf, update_same]
        exact .inr (.inl (update_same fs p (.file c)).symm)
      · have e2 : exec (update fs p (.file x)) (.put p c) = (.no, update fs p (.file x)) := by
          simp only [exec]; rw [if_neg hc2]
        rw [e2] at hf
        simp only [Prog.trace, List.mem_singleton] at hf
        rw [hf, update_same]
        exact .inr (.inr rfl)
  · have e1 : exec fs (.put p x) = (.no, fs) := by simp only [exec]; rw [if_neg hc]
    rw [e1] at hf
    simp only [Prog.trace, List.mem_singleton] at hf
    rw [hf]
    exact .inl rfl

theorem puts_findFree (dir : Path) (l : List ℕ) : Puts (fun _ => False) (findFree dir l) := by
  induction l with
  | nil => trivial
  | cons i l ih =>
    rw [findFree]
    refine puts_bind (puts_existsP _) fun e => ?_
    cases e
    · refine puts_bind (puts_existsP _) fun e => ?_
      cases e <;> trivial
    · exact ih

theorem puts_beforeStore (dir : Path) : Puts (fun _ => False) (beforeStore dir) :=
  puts_bind (puts_makeDir dir) fun _ => puts_findFree _ _

/-- The number that is found is the least free one, before and after. -/
theorem beforeStore_ok {dir : Path} {fs fs1 : FS File} {i : ℕ} (h : (beforeStore dir).run fs = (.ok i, fs1)) :
    i ≤ 100 ∧ fs (testFile i :: dir) = none ∧ fs1 (testFile i :: dir) = none ∧
      ∀ j < i, fs (testFile j :: dir) ≠ none := by
  rw [beforeStore, Prog.run_bind_ok] at h
  obtain ⟨_, fs2, h1, h2⟩ := h
  have hb := makeDir_below h1
  rcases findFree_run dir (List.range 101) fs2 with ⟨pre, k, post, e1, e2, e3, e4⟩ | ⟨-, e2⟩
  · obtain ⟨hi, hpre⟩ := range_split e1
    rw [e4] at h2
    cases h2
    exact ⟨by omega, (hb _).symm.trans e3, e3, fun j hj => by rw [← hb]; exact e2 j (hpre j hj)⟩
  · rw [e2] at h2; cases h2

theorem beforeStore_below {dir : Path} {fs fs1 : FS File} {i : ℕ} (h : (beforeStore dir).run fs = (.ok i, fs1))
    (g : Str) : fs1 (g :: dir) = fs (g :: dir) := by
  rw [beforeStore, Prog.run_bind_ok] at h
  obtain ⟨_, fs2, h1, h2⟩ := h
  rcases findFree_run dir (List.range 101) fs2 with ⟨pre, k, post, e1, e2, e3, e4⟩ | ⟨-, e2⟩
  · rw [e4] at h2
    cases h2
    exact makeDir_below h1 g
  · rw [e2] at h2; cases h2

/-- **C115.**  A simulation that is stopped at any moment leaves every place as it was or as the complete call
leaves it, but for one file at most: the one with the least free number, which is half-written. -/
theorem C115_simulation {N : ℕ} (a : Sim.Input N) (fs f : FS File) (hf : f ∈ (simulate a).trace fs) :
    ∃ q0, (∀ q, q ≠ q0 → f q = fs q ∨ f q = ((simulate a).run fs).2 q) ∧
      (f q0 = fs q0 ∨ f q0 = ((simulate a).run fs).2 q0 ∨
        f q0 = some (.file .part) ∧ ∃ i ≤ 100, q0 = Spec.simFile a.workDir i ∧ fs q0 = none ∧
          ∀ j < i, fs (Spec.simFile a.workDir j) ≠ none) := by
  by_cases hz : Spec.DzOk a.dz
  swap
  · rw [(C54_rejects a hz fs).2, List.mem_singleton] at hf
    exact ⟨[], fun q _ => .inl (by rw [hf]), .inl (by rw [hf])⟩
  cases ht : tables a with
  | error e =>
    have : simulate a = .raise e := by rw [simulate_split a hz, ht]; rfl
    rw [this] at hf
    simp only [Prog.trace, List.mem_singleton] at hf
    exact ⟨[], fun q _ => .inl (by rw [hf]), .inl (by rw [hf])⟩
  | ok tabs =>
    rw [simulate_before a hz ht] at hf ⊢
    have hp := puts_beforeStore (Spec.genDir a.workDir)
    rcases hr : (beforeStore (Spec.genDir a.workDir)).run fs with ⟨e | i, fs1⟩
    · rw [Prog.run_bind, hr]
      have hf' : f ∈ (beforeStore (Spec.genDir a.workDir)).trace fs := by
        rcases Prog.mem_trace_bind hf with h | ⟨i, _, h, -⟩
        · exact h
        · rw [hr] at h; cases h
      have key := noput_between hp fs f hf'
      rw [hr] at key
      exact ⟨[], fun q _ => key q, (key []).imp id .inl⟩
    · obtain ⟨hi, h0, h1, hmin⟩ := beforeStore_ok hr
      set p := (Spec.genDir a.workDir).join (testFile i) with hpdef
      have hps : p = Spec.simFile a.workDir i := simFile_eq _ hi
      set rest : Prog File (List Hdu) := writeFile .part p (.fits (hduList a tabs i)) >>= fun _ =>
        .ret (hduList a tabs i) with hrest
      have hrun : ((beforeStore (Spec.genDir a.workDir) >>= fun i =>
          writeFile .part ((Spec.genDir a.workDir).join (testFile i)) (.fits (hduList a tabs i)) >>= fun _ =>
            .ret (hduList a tabs i)).run fs).2 = (rest.run fs1).2 := by
        rw [Prog.run_bind, hr]
      rw [hrun]
      have hm1 : fs1 ∈ (beforeStore (Spec.genDir a.workDir)).trace fs := by
        have := (beforeStore (Spec.genDir a.workDir)).run_mem_trace fs
        rwa [hr] at this
      have hw : Writes (fun q => q = p) rest :=
        writes_bind (writes_writeFile (S := fun q => q = p) rfl _ _) fun _ => trivial
      have keep : ∀ g ∈ rest.trace fs1, ∀ q, q ≠ p → g q = fs1 q := fun g hg q hq => trace_frame hw hg hq
      refine ⟨p, fun q hq => ?_, ?_⟩
      · rw [keep _ (Prog.run_mem_trace _ _) q hq]
        rcases Prog.mem_trace_bind hf with h | ⟨i', _, h, h2⟩
        · have := noput_between hp fs f h q
          rwa [hr] at this
        · rw [hr] at h
          cases h
          exact .inr (keep f h2 q hq)
      · rcases Prog.mem_trace_bind hf with h | ⟨i', _, h, h2⟩
        · left
          rcases noput_between hp fs f h p with e | e
          · exact e
          · rw [hr] at e
            rw [e]
            exact h1.trans h0.symm
        · rw [hr] at h
          cases h
          have hrest2 : (rest.run fs1).2 = ((writeFile File.part p (.fits (hduList a tabs i))).run fs1).2 := by
            rw [hrest, Prog.run_bind]
            rcases (writeFile File.part p (.fits (hduList a tabs i))).run fs1 with ⟨x | x, g⟩ <;> rfl
          rw [hrest2]
          have h3 : f ∈ (writeFile File.part p (.fits (hduList a tabs i))).trace fs1 := by
            rcases Prog.mem_trace_bind h2 with h | ⟨_, g, h, h'⟩
            · exact h
            · have e : f = g := by simpa [Prog.trace] using h'
              have := (writeFile File.part p (.fits (hduList a tabs i))).run_mem_trace fs1
              rw [h] at this
              rw [e]
              exact this
          rcases writeFile_mid _ _ _ _ _ h3 with e | e | e
          · exact .inl (e.trans (h1.trans h0.symm))
          · exact .inr (.inl e)
          · exact .inr (.inr ⟨e, i, hi, hps, h0, fun j hj => by
              rw [← simFile_eq _ (by omega)]; exact hmin j hj⟩)

/-- Two lists of HDUs that differ in the name of the object at most. -/
def Spec.SameButObject (l l' : List Hdu) : Prop :=
  ∃ (h h' : Hdu) (t : List Hdu), l = h :: t ∧ l' = h' :: t ∧ h.data = h'.data ∧
    h.header.filter (fun x => x.1 ≠ "OBJECT".toList) = h'.header.filter fun x => x.1 ≠ "OBJECT".toList

/-- A call that can store its result. -/
theorem simulate_stores {N : ℕ} (a : Sim.Input N) (hz : Spec.DzOk a.dz) {tabs : List (List (Str × List ℝ))}
    (ht : tables a = .ok tabs) (fs : FS File) (hd : isDir fs a.workDir)
    (hg : fs (Spec.genDir a.workDir) = none ∨ isDir fs (Spec.genDir a.workDir))
    (hfree : ∃ i ≤ 100, fs (Spec.simFile a.workDir i) = none) :
    ∃ i fs', (simulate a).run fs = (.ok (hduList a tabs i), fs') := by
  rw [simulate_split a hz, Prog.run_bind, Prog.run_lift, ht]
  dsimp only
  obtain ⟨fs2, h2, hd2⟩ : ∃ fs2, (makeDir (a.workDir.join "data_generated".toList)).run fs = (.ok (), fs2) ∧
      isDir fs2 (a.workDir.join "data_generated".toList) := by
    unfold makeDir
    rw [Prog.run_bind, run_existsP]
    rcases hg with hg | hg
    · have hp : present fs (a.workDir.join "data_generated".toList) = false := by
        rw [present_cons, show fs ("data_generated".toList :: a.workDir) = none from hg]; rfl
      simp only [hp, Bool.not_false, if_true]
      rw [run_makedirs_leaf _ _ _ _ hd, if_neg (by rw [hp]; simp)]
      exact ⟨_, rfl, isDir_iff.2 (update_same _ _ _)⟩
    · have : isDir fs (a.workDir.join "data_generated".toList) := hg
      rw [isDir_present this]
      exact ⟨fs, rfl, hg⟩
  rw [Prog.run_bind, h2]
  dsimp only
  rcases saveLoop_run a tabs (a.workDir.join "data_generated".toList) (List.range 101) fs2 with
    ⟨pre, i, post, -, -, -, e4⟩ | ⟨e1, -⟩
  · rw [e4, if_pos hd2]
    exact ⟨_, _, rfl⟩
  · exfalso
    obtain ⟨i, hi, hf⟩ := hfree
    refine e1 i (List.mem_range.2 (by omega)) ?_
    rw [makeDir_below h2, ← hf, ← simFile_eq _ hi]

theorem simulate_result {N : ℕ} {a : Sim.Input N} {fs fs' : FS File} {l : List Hdu}
    (h : (simulate a).run fs = (.ok l, fs')) :
    Spec.DzOk a.dz ∧ ∃ tabs i, tables a = .ok tabs ∧ l = hduList a tabs i := by
  by_cases hz : Spec.DzOk a.dz
  swap
  · rw [(C54_rejects a hz fs).1] at h; cases h
  refine ⟨hz, ?_⟩
  rw [simulate_split a hz, Prog.run_bind_ok] at h
  obtain ⟨tabs, fs1, h1, h⟩ := h
  rw [Prog.run_lift, Prod.mk.injEq] at h1
  obtain ⟨ht, rfl⟩ := h1
  rw [Prog.run_bind_ok] at h
  obtain ⟨_, fs2, h2, h⟩ := h
  rcases saveLoop_run a tabs (a.workDir.join "data_generated".toList) (List.range 101) fs2 with
    ⟨pre, i, post, e1, e2, e3, e4⟩ | ⟨-, e2⟩
  · rw [e4] at h
    split_ifs at h
    · cases h
      exact ⟨tabs, i, ht, rfl⟩
    · cases h
  · rw [e2] at h; cases h

theorem hduList_same {N : ℕ} (a : Sim.Input N) (tabs : List (List (Str × List ℝ))) (i i' : ℕ) :
    Spec.SameButObject (hduList a tabs i) (hduList a tabs i') := by
  refine ⟨_, _, _, rfl, rfl, rfl, ?_⟩
  simp [List.filter_cons, List.filter_nil]

/-- **C115.**  After a simulation has been killed, the same call on the disk that it left returns the same data,
the name of the object excepted, stores them in a file that was not there, and changes nothing that the killed
call has left. -/
theorem C115_simulate_again {N : ℕ} (a : Sim.Input N) (fs fs' : FS File) (l : List Hdu) (hwf : WF fs)
    (h : (simulate a).run fs = (.ok l, fs')) (hd : isDir fs a.workDir) (f : FS File)
    (hf : f ∈ (simulate a).trace fs) (hfree : ∃ i ≤ 100, f (Spec.simFile a.workDir i) = none) :
    ∃ l' f', (simulate a).run f = (.ok l', f') ∧ Spec.SameButObject l l' ∧
      (∃ i ≤ 100, f (Spec.simFile a.workDir i) = none ∧ f' (Spec.simFile a.workDir i) = some (.file (.fits l'))) ∧
      ∀ q, f q ≠ none → f' q = f q := by
  obtain ⟨hz, tabs, i, ht, rfl⟩ := simulate_result h
  obtain ⟨k, -, -, -, hk⟩ := C56_file a fs fs' _ h
  have hm : fs' ∈ (simulate a).trace fs := by
    have := (simulate a).run_mem_trace fs
    rwa [h] at this
  have hgd : isDir fs' (Spec.genDir a.workDir) := trace_WF hwf hm _ _ (by
    rw [show Spec.simFile a.workDir k = (Spec.simFile a.workDir k).head! :: Spec.genDir a.workDir from rfl] at hk
    exact (congrArg Option.isSome hk : _))
  have hgf : f (Spec.genDir a.workDir) = none ∨ isDir f (Spec.genDir a.workDir) := by
    obtain ⟨q0, b1, b2⟩ := C115_simulation a fs f hf
    rw [h] at b1 b2
    have hgs : fs (Spec.genDir a.workDir) = none ∨ fs (Spec.genDir a.workDir) = some .dir := by
      by_cases hn : fs (Spec.genDir a.workDir) = none
      · exact .inl hn
      · right
        rw [← C56_preserved a fs fs' hm _ hn]
        exact isDir_iff.1 hgd
    have hcase : f (Spec.genDir a.workDir) = fs (Spec.genDir a.workDir) ∨
        f (Spec.genDir a.workDir) = fs' (Spec.genDir a.workDir) := by
      by_cases hq : Spec.genDir a.workDir = q0
      · subst hq
        rcases b2 with e | e | ⟨-, j, -, e, -⟩
        · exact .inl e
        · exact .inr e
        · exfalso
          have := congrArg List.length e
          simp [Spec.genDir, Spec.simFile] at this
      · exact b1 _ hq
    rcases hcase with e | e
    · rw [e]
      exact hgs.imp id fun e' => isDir_iff.2 (e.trans e')
    · exact .inr (isDir_iff.2 (e.trans (isDir_iff.1 hgd)))
  obtain ⟨i', f', h'⟩ := simulate_stores a hz ht f (trace_isDir hf hd) hgf hfree
  obtain ⟨j, hj, j1, -, j2⟩ := C56_file a f f' _ h'
  refine ⟨_, f', h', hduList_same a tabs i i', ⟨j, hj, j1, j2⟩, fun q hq => ?_⟩
  have hm' : f' ∈ (simulate a).trace f := by
    have := (simulate a).run_mem_trace f
    rwa [h'] at this
  exact C56_preserved a f f' hm' q hq

/-! ## The script -/

theorem extract_unreadable (s : Str) (hs : (splitext s).2 = ".fits".toList) :
    extractPyoof (fun _ => .error .osError) s = .error .osError := by
  unfold extractPyoof
  rw [if_neg (by rw [hs]; simp)]
  rfl

/-- **C115.**  If the script `pyoof_simulate_data.py` is killed while the first file of a directory is being written,
it never works there again: whatever is simulated in between, at every later run it raises an exception, and the
half-written file stays. -/
theorem C115_script_never {N : ℕ} (w : Path) (fs fs1 : FS File) (ls : List (List Hdu))
    (h0 : fs (Spec.simFile w 0) = some (.file .part)) (hist : Spec.SimHistory fs ls fs1) (b : Sim.Input N)
    (hb : b.workDir = w) :
    ∃ e fs2, (script b).run fs1 = (.error e, fs2) ∧ fs2 (Spec.simFile w 0) = some (.file .part) ∧
      ∀ l fs', (simulate b).run fs1 = (.ok l, fs') → e = .osError ∧ fs2 = fs' := by
  subst hb
  have h1 : fs1 (Spec.simFile b.workDir 0) = some (.file .part) := by
    rw [simHistory_preserved hist _ (by rw [h0]; simp), h0]
  rcases hr : (simulate b).run fs1 with ⟨e | l, fs'⟩
  · have hm := (simulate b).run_mem_trace fs1
    rw [hr] at hm
    refine ⟨e, fs', ?_, ?_, fun l fs' h => by cases h⟩
    · unfold script
      rw [Prog.run_bind, hr]
    · rw [C56_preserved b fs1 fs' hm _ (by rw [h1]; simp), h1]
  · have hm := (simulate b).run_mem_trace fs1
    rw [hr] at hm
    have h2 : fs' (Spec.simFile b.workDir 0) = some (.file .part) := by
      rw [C56_preserved b fs1 fs' hm _ (by rw [h1]; simp), h1]
    refine ⟨.osError, fs', ?_, h2, fun l fs' h => by cases h; exact ⟨rfl, rfl⟩⟩
    have hp : (b.workDir.join "data_generated".toList).join "test000.fits".toList = Spec.simFile b.workDir 0 := rfl
    unfold script
    rw [Prog.run_bind, hr]
    dsimp only
    rw [hp, Prog.run_bind]
    have : (openP (Spec.simFile b.workDir 0)).run fs' = (.ok (.error .osError), fs') := by
      unfold openP
      rw [Prog.run_op]
      simp only [exec, h2]
      rfl
    rw [this]
    dsimp only
    rw [Prog.run_lift, extract_unreadable _ (by decide)]

theorem simulate_killed {N : ℕ} (a : Sim.Input N) (fs fs' : FS File) (l : List Hdu)
    (h : (simulate a).run fs = (.ok l, fs')) (h0 : fs (Spec.simFile a.workDir 0) = none) :
    ∃ f ∈ (simulate a).trace fs, f (Spec.simFile a.workDir 0) = some (.file .part) ∧
      ∀ j, Spec.simFile a.workDir j ≠ Spec.simFile a.workDir 0 →
        f (Spec.simFile a.workDir j) = fs (Spec.simFile a.workDir j) := by
  obtain ⟨hz, tabs, -, ht, -⟩ := simulate_result h
  rw [simulate_before a hz ht, Prog.run_bind_ok] at h
  obtain ⟨i, fs1, h1, h⟩ := h
  obtain ⟨hi, -, e1, hmin⟩ := beforeStore_ok h1
  have hi0 : i = 0 := by
    by_contra hc
    exact hmin 0 (by omega) h0
  subst hi0
  have hp : (Spec.genDir a.workDir).join (testFile 0) = Spec.simFile a.workDir 0 := rfl
  rw [hp, Prog.run_bind_ok] at h
  obtain ⟨_, fs2, h2, -⟩ := h
  have hc : (!isDir fs1 (Spec.simFile a.workDir 0) && isDir fs1 (Spec.simFile a.workDir 0).tail) = true := by
    by_contra hc
    rw [run_writeFile, if_neg hc] at h2
    cases h2
  refine ⟨update fs1 (Spec.simFile a.workDir 0) (.file .part), ?_, update_same _ _ _, fun j hj => by
    rw [update_ne _ _ hj]; exact beforeStore_below h1 _⟩
  rw [simulate_before a hz ht]
  refine trace_bind_right h1 ?_
  rw [hp]
  refine trace_bind_left ?_
  unfold writeFile
  have e : exec fs1 (.put (Spec.simFile a.workDir 0) File.part) =
      (.yes, update fs1 (Spec.simFile a.workDir 0) (.file .part)) := by
    simp only [exec]
    rw [if_pos hc]
  simp only [Prog.trace, List.mem_cons]
  right
  rw [e]
  exact Prog.mem_trace_self _ _

/-- **C115.**  Such a moment exists in every run of the script that makes the first file of a directory. -/
theorem C115_script_killed {N : ℕ} (a : Sim.Input N) (fs fs' : FS File) (l : List Hdu)
    (h : (simulate a).run fs = (.ok l, fs')) (h0 : fs (Spec.simFile a.workDir 0) = none) :
    ∃ f ∈ (script a).trace fs, f (Spec.simFile a.workDir 0) = some (.file .part) := by
  obtain ⟨f, hf, hp, -⟩ := simulate_killed a fs fs' l h h0
  exact ⟨f, trace_bind_left hf, hp⟩

/-! ## Cases -/

/-- A fit of two orders, killed while the first file of the second order is being written: the table and the
figures of the first order are those of the complete fit, the table of a third order is not there. -/
example : ∃ f ∈ (fitZpoly sampleInput).trace sampleFs, ∃ d fs', (fitZpoly sampleInput).run sampleFs = (.ok d, fs') ∧
    f (Spec.file "fitpar" 2 :: d) = some (.file .part) ∧
    (tablePyoofOut 1 [d]).run f = (((tablePyoofOut 1 [d]).run fs').1, f) ∧
    (∀ e, ((Plot.plotFitPath e d 1 false).run f).1 = ((Plot.plotFitPath e d 1 false).run fs').1) ∧
    ∃ x, (tablePyoofOut 3 [d]).run f = (.error x, f) := by
  obtain ⟨f, hf, hpart⟩ := sample_killed
  obtain ⟨d, fs', h⟩ := sample_run
  obtain ⟨hd, hdn⟩ := sample_dir h
  rw [← hd] at hpart
  obtain ⟨k, k1, k2, k3, k4⟩ := C115_readers sampleInput sampleFs fs' sampleFs_wf d h hdn f hf
  have h2 : 2 ≤ k := by
    by_contra hc
    rw [k2 2 _ (by omega) (.inl (by simp [Spec.orderFiles]))] at hpart
    cases hpart
  have h3 : k < 3 := by
    by_contra hc
    exact (k1 2 _ (by omega) (by omega) le_rfl (.inl (by simp [Spec.orderFiles]))).2 hpart
  obtain ⟨t1, t2⟩ := k3 1 le_rfl (by omega) (show 1 ≤ 2 by omega)
  obtain ⟨⟨x, t3, -⟩, -⟩ := k4 3 h3
  refine ⟨f, hf, d, fs', h, hpart, t1, fun e => ?_, x, t3⟩
  obtain ⟨f', e1, -⟩ := t2 e
  rw [e1]

/-- A simulation, killed in an empty directory while it writes `test000.fits`: called again it returns the same
data. -/
example : ∃ f ∈ (simulate (simDay ["home".toList] "2020-01-02".toList)).trace twoHomes,
    f ["test000.fits".toList, "data_generated".toList, "home".toList] = some (.file .part) ∧
    ∃ l fs' l' f', (simulate (simDay ["home".toList] "2020-01-02".toList)).run twoHomes = (.ok l, fs') ∧
      (simulate (simDay ["home".toList] "2020-01-02".toList)).run f = (.ok l', f') ∧ Spec.SameButObject l l' := by
  obtain ⟨l, fs', h⟩ := simDay_runs ["home".toList] "2020-01-02".toList twoHomes (by decide) (.inl (by decide))
    ⟨0, by norm_num, by decide⟩
  obtain ⟨f, hf, hp, hj⟩ := simulate_killed _ _ _ _ h
    (show twoHomes (Spec.simFile ["home".toList] 0) = none by decide)
  have hw : WF twoHomes := by
    intro f d h
    unfold twoHomes at h
    split_ifs at h with h1
    · rcases h1 with h1 | h1 <;> (cases h1; rfl)
    · cases h
  have hfree : f (Spec.simFile ["home".toList] 1) = none := (hj 1 (by decide)).trans (by decide)
  obtain ⟨l', f', h1, h2, -⟩ := C115_simulate_again _ _ _ _ hw h (by decide) f hf ⟨1, by norm_num, hfree⟩
  exact ⟨f, hf, hp, l, fs', l', f', h, h1, h2⟩

/-- The script, killed in an empty directory while it writes: at the next day it raises. -/
example : ∃ f ∈ (script (simDay ["home".toList] "2020-01-02".toList)).trace twoHomes,
    f ["test000.fits".toList, "data_generated".toList, "home".toList] = some (.file .part) ∧
    ∃ e fs2, (script (simDay ["home".toList] "2020-01-03".toList)).run f = (.error e, fs2) := by
  obtain ⟨l, fs', h⟩ := simDay_runs ["home".toList] "2020-01-02".toList twoHomes (by decide) (.inl (by decide))
    ⟨0, by norm_num, by decide⟩
  obtain ⟨f, hf, hp⟩ := C115_script_killed _ _ _ _ h
    (show twoHomes (Spec.simFile ["home".toList] 0) = none by decide)
  obtain ⟨e, fs2, h2, -⟩ := C115_script_never ["home".toList] f f [] hp (.nil f)
    (simDay ["home".toList] "2020-01-03".toList) rfl
  exact ⟨f, hf, hp, e, fs2, h2⟩

end Verif.Props
