import Verif.Props.FitPlots
import Verif.Props.Batch

/-! # C111: a fit that is killed -/

namespace Verif.Props

open Verif Verif.Fs Verif.Store Verif.Fit Verif.Core Verif.Batch Verif.AuxFn

/-! ## Specification -/

/-- On the way from `fs` to `fs'`: every place is as in the one or as in the other, but for one file at
most, which is half-written. -/
def Spec.Between (fs f fs' : FS Content) : Prop :=
  ∃ q0, (∀ q, q ≠ q0 → f q = fs q ∨ f q = fs' q) ∧
    (f q0 = fs q0 ∨ f q0 = fs' q0 ∨ f q0 = some (.file .part))

/-- The figures of an order. -/
def Spec.figuresAt (m : ℕ) (f : Str) : Prop :=
  (∃ kind ∈ ["fitbeam", "fitphase", "residual", "cov", "corr"],
    f = kind.toList ++ "_n".toList ++ decNat m ++ ".pdf".toList) ∨ (m = 1 ∧ f = "obsbeam.pdf".toList)

/-! ## Programs that write a file once -/

/-- All changes are in `S`, all writing is in `P`; if nothing is at the places of `P`, a program that is
stopped leaves something between the start and the end. -/
structure Snap {α : Type} (S P : Path → Prop) (p : Prog Content α) : Prop where
  writes : Writes S p
  puts : Puts P p
  mid : ∀ fs, (∀ q, P q → fs q = none) → ∀ f ∈ p.trace fs, Spec.Between fs f (p.run fs).2

theorem between_left (fs f : FS Content) : Spec.Between fs fs f :=
  ⟨[], fun _ _ => .inl rfl, .inl rfl⟩

theorem trace_some {C α : Type} {p : Prog C α} {fs f : FS C} (h : f ∈ p.trace fs) {q : Path}
    (hq : (fs q).isSome) : (f q).isSome ∧ (fs q = some .dir → f q = some .dir) := by
  induction p generalizing fs with
  | ret a => simp only [Prog.trace, List.mem_singleton] at h; rw [h]; exact ⟨hq, id⟩
  | raise e => simp only [Prog.trace, List.mem_singleton] at h; rw [h]; exact ⟨hq, id⟩
  | op o k ih =>
    simp only [Prog.trace, List.mem_cons] at h
    rcases h with h | h
    · rw [h]; exact ⟨hq, id⟩
    · have e := exec_mono fs o q hq
      have e2 := ih _ h e.1
      exact ⟨e2.1, fun hd => e2.2 (e.2 hd)⟩

/-- A program that writes no file. -/
theorem snap_noput {α : Type} {S : Path → Prop} {p : Prog Content α} (hw : Writes S p)
    (hp : Puts (fun _ => False) p) : Snap S (fun _ => False) p := by
  refine ⟨hw, hp, fun fs _ f hf => ⟨[], fun q _ => ?_, ?_⟩⟩
  all_goals
    clear hw
  · exact noput_mid hp fs f hf q
  · exact (noput_mid hp fs f hf []).imp id .inl
where
  noput_mid {α : Type} {p : Prog Content α} (hp : Puts (fun _ => False) p) (fs f : FS Content)
      (hf : f ∈ p.trace fs) (q : Path) : f q = fs q ∨ f q = (p.run fs).2 q := by
    induction p generalizing fs with
    | ret a => simp only [Prog.trace, List.mem_singleton] at hf; rw [hf]; exact .inl rfl
    | raise e => simp only [Prog.trace, List.mem_singleton] at hf; rw [hf]; exact .inl rfl
    | op o k ih =>
      simp only [Prog.trace, List.mem_cons] at hf
      rcases hf with hf | hf
      · rw [hf]; exact .inl rfl
      · rcases ih _ (hp.2 _) _ hf with h | h
        · rw [Prog.run_op]
          by_cases hq : (fs q).isSome
          · left
            rw [h]
            exact exec_mkdir_frame fs o q (fun c hc => hp.1 _ c hc) hq
          · by_cases hq2 : ((exec fs o).2 q).isSome
            · right
              rw [h]
              exact (trace_puts (hp.2 _) (Prog.run_mem_trace _ _) hq2 id).symm
            · left
              rw [h, Option.not_isSome_iff_eq_none.1 hq2, Option.not_isSome_iff_eq_none.1 hq]
        · exact .inr h

theorem Snap.mono {α : Type} {S P S' P' : Path → Prop} {p : Prog Content α} (h : Snap S P p)
    (hS : ∀ q, S q → S' q) (hP : ∀ q, P q → P' q) : Snap S' P' p :=
  ⟨writes_mono hS h.writes, puts_mono hP h.puts, fun fs hf => h.mid fs fun q hq => hf q (hP q hq)⟩

theorem between_bind {α β : Type} {S P' : Path → Prop} {p : Prog Content α} {k : α → Prog Content β}
    {fs f : FS Content} (hw : Writes S p) (hm : ∀ f ∈ p.trace fs, Spec.Between fs f (p.run fs).2)
    (hk : ∀ a fs1, p.run fs = (.ok a, fs1) → Puts P' (k a) ∧
      ∀ f ∈ (k a).trace fs1, Spec.Between fs1 f ((k a).run fs1).2)
    (hd : ∀ q, S q → ¬ P' q) (hf : f ∈ (p >>= k).trace fs) : Spec.Between fs f ((p >>= k).run fs).2 := by
  rcases hr : p.run fs with ⟨e | a, fs1⟩
  · have h1 : ((p >>= k).run fs).2 = fs1 := by rw [Prog.run_bind, hr]
    rw [h1]
    rcases Prog.mem_trace_bind hf with h | ⟨a, _, h, -⟩
    · have := hm f h
      rwa [hr] at this
    · rw [hr] at h; cases h
  · have h1 : ((p >>= k).run fs).2 = ((k a).run fs1).2 := by rw [Prog.run_bind, hr]
    rw [h1]
    have hm1 : fs1 ∈ p.trace fs := by have := p.run_mem_trace fs; rwa [hr] at this
    have keep : ∀ q, fs1 q = fs q ∨ ((k a).run fs1).2 q = fs1 q := by
      intro q
      by_cases h : S q
      · by_cases hs : (fs1 q).isSome
        · exact .inr (trace_puts (hk a fs1 hr).1 (Prog.run_mem_trace _ _) hs (hd q h))
        · left
          rw [Option.not_isSome_iff_eq_none.1 hs]
          by_contra hc
          exact hs (trace_some hm1 (Option.isSome_iff_ne_none.2 fun h => hc h.symm)).1
      · exact .inl (trace_frame hw hm1 h)
    have step : ∀ q, f q = fs1 q → f q = fs q ∨ f q = ((k a).run fs1).2 q := by
      intro q e
      rcases keep q with h | h
      · exact .inl (e.trans h)
      · exact .inr (e.trans h.symm)
    rcases Prog.mem_trace_bind hf with h | ⟨a', _, h, h2⟩
    · obtain ⟨q0, h3, h4⟩ := hm f h
      rw [hr] at h3 h4
      refine ⟨q0, fun q hq => ?_, ?_⟩
      · rcases h3 q hq with e | e
        · exact .inl e
        · exact step q e
      · rcases h4 with e | e | e
        · exact .inl e
        · exact (step q0 e).imp id .inl
        · exact .inr (.inr e)
    · rw [hr] at h
      cases h
      obtain ⟨q0, h3, h4⟩ := (hk a fs1 hr).2 f h2
      refine ⟨q0, fun q hq => ?_, ?_⟩
      · rcases h3 q hq with e | e
        · exact step q e
        · exact .inr e
      · rcases h4 with e | e | e
        · exact (step q0 e).imp id .inl
        · exact .inr (.inl e)
        · exact .inr (.inr e)

theorem snap_bind {α β : Type} {S S' P P' : Path → Prop} {p : Prog Content α} {k : α → Prog Content β}
    (hp : Snap S P p) (hk : ∀ a, Snap S' P' (k a)) (hd : ∀ q, S q → ¬ P' q) :
    Snap (fun q => S q ∨ S' q) (fun q => P q ∨ P' q) (p >>= k) := by
  refine ⟨writes_bind (writes_mono (fun q => .inl) hp.writes) fun a => writes_mono (fun q => .inr) (hk a).writes,
    puts_bind (puts_mono (fun q => .inl) hp.puts) fun a => puts_mono (fun q => .inr) (hk a).puts, ?_⟩
  intro fs hfs f hf
  refine between_bind hp.writes (hp.mid fs fun q hq => hfs q (.inl hq)) (fun a fs1 hr => ⟨(hk a).puts, ?_⟩) hd hf
  have hm : fs1 ∈ p.trace fs := by have := p.run_mem_trace fs; rwa [hr] at this
  refine (hk a).mid fs1 fun q hq => ?_
  rw [trace_frame hp.writes hm fun h => hd q h hq]
  exact hfs q (.inr hq)

theorem snap_ret {α : Type} (a : α) : Snap (fun _ => False) (fun _ => False) (Prog.ret a) :=
  snap_noput trivial trivial

theorem snap_raise {α : Type} (e : PyErr) :
    Snap (fun _ => False) (fun _ => False) (Prog.raise e : Prog Content α) :=
  snap_noput trivial trivial

theorem snap_writeFile (p : Path) (c : Content) :
    Snap (fun q => q = p) (fun q => q = p) (writeFile .part p c) := by
  refine ⟨writes_writeFile (S := fun q => q = p) rfl _ _, puts_writeFile (S := fun q => q = p) rfl _ _,
    fun fs hfs f hf => ?_⟩
  have hfr : ∀ q, q ≠ p → f q = fs q := fun q hq =>
    trace_frame (S := fun q => q = p) (writes_writeFile (S := fun q => q = p) rfl _ _) hf hq
  refine ⟨p, fun q hq => .inl (hfr q hq), ?_⟩
  rw [run_writeFile]
  unfold writeFile at hf
  simp only [Prog.trace, List.mem_cons] at hf
  rcases hf with rfl | hf
  · exact .inl rfl
  by_cases hc : (!isDir fs p && isDir fs p.tail) = true
  · have e1 : exec fs (.put p Content.part) = (.yes, update fs p (.file .part)) := by
      simp only [exec]; rw [if_pos hc]
    rw [if_pos hc]
    rw [e1] at hf
    simp only [Prog.trace, List.mem_cons] at hf
    rcases hf with rfl | hf
    · exact .inr (.inr (update_same _ _ _))
    · by_cases hc2 : (!isDir (update fs p (.file .part)) p && isDir (update fs p (.file .part)) p.tail) = true
      · have e2 : exec (update fs p (.file .part)) (.put p c) =
            (.yes, update (update fs p (.file .part)) p (.file c)) := by simp only [exec]; rw [if_pos hc2]
        rw [e2] at hf
        simp only [Prog.trace, List.mem_singleton] at hf
        rw [hf, update_same]
        exact .inr (.inl (update_same fs p (.file c)).symm)
      · have e2 : exec (update fs p (.file .part)) (.put p c) = (.no, update fs p (.file .part)) := by
          simp only [exec]; rw [if_neg hc2]
        rw [e2] at hf
        simp only [Prog.trace, List.mem_singleton] at hf
        rw [hf, update_same]
        exact .inr (.inr rfl)
  · have e1 : exec fs (.put p Content.part) = (.no, fs) := by simp only [exec]; rw [if_neg hc]
    rw [e1] at hf
    simp only [Prog.trace, List.mem_singleton] at hf
    rw [hf]
    exact .inl rfl

/-! ## What one order writes -/

theorem figure_not {m : ℕ} {kind : String} (hk : kind ∈ ["fitbeam", "fitphase", "residual", "cov", "corr"]) :
    kind.toList ++ "_n".toList ++ decNat m ++ ".pdf".toList ≠ "obsbeam.pdf".toList := by
  intro h
  have h2 := congrArg (fun l => l.head?) h
  revert h2
  simp only [List.mem_cons, List.not_mem_nil, or_false] at hk
  rcases hk with rfl | rfl | rfl | rfl | rfl <;> simp

theorem figuresAt_disjoint {m m' : ℕ} {f : Str} (h : Spec.figuresAt m f) (h' : Spec.figuresAt m' f) :
    m = m' := by
  rcases h with ⟨k, hk, rfl⟩ | ⟨rfl, rfl⟩ <;> rcases h' with ⟨k', hk', e⟩ | ⟨rfl, e⟩
  · have hkk : k = k' := by
      simp only [List.mem_cons, List.not_mem_nil, or_false] at hk hk'
      rcases hk with rfl | rfl | rfl | rfl | rfl <;> rcases hk' with rfl | rfl | rfl | rfl | rfl <;>
        first
          | rfl
          | (exfalso; simp at e)
    subst hkk
    have h1 := List.append_cancel_right e
    exact decNat_inj (List.append_cancel_left h1)
  · exact absurd e (figure_not hk)
  · exact absurd e.symm (figure_not hk')
  · rfl

/-- The places that the order `m` writes to. -/
def OrderPlace (d : Path) (m : ℕ) (q : Path) : Prop :=
  (∃ f, Spec.filesAt m f ∧ q = f :: d) ∨ ∃ f, Spec.figuresAt m f ∧ q = f :: "plots".toList :: d

theorem orderPlace_disjoint {d q : Path} {m m' : ℕ} (h : OrderPlace d m q) (h' : OrderPlace d m' q) :
    m = m' := by
  rcases h with ⟨f, hf, rfl⟩ | ⟨f, hf, rfl⟩ <;> rcases h' with ⟨g, hg, e⟩ | ⟨g, hg, e⟩
  · cases e; exact filesAt_disjoint hf hg
  · have := congrArg List.length e; simp at this
  · have := congrArg List.length e; simp at this
  · cases e; exact figuresAt_disjoint hf hg

theorem orderPlace_plots {d q : Path} {m : ℕ} (h : OrderPlace d m q) : ¬ q <:+ "plots".toList :: d := by
  intro hs
  rcases h with ⟨f, hf, rfl⟩ | ⟨f, hf, rfl⟩
  · have := hs.eq_of_length (by simp)
    rw [List.cons.injEq] at this
    exact filesAt_not_plots m (this.1 ▸ hf)
  · have := hs.length_le; simp at this

theorem snap_saveLoop (name : Str) (d : Path) (l : List (Str × Str × List (List Fl)))
    (hl : (l.map Prod.fst).Nodup) :
    Snap (fun q => ∃ f ∈ l.map Prod.fst, q = f :: d) (fun q => ∃ f ∈ l.map Prod.fst, q = f :: d)
      (saveLoop name d l) := by
  induction l with
  | nil => exact (snap_ret ()).mono (fun q => False.elim) fun q => False.elim
  | cons x l ih =>
    obtain ⟨f, h, x⟩ := x
    rw [List.map_cons, List.nodup_cons] at hl
    refine (snap_bind (snap_writeFile _ _) (fun _ => ih hl.2) ?_).mono ?_ ?_
    · rintro q rfl ⟨g, hg, e⟩
      cases e
      exact hl.1 hg
    all_goals
      rintro q (rfl | ⟨g, hg, rfl⟩)
      · exact ⟨f, List.mem_cons_self, rfl⟩
      · exact ⟨g, List.mem_cons_of_mem _ hg, rfl⟩

theorem snap_plotFitPath (d : Path) (m : ℕ) :
    Snap (fun q => (∃ f, Spec.figuresAt m f ∧ q = f :: "plots".toList :: d) ∨ q <:+ "plots".toList :: d)
      (fun q => ∃ f, Spec.figuresAt m f ∧ q = f :: "plots".toList :: d) (plotFitPath d m) := by
  have hne : ∀ k k' : String, k.toList ≠ k'.toList → ∀ q : Path,
      q = (d.join "plots".toList).join (k.toList ++ "_n".toList ++ decNat m ++ ".pdf".toList) →
      q ≠ (d.join "plots".toList).join (k'.toList ++ "_n".toList ++ decNat m ++ ".pdf".toList) := by
    rintro k k' hk q rfl e
    rw [List.cons.injEq] at e
    exact hk (List.append_cancel_right (List.append_cancel_right (List.append_cancel_right e.1)))
  have hobs : ∀ k ∈ ["fitbeam", "fitphase", "residual", "cov", "corr"], ∀ q : Path,
      q = (d.join "plots".toList).join (k.toList ++ "_n".toList ++ decNat m ++ ".pdf".toList) →
      ¬ (m = 1 ∧ q = (d.join "plots".toList).join "obsbeam.pdf".toList) := by
    rintro k hk q rfl ⟨-, e⟩
    rw [List.cons.injEq] at e
    exact figure_not hk e.1
  have hlast : Snap (fun q => m = 1 ∧ q = (d.join "plots".toList).join "obsbeam.pdf".toList)
      (fun q => m = 1 ∧ q = (d.join "plots".toList).join "obsbeam.pdf".toList)
      (if m = 1 then writeFile .part ((d.join "plots".toList).join "obsbeam.pdf".toList) .plot
        else pure () : Prog Content Unit) := by
    by_cases hm : m = 1
    · rw [if_pos hm]
      exact (snap_writeFile _ _).mono (fun q h => ⟨hm, h⟩) fun q h => ⟨hm, h⟩
    · rw [if_neg hm]
      exact (snap_ret ()).mono (fun q => False.elim) fun q => False.elim
  have hrest : Snap (fun q => ∃ f, Spec.figuresAt m f ∧ q = f :: "plots".toList :: d)
      (fun q => ∃ f, Spec.figuresAt m f ∧ q = f :: "plots".toList :: d) (do
      let pdf := fun kind : String =>
        (d.join "plots".toList).join (kind.toList ++ "_n".toList ++ decNat m ++ ".pdf".toList)
      writeFile Content.part (pdf "fitbeam") .plot
      writeFile .part (pdf "fitphase") .plot
      writeFile .part (pdf "residual") .plot
      writeFile .part (pdf "cov") .plot
      writeFile .part (pdf "corr") .plot
      if m = 1 then writeFile .part ((d.join "plots".toList).join "obsbeam.pdf".toList) .plot) := by
    have s4 := snap_bind (snap_writeFile ((d.join "plots".toList).join
      ("corr".toList ++ "_n".toList ++ decNat m ++ ".pdf".toList)) .plot) (fun _ => hlast)
      (hobs "corr" (by simp))
    have s3 := snap_bind (snap_writeFile ((d.join "plots".toList).join
      ("cov".toList ++ "_n".toList ++ decNat m ++ ".pdf".toList)) .plot) (fun _ => s4) (by
        rintro q hq (h | h)
        · exact hne "cov" "corr" (by decide) q hq h
        · exact hobs "cov" (by simp) q hq h)
    have s2 := snap_bind (snap_writeFile ((d.join "plots".toList).join
      ("residual".toList ++ "_n".toList ++ decNat m ++ ".pdf".toList)) .plot) (fun _ => s3) (by
        rintro q hq (h | h | h)
        · exact hne "residual" "cov" (by decide) q hq h
        · exact hne "residual" "corr" (by decide) q hq h
        · exact hobs "residual" (by simp) q hq h)
    have s1 := snap_bind (snap_writeFile ((d.join "plots".toList).join
      ("fitphase".toList ++ "_n".toList ++ decNat m ++ ".pdf".toList)) .plot) (fun _ => s2) (by
        rintro q hq (h | h | h | h)
        · exact hne "fitphase" "residual" (by decide) q hq h
        · exact hne "fitphase" "cov" (by decide) q hq h
        · exact hne "fitphase" "corr" (by decide) q hq h
        · exact hobs "fitphase" (by simp) q hq h)
    have s0 := snap_bind (snap_writeFile ((d.join "plots".toList).join
      ("fitbeam".toList ++ "_n".toList ++ decNat m ++ ".pdf".toList)) .plot) (fun _ => s1) (by
        rintro q hq (h | h | h | h | h)
        · exact hne "fitbeam" "fitphase" (by decide) q hq h
        · exact hne "fitbeam" "residual" (by decide) q hq h
        · exact hne "fitbeam" "cov" (by decide) q hq h
        · exact hne "fitbeam" "corr" (by decide) q hq h
        · exact hobs "fitbeam" (by simp) q hq h)
    refine s0.mono ?_ ?_
    all_goals
      rintro q (h | h | h | h | h | ⟨h1, h⟩)
      · exact ⟨_, .inl ⟨"fitbeam", by simp, rfl⟩, h⟩
      · exact ⟨_, .inl ⟨"fitphase", by simp, rfl⟩, h⟩
      · exact ⟨_, .inl ⟨"residual", by simp, rfl⟩, h⟩
      · exact ⟨_, .inl ⟨"cov", by simp, rfl⟩, h⟩
      · exact ⟨_, .inl ⟨"corr", by simp, rfl⟩, h⟩
      · exact ⟨_, .inr ⟨h1, rfl⟩, h⟩
  have hlong : ∀ q : Path, q <:+ "plots".toList :: d →
      ¬ ∃ f, Spec.figuresAt m f ∧ q = f :: "plots".toList :: d := by
    rintro q hs ⟨f, -, rfl⟩
    have := hs.length_le
    simp at this
  have hfirst : Snap (fun q => q <:+ "plots".toList :: d) (fun _ => False) (do
      let e ← existsP (d.join "plots".toList)
      if !e then makedirs (d.join "plots".toList) false : Prog Content Unit) := by
    refine snap_noput (writes_bind (writes_existsP _) fun e => ?_) (puts_bind (puts_existsP _) fun e => ?_)
    · cases e
      · exact writes_makedirs _ _
      · trivial
    · cases e
      · exact puts_makedirs _ _
      · trivial
  have := snap_bind hfirst (fun _ => hrest) hlong
  have e : plotFitPath d m = ((do
      let e ← existsP (d.join "plots".toList)
      if !e then makedirs (d.join "plots".toList) false : Prog Content Unit) >>= fun _ => (do
      let pdf := fun kind : String =>
        (d.join "plots".toList).join (kind.toList ++ "_n".toList ++ decNat m ++ ".pdf".toList)
      writeFile Content.part (pdf "fitbeam") .plot
      writeFile .part (pdf "fitphase") .plot
      writeFile .part (pdf "residual") .plot
      writeFile .part (pdf "cov") .plot
      writeFile .part (pdf "corr") .plot
      if m = 1 then writeFile .part ((d.join "plots".toList).join "obsbeam.pdf".toList) .plot)) := by
    unfold plotFitPath
    rw [prog_bind_assoc]
    dsimp only
    congr 1
    funext e
    cases e <;> rfl
  rw [e]
  exact this.mono (fun q h => h.elim .inr .inl) fun q h => h.elim False.elim id

theorem snap_fitOrder {N M : ℕ} (a : Input N M) (s : List Fl) (d : Path) (m : ℕ) :
    Snap (fun q => OrderPlace d m q ∨ q <:+ "plots".toList :: d) (OrderPlace d m) (fitOrder a s d m) := by
  have hno : ∀ {α : Type} {p : Prog Content α} {k : α → Prog Content Unit},
      Writes (fun _ => False) p → Puts (fun _ => False) p →
      (∀ x, Snap (fun q => OrderPlace d m q ∨ q <:+ "plots".toList :: d) (OrderPlace d m) (k x)) →
      Snap (fun q => OrderPlace d m q ∨ q <:+ "plots".toList :: d) (OrderPlace d m) (p >>= k) := by
    intro α p k h1 h2 h3
    exact (snap_bind (snap_noput h1 h2) h3 fun q h => h.elim).mono (fun q h => h.elim False.elim id)
      fun q h => h.elim False.elim id
  unfold fitOrder
  refine hno ?_ ?_ fun init => ?_
  · unfold startVector
    dsimp only
    split_ifs
    · refine writes_bind (writes_readFile _) fun c => ?_
      cases c <;> trivial
    · trivial
  · unfold startVector
    dsimp only
    split_ifs
    · refine puts_bind (puts_readFile _) fun c => ?_
      cases c <;> trivial
    · trivial
  cases hso : solveOrder a m init with
  | error e => exact (snap_raise e).mono (fun q => False.elim) fun q => False.elim
  | ok out =>
    rw [Prog.lift_ok, Prog.ret_bind]
    obtain ⟨-, -, -, -, -, -, -, -, -, hlen⟩ := solveOrder_ok hso
    have hnames := orderStore_names a s m [] init out hlen
    have hnd := orderStore_nodup a s m [] init out hlen
    have hmem := orderStore_mem a s m [] init out hlen
    have hst : orderStore a s m [] init out =
        (fileName "fitpar" m, .params [] out.sol init) ::
        ((if m = 1 then [("pyoof_info.yml".toList, Content.info (infoOf a s))] else []) ++
          csvFiles a.name (csvRows m out.save)) := rfl
    have hcn : (csvFiles a.name (csvRows m out.save)).map Prod.fst = (csvRows m out.save).map Prod.fst := by
      unfold csvFiles; rw [List.map_map]; rfl
    rw [hst, List.map_cons, List.map_append, hcn, List.nodup_cons, List.nodup_append] at hnd
    rw [hst, List.map_cons, List.map_append, hcn] at hmem
    obtain ⟨nd1, -, nd2, nd3⟩ := hnd
    rw [List.mem_append, not_or] at nd1
    -- the last two parts
    have hcsv : Snap (fun q => (∃ f ∈ (csvRows m out.save).map Prod.fst, q = f :: d) ∨
          (∃ f, Spec.figuresAt m f ∧ q = f :: "plots".toList :: d) ∨ q <:+ "plots".toList :: d)
        (fun q => (∃ f ∈ (csvRows m out.save).map Prod.fst, q = f :: d) ∨
          (∃ f, Spec.figuresAt m f ∧ q = f :: "plots".toList :: d)) (do
        storeDataCsv a.name d m out.save
        if a.makePlots then plotFitPath d m) := by
      rw [storeDataCsv_eq]
      refine snap_bind (snap_saveLoop _ _ _ nd2) (fun _ => ?_) ?_
      · cases a.makePlots
        · exact (snap_ret ()).mono (fun q => False.elim) fun q => False.elim
        · exact snap_plotFitPath d m
      · rintro q ⟨f, -, rfl⟩ ⟨g, -, e⟩
        have := congrArg List.length e
        simp at this
    have hlast : ∀ q : Path, (∃ f, Spec.figuresAt m f ∧ q = f :: "plots".toList :: d) → ∀ g, q ≠ g :: d := by
      rintro q ⟨f, -, rfl⟩ g e
      have := congrArg List.length e
      simp at this
    have hcsvf : ∀ f ∈ (csvRows m out.save).map Prod.fst, Spec.filesAt m f := fun f hf =>
      (hmem f).1 (List.mem_cons_of_mem _ (List.mem_append_right _ hf))
    have hpar : Spec.filesAt m (fileName "fitpar" m) := (hmem _).1 List.mem_cons_self
    unfold storeDataAscii
    rw [prog_bind_assoc]
    refine hno (writes_lift _) (puts_lift _) fun names => ?_
    by_cases hl : names.length = out.sol.length ∧ out.sol.length = init.length
    swap
    · rw [if_neg hl]
      exact (snap_raise _).mono (fun q => False.elim) fun q => False.elim
    rw [if_pos hl]
    by_cases hm : m = 1
    · dsimp only
      simp only [hm, if_true] at nd1 nd3 hmem ⊢
      subst hm
      have hinfo : Spec.filesAt 1 "pyoof_info.yml".toList := (hmem _).1 (by simp)
      refine (snap_bind (snap_writeFile _ _) (fun _ => snap_bind (snap_writeFile _ _) (fun _ => hcsv) ?_)
        ?_).mono ?_ ?_
      · rintro q rfl (⟨f, hf, e⟩ | hp)
        · cases e
          exact nd3 _ (by simp) _ hf rfl
        · exact hlast _ hp _ rfl
      · rintro q rfl (e | ⟨f, hf, e⟩ | hp)
        · rw [List.cons.injEq] at e
          exact nd1.1 (by rw [e.1]; simp)
        · cases e
          exact nd1.2 hf
        · exact hlast _ hp _ rfl
      · rintro q (rfl | rfl | ⟨f, hf, rfl⟩ | hp | hp)
        · exact .inl (.inl ⟨_, hpar, rfl⟩)
        · exact .inl (.inl ⟨_, hinfo, rfl⟩)
        · exact .inl (.inl ⟨_, hcsvf f hf, rfl⟩)
        · exact .inl (.inr hp)
        · exact .inr hp
      · rintro q (rfl | rfl | ⟨f, hf, rfl⟩ | hp)
        · exact .inl ⟨_, hpar, rfl⟩
        · exact .inl ⟨_, hinfo, rfl⟩
        · exact .inl ⟨_, hcsvf f hf, rfl⟩
        · exact .inr hp
    · dsimp only
      rw [if_neg hm]
      refine (snap_bind (snap_writeFile _ _) (fun _ => hcsv) ?_).mono ?_ ?_
      · rintro q rfl (⟨f, hf, e⟩ | hp)
        · cases e
          exact nd1.2 hf
        · exact hlast _ hp _ rfl
      · rintro q (rfl | ⟨f, hf, rfl⟩ | hp | hp)
        · exact .inl (.inl ⟨_, hpar, rfl⟩)
        · exact .inl (.inl ⟨_, hcsvf f hf, rfl⟩)
        · exact .inl (.inr hp)
        · exact .inr hp
      · rintro q (rfl | ⟨f, hf, rfl⟩ | hp)
        · exact .inl ⟨_, hpar, rfl⟩
        · exact .inl ⟨_, hcsvf f hf, rfl⟩
        · exact .inr hp

theorem snap_fitLoop {N M : ℕ} (a : Input N M) (s : List Fl) (d : Path) (n k : ℕ) :
    Snap (fun q => (∃ m, n ≤ m ∧ m < n + k ∧ OrderPlace d m q) ∨ q <:+ "plots".toList :: d)
      (fun q => ∃ m, n ≤ m ∧ m < n + k ∧ OrderPlace d m q) (fitLoop a s d n k) := by
  induction k generalizing n with
  | zero => exact (snap_ret ()).mono (fun q => False.elim) fun q => False.elim
  | succ k ih =>
    refine (snap_bind (snap_fitOrder a s d n) (fun _ => ih (n + 1)) ?_).mono ?_ ?_
    · rintro q (h | h) ⟨m, hm, -, h'⟩
      · have := orderPlace_disjoint h h'
        omega
      · exact orderPlace_plots h' h
    · rintro q ((h | h) | ⟨m, h1, h2, h⟩ | h)
      · exact .inl ⟨n, le_rfl, by omega, h⟩
      · exact .inr h
      · exact .inl ⟨m, by omega, by omega, h⟩
      · exact .inr h
    · rintro q (h | ⟨m, h1, h2, h⟩)
      · exact ⟨n, le_rfl, by omega, h⟩
      · exact ⟨m, by omega, by omega, h⟩

/-! ## The whole run -/

theorem trace_run_some {C α : Type} {p : Prog C α} {fs f : FS C} (h : f ∈ p.trace fs) {q : Path}
    (hq : (f q).isSome) : ((p.run fs).2 q).isSome := by
  induction p generalizing fs with
  | ret a => simp only [Prog.trace, List.mem_singleton] at h; rw [h] at hq; exact hq
  | raise e => simp only [Prog.trace, List.mem_singleton] at h; rw [h] at hq; exact hq
  | op o k ih =>
    simp only [Prog.trace, List.mem_cons] at h
    rcases h with h | h
    · rw [h] at hq
      exact (trace_some (Prog.run_mem_trace (.op o k) fs) hq).1
    · exact ih _ h

theorem orderPlace_below {d q : Path} {m : ℕ} (h : OrderPlace d m q) : Below d q := by
  rcases h with ⟨f, -, rfl⟩ | ⟨f, -, rfl⟩
  · exact below_join _ _
  · exact below_trans (below_join _ _)

theorem fitRest_between {N M : ℕ} (a : Input N M) (d : Path) (fs f : FS Content)
    (hfs : ∀ q, Below d q → fs q = none) (hf : f ∈ (fitRest a d).trace fs) :
    Spec.Between fs f ((fitRest a d).run fs).2 := by
  have hl : ∀ {α : Type} (x : Py α) (k : α → Prog Content Path),
      (∀ y, Snap (fun q => Below d q ∨ q <:+ "plots".toList :: d) (Below d) (k y)) →
      Snap (fun q => Below d q ∨ q <:+ "plots".toList :: d) (Below d) (Prog.lift x >>= k) := by
    intro α x k hk
    exact (snap_bind (snap_noput (writes_lift (S := fun _ => False) x) (puts_lift x)) hk fun q h => h.elim).mono
      (fun q h => h.elim False.elim id) fun q h => h.elim False.elim id
  have : Snap (fun q => Below d q ∨ q <:+ "plots".toList :: d) (Below d) (fitRest a d) := by
    unfold fitRest
    refine hl _ _ fun s0 => hl _ _ fun s1 => hl _ _ fun s2 => ?_
    refine (snap_bind (snap_fitLoop a _ d 1 a.orderMax) (fun _ => snap_ret d) fun q _ h => h).mono ?_ ?_
    · rintro q ((⟨m, -, -, h⟩ | h) | h)
      · exact .inl (orderPlace_below h)
      · exact .inr h
      · exact h.elim
    · rintro q (⟨m, -, -, h⟩ | h)
      · exact orderPlace_below h
      · exact h.elim
  exact this.mid fs hfs f hf

/-- **C111.**  A fit that is stopped at any moment, by a signal or otherwise, leaves every place as it was
before or as the complete run leaves it, but for at most one file that is half-written; what was there before is
unchanged, and there is nothing that the complete run would not make. -/
theorem C111_snapshot {N M : ℕ} (a : Input N M) (fs : FS Content) (hwf : WF fs)
    (hfree : ∃ i ≤ 100, fs (Spec.runDir a.workDir a.name i) = none) (f : FS Content)
    (hf : f ∈ (fitZpoly a).trace fs) :
    Spec.Between fs f ((fitZpoly a).run fs).2 ∧ (∀ q, fs q ≠ none → f q = fs q) ∧
    ∀ q, f q ≠ none → ((fitZpoly a).run fs).2 q ≠ none := by
  refine ⟨?_, C45_preserved a fs hwf hfree f hf, fun q hq => ?_⟩
  swap
  · rw [← Option.isSome_iff_ne_none] at hq ⊢
    exact trace_run_some hf hq
  rw [fitZpoly_eq] at hf ⊢
  refine between_bind (P' := fun q => a.workDir.length + 2 < q.length) (writes_allocDir a.workDir a.name)
    ((snap_noput (writes_allocDir a.workDir a.name) (puts_allocDir a.workDir a.name)).mid fs fun q h => h.elim)
    (fun d fs1 hr => ?_) (fun q h1 h2 => absurd h1 (by omega)) hf
  obtain ⟨i, hi, hdi, hnew⟩ := allocDir_ok hr
  have hd : fs d = none := by
    rcases hnew with h | h
    · exact h.1
    · obtain ⟨k, hk, hk'⟩ := hfree
      exact absurd hk' (Option.isSome_iff_ne_none.1 (h.2 k hk))
  have hlen : d.length = a.workDir.length + 2 := by rw [hdi]; simp [Spec.runDir]
  refine ⟨puts_mono (fun q hq => ?_) (puts_fitRest a d), fun f hf => ?_⟩
  · obtain ⟨g, e, rfl, he⟩ := hq
    have := he.length_le
    rw [List.length_cons]
    omega
  · exact fitRest_between a d fs1 f (allocDir_fresh hwf hr hd) hf

/-! ## The orders -/

theorem loop_orders {N M : ℕ} (a : Input N M) (s : List Fl) (d : Path) (n k : ℕ) (fs f : FS Content)
    (hf : f ∈ (fitLoop a s d n k).trace fs) :
    ∃ m, n ≤ m ∧ m ≤ n + k ∧
      (∀ j q, n ≤ j → j < m → OrderPlace d j q → f q = ((fitLoop a s d n k).run fs).2 q) ∧
      ∀ j q, m < j → OrderPlace d j q → f q = fs q := by
  induction k generalizing n fs with
  | zero =>
    simp only [fitLoop, Prog.trace, List.mem_singleton] at hf
    exact ⟨n, le_rfl, by omega, fun j q h1 h2 => absurd h1 (by omega), fun j q _ _ => by rw [hf]⟩
  | succ k ih =>
    have hfr : ∀ f ∈ (fitOrder a s d n).trace fs, ∀ j q, n < j → OrderPlace d j q → f q = fs q := by
      intro f hf j q hj hq
      refine trace_frame (snap_fitOrder a s d n).writes hf ?_
      rintro (h | h)
      · have := orderPlace_disjoint h hq; omega
      · exact orderPlace_plots hq h
    rw [fitLoop] at hf ⊢
    rcases Prog.mem_trace_bind hf with h | ⟨_, fs1, h1, h2⟩
    · exact ⟨n, le_rfl, by omega, fun j q h1 h2 => absurd h1 (by omega), hfr f h⟩
    · obtain ⟨m, m1, m2, m3, m4⟩ := ih (n + 1) fs1 h2
      have hr : ((fitOrder a s d n >>= fun _ => fitLoop a s d (n + 1) k).run fs).2 =
          ((fitLoop a s d (n + 1) k).run fs1).2 := by rw [Prog.run_bind, h1]
      rw [hr]
      refine ⟨m, by omega, by omega, fun j q j1 j2 hq => ?_, fun j q hj hq => ?_⟩
      · by_cases hjn : j = n
        · subst hjn
          have hfr2 : ∀ f ∈ (fitLoop a s d (j + 1) k).trace fs1, f q = fs1 q := by
            intro f hf
            refine trace_frame (snap_fitLoop a s d (j + 1) k).writes hf ?_
            rintro (⟨m, h1, -, h⟩ | h)
            · have := orderPlace_disjoint h hq; omega
            · exact orderPlace_plots hq h
          rw [hfr2 f h2, hfr2 _ (Prog.run_mem_trace _ _)]
        · exact m3 j q (by omega) j2 hq
      · have hm := (fitOrder a s d n).run_mem_trace fs
        rw [h1] at hm
        rw [m4 j q hj hq, hfr fs1 hm j q (by omega) hq]

/-- **C111.**  The orders are stored one after the other: there is an order `k` such that all files of the
orders before it are complete and those of the complete run, figures included, and of the orders after it
there is nothing. -/
theorem C111_orders {N M : ℕ} (a : Input N M) (fs fs' : FS Content) (hwf : WF fs) (d : Path)
    (h : (fitZpoly a).run fs = (.ok d, fs')) (hd : fs d = none) (f : FS Content)
    (hf : f ∈ (fitZpoly a).trace fs) :
    ∃ k, (∀ j g, 1 ≤ j → j < k → j ≤ a.orderMax → Spec.filesAt j g → f (g :: d) = fs' (g :: d) ∧
        ∃ c, f (g :: d) = some (.file c) ∧ c ≠ .part) ∧
      (∀ j g, 1 ≤ j → j < k → Spec.figuresAt j g →
        f (g :: "plots".toList :: d) = fs' (g :: "plots".toList :: d)) ∧
      (∀ j g, k < j → Spec.filesAt j g → f (g :: d) = none) ∧
      ∀ j g, k < j → Spec.figuresAt j g → f (g :: "plots".toList :: d) = none := by
  have key : ∃ k, (∀ j q, 1 ≤ j → j < k → OrderPlace d j q → f q = fs' q) ∧
      ∀ j q, k < j → OrderPlace d j q → f q = none := by
    have hdne : d ≠ [] := by
      rintro rfl
      obtain ⟨_, -, h', -⟩ | ⟨h', -⟩ := C45_directory a fs fs' [] h <;> simp [Spec.runDir] at h'
    obtain ⟨fs1, s0, s1, s2, h1, e0, e1, e2, h2⟩ := fitZpoly_ok h
    rw [fitZpoly_eq] at hf
    obtain ⟨i, hi, hdi, -⟩ := allocDir_ok h1
    rcases Prog.mem_trace_bind hf with hf | ⟨d', fs1', h1', hf⟩
    · refine ⟨0, fun j q _ hj => absurd hj (by omega), fun j q _ hq => ?_⟩
      rw [trace_frame (writes_allocDir _ _) hf, WF_below hwf hd hdne (orderPlace_below hq)]
      obtain ⟨g, e, rfl, he⟩ := orderPlace_below hq
      have := he.length_le
      have hlen : d.length = a.workDir.length + 2 := by rw [hdi]; simp [Spec.runDir]
      rw [List.length_cons]
      omega
    · rw [h1] at h1'
      cases h1'
      unfold fitRest at hf
      rw [e0, e1, e2] at hf
      simp only [Prog.lift_ok, Prog.ret_bind] at hf
      have hnew := allocDir_fresh hwf h1 hd
      have : f ∈ (fitLoop a [s0, s1, s2] d 1 a.orderMax).trace fs1 := by
        rcases Prog.mem_trace_bind hf with hf | ⟨_, fs2, h3, hf⟩
        · exact hf
        · have e : f = fs2 := by simpa [Prog.pure_def, Prog.trace] using hf
          have hm := (fitLoop a [s0, s1, s2] d 1 a.orderMax).run_mem_trace fs1
          rw [h3] at hm
          rw [e]
          exact hm
      obtain ⟨m, -, -, m3, m4⟩ := loop_orders a _ d 1 a.orderMax fs1 f this
      rw [h2] at m3
      exact ⟨m, m3, fun j q hj hq => (m4 j q hj hq).trans (hnew q (orderPlace_below hq))⟩
  obtain ⟨k, k1, k2⟩ := key
  refine ⟨k, fun j g j1 j2 j3 hg => ?_, fun j g j1 j2 hg => k1 j _ j1 j2 (.inr ⟨g, hg, rfl⟩),
    fun j g hj hg => k2 j _ hj (.inl ⟨g, hg, rfl⟩), fun j g hj hg => k2 j _ hj (.inr ⟨g, hg, rfl⟩)⟩
  have e := k1 j _ j1 j2 (.inl ⟨g, hg, rfl⟩)
  refine ⟨e, ?_⟩
  rw [e]
  refine (C47_files a fs fs' hwf d h hd (by omega)).1 g ?_
  rcases hg with hg | ⟨-, hg⟩
  · exact .inr ⟨j, j1, j3, hg⟩
  · exact .inl hg

/-! ## The same fit in another directory -/

/-- The same below `d` in `fs` as below `d'` in `g`. -/
def Alike (d d' : Path) (fs g : FS Content) : Prop :=
  isDir fs d ∧ isDir g d' ∧ ∀ t, t ≠ [] → fs (t ++ d) = g (t ++ d')

def SameRun {α : Type} (d d' : Path) (p p' : Prog Content α) : Prop :=
  ∀ fs g, Alike d d' fs g → (p.run fs).1 = (p'.run g).1 ∧ Alike d d' (p.run fs).2 (p'.run g).2

theorem same_bind {α β : Type} {d d' : Path} {p p' : Prog Content α} {k k' : α → Prog Content β}
    (hp : SameRun d d' p p') (hk : ∀ a, SameRun d d' (k a) (k' a)) : SameRun d d' (p >>= k) (p' >>= k') := by
  intro fs g h
  obtain ⟨h1, h2⟩ := hp fs g h
  rw [Prog.run_bind, Prog.run_bind]
  rcases e1 : p.run fs with ⟨r, fs1⟩
  rcases e2 : p'.run g with ⟨r', g1⟩
  rw [e1, e2] at h1 h2
  have h1 : r = r' := h1
  subst h1
  cases r with
  | error e => exact ⟨rfl, h2⟩
  | ok a => exact hk a fs1 g1 h2

theorem same_ret {α : Type} (d d' : Path) (a : α) : SameRun d d' (Prog.ret a) (Prog.ret a) :=
  fun _ _ h => ⟨rfl, h⟩

theorem same_raise {α : Type} (d d' : Path) (e : PyErr) :
    SameRun d d' (Prog.raise e : Prog Content α) (Prog.raise e) := fun _ _ h => ⟨rfl, h⟩

theorem same_lift {α : Type} (d d' : Path) (x : Py α) : SameRun d d' (Prog.lift x) (Prog.lift x) := by
  cases x
  · exact same_raise d d' _
  · exact same_ret d d' _

theorem alike_isDir {d d' : Path} {fs g : FS Content} (h : Alike d d' fs g) (t : Path) :
    isDir fs (t ++ d) = isDir g (t ++ d') := by
  cases t with
  | nil => rw [List.nil_append, List.nil_append, h.1, h.2.1]
  | cons x t =>
    have := h.2.2 (x :: t) (by simp)
    simp only [List.cons_append] at this ⊢
    simp only [isDir, this]

theorem alike_present {d d' : Path} {fs g : FS Content} (h : Alike d d' fs g) (x : Str) (t : Path) :
    present fs (x :: t ++ d) = present g (x :: t ++ d') := by
  have := h.2.2 (x :: t) (by simp)
  simp only [List.cons_append] at this ⊢
  simp only [present, this]

theorem isDir_update {fs : FS Content} {d : Path} (h : isDir fs d) {p : Path} (hp : p ≠ d) (n : Node Content) :
    isDir (update fs p n) d := by
  cases d with
  | nil => rfl
  | cons x d =>
    rw [isDir_iff] at h ⊢
    rw [update_ne _ _ hp.symm, h]

theorem alike_update {d d' : Path} {fs g : FS Content} (h : Alike d d' fs g) (x : Str) (t : Path)
    (n : Node Content) : Alike d d' (update fs (x :: t ++ d) n) (update g (x :: t ++ d') n) := by
  have hne : ∀ d : Path, x :: t ++ d ≠ d := fun d e => by
    have := congrArg List.length e
    simp at this
    omega
  refine ⟨isDir_update h.1 (hne d) n, isDir_update h.2.1 (hne d') n, fun s hs => ?_⟩
  by_cases e : s = x :: t
  · rw [e, update_same, update_same]
  · rw [update_ne _ _ fun h => e (List.append_cancel_right h), update_ne _ _ fun h => e (List.append_cancel_right h)]
    exact h.2.2 s hs

theorem same_writeFile (d d' : Path) (x : Str) (t : Path) (c : Content) :
    SameRun d d' (writeFile .part (x :: t ++ d) c) (writeFile .part (x :: t ++ d') c) := by
  intro fs g h
  rw [run_writeFile, run_writeFile]
  have e : (!isDir fs (x :: t ++ d) && isDir fs (x :: t ++ d).tail) =
      (!isDir g (x :: t ++ d') && isDir g (x :: t ++ d').tail) := by
    rw [alike_isDir h (x :: t)]
    show (_ && isDir fs (t ++ d)) = (_ && isDir g (t ++ d'))
    rw [alike_isDir h t]
  rw [e]
  split_ifs
  · exact ⟨rfl, alike_update h x t _⟩
  · exact ⟨rfl, h⟩

theorem same_readFile (d d' : Path) (x : Str) (t : Path) :
    SameRun d d' (readFile (x :: t ++ d) : Prog Content Content) (readFile (x :: t ++ d')) := by
  intro fs g h
  rw [run_readFile, run_readFile, h.2.2 (x :: t) (by simp)]
  rcases g (x :: t ++ d') with _ | (_ | c)
  · exact ⟨rfl, h⟩
  · exact ⟨rfl, h⟩
  · exact ⟨rfl, h⟩

theorem same_existsP (d d' : Path) (x : Str) (t : Path) :
    SameRun d d' (existsP (x :: t ++ d) : Prog Content Bool) (existsP (x :: t ++ d')) := by
  intro fs g h
  rw [run_existsP, run_existsP, alike_present h]
  exact ⟨rfl, h⟩

theorem same_makedirs (d d' : Path) (x : Str) (b : Bool) :
    SameRun d d' (makedirs (x :: d) b : Prog Content Unit) (makedirs (x :: d') b) := by
  intro fs g h
  rw [run_makedirs_leaf _ _ _ _ h.1, run_makedirs_leaf _ _ _ _ h.2.1]
  have e1 := alike_present h x []
  have e2 := alike_isDir h [x]
  simp only [List.cons_append, List.nil_append] at e1 e2
  rw [e1, e2]
  split_ifs
  · exact ⟨rfl, h⟩
  · exact ⟨rfl, h⟩
  · exact ⟨rfl, alike_update h x [] _⟩

theorem same_plotFitPath (d d' : Path) (n : ℕ) : SameRun d d' (plotFitPath d n) (plotFitPath d' n) := by
  have hrest : SameRun (α := Unit) d d' (do
      let pdf := fun kind : String =>
        (d.join "plots".toList).join (kind.toList ++ "_n".toList ++ decNat n ++ ".pdf".toList)
      writeFile Content.part (pdf "fitbeam") .plot
      writeFile .part (pdf "fitphase") .plot
      writeFile .part (pdf "residual") .plot
      writeFile .part (pdf "cov") .plot
      writeFile .part (pdf "corr") .plot
      if n = 1 then writeFile .part ((d.join "plots".toList).join "obsbeam.pdf".toList) .plot) (do
      let pdf := fun kind : String =>
        (d'.join "plots".toList).join (kind.toList ++ "_n".toList ++ decNat n ++ ".pdf".toList)
      writeFile Content.part (pdf "fitbeam") .plot
      writeFile .part (pdf "fitphase") .plot
      writeFile .part (pdf "residual") .plot
      writeFile .part (pdf "cov") .plot
      writeFile .part (pdf "corr") .plot
      if n = 1 then writeFile .part ((d'.join "plots".toList).join "obsbeam.pdf".toList) .plot) := by
    refine same_bind (same_writeFile d d' _ ["plots".toList] _) fun _ => ?_
    refine same_bind (same_writeFile d d' _ ["plots".toList] _) fun _ => ?_
    refine same_bind (same_writeFile d d' _ ["plots".toList] _) fun _ => ?_
    refine same_bind (same_writeFile d d' _ ["plots".toList] _) fun _ => ?_
    refine same_bind (same_writeFile d d' _ ["plots".toList] _) fun _ => ?_
    split_ifs
    · exact same_writeFile d d' _ ["plots".toList] _
    · exact same_ret _ _ _
  unfold plotFitPath
  refine same_bind (same_existsP d d' _ []) fun e => ?_
  cases e
  · exact same_bind (same_makedirs d d' _ _) fun _ => hrest
  · exact hrest

theorem same_saveLoop (name : Str) (d d' : Path) (l : List (Str × Str × List (List Fl))) :
    SameRun d d' (saveLoop name d l) (saveLoop name d' l) := by
  induction l with
  | nil => exact same_ret _ _ _
  | cons x l ih =>
    obtain ⟨f, h, x⟩ := x
    exact same_bind (same_writeFile d d' f [] _) fun _ => ih

theorem same_fitOrder {N M : ℕ} (a : Input N M) (w' : Path) (s : List Fl) (d d' : Path) (n : ℕ) :
    SameRun d d' (fitOrder a s d n) (fitOrder { a with workDir := w' } s d' n) := by
  unfold fitOrder
  refine same_bind ?_ fun init => ?_
  · unfold startVector
    dsimp only
    split_ifs
    · refine same_bind (same_readFile d d' _ []) fun c => ?_
      cases c
      all_goals first
        | exact same_ret _ _ _
        | exact same_raise _ _ _
    · exact same_ret _ _ _
  refine same_bind (same_lift _ _ _) fun out => ?_
  refine same_bind ?_ fun _ => ?_
  · unfold storeDataAscii
    refine same_bind (same_lift _ _ _) fun names => ?_
    split_ifs
    · exact same_writeFile d d' _ [] _
    · exact same_raise _ _ _
  have hrest : SameRun d d' (do
      storeDataCsv a.name d n out.save
      if a.makePlots then plotFitPath d n) (do
      storeDataCsv a.name d' n out.save
      if a.makePlots then plotFitPath d' n) := by
    refine same_bind ?_ fun _ => ?_
    · rw [storeDataCsv_eq, storeDataCsv_eq]
      exact same_saveLoop _ _ _ _
    · cases a.makePlots
      · exact same_ret _ _ _
      · exact same_plotFitPath d d' n
  dsimp only
  by_cases hn : n = 1
  · rw [if_pos hn, if_pos hn]
    exact same_bind (same_writeFile d d' _ [] _) fun _ => hrest
  · rw [if_neg hn, if_neg hn]
    exact hrest

theorem same_fitLoop {N M : ℕ} (a : Input N M) (w' : Path) (s : List Fl) (d d' : Path) (n k : ℕ) :
    SameRun d d' (fitLoop a s d n k) (fitLoop { a with workDir := w' } s d' n k) := by
  induction k generalizing n with
  | zero => exact same_ret _ _ _
  | succ k ih => exact same_bind (same_fitOrder a w' s d d' n) fun _ => ih _

/-- **C111.**  What a fit leaves in its directory does not depend on where and when it is made: on another
disk, with another number, after other results, the same call ends well again and leaves the same files with the
same contents. -/
theorem C111_same {N M : ℕ} (a : Input N M) (fs fs' : FS Content) (hwf : WF fs) (d : Path)
    (h : (fitZpoly a).run fs = (.ok d, fs')) (hd : fs d = none) (w' : Path) (g : FS Content) (hg : WF g)
    (hw : isDir g w') (hout : g ("pyoof_out".toList :: w') = none ∨ isDir g ("pyoof_out".toList :: w'))
    (hfree : ∃ i ≤ 100, g (Spec.runDir w' a.name i) = none) :
    ∃ d' g', (fitZpoly { a with workDir := w' }).run g = (.ok d', g') ∧ g d' = none ∧
      ∀ t, g' (t ++ d') = fs' (t ++ d) := by
  obtain ⟨fs1, s0, s1, s2, h1, e0, e1, e2, h2⟩ := fitZpoly_ok h
  obtain ⟨d', g1, h1'⟩ := allocDir_run (name := a.name) hw hout
  obtain ⟨i, hi, hdi, -⟩ := allocDir_ok h1
  obtain ⟨i', hi', hdi', hnew⟩ := allocDir_ok h1'
  have hd' : g d' = none := by
    rcases hnew with h | h
    · exact h.1
    · obtain ⟨k, hk, hk'⟩ := hfree
      exact absurd hk' (Option.isSome_iff_ne_none.1 (h.2 k hk))
  have hal : Alike d d' fs1 g1 := by
    refine ⟨allocDir_isDir h1 (.inl hd), allocDir_isDir h1' (.inl hd'), fun t ht => ?_⟩
    cases t with
    | nil => exact absurd rfl ht
    | cons x t =>
      exact (allocDir_fresh hwf h1 hd _ ⟨x, t ++ d, rfl, List.suffix_append _ _⟩).trans
        (allocDir_fresh hg h1' hd' _ ⟨x, t ++ d', rfl, List.suffix_append _ _⟩).symm
  obtain ⟨k1, k2⟩ := same_fitLoop a w' [s0, s1, s2] d d' 1 a.orderMax fs1 g1 hal
  rw [h2] at k1 k2
  rcases hr : (fitLoop { a with workDir := w' } [s0, s1, s2] d' 1 a.orderMax).run g1 with ⟨r, g'⟩
  rw [hr] at k1 k2
  have k1 : Except.ok () = r := k1
  subst k1
  refine ⟨d', g', fitZpoly_of (a := { a with workDir := w' }) h1' e0 e1 e2 hr, hd', fun t => ?_⟩
  cases t with
  | nil =>
    obtain ⟨x, y, hx⟩ : ∃ x y, d = x :: y := ⟨_, _, hdi⟩
    obtain ⟨x', y', hx'⟩ : ∃ x y, d' = x :: y := ⟨_, _, hdi'⟩
    have a1 := k2.1
    have a2 := k2.2.1
    rw [hx, isDir_iff] at a1
    rw [hx', isDir_iff] at a2
    rw [List.nil_append, List.nil_append, hx, hx']
    exact a2.trans a1.symm
  | cons x t => exact (k2.2.2 _ (by simp)).symm

/-- **C111.**  After a fit has been killed, the same call on the disk that it left ends well, in a directory of
its own, leaves there what the run would have left if it had not been killed, and touches nothing that the killed
run has left. -/
theorem C111_again {N M : ℕ} (a : Input N M) (fs fs' : FS Content) (hwf : WF fs) (d : Path)
    (h : (fitZpoly a).run fs = (.ok d, fs')) (hd : fs d = none) (hw : isDir fs a.workDir)
    (hout : fs ("pyoof_out".toList :: a.workDir) = none ∨ isDir fs ("pyoof_out".toList :: a.workDir))
    (f : FS Content) (hf : f ∈ (fitZpoly a).trace fs)
    (hfree : ∃ i ≤ 100, f (Spec.runDir a.workDir a.name i) = none) :
    ∃ d' g, (fitZpoly a).run f = (.ok d', g) ∧ f d' = none ∧ (f d ≠ none → d' ≠ d) ∧
      (∀ q, f q ≠ none → g q = f q) ∧ ∀ t, g (t ++ d') = fs' (t ++ d) := by
  have hff : ∃ i ≤ 100, fs (Spec.runDir a.workDir a.name i) = none := by
    rcases C45_directory a fs fs' d h with ⟨i, hi, e, hn, -⟩ | ⟨e, hall⟩
    · exact ⟨i, hi, e ▸ hn⟩
    · exact absurd (e ▸ hd) (hall 100 le_rfl)
  have hfo : f ("pyoof_out".toList :: a.workDir) = none ∨ isDir f ("pyoof_out".toList :: a.workDir) := by
    rcases hout with ho | ho
    · by_cases hn : f ("pyoof_out".toList :: a.workDir) = none
      · exact .inl hn
      right
      rw [fitZpoly_eq] at hf
      have halloc : ∀ f ∈ (allocDir a.workDir a.name).trace fs, f ("pyoof_out".toList :: a.workDir) ≠ none →
          f ("pyoof_out".toList :: a.workDir) = some .dir := by
        intro f hf hne
        obtain ⟨fs1, s0, s1, s2, h1, -⟩ := fitZpoly_ok h
        have hwf1 : WF fs1 := by have := run_WF (p := allocDir a.workDir a.name) hwf; rwa [h1] at this
        obtain ⟨i, hi, hdi, -⟩ := allocDir_ok h1
        have hdd := allocDir_isDir h1 (.inl hd)
        have hfin : fs1 ("pyoof_out".toList :: a.workDir) = some .dir := by
          rw [← isDir_iff]
          obtain ⟨x, hx⟩ : ∃ x, d = x :: "pyoof_out".toList :: a.workDir := ⟨_, hdi⟩
          refine hwf1 x _ ?_
          rw [hx, isDir_iff] at hdd
          rw [hdd]; rfl
        rcases snap_noput.noput_mid (puts_allocDir a.workDir a.name) fs f hf ("pyoof_out".toList :: a.workDir)
          with e | e
        · rw [e, ho] at hne; exact absurd rfl hne
        · rw [e, h1]; exact hfin
      rw [isDir_iff]
      rcases Prog.mem_trace_bind hf with hf | ⟨d1, fs1, h1, hf⟩
      · exact halloc f hf hn
      · have hm := (allocDir a.workDir a.name).run_mem_trace fs
        rw [h1] at hm
        obtain ⟨i, hi, hdi, -⟩ := allocDir_ok h1
        have hff' : f ("pyoof_out".toList :: a.workDir) = fs1 ("pyoof_out".toList :: a.workDir) := by
          by_cases hs : (fs1 ("pyoof_out".toList :: a.workDir)).isSome
          · refine trace_puts (puts_fitRest a d1) hf hs ?_
            rintro ⟨x, e, he, hd1⟩
            cases he
            have := hd1.length_le
            rw [hdi] at this
            simp [Spec.runDir] at this
          · exfalso
            obtain ⟨fs2, s0, s1, s2, h2, -⟩ := fitZpoly_ok h
            rw [h1] at h2
            cases h2
            have hwf1 : WF fs1 := by have := run_WF (p := allocDir a.workDir a.name) hwf; rwa [h1] at this
            have hdd := allocDir_isDir h1 (.inl hd)
            obtain ⟨x, hx⟩ : ∃ x, d = x :: "pyoof_out".toList :: a.workDir := ⟨_, hdi⟩
            have := hwf1 x ("pyoof_out".toList :: a.workDir) (by rw [hx, isDir_iff] at hdd; rw [hdd]; rfl)
            rw [isDir_iff] at this
            rw [this] at hs
            exact hs rfl
        rw [hff']
        exact halloc fs1 hm (hff' ▸ hn)
    · exact .inr (trace_isDir hf ho)
  have hwf' := trace_WF hwf hf
  obtain ⟨d', g, hr, hn, hsame⟩ := C111_same a fs fs' hwf d h hd a.workDir f hwf' (trace_isDir hf hw) hfo hfree
  refine ⟨d', g, hr, hn, fun h1 e => h1 (e ▸ hn), fun q hq => ?_, hsame⟩
  have hm := (fitZpoly a).run_mem_trace f
  rw [show (fitZpoly a).run f = (.ok d', g) from hr] at hm
  exact C45_preserved a f hwf' hfree g hm q hq

/-! ## Half-written files -/

/-- No half-written file is left when the program ends, well or not. -/
def Whole {α : Type} (p : Prog Content α) : Prop :=
  ∀ fs q, (p.run fs).2 q = some (.file .part) → fs q = some (.file .part)

theorem whole_noput {α : Type} {p : Prog Content α} (hp : Puts (fun _ => False) p) : Whole p := by
  induction p with
  | ret a => exact fun fs q h => h
  | raise e => exact fun fs q h => h
  | op o k ih =>
    intro fs q h
    have h1 := ih _ (hp.2 _) _ q h
    by_cases hq : (fs q).isSome
    · rw [← exec_mkdir_frame fs o q (fun c hc => hp.1 _ c hc) hq]; exact h1
    · exfalso
      rw [Option.not_isSome_iff_eq_none] at hq
      cases o with
      | present p => rw [show (exec fs (.present p)).2 = fs from rfl, hq] at h1; cases h1
      | isDir p => rw [show (exec fs (.isDir p)).2 = fs from rfl, hq] at h1; cases h1
      | mkdir p =>
        simp only [exec] at h1
        split_ifs at h1 <;> dsimp only at h1
        · by_cases e : q = p
          · rw [e, update_same] at h1; cases h1
          · rw [update_ne _ _ e, hq] at h1; cases h1
        · rw [hq] at h1; cases h1
      | put p c => exact hp.1 p c rfl
      | read p =>
        have : (exec fs (.read p)).2 = fs := by simp only [exec]; split <;> rfl
        rw [this, hq] at h1; cases h1

theorem whole_bind {α β : Type} {p : Prog Content α} {k : α → Prog Content β} (hp : Whole p)
    (hk : ∀ a, Whole (k a)) : Whole (p >>= k) := by
  intro fs q h
  rw [Prog.run_bind] at h
  rcases hr : p.run fs with ⟨e | a, fs1⟩
  · rw [hr] at h
    exact hp fs q (by rw [hr]; exact h)
  · rw [hr] at h
    exact hp fs q (by rw [hr]; exact hk a fs1 q h)

theorem whole_writeFile (p : Path) (c : Content) (hc : c ≠ .part) : Whole (writeFile .part p c) := by
  intro fs q h
  rw [run_writeFile] at h
  split_ifs at h <;> dsimp only at h
  · by_cases e : q = p
    · rw [e, update_same] at h
      injection h with h
      injection h with h
      exact absurd h hc
    · rwa [update_ne _ _ e] at h
  · exact h

theorem whole_ret {α : Type} (a : α) : Whole (Prog.ret a) := fun _ _ h => h
theorem whole_raise {α : Type} (e : PyErr) : Whole (Prog.raise e : Prog Content α) := fun _ _ h => h
theorem whole_lift {α : Type} (x : Py α) : Whole (Prog.lift x) := whole_noput (puts_lift x)

theorem whole_plotFitPath (d : Path) (n : ℕ) : Whole (plotFitPath d n) := by
  have hrest : Whole (do
      let pdf := fun kind : String =>
        (d.join "plots".toList).join (kind.toList ++ "_n".toList ++ decNat n ++ ".pdf".toList)
      writeFile Content.part (pdf "fitbeam") .plot
      writeFile .part (pdf "fitphase") .plot
      writeFile .part (pdf "residual") .plot
      writeFile .part (pdf "cov") .plot
      writeFile .part (pdf "corr") .plot
      if n = 1 then writeFile .part ((d.join "plots".toList).join "obsbeam.pdf".toList) .plot) := by
    refine whole_bind (whole_writeFile _ _ (by simp)) fun _ => ?_
    refine whole_bind (whole_writeFile _ _ (by simp)) fun _ => ?_
    refine whole_bind (whole_writeFile _ _ (by simp)) fun _ => ?_
    refine whole_bind (whole_writeFile _ _ (by simp)) fun _ => ?_
    refine whole_bind (whole_writeFile _ _ (by simp)) fun _ => ?_
    split_ifs
    · exact whole_writeFile _ _ (by simp)
    · exact whole_ret _
  unfold plotFitPath
  refine whole_bind (whole_noput (puts_existsP _)) fun e => ?_
  cases e
  · exact whole_bind (whole_noput (puts_makedirs _ _)) fun _ => hrest
  · exact hrest

theorem whole_saveLoop (name : Str) (d : Path) (l : List (Str × Str × List (List Fl))) :
    Whole (saveLoop name d l) := by
  induction l with
  | nil => exact whole_ret _
  | cons x l ih =>
    obtain ⟨f, h, x⟩ := x
    exact whole_bind (whole_writeFile _ _ (by simp)) fun _ => ih

theorem whole_fitOrder {N M : ℕ} (a : Input N M) (s : List Fl) (d : Path) (n : ℕ) :
    Whole (fitOrder a s d n) := by
  unfold fitOrder
  refine whole_bind ?_ fun init => ?_
  · unfold startVector
    dsimp only
    split_ifs
    · refine whole_bind (whole_noput (puts_readFile _)) fun c => ?_
      cases c
      all_goals first
        | exact whole_ret _
        | exact whole_raise _
    · exact whole_ret _
  refine whole_bind (whole_lift _) fun out => ?_
  refine whole_bind ?_ fun _ => ?_
  · unfold storeDataAscii
    refine whole_bind (whole_lift _) fun names => ?_
    split_ifs
    · exact whole_writeFile _ _ (by simp)
    · exact whole_raise _
  have hrest : Whole (do
      storeDataCsv a.name d n out.save
      if a.makePlots then plotFitPath d n) := by
    refine whole_bind ?_ fun _ => ?_
    · rw [storeDataCsv_eq]
      exact whole_saveLoop _ _ _
    · cases a.makePlots
      · exact whole_ret _
      · exact whole_plotFitPath d n
  dsimp only
  by_cases hn : n = 1
  · rw [if_pos hn]
    exact whole_bind (whole_writeFile _ _ (by simp)) fun _ => hrest
  · rw [if_neg hn]
    exact hrest

theorem whole_fitZpoly {N M : ℕ} (a : Input N M) : Whole (fitZpoly a) := by
  have hloop : ∀ s d n k, Whole (fitLoop a s d n k) := by
    intro s d n k
    induction k generalizing n with
    | zero => exact whole_ret _
    | succ k ih => exact whole_bind (whole_fitOrder a s d n) fun _ => ih _
  refine whole_bind (whole_noput (puts_allocDir _ _)) fun d => ?_
  refine whole_bind (whole_lift _) fun s0 => whole_bind (whole_lift _) fun s1 => whole_bind (whole_lift _) fun s2 => ?_
  exact whole_bind (hloop _ _ _ _) fun _ => whole_ret _

/-- **C111.**  A run that is not killed, whether it ends well or with an exception, leaves no half-written
file. -/
theorem C111_whole {N M : ℕ} (a : Input N M) (fs fs' : FS Content) (r : Py Path)
    (h : (fitZpoly a).run fs = (r, fs')) (q : Path) (hq : fs q ≠ some (.file .part)) :
    fs' q ≠ some (.file .part) := by
  intro e
  refine hq (whole_fitZpoly a fs q ?_)
  rw [h]
  exact e

/-! ## A batch -/

theorem configLoop_trace {w : Path} {x : Extract} {cs : List Setup} {fs f : FS Content}
    (h : f ∈ (configLoop w x cs).trace fs) :
    ∃ pre post js ds fs1, cs = pre ++ post ∧
      List.Forall₂ (fun c j => inputOf w c x = .ok j) pre js ∧ Spec.Chain fs js ds fs1 ∧
      (f = fs1 ∨ ∃ c post' j, post = c :: post' ∧ inputOf w c x = .ok j ∧ f ∈ (fitZpoly j.2.2).trace fs1) := by
  induction cs generalizing fs with
  | nil =>
    simp only [configLoop, Prog.trace, List.mem_singleton] at h
    exact ⟨[], [], [], [], fs, rfl, .nil, .nil _, .inl h⟩
  | cons c cs ih =>
    unfold configLoop fitJob at h
    rcases Prog.mem_trace_bind h with h | ⟨d, fs1, h1, h⟩
    · refine ⟨[], c :: cs, [], [], fs, rfl, .nil, .nil _, ?_⟩
      cases hj : inputOf w c x with
      | error e =>
        rw [hj] at h
        simp only [Prog.lift_error, Prog.raise_bind, Prog.trace, List.mem_singleton] at h
        exact .inl h
      | ok j =>
        rw [hj] at h
        exact .inr ⟨c, cs, j, rfl, hj, h⟩
    · simp only [Prog.run_bind_ok, Prog.run_lift, Prod.mk.injEq] at h1
      obtain ⟨j, _, ⟨hj, rfl⟩, hr⟩ := h1
      have h' : f ∈ (configLoop w x cs).trace fs1 := by
        rcases Prog.mem_trace_bind h with h | ⟨ds, fs2, h2, h⟩
        · exact h
        · have e : f = fs2 := by simpa [Prog.pure_def, Prog.trace] using h
          have hm := (configLoop w x cs).run_mem_trace fs1
          rw [h2] at hm
          rw [e]
          exact hm
      obtain ⟨pre, post, js, ds, fs2, e1, e2, e3, e4⟩ := ih h'
      exact ⟨c :: pre, post, j :: js, d :: ds, fs2, by rw [e1]; rfl, .cons hj e2, .cons hr e3, e4⟩

theorem fileLoop_trace {fitsOpen : Str → Py (List Hdu)} {w : Path} {cs : List Setup} {files : List Str}
    {fs f : FS Content} (h : f ∈ (fileLoop fitsOpen w cs files).trace fs) :
    ∃ pre post js ds fs1, Spec.batchJobs files cs = pre ++ post ∧
      List.Forall₂ (Spec.JobOf fitsOpen w) pre js ∧ Spec.Chain fs js ds fs1 ∧
      (f = fs1 ∨ ∃ p post' j, post = p :: post' ∧ Spec.JobOf fitsOpen w p j ∧
        f ∈ (fitZpoly j.2.2).trace fs1) := by
  induction files generalizing fs with
  | nil =>
    simp only [fileLoop, Prog.trace, List.mem_singleton] at h
    exact ⟨[], [], [], [], fs, rfl, .nil, .nil _, .inl h⟩
  | cons g files ih =>
    unfold fileLoop computePhaseError at h
    rcases Prog.mem_trace_bind h with h | ⟨ds1, fs1, h1, h⟩
    · cases hx : extractEffelsberg fitsOpen g with
      | error e =>
        rw [hx] at h
        simp only [Prog.lift_error, Prog.raise_bind, Prog.trace, List.mem_singleton] at h
        exact ⟨[], _, [], [], fs, rfl, .nil, .nil _, .inl h⟩
      | ok x =>
        rw [hx] at h
        obtain ⟨pre, post, js, ds, fs2, e1, e2, e3, e4⟩ := configLoop_trace h
        refine ⟨pre.map fun c => (g, c), (post.map fun c => (g, c)) ++ Spec.batchJobs files cs, js, ds, fs2, ?_,
          jobOf_map hx e2, e3, ?_⟩
        · simp [Spec.batchJobs, e1]
        · rcases e4 with e4 | ⟨c, post', j, e4, e5, e6⟩
          · exact .inl e4
          · exact .inr ⟨(g, c), (post'.map fun c => (g, c)) ++ Spec.batchJobs files cs, j, by rw [e4]; rfl,
              ⟨x, hx, e5⟩, e6⟩
    · simp only [Prog.run_bind_ok, Prog.run_lift, Prod.mk.injEq] at h1
      obtain ⟨x, _, ⟨hx, rfl⟩, hr⟩ := h1
      obtain ⟨js1, h4, h5⟩ := configLoop_ok hr
      have h' : f ∈ (fileLoop fitsOpen w cs files).trace fs1 := by
        rcases Prog.mem_trace_bind h with h | ⟨ds, fs2, h2, h⟩
        · exact h
        · have e : f = fs2 := by simpa [Prog.pure_def, Prog.trace] using h
          have hm := (fileLoop fitsOpen w cs files).run_mem_trace fs1
          rw [h2] at hm
          rw [e]
          exact hm
      obtain ⟨pre, post, js, ds, fs2, e1, e2, e3, e4⟩ := ih h'
      refine ⟨(cs.map fun c => (g, c)) ++ pre, post, js1 ++ js, ds1 ++ ds, fs2, ?_,
        List.rel_append (jobOf_map hx h4) e2, chain_append h5 e3, e4⟩
      show (cs.map fun c => (g, c)) ++ Spec.batchJobs files cs = _
      rw [e1, List.append_assoc]

theorem chain_whole {fs fs1 : FS Content} {js : List Job} {ds : List Path} (h : Spec.Chain fs js ds fs1)
    (q : Path) (hq : fs1 q = some (.file .part)) : fs q = some (.file .part) := by
  induction h with
  | nil fs => exact hq
  | @cons fs fs1 fs' j js d ds h _ ih =>
    exact whole_fitZpoly j.2.2 fs q (by rw [h]; exact ih hq)

/-- **C111.**  A batch that is killed at any moment has finished the fits of a first part of the list: below
each of their directories is what the fit alone has left there.  Of the others at most one has begun; apart from
its directory nothing else has changed, and at most one file is half-written. -/
theorem C111_batch (fitsOpen : Str → Py (List Hdu)) (w : Path) (cs : List Setup) (files : List Str)
    (fs f : FS Content) (h : f ∈ (fileLoop fitsOpen w cs files).trace fs) (hwf : WF fs)
    (hroom : ∀ n, ((Spec.batchJobs files cs).countP fun p => Spec.stem p.1 = n) ≤ Spec.freeBelow fs w n 101) :
    ∃ (pre post : List (Str × Setup)) (ds begun : List Path) (q0 : Path),
      Spec.batchJobs files cs = pre ++ post ∧ ds.length = pre.length ∧ begun.length ≤ 1 ∧
      (∀ d ∈ begun, d ∉ ds ∧ fs d = none ∧ ∃ p ∈ post.head?, ∃ i ≤ 100, d = Spec.runDir w (Spec.stem p.1) i) ∧
      (∀ k p, pre[k]? = some p → ∃ d, ds[k]? = some d ∧ Spec.Done fitsOpen w fs f (pre.take k) p d) ∧
      (∀ q, fs q ≠ none → f q = fs q) ∧
      (∀ q, ¬ q <:+ "pyoof_out".toList :: w → (∀ d ∈ ds ++ begun, ¬ d <:+ q) → f q = fs q) ∧
      ∀ q, q ≠ q0 → fs q ≠ some (.file .part) → f q ≠ some (.file .part) := by
  obtain ⟨pre, post, js, ds, fs1, e1, hj, hc, hcase⟩ := fileLoop_trace h
  have hroom1 : ∀ n, (pre.countP fun p => Spec.stem p.1 = n) ≤ Spec.freeBelow fs w n 101 := by
    intro n
    refine le_trans ?_ (hroom n)
    rw [e1, List.countP_append]
    omega
  obtain ⟨hwf1, h2, h3, h4, h5, h6⟩ := chain_done hj hc hwf hroom1
  rcases hcase with rfl | ⟨p, post', j, rfl, hjob, hf⟩
  · exact ⟨pre, post, ds, [], [], e1, h2, by simp, by simp, h6, h3,
      fun q hq hd => h4 q hq fun d hd' => hd d (by simpa using hd'), fun q _ hq e => hq (chain_whole hc q e)⟩
  · obtain ⟨hjw, hjn⟩ := job_spec hjob
    have hws : ∀ j ∈ js, j.2.2.workDir = w := by
      intro j hj'
      obtain ⟨k, hk⟩ := List.mem_iff_getElem?.1 hj'
      obtain ⟨p, -, hp⟩ := forall₂_get hj.flip hk
      exact (job_spec hp).1
    have hroom2 : Spec.Room fs w (js ++ [j]) := by
      intro n
      rw [room_of (fitsOpen := fitsOpen) (w := w) (List.rel_append hj (.cons hjob .nil)) n]
      refine le_trans ?_ (hroom n)
      rw [e1, show pre ++ p :: post' = (pre ++ [p]) ++ post' by simp, List.countP_append (l₂ := post')]
      exact Nat.le_add_right _ _
    have hfree : ∃ i ≤ 100, fs1 (Spec.runDir w j.2.2.name i) = none := chain_free hc hws hroom2
    subst hjw
    obtain ⟨i, hi, hfi, hmin⟩ := first_free hfree
    rcases hrun : (fitZpoly j.2.2).run fs1 with ⟨r, fs2⟩
    obtain ⟨-, hreg⟩ := run_region j.2.2 hrun i hi hfi hmin
    obtain ⟨⟨q0, b1, b2⟩, b3, b4⟩ := C111_snapshot j.2.2 fs1 hwf1 hfree f hf
    rw [hrun] at b1 b2 b4
    have hreg' : ∀ q, ¬ q <:+ "pyoof_out".toList :: j.2.2.workDir →
        ¬ Spec.runDir j.2.2.workDir j.2.2.name i <:+ q → f q = fs1 q := by
      intro q hq hqd
      by_cases hn : fs1 q = none
      · rw [hn]
        by_contra hne
        exact b4 q hne ((hreg q hq hqd).trans hn)
      · exact b3 q hn
    have hds : ∀ d ∈ ds, ∀ q, d <:+ q → f q = fs1 q := by
      intro d hd q hq
      obtain ⟨hpres, hlen⟩ := h5 d hd
      refine hreg' q (fun hs => ?_) fun hs => ?_
      · have := (hq.trans hs).length_le
        rw [hlen] at this
        simp at this
      · have hl : (Spec.runDir j.2.2.workDir j.2.2.name i).length = d.length := by
          rw [hlen]; simp [Spec.runDir]
        have : Spec.runDir j.2.2.workDir j.2.2.name i = d := by
          rcases List.suffix_or_suffix_of_suffix hs hq with h' | h'
          · exact h'.eq_of_length hl
          · exact (h'.eq_of_length hl.symm).symm
        rw [this] at hfi
        exact hpres hfi
    refine ⟨pre, p :: post', ds, [Spec.runDir j.2.2.workDir j.2.2.name i], q0, e1, h2, by simp, ?_,
      fun k p' hk => ?_, fun q hq => ?_, fun q hq hd => ?_, fun q hq hp e => ?_⟩
    · intro d hd
      rw [List.mem_singleton] at hd
      subst hd
      refine ⟨fun hd => (h5 _ hd).1 hfi, ?_, p, by simp, i, hi, by rw [hjn]⟩
      by_contra hne
      exact hne ((h3 _ hne).symm.trans hfi)
    · obtain ⟨d, hdk, hdone⟩ := h6 k p' hk
      refine ⟨d, hdk, ?_, hdone.number⟩
      obtain ⟨j', before, after, g1, g2, g3, g4⟩ := hdone.alone
      exact ⟨j', before, after, g1, g2, g3, fun q hq => by
        rw [hds d (List.mem_of_getElem? hdk) q hq, g4 q hq]⟩
    · rw [b3 q (by rw [h3 q hq]; exact hq), h3 q hq]
    · rw [hreg' q hq (hd _ (by simp)), h4 q hq fun d hd' => hd d (List.mem_append_left _ hd')]
    · refine hp (chain_whole hc q ?_)
      rcases b1 q hq with e' | e'
      · rw [← e']; exact e
      · refine whole_fitZpoly j.2.2 fs1 q ?_
        rw [hrun, ← e]
        exact e'.symm

/-! ## Examples -/

theorem trace_bind_left {C α β : Type} {p : Prog C α} {k : α → Prog C β} {fs f : FS C}
    (h : f ∈ p.trace fs) : f ∈ (p >>= k).trace fs := by
  induction p generalizing fs with
  | ret a =>
    simp only [Prog.trace, List.mem_singleton] at h
    rw [h]
    exact Prog.mem_trace_self _ _
  | raise e => exact h
  | op o k' ih =>
    rw [Prog.op_bind]
    simp only [Prog.trace, List.mem_cons] at h ⊢
    exact h.imp id fun h => ih _ h

theorem trace_bind_right {C α β : Type} {p : Prog C α} {k : α → Prog C β} {fs fs1 f : FS C} {a : α}
    (h : p.run fs = (.ok a, fs1)) (hf : f ∈ (k a).trace fs1) : f ∈ (p >>= k).trace fs := by
  induction p generalizing fs with
  | ret b => cases h; exact hf
  | raise e => cases h
  | op o k' ih =>
    rw [Prog.op_bind]
    simp only [Prog.trace, List.mem_cons]
    exact .inr (ih _ h)

theorem sample_dir {d : Path} {fs' : FS Content} (h : (fitZpoly sampleInput).run sampleFs = (.ok d, fs')) :
    d = Spec.runDir ["home".toList] "obs".toList 0 ∧ sampleFs d = none := by
  have hnew : ∀ i, sampleFs (Spec.runDir ["home".toList] "obs".toList i) = none := by
    intro i
    simp [Spec.runDir, sampleFs]
  rcases C45_directory _ _ _ _ h with ⟨i, hi, hdi, hdn, hmin⟩ | ⟨-, h2⟩
  · have : i = 0 := by
      by_contra h0
      exact hmin 0 (by omega) (hnew 0)
    subst this
    exact ⟨hdi, hdn⟩
  · exact absurd (hnew 0) (h2 0 (by omega))

/-- A run of two orders can be killed while the first file of the second order is being written. -/
theorem sample_killed : ∃ f ∈ (fitZpoly sampleInput).trace sampleFs,
    f (Spec.file "fitpar" 2 :: Spec.runDir ["home".toList] "obs".toList 0) = some (.file .part) := by
  obtain ⟨d, fs', h⟩ := sample_run
  obtain ⟨hd, hdn⟩ := sample_dir h
  obtain ⟨fs1, s0, s1, s2, h1, e0, e1, e2, h2⟩ := fitZpoly_ok h
  have hdir := allocDir_isDir h1 (.inl hdn)
  have h2' : (fitLoop sampleInput [s0, s1, s2] d 1 2).run fs1 = (.ok (), fs') := h2
  rw [fitLoop, Prog.run_bind_ok] at h2'
  obtain ⟨_, fs2, k1, k2⟩ := h2'
  have hdir2 := run_isDir k1 hdir
  rw [fitLoop, Prog.run_bind_ok] at k2
  obtain ⟨_, fs3, k3, k4⟩ := k2
  obtain ⟨init, out, names, m1, m2, m3, m4, m5, m6, -⟩ := fitOrder_ok hdir2 k3
  have hfree : isDir fs2 (Spec.file "fitpar" 2 :: d) = false := by
    rw [Bool.eq_false_iff]
    intro hc
    have := run_isDir k3 hc
    rw [isDir_iff] at this
    rw [m6 _ fun hp => filesAt_not_plots 2 (inPlots_join.1 hp ▸ .inl (by simp [Spec.orderFiles]))] at this
    obtain ⟨-, -, -, -, -, -, -, -, -, hlen⟩ := solveOrder_ok m2
    have e := putAll_mem d _ (orderStore_nodup sampleInput [s0, s1, s2] 2 names init out hlen) fs2 _
      (orderStore_head _ _ _ _ _ _)
    cases e.symm.trans this
  refine ⟨update fs2 (Spec.file "fitpar" 2 :: d) (.file .part), ?_, by rw [← hd, update_same]⟩
  rw [fitZpoly_eq]
  refine trace_bind_right h1 ?_
  unfold fitRest
  rw [e0, e1, e2]
  simp only [Prog.lift_ok, Prog.ret_bind]
  refine trace_bind_left ?_
  show _ ∈ (fitLoop sampleInput [s0, s1, s2] d 1 2).trace fs1
  rw [fitLoop]
  refine trace_bind_right k1 ?_
  rw [fitLoop]
  refine trace_bind_left ?_
  unfold fitOrder
  refine trace_bind_right m1 ?_
  rw [m2, Prog.lift_ok, Prog.ret_bind]
  refine trace_bind_left ?_
  unfold storeDataAscii
  rw [m3, Prog.lift_ok, Prog.ret_bind, if_pos ⟨m4, m5⟩]
  unfold writeFile
  have e : exec fs2 (.put (Spec.file "fitpar" 2 :: d) Content.part) =
      (.yes, update fs2 (Spec.file "fitpar" 2 :: d) (.file .part)) := by
    simp only [exec]
    rw [if_pos (by rw [hfree]; exact hdir2)]
  simp only [Prog.trace, List.mem_cons]
  right
  rw [show Path.join d (fileName "fitpar" 2) = Spec.file "fitpar" 2 :: d from rfl, e]
  exact Prog.mem_trace_self _ _

/-- Killed in the second order: the first order is complete; the same call makes the results of the complete
run in `obs-001`. -/
example : ∃ f ∈ (fitZpoly sampleInput).trace sampleFs, ∃ d fs' g,
    (fitZpoly sampleInput).run sampleFs = (.ok d, fs') ∧
    f (Spec.file "fitpar" 2 :: d) = some (.file .part) ∧
    f (Spec.file "cov" 1 :: d) = fs' (Spec.file "cov" 1 :: d) ∧
    (fitZpoly sampleInput).run f = (.ok (Spec.runDir ["home".toList] "obs".toList 1), g) ∧
    g (Spec.file "cov" 2 :: Spec.runDir ["home".toList] "obs".toList 1) = fs' (Spec.file "cov" 2 :: d) := by
  obtain ⟨f, hf, hpart⟩ := sample_killed
  obtain ⟨d, fs', h⟩ := sample_run
  obtain ⟨hd, hdn⟩ := sample_dir h
  have hnew : ∀ i, sampleFs (Spec.runDir ["home".toList] "obs".toList i) = none := by
    intro i
    simp [Spec.runDir, sampleFs]
  have hfree : ∃ i ≤ 100, sampleFs (Spec.runDir sampleInput.workDir sampleInput.name i) = none := ⟨0, by omega, hnew 0⟩
  obtain ⟨-, b2, b3⟩ := C111_snapshot sampleInput sampleFs sampleFs_wf hfree f hf
  rw [h] at b3
  rw [← hd] at hpart
  have hff : ∀ i, 1 ≤ i → i ≤ 100 → f (Spec.runDir ["home".toList] "obs".toList i) = none := by
    intro i hi hi'
    by_contra hne
    obtain ⟨j, hj, hdj, -, -, -, -, hother⟩ := run_numbers sampleInput h hfree
    have hj0 : j = 0 := by
      by_contra hj0
      obtain ⟨j', -, hd', hd'', -, hmin, -⟩ := run_numbers sampleInput h hfree
      have : Spec.runDir ["home".toList] "obs".toList j = Spec.runDir ["home".toList] "obs".toList 0 := by
        rw [← hd, hdj]; rfl
      rw [← runDir_eq _ _ hj, ← runDir_eq _ _ (by omega)] at this
      simp only [List.cons.injEq, and_true, runName, List.append_cancel_left_eq, true_and] at this
      have hinj : ∀ j ≤ 100, pad3 j = pad3 0 → j = 0 := by decide
      exact hj0 (hinj j hj this)
    subst hj0
    have := hother "obs".toList i hi' (.inr (by omega))
    exact b3 _ hne (this.trans (hnew i))
  have hdd : f d ≠ none := by
    have := trace_WF sampleFs_wf hf _ _ (by rw [hpart]; rfl)
    rw [hd] at this ⊢
    intro e
    cases e.symm.trans (isDir_iff.1 this)
  obtain ⟨k, k1, -, k3, -⟩ := C111_orders sampleInput _ _ sampleFs_wf d h hdn f hf
  have hk : k = 2 := by
    rcases Nat.lt_trichotomy k 2 with hlt | e | hlt
    · have := k3 2 (Spec.file "fitpar" 2) hlt (.inl (by simp [Spec.orderFiles]))
      rw [hpart] at this
      cases this
    · exact e
    · obtain ⟨-, c, hc, hcp⟩ := k1 2 (Spec.file "fitpar" 2) (by omega) hlt (by simp [sampleInput])
        (.inl (by simp [Spec.orderFiles]))
      rw [hpart] at hc
      injection hc with hc
      injection hc with hc
      exact absurd hc.symm hcp
  subst hk
  obtain ⟨d', g, hr, hn, hne, -, hsame⟩ := C111_again sampleInput _ _ sampleFs_wf d h hdn
    (by simp [isDir, sampleFs, sampleInput]) (.inl (by simp [sampleFs, sampleInput])) f hf
    ⟨1, by omega, hff 1 le_rfl (by omega)⟩
  have hd' : d' = Spec.runDir ["home".toList] "obs".toList 1 := by
    rcases C45_directory _ _ _ _ hr with ⟨i, hi, hdi, hdn', hmin⟩ | ⟨-, h2⟩
    · have h1 : i ≠ 0 := by
        rintro rfl
        exact hne hdd (hdi.trans hd.symm)
      have : i = 1 := by
        by_contra h0
        exact hmin 1 (by omega) (hff 1 le_rfl (by omega))
      rw [hdi, this]
      rfl
    · exact absurd (hff 1 le_rfl (by omega)) (h2 1 (by omega))
  refine ⟨f, hf, d, fs', g, h, hpart, (k1 1 _ le_rfl (by omega) (by simp [sampleInput])
    (.inl (by simp [Spec.orderFiles]))).1, by rw [← hd']; exact hr, by rw [← hd']; exact hsame [_]⟩

end Verif.Props
