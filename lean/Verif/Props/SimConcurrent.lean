import Verif.Props.Simulate
import Verif.Props.Concurrent
import Verif.Props.Pipeline

/-!
# C95: simulations at the same time, and the script that simulates and reads
-/

namespace Verif.Props

open Verif Verif.Fs Verif.Np Verif.Aperture Verif.Sim Verif.AuxFn

/-! ## Specification -/

/-- The directory of the generated files. -/
def Spec.genDir (w : Path) : Path := "data_generated".toList :: w

/-- Several simulations before their first operation. -/
noncomputable def Spec.simStart {ι : Type} {N : ι → ℕ} (a : ∀ i, Sim.Input (N i)) (fs : FS File) :
    Sys File (List Hdu) ι := ⟨fun i => simulate (a i), fs⟩

/-- None of the two directories of generated files is inside the other one. -/
def Spec.SepDirs (w w' : Path) : Prop :=
  ¬ Spec.genDir w <:+ Spec.genDir w' ∧ ¬ Spec.genDir w' <:+ Spec.genDir w

/-! ## What was there stays -/

/-- A program that stores only where it has seen that nothing was. -/
def Safe {α : Type} (fs0 : FS File) : Prog File α → Prop
  | .ret _ => True
  | .raise _ => True
  | .op o k => (∀ q c, o = .put q c → fs0 q = none) ∧
      ∀ r, (∀ q, o = .present q → fs0 q ≠ none → r = .yes) → Safe fs0 (k r)

theorem safe_bind {α β : Type} {fs0 : FS File} {p : Prog File α} {f : α → Prog File β} (hp : Safe fs0 p)
    (hf : ∀ a, Safe fs0 (f a)) : Safe fs0 (p >>= f) := by
  induction p with
  | ret a => exact hf a
  | raise e => trivial
  | op o k ih => exact ⟨hp.1, fun r hr => ih r (hp.2 r hr)⟩

theorem safe_puts {α : Type} {fs0 : FS File} {p : Prog File α} (hp : Puts (fun _ => False) p) : Safe fs0 p := by
  induction p with
  | ret a => trivial
  | raise e => trivial
  | op o k ih => exact ⟨fun q c e => (hp.1 q c e).elim, fun r _ => ih r (hp.2 r)⟩

theorem safe_exists {α : Type} {fs0 : FS File} {p : Path} {f : Bool → Prog File α} (h1 : Safe fs0 (f true))
    (h0 : fs0 p = none → Safe fs0 (f false)) : Safe fs0 (existsP p >>= f) := by
  refine ⟨fun q c e => by (cases e), fun r hr => ?_⟩
  have key : r ≠ .yes → fs0 p = none := fun hn => by
    by_contra hc
    exact hn (hr p rfl hc)
  cases r with
  | yes => exact h1
  | no => exact h0 (key (by simp))
  | data c => exact h0 (key (by simp))

theorem safe_writeFile {fs0 : FS File} {p : Path} (h : fs0 p = none) (x c : File) :
    Safe fs0 (writeFile x p c : Prog File Unit) := by
  refine ⟨fun q c e => by (cases e; exact h), fun r _ => ?_⟩
  cases r
  · exact ⟨fun q c e => by (cases e; exact h), fun r _ => by cases r <;> trivial⟩
  · trivial
  · trivial

theorem safe_saveLoop {N : ℕ} (a : Sim.Input N) (tabs : List (List (Str × List ℝ))) (dir : Path) (l : List ℕ)
    (fs0 : FS File) : Safe fs0 (saveLoop a tabs dir l) := by
  induction l with
  | nil => trivial
  | cons i l ih =>
    rw [saveLoop]
    refine safe_exists ih fun h => ?_
    refine safe_bind ?_ fun _ => trivial
    unfold writeto
    exact safe_exists trivial fun _ => safe_writeFile h _ _

theorem safe_simulate {N : ℕ} (a : Sim.Input N) (fs0 : FS File) : Safe fs0 (simulate a) := by
  by_cases hz : Spec.DzOk a.dz
  · rw [simulate_split a hz]
    refine safe_bind (safe_puts (puts_lift _)) fun tabs => safe_bind (safe_puts (puts_makeDir _)) fun _ => ?_
    exact safe_saveLoop _ _ _ _ _
  · have hc : a.dz 0 > 0 ∨ a.dz 1 ≠ 0 ∨ a.dz 2 < 0 := by
      unfold Spec.DzOk at hz
      by_contra hc
      push Not at hc
      exact hz ⟨hc.1, hc.2.1, hc.2.2⟩
    unfold simulate
    rw [if_pos hc]
    trivial

theorem safe_step {ι : Type} [DecidableEq ι] {α : Type} {fs0 : FS File} {s s' : Sys File α ι}
    (h : (∀ q, fs0 q ≠ none → s.fs q = fs0 q) ∧ ∀ i, Safe fs0 (s.proc i)) (hst : Sys.Step s s') :
    (∀ q, fs0 q ≠ none → s'.fs q = fs0 q) ∧ ∀ i, Safe fs0 (s'.proc i) := by
  obtain ⟨j, o, k, hj⟩ := hst
  have hsj := h.2 j
  rw [hj] at hsj
  refine ⟨fun q hq => ?_, fun i => ?_⟩
  · rw [← h.1 q hq]
    refine exec_mkdir_frame _ _ _ (fun c e => hq (hsj.1 q c e)) ?_
    rw [h.1 q hq]
    exact Option.isSome_iff_ne_none.2 hq
  · dsimp only
    by_cases hij : i = j
    · subst hij
      rw [Function.update_self]
      refine hsj.2 _ fun q e hq => ?_
      subst e
      have hp : present s.fs q = true := by
        cases q with
        | nil => rfl
        | cons f d =>
          rw [present_cons, h.1 _ hq]
          exact Option.isSome_iff_ne_none.2 hq
      simp [exec, hp]
    · rw [Function.update_of_ne hij]
      exact h.2 i

/-- **C95** whatever simulations run at the same time, in whatever directories: what was on the disk before is not
changed, at any moment. -/
theorem C95_kept {ι : Type} [DecidableEq ι] {N : ι → ℕ} (a : ∀ i, Sim.Input (N i)) (fs : FS File)
    (s : Sys File (List Hdu) ι) (hs : Sys.Steps (Spec.simStart a fs) s) (q : Path) (hq : fs q ≠ none) :
    s.fs q = fs q := by
  have : (∀ q, fs q ≠ none → s.fs q = fs q) ∧ ∀ i, Safe fs (s.proc i) := by
    induction hs with
    | refl => exact ⟨fun _ _ => rfl, fun i => safe_simulate (a i) fs⟩
    | tail _ hst ih => exact safe_step ih hst
  exact this.1 q hq

/-! ## Different directories -/

/-- Programs that share nothing but directories that are there from the beginning. -/
theorem apart_steps {C α ι : Type} [DecidableEq ι] {p : ι → Prog C α} {Z : ι → Path → Prop} {fs0 : FS C}
    (hZ : ∀ i q, Z i q → Z i q.tail) (hT : ∀ i, Touches (Z i) (p i))
    (hd : ∀ i j, i ≠ j → ∀ q, Z i q → Z j q → isDir fs0 q) {s : Sys C α ι} (hs : Sys.Steps ⟨p, fs0⟩ s) :
    (∀ q, isDir fs0 q → isDir s.fs q) ∧ ∀ i, Touches (Z i) (s.proc i) ∧
      ∃ g, (∀ q, Z i q → s.fs q = g q) ∧ (s.proc i).run g = (p i).run fs0 := by
  induction hs with
  | refl => exact ⟨fun _ h => h, fun i => ⟨hT i, fs0, fun _ _ => rfl, rfl⟩⟩
  | tail _ hst ih =>
    obtain ⟨h1, h2⟩ := ih
    obtain ⟨j, o, k, hj⟩ := hst
    refine ⟨fun q hq => exec_isDir _ _ (h1 q hq), fun i => ?_⟩
    dsimp only
    by_cases hij : i = j
    · subst hij
      rw [Function.update_self]
      obtain ⟨ht, g, hg, hr⟩ := h2 i
      rw [hj] at ht hr
      have hc := exec_congr (o := o) (hg _ ht.1) (by
        cases e : o.path.tail with
        | nil => rfl
        | cons f q =>
          have := hg _ (hZ i _ ht.1)
          rw [e] at this
          simp only [isDir, this])
      refine ⟨ht.2 _, (exec g o).2, fun q hq => ?_, ?_⟩
      · by_cases e : q = o.path
        · rw [e]; exact hc.2
        · rw [exec_other e, exec_other e]; exact hg q hq
      · rw [hc.1, ← hr, Prog.run_op]
    · rw [Function.update_of_ne hij]
      obtain ⟨ht, g, hg, hr⟩ := h2 i
      refine ⟨ht, g, fun q hq => ?_, hr⟩
      rw [← hg q hq]
      obtain ⟨htj, -⟩ := h2 j
      rw [hj] at htj
      by_cases e : q = o.path
      · rw [exec_dir_same (h1 _ (hd i j hij _ (e ▸ hq) htj.1))]
      · exact exec_other e

/-- Where a simulation looks. -/
def GenZone (w : Path) (q : Path) : Prop := Spec.genDir w <:+ q ∨ q <:+ Spec.genDir w

theorem genZone_tail {w q : Path} (h : GenZone w q) : GenZone w q.tail := by
  rcases h with h | h
  · cases q with
    | nil => exact .inr List.nil_suffix
    | cons f q =>
      rcases List.suffix_cons_iff.1 h with h | h
      · right
        rw [h]
        exact List.suffix_cons _ _
      · exact .inl h
  · exact .inr ((List.tail_suffix q).trans h)

theorem touches_simSave {N : ℕ} (a : Sim.Input N) (tabs : List (List (Str × List ℝ))) (l : List ℕ) :
    Touches (GenZone a.workDir) (saveLoop a tabs (Spec.genDir a.workDir) l) := by
  induction l with
  | nil => trivial
  | cons i l ih =>
    have hz : GenZone a.workDir ((Spec.genDir a.workDir).join (testFile i)) := .inl (List.suffix_cons _ _)
    rw [saveLoop]
    refine touches_bind' (touches_existsP hz) fun e => ?_
    cases e
    · refine touches_bind' ?_ fun _ => trivial
      unfold writeto
      refine touches_bind' (touches_existsP hz) fun e => ?_
      cases e
      · exact touches_writeFile hz _ _
      · trivial
    · exact ih

theorem touches_simulate {N : ℕ} (a : Sim.Input N) : Touches (GenZone a.workDir) (simulate a) := by
  by_cases hz : Spec.DzOk a.dz
  · rw [simulate_split a hz]
    refine touches_bind' (touches_lift _) fun tabs => touches_bind' ?_ fun _ => touches_simSave a tabs _
    unfold makeDir
    refine touches_bind' (touches_existsP (.inr (List.suffix_refl _))) fun e => ?_
    cases e
    · exact touches_makedirs _ _ fun q hq => .inr hq
    · trivial
  · have hc : a.dz 0 > 0 ∨ a.dz 1 ≠ 0 ∨ a.dz 2 < 0 := by
      unfold Spec.DzOk at hz
      by_contra hc
      push Not at hc
      exact hz ⟨hc.1, hc.2.1, hc.2.2⟩
    unfold simulate
    rw [if_pos hc]
    trivial

theorem sep_zone {fs : FS File} (hw : WF fs) {w w' : Path} (hd : isDir fs w) (hs : Spec.SepDirs w w')
    {q : Path} (h : GenZone w q) (h' : GenZone w' q) : isDir fs q := by
  rcases h with h | h <;> rcases h' with h' | h'
  · rcases List.suffix_or_suffix_of_suffix h h' with e | e
    · exact absurd e hs.1
    · exact absurd e hs.2
  · exact absurd (h.trans h') hs.1
  · exact absurd (h'.trans h) hs.2
  · rcases List.suffix_cons_iff.1 h with e | e
    · rw [e] at h'
      exact absurd h' hs.1
    · exact WF_suffix hw hd e

/-- **C95** simulations in different existing directories, none of whose `data_generated` lies inside that of
another one: in every interleaving each ends as it would alone, with the same files in its directory. -/
theorem C95_apart {ι : Type} [DecidableEq ι] {N : ι → ℕ} (a : ∀ i, Sim.Input (N i)) (fs : FS File) (hw : WF fs)
    (hd : ∀ i, isDir fs (a i).workDir)
    (hsep : ∀ i j, i ≠ j → Spec.SepDirs (a i).workDir (a j).workDir) (s : Sys File (List Hdu) ι)
    (hs : Sys.Steps (Spec.simStart a fs) s) (i : ι) :
    (∀ l, s.proc i = .ret l → ∃ alone, (simulate (a i)).run fs = (.ok l, alone) ∧
      ∀ q, Spec.genDir (a i).workDir <:+ q → s.fs q = alone q) ∧
    (∀ e, s.proc i = .raise e → ∃ alone, (simulate (a i)).run fs = (.error e, alone) ∧
      ∀ q, Spec.genDir (a i).workDir <:+ q → s.fs q = alone q) := by
  obtain ⟨-, h⟩ := apart_steps (Z := fun i => GenZone (a i).workDir) (fun i q => genZone_tail)
    (fun i => touches_simulate (a i)) (fun i j hij q h h' => sep_zone hw (hd i) (hsep i j hij) h h') hs
  obtain ⟨-, g, hg, hr⟩ := h i
  refine ⟨fun l e => ⟨g, ?_, fun q hq => hg q (.inl hq)⟩, fun x e => ⟨g, ?_, fun q hq => hg q (.inl hq)⟩⟩
  · rw [← hr, e]; rfl
  · rw [← hr, e]; rfl

/-! ## The same directory -/

/-- The search for a number, with the check of `writeto`. -/
noncomputable def findFree (dir : Path) : List ℕ → Prog File ℕ
  | [] => .raise .unboundLocalError
  | i :: rest => do
    let e ← existsP (dir.join (testFile i))
    if !e then do
      let e ← existsP (dir.join (testFile i))
      if e then .raise .osError else .ret i
    else findFree dir rest

theorem saveLoop_find {N : ℕ} (a : Sim.Input N) (tabs : List (List (Str × List ℝ))) (dir : Path) (l : List ℕ) :
    saveLoop a tabs dir l = (findFree dir l >>= fun i =>
      writeFile .part (dir.join (testFile i)) (.fits (hduList a tabs i)) >>= fun _ => .ret (hduList a tabs i)) := by
  induction l with
  | nil => rfl
  | cons i l ih =>
    rw [saveLoop, findFree, prog_bind_assoc]
    congr 1
    funext e
    cases e
    · show (writeto _ _ >>= _) = _
      unfold writeto
      rw [prog_bind_assoc]
      simp only [Bool.not_false, if_true]
      rw [prog_bind_assoc]
      congr 1
      funext e
      cases e <;> rfl
    · exact ih

theorem findFree_run (dir : Path) (l : List ℕ) (fs : FS File) :
    (∃ pre i post, l = pre ++ i :: post ∧ (∀ j ∈ pre, fs (testFile j :: dir) ≠ none) ∧
      fs (testFile i :: dir) = none ∧ (findFree dir l).run fs = (.ok i, fs)) ∨
    ((∀ j ∈ l, fs (testFile j :: dir) ≠ none) ∧ (findFree dir l).run fs = (.error .unboundLocalError, fs)) := by
  induction l with
  | nil => exact .inr ⟨by simp, rfl⟩
  | cons i l ih =>
    rw [findFree, Prog.run_bind, run_existsP]
    cases h : fs (testFile i :: dir) with
    | none =>
      have hp : present fs (dir.join (testFile i)) = false := by rw [present_cons, h]; rfl
      refine .inl ⟨[], i, l, rfl, by simp, h, ?_⟩
      simp only [hp, Bool.not_false, if_true]
      rw [Prog.run_bind, run_existsP, hp]
      rfl
    | some n =>
      have hp : present fs (dir.join (testFile i)) = true := by rw [present_cons, h]; rfl
      simp only [hp, Bool.not_true, Bool.false_eq_true, if_false]
      rcases ih with ⟨pre, j, post, h1, h2, h3, h4⟩ | ⟨h1, h2⟩
      · refine .inl ⟨i :: pre, j, post, by rw [h1]; rfl, ?_, h3, h4⟩
        intro k hk
        rcases List.mem_cons.1 hk with rfl | hk
        · rw [h]; simp
        · exact h2 k hk
      · refine .inr ⟨?_, h2⟩
        intro k hk
        rcases List.mem_cons.1 hk with rfl | hk
        · rw [h]; simp
        · exact h1 k hk

/-- What a simulation does before it stores, in a directory that is there. -/
noncomputable def beforeStore (dir : Path) : Prog File ℕ := makeDir dir >>= fun _ => findFree dir (List.range 101)

theorem simulate_before {N : ℕ} (a : Sim.Input N) (hz : Spec.DzOk a.dz) {tabs : List (List (Str × List ℝ))}
    (ht : tables a = .ok tabs) : simulate a = (beforeStore (Spec.genDir a.workDir) >>= fun i =>
      writeFile .part ((Spec.genDir a.workDir).join (testFile i)) (.fits (hduList a tabs i)) >>= fun _ =>
        .ret (hduList a tabs i)) := by
  rw [simulate_split a hz, ht, Prog.lift_ok, Prog.ret_bind, saveLoop_find, beforeStore, prog_bind_assoc]
  rfl

theorem makeDir_there {dir : Path} {fs : FS File} (hd : isDir fs dir) : (makeDir dir).run fs = (.ok (), fs) := by
  unfold makeDir
  rw [Prog.run_bind, run_existsP, isDir_present hd]
  rfl

/-- What a returned call has done, in a directory that is there. -/
theorem simulate_ret {N : ℕ} {a : Sim.Input N} {fs fs' : FS File} {l : List Hdu}
    (hd : isDir fs (Spec.genDir a.workDir)) (h : (simulate a).run fs = (.ok l, fs')) :
    ∃ tabs i, Spec.DzOk a.dz ∧ tables a = .ok tabs ∧ i ≤ 100 ∧ fs (Spec.simFile a.workDir i) = none ∧
      (∀ j < i, fs (Spec.simFile a.workDir j) ≠ none) ∧
      (beforeStore (Spec.genDir a.workDir)).run fs = (.ok i, fs) ∧ l = hduList a tabs i ∧
      fs' = update fs (Spec.simFile a.workDir i) (.file (.fits l)) := by
  by_cases hz : Spec.DzOk a.dz
  swap
  · rw [(C54_rejects a hz fs).1] at h; cases h
  cases ht : tables a with
  | error e =>
    rw [simulate_split a hz, ht] at h
    cases h
  | ok tabs =>
    rw [simulate_before a hz ht, Prog.run_bind] at h
    have hb : (beforeStore (Spec.genDir a.workDir)).run fs =
        (findFree (Spec.genDir a.workDir) (List.range 101)).run fs := by
      rw [beforeStore, Prog.run_bind, makeDir_there hd]
    rcases findFree_run (Spec.genDir a.workDir) (List.range 101) fs with ⟨pre, i, post, e1, e2, e3, e4⟩ | ⟨-, e2⟩
    · obtain ⟨hi, hpre⟩ := range_split e1
      have hi' : i ≤ 100 := by omega
      rw [hb, e4] at h
      dsimp only at h
      rw [Prog.run_bind, run_writeFile] at h
      have hnd : isDir fs ((Spec.genDir a.workDir).join (testFile i)) = false := by
        have e3' : fs ((Spec.genDir a.workDir).join (testFile i)) = none := e3
        simp [isDir, e3']
      have hpd : isDir fs ((Spec.genDir a.workDir).join (testFile i)).tail = true := hd
      rw [hnd, hpd] at h
      simp only [Bool.not_false, Bool.and_self, if_true] at h
      rw [Prog.run_ret, Prod.mk.injEq, Except.ok.injEq] at h
      obtain ⟨rfl, rfl⟩ := h
      have es : (Spec.genDir a.workDir).join (testFile i) = Spec.simFile a.workDir i := simFile_eq _ hi'
      refine ⟨tabs, i, hz, rfl, hi', by rw [← es]; exact e3, fun j hj => ?_, by rw [hb, e4], rfl, by rw [es]⟩
      rw [← simFile_eq _ (by omega)]
      exact e2 j (hpre j hj)
    · rw [hb, e2] at h
      cases h

/-- **C95** two simulations in one directory, each of which would return alone: there is an interleaving in which
both return, and what the first has returned is nowhere on the disk: the file holds the data of the second, as if
the first had not run. -/
theorem C95_race {N N' : ℕ} (a : Sim.Input N) (b : Sim.Input N') (hab : b.workDir = a.workDir) (fs fa fb : FS File)
    (la lb : List Hdu) (hd : isDir fs (Spec.genDir a.workDir)) (ha : (simulate a).run fs = (.ok la, fa))
    (hb : (simulate b).run fs = (.ok lb, fb)) :
    ∃ s : Sys File (List Hdu) Bool, Sys.Steps ⟨fun i => if i then simulate a else simulate b, fs⟩ s ∧
      s.proc true = .ret la ∧ s.proc false = .ret lb ∧ s.fs = fb := by
  obtain ⟨ta, i, hza, hta, hi, hf, hj, ra, rfl, rfl⟩ := simulate_ret hd ha
  obtain ⟨tb, i', hzb, htb, hi', hf', hj', rb, rfl, rfl⟩ := simulate_ret (a := b) (by rw [hab]; exact hd) hb
  rw [hab] at rb hf' hj' ⊢
  have hii : i' = i := by
    rcases Nat.lt_trichotomy i' i with h | h | h
    · exact absurd hf' (hj i' h)
    · exact h
    · exact absurd hf (hj' i h)
  subst hii
  set D := Spec.genDir a.workDir with hD
  have es : D.join (testFile i') = Spec.simFile a.workDir i' := simFile_eq _ hi
  -- both look for a number
  have s1 := steps_run (i := true) (p := beforeStore D) (⟨fun i => if i then simulate a else simulate b, fs⟩ : Sys _ _ Bool)
    (by rw [← simulate_before a hza hta]; rfl) ra
  have s2 := steps_run (i := false) (p := beforeStore D)
    (f := fun i => writeFile .part (D.join (testFile i)) (.fits (hduList b tb i)) >>= fun _ => .ret (hduList b tb i))
    (⟨Function.update (fun i => if i then simulate a else simulate b) true
        (writeFile .part (D.join (testFile i')) (.fits (hduList a ta i')) >>= fun _ => .ret (hduList a ta i')), fs⟩ :
      Sys File (List Hdu) Bool) (by
      dsimp only
      rw [Function.update_of_ne (by simp)]
      have := simulate_before b hzb htb
      rw [hab] at this
      exact this) rb
  -- both store
  have hdir : isDir fs D := hd
  have w1 : ∀ (g : FS File) (x : File), isDir g D → isDir g (D.join (testFile i')) = false →
      (writeFile .part (D.join (testFile i')) x).run g = (.ok (), update g (D.join (testFile i')) (.file x)) := by
    intro g x h1 h2
    rw [run_writeFile, h2, show isDir g (D.join (testFile i')).tail = true from h1]
    rfl
  have hn0 : isDir fs (D.join (testFile i')) = false := by
    have : fs (D.join (testFile i')) = none := by rw [es]; exact hf
    simp [isDir, this]
  have hne : D ≠ D.join (testFile i') := fun e => by
    have := congrArg List.length e
    simp at this
  have hd1 : isDir (update fs (D.join (testFile i')) (.file (.fits (hduList a ta i')))) D := by
    have h0 : fs D = some .dir := isDir_iff.1 hdir
    exact isDir_iff.2 ((update_ne _ _ hne).trans h0)
  have hn1 : isDir (update fs (D.join (testFile i')) (.file (.fits (hduList a ta i')))) (D.join (testFile i')) = false := by
    simp [isDir, update_same]
  have s3 := steps_end (i := true) (a := hduList a ta i')
    (⟨Function.update (Function.update (fun i => if i then simulate a else simulate b) true
        (writeFile .part (D.join (testFile i')) (.fits (hduList a ta i')) >>= fun _ => .ret (hduList a ta i'))) false
        (writeFile .part (D.join (testFile i')) (.fits (hduList b tb i')) >>= fun _ => .ret (hduList b tb i')), fs⟩ :
      Sys File (List Hdu) Bool)
    (fs' := update fs (D.join (testFile i')) (.file (.fits (hduList a ta i')))) (by
      dsimp only
      rw [Function.update_of_ne (by simp), Function.update_self, Prog.run_bind, w1 fs _ hdir hn0]
      rfl)
  have s4 := steps_end (i := false) (a := hduList b tb i')
    (⟨Function.update (Function.update (Function.update (fun i => if i then simulate a else simulate b) true
        (writeFile .part (D.join (testFile i')) (.fits (hduList a ta i')) >>= fun _ => .ret (hduList a ta i'))) false
        (writeFile .part (D.join (testFile i')) (.fits (hduList b tb i')) >>= fun _ => .ret (hduList b tb i'))) true
        (.ret (hduList a ta i')), update fs (D.join (testFile i')) (.file (.fits (hduList a ta i')))⟩ :
      Sys File (List Hdu) Bool)
    (fs' := update (update fs (D.join (testFile i')) (.file (.fits (hduList a ta i')))) (D.join (testFile i'))
      (.file (.fits (hduList b tb i')))) (by
      dsimp only
      rw [Function.update_of_ne (by simp), Function.update_self, Prog.run_bind, w1 _ _ hd1 hn1]
      rfl)
  refine ⟨_, ((s1.trans s2).trans s3).trans s4, ?_, ?_, ?_⟩
  · dsimp only
    rw [Function.update_of_ne (by simp), Function.update_self]
  · dsimp only
    rw [Function.update_self]
  · dsimp only
    rw [← es]
    funext q
    by_cases e : q = D.join (testFile i')
    · subst e
      rw [update_same, update_same]
    · rw [update_ne _ _ e, update_ne _ _ e, update_ne _ _ e]

/-- **C95** two simulations in a directory without `data_generated`: there is an interleaving in which one of them
ends in `OSError` after all its computations, though it would return alone. -/
theorem C95_directory {N N' : ℕ} (a : Sim.Input N) (b : Sim.Input N') (hab : b.workDir = a.workDir) (fs fa fb : FS File)
    (la lb : List Hdu) (hw : isDir fs a.workDir) (hd : fs (Spec.genDir a.workDir) = none)
    (ha : (simulate a).run fs = (.ok la, fa)) (hb : (simulate b).run fs = (.ok lb, fb)) :
    ∃ s : Sys File (List Hdu) Bool, Sys.Steps ⟨fun i => if i then simulate a else simulate b, fs⟩ s ∧
      s.proc true = .ret la ∧ s.proc false = .raise .osError ∧ s.fs = fa := by
  have hza : Spec.DzOk a.dz := by
    by_contra hz
    rw [(C54_rejects a hz fs).1] at ha
    cases ha
  have hzb : Spec.DzOk b.dz := by
    by_contra hz
    rw [(C54_rejects b hz fs).1] at hb
    cases hb
  set D := Spec.genDir a.workDir with hD
  have hp : present fs D = false := by rw [hD, Spec.genDir, present_cons]; rw [hD] at hd; rw [show fs ("data_generated".toList :: a.workDir) = none from hd]; rfl
  cases htb : tables b with
  | error e => rw [simulate_split b hzb, htb] at hb; cases hb
  | ok tb =>
    -- the second looks for the directory
    have eb : simulate b = (existsP D >>= fun e => (if !e then makedirs D false else pure ()) >>= fun _ =>
        saveLoop b tb D (List.range 101)) := by
      rw [simulate_split b hzb, htb, Prog.lift_ok, Prog.ret_bind, makeDir, prog_bind_assoc, hab]
      rfl
    have s1 := steps_run (i := false) (p := existsP D)
      (⟨fun i => if i then simulate a else simulate b, fs⟩ : Sys File (List Hdu) Bool)
      (f := fun e => (if !e then makedirs D false else pure ()) >>= fun _ => saveLoop b tb D (List.range 101))
      (a := false) (fs' := fs) eb (by rw [run_existsP, hp])
    -- the first runs to its end
    have s2 := steps_end (i := true) (a := la) (fs' := fa)
      (⟨Function.update (fun i => if i then simulate a else simulate b) false
        ((if !false then makedirs D false else pure ()) >>= fun _ => saveLoop b tb D (List.range 101)), fs⟩ :
        Sys File (List Hdu) Bool) (by
        dsimp only
        rw [Function.update_of_ne (by simp)]
        exact ha)
    -- now the directory is there
    have hfa : isDir fa a.workDir ∧ present fa D = true := by
      have hm := (simulate a).run_mem_trace fs
      rw [ha] at hm
      obtain ⟨i, hi, -, -, h3⟩ := C56_file a fs fa la ha
      constructor
      · refine isDir_mono (fun q hq => ?_) hw
        rw [C56_preserved a fs fa hm q (by rw [hq]; simp), hq]
      · have hza' := ha
        rw [simulate_split a hza, Prog.run_bind_ok] at hza'
        obtain ⟨tabs, fs1, e1, h⟩ := hza'
        rw [Prog.run_lift, Prod.mk.injEq] at e1
        obtain ⟨-, rfl⟩ := e1
        rw [Prog.run_bind_ok] at h
        obtain ⟨_, fs2, e2, h⟩ := h
        rcases saveLoop_run a tabs D (List.range 101) fs2 with ⟨pre, k, post, -, -, -, e4⟩ | ⟨-, e4⟩
        · have h' : (saveLoop a tabs D (List.range 101)).run fs2 = (.ok la, fa) := h
          rw [e4] at h'
          split_ifs at h' with hdd
          · rw [Prod.mk.injEq] at h'
            obtain ⟨-, rfl⟩ := h'
            refine isDir_present ?_
            have h0 : fs2 D = some .dir := by rw [hD] at hdd ⊢; exact isDir_iff.1 hdd
            have hne : D ≠ testFile k :: D := fun e => by
              have := congrArg List.length e
              simp at this
            exact isDir_iff.2 ((update_ne _ _ hne).trans h0)
          · cases h'
        · have h' : (saveLoop a tabs D (List.range 101)).run fs2 = (.ok la, fa) := h
          rw [e4] at h'
          cases h'
    have s3 := steps_raise (i := false) (e := .osError) (fs' := fa)
      (⟨Function.update (Function.update (fun i => if i then simulate a else simulate b) false
        ((if !false then makedirs D false else pure ()) >>= fun _ => saveLoop b tb D (List.range 101))) true
        (.ret la), fa⟩ : Sys File (List Hdu) Bool) (by
        dsimp only
        rw [Function.update_of_ne (by simp), Function.update_self]
        simp only [Bool.not_false, if_true]
        rw [Prog.run_bind, hD, Spec.genDir, run_makedirs_leaf _ _ _ _ hfa.1]
        have := hfa.2
        rw [hD, Spec.genDir] at this
        rw [if_pos this]
        rfl)
    refine ⟨_, (s1.trans s2).trans s3, ?_, ?_, rfl⟩
    · dsimp only
      rw [Function.update_of_ne (by simp), Function.update_self]
    · dsimp only
      rw [Function.update_self]

/-! ## The script -/

/-- **C95** the script in a directory without `test000.fits`: what it gets is read from the file that its own
simulation has written. -/
theorem C95_script_first {N : ℕ} (a : Sim.Input N) (fs fs' : FS File) (l : List Hdu)
    (h : (simulate a).run fs = (.ok l, fs')) (h0 : fs (Spec.simFile a.workDir 0) = none) :
    (script a).run fs = (extractPyoof (fun _ => .ok l) "data_generated/test000.fits".toList, fs') := by
  obtain ⟨i, hi, h1, h2, h3⟩ := C56_file a fs fs' l h
  have hi0 : i = 0 := by
    by_contra hc
    exact h2 0 (by omega) h0
  subst hi0
  have hp : (a.workDir.join "data_generated".toList).join "test000.fits".toList = Spec.simFile a.workDir 0 := rfl
  unfold script
  rw [Prog.run_bind, h]
  dsimp only
  rw [hp, Prog.run_bind]
  have : (openP (Spec.simFile a.workDir 0)).run fs' = (.ok (.ok l), fs') := by
    unfold openP
    rw [Prog.run_op]
    simp only [exec, h3]
    rfl
  rw [this]
  dsimp only
  rw [Prog.run_lift]

/-- **C95** the script in a directory with a `test000.fits`: what it gets is read from that old file, whatever it
has simulated. -/
theorem C95_script_again {N : ℕ} (a : Sim.Input N) (fs fs' : FS File) (l l0 : List Hdu)
    (h : (simulate a).run fs = (.ok l, fs')) (h0 : fs (Spec.simFile a.workDir 0) = some (.file (.fits l0))) :
    (script a).run fs = (extractPyoof (fun _ => .ok l0) "data_generated/test000.fits".toList, fs') := by
  have hm := (simulate a).run_mem_trace fs
  rw [h] at hm
  have h3 : fs' (Spec.simFile a.workDir 0) = some (.file (.fits l0)) := by
    rw [C56_preserved a fs fs' hm _ (by rw [h0]; simp), h0]
  have hp : (a.workDir.join "data_generated".toList).join "test000.fits".toList = Spec.simFile a.workDir 0 := rfl
  unfold script
  rw [Prog.run_bind, h]
  dsimp only
  rw [hp, Prog.run_bind]
  have : (openP (Spec.simFile a.workDir 0)).run fs' = (.ok (.ok l0), fs') := by
    unfold openP
    rw [Prog.run_op]
    simp only [exec, h3]
    rfl
  rw [this]
  dsimp only
  rw [Prog.run_lift]

/-! ## Cases -/

/-- A simulation of some day in some directory. -/
noncomputable def simDay (w : Path) (day : Str) : Sim.Input 512 := { tieInput 512 5 with workDir := w, now := day }

theorem simDay_work (w : Path) (day : Str) : (simDay w day).workDir = w := rfl

theorem simDay_dz (w : Path) (day : Str) : Spec.DzOk (simDay w day).dz := by
  refine ⟨?_, ?_, ?_⟩ <;> simp [simDay, tieInput] <;> norm_num

theorem simDay_runs (w : Path) (day : Str) (fs : FS File) (hd : isDir fs w)
    (hg : fs ("data_generated".toList :: w) = none ∨ isDir fs ("data_generated".toList :: w))
    (hfree : ∃ i ≤ 100, fs (Spec.simFile w i) = none) : ∃ l fs', (simulate (simDay w day)).run fs = (.ok l, fs') :=
  C54_accepts (simDay w day) (simDay_dz w day) sample_computes (by simp [simDay, tieInput]) fs hd hg hfree

/-- Two simulations in a directory with a file of an earlier one: both return different data, the earlier file is
kept, and the data of the first are on no place of the disk. -/
example : ∃ (s : Sys File (List Hdu) Bool) (la lb : List Hdu), Sys.Steps ⟨fun i => if i then
      simulate (simDay ["home".toList] "2020-01-01".toList) else simulate (simDay ["home".toList] "2020-01-02".toList),
      sampleSimFs⟩ s ∧ s.proc true = .ret la ∧ s.proc false = .ret lb ∧ la ≠ lb ∧
    s.fs ["test001.fits".toList, "data_generated".toList, "home".toList] = some (.file (.fits lb)) ∧
    (∀ q, s.fs q ≠ some (.file (.fits la))) ∧
    s.fs ["test000.fits".toList, "data_generated".toList, "home".toList] = some (.file (.other 1)) := by
  obtain ⟨la, fa, ha⟩ := simDay_runs ["home".toList] "2020-01-01".toList sampleSimFs (by decide) (.inr (by decide))
    ⟨1, by norm_num, by decide⟩
  obtain ⟨lb, fb, hb⟩ := simDay_runs ["home".toList] "2020-01-02".toList sampleSimFs (by decide) (.inr (by decide))
    ⟨1, by norm_num, by decide⟩
  obtain ⟨s, h1, h2, h3, h4⟩ := C95_race (simDay ["home".toList] "2020-01-01".toList)
    (simDay ["home".toList] "2020-01-02".toList) (by rw [simDay_work, simDay_work]) sampleSimFs fa fb la lb (by decide) ha hb
  obtain ⟨ta, i, -, -, -, -, -, -, el, -⟩ := simulate_ret (a := simDay ["home".toList] "2020-01-01".toList) (by decide) ha
  obtain ⟨tb, j, -, -, hj, hn, hp, -, el', ef⟩ :=
    simulate_ret (a := simDay ["home".toList] "2020-01-02".toList) (by decide) hb
  have hj1 : j = 1 := by
    rcases Nat.lt_trichotomy j 1 with hlt | rfl | hgt
    · have : j = 0 := by omega
      subst this
      exact absurd hn (by decide)
    · rfl
    · exact absurd (show sampleSimFs (Spec.simFile ["home".toList] 1) = none by decide) (hp 1 hgt)
  subst hj1
  have hne : la ≠ lb := by
    rw [el, el']
    intro e
    have := congrArg (fun l : List Hdu => (l.map Hdu.header).head?.map fun c => c[4]?) e
    simp [hduList, simDay] at this
  refine ⟨s, la, lb, h1, h2, h3, hne, ?_, ?_, ?_⟩
  · rw [h4, ef]
    exact update_same _ _ _
  · intro q
    rw [h4, ef]
    by_cases e : q = Spec.simFile (simDay ["home".toList] "2020-01-02".toList).workDir 1
    · rw [e, update_same]
      intro h
      rw [Option.some.injEq, Node.file.injEq, File.fits.injEq] at h
      exact hne h.symm
    · rw [update_ne _ _ e]
      unfold sampleSimFs
      split_ifs <;> simp
  · rw [h4, ef, update_ne _ _ (by decide)]
    unfold sampleSimFs
    rw [if_neg (by decide), if_pos (by decide)]

/-- A disk with two empty directories. -/
def twoHomes : FS File := fun p => if p = ["home".toList] ∨ p = ["work".toList] then some .dir else none

/-- Two simulations in them: whenever both have returned, each `test000.fits` holds what its call has returned. -/
example (s : Sys File (List Hdu) Bool)
    (hs : Sys.Steps (Spec.simStart (fun i : Bool => simDay [if i then "home".toList else "work".toList] "now".toList)
      twoHomes) s) (l : List Hdu) (hl : s.proc true = .ret l) :
    s.fs ["test000.fits".toList, "data_generated".toList, "home".toList] = some (.file (.fits l)) := by
  obtain ⟨h, -⟩ := C95_apart (fun i : Bool => simDay [if i then "home".toList else "work".toList] "now".toList) twoHomes
    (by
      intro f d h
      unfold twoHomes at h
      split_ifs at h with h1
      · rcases h1 with h1 | h1 <;> (cases h1; rfl)
      · cases h) (fun i => by cases i <;> decide)
    (fun i j hij => by cases i <;> cases j <;> first | exact absurd rfl hij | exact ⟨by decide, by decide⟩) s hs true
  obtain ⟨alone, h1, h2⟩ := h l hl
  obtain ⟨i, hi, h3, h4, h5⟩ := C56_file _ _ _ _ h1
  have hi0 : i = 0 := by
    by_contra hc
    exact h4 0 (by omega) (by decide)
  subst hi0
  exact (h2 ["test000.fits".toList, "data_generated".toList, "home".toList] ⟨["test000.fits".toList], rfl⟩).trans h5

/-- In one of them: the second of two simulations can end in `OSError`. -/
example : ∃ (s : Sys File (List Hdu) Bool) (la : List Hdu), Sys.Steps ⟨fun i => if i then
      simulate (simDay ["home".toList] "2020-01-01".toList) else simulate (simDay ["home".toList] "2020-01-02".toList),
      twoHomes⟩ s ∧ s.proc true = .ret la ∧ s.proc false = .raise .osError := by
  obtain ⟨la, fa, ha⟩ := simDay_runs ["home".toList] "2020-01-01".toList twoHomes (by decide) (.inl (by decide))
    ⟨1, by norm_num, by decide⟩
  obtain ⟨lb, fb, hb⟩ := simDay_runs ["home".toList] "2020-01-02".toList twoHomes (by decide) (.inl (by decide))
    ⟨1, by norm_num, by decide⟩
  obtain ⟨s, h1, h2, h3, -⟩ := C95_directory (simDay ["home".toList] "2020-01-01".toList)
    (simDay ["home".toList] "2020-01-02".toList) (by rw [simDay_work, simDay_work]) twoHomes fa fb la lb (by decide) (by decide) ha hb
  exact ⟨s, la, h1, h2, h3⟩

/-- A directory with a `test000.fits` of an earlier day. -/
def oldHome (l0 : List Hdu) : FS File := fun p =>
  if p = ["home".toList] ∨ p = ["data_generated".toList, "home".toList] then some .dir
  else if p = ["test000.fits".toList, "data_generated".toList, "home".toList] then some (.file (.fits l0))
  else none

/-- The script in an empty directory gets its own data; in the other one those of the earlier day. -/
example (l0 : List Hdu) :
    (∃ l fs', (simulate (simDay ["home".toList] "2020-01-02".toList)).run twoHomes = (.ok l, fs') ∧
      (script (simDay ["home".toList] "2020-01-02".toList)).run twoHomes =
        (extractPyoof (fun _ => .ok l) "data_generated/test000.fits".toList, fs')) ∧
    ∃ l fs', (simulate (simDay ["home".toList] "2020-01-02".toList)).run (oldHome l0) = (.ok l, fs') ∧
      (script (simDay ["home".toList] "2020-01-02".toList)).run (oldHome l0) =
        (extractPyoof (fun _ => .ok l0) "data_generated/test000.fits".toList, fs') := by
  constructor
  · obtain ⟨l, fs', h⟩ := simDay_runs ["home".toList] "2020-01-02".toList twoHomes (by decide) (.inl (by decide))
      ⟨0, by norm_num, by decide⟩
    exact ⟨l, fs', h, C95_script_first _ _ _ _ h (show twoHomes (Spec.simFile ["home".toList] 0) = none by decide)⟩
  · have e1 : isDir (oldHome l0) ["home".toList] := isDir_iff.2 (by simp [oldHome])
    have e2 : isDir (oldHome l0) ("data_generated".toList :: ["home".toList]) := isDir_iff.2 (by simp [oldHome])
    have e3 : oldHome l0 (Spec.simFile ["home".toList] 1) = none := by
      unfold oldHome
      rw [if_neg (by decide), if_neg (by decide)]
    have e4 : oldHome l0 (Spec.simFile ["home".toList] 0) = some (.file (.fits l0)) := by
      unfold oldHome
      rw [if_neg (by decide), if_pos (by decide)]
    obtain ⟨l, fs', h⟩ := simDay_runs ["home".toList] "2020-01-02".toList (oldHome l0) e1 (.inr e2)
      ⟨1, by norm_num, e3⟩
    exact ⟨l, fs', h, C95_script_again _ _ _ _ l0 h e4⟩

end Verif.Props
