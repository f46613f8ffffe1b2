import Verif.Props.Observations
import Verif.Props.Contents
import Verif.Props.Concurrent

/-!
# C90: from the observations to the look-up table

Any number of fits at the same time, then the script that makes the look-up table.
-/

namespace Verif.Props

open Verif Verif.Fs Verif.Store Verif.Core Verif.Fit Verif.Aperture Verif.AuxFn Verif.Actuator Verif.CreateLookup

variable {ι : Type} [DecidableEq ι]

/-- **C90.**  After any interleaving of fits of observations with different names, started where there was
no result for them: the directory of a fit that has ended is `name-000`, and what is stored there for
each order belongs to this observation. -/
theorem C90_stored {N M : ι → ℕ} (a : (i : ι) → Input (N i) (M i)) (w : Path)
    (hw : ∀ i, (a i).workDir = w) (hn : ∀ i j, i ≠ j → (a i).name ≠ (a j).name) (fs : FS Content)
    (hwf : WF fs) (hwd : isDir fs w)
    (hout : fs ("pyoof_out".toList :: w) = none ∨ isDir fs ("pyoof_out".toList :: w))
    (s : Sys Content Path ι) (hs : Relation.ReflTransGen Sys.Step ⟨fun i => fitZpoly (a i), fs⟩ s)
    (i : ι) (d : Path) (hd : s.proc i = .ret d) (hfree : fs (Spec.runDir w (a i).name 0) = none)
    (S : List ℕ) (hf : Spec.Feasible (a i).cfg S) (hb : Spec.InBounds (a i).solver) (k : ℕ) (hk : 1 ≤ k)
    (hk' : k ≤ (a i).orderMax) :
    ∃ x : Spec.StoredFit, x.dir = d ∧ x.On s.fs k ∧ x.Named ("pyoof_out".toList :: w) "000".toList ∧
      x.fit.length = 5 + Spec.nK k ∧ x.info.name = (a i).name ∧ x.info.meanel = (a i).meanel ∧
      (∃ t, (a i).snr 1 = .ok t ∧ x.info.snr[1]? = some t) ∧
      ∃ ph, phase (x.fit.drop 5) (a i).tel.pr false false 1000 = .ok ph ∧ x.n = 1000 ∧ HEq x.phase ph.phi := by
  obtain ⟨fs', h, hsame⟩ := (C46_no_interference a w hw hn fs hwf hwd hout s hs i).1 d hd
  have hdir : d = Spec.runDir w (a i).name 0 := by
    rcases C45_directory _ _ _ _ h with ⟨j, -, hdj, -, hmin⟩ | ⟨-, hall⟩
    · rw [hw i] at hdj hmin
      rcases Nat.eq_zero_or_pos j with rfl | hj
      · exact hdj
      · exact absurd hfree (hmin 0 hj)
    · rw [hw i] at hall
      exact absurd hfree (hall 0 (by omega))
  have hdn : fs d = none := by rw [hdir]; exact hfree
  have hst : ∀ f, s.fs (f :: d) = fs' (f :: d) := by
    intro f
    refine hsame _ ⟨0, by omega, ?_⟩
    rw [hdir]
    exact List.suffix_cons _ _
  obtain ⟨names, fit, init, it, lb, ub, r, co, hdr, ph, res, jac, grad, phi, cov, cor, g1, -, -, -, -, -,
    -, -, -, g2, -, -, -, -, -, -, g3, g4, -⟩ := C67_provenance (a i) fs fs' d h (.inl hdn) k hk hk'
  obtain ⟨t, beam, u, v, inf, i0, -, -, -, -, -, -, i1, i2, -, -, -, -, -, -, -, -, -, i4, -, -, i5⟩ :=
    C67_observation (a i) fs fs' d h (.inl hdn) (by omega)
  obtain ⟨names', fit', init', g1', -, hl, -⟩ := C40_stored (a i) S hf hb fs fs' d h (.inl hdn) k hk hk'
  rw [g1] at g1'
  cases g1'
  rw [g4] at g3
  refine ⟨⟨d, inf, 1000, ph.phi, fit⟩, rfl, ?_, ?_, hl, i2, i4, ⟨t 1, i0 1, by simp [i5]⟩, ph, g2, rfl, HEq.rfl⟩
  · exact ⟨by rw [hst, i1], ⟨_, by rw [hst, g3]⟩, ⟨names, init, by rw [hst, g1]⟩, by simp [i5], by norm_num,
      by simp only [hl]; omega⟩
  · show d = _
    rw [hdir, ← i2]
    simp [Spec.runDir, digitChar]

theorem isDir_congr {C : Type} {fs fs' : FS C} {q : Path} (h : fs q = fs' q) : isDir fs q = isDir fs' q := by
  cases q with
  | nil => rfl
  | cons f q => simp only [isDir, h]

/-- What is outside `pyoof_out` stays as it was, in every interleaving. -/
theorem sys_outside {N M : ι → ℕ} (a : (i : ι) → Input (N i) (M i)) (w : Path)
    (hw : ∀ i, (a i).workDir = w) (fs : FS Content) (hwf : WF fs) (hwd : isDir fs w)
    (s : Sys Content Path ι) (hs : Relation.ReflTransGen Sys.Step ⟨fun i => fitZpoly (a i), fs⟩ s) (q : Path)
    (hq : ¬ ("pyoof_out".toList :: w) <:+ q) : s.fs q = fs q := by
  have key : (∀ i, Touches (Zone w (a i).name) (s.proc i)) ∧ s.fs q = fs q := by
    induction hs with
    | refl => exact ⟨fun i => hw i ▸ touches_fitZpoly (a i), rfl⟩
    | tail _ hst ih =>
      obtain ⟨k, o, c, h⟩ := hst
      obtain ⟨ih1, ih2⟩ := ih
      have hk := ih1 k
      rw [h] at hk
      refine ⟨fun i => ?_, ?_⟩
      · by_cases hik : i = k
        · subst hik
          simpa using hk.2 _
        · simpa [hik] using ih1 i
      · show (exec _ o).2 q = fs q
        by_cases hp : q = o.path
        · have hz := hk.1
          rw [← hp] at hz
          rcases hz with ⟨j, hj, hm⟩ | hm
          · obtain ⟨f, e⟩ := runDir_tail w (a k).name j
            rw [e] at hm
            exact absurd ((List.suffix_cons _ _).trans hm) hq
          · rcases List.suffix_cons_iff.1 hm with e | hm
            · exact absurd (e ▸ List.suffix_refl _) hq
            · have hd := WF_suffix hwf hwd hm
              rw [← isDir_congr ih2, hp] at hd
              rw [exec_dir_same hd, ih2]
        · rw [exec_other hp, ih2]
  exact key.2

/-- One process runs alone to an exception. -/
theorem steps_raise {C α : Type} {i : ι} (s : Sys C α ι) {e : PyErr} {fs' : FS C}
    (hr : (s.proc i).run s.fs = (.error e, fs')) :
    Relation.ReflTransGen Sys.Step s ⟨Function.update s.proc i (.raise e), fs'⟩ := by
  obtain ⟨proc, fs⟩ := s
  dsimp only at hr ⊢
  generalize hp : proc i = p at hr
  induction p generalizing proc fs with
  | ret a => cases hr
  | raise e' =>
    cases hr
    rw [← hp, Function.update_eq_self]
  | op o k ih =>
    refine .head (Sys.Step.mk ⟨proc, fs⟩ i o k hp) ?_
    have := ih (exec fs o).1 (Function.update proc i (k (exec fs o).1)) (exec fs o).2 (by simp) hr
    simpa using this

/-- **C90.**  Fits that complete alone complete together: whatever the interleaving up to now, all of them
can still end with a result; and when nothing is left to do, all of them have. -/
theorem C90_complete [Fintype ι] {N M : ι → ℕ} (a : (i : ι) → Input (N i) (M i)) (w : Path)
    (hw : ∀ i, (a i).workDir = w) (hn : ∀ i j, i ≠ j → (a i).name ≠ (a j).name) (fs : FS Content)
    (hwf : WF fs) (hwd : isDir fs w)
    (hout : fs ("pyoof_out".toList :: w) = none ∨ isDir fs ("pyoof_out".toList :: w))
    (hfree : ∀ i, ∃ k ≤ 100, fs (Spec.runDir w (a i).name k) = none)
    (S : ι → List ℕ) (hr : ∀ i, Spec.Runs (a i) (S i))
    (s : Sys Content Path ι) (hs : Relation.ReflTransGen Sys.Step ⟨fun i => fitZpoly (a i), fs⟩ s) :
    (∃ s', Relation.ReflTransGen Sys.Step s s' ∧ ∀ i, ∃ d, s'.proc i = .ret d) ∧
    ((∀ s', ¬ Sys.Step s s') → ∀ i, ∃ d, s.proc i = .ret d) := by
  have noraise : ∀ s, Relation.ReflTransGen Sys.Step ⟨fun i => fitZpoly (a i), fs⟩ s → ∀ i e,
      s.proc i ≠ .raise e := by
    intro s hs i e he
    obtain ⟨alone, h, -⟩ := (C46_no_interference a w hw hn fs hwf hwd hout s hs i).2 e he
    have c := hr i
    obtain ⟨d, fs', h'⟩ := C40_completes (a i) (S i) c.feasible c.inBounds c.solves c.enough c.snr fs hwf
      ((hw i).symm ▸ hwd) ((hw i).symm ▸ hout) (.inl ((hw i).symm ▸ hfree i))
    rw [h] at h'
    cases h'
  constructor
  · suffices h : ∀ t : Finset ι, ∃ s', Relation.ReflTransGen Sys.Step s s' ∧ ∀ i ∈ t, ∃ d, s'.proc i = .ret d by
      obtain ⟨s', h1, h2⟩ := h Finset.univ
      exact ⟨s', h1, fun i => h2 i (Finset.mem_univ i)⟩
    intro t
    induction t using Finset.induction_on with
    | empty => exact ⟨s, .refl, by simp⟩
    | insert i t hi ih =>
      obtain ⟨s', h1, h2⟩ := ih
      rcases hrun : (s'.proc i).run s'.fs with ⟨e | d, fs'⟩
      · exact absurd (by simp) (noraise _ (hs.trans (h1.trans (steps_raise s' hrun))) i e)
      · refine ⟨_, h1.trans (steps_end s' hrun), fun j hj => ?_⟩
        by_cases hji : j = i
        · subst hji
          exact ⟨d, by simp⟩
        · rcases Finset.mem_insert.1 hj with rfl | hj
          · exact absurd rfl hji
          · simpa [hji] using h2 j hj
  · intro hstuck i
    rcases hp : s.proc i with d | e | ⟨o, k⟩
    · exact ⟨d, rfl⟩
    · exact absurd hp (noraise s hs i e)
    · exact absurd (Sys.Step.mk s i o k hp) (hstuck _)

/-- **C90.**  The whole way: any number of observations with different names are fitted at the same time,
in any interleaving, to at least the order of the model, in a place without earlier results.  If the
coefficients stored for the good ones follow a gravitational model, three of them at different
elevations, then the script, given their directories in any order, writes the table of that model. -/
theorem C90_table [Fintype ι] {N M : ι → ℕ} (a : (i : ι) → Input (N i) (M i)) (w : Path)
    (hw : ∀ i, (a i).workDir = w) (hn : ∀ i j, i ≠ j → (a i).name ≠ (a j).name) (fs : FS Content)
    (hwf : WF fs) (hwd : isDir fs w)
    (hout : fs ("pyoof_out".toList :: w) = none ∨ isDir fs ("pyoof_out".toList :: w))
    (hfree : ∀ i, fs (Spec.runDir w (a i).name 0) = none)
    (S : ι → List ℕ) (hf : ∀ i, Spec.Feasible (a i).cfg (S i)) (hb : ∀ i, Spec.InBounds (a i).solver)
    (s : Sys Content Path ι) (hs : Relation.ReflTransGen Sys.Step ⟨fun i => fitZpoly (a i), fs⟩ s)
    (d : ι → Path) (hd : ∀ i, s.proc i = .ret (d i))
    (act : Act) (hq : Spec.Quintic act.spline) (hr : 6 ≤ act.resolution) (hsr : 0 < act.sr)
    (hsr' : act.sr ≤ 5.2) (hfr : act.frequency ≠ 0) (hsg : act.sign ≠ 0) (hnr : act.nReflections ≠ 0)
    (ha : Spec.Writable act) (ho : 1 ≤ act.order) (hord : ∀ i, act.order ≤ (a i).orderMax)
    (solver : Act.Solver (List ℝ)) (hsol : Spec.Exact Spec.costL solver)
    (sort : List Row → Py (List Row)) (hsort : Spec.Sorts sort)
    (dirs : List Path) (hdirs : dirs.Perm (Finset.univ.toList.map d))
    (g : List (List ℝ)) (hg : g.length = Spec.nK act.order)
    (hfol : ∀ i t names fit init, (a i).snr 1 = .ok t → Spec.Good (a i).name t →
      s.fs (Spec.file "fitpar" act.order :: d i) = some (.file (.params names fit init)) →
      List.Forall₂ (Spec.Gravity (a i).meanel) g (fit.drop 5))
    (h3 : ∃ i j k ti tj tk, (a i).snr 1 = .ok ti ∧ (a j).snr 1 = .ok tj ∧ (a k).snr 1 = .ok tk ∧
      Spec.Good (a i).name ti ∧ Spec.Good (a j).name tj ∧ Spec.Good (a k).name tk ∧
      (a i).meanel < (a j).meanel ∧ (a j).meanel < (a k).meanel ∧ (a k).meanel < (a i).meanel + 360)
    (v : Fin 11 → Fin 96 → ℤ) (lookup : Path)
    (hlook : fs lookup = some (.file (.text (Spec.lookupText v)))) (hlook' : ¬ ("pyoof_out".toList :: w) <:+ lookup)
    (sf : Str) (sd : Path) (hsave : isDir fs (sf :: sd) ∨ fs (sf :: sd) = none ∧ isDir fs sd) (fname : Str)
    (hname : ¬ isDir fs (fname :: sf :: sd)) (hname' : ¬ ("pyoof_out".toList :: w) <:+ fname :: sf :: sd) :
    ∃ (fs' : FS Content) (w' : Fin 11 → Fin 96 → ℤ),
      act.createLookup g (Spec.lookupText v) = .ok (Spec.lookupText w') ∧
      (script act solver ("pyoof_out".toList :: w) "000".toList sort dirs lookup (sf :: sd) fname).run s.fs =
        (.ok (), fs') ∧
      fs' (fname :: sf :: sd) = some (.file (.text (Spec.lookupText w'))) ∧
      ∀ q, q ≠ fname :: sf :: sd → q ≠ sf :: sd → fs' q = s.fs q := by
  classical
  have key := fun i => C90_stored a w hw hn fs hwf hwd hout s hs i (d i) (hd i) (hfree i) (S i) (hf i) (hb i)
    act.order ho (hord i)
  choose x x1 x2 x3 x4 x5 x6 x7 x8 using key
  choose t t1 t2 using x7
  obtain ⟨lι, p1, p2⟩ : ∃ lι : List ι, lι.Perm Finset.univ.toList ∧ dirs = lι.map d := by
    obtain ⟨l', q1, q2⟩ := perm_rel (R := fun i p => d i = p) (l := Finset.univ.toList)
      (List.forall₂_map_right_iff.2 (List.forall₂_same.2 fun _ _ => rfl)) hdirs
    refine ⟨l', q1, ?_⟩
    clear q1 hdirs
    induction q2 with
    | nil => rfl
    | cons h _ ih => rw [List.map_cons, ← ih, h]
  have hdirs' : dirs = (lι.map x).map fun y => y.dir := by
    rw [p2, List.map_map]
    exact List.map_congr_left fun i _ => (x1 i).symm
  have hused : ∀ i, Spec.Used (x i).info ↔ Spec.Good (a i).name (t i) := by
    intro i
    unfold Spec.Used
    rw [t2 i, x5 i]
    simp
  have hmem : ∀ i, i ∈ lι := fun i => p1.mem_iff.2 (by simp)
  have out := sys_outside a w hw fs hwf hwd s hs
  have hsf : ¬ ("pyoof_out".toList :: w) <:+ sf :: sd := fun h => hname' (h.trans (List.suffix_cons _ _))
  have hsd : ¬ ("pyoof_out".toList :: w) <:+ sd := fun h => hsf (h.trans (List.suffix_cons _ _))
  rw [← out _ hlook'] at hlook
  rw [← isDir_congr (out _ hsf), ← out _ hsf, ← isDir_congr (out _ hsd)] at hsave
  rw [← isDir_congr (out _ hname')] at hname
  rw [hdirs']
  refine C89_table act hq hr hsr hsr' hfr hsg hnr ha ho solver hsol _ _ sort hsort s.fs _ ?_ g hg ?_ ?_ v lookup
    hlook sf sd hsave fname hname
  · intro y hy
    obtain ⟨i, -, rfl⟩ := List.mem_map.1 hy
    exact ⟨x2 i, x3 i, x4 i⟩
  · intro y hy hu
    obtain ⟨i, -, rfl⟩ := List.mem_map.1 hy
    obtain ⟨names, init, hp⟩ := (x2 i).params
    rw [x1 i] at hp
    rw [x6 i]
    exact hfol i (t i) names _ init (t1 i) ((hused i).1 hu) hp
  · obtain ⟨i, j, k, ti, tj, tk, e1, e2, e3, g1, g2, g3, m1, m2, m3⟩ := h3
    rw [t1] at e1 e2 e3
    cases e1
    cases e2
    cases e3
    refine ⟨x i, List.mem_map.2 ⟨i, hmem i, rfl⟩, x j, List.mem_map.2 ⟨j, hmem j, rfl⟩, x k,
      List.mem_map.2 ⟨k, hmem k, rfl⟩, (hused i).2 g1, (hused j).2 g2, (hused k).2 g3, ?_, ?_, ?_⟩
    · rw [x6, x6]; exact m1
    · rw [x6, x6]; exact m2
    · rw [x6, x6]; exact m3

/-! ## Four observations, one of them with an offset -/

/-- The model of the example. -/
def Spec.demoModel : List (List ℝ) := [[0, 0, 1], [1, 2, 0.5], [-1, 0, 3]]

/-- What it gives at an elevation in degrees. -/
noncomputable def Spec.demoK (deg : ℝ) : List ℝ :=
  [1, Real.sin (deg * (Real.pi / 180)) + 2 * Real.cos (deg * (Real.pi / 180)) + 0.5,
    -Real.sin (deg * (Real.pi / 180)) + 3]

/-- Observation number `i`: the fit is held at the coefficients of the model, except for the last one,
whose name ends in `offset`. -/
noncomputable def Spec.demo (i : Fin 4) : Input 64 5 :=
  { sampleInput with
    name := (["a", "b", "c", "c-offset"].map String.toList).getD i []
    meanel := 20 * (i : ℕ) + 10
    orderMax := 1
    snr := fun _ => .ok (.fin 300)
    cfg := { defaultConfig with
      excluded := [1, 2, 3, 4, 5, 6, 7]
      fixed := [1, -14.5, 1.4, 0, 0] ++ if i = 3 then [7, 8, 9] else Spec.demoK (20 * (i : ℕ) + 10) } }

theorem demo_runs (i : Fin 4) : Spec.Runs (Spec.demo i) [1, 2, 3, 4, 5, 6, 7] where
  feasible :=
    { excluded := rfl
      ascending := by decide
      below := by decide
      fixed := by
        show ([1, -14.5, 1.4, 0, 0] ++ if i = 3 then [7, 8, 9] else Spec.demoK (20 * (i : ℕ) + 10) : List ℝ).length = 8
        split <;> rfl
      init := rfl
      boundMin := rfl
      boundMax := rfl
      lt := fun k hk hS => by
        interval_cases k <;> simp [Spec.demo, defaultConfig] at hS ⊢
      ge := fun k hk hS => by
        interval_cases k <;> simp [Spec.demo, defaultConfig] at hS ⊢ <;> norm_num
      le := fun k hk hS => by
        interval_cases k <;> simp [Spec.demo, defaultConfig] at hS ⊢ <;> norm_num }
  inBounds := lazy_inBounds 15
  solves := sample_runs.solves
  enough := by simp [Spec.demo, Spec.nK]
  snr _ := ⟨_, rfl⟩

/-- An empty directory and the present table. -/
def Spec.demoFs : FS Content := fun p =>
  if p = ["home".toList] then some .dir
  else if p = ["table".toList] then some (.file (.text (Spec.lookupText fun (e : Fin 11) (k : Fin 96) => (e * k : ℕ))))
  else none

example : ∃ (s : Sys Content Path (Fin 4)) (d : Fin 4 → Path) (solver : Act.Solver (List ℝ)) (fs' : FS Content)
    (w' : Fin 11 → Fin 96 → ℤ),
    Relation.ReflTransGen Sys.Step ⟨fun i => fitZpoly (Spec.demo i), Spec.demoFs⟩ s ∧ (∀ i, s.proc i = .ret (d i)) ∧
    { Spec.splined with order := 1 }.createLookup Spec.demoModel
      (Spec.lookupText fun (e : Fin 11) (k : Fin 96) => (e * k : ℕ)) = .ok (Spec.lookupText w') ∧
    (script { Spec.splined with order := 1 } solver ["pyoof_out".toList, "home".toList] "000".toList .ok
      [d 2, d 3, d 1, d 0] ["table".toList] ["lookup".toList, "home".toList] "new".toList).run s.fs = (.ok (), fs') ∧
    fs' ["new".toList, "lookup".toList, "home".toList] = some (.file (.text (Spec.lookupText w'))) := by
  have hn : ∀ i j, i ≠ j → (Spec.demo i).name ≠ (Spec.demo j).name := by
    intro i j hij
    show (["a", "b", "c", "c-offset"].map String.toList).getD i [] ≠ (["a", "b", "c", "c-offset"].map String.toList).getD j []
    revert i j
    decide
  have hwf : WF Spec.demoFs := by
    intro f d h
    unfold Spec.demoFs at h
    split_ifs at h with h1 h2
    · cases h1; rfl
    · cases h2; rfl
    · cases h
  have hfree : ∀ i, Spec.demoFs (Spec.runDir ["home".toList] (Spec.demo i).name 0) = none := by
    intro i
    simp [Spec.demoFs, Spec.runDir]
  have hwd : isDir Spec.demoFs ["home".toList] := by simp [Spec.demoFs, isDir]
  have hout : Spec.demoFs ("pyoof_out".toList :: ["home".toList]) = none := by simp [Spec.demoFs]
  obtain ⟨⟨s, hs, hd⟩, -⟩ := C90_complete Spec.demo ["home".toList] (fun _ => rfl) hn Spec.demoFs hwf hwd
    (.inl hout) (fun i => ⟨0, by omega, hfree i⟩) (fun _ => [1, 2, 3, 4, 5, 6, 7]) demo_runs _ .refl
  choose d hd using hd
  obtain ⟨solver, hsol⟩ := exact_exists Spec.costL
  have hgood : ∀ i : Fin 4, Spec.Good (Spec.demo i).name (.fin 300) ↔ i ≠ 3 := by
    intro i
    unfold Spec.Good
    have h1 : (Fl.fin 300 = .pinf ∨ ∃ x, Fl.fin 300 = .fin x ∧ 200 < x) := .inr ⟨300, rfl, by norm_num⟩
    simp only [h1, true_and]
    show (["a", "b", "c", "c-offset"].map String.toList).getD i [] ≠ _ ∧
      ¬ "-offset".toList <:+ (["a", "b", "c", "c-offset"].map String.toList).getD i [] ↔ _
    revert i
    decide
  obtain ⟨fs', w', e1, e2, e3, -⟩ := C90_table Spec.demo ["home".toList] (fun _ => rfl) hn Spec.demoFs hwf hwd
    (.inl hout) hfree (fun _ => [1, 2, 3, 4, 5, 6, 7]) (fun i => (demo_runs i).feasible) (fun i => (demo_runs i).inBounds)
    s hs d hd { Spec.splined with order := 1 } splined_quintic le_rfl (by norm_num [Spec.splined, Spec.effelsberg])
    (by norm_num [Spec.splined, Spec.effelsberg]) (by norm_num [Spec.splined, Spec.effelsberg])
    (by norm_num [Spec.splined, Spec.effelsberg]) (by norm_num [Spec.splined, Spec.effelsberg])
    effelsberg_writable le_rfl (fun _ => le_rfl) solver hsol .ok (fun rows => ⟨rows, rfl, .refl _⟩)
    [d 2, d 3, d 1, d 0] (by
      have : ([2, 3, 1, 0] : List (Fin 4)).Perm Finset.univ.toList := by
        rw [List.perm_ext_iff_of_nodup (by decide) (Finset.nodup_toList _)]
        intro a
        simp only [Finset.mem_toList, Finset.mem_univ, iff_true]
        revert a
        decide
      exact this.map d) Spec.demoModel rfl (by
      intro i t names fit init ht hg hf
      cases ht
      have hi := (hgood i).1 hg
      obtain ⟨alone, h, hsame⟩ := (C46_no_interference Spec.demo ["home".toList] (fun _ => rfl) hn Spec.demoFs hwf hwd
        (.inl hout) s hs i).1 _ (hd i)
      have hdir : d i = Spec.runDir ["home".toList] (Spec.demo i).name 0 := by
        rcases C45_directory _ _ _ _ h with ⟨j, -, hdj, -, hmin⟩ | ⟨-, hall⟩
        · rcases Nat.eq_zero_or_pos j with rfl | hj
          · exact hdj
          · exact absurd (hfree i) (hmin 0 hj)
        · exact absurd (hfree i) (hall 0 (by omega))
      obtain ⟨names', fit', init', g1, -, hl, -, -, -, hfx, -⟩ := C40_stored (Spec.demo i) _ (demo_runs i).feasible
        (demo_runs i).inBounds Spec.demoFs alone (d i) h (.inl (hdir ▸ hfree i)) 1 le_rfl le_rfl
      rw [← hsame _ ⟨0, by omega, hdir ▸ List.suffix_cons _ _⟩] at g1
      replace hf : s.fs (Spec.file "fitpar" 1 :: d i) = some (.file (.params names fit init)) := hf
      rw [g1] at hf
      cases hf
      have key : fit.drop 5 = Spec.demoK (20 * (i : ℕ) + 10) := by
        refine List.ext_getElem? fun k => ?_
        rw [List.getElem?_drop]
        by_cases hk : k < 3
        · rw [hfx (5 + k) (by interval_cases k <;> simp)]
          show ([1, -14.5, 1.4, 0, 0] ++ if i = 3 then [7, 8, 9] else Spec.demoK (20 * (i : ℕ) + 10) : List ℝ)[5 + k]? = _
          rw [if_neg hi, List.getElem?_append_right (by simp)]
          simp
        · rw [List.getElem?_eq_none (by rw [hl]; show 5 + 3 ≤ _; omega), List.getElem?_eq_none (by
            show 3 ≤ k; omega)]
      rw [key]
      refine .cons ⟨_, _, _, rfl, ?_⟩ (.cons ⟨_, _, _, rfl, ?_⟩ (.cons ⟨_, _, _, rfl, ?_⟩ .nil))
      · ring
      · show _ = 1 * Real.sin ((20 * (i : ℕ) + 10 : ℝ) * (Real.pi / 180)) +
          2 * Real.cos ((20 * (i : ℕ) + 10 : ℝ) * (Real.pi / 180)) + 0.5
        ring
      · show _ = -1 * Real.sin ((20 * (i : ℕ) + 10 : ℝ) * (Real.pi / 180)) +
          0 * Real.cos ((20 * (i : ℕ) + 10 : ℝ) * (Real.pi / 180)) + 3
        ring) ⟨0, 1, 2, _, _, _, rfl, rfl, rfl, (hgood 0).2 (by decide), (hgood 1).2 (by decide), (hgood 2).2 (by decide),
        by norm_num [Spec.demo], by norm_num [Spec.demo], by norm_num [Spec.demo]⟩
    (fun (e : Fin 11) (k : Fin 96) => (e * k : ℕ)) ["table".toList] (by simp [Spec.demoFs]) (by decide)
    "lookup".toList ["home".toList] (.inr ⟨by simp [Spec.demoFs], hwd⟩) "new".toList (by simp [isDir, Spec.demoFs]) (by decide)
  exact ⟨s, d, solver, fs', w', hs, hd, e1, e2, e3⟩

end Verif.Props
