import Verif.Lemmas.Store
import Verif.Props.Names
import Verif.Props.Params
import Verif.Props.RunDir

/-! # C40, C47, C51 and the rest of C45: the files of a fit -/

namespace Verif.Props

open Verif Verif.Fs Verif.Store Verif.Fit Verif.Core

/-! ## Specification -/

/-- `{kind}_n{order}.csv` -/
def Spec.file (kind : String) (n : ℕ) : Str := kind.toList ++ ['_', 'n'] ++ decNat n ++ ['.', 'c', 's', 'v']

theorem fileName_spec (kind : String) (n : ℕ) : fileName kind n = Spec.file kind n := rfl

/-- The files `store_data_csv` can write for one order: name, header, position in `save_to_csv`. -/
def Spec.csvTable (n : ℕ) : List (Str × Str × ℕ) :=
  [("beam_data.csv".toList, "Normalized beam".toList, 0),
    ("u_data.csv".toList, "u vector radians".toList, 1),
    ("v_data.csv".toList, "v vector radians".toList, 2),
    (Spec.file "res" n, "Residual".toList, 3),
    (Spec.file "jac" n, "Jacobian".toList, 4),
    (Spec.file "grad" n, "Gradient".toList, 5),
    (Spec.file "phase" n, "Phase-error radians".toList, 6),
    (Spec.file "cov" n, "Variance-Covariance matrix (first row fitted parameters idx)".toList, 7),
    (Spec.file "corr" n, "Correlation matrix (first row fitted parameters idx)".toList, 8)]

/-- The files that depend on the order. -/
def Spec.orderFiles (n : ℕ) : List Str :=
  [Spec.file "fitpar" n, Spec.file "res" n, Spec.file "jac" n, Spec.file "grad" n,
    Spec.file "phase" n, Spec.file "cov" n, Spec.file "corr" n]

/-- The files that every run has once. -/
def Spec.commonFiles : List Str :=
  ["beam_data.csv".toList, "u_data.csv".toList, "v_data.csv".toList, "pyoof_info.yml".toList]

/-! ## C51 -/

theorem csvTable_nodup (n : ℕ) : ((Spec.csvTable n).map Prod.fst).Nodup := by
  simp [Spec.csvTable, Spec.file]

theorem csvRows_names (n : ℕ) (name : Str) (save : List (List (List Fl))) (h : save.length = 9) :
    csvFiles name (csvRows n save) = ((Spec.csvTable n).filter fun t => n = 1 ∨ 3 ≤ t.2.2).map
      fun t => (t.1, .csv (t.2.1 ++ ' ' :: name) (save.getD t.2.2 [])) := by
  match save, h with
  | [s0, s1, s2, s3, s4, s5, s6, s7, s8], _ =>
    by_cases hn : n = 1
    · subst hn
      simp [csvRows, csvFiles, Spec.csvTable, fileName_spec]
    · simp [csvRows, csvFiles, Spec.csvTable, fileName_spec, hn]

theorem csvFiles_nodup (n : ℕ) (name : Str) (save : List (List (List Fl))) (h : save.length = 9) :
    ((csvFiles name (csvRows n save)).map Prod.fst).Nodup := by
  rw [csvRows_names n name save h, List.map_map]
  exact ((List.filter_sublist).map _).nodup (csvTable_nodup n)

/-- **C51**. For order 1 all nine files are written, for any other order exactly the six order
dependent ones; each with its own data and header. -/
theorem C51_files (name : Str) (d : Path) (n : ℕ) (save : List (List (List Fl)))
    (hlen : save.length = 9) (fs : FS Content) (hd : isDir fs d)
    (hno : ∀ t ∈ Spec.csvTable n, fs (t.1 :: d) ≠ some .dir) :
    ∃ fs', (storeDataCsv name d n save).run fs = (.ok (), fs') ∧
      (∀ t ∈ Spec.csvTable n, n = 1 ∨ 3 ≤ t.2.2 →
        fs' (t.1 :: d) = some (.file (.csv (t.2.1 ++ " ".toList ++ name) (save.getD t.2.2 [])))) ∧
      ∀ q, (∀ t ∈ Spec.csvTable n, n = 1 ∨ 3 ≤ t.2.2 → q ≠ t.1 :: d) → fs' q = fs q := by
  rw [storeDataCsv_eq]
  have hmem : ∀ f, f ∈ (csvFiles name (csvRows n save)).map Prod.fst →
      ∃ t ∈ Spec.csvTable n, (n = 1 ∨ 3 ≤ t.2.2) ∧ f = t.1 := by
    intro f hf
    rw [csvRows_names n name save hlen] at hf
    obtain ⟨x, hx, rfl⟩ := List.mem_map.1 hf
    obtain ⟨t, ht, rfl⟩ := List.mem_map.1 hx
    rw [List.mem_filter] at ht
    exact ⟨t, ht.1, by simpa using ht.2, rfl⟩
  refine ⟨_, saveLoop_run name d _ fs hd (fun x hx => ?_), fun t ht hn => ?_, fun q hq => ?_⟩
  · obtain ⟨t, ht, -, e⟩ := hmem x.1 (List.mem_map.2 ⟨_, List.mem_map.2 ⟨x, hx, rfl⟩, rfl⟩)
    rw [e, Bool.eq_false_iff]
    exact fun h => hno t ht (isDir_iff.1 h)
  · rw [putAll_mem d _ (csvFiles_nodup n name save hlen) fs
      (t.1, .csv (t.2.1 ++ " ".toList ++ name) (save.getD t.2.2 []))]
    rw [csvRows_names n name save hlen]
    refine List.mem_map.2 ⟨t, List.mem_filter.2 ⟨ht, by simpa using hn⟩, by simp⟩
  · refine putAll_other _ _ _ _ fun f hf => ?_
    obtain ⟨t, ht, hn, rfl⟩ := hmem f hf
    exact hq t ht hn

example : ∃ fs', (storeDataCsv "a".toList [] 2 (List.replicate 9 [])).run (fun _ => none) = (.ok (), fs') ∧
    fs' [Spec.file "res" 2] = some (.file (.csv "Residual a".toList [])) ∧
    fs' ["beam_data.csv".toList] = none := by
  obtain ⟨fs', h1, h2, h3⟩ := C51_files "a".toList [] 2 (List.replicate 9 []) rfl (fun _ => none) rfl
    (by simp)
  refine ⟨fs', h1, ?_, h3 _ (by simp [Spec.csvTable, Spec.file])⟩
  have := h2 (Spec.file "res" 2, "Residual".toList, 3) (by simp [Spec.csvTable]) (by norm_num)
  simpa using this

/-! ## One order -/

theorem startVector_fs {N M : ℕ} (a : Input N M) (d : Path) (n : ℕ) (fs : FS Content) :
    ((startVector a d n).run fs).2 = fs := by
  unfold startVector
  dsimp only
  split_ifs
  · rw [Prog.run_bind, run_readFile]
    rcases h : fs (d.join (fileName "fitpar" (n - 1))) with _ | (_ | c)
    · rfl
    · rfl
    · simp only
      cases c <;> rfl
  · rfl

/-- All of the files of one order but the plots. -/
def orderStore {N M : ℕ} (a : Input N M) (snrs : List Fl) (m : ℕ) (names : List Str)
    (init : List ℝ) (out : OrderOut) : List (Str × Content) :=
  (fileName "fitpar" m, .params names out.sol init) ::
    ((if m = 1 then [("pyoof_info.yml".toList, .info (infoOf a snrs))] else []) ++
      csvFiles a.name (csvRows m out.save))

/-- In the plot directory. -/
def InPlots (d q : Path) : Prop := "plots".toList :: d <:+ q

theorem not_inPlots_self (d : Path) : ¬ InPlots d d := by
  intro h
  have := h.length_le
  simp at this

theorem inPlots_join {d : Path} {f : Str} : InPlots d (f :: d) ↔ f = "plots".toList := by
  constructor
  · intro h
    have := h.eq_of_length rfl
    exact ((List.cons.inj this).1).symm
  · rintro rfl
    exact List.suffix_refl _

theorem plotFitPath_frame {d : Path} {n : ℕ} {fs fs' : FS Content} {r : Py Unit}
    (hd : isDir fs d) (h : (plotFitPath d n).run fs = (r, fs')) (q : Path) (hq : ¬ InPlots d q) :
    fs' q = fs q := by
  have hb : ∀ f, InPlots d ((d.join "plots".toList).join f) := fun f => List.suffix_cons _ _
  let rest : Prog Content Unit := do
      let pdf := fun kind : String =>
        (d.join "plots".toList).join (kind.toList ++ "_n".toList ++ decNat n ++ ".pdf".toList)
      writeFile Content.part (pdf "fitbeam") .plot
      writeFile .part (pdf "fitphase") .plot
      writeFile .part (pdf "residual") .plot
      writeFile .part (pdf "cov") .plot
      writeFile .part (pdf "corr") .plot
      if n = 1 then writeFile .part ((d.join "plots".toList).join "obsbeam.pdf".toList) .plot
  have hrest : Writes (InPlots d) rest := by
    refine writes_bind (writes_writeFile (hb _) _ _) fun _ => ?_
    refine writes_bind (writes_writeFile (hb _) _ _) fun _ => ?_
    refine writes_bind (writes_writeFile (hb _) _ _) fun _ => ?_
    refine writes_bind (writes_writeFile (hb _) _ _) fun _ => ?_
    refine writes_bind (writes_writeFile (hb _) _ _) fun _ => ?_
    split_ifs
    · exact writes_writeFile (hb _) _ _
    · trivial
  have heq : plotFitPath d n = (do
      let e ← existsP (d.join "plots".toList)
      if e then rest else makedirs (d.join "plots".toList) false >>= fun _ => rest) := by
    unfold plotFitPath existsP
    simp only [Prog.op_bind]
    congr 1
    funext r
    cases r <;> rfl
  rw [heq, Prog.run_bind, run_existsP] at h
  simp only at h
  split_ifs at h with hp
  · exact run_frame hrest h hq
  · rw [Prog.run_bind, run_makedirs_leaf _ _ _ _ hd, if_neg hp] at h
    simp only at h
    rw [run_frame hrest h hq, update_ne]
    rintro rfl
    exact hq (List.suffix_refl _)

theorem storeDataAscii_ok {d : Path} {n : ℕ} {sol init : List ℝ} {fs fs' : FS Content} {r : Unit}
    (h : (storeDataAscii d n sol init).run fs = (.ok r, fs')) : ∃ names, paramNames n = .ok names ∧
      names.length = sol.length ∧ sol.length = init.length ∧
      fs' = update fs (fileName "fitpar" n :: d) (.file (.params names sol init)) := by
  unfold storeDataAscii at h
  rw [Prog.run_bind_ok] at h
  obtain ⟨names, fs1, h1, h2⟩ := h
  rw [Prog.run_lift, Prod.mk.injEq] at h1
  obtain ⟨h1, rfl⟩ := h1
  by_cases hl : names.length = sol.length ∧ sol.length = init.length
  · rw [if_pos hl] at h2
    exact ⟨names, h1, hl.1, hl.2, (writeFile_ok h2).1⟩
  · rw [if_neg hl] at h2
    simp at h2

theorem fitOrder_ok {N M : ℕ} {a : Input N M} {s : List Fl} {d : Path} {m : ℕ} {fs fs' : FS Content}
    {r : Unit} (hd : isDir fs d) (h : (fitOrder a s d m).run fs = (.ok r, fs')) :
    ∃ init out names, (startVector a d m).run fs = (.ok init, fs) ∧ solveOrder a m init = .ok out ∧
      paramNames m = .ok names ∧ names.length = out.sol.length ∧ out.sol.length = init.length ∧
      (∀ q, ¬ InPlots d q → fs' q = putAll d (orderStore a s m names init out) fs q) ∧
      (a.makePlots = false → fs' = putAll d (orderStore a s m names init out) fs) := by
  unfold fitOrder at h
  rw [Prog.run_bind_ok] at h
  obtain ⟨init, fs1, h1, h⟩ := h
  have e1 := startVector_fs a d m fs
  rw [h1] at e1
  simp only at e1
  subst e1
  rw [Prog.run_bind_ok] at h
  obtain ⟨out, fs2, h2, h⟩ := h
  rw [Prog.run_lift] at h2
  cases hso : solveOrder a m init with
  | error e => rw [hso] at h2; simp at h2
  | ok out' =>
  rw [hso] at h2
  cases h2
  rw [Prog.run_bind_ok] at h
  obtain ⟨_, fs3, h3, h⟩ := h
  obtain ⟨names, hn, hl1, hl2, e3⟩ := storeDataAscii_ok h3
  refine ⟨init, out, names, h1, hso, hn, hl1, hl2, ?_⟩
  -- the yaml file
  let rest : Prog Content Unit := do
    storeDataCsv a.name d m out.save
    if a.makePlots then plotFitPath d m
  have h4 : ∃ fs4, fs4 = putAll d (if m = 1 then [("pyoof_info.yml".toList, .info (infoOf a s))] else [])
      fs3 ∧ rest.run fs4 = (.ok r, fs') := by
    dsimp only at h
    by_cases hm : m = 1
    · rw [if_pos hm] at h ⊢
      rw [Prog.run_bind_ok] at h
      obtain ⟨_, fs4, h4, h⟩ := h
      exact ⟨fs4, (writeFile_ok h4).1, h⟩
    · rw [if_neg hm] at h ⊢
      exact ⟨fs3, rfl, h⟩
  obtain ⟨fs4, e4, h⟩ := h4
  rw [Prog.run_bind_ok] at h
  obtain ⟨_, fs5, h5, h⟩ := h
  rw [storeDataCsv_eq] at h5
  have e5 : fs5 = putAll d (orderStore a s m names init out) fs1 := by
    rw [saveLoop_ok h5, e4, e3, orderStore, putAll_cons, putAll_append]
  have hd5 : isDir fs5 d := by rw [e5]; exact putAll_isDir _ _ _ hd
  by_cases hp : a.makePlots = true
  · simp only [hp, if_true] at h
    refine ⟨fun q hq => ?_, fun h' => by simp [hp] at h'⟩
    rw [plotFitPath_frame hd5 h q hq, e5]
  · simp only [hp] at h
    cases h
    exact ⟨fun q _ => by rw [e5], fun _ => e5⟩

/-! ## File names -/

/-- The files of order `m`. -/
def Spec.filesAt (m : ℕ) (f : Str) : Prop := f ∈ Spec.orderFiles m ∨ (m = 1 ∧ f ∈ Spec.commonFiles)

theorem orderFiles_disjoint {m m' : ℕ} {f : Str} (h : f ∈ Spec.orderFiles m)
    (h' : f ∈ Spec.orderFiles m') : m = m' := by
  simp only [Spec.orderFiles, List.mem_cons, List.not_mem_nil, or_false] at h h'
  have key : ∀ k, f = Spec.file k m → f = Spec.file k m' → m = m' :=
    fun k h1 h2 => fileName_inj (k := k) rfl (by rw [fileName_spec, fileName_spec, ← h1, ← h2])
  rcases h with h | h | h | h | h | h | h <;> rcases h' with h' | h' | h' | h' | h' | h' | h' <;>
    first
      | exact key _ h h'
      | (exfalso; rw [h] at h'; simp [Spec.file] at h')

theorem orderFiles_common {m : ℕ} {f : Str} (h : f ∈ Spec.orderFiles m)
    (h' : f ∈ Spec.commonFiles) : False := by
  simp only [Spec.orderFiles, Spec.commonFiles, List.mem_cons, List.not_mem_nil, or_false] at h h'
  rcases h with h | h | h | h | h | h | h <;> rcases h' with h' | h' | h' | h' <;>
    (rw [h] at h'; simp [Spec.file] at h')

theorem filesAt_disjoint {m m' : ℕ} {f : Str} (h : Spec.filesAt m f) (h' : Spec.filesAt m' f) :
    m = m' := by
  rcases h with h | ⟨h, hc⟩ <;> rcases h' with h' | ⟨h', hc'⟩
  · exact orderFiles_disjoint h h'
  · exact (orderFiles_common h hc').elim
  · exact (orderFiles_common h' hc).elim
  · rw [h, h']

theorem filesAt_not_plots (m : ℕ) : ¬ Spec.filesAt m "plots".toList := by
  rintro (h | ⟨-, h⟩)
  · simp [Spec.orderFiles, Spec.file] at h
  · simp [Spec.commonFiles] at h

theorem orderStore_names {N M : ℕ} (a : Input N M) (s : List Fl) (m : ℕ) (names : List Str)
    (init : List ℝ) (out : OrderOut) (h : out.save.length = 9) :
    (orderStore a s m names init out).map Prod.fst = Spec.file "fitpar" m ::
      ((if m = 1 then ["pyoof_info.yml".toList] else []) ++
        ((Spec.csvTable m).filter fun t => m = 1 ∨ 3 ≤ t.2.2).map Prod.fst) := by
  unfold orderStore
  rw [List.map_cons, List.map_append, csvRows_names m a.name out.save h, List.map_map]
  by_cases hm : m = 1
  · simp only [hm, if_true]; rfl
  · simp only [hm, if_false]; rfl

theorem orderStore_mem {N M : ℕ} (a : Input N M) (s : List Fl) (m : ℕ) (names : List Str)
    (init : List ℝ) (out : OrderOut) (h : out.save.length = 9) (f : Str) :
    f ∈ (orderStore a s m names init out).map Prod.fst ↔ Spec.filesAt m f := by
  rw [orderStore_names a s m names init out h]
  by_cases hm : m = 1
  · subst hm
    simp [Spec.csvTable, Spec.filesAt, Spec.orderFiles, Spec.commonFiles]
    tauto
  · simp [Spec.csvTable, Spec.filesAt, Spec.orderFiles, hm]

theorem orderStore_nodup {N M : ℕ} (a : Input N M) (s : List Fl) (m : ℕ) (names : List Str)
    (init : List ℝ) (out : OrderOut) (h : out.save.length = 9) :
    ((orderStore a s m names init out).map Prod.fst).Nodup := by
  rw [orderStore_names a s m names init out h]
  by_cases hm : m = 1
  · subst hm
    simp [Spec.csvTable, Spec.file]
  · simp [Spec.csvTable, Spec.file, hm]

/-! ## The loop -/

/-- What `solveOrder` went through. -/
theorem solveOrder_ok {N M : ℕ} {a : Input N M} {m : ℕ} {init : List ℝ} {out : OrderOut}
    (h : solveOrder a m init = .ok out) :
    ∃ (it lb ub : List ℝ) (r : LsqResult (3 * M) it.length),
      npDelete init a.cfg.excluded = .ok it ∧
      npDelete (a.cfg.boundMin ++ List.replicate ((m + 1) * (m + 2) / 2 - 3) (-5)) a.cfg.excluded = .ok lb ∧
      npDelete (a.cfg.boundMax ++ List.replicate ((m + 1) * (m + 2) / 2 - 3) 5) a.cfg.excluded = .ok ub ∧
      leastSquares a.solver (fun p => Core.residual p ((m + 1) * (m + 2) / 2) a.beam a.u a.v a.dz
        a.wavel a.illum a.tel a.boxFactor a.cfg) it lb ub = .ok r ∧
      paramsComplete (List.ofFn r.x) ((m + 1) * (m + 2) / 2) a.cfg = .ok out.sol ∧
      out.save.length = 9 := by
  unfold solveOrder at h
  simp only [bind, Except.bind, pure, Except.pure] at h
  split at h
  · cases h
  rename_i it h1
  split at h
  · cases h
  rename_i lb h2
  split at h
  · cases h
  rename_i ub h3
  split at h
  · cases h
  rename_i r h4
  split at h
  · cases h
  rename_i sol h5
  split at h
  · cases h
  split at h
  · cases h
  split at h
  · cases h
  split at h
  · cases h
  split at h
  · cases h
  cases h
  exact ⟨it, lb, ub, r, h1, h2, h3, h4, h5, rfl⟩

/-- The start vector for order `m + 1` after a solution `sol` of order `m`. -/
def Spec.nextInit (fitPrevious : Bool) (cfgInit : List ℝ) (m : ℕ) (sol : List ℝ) : List ℝ :=
  if fitPrevious then sol ++ List.replicate (m + 2) 0.1
  else cfgInit ++ List.replicate ((m + 2) * (m + 3) / 2 - 3) 0.1

theorem startVector_next {N M : ℕ} {a : Input N M} {d : Path} {m : ℕ} {fs : FS Content}
    {names : List Str} {sol i0 init : List ℝ} (hm : 1 ≤ m)
    (h : fs (fileName "fitpar" m :: d) = some (.file (.params names sol i0)))
    (hs : (startVector a d (m + 1)).run fs = (.ok init, fs)) :
    init = Spec.nextInit a.fitPrevious a.cfg.init m sol := by
  unfold startVector at hs
  unfold Spec.nextInit
  dsimp only at hs
  cases hp : a.fitPrevious
  · simp only [hp, Bool.false_and, Bool.false_eq_true, if_false, Prog.run_ret] at hs ⊢
    cases hs
    congr 2
  · have hne : (m + 1 != 1) = true := by simp; omega
    simp only [hp, hne, Bool.and_self, if_true] at hs ⊢
    rw [Prog.run_bind, run_readFile, Nat.add_sub_cancel] at hs
    simp only [Path.join, h, Prog.run_pure] at hs
    cases hs
    congr 2
    have h1 := Verif.Aperture.tri_succ (m + 1)
    unfold Verif.Aperture.tri at h1
    simp only [Nat.add_assoc, Nat.reduceAdd] at h1 ⊢
    omega

theorem orderStore_head {N M : ℕ} (a : Input N M) (s : List Fl) (m : ℕ) (names : List Str)
    (init : List ℝ) (out : OrderOut) :
    (fileName "fitpar" m, Content.params names out.sol init) ∈ orderStore a s m names init out := by
  unfold orderStore
  exact List.mem_cons_self

theorem fitLoop_ok {N M : ℕ} {a : Input N M} {s : List Fl} {d : Path} {n k : ℕ} {fs fs' : FS Content}
    {r : Unit} (hn : 1 ≤ n) (hd : isDir fs d) (h : (fitLoop a s d n k).run fs = (.ok r, fs')) :
    ∃ (init : ℕ → List ℝ) (out : ℕ → OrderOut) (names : ℕ → List Str),
      (0 < k → (startVector a d n).run fs = (.ok (init n), fs)) ∧
      (∀ m, n ≤ m → m < n + k → solveOrder a m (init m) = .ok (out m) ∧
        paramNames m = .ok (names m) ∧ (names m).length = (out m).sol.length ∧
        (out m).sol.length = (init m).length ∧
        ∀ x ∈ orderStore a s m (names m) (init m) (out m), fs' (x.1 :: d) = some (.file x.2)) ∧
      (∀ m, n ≤ m → m + 1 < n + k →
        init (m + 1) = Spec.nextInit a.fitPrevious a.cfg.init m (out m).sol) ∧
      (∀ q, ¬ (a.makePlots = true ∧ InPlots d q) →
        (∀ m, n ≤ m → m < n + k → ∀ f, Spec.filesAt m f → q ≠ f :: d) → fs' q = fs q) := by
  induction k generalizing n fs with
  | zero =>
    cases h
    exact ⟨fun _ => [], fun _ => ⟨[], []⟩, fun _ => [], by simp, by intros; omega, by intros; omega,
      fun _ _ _ => rfl⟩
  | succ k ih =>
    rw [fitLoop, Prog.run_bind_ok] at h
    obtain ⟨_, fs1, h1, h2⟩ := h
    obtain ⟨i0, o0, n0, hst, hso, hpn, hl1, hl2, hfr, hfr'⟩ := fitOrder_ok hd h1
    have hd1 : isDir fs1 d := run_isDir h1 hd
    obtain ⟨init, out, names, e1, e2, e3, e4⟩ := ih (by omega) hd1 h2
    obtain ⟨-, -, -, -, -, -, -, -, -, hlen⟩ := solveOrder_ok hso
    -- the files of order `n` right after it, and at the end
    have hmem1 : ∀ x ∈ orderStore a s n n0 i0 o0, fs1 (x.1 :: d) = some (.file x.2) := by
      intro x hx
      have hx1 : Spec.filesAt n x.1 :=
        (orderStore_mem a s n n0 i0 o0 hlen x.1).1 (List.mem_map.2 ⟨x, hx, rfl⟩)
      rw [hfr _ (fun hp => filesAt_not_plots n (inPlots_join.1 hp ▸ hx1)),
        putAll_mem d _ (orderStore_nodup a s n n0 i0 o0 hlen) fs x hx]
    have hmem' : ∀ x ∈ orderStore a s n n0 i0 o0, fs' (x.1 :: d) = some (.file x.2) := by
      intro x hx
      have hx1 : Spec.filesAt n x.1 :=
        (orderStore_mem a s n n0 i0 o0 hlen x.1).1 (List.mem_map.2 ⟨x, hx, rfl⟩)
      rw [e4 _ (fun hp => filesAt_not_plots n (inPlots_join.1 hp.2 ▸ hx1)) ?_, hmem1 x hx]
      intro m hm1 hm2 f hf e
      rw [(List.cons.inj e).1] at hx1
      have := filesAt_disjoint hf hx1
      omega
    refine ⟨fun m => if m = n then i0 else init m, fun m => if m = n then o0 else out m,
      fun m => if m = n then n0 else names m, fun _ => by simpa using hst, ?_, ?_, ?_⟩
    · intro m hm1 hm2
      by_cases hmn : m = n
      · subst hmn
        simp only [if_true]
        exact ⟨hso, hpn, hl1, hl2, hmem'⟩
      · simp only [hmn, if_false]
        exact e2 m (by omega) (by omega)
    · intro m hm1 hm2
      have hne : m + 1 ≠ n := by omega
      simp only [hne, if_false]
      by_cases hmn : m = n
      · subst hmn
        simp only [if_true]
        have hs := e1 (by omega)
        exact startVector_next hn (hmem1 _ (orderStore_head a s m n0 i0 o0)) hs
      · simp only [hmn, if_false]
        exact e3 m (by omega) (by omega)
    · intro q hq hqf
      rw [e4 q hq (fun m hm1 hm2 => hqf m (by omega) (by omega))]
      have hput : putAll d (orderStore a s n n0 i0 o0) fs q = fs q := by
        refine putAll_other _ _ _ _ fun f hf => hqf n le_rfl (by omega) f ?_
        exact (orderStore_mem a s n n0 i0 o0 hlen f).1 hf
      by_cases hp : InPlots d q
      · have : a.makePlots = false := by
          rw [Bool.eq_false_iff]; exact fun h => hq ⟨h, hp⟩
        rw [hfr' this, hput]
      · rw [hfr q hp, hput]

end Verif.Props
