import Verif.Lemmas.Fs
import Verif.Lemmas.Text
import Verif.Model.Fit

/-! # What the storing functions leave in the file system -/

namespace Verif.Store

open Verif Verif.Fs Verif.Fit

/-- Several files stored in directory `d`, one after the other. -/
def putAll (d : Path) (l : List (Str × Content)) (fs : FS Content) : FS Content :=
  l.foldl (fun fs x => update fs (x.1 :: d) (.file x.2)) fs

@[simp] theorem putAll_nil (d : Path) (fs : FS Content) : putAll d [] fs = fs := rfl

theorem putAll_cons (d : Path) (x : Str × Content) (l : List (Str × Content)) (fs : FS Content) :
    putAll d (x :: l) fs = putAll d l (update fs (x.1 :: d) (.file x.2)) := rfl

theorem putAll_append (d : Path) (l l' : List (Str × Content)) (fs : FS Content) :
    putAll d (l ++ l') fs = putAll d l' (putAll d l fs) := by
  unfold putAll
  rw [List.foldl_append]

theorem putAll_other (d : Path) (l : List (Str × Content)) (fs : FS Content) (q : Path)
    (h : ∀ f ∈ l.map Prod.fst, q ≠ f :: d) : putAll d l fs q = fs q := by
  induction l generalizing fs with
  | nil => rfl
  | cons x l ih =>
    rw [putAll_cons, ih _ (fun f hf => h f (by simp at hf ⊢; tauto)), update_ne]
    exact h x.1 (by simp)

theorem putAll_not_mem (d : Path) (l : List (Str × Content)) (fs : FS Content) (f : Str)
    (h : f ∉ l.map Prod.fst) : putAll d l fs (f :: d) = fs (f :: d) := by
  apply putAll_other
  rintro g hg e
  rw [List.cons.injEq] at e
  exact h (e.1 ▸ hg)

theorem putAll_mem (d : Path) (l : List (Str × Content)) (hl : (l.map Prod.fst).Nodup)
    (fs : FS Content) (x : Str × Content) (h : x ∈ l) :
    putAll d l fs (x.1 :: d) = some (.file x.2) := by
  induction l generalizing fs with
  | nil => simp at h
  | cons y l ih =>
    rw [List.map_cons, List.nodup_cons] at hl
    rw [putAll_cons]
    rcases List.mem_cons.1 h with rfl | h
    · rw [putAll_not_mem _ _ _ _ hl.1, update_same]
    · exact ih hl.2 _ h

theorem putAll_isDir (d : Path) (l : List (Str × Content)) (fs : FS Content) (h : isDir fs d) :
    isDir (putAll d l fs) d := by
  cases d with
  | nil => rfl
  | cons g d =>
    rw [isDir_iff] at h ⊢
    rw [putAll_other, h]
    intro f _ e
    have := congrArg List.length e
    simp at this

theorem writeFile_ok {x : Content} {p : Path} {c : Content} {fs fs' : FS Content} {r : Unit}
    (h : (writeFile x p c).run fs = (.ok r, fs')) :
    fs' = update fs p (.file c) ∧ isDir fs p = false ∧ isDir fs p.tail = true := by
  rw [run_writeFile] at h
  by_cases h1 : (!isDir fs p && isDir fs p.tail) = true
  · rw [if_pos h1] at h
    cases h
    simpa using h1
  · rw [if_neg h1] at h
    simp at h

/-- The files of `saveLoop`. -/
def csvFiles (name : Str) (l : List (Str × Str × List (List Fl))) : List (Str × Content) :=
  l.map fun x => (x.1, .csv (x.2.1 ++ ' ' :: name) x.2.2)

theorem saveLoop_ok {name : Str} {d : Path} {l : List (Str × Str × List (List Fl))}
    {fs fs' : FS Content} {r : Unit} (h : (saveLoop name d l).run fs = (.ok r, fs')) :
    fs' = putAll d (csvFiles name l) fs := by
  induction l generalizing fs with
  | nil => cases h; rfl
  | cons x l ih =>
    obtain ⟨f, hd, x⟩ := x
    rw [saveLoop, Prog.run_bind_ok] at h
    obtain ⟨_, fs1, h1, h2⟩ := h
    rw [ih h2, (writeFile_ok h1).1]
    rfl

/-- Storing succeeds in a directory without subdirectories of these names. -/
theorem saveLoop_run (name : Str) (d : Path) (l : List (Str × Str × List (List Fl)))
    (fs : FS Content) (hd : isDir fs d) (h : ∀ x ∈ l, isDir fs (x.1 :: d) = false) :
    (saveLoop name d l).run fs = (.ok (), putAll d (csvFiles name l) fs) := by
  induction l generalizing fs with
  | nil => rfl
  | cons x l ih =>
    obtain ⟨f, hh, x⟩ := x
    rw [saveLoop, Prog.run_bind, run_writeFile, if_pos]
    · simp only
      rw [ih]
      · rfl
      · exact putAll_isDir d [(f, .csv (hh ++ ' ' :: name) x)] fs hd
      · intro y hy
        have := h y (by simp [hy])
        by_cases e : y.1 :: d = d.join f
        · rw [e]
          simp [isDir, update]
        · rw [← this]
          simp only [isDir, update, if_neg e]
    · rw [h _ (List.mem_cons_self)]
      simpa using hd

/-- The three lists of `store_data_csv`, zipped. -/
def csvRows (order : ℕ) (save : List (List (List Fl))) : List (Str × Str × List (List Fl)) :=
  let headers : List Str := ["Normalized beam".toList, "u vector radians".toList,
    "v vector radians".toList, "Residual".toList, "Jacobian".toList, "Gradient".toList,
    "Phase-error radians".toList,
    "Variance-Covariance matrix (first row fitted parameters idx)".toList,
    "Correlation matrix (first row fitted parameters idx)".toList]
  let fnames : List Str := ["beam_data.csv".toList, "u_data.csv".toList, "v_data.csv".toList,
    fileName "res" order, fileName "jac" order, fileName "grad" order, fileName "phase" order,
    fileName "cov" order, fileName "corr" order]
  if order ≠ 1 then (fnames.drop 3).zip ((headers.drop 3).zip (save.drop 3))
  else fnames.zip (headers.zip save)

theorem storeDataCsv_eq (name : Str) (d : Path) (n : ℕ) (save : List (List (List Fl))) :
    storeDataCsv name d n save = saveLoop name d (csvRows n save) := by
  unfold storeDataCsv csvRows
  split_ifs <;> rfl

theorem fileName_inj {k k' : String} {n n' : ℕ} (hk : k = k') (h : fileName k n = fileName k' n') :
    n = n' := by
  subst hk
  unfold fileName at h
  have h1 := List.append_cancel_right h
  exact decNat_inj (List.append_cancel_left h1)

end Verif.Store
