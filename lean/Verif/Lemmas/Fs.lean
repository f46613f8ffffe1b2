import Verif.Model.Fs

/-! # Programs and the file system -/

namespace Verif.Fs

variable {C α β : Type}

namespace Prog

theorem bind_def (p : Prog C α) (f : α → Prog C β) : (p >>= f) = p.bind f := rfl
theorem pure_def (a : α) : (pure a : Prog C α) = .ret a := rfl
@[simp] theorem ret_bind (a : α) (f : α → Prog C β) : (ret a >>= f : Prog C β) = f a := rfl
@[simp] theorem pure_bind (a : α) (f : α → Prog C β) : (pure a >>= f : Prog C β) = f a := rfl
@[simp] theorem raise_bind (e : PyErr) (f : α → Prog C β) :
    ((raise e : Prog C α) >>= f : Prog C β) = raise e := rfl
@[simp] theorem op_bind (o : Op C) (k : Resp C → Prog C α) (f : α → Prog C β) :
    (op o k >>= f : Prog C β) = op o fun r => k r >>= f := rfl
@[simp] theorem lift_ok (a : α) : (lift (.ok a) : Prog C α) = ret a := rfl
@[simp] theorem lift_error (e : PyErr) : (lift (.error e) : Prog C α) = raise e := rfl
@[simp] theorem run_ret (a : α) (fs : FS C) : (ret a).run fs = (.ok a, fs) := rfl
@[simp] theorem run_pure (a : α) (fs : FS C) : (pure a : Prog C α).run fs = (.ok a, fs) := rfl
@[simp] theorem run_raise (e : PyErr) (fs : FS C) : (raise e : Prog C α).run fs = (.error e, fs) := rfl
theorem run_op (o : Op C) (k : Resp C → Prog C α) (fs : FS C) :
    (op o k).run fs = (k (exec fs o).1).run (exec fs o).2 := rfl

/-- A run of a composition. -/
theorem run_bind (p : Prog C α) (f : α → Prog C β) (fs : FS C) :
    (p >>= f).run fs = match p.run fs with
      | (.ok a, fs') => (f a).run fs'
      | (.error e, fs') => (.error e, fs') := by
  induction p generalizing fs with
  | ret a => rfl
  | raise e => rfl
  | op o k ih =>
    rw [op_bind, run_op, ih, run_op]

theorem run_bind_ok {p : Prog C α} {f : α → Prog C β} {fs fs' : FS C} {b : β} :
    (p >>= f).run fs = (.ok b, fs') ↔ ∃ a fs1, p.run fs = (.ok a, fs1) ∧ (f a).run fs1 = (.ok b, fs') := by
  rw [run_bind]
  rcases h : p.run fs with ⟨_ | a, fs1⟩
  · simp
  · constructor
    · intro h'; exact ⟨a, fs1, rfl, h'⟩
    · rintro ⟨a', fs1', h1, h2⟩
      cases h1
      exact h2

theorem run_bind_error {p : Prog C α} {f : α → Prog C β} {fs fs' : FS C} {e : PyErr} :
    (p >>= f).run fs = (.error e, fs') ↔ p.run fs = (.error e, fs') ∨
      ∃ a fs1, p.run fs = (.ok a, fs1) ∧ (f a).run fs1 = (.error e, fs') := by
  rw [run_bind]
  rcases h : p.run fs with ⟨_ | a, fs1⟩
  · simp
  · constructor
    · intro h'; exact .inr ⟨a, fs1, rfl, h'⟩
    · rintro (h1 | ⟨a', fs1', h1, h2⟩)
      · simp at h1
      cases h1
      exact h2

theorem run_lift (x : Py α) (fs : FS C) : (lift x : Prog C α).run fs = (x, fs) := by
  cases x <;> rfl

theorem mem_trace_self (p : Prog C α) (fs : FS C) : fs ∈ p.trace fs := by
  cases p <;> simp [trace]

theorem run_mem_trace (p : Prog C α) (fs : FS C) : (p.run fs).2 ∈ p.trace fs := by
  induction p generalizing fs with
  | ret a => simp [trace]
  | raise e => simp [trace]
  | op o k ih => exact List.mem_cons_of_mem _ (ih _ _)

theorem mem_trace_bind {p : Prog C α} {f : α → Prog C β} {fs fs' : FS C}
    (h : fs' ∈ (p >>= f).trace fs) : fs' ∈ p.trace fs ∨
      ∃ a fs1, p.run fs = (.ok a, fs1) ∧ fs' ∈ (f a).trace fs1 := by
  induction p generalizing fs with
  | ret a => exact .inr ⟨a, fs, rfl, h⟩
  | raise e => exact .inl h
  | op o k ih =>
    rw [op_bind] at h
    simp only [trace, List.mem_cons] at h
    rcases h with h | h
    · exact .inl (by simp [trace, h])
    · rcases ih _ h with h | ⟨a, fs1, h1, h2⟩
      · exact .inl (List.mem_cons_of_mem _ h)
      · exact .inr ⟨a, fs1, h1, h2⟩

end Prog

/-- The path that an operation may change. -/
def Op.target : Op C → Option Path
  | .mkdir p => some p
  | .put p _ => some p
  | _ => none

/-- Every change a program can ever make is at a path in `S`. -/
def Writes (S : Path → Prop) : Prog C α → Prop
  | .ret _ => True
  | .raise _ => True
  | .op o k => (∀ q, o.target = some q → S q) ∧ ∀ r, Writes S (k r)

/-- Every file a program can ever write to is in `S`. -/
def Puts (S : Path → Prop) : Prog C α → Prop
  | .ret _ => True
  | .raise _ => True
  | .op o k => (∀ p c, o = .put p c → S p) ∧ ∀ r, Puts S (k r)

theorem update_same (fs : FS C) (p : Path) (n : Node C) : update fs p n p = some n := by
  simp [update]

theorem update_ne (fs : FS C) {p q : Path} (n : Node C) (h : q ≠ p) : update fs p n q = fs q := by
  simp [update, h]

theorem exec_frame (fs : FS C) (o : Op C) (q : Path) (h : o.target ≠ some q) :
    (exec fs o).2 q = fs q := by
  cases o <;> simp only [exec, Op.target, ne_eq, Option.some.injEq] at h ⊢
  · split_ifs
    · exact update_ne _ _ (Ne.symm h)
    · rfl
  · split_ifs
    · exact update_ne _ _ (Ne.symm h)
    · rfl
  · split <;> rfl

/-- Anything that is there stays, directories stay directories. -/
theorem exec_mono (fs : FS C) (o : Op C) (q : Path) (h : (fs q).isSome) :
    ((exec fs o).2 q).isSome ∧ (fs q = some .dir → (exec fs o).2 q = some .dir) := by
  by_cases ht : o.target = some q
  · cases o <;> simp only [Op.target, reduceCtorEq, Option.some.injEq] at ht
    · subst ht
      simp only [exec]
      split_ifs with h1
      · exact ⟨by simp [update], fun _ => by simp [update]⟩
      · exact ⟨h, id⟩
    · subst ht
      simp only [exec]
      split_ifs with h1
      · refine ⟨by simp [update], fun hd => ?_⟩
        rename_i p c
        exfalso
        cases p with
        | nil => simp [isDir] at h1
        | cons f d => simp [isDir, hd] at h1
      · exact ⟨h, id⟩
  · rw [exec_frame fs o q ht]
    exact ⟨h, id⟩

theorem exec_mkdir_frame (fs : FS C) (o : Op C) (q : Path) (ho : ∀ c, o ≠ .put q c)
    (h : (fs q).isSome) : (exec fs o).2 q = fs q := by
  by_cases ht : o.target = some q
  · cases o <;> simp only [Op.target, reduceCtorEq, Option.some.injEq] at ht
    · subst ht
      simp only [exec]
      split_ifs with h1
      · rename_i p
        exfalso
        cases p with
        | nil => simp [present] at h1
        | cons f d => simp [present] at h1; simp [h1.1] at h
      · rfl
    · exact absurd (by rw [ht]) (ho _)
  · exact exec_frame fs o q ht

/-- Every entry has a directory above it. -/
def WF (fs : FS C) : Prop := ∀ f d, (fs (f :: d)).isSome → isDir fs d

theorem isDir_mono {fs fs' : FS C} (h : ∀ q, fs q = some .dir → fs' q = some .dir) {p : Path}
    (hp : isDir fs p) : isDir fs' p := by
  cases p with
  | nil => rfl
  | cons f d =>
    have : fs (f :: d) = some .dir := by
      simp only [isDir] at hp
      split at hp
      · assumption
      · simp at hp
    simp [isDir, h _ this]

theorem isDir_iff {fs : FS C} {f : Str} {d : Path} : isDir fs (f :: d) ↔ fs (f :: d) = some .dir := by
  simp only [isDir]
  split
  · simp_all
  · rename_i h
    constructor
    · intro h'; simp at h'
    · intro h'; exact absurd h' h

theorem exec_isDir (fs : FS C) (o : Op C) {p : Path} (h : isDir fs p) : isDir (exec fs o).2 p := by
  refine isDir_mono (fun q hq => ?_) h
  exact (exec_mono fs o q (by rw [hq]; rfl)).2 hq

theorem exec_WF {fs : FS C} (h : WF fs) (o : Op C) : WF (exec fs o).2 := by
  intro f d hs
  by_cases h0 : (fs (f :: d)).isSome
  · exact exec_isDir fs o (h f d h0)
  · -- a new entry
    apply exec_isDir
    by_cases ht : o.target = some (f :: d)
    · cases o <;> simp only [Op.target, reduceCtorEq, Option.some.injEq] at ht
      · subst ht
        simp only [exec] at hs
        split_ifs at hs with h1
        · simp only [Bool.and_eq_true, List.tail_cons] at h1
          exact h1.2
        · exact absurd hs h0
      · subst ht
        simp only [exec] at hs
        split_ifs at hs with h1
        · simp only [Bool.and_eq_true, List.tail_cons] at h1
          exact h1.2
        · exact absurd hs h0
    · rw [exec_frame fs o _ ht] at hs
      exact absurd hs h0

theorem trace_WF {p : Prog C α} {fs fs' : FS C} (h : WF fs) (h' : fs' ∈ p.trace fs) : WF fs' := by
  induction p generalizing fs with
  | ret a => simp only [Prog.trace, List.mem_singleton] at h'; exact h' ▸ h
  | raise e => simp only [Prog.trace, List.mem_singleton] at h'; exact h' ▸ h
  | op o k ih =>
    simp only [Prog.trace, List.mem_cons] at h'
    rcases h' with h' | h'
    · exact h' ▸ h
    · exact ih _ (exec_WF h o) h'

theorem run_WF {p : Prog C α} {fs : FS C} (h : WF fs) : WF (p.run fs).2 :=
  trace_WF h (p.run_mem_trace fs)

theorem trace_frame {S : Path → Prop} {p : Prog C α} (hp : Writes S p) {fs fs' : FS C}
    (h : fs' ∈ p.trace fs) {q : Path} (hq : ¬ S q) : fs' q = fs q := by
  induction p generalizing fs with
  | ret a => simp only [Prog.trace, List.mem_singleton] at h; rw [h]
  | raise e => simp only [Prog.trace, List.mem_singleton] at h; rw [h]
  | op o k ih =>
    simp only [Prog.trace, List.mem_cons] at h
    rcases h with h | h
    · rw [h]
    · rw [ih _ (hp.2 _) h, exec_frame]
      intro ht
      exact hq (hp.1 q ht)

theorem trace_puts {S : Path → Prop} {p : Prog C α} (hp : Puts S p) {fs fs' : FS C}
    (h : fs' ∈ p.trace fs) {q : Path} (hq : (fs q).isSome) (hS : ¬ S q) : fs' q = fs q := by
  induction p generalizing fs with
  | ret a => simp only [Prog.trace, List.mem_singleton] at h; rw [h]
  | raise e => simp only [Prog.trace, List.mem_singleton] at h; rw [h]
  | op o k ih =>
    simp only [Prog.trace, List.mem_cons] at h
    rcases h with h | h
    · rw [h]
    · have he := exec_mkdir_frame fs o q (fun c hc => hS (hp.1 q c hc)) hq
      rw [ih _ (hp.2 _) h (by rw [he]; exact hq), he]

theorem trace_isDir {p : Prog C α} {fs fs' : FS C} (h : fs' ∈ p.trace fs) {q : Path}
    (hq : isDir fs q) : isDir fs' q := by
  induction p generalizing fs with
  | ret a => simp only [Prog.trace, List.mem_singleton] at h; rw [h]; exact hq
  | raise e => simp only [Prog.trace, List.mem_singleton] at h; rw [h]; exact hq
  | op o k ih =>
    simp only [Prog.trace, List.mem_cons] at h
    rcases h with h | h
    · rw [h]; exact hq
    · exact ih _ h (exec_isDir fs o hq)

theorem run_frame {S : Path → Prop} {p : Prog C α} (hp : Writes S p) {fs fs' : FS C} {r : Py α}
    (h : p.run fs = (r, fs')) {q : Path} (hq : ¬ S q) : fs' q = fs q := by
  have := p.run_mem_trace fs
  rw [h] at this
  exact trace_frame hp this hq

theorem run_isDir {p : Prog C α} {fs fs' : FS C} {r : Py α} (h : p.run fs = (r, fs')) {q : Path}
    (hq : isDir fs q) : isDir fs' q := by
  have := p.run_mem_trace fs
  rw [h] at this
  exact trace_isDir this hq

theorem writes_bind {S : Path → Prop} {p : Prog C α} {f : α → Prog C β} (hp : Writes S p)
    (hf : ∀ a, Writes S (f a)) : Writes S (p >>= f) := by
  induction p with
  | ret a => exact hf a
  | raise e => trivial
  | op o k ih => exact ⟨hp.1, fun r => ih r (hp.2 r)⟩

theorem puts_bind {S : Path → Prop} {p : Prog C α} {f : α → Prog C β} (hp : Puts S p)
    (hf : ∀ a, Puts S (f a)) : Puts S (p >>= f) := by
  induction p with
  | ret a => exact hf a
  | raise e => trivial
  | op o k ih => exact ⟨hp.1, fun r => ih r (hp.2 r)⟩

theorem puts_mono {S T : Path → Prop} (h : ∀ q, S q → T q) {p : Prog C α} (hp : Puts S p) :
    Puts T p := by
  induction p with
  | ret a => trivial
  | raise e => trivial
  | op o k ih => exact ⟨fun q c hq => h q (hp.1 q c hq), fun r => ih r (hp.2 r)⟩

theorem puts_readFile {S : Path → Prop} (p : Path) : Puts S (readFile p : Prog C C) := by
  refine ⟨by simp, fun r => ?_⟩
  cases r <;> trivial

theorem puts_writeFile {S : Path → Prop} {p : Path} (h : S p) (x c : C) :
    Puts S (writeFile x p c : Prog C Unit) := by
  refine ⟨by simp [h], fun r => ?_⟩
  cases r
  · refine ⟨by simp [h], fun r => ?_⟩
    cases r <;> trivial
  · trivial
  · trivial

theorem writes_mono {S T : Path → Prop} (h : ∀ q, S q → T q) {p : Prog C α} (hp : Writes S p) :
    Writes T p := by
  induction p with
  | ret a => trivial
  | raise e => trivial
  | op o k ih => exact ⟨fun q hq => h q (hp.1 q hq), fun r => ih r (hp.2 r)⟩

theorem writes_lift {S : Path → Prop} (x : Py α) : Writes S (Prog.lift x : Prog C α) := by
  cases x <;> trivial

theorem puts_lift {S : Path → Prop} (x : Py α) : Puts S (Prog.lift x : Prog C α) := by
  cases x <;> trivial

/-! ## Library functions -/

theorem writes_existsP {S : Path → Prop} (p : Path) : Writes S (existsP p : Prog C Bool) := by
  refine ⟨by simp [Op.target], fun r => ?_⟩
  cases r <;> trivial

theorem writes_isdirP {S : Path → Prop} (p : Path) : Writes S (isdirP p : Prog C Bool) := by
  refine ⟨by simp [Op.target], fun r => ?_⟩
  cases r <;> trivial

theorem writes_mkdirP {S : Path → Prop} {p : Path} (h : S p) : Writes S (mkdirP p : Prog C Bool) := by
  refine ⟨by simp [Op.target, h], fun r => ?_⟩
  cases r <;> trivial

theorem writes_readFile {S : Path → Prop} (p : Path) : Writes S (readFile p : Prog C C) := by
  refine ⟨by simp [Op.target], fun r => ?_⟩
  cases r <;> trivial

theorem writes_writeFile {S : Path → Prop} {p : Path} (h : S p) (x c : C) :
    Writes S (writeFile x p c : Prog C Unit) := by
  refine ⟨by simp [Op.target, h], fun r => ?_⟩
  cases r
  · refine ⟨by simp [Op.target, h], fun r => ?_⟩
    cases r <;> trivial
  · trivial
  · trivial

theorem puts_existsP {S : Path → Prop} (p : Path) : Puts S (existsP p : Prog C Bool) := by
  refine ⟨by simp, fun r => ?_⟩
  cases r <;> trivial

theorem puts_isdirP {S : Path → Prop} (p : Path) : Puts S (isdirP p : Prog C Bool) := by
  refine ⟨by simp, fun r => ?_⟩
  cases r <;> trivial

theorem puts_mkdirP {S : Path → Prop} (p : Path) : Puts S (mkdirP p : Prog C Bool) := by
  refine ⟨by simp, fun r => ?_⟩
  cases r <;> trivial

/-- `makedirs` changes nothing but the path and its parents. -/
theorem writes_makedirsB (p : Path) (b : Bool) :
    Writes (fun q => q <:+ p) (makedirsB p b : Prog C Bool) := by
  induction p with
  | nil => trivial
  | cons f d ih =>
    rw [makedirsB]
    refine writes_bind (writes_existsP _) fun e => ?_
    have hrest : Writes (fun q => q <:+ f :: d) (do
        let ok ← mkdirP (C := C) (f :: d)
        if ok then return true
        else if !b then return false
        else isdirP (f :: d)) := by
      refine writes_bind (writes_mkdirP (List.suffix_refl _)) fun ok => ?_
      split_ifs
      · trivial
      · trivial
      · exact writes_isdirP _
    cases e
    · exact writes_bind (writes_mono (fun q hq => hq.trans (List.suffix_cons f d)) ih) fun _ => hrest
    · exact hrest

theorem puts_makedirsB {S : Path → Prop} (p : Path) (b : Bool) : Puts S (makedirsB p b : Prog C Bool) := by
  induction p with
  | nil => trivial
  | cons f d ih =>
    rw [makedirsB]
    refine puts_bind (puts_existsP _) fun e => ?_
    have hrest : Puts S (do
        let ok ← mkdirP (C := C) (f :: d)
        if ok then return true
        else if !b then return false
        else isdirP (f :: d)) := by
      refine puts_bind (puts_mkdirP _) fun ok => ?_
      split_ifs
      · trivial
      · trivial
      · exact puts_isdirP _
    cases e
    · exact puts_bind ih fun _ => hrest
    · exact hrest

theorem writes_makedirs (p : Path) (b : Bool) :
    Writes (fun q => q <:+ p) (makedirs p b : Prog C Unit) := by
  refine writes_bind (writes_makedirsB p b) fun ok => ?_
  split_ifs <;> trivial

theorem puts_makedirs {S : Path → Prop} (p : Path) (b : Bool) : Puts S (makedirs p b : Prog C Unit) := by
  refine puts_bind (puts_makedirsB p b) fun ok => ?_
  split_ifs <;> trivial

/-! ## Runs of the library functions -/

theorem run_existsP (p : Path) (fs : FS C) : (existsP p).run fs = (.ok (present fs p), fs) := by
  simp only [existsP, Prog.run_op, exec]
  cases present fs p <;> rfl

theorem run_isdirP (p : Path) (fs : FS C) : (isdirP p).run fs = (.ok (isDir fs p), fs) := by
  simp only [isdirP, Prog.run_op, exec]
  cases isDir fs p <;> rfl

theorem run_mkdirP (p : Path) (fs : FS C) : (mkdirP p).run fs =
    if !present fs p && isDir fs p.tail then (.ok true, update fs p .dir) else (.ok false, fs) := by
  simp only [mkdirP, Prog.run_op, exec]
  split_ifs <;> rfl

theorem isDir_present {fs : FS C} {p : Path} (h : isDir fs p) : present fs p := by
  cases p with
  | nil => rfl
  | cons f d => rw [isDir_iff] at h; simp [present, h]

theorem run_writeFile (x : C) (p : Path) (c : C) (fs : FS C) : (writeFile x p c).run fs =
    if !isDir fs p && isDir fs p.tail then (.ok (), update fs p (.file c)) else (.error .osError, fs) := by
  simp only [writeFile, Prog.run_op]
  by_cases h : (!isDir fs p && isDir fs p.tail) = true
  · have e1 : exec fs (.put p x) = (.yes, update fs p (.file x)) := by simp only [exec]; rw [if_pos h]
    rw [e1]
    simp only
    have h' : (!isDir (update fs p (.file x)) p && isDir (update fs p (.file x)) p.tail) = true := by
      cases p with
      | nil => simp [isDir] at h
      | cons f d =>
        simp only [Bool.and_eq_true, Bool.not_eq_true', List.tail_cons] at h ⊢
        constructor
        · simp [isDir, update]
        · cases d with
          | nil => rfl
          | cons g d' =>
            rw [isDir_iff] at h ⊢
            rw [update_ne _ _ (by simp), h.2]
    have e2 : exec (update fs p (.file x)) (.put p c) =
        (.yes, update (update fs p (.file x)) p (.file c)) := by simp only [exec]; rw [if_pos h']
    rw [Prog.run_op, e2]
    simp only [Prog.run_ret]
    rw [if_pos h]
    congr 1
    funext q
    simp only [update]
    split_ifs <;> rfl
  · have e1 : exec fs (.put p x) = (.no, fs) := by simp only [exec]; rw [if_neg h]
    rw [e1, if_neg h]
    rfl

/-- `makedirs` where the parent is a directory. -/
theorem run_makedirs_leaf (f : Str) (d : Path) (b : Bool) (fs : FS C) (hd : isDir fs d) :
    (makedirs (f :: d) b).run fs =
      if present fs (f :: d) then
        if b && isDir fs (f :: d) then (.ok (), fs) else (.error .osError, fs)
      else (.ok (), update fs (f :: d) .dir) := by
  have hp : present fs d = true := isDir_present hd
  unfold makedirs
  rw [Prog.run_bind, makedirsB, Prog.run_bind, run_existsP]
  simp only [hp, Bool.not_true, Bool.false_eq_true, if_false]
  rw [Prog.run_bind, run_mkdirP]
  by_cases h : present fs (f :: d) = true
  · simp only [h, Bool.not_true, Bool.false_and, Bool.false_eq_true, if_false, if_true]
    cases b
    · simp
    · simp only [Bool.not_true, Bool.false_eq_true, if_false, run_isdirP, Bool.true_and]
      cases h2 : isDir fs (f :: d)
      · simp
      · simp
  · simp only [h, List.tail_cons, hd]
    simp

theorem run_readFile (p : Path) (fs : FS C) : (readFile p).run fs =
    match fs p with
    | some (.file c) => (.ok c, fs)
    | _ => (.error .fileNotFoundError, fs) := by
  simp only [readFile, Prog.run_op, exec]
  rcases h : fs p with _ | (_ | c) <;> rfl

end Verif.Fs
