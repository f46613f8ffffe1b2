import Verif.Lemmas.Fs

/-! # Interleaved programs -/

namespace Verif.Fs

variable {C α β : Type}

/-- The path an operation looks at or changes. -/
def Op.path : Op C → Path
  | .present p => p
  | .isDir p => p
  | .mkdir p => p
  | .put p _ => p
  | .read p => p

/-- Every operation is on a path in `S`. -/
def Touches (S : Path → Prop) : Prog C α → Prop
  | .ret _ => True
  | .raise _ => True
  | .op o k => S o.path ∧ ∀ r, Touches S (k r)

/-- Every value that can be returned is in `Q`. -/
def Rets (Q : α → Prop) : Prog C α → Prop
  | .ret a => Q a
  | .raise _ => True
  | .op _ k => ∀ r, Rets Q (k r)

theorem touches_bind {S : Path → Prop} {Q : α → Prop} {p : Prog C α} {f : α → Prog C β}
    (hp : Touches S p) (hr : Rets Q p) (hf : ∀ a, Q a → Touches S (f a)) : Touches S (p >>= f) := by
  induction p with
  | ret a => exact hf a hr
  | raise e => trivial
  | op o k ih => exact ⟨hp.1, fun r => ih r (hp.2 r) (hr r)⟩

theorem rets_true (p : Prog C α) : Rets (fun _ => True) p := by
  induction p with
  | ret a => trivial
  | raise e => trivial
  | op o k ih => exact fun r => ih r

theorem rets_mono {Q R : α → Prop} (h : ∀ a, Q a → R a) {p : Prog C α} (hp : Rets Q p) : Rets R p := by
  induction p with
  | ret a => exact h a hp
  | raise e => trivial
  | op o k ih => exact fun r => ih r (hp r)

theorem touches_bind' {S : Path → Prop} {p : Prog C α} {f : α → Prog C β}
    (hp : Touches S p) (hf : ∀ a, Touches S (f a)) : Touches S (p >>= f) :=
  touches_bind hp (rets_true p) fun a _ => hf a

theorem rets_bind {Q : β → Prop} {R : α → Prop} {p : Prog C α} {f : α → Prog C β}
    (hp : Rets R p) (hf : ∀ a, R a → Rets Q (f a)) : Rets Q (p >>= f) := by
  induction p with
  | ret a => exact hf a hp
  | raise e => trivial
  | op o k ih => exact fun r => ih r (hp r)

theorem rets_bind' {Q : β → Prop} {p : Prog C α} {f : α → Prog C β}
    (hf : ∀ a, Rets Q (f a)) : Rets Q (p >>= f) := rets_bind (rets_true p) fun a _ => hf a

theorem touches_mono {S T : Path → Prop} (h : ∀ q, S q → T q) {p : Prog C α} (hp : Touches S p) :
    Touches T p := by
  induction p with
  | ret a => trivial
  | raise e => trivial
  | op o k ih => exact ⟨h _ hp.1, fun r => ih r (hp.2 r)⟩

theorem touches_lift {S : Path → Prop} (x : Py α) : Touches S (Prog.lift x : Prog C α) := by
  cases x <;> trivial

theorem touches_existsP {S : Path → Prop} {p : Path} (h : S p) : Touches S (existsP p : Prog C Bool) :=
  ⟨h, fun r => by cases r <;> trivial⟩

theorem touches_isdirP {S : Path → Prop} {p : Path} (h : S p) : Touches S (isdirP p : Prog C Bool) :=
  ⟨h, fun r => by cases r <;> trivial⟩

theorem touches_mkdirP {S : Path → Prop} {p : Path} (h : S p) : Touches S (mkdirP p : Prog C Bool) :=
  ⟨h, fun r => by cases r <;> trivial⟩

theorem touches_readFile {S : Path → Prop} {p : Path} (h : S p) : Touches S (readFile p : Prog C C) :=
  ⟨h, fun r => by cases r <;> trivial⟩

theorem touches_writeFile {S : Path → Prop} {p : Path} (h : S p) (x c : C) :
    Touches S (writeFile x p c : Prog C Unit) := by
  refine ⟨h, fun r => ?_⟩
  cases r
  · exact ⟨h, fun r => by cases r <;> trivial⟩
  · trivial
  · trivial

theorem touches_makedirsB {S : Path → Prop} (p : Path) (b : Bool) (h : ∀ q, q <:+ p → S q) :
    Touches S (makedirsB p b : Prog C Bool) := by
  induction p with
  | nil => trivial
  | cons f d ih =>
    rw [makedirsB]
    refine touches_bind' (touches_existsP (h _ (List.suffix_cons _ _))) fun e => ?_
    have hrest : Touches S (do
        let ok ← mkdirP (C := C) (f :: d)
        if ok then return true
        else if !b then return false
        else isdirP (f :: d)) := by
      refine touches_bind' (touches_mkdirP (h _ (List.suffix_refl _))) fun ok => ?_
      split_ifs
      · trivial
      · trivial
      · exact touches_isdirP (h _ (List.suffix_refl _))
    cases e
    · exact touches_bind' (ih fun q hq => h q (hq.trans (List.suffix_cons _ _))) fun _ => hrest
    · exact hrest

theorem touches_makedirs {S : Path → Prop} (p : Path) (b : Bool) (h : ∀ q, q <:+ p → S q) :
    Touches S (makedirs p b : Prog C Unit) := by
  refine touches_bind' (touches_makedirsB p b h) fun ok => ?_
  split_ifs <;> trivial

/-! ## Executions -/

variable {ι : Type} [DecidableEq ι]

/-- Several steps. -/
abbrev Sys.Steps : Sys C α ι → Sys C α ι → Prop := Relation.ReflTransGen Sys.Step

/-- One process runs alone for a while. -/
theorem steps_run {p : Prog C α} {f : α → Prog C β} {i : ι} (s : Sys C β ι) {a : α} {fs' : FS C}
    (h : s.proc i = (p >>= f)) (hr : p.run s.fs = (.ok a, fs')) :
    Sys.Steps s ⟨Function.update s.proc i (f a), fs'⟩ := by
  induction p generalizing s with
  | ret b =>
    cases hr
    have : s = ⟨Function.update s.proc i (f a), s.fs⟩ := by
      rw [show f a = s.proc i from h.symm, Function.update_eq_self]
    rw [← this]
  | raise e => simp at hr
  | op o k ih =>
    have hs := Sys.Step.mk s i o _ h
    refine Relation.ReflTransGen.head hs ?_
    have := ih (exec s.fs o).1 ⟨Function.update s.proc i (k (exec s.fs o).1 >>= f), (exec s.fs o).2⟩
      (by simp) hr
    rw [Function.update_idem] at this
    exact this

/-- The answer and the effect of an operation depend only on the path and its parent. -/
theorem exec_congr {fs g : FS C} {o : Op C} (h1 : fs o.path = g o.path)
    (h2 : isDir fs o.path.tail = isDir g o.path.tail) :
    (exec fs o).1 = (exec g o).1 ∧ (exec fs o).2 o.path = (exec g o).2 o.path := by
  have hp : present fs o.path = present g o.path := by
    cases h : o.path with
    | nil => rfl
    | cons f d => rw [h] at h1; simp only [present, h1]
  have hd : isDir fs o.path = isDir g o.path := by
    cases h : o.path with
    | nil => rfl
    | cons f d => rw [h] at h1; simp only [isDir, h1]
  cases o with
  | present p => simp only [Op.path] at *; simp only [exec, hp, h1, and_self]
  | isDir p => simp only [Op.path] at *; simp only [exec, hd, h1, and_self]
  | mkdir p =>
    simp only [Op.path] at *
    simp only [exec, hp, h2]
    split_ifs
    · simp [update_same]
    · exact ⟨rfl, h1⟩
  | put p c =>
    simp only [Op.path] at *
    simp only [exec, hd, h2]
    split_ifs
    · simp [update_same]
    · exact ⟨rfl, h1⟩
  | read p =>
    simp only [Op.path] at *
    simp only [exec, h1]
    split <;> exact ⟨rfl, h1⟩

theorem exec_other {fs : FS C} {o : Op C} {q : Path} (h : q ≠ o.path) : (exec fs o).2 q = fs q := by
  refine exec_frame fs o q ?_
  cases o <;> simp only [Op.target, Op.path, ne_eq, Option.some.injEq, reduceCtorEq,
    not_false_eq_true] at h ⊢ <;> exact fun h' => h h'.symm

end Verif.Fs
