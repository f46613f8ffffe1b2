import Verif.Lemmas.Fs

/-! # Pre- and postconditions of programs -/

namespace Verif.Fs

variable {C α β : Type}

/-- From a file system with `P`, the program ends in one with `Q` or raises an exception in `E`. -/
def Triple (P : FS C → Prop) (p : Prog C α) (Q : α → FS C → Prop) (E : PyErr → Prop) : Prop :=
  ∀ fs, P fs → (∀ a fs', p.run fs = (.ok a, fs') → Q a fs') ∧ ∀ e fs', p.run fs = (.error e, fs') → E e

theorem triple_bind {P : FS C → Prop} {p : Prog C α} {Q : α → FS C → Prop} {f : α → Prog C β}
    {R : β → FS C → Prop} {E : PyErr → Prop} (hp : Triple P p Q E) (hf : ∀ a, Triple (Q a) (f a) R E) :
    Triple P (p >>= f) R E := by
  intro fs h
  constructor
  · intro b fs' hb
    rw [Prog.run_bind_ok] at hb
    obtain ⟨a, fs1, h1, h2⟩ := hb
    exact (hf a fs1 ((hp fs h).1 a fs1 h1)).1 b fs' h2
  · intro e fs' he
    rw [Prog.run_bind_error] at he
    rcases he with he | ⟨a, fs1, h1, h2⟩
    · exact (hp fs h).2 e fs' he
    · exact (hf a fs1 ((hp fs h).1 a fs1 h1)).2 e fs' h2

theorem triple_ret {P : FS C → Prop} {Q : α → FS C → Prop} {E : PyErr → Prop} (a : α)
    (h : ∀ fs, P fs → Q a fs) : Triple P (Prog.ret a) Q E := by
  intro fs hp
  refine ⟨fun b fs' hb => ?_, fun e fs' he => ?_⟩
  · cases hb; exact h fs hp
  · simp at he

theorem triple_pure {P : FS C → Prop} {Q : α → FS C → Prop} {E : PyErr → Prop} (a : α)
    (h : ∀ fs, P fs → Q a fs) : Triple P (pure a : Prog C α) Q E := triple_ret a h

theorem triple_lift {P : FS C → Prop} {Q : α → FS C → Prop} {E : PyErr → Prop} (x : Py α)
    (h : ∀ a fs, x = .ok a → P fs → Q a fs) (he : ∀ e, x = .error e → E e) :
    Triple P (Prog.lift x) Q E := by
  intro fs hp
  refine ⟨fun a fs' ha => ?_, fun e fs' h' => ?_⟩
  · rw [Prog.run_lift, Prod.mk.injEq] at ha
    obtain ⟨h1, rfl⟩ := ha
    exact h a _ h1 hp
  · rw [Prog.run_lift, Prod.mk.injEq] at h'
    exact he e h'.1

theorem triple_pre {P P' : FS C → Prop} {p : Prog C α} {Q : α → FS C → Prop} {E : PyErr → Prop}
    (h : ∀ fs, P' fs → P fs) (hp : Triple P p Q E) : Triple P' p Q E := fun fs h' => hp fs (h fs h')

theorem triple_post {P : FS C → Prop} {p : Prog C α} {Q Q' : α → FS C → Prop} {E : PyErr → Prop}
    (h : ∀ a fs, Q a fs → Q' a fs) (hp : Triple P p Q E) : Triple P p Q' E :=
  fun fs h' => ⟨fun a fs' hr => h a fs' ((hp fs h').1 a fs' hr), (hp fs h').2⟩

theorem triple_existsP {P : FS C → Prop} {E : PyErr → Prop} (p : Path) :
    Triple P (existsP p) (fun b fs => P fs ∧ present fs p = b) E := by
  intro fs h
  rw [run_existsP]
  refine ⟨fun a fs' h' => ?_, fun e fs' h' => ?_⟩
  · cases h'; exact ⟨h, rfl⟩
  · simp at h'

theorem triple_writeFile {P : FS C → Prop} {Q : Unit → FS C → Prop} {E : PyErr → Prop} (x : C)
    (p : Path) (c : C)
    (h : ∀ fs, P fs → !isDir fs p && isDir fs p.tail → Q () (update fs p (.file c)))
    (he : ∀ fs, P fs → ¬ (!isDir fs p && isDir fs p.tail) → E .osError) :
    Triple P (writeFile x p c) Q E := by
  intro fs hp
  rw [run_writeFile]
  split_ifs with hc
  · refine ⟨fun a fs' h' => ?_, fun e fs' h' => ?_⟩
    · cases h'; exact h fs hp hc
    · simp at h'
  · refine ⟨fun a fs' h' => ?_, fun e fs' h' => ?_⟩
    · simp at h'
    · cases h'; exact he fs hp hc

theorem triple_makedirs_leaf {P : FS C → Prop} {Q : Unit → FS C → Prop} {E : PyErr → Prop} (f : Str)
    (d : Path) (b : Bool) (hd : ∀ fs, P fs → isDir fs d)
    (h : ∀ fs, P fs → present fs (f :: d) = false → Q () (update fs (f :: d) .dir))
    (h' : ∀ fs, P fs → isDir fs (f :: d) → b = true → Q () fs)
    (he : ∀ fs, P fs → present fs (f :: d) → ¬ (b = true ∧ isDir fs (f :: d)) → E .osError) :
    Triple P (makedirs (f :: d) b) Q E := by
  intro fs hp
  rw [run_makedirs_leaf f d b fs (hd fs hp)]
  by_cases h1 : present fs (f :: d) = true
  · rw [if_pos h1]
    by_cases h2 : (b && isDir fs (f :: d)) = true
    · rw [if_pos h2]
      rw [Bool.and_eq_true] at h2
      refine ⟨fun a fs' hr => ?_, fun e fs' hr => ?_⟩
      · cases hr; exact h' fs hp h2.2 h2.1
      · simp at hr
    · rw [if_neg h2]
      rw [Bool.and_eq_true] at h2
      refine ⟨fun a fs' hr => ?_, fun e fs' hr => ?_⟩
      · simp at hr
      · cases hr; exact he fs hp h1 h2
  · rw [if_neg h1]
    refine ⟨fun a fs' hr => ?_, fun e fs' hr => ?_⟩
    · cases hr; exact h fs hp (by simpa using h1)
    · simp at hr

/-- `makedirs` raises nothing but `OSError`. -/
theorem triple_makedirs_any {P : FS C → Prop} {E : PyErr → Prop} (p : Path) (b : Bool)
    (hE : E .osError) : Triple P (makedirs p b) (fun _ _ => True) E := by
  intro fs _
  refine ⟨fun _ _ _ => trivial, fun e fs' h => ?_⟩
  have hB : ∀ (p : Path) (fs fs' : FS C) e, (makedirsB p b).run fs ≠ (.error e, fs') := by
    intro p
    induction p with
    | nil => intro fs fs' e h; simp [makedirsB] at h
    | cons f d ih =>
      intro fs fs' e h
      rw [makedirsB, Prog.run_bind, run_existsP] at h
      have key : ∀ fs2 : FS C, (do
          let ok ← mkdirP (C := C) (f :: d)
          if ok then return true
          else if !b then return false
          else isdirP (f :: d)).run fs2 ≠ (.error e, fs') := by
        intro fs2 h
        rw [Prog.run_bind, run_mkdirP] at h
        by_cases hc : (!present fs2 (f :: d) && isDir fs2 (f :: d).tail) = true
        · rw [if_pos hc] at h
          simp at h
        · rw [if_neg hc] at h
          simp only [Bool.false_eq_true, if_false] at h
          cases b
          · simp at h
          · simp only [Bool.not_true, Bool.false_eq_true, if_false, run_isdirP] at h
            simp at h
      cases hp : present fs d
      · simp only [hp, Bool.not_false, if_true] at h
        rw [Prog.run_bind_error] at h
        rcases h with h | ⟨_, fs2, -, h⟩
        · exact ih _ _ _ h
        · exact key _ h
      · simp only [hp, Bool.not_true, Bool.false_eq_true, if_false] at h
        exact key _ h
  unfold makedirs at h
  rw [Prog.run_bind_error] at h
  rcases h with h | ⟨ok, fs1, -, h⟩
  · exact absurd h (hB _ _ _ _)
  · cases ok
    · simp only [Bool.false_eq_true, if_false, Prog.run_raise] at h
      cases h
      exact hE
    · simp at h

end Verif.Fs
