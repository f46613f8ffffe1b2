import Verif.Model.Yaml
import Verif.Lemmas.Text
import Mathlib.Data.List.Infix

/-! # Reading lines of YAML -/

namespace Verif.Yaml

open Verif

theorem afterBlank_pad (n : ℕ) (s : Str) : afterBlank (List.replicate n ' ' ++ s) = afterBlank s := by
  induction n with
  | zero => rfl
  | succ n ih => rw [List.replicate_succ, List.cons_append]; simpa [afterBlank] using ih

theorem afterBlank_cons {c : Char} {s : Str} (h1 : c ≠ ' ') (h2 : c ≠ '#') : afterBlank (c :: s) = false := by
  simp [afterBlank, h1, h2]

/-- What may follow a value on its line: blanks, or blanks and a comment. -/
def Tail (t : Str) : Prop :=
  (∃ n, t = List.replicate n ' ') ∨ ∃ n c, t = List.replicate (n + 1) ' ' ++ '#' :: c

theorem blankFirst_tail {t : Str} (h : Tail t) : blankFirst t = true := by
  rcases h with ⟨n, rfl⟩ | ⟨n, c, rfl⟩
  · cases n <;> simp [blankFirst, List.replicate_succ]
  · simp [blankFirst, List.replicate_succ]

theorem tailOk_tail {t : Str} (h : Tail t) : tailOk t = true := by
  rcases h with ⟨n, rfl⟩ | ⟨n, c, rfl⟩
  · cases n with
    | zero => rfl
    | succ n =>
      have := afterBlank_pad n []
      rw [List.append_nil] at this
      rw [List.replicate_succ, tailOk, this]
      rfl
  · have := afterBlank_pad n ('#' :: c)
    rw [List.replicate_succ, List.cons_append, tailOk, this]
    simp [afterBlank]

/-- No blank before `#`. -/
def NoComment : Str → Prop
  | [] => True
  | [_] => True
  | c :: d :: s => ¬ (c = ' ' ∧ d = '#') ∧ NoComment (d :: s)

theorem uncomment_cons {c : Char} {s : Str} (h : ¬ (c = ' ' ∧ s.head? = some '#')) :
    uncomment (c :: s) = c :: uncomment s := by
  rw [uncomment.eq_def]
  split
  · cases ‹_ = []›
  · rename_i heq
    cases heq
    exact absurd ⟨rfl, rfl⟩ h
  · rename_i heq
    cases heq
    rfl

theorem uncomment_blanks (n : ℕ) : uncomment (List.replicate n ' ') = List.replicate n ' ' := by
  induction n with
  | zero => rfl
  | succ n ih =>
    rw [List.replicate_succ, uncomment_cons, ih]
    rintro ⟨-, h⟩
    cases n <;> simp [List.replicate_succ] at h

theorem uncomment_comment (n : ℕ) (c : Str) :
    uncomment (List.replicate (n + 1) ' ' ++ '#' :: c) = List.replicate n ' ' := by
  induction n with
  | zero => rfl
  | succ n ih =>
    rw [List.replicate_succ, List.cons_append, uncomment_cons, ih]
    · rfl
    · rintro ⟨-, h⟩
      simp [List.replicate_succ] at h

theorem uncomment_append {w : Str} (hw : NoComment w) (h0 : w ≠ []) {t : Str}
    (ht : w.getLast h0 ≠ ' ' ∨ t.head? ≠ some '#') : uncomment (w ++ t) = w ++ uncomment t := by
  induction w with
  | nil => exact absurd rfl h0
  | cons c w ih =>
    cases w with
    | nil =>
      rw [List.singleton_append, uncomment_cons]
      · rfl
      · rintro ⟨rfl, h⟩
        rcases ht with ht | ht
        · exact ht rfl
        · exact ht h
    | cons d w =>
      rw [List.cons_append, uncomment_cons, ih hw.2 (by simp) (by simpa using ht)]
      · rfl
      · rintro ⟨rfl, h⟩
        exact hw.1 ⟨rfl, by simpa using h⟩

theorem uncomment_tail {w : Str} (hw : NoComment w) (h0 : w ≠ []) (hl : w.getLast h0 ≠ ' ') {t : Str}
    (ht : Tail t) : ∃ n, uncomment (w ++ t) = w ++ List.replicate n ' ' := by
  rw [uncomment_append hw h0 (.inl hl)]
  rcases ht with ⟨n, rfl⟩ | ⟨n, c, rfl⟩
  · exact ⟨n, by rw [uncomment_blanks]⟩
  · exact ⟨n, by rw [uncomment_comment]⟩

theorem rstrip_pad {w : Str} (h0 : w ≠ []) (hl : w.getLast h0 ≠ ' ') (n : ℕ) :
    rstrip (w ++ List.replicate n ' ') = w := by
  unfold rstrip
  rw [List.reverse_append, List.reverse_replicate]
  have : ∀ m (l : Str), List.dropWhile (fun c => decide (c = ' ')) (List.replicate m ' ' ++ l) =
      List.dropWhile (fun c => decide (c = ' ')) l := by
    intro m l
    induction m with
    | zero => rfl
    | succ m ih => rw [List.replicate_succ, List.cons_append, List.dropWhile_cons]; simpa using ih
  rw [this]
  have hr : w.reverse ≠ [] := by simpa using h0
  have hh : w.reverse = w.getLast h0 :: w.reverse.tail := by
    rw [← List.head_reverse (by simpa using h0), List.cons_head_tail]
  rw [hh, List.dropWhile_cons, if_neg (by simpa using hl), ← hh, List.reverse_reverse]

theorem dropBlanks (n : ℕ) (s : Str) : List.dropWhile (fun c => decide (c = ' ')) (List.replicate n ' ' ++ s) =
    List.dropWhile (fun c => decide (c = ' ')) s := by
  induction n with
  | zero => rfl
  | succ n ih => rw [List.replicate_succ, List.cons_append, List.dropWhile_cons]; simpa using ih

theorem value_tail {t : Str} (h : Tail t) : value t = some (.plain []) := by
  unfold value
  rcases h with ⟨n, rfl⟩ | ⟨n, c, rfl⟩
  · have := dropBlanks n []
    rw [List.append_nil] at this
    rw [this]
    rfl
  · rw [dropBlanks, List.dropWhile_cons, if_neg (by decide)]
    simp

/-- A plain value. -/
structure IsPlain (w : Str) : Prop where
  ne : w ≠ []
  first : ∀ c ∈ w.head?, c ≠ ' ' ∧ c ≠ '#' ∧ c ≠ '\''
  last : w.getLast ne ≠ ' '
  noComment : NoComment w
  ok : plainOk w = true
  notSeq : w ≠ ['[', ']']

theorem value_plain {w t : Str} (hw : IsPlain w) (ht : Tail t) (n : ℕ) :
    value (List.replicate n ' ' ++ (w ++ t)) = some (.plain w) := by
  obtain ⟨m, hm⟩ := uncomment_tail hw.noComment hw.ne hw.last ht
  have hr := rstrip_pad hw.ne hw.last m
  cases w with
  | nil => exact absurd rfl hw.ne
  | cons c w =>
    obtain ⟨h1, h2, h3⟩ := hw.first c rfl
    unfold value
    rw [dropBlanks, List.cons_append, List.dropWhile_cons, if_neg (by simpa using h1)]
    simp only [h2, h3, if_false]
    rw [← List.cons_append, hm, hr, if_neg hw.notSeq, hw.ok]
    rfl

theorem value_emptySeq {t : Str} (ht : Tail t) (n : ℕ) :
    value (List.replicate n ' ' ++ (['[', ']'] ++ t)) = some .emptySeq := by
  have hne : ['[', ']'] ≠ ([] : Str) := by simp
  obtain ⟨m, hm⟩ := uncomment_tail (w := ['[', ']']) (by simp [NoComment]) hne (by simp) ht
  have hr := rstrip_pad (w := ['[', ']']) hne (by simp) m
  unfold value
  rw [dropBlanks, List.cons_append, List.dropWhile_cons, if_neg (by decide)]
  simp only [show ('[' : Char) ≠ '#' by decide, show ('[' : Char) ≠ '\'' by decide, if_false]
  rw [← List.cons_append, hm, hr, if_pos rfl]

/-- A text in quotes. -/
def quote (w : Str) : Str := '\'' :: (w.flatMap fun c => if c = '\'' then ['\'', '\''] else [c]) ++ ['\'']

theorem unquote_quote (w t : Str) (ht : t.head? ≠ some '\'') :
    unquote ((w.flatMap fun c => if c = '\'' then ['\'', '\''] else [c]) ++ '\'' :: t) = some (w, t) := by
  induction w with
  | nil =>
    cases t with
    | nil => rfl
    | cons c t =>
      have hc : c ≠ '\'' := by simpa using ht
      rw [List.flatMap_nil, List.nil_append, unquote]
      intro s h
      cases h
      exact hc rfl
  | cons c w ih =>
    rw [List.flatMap_cons, List.append_assoc]
    by_cases hc : c = '\''
    · subst hc
      rw [if_pos rfl, List.cons_append, List.cons_append, List.nil_append, unquote, ih]
      rfl
    · rw [if_neg hc, List.singleton_append, unquote, ih]
      · rfl
      · intro s h
        exact fun _ => hc h
      · exact fun h => hc h

theorem head_tail {t : Str} (h : Tail t) (c : Char) (hc : c ≠ ' ') : t.head? ≠ some c := by
  rcases h with ⟨n, rfl⟩ | ⟨n, d, rfl⟩
  · cases n <;> simp [List.replicate_succ]
    exact fun h => hc h.symm
  · simp [List.replicate_succ]
    exact fun h => hc h.symm

theorem value_quoted (w : Str) {t : Str} (ht : Tail t) (n : ℕ) :
    value (List.replicate n ' ' ++ (quote w ++ t)) = some (.quoted w) := by
  unfold value quote
  rw [dropBlanks, List.cons_append, List.cons_append, List.dropWhile_cons, if_neg (by decide)]
  simp only [show ('\'' : Char) ≠ '#' by decide, if_false, if_true]
  rw [List.append_assoc, List.singleton_append, unquote_quote w t (head_tail ht _ (by decide))]
  simp [tailOk_tail ht]

/-! ## Lines -/

theorem line_blank {s : Str} (h : afterBlank s = true) : line s = some .blank := by
  unfold line
  rw [if_pos h]

theorem line_item {s : Str} (hs : blankFirst s = true) : line ('-' :: s) = (value s).map .item := by
  unfold line
  rw [afterBlank_cons (by decide) (by decide), if_neg (by decide)]
  simp only [hs, if_true]

theorem line_key {k s : Str} (h0 : k ≠ []) (hk : ∀ c ∈ k, keyChar c = true) (hs : blankFirst s = true) :
    line (k ++ ':' :: s) = (value s).map (.key k) := by
  have hch : ∀ c ∈ k, c ≠ ' ' ∧ c ≠ '#' ∧ c ≠ '-' ∧ c ≠ ':' := by
    intro c hc
    have := hk c hc
    refine ⟨?_, ?_, ?_, ?_⟩ <;> rintro rfl <;> exact absurd this (by decide)
  have htw : (k ++ ':' :: s).takeWhile (fun c => decide (c ≠ ':')) = k := by
    rw [List.takeWhile_append_of_pos (fun c hc => by simpa using (hch c hc).2.2.2)]
    simp
  have hdw : (k ++ ':' :: s).dropWhile (fun c => decide (c ≠ ':')) = ':' :: s := by
    rw [List.dropWhile_append_of_pos (fun c hc => by simpa using (hch c hc).2.2.2)]
    simp
  cases k with
  | nil => exact absurd rfl h0
  | cons c k =>
    obtain ⟨h1, h2, h3, -⟩ := hch c (by simp)
    unfold line
    rw [List.cons_append, afterBlank_cons h1 h2, if_neg (by decide)]
    rw [← List.cons_append]
    split
    · rename_i heq
      rw [List.cons_append] at heq
      cases heq
      exact absurd rfl h3
    · simp only [htw, hdw]
      rw [if_pos]
      simp only [List.isEmpty_cons, Bool.not_false, Bool.true_and, hs, Bool.and_true, List.all_eq_true]
      exact hk

end Verif.Yaml
