import Verif.Model.Actuator
import Verif.Lemmas.Text
import Mathlib.Tactic.Ring

/-! # Reading and writing of the look-up table as text -/

namespace Verif.Actuator.Act

open Verif

theorem words_nil : words [] = [] := rfl

theorem words_blank (s : Str) : words (' ' :: s) = words s := by
  unfold words
  rw [List.splitOnP_cons_eq_if_modifyHead]
  simp

theorem words_word {w : Str} (hw : ∀ c ∈ w, c ≠ ' ' ∧ c ≠ '\t') (hne : w ≠ []) :
    words w = [w] := by
  unfold words
  rw [List.splitOnP_eq_singleton (fun c hc => by simpa using hw c hc)]
  cases w with
  | nil => exact absurd rfl hne
  | cons a w => simp

theorem words_cons {w : Str} (hw : ∀ c ∈ w, c ≠ ' ' ∧ c ≠ '\t') (hne : w ≠ []) (s : Str) :
    words (w ++ ' ' :: s) = w :: words s := by
  unfold words
  rw [List.splitOnP_append_cons_of_forall_mem (fun c hc => by simpa using hw c hc) ' ' (by simp)]
  cases w with
  | nil => exact absurd rfl hne
  | cons a w => simp

theorem words_join (l : List Str) (hl : ∀ w ∈ l, w ≠ [] ∧ ∀ c ∈ w, c ≠ ' ' ∧ c ≠ '\t') :
    words ("  ".toList.intercalate l) = l := by
  induction l with
  | nil => rfl
  | cons w l ih =>
    obtain ⟨hne, hw⟩ := hl w (by simp)
    cases l with
    | nil => rw [List.intercalate_singleton]; exact words_word hw hne
    | cons w' l =>
      rw [List.intercalate_cons_cons]
      have : w ++ "  ".toList ++ "  ".toList.intercalate (w' :: l) =
          w ++ ' ' :: (' ' :: "  ".toList.intercalate (w' :: l)) := by simp
      rw [this, words_cons hw hne, words_blank, ih fun w hw => hl w (by simp [hw])]

theorem tableRows_nil : tableRows [] = [] := rfl

theorem tableRows_line {s : Str} (hs : '\n' ∉ s) (hw : words s ≠ []) (r : Str) :
    tableRows (s ++ '\n' :: r) = words s :: tableRows r := by
  unfold tableRows
  rw [List.splitOnP_append_cons_of_forall_mem
    (fun c hc => by simpa using fun h : c = '\n' => hs (h ▸ hc)) '\n' (by simp)]
  simp [hw]

theorem beforeEnd_stop {s : Str} (hs : '*' ∉ s) (r : Str) :
    beforeEnd (s ++ ("**ENDE**".toList ++ r)) = s := by
  induction s with
  | nil => simp [beforeEnd]
  | cons c s ih =>
    have hc : c ≠ '*' := fun h => hs (h ▸ List.mem_cons_self)
    have := ih fun h => hs (List.mem_cons_of_mem _ h)
    rw [List.cons_append, beforeEnd, this]
    have : "**ENDE**".toList.isPrefixOf (c :: (s ++ ("**ENDE**".toList ++ r))) = false := by
      simp [List.isPrefixOf, hc.symm]
    rw [this]; simp

theorem beforeEnd_none {s : Str} (hs : '*' ∉ s) : beforeEnd s = s := by
  induction s with
  | nil => simp [beforeEnd]
  | cons c s ih =>
    have hc : c ≠ '*' := fun h => hs (h ▸ List.mem_cons_self)
    have := ih fun h => hs (List.mem_cons_of_mem _ h)
    rw [beforeEnd, this]
    have : "**ENDE**".toList.isPrefixOf (c :: s) = false := by
      simp [List.isPrefixOf, hc.symm]
    rw [this]; simp

/-! ## Integers -/

theorem digitsVal_cons (c : Char) (l : Str) :
    digitsVal (c :: l) = (c.toNat - 48) * 10 ^ l.length + digitsVal l := by
  unfold digitsVal
  rw [List.reverse_cons, List.map_append, Nat.ofDigits_append]
  simp [Nat.ofDigits_singleton]; ring

theorem foldlM_digits (l : Str) (hl : ∀ c ∈ l, IsDigit c) (acc : ℕ) :
    l.foldlM (fun (acc : ℕ) c =>
      if '0' ≤ c ∧ c ≤ '9' then some (10 * acc + (c.toNat - 48)) else none) acc =
      some (acc * 10 ^ l.length + digitsVal l) := by
  induction l generalizing acc with
  | nil => simp [digitsVal]
  | cons c l ih =>
    rw [List.foldlM_cons, if_pos (show '0' ≤ c ∧ c ≤ '9' from hl c (by simp))]
    simp only [Option.bind_eq_bind, Option.bind_some]
    rw [ih (fun c hc => hl c (by simp [hc])), digitsVal_cons, List.length_cons]
    congr 1; ring

theorem parseNat_decNat (n : ℕ) : parseNat (decNat n) = some n := by
  have h := foldlM_digits (decNat n) (fun c hc => decNat_isDigit hc) 0
  rw [digitsVal_decNat] at h
  cases hd : decNat n with
  | nil => exact absurd hd (decNat_ne_nil n)
  | cons c l => rw [hd] at h; simpa [parseNat] using h

theorem parseInt_decInt (z : ℤ) : parseInt (decInt z) = some z := by
  unfold decInt
  by_cases hz : z < 0
  · rw [if_pos hz]
    simp only [parseInt, parseNat_decNat, Option.map_some]
    congr 1; omega
  · rw [if_neg hz]
    have h : parseInt (decNat z.natAbs) = (parseNat (decNat z.natAbs)).map fun n : ℕ => (n : ℤ) := by
      cases hd : decNat z.natAbs with
      | nil => rfl
      | cons c l =>
        have hc : IsDigit c := decNat_isDigit (n := z.natAbs) (by rw [hd]; simp)
        unfold parseInt
        split
        · rename_i heq; cases heq; exact absurd hc (by decide)
        · rename_i heq; cases heq; exact absurd hc (by decide)
        · rfl
    rw [h, parseNat_decNat, Option.map_some]
    congr 1; omega

theorem decInt_chars {z : ℤ} {c : Char} (h : c ∈ decInt z) : c = '-' ∨ IsDigit c := by
  unfold decInt at h
  split_ifs at h
  · rcases List.mem_cons.1 h with h | h
    · exact .inl h
    · exact .inr (decNat_isDigit h)
  · exact .inr (decNat_isDigit h)

theorem decInt_ne_nil (z : ℤ) : decInt z ≠ [] := by
  unfold decInt
  split_ifs
  · simp
  · exact decNat_ne_nil _

theorem char_ok {c : Char} (h : c = '-' ∨ IsDigit c) : c ≠ ' ' ∧ c ≠ '\t' ∧ c ≠ '\n' ∧ c ≠ '*' := by
  rcases h with rfl | h
  · decide
  · refine ⟨?_, ?_, ?_, ?_⟩ <;> rintro rfl <;> exact absurd h (by decide)

theorem mem_intercalate {sep : Str} {l : List Str} {c : Char} (h : c ∈ sep.intercalate l) :
    c ∈ sep ∨ ∃ w ∈ l, c ∈ w := by
  induction l with
  | nil => simp [List.intercalate] at h
  | cons w l ih =>
    cases l with
    | nil => rw [List.intercalate_singleton] at h; exact .inr ⟨w, by simp, h⟩
    | cons w' l =>
      rw [List.intercalate_cons_cons, List.mem_append, List.mem_append] at h
      rcases h with (h | h) | h
      · exact .inr ⟨w, by simp, h⟩
      · exact .inl h
      · rcases ih h with h | ⟨u, hu, hc⟩
        · exact .inl h
        · exact .inr ⟨u, List.mem_cons_of_mem _ hu, hc⟩

/-! ## One line -/

theorem line_words (k : ℕ) (l : List ℤ) :
    words ("NR ".toList ++ decNat (k + 1) ++ " ffff ".toList ++
      "  ".toList.intercalate (l.map decInt)) =
      "NR".toList :: decNat (k + 1) :: "ffff".toList :: l.map decInt := by
  have e : "NR ".toList ++ decNat (k + 1) ++ " ffff ".toList ++
      "  ".toList.intercalate (l.map decInt) =
      "NR".toList ++ ' ' :: (decNat (k + 1) ++ ' ' :: ("ffff".toList ++ ' ' ::
        "  ".toList.intercalate (l.map decInt))) := by simp
  rw [e, words_cons (by decide) (by decide), words_cons _ (decNat_ne_nil _),
    words_cons (by decide) (by decide), words_join]
  · intro w hw
    obtain ⟨z, -, rfl⟩ := List.mem_map.1 hw
    exact ⟨decInt_ne_nil z, fun c hc => ⟨(char_ok (decInt_chars hc)).1,
      (char_ok (decInt_chars hc)).2.1⟩⟩
  · exact fun c hc => ⟨(char_ok (.inr (decNat_isDigit hc))).1,
      (char_ok (.inr (decNat_isDigit hc))).2.1⟩

theorem line_chars {k : ℕ} {l : List ℤ} {c : Char}
    (h : c ∈ "NR ".toList ++ decNat (k + 1) ++ " ffff ".toList ++
      "  ".toList.intercalate (l.map decInt)) : c ≠ '\n' ∧ c ≠ '*' := by
  rw [List.mem_append, List.mem_append, List.mem_append] at h
  rcases h with ((h | h) | h) | h
  · revert c; decide
  · exact (char_ok (.inr (decNat_isDigit h))).2.2
  · revert c; decide
  · rcases mem_intercalate h with h | ⟨w, hw, hc⟩
    · clear * - h; revert c; decide
    · obtain ⟨z, -, rfl⟩ := List.mem_map.1 hw
      exact (char_ok (decInt_chars hc)).2.2

theorem rows_lines (L : List (ℕ × List ℤ)) :
    tableRows (L.flatMap fun p => lookupLine p.1 (p.2.map decInt)) =
      L.map fun p => "NR".toList :: decNat (p.1 + 1) :: "ffff".toList :: p.2.map decInt := by
  induction L with
  | nil => rfl
  | cons p L ih =>
    rw [List.flatMap_cons, List.map_cons, ← ih]
    have e : lookupLine p.1 (p.2.map decInt) ++
        L.flatMap (fun p => lookupLine p.1 (p.2.map decInt)) =
        ("NR ".toList ++ decNat (p.1 + 1) ++ " ffff ".toList ++
          "  ".toList.intercalate (p.2.map decInt)) ++ '\n' ::
          L.flatMap (fun p => lookupLine p.1 (p.2.map decInt)) := by
      simp [lookupLine]
    rw [e, tableRows_line (fun h => (line_chars h).1 rfl) (by rw [line_words]; simp), line_words]

theorem lines_no_star (L : List (ℕ × List ℤ)) :
    '*' ∉ L.flatMap fun p => lookupLine p.1 (p.2.map decInt) := by
  intro h
  obtain ⟨p, -, hp⟩ := List.mem_flatMap.1 h
  unfold lookupLine at hp
  rcases List.mem_append.1 hp with h | h
  · exact (line_chars h).2 rfl
  · exact absurd h (by decide)

/-! ## The writer -/

theorem writeLines_ok {m n : ℕ} (t : Fin m × Fin n → Fl) (ks : List ℕ) (h : ∀ k ∈ ks, k < n) :
    writeLines t ks = (.ok (), ((ks.pmap (fun k hk => (k, List.ofFn fun j : Fin m =>
      commandOf (t (j, ⟨k, hk⟩)))) h).flatMap fun p => lookupLine p.1 (p.2.map decInt)) ++
      "**ENDE**\n".toList) := by
  induction ks with
  | nil => rfl
  | cons k ks ih =>
    have hk : k < n := h k (by simp)
    rw [writeLines, dif_pos hk, ih fun k hk => h k (by simp [hk])]
    simp [List.map_ofFn, Function.comp_def]

theorem writeLines_short {m n : ℕ} (t : Fin m × Fin n → Fl) (ks : List ℕ) (h : ∀ k ∈ ks, k < n)
    (k' : ℕ) (hk' : ¬ k' < n) (rest : List ℕ) :
    writeLines t (ks ++ k' :: rest) = (.error .indexError,
      (ks.pmap (fun k hk => (k, List.ofFn fun j : Fin m => commandOf (t (j, ⟨k, hk⟩)))) h).flatMap
        fun p => lookupLine p.1 (p.2.map decInt)) := by
  induction ks with
  | nil => rw [List.nil_append, writeLines, dif_neg hk']; rfl
  | cons k ks ih =>
    have hk : k < n := h k (by simp)
    rw [List.cons_append, writeLines, dif_pos hk, ih fun k hk => h k (by simp [hk])]
    simp [List.map_ofFn, Function.comp_def]

end Verif.Actuator.Act
