import Verif.Model.CsvShape
import Verif.Props.Csv
import Verif.Props.DoubleRmsMap

/-!
# C132: what a reader gets from a half-written csv file

A program that is stopped, or still running, while it writes a csv file leaves a first part of its text.
-/

namespace Verif.Props

open Verif Verif.Csv Verif.Actuator.Act

/-! ## First parts -/

theorem prefix_append_cases {α : Type} {u a b : List α} (h : u <+: a ++ b) : u <+: a ∨ ∃ v, u = a ++ v ∧ v <+: b := by
  rcases le_total u.length a.length with hl | hl
  · exact .inl (List.prefix_of_prefix_length_le h (List.prefix_append a b) hl)
  · obtain ⟨v, rfl⟩ := List.prefix_of_prefix_length_le (List.prefix_append a b) h hl
    exact .inr ⟨v, rfl, by simpa using h⟩

/-- The words of a line, with blanks between them. -/
theorem words_cut (ws : List Str) (hw : ∀ w ∈ ws, w ≠ [] ∧ ∀ c ∈ w, c ≠ ' ' ∧ c ≠ '\t') (u : Str)
    (hu : u <+: " ".toList.intercalate ws) (hne : u ≠ []) :
    ∃ pre full post w, ws = pre ++ full :: post ∧ w ≠ [] ∧ w <+: full ∧ words u = pre ++ [w] ∧
      u <+: " ".toList.intercalate (pre ++ [full]) ++ " ".toList ∧
      (post = [] → u = " ".toList.intercalate (pre ++ [w])) := by
  induction ws generalizing u with
  | nil => exact absurd (by simpa [List.intercalate] using hu) hne
  | cons w0 ws ih =>
    obtain ⟨h0, h0'⟩ := hw w0 (by simp)
    have base : u <+: w0 → ∃ pre full post w, w0 :: ws = pre ++ full :: post ∧ w ≠ [] ∧ w <+: full ∧
        words u = pre ++ [w] ∧ u <+: " ".toList.intercalate (pre ++ [full]) ++ " ".toList ∧
        (post = [] → u = " ".toList.intercalate (pre ++ [w])) := by
      intro h
      refine ⟨[], w0, ws, u, rfl, hne, h, ?_, ?_, ?_⟩
      · exact words_word (fun c hc => h0' c (h.subset hc)) hne
      · rw [List.nil_append, List.intercalate_singleton]
        exact List.prefix_append_of_prefix h
      · rw [List.nil_append, List.intercalate_singleton]
        exact fun _ => rfl
    cases ws with
    | nil => exact base (by simpa [List.intercalate_singleton] using hu)
    | cons w1 ws =>
      rw [List.intercalate_cons_cons, List.append_assoc] at hu
      rcases prefix_append_cases hu with h | ⟨v, rfl, hv⟩
      · exact base h
      rcases prefix_append_cases hv with h | ⟨v, rfl, hv'⟩
      · rcases List.prefix_cons_iff.1 (show v <+: ' ' :: [] from h) with rfl | ⟨t, rfl, ht⟩
        · exact base (by simp)
        · rw [List.prefix_nil] at ht
          subst ht
          refine ⟨[], w0, w1 :: ws, w0, rfl, h0, List.prefix_refl _, ?_, ?_, by simp⟩
          · rw [words_cons h0' h0, words_nil]
            rfl
          · rw [List.nil_append, List.intercalate_singleton]
            exact List.prefix_refl _
      · by_cases hv0 : v = []
        · subst hv0
          refine ⟨[], w0, w1 :: ws, w0, rfl, h0, List.prefix_refl _, ?_, ?_, by simp⟩
          · rw [List.append_nil]
            exact (words_cons h0' h0 []).trans (by rw [words_nil]; rfl)
          · rw [List.nil_append, List.intercalate_singleton, List.append_nil]
        · obtain ⟨pre, full, post, w, e1, e2, e3, e4, e5, e6⟩ := ih (fun w h => hw w (by simp [h])) v hv' hv0
          have hc : ∀ x : Str, " ".toList.intercalate (w0 :: pre ++ [x]) =
              w0 ++ (" ".toList ++ " ".toList.intercalate (pre ++ [x])) := by
            intro x
            cases pre with
            | nil => rw [List.cons_append, List.nil_append, List.intercalate_cons_cons, List.append_assoc]
            | cons p pre => rw [List.cons_append, List.cons_append, List.intercalate_cons_cons, List.append_assoc]
          refine ⟨w0 :: pre, full, post, w, by rw [e1]; rfl, e2, e3, ?_, ?_, fun hp => ?_⟩
          · rw [show w0 ++ (" ".toList ++ v) = w0 ++ ' ' :: v from rfl, words_cons h0' h0, e4]
            rfl
          · rw [hc, List.append_assoc, List.append_assoc, List.prefix_append_right_inj, List.prefix_append_right_inj]
            exact e5
          · rw [hc, ← e6 hp]

/-! ## Lines -/

/-- The text of a row. -/
noncomputable def lineText (r : List Fl) : Str := " ".toList.intercalate (r.map fmt18)

theorem lineText_chars {r : List Fl} {c : Char} (hc : c ∈ lineText r) : c ≠ '\n' ∧ c ≠ '\r' ∧ c ≠ '#' := by
  rcases mem_intercalate hc with h | ⟨w, hw, hcw⟩
  · have : c = ' ' := by simpa using h
    subst this
    decide
  · obtain ⟨x, -, rfl⟩ := List.mem_map.1 hw
    exact (fmt18_ne hcw).2.2

theorem csvRows_last {u : Str} (hu : ∀ c ∈ u, c ≠ '\n' ∧ c ≠ '\r' ∧ c ≠ '#') :
    csvRows u = if words u = [] then [] else [words u] := by
  unfold csvRows
  rw [List.splitOnP_eq_singleton fun c hc => by simp [(hu c hc).1, (hu c hc).2.1]]
  have ht : u.takeWhile (· ≠ '#') = u := by
    rw [List.takeWhile_eq_self_iff]
    exact fun c h => by simpa using (hu c h).2.2
  rw [List.map_cons, List.map_nil, ht]
  generalize words u = w
  cases w <;> simp

theorem csvRows_first {u : Str} (hu : ∀ c ∈ u, c ≠ '\n' ∧ c ≠ '\r' ∧ c ≠ '#') (v : Str) :
    csvRows (u ++ '\n' :: v) = (if words u = [] then [] else [words u]) ++ csvRows v := by
  have ht : u.takeWhile (· ≠ '#') = u := by
    rw [List.takeWhile_eq_self_iff]
    exact fun c h => by simpa using (hu c h).2.2
  rw [csvRows_line (fun h => (hu _ h).1 rfl) (fun h => (hu _ h).2.1 rfl), ht]

theorem words_lineText (r : List Fl) : words (lineText r) = r.map fmt18 := by
  refine words_spaced _ fun w hw => ?_
  obtain ⟨x, -, rfl⟩ := List.mem_map.1 hw
  exact ⟨fmt18_ne_nil x, fun c hc => ⟨(fmt18_ne hc).1, (fmt18_ne hc).2.1⟩⟩

/-- A first part of the text of a row. -/
theorem lineText_cut (r : List Fl) (u : Str) (hu : u <+: lineText r) (hne : u ≠ []) :
    ∃ a x b w, r = a ++ x :: b ∧ w ≠ [] ∧ w <+: fmt18 x ∧ words u = a.map fmt18 ++ [w] ∧
      u <+: lineText (a ++ [x]) ++ " ".toList ∧
      (b = [] → u = " ".toList.intercalate (a.map fmt18 ++ [w])) := by
  obtain ⟨pre, full, post, w, e1, e2, e3, e4, e5, e6⟩ := words_cut (r.map fmt18) (fun w hw => by
    obtain ⟨x, -, rfl⟩ := List.mem_map.1 hw
    exact ⟨fmt18_ne_nil x, fun c hc => ⟨(fmt18_ne hc).1, (fmt18_ne hc).2.1⟩⟩) u hu hne
  obtain ⟨a, c, rfl, rfl, h2⟩ := List.map_eq_append_iff.1 e1
  obtain ⟨x, b, rfl, rfl, rfl⟩ := List.map_eq_cons_iff.1 h2
  refine ⟨a, x, b, w, rfl, e2, e3, e4, ?_, fun hb => e6 (by rw [hb]; rfl)⟩
  rw [lineText, List.map_append]
  exact e5

/-- The text of all rows. -/
noncomputable def rowsText (rows : List (List Fl)) : Str := rows.flatMap fun r => lineText r ++ ['\n']

theorem rowsText_cons (r : List Fl) (rows : List (List Fl)) : rowsText (r :: rows) = lineText r ++ '\n' :: rowsText rows := by
  unfold rowsText
  rw [List.flatMap_cons, List.append_assoc]
  rfl

theorem rowsText_append (a b : List (List Fl)) : rowsText (a ++ b) = rowsText a ++ rowsText b := by
  unfold rowsText
  rw [List.flatMap_append]

/-- A first part of the text of the rows: complete rows, and perhaps one that is not complete. -/
theorem rowsText_cut (rows : List (List Fl)) (hr : ∀ r ∈ rows, r ≠ []) (p : Str) (hp : p <+: rowsText rows) :
    (∃ pre post, rows = pre ++ post ∧ p = rowsText pre ∧ csvRows p = pre.map fun r => r.map fmt18) ∨
    (∃ pre a x b post w u, rows = pre ++ (a ++ x :: b) :: post ∧ w ≠ [] ∧ w <+: fmt18 x ∧ p = rowsText pre ++ u ∧
      csvRows p = (pre.map fun r => r.map fmt18) ++ [a.map fmt18 ++ [w]] ∧
      u <+: lineText (a ++ [x]) ++ " ".toList ∧
      (b = [] → u = " ".toList.intercalate (a.map fmt18 ++ [w]))) := by
  induction rows generalizing p with
  | nil =>
    have : p = [] := by simpa [rowsText] using hp
    subst this
    exact .inl ⟨[], [], rfl, rfl, by simp [csvRows, words_nil]⟩
  | cons r rows ih =>
    rw [rowsText_cons] at hp
    have hcut : ∀ u, u <+: lineText r → u ≠ [] → ∃ pre a x b post w u', r :: rows = pre ++ (a ++ x :: b) :: post ∧ w ≠ [] ∧
        w <+: fmt18 x ∧ u = rowsText pre ++ u' ∧ csvRows u = (pre.map fun r => r.map fmt18) ++ [a.map fmt18 ++ [w]] ∧
        u' <+: lineText (a ++ [x]) ++ " ".toList ∧ (b = [] → u' = " ".toList.intercalate (a.map fmt18 ++ [w])) := by
      intro u hu hne
      obtain ⟨a, x, b, w, e1, e2, e3, e4, e5, e6⟩ := lineText_cut r u hu hne
      refine ⟨[], a, x, b, rows, w, u, by rw [e1]; rfl, e2, e3, rfl, ?_, e5, e6⟩
      rw [csvRows_last fun c hc => lineText_chars (hu.subset hc), e4, if_neg (by simp)]
      rfl
    rcases prefix_append_cases hp with h | ⟨v, rfl, hv⟩
    · by_cases hp0 : p = []
      · subst hp0
        exact .inl ⟨[], r :: rows, rfl, rfl, by simp [csvRows, words_nil]⟩
      · exact .inr (hcut p h hp0)
    rcases List.prefix_cons_iff.1 hv with rfl | ⟨t, rfl, ht⟩
    · have hl : lineText r ≠ [] := by
        intro h
        have h1 := words_lineText r
        rw [h, words_nil] at h1
        exact hr r (by simp) (List.map_eq_nil_iff.1 h1.symm)
      rw [List.append_nil]
      exact .inr (hcut _ (List.prefix_refl _) hl)
    · have hfst : ∀ v, csvRows (lineText r ++ '\n' :: v) = r.map fmt18 :: csvRows v := by
        intro v
        rw [csvRows_first (fun c hc => lineText_chars hc), words_lineText, if_neg (by simpa using hr r (by simp))]
        rfl
      rw [hfst]
      rcases ih (fun r h => hr r (by simp [h])) t ht with ⟨pre, post, e1, e2, e3⟩ |
        ⟨pre, a, x, b, post, w, u, e1, e2, e3, e4, e5, e6, e7⟩
      · exact .inl ⟨r :: pre, post, by rw [e1]; rfl, by rw [rowsText_cons, e2], by rw [e3]; rfl⟩
      · refine .inr ⟨r :: pre, a, x, b, post, w, u, by rw [e1]; rfl, e2, e3, ?_, by rw [e5]; rfl, e6, e7⟩
        rw [rowsText_cons, e4, List.append_assoc]
        rfl

/-! ## The comment -/

/-- The first lines of the file. -/
noncomputable def headText (header : Str) : Str := '#' :: ([' '] ++ (commentHeader header ++ ['\n']))

theorem savetxt_eq (header : Str) (rows : List (List Fl)) : savetxt header rows = headText header ++ rowsText rows := by
  simp [savetxt, headText, rowsText, lineText]

theorem csvRows_comment (p : Str) (hp : '\n' ∉ p) (hp' : '\r' ∉ p) : csvRows ('#' :: p) = [] := by
  unfold csvRows
  rw [List.splitOnP_eq_singleton fun c hc => by
    have h1 : c ≠ '\n' := by
      rintro rfl
      simp at hc
      exact hp hc
    have h2 : c ≠ '\r' := by
      rintro rfl
      simp at hc
      exact hp' hc
    simp [h1, h2]]
  simp [words_nil]

theorem csvRows_headCut (h p : Str) (hp : '\n' ∉ p) (hp' : '\r' ∉ p) (hh : '\r' ∉ h) (q : Str)
    (hq : q <+: commentHeader h ++ ['\n']) : csvRows ('#' :: p ++ q) = [] := by
  induction h generalizing p q with
  | nil =>
    rcases List.prefix_cons_iff.1 (show q <+: '\n' :: [] from hq) with rfl | ⟨t, rfl, ht⟩
    · rw [List.append_nil]
      exact csvRows_comment p hp hp'
    · rw [List.prefix_nil] at ht
      subst ht
      rw [csvRows_line (by simpa using hp) (by simpa using hp')]
      simp [words_nil, csvRows]
  | cons c h ih =>
    have hh' : '\r' ∉ h := fun hm => hh (List.mem_cons_of_mem _ hm)
    have hc' : c ≠ '\r' := fun e => hh (e ▸ List.mem_cons_self)
    by_cases hc : c = '\n'
    · subst hc
      have e : commentHeader ('\n' :: h) ++ ['\n'] = '\n' :: '#' :: ' ' :: (commentHeader h ++ ['\n']) := by
        simp [commentHeader]
      rw [e] at hq
      rcases List.prefix_cons_iff.1 hq with rfl | ⟨t, rfl, hq1⟩
      · rw [List.append_nil]
        exact csvRows_comment p hp hp'
      rw [csvRows_line (by simpa using hp) (by simpa using hp')]
      have e2 : csvRows t = [] := by
        rcases List.prefix_cons_iff.1 hq1 with rfl | ⟨t, rfl, hq2⟩
        · simp [csvRows, words_nil]
        rcases List.prefix_cons_iff.1 hq2 with rfl | ⟨t, rfl, hq3⟩
        · exact csvRows_comment [] (by simp) (by simp)
        exact ih [' '] (by simp) (by simp) hh' t hq3
      rw [e2]
      simp [words_nil]
    · have e : commentHeader (c :: h) ++ ['\n'] = c :: (commentHeader h ++ ['\n']) := by
        simp [commentHeader, hc]
      rw [e] at hq
      rcases List.prefix_cons_iff.1 hq with rfl | ⟨t, rfl, hq1⟩
      · rw [List.append_nil]
        exact csvRows_comment p hp hp'
      have := ih (p ++ [c]) (by simp [hp, Ne.symm hc]) (by simp [hp', hc'.symm]) hh' t hq1
      simpa using this

theorem csvRows_head (header : Str) (hh : '\r' ∉ header) (v : Str) : csvRows (headText header ++ v) = csvRows v := by
  have := csvRows_header header [' '] v (by simp) (by simp) hh
  simpa [headText] using this

/-- A first part of a csv file. -/
theorem savetxt_cut (header : Str) (hh : '\r' ∉ header) (rows : List (List Fl)) (hr : ∀ r ∈ rows, r ≠ []) (t : Str)
    (ht : t <+: savetxt header rows) :
    (∃ pre post, rows = pre ++ post ∧ csvRows t = (pre.map fun r => r.map fmt18) ∧
      t.length ≤ (headText header).length + (rowsText pre).length ∧
      (post = [] → pre ≠ [] → t = savetxt header rows)) ∨
    (∃ pre a x b post w u, rows = pre ++ (a ++ x :: b) :: post ∧ w ≠ [] ∧ w <+: fmt18 x ∧
      t = headText header ++ (rowsText pre ++ u) ∧
      csvRows t = (pre.map fun r => r.map fmt18) ++ [a.map fmt18 ++ [w]] ∧
      u <+: lineText (a ++ [x]) ++ " ".toList ∧
      (b = [] → u = " ".toList.intercalate (a.map fmt18 ++ [w]))) := by
  rw [savetxt_eq] at ht ⊢
  rcases prefix_append_cases ht with h | ⟨p, rfl, hp⟩
  · left
    refine ⟨[], rows, rfl, ?_, by simpa using h.length_le.trans (Nat.le_add_right _ _), fun _ h => absurd rfl h⟩
    rcases List.prefix_cons_iff.1 h with rfl | ⟨q, rfl, hq⟩
    · simp [csvRows, words_nil]
    rcases List.prefix_cons_iff.1 (show q <+: ' ' :: (commentHeader header ++ ['\n']) from hq) with rfl | ⟨q, rfl, hq'⟩
    · exact csvRows_comment [] (by simp) (by simp)
    · exact csvRows_headCut header [' '] (by simp) (by simp) hh q hq'
  · rw [csvRows_head header hh]
    rcases rowsText_cut rows hr p hp with ⟨pre, post, e1, e2, e3⟩ | ⟨pre, a, x, b, post, w, u, e1, e2, e3, e4, e5, e6, e7⟩
    · refine .inl ⟨pre, post, e1, e3, ?_, fun h0 _ => ?_⟩
      · rw [List.length_append, e2]
      · rw [e2, e1, h0, List.append_nil]
    · exact .inr ⟨pre, a, x, b, post, w, u, e1, e2, e3, by rw [e4], e5, e6, e7⟩

end Verif.Props
