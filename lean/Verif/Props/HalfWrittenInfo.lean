import Verif.Props.InfoText
import Verif.Props.HalfWritten

/-!
# What a reader gets from a half-written information file (C141)

`yaml.load` of a first part of the text of `pyoof_info.yml`. Where the model of `load` gives `none` there is an
exception in reality (a key without a colon after another entry, a quote that is not closed), or a text outside of the
model (a cut `- -`, a list in a list); a cut first key, and an empty document, are no dictionary, and the first
subscript fails.
-/

namespace Verif.Props

open Verif Verif.Csv Verif.Yaml Verif.Store Verif.InfoText Verif.Actuator.Act

/-! ## Specification -/

/-- What `pyoof_info[k]` gives: the value of a key of the mapping that `yaml.load` returns. -/
noncomputable def Spec.infoAt (rd : ℝ → Fl) (other : Str → Tag) (m : List (Str × Val)) (k : Str) : Option Obj :=
  (get m k).bind (objOf rd other)

/-- The order of the words by their characters. -/
def Spec.KeyBefore (a b : Str) : Prop := a.map Char.toNat < b.map Char.toNat

/-- A dictionary that is inside the model. -/
structure Spec.DocOk (other : Str → Tag) (doc : List (Str × Obj)) : Prop where
  key : ∀ e ∈ doc, e.1 ≠ [] ∧ (∀ c ∈ e.1, c.isAlphanum = true ∨ c = '_') ∧ e.1.length ≤ 80 ∧ resolve other e.1 = .str
  val : ∀ e ∈ doc, Spec.PlainObj e.1 e.2
  nodup : (doc.map Prod.fst).Nodup

/-! ## Cutting a text into lines -/

theorem prefix_lines {ls : List Str} {t : Str} (h : t <+: ls.flatMap fun l => l ++ ['\n']) :
    t = (ls.flatMap fun l => l ++ ['\n']) ∨
    ∃ pre l post p, ls = pre ++ l :: post ∧ p <+: l ∧ t = (pre.flatMap fun l => l ++ ['\n']) ++ p := by
  induction ls generalizing t with
  | nil => left; simpa using h
  | cons l ls ih =>
    rw [List.flatMap_cons, List.append_assoc] at h
    rcases prefix_append_cases h with h | ⟨v, rfl, hv⟩
    · exact .inr ⟨[], l, ls, t, rfl, h, by simp⟩
    rcases prefix_append_cases hv with h | ⟨w, rfl, hw⟩
    · rcases List.prefix_cons_iff.1 h with rfl | ⟨s, rfl, hs⟩
      · exact .inr ⟨[], l, ls, l, rfl, List.prefix_refl _, by simp⟩
      · obtain rfl : s = [] := List.prefix_nil.1 hs
        rcases ih (List.nil_prefix (l := ls.flatMap fun l => l ++ ['\n'])) with h0 | ⟨pre, l', post, p, e1, e2, e3⟩
        · left
          rw [List.flatMap_cons, ← h0]
          simp
        · refine .inr ⟨l :: pre, l', post, p, by rw [e1]; rfl, e2, ?_⟩
          rw [List.flatMap_cons, List.append_assoc, ← e3]
          simp
    · rcases ih hw with h0 | ⟨pre, l', post, p, e1, e2, e3⟩
      · left
        rw [List.flatMap_cons, ← h0, List.append_assoc]
      · refine .inr ⟨l :: pre, l', post, p, by rw [e1]; rfl, e2, ?_⟩
        rw [List.flatMap_cons, List.append_assoc, List.append_assoc, ← e3]

theorem split_cut (pre : List Str) (p : Str) (h : ∀ l ∈ pre, '\n' ∉ l) (hp : '\n' ∉ p) :
    ((pre.flatMap fun l => l ++ ['\n']) ++ p).splitOn '\n' = pre ++ [p] := by
  have e : (pre.flatMap fun l => l ++ ['\n']) ++ p = ['\n'].intercalate (pre ++ [p]) := by
    induction pre with
    | nil => simp [List.intercalate]
    | cons l ls ih =>
      rw [List.flatMap_cons, List.append_assoc, ih fun l hl => h l (by simp [hl]), List.cons_append]
      cases ls with
      | nil => simp [List.intercalate]
      | cons m ls => simp [List.intercalate]
  rw [e]
  refine List.splitOn_intercalate '\n' (fun l hl => ?_) (by simp)
  rcases List.mem_append.1 hl with hl | hl
  · exact h l hl
  · rw [List.mem_singleton.1 hl]; exact hp

theorem flatMap_cut {α β : Type} (f : α → List β) {d : List α} {pre post : List β} {l : β}
    (h : d.flatMap f = pre ++ l :: post) :
    ∃ d1 e d2 a b, d = d1 ++ e :: d2 ∧ f e = a ++ l :: b ∧ pre = d1.flatMap f ++ a := by
  induction d generalizing pre with
  | nil => simp at h
  | cons e d ih =>
    rw [List.flatMap_cons] at h
    rcases List.append_eq_append_iff.1 h with ⟨a, rfl, h2⟩ | ⟨a, h1, h2⟩
    · obtain ⟨d1, e', d2, a', b, rfl, h3, rfl⟩ := ih h2
      exact ⟨e :: d1, e', d2, a', b, rfl, h3, by simp⟩
    · cases a with
      | nil =>
        obtain ⟨d1, e', d2, a', b, rfl, h3, h4⟩ := ih (pre := []) (by simpa using h2.symm)
        refine ⟨e :: d1, e', d2, a', b, rfl, h3, ?_⟩
        rw [List.flatMap_cons, List.append_assoc, ← h4, h1]
        simp
      | cons x a =>
        obtain ⟨rfl, h3⟩ := List.cons.inj h2
        exact ⟨[], e, d, pre, a, rfl, h1, by simp⟩

/-! ## The last line -/

theorem line_no_colon {k : Str} (h0 : k ≠ []) (hk : ∀ c ∈ k, keyChar c = true) : line k = none := by
  have hch : ∀ c ∈ k, c ≠ ' ' ∧ c ≠ '#' ∧ c ≠ '-' ∧ c ≠ ':' := by
    intro c hc
    have := hk c hc
    refine ⟨?_, ?_, ?_, ?_⟩ <;> rintro rfl <;> exact absurd this (by decide)
  have hdw : k.dropWhile (fun c => decide (c ≠ ':')) = [] := by
    rw [List.dropWhile_eq_nil_iff]
    intro c hc
    simpa using (hch c hc).2.2.2
  cases k with
  | nil => exact absurd rfl h0
  | cons c s =>
    obtain ⟨h1, h2, h3, h4⟩ := hch c (by simp)
    unfold line
    rw [afterBlank_cons h1 h2, if_neg (by decide)]
    split
    · rename_i heq
      exact absurd (List.cons.inj heq).1 h3
    · rw [hdw]

/-- A cut line of a key. -/
theorem line_key_cut {k s p : Str} (h0 : k ≠ []) (hk : ∀ c ∈ k, keyChar c = true) (hs : blankFirst s = true)
    (hp : p <+: k ++ ':' :: s) : line p = some .blank ∨ line p = none ∨ ∃ t, line p = some (.key k t) := by
  rcases prefix_append_cases hp with h | ⟨v, rfl, hv⟩
  · by_cases hn : p = []
    · left; rw [hn]; rfl
    · right; left
      exact line_no_colon hn fun c hc => hk c (h.subset hc)
  · rcases List.prefix_cons_iff.1 hv with rfl | ⟨r, rfl, hr⟩
    · right; left
      rw [List.append_nil]
      exact line_no_colon h0 hk
    · right
      have hb : blankFirst r = true := by
        cases r with
        | nil => rfl
        | cons c r =>
          obtain ⟨w, rfl⟩ := hr
          simpa [blankFirst] using hs
      rw [line_key h0 hk hb]
      cases value r with
      | none => exact .inl rfl
      | some t => exact .inr ⟨t, rfl⟩

/-- A cut line of a list. -/
theorem line_item_cut {s p : Str} (hs : blankFirst s = true) (hp : p <+: '-' :: s) :
    line p = some .blank ∨ line p = none ∨ ∃ t, line p = some (.item t) := by
  rcases List.prefix_cons_iff.1 hp with rfl | ⟨r, rfl, hr⟩
  · left; rfl
  · right
    have hb : blankFirst r = true := by
      cases r with
      | nil => rfl
      | cons c r =>
        obtain ⟨w, rfl⟩ := hr
        simpa [blankFirst] using hs
    rw [line_item hb]
    cases value r with
    | none => exact .inl rfl
    | some t => exact .inr ⟨t, rfl⟩

theorem group_entries {D : Digits} (hD : Spec.ReprDigits D) (other : Str → Tag) (doc : List (Str × Obj))
    (h : ∀ e ∈ doc, Spec.IsFloats e.2) (R : List Line) (m : List (Str × Val)) (hR : group R = some ([], m)) :
    group ((doc.flatMap fun e => readLines D other e.1 e.2) ++ R) =
      some ([], (doc.map fun e => (e.1, valOf D other e.2)) ++ m) := by
  induction doc with
  | nil => exact hR
  | cons e doc ih =>
    obtain ⟨k, v⟩ := e
    have ih' := ih fun e he => h e (by simp [he])
    have hv : Spec.IsFloats v := h (k, v) (by simp)
    rw [List.flatMap_cons, List.append_assoc]
    generalize (doc.flatMap fun e => readLines D other e.1 e.2) ++ R = R' at ih' ⊢
    match v, hv with
    | .one x, hv =>
      obtain ⟨h1, h2⟩ := tok_ne hD other (x := x) hv
      simp only [readLines, List.singleton_append]
      rw [group, ih', Option.bind_some]
      simp only [List.map_cons, valOf]
      generalize tokOf D other x = t at h1 h2
      match t with
      | .plain [] => exact absurd rfl h1
      | .plain (c :: w) => rfl
      | .quoted w => rfl
      | .emptySeq => exact absurd rfl h2
    | .list [], _ =>
      simp only [readLines, List.singleton_append]
      rw [group, ih', Option.bind_some]
      rfl
    | .list (x :: l), _ =>
      have := group_items ((x :: l).map (tokOf D other)) _ _ _ ih'
      rw [List.map_map, List.append_nil] at this
      simp only [readLines, List.cons_append]
      rw [group]
      have e : (List.map (fun x => Line.item (tokOf D other x)) (x :: l)) =
          List.map (Line.item ∘ tokOf D other) (x :: l) := rfl
      rw [e, this]
      rfl

/-- The lines of an entry that is cut. -/
theorem entry_cut {D : Digits} (hD : Spec.ReprDigits D) (other : Str → Tag) {k : Str} {v : Obj} (hk : k ≠ [])
    (hk' : ∀ c ∈ k, keyChar c = true) (hv : Spec.IsFloats v) {a b : List Str} {l p : Str}
    (he : entryLines D other k v = a ++ l :: b) (hp : p <+: l) :
    (a ++ [p]).mapM line = none ∨ ∃ R m, (a ++ [p]).mapM line = some R ∧ group R = some ([], m) ∧
      (m = [] ∨ ∃ x, m = [(k, x)]) := by
  have one : ∀ s, blankFirst s = true → p <+: k ++ ':' :: s → ([] ++ [p]).mapM line = none ∨
      ∃ R m, ([] ++ [p]).mapM line = some R ∧ group R = some ([], m) ∧ (m = [] ∨ ∃ x, m = [(k, x)]) := by
    intro s hs hp
    rw [List.nil_append, List.mapM_cons]
    rcases line_key_cut hk hk' hs hp with h | h | ⟨t, h⟩
    · exact .inr ⟨[.blank], [], by rw [h]; rfl, rfl, .inl rfl⟩
    · left; rw [h]; rfl
    · right
      rw [h]
      match t with
      | .plain [] => exact ⟨_, [(k, .null)], rfl, rfl, .inr ⟨_, rfl⟩⟩
      | .plain (c :: w) => exact ⟨_, [(k, .scalar (.plain (c :: w)))], rfl, rfl, .inr ⟨_, rfl⟩⟩
      | .quoted w => exact ⟨_, [(k, .scalar (.quoted w))], rfl, rfl, .inr ⟨_, rfl⟩⟩
      | .emptySeq => exact ⟨_, [(k, .seq [])], rfl, rfl, .inr ⟨_, rfl⟩⟩
  have single : ∀ x : Str, [x] = a ++ l :: b → a = [] ∧ l = x := by
    intro x h
    cases a with
    | nil => exact ⟨rfl, (List.cons.inj h).1.symm⟩
    | cons y a => simp at h
  match v, hv with
  | .one x, hv =>
    obtain ⟨rfl, rfl⟩ := single _ he
    refine one (' ' :: scalarText D other x) (by simp [blankFirst]) ?_
    rw [List.append_assoc] at hp
    exact hp
  | .list [], _ =>
    obtain ⟨rfl, rfl⟩ := single _ he
    exact one [' ', '[', ']'] (by decide) hp
  | .list (x :: xs), hv =>
    rw [entryLines] at he
    · cases a with
      | nil =>
        obtain ⟨rfl, -⟩ := List.cons.inj he
        exact one [] (by decide) hp
      | cons y a =>
        obtain ⟨rfl, he'⟩ := List.cons.inj he
        replace he : _ = a ++ l :: b := he'
        clear he'
        obtain ⟨l1, l2, h1, h2, h3⟩ := List.map_eq_append_iff.1 he
        obtain ⟨z, l3, rfl, rfl, h4⟩ := List.map_eq_cons_iff.1 h3
        have hl : line (k ++ ":".toList) = some (.key k (.plain [])) := by
          rw [show k ++ ":".toList = k ++ ':' :: [] from rfl, line_key hk hk' (by decide)]
          rfl
        have items : a.mapM line = some ((l1.map (tokOf D other)).map .item) := by
          have hin : ∀ x ∈ l1, Spec.IsFloat x := fun x hx => hv x (by rw [h1]; simp [hx])
          rw [← h2]
          clear h1 h2 he
          induction l1 with
          | nil => rfl
          | cons x l1 ih =>
            have hl : line ("- ".toList ++ scalarText D other x) = some (.item (tokOf D other x)) := by
              rw [show "- ".toList ++ scalarText D other x = '-' :: ' ' :: scalarText D other x from rfl,
                line_item (by simp [blankFirst]), value_scalar hD other (hin x (by simp))]
              rfl
            rw [List.map_cons, List.mapM_cons, hl, ih fun y hy => hin y (by simp [hy])]
            rfl
        have fin : ∀ (y : Line) (toks : List Tok), line p = some y → group [y] = some (toks, []) →
            ∃ R m, ((k ++ ":".toList) :: a ++ [p]).mapM line = some R ∧ group R = some ([], m) ∧
              (m = [] ∨ ∃ x, m = [(k, x)]) := by
          intro y toks hy hg
          have hm : (a ++ [p]).mapM line = some ((l1.map (tokOf D other)).map .item ++ [y]) :=
            mapM_line_append items (by rw [List.mapM_cons, hy]; rfl)
          refine ⟨.key k (.plain []) :: ((l1.map (tokOf D other)).map .item ++ [y]),
            [(k, if (l1.map (tokOf D other) ++ toks).isEmpty then .null else .seq (l1.map (tokOf D other) ++ toks))], ?_,
            ?_, .inr ⟨_, rfl⟩⟩
          · rw [List.cons_append, List.mapM_cons, hl, hm]
            rfl
          · rw [group, group_items _ _ _ _ hg]
            rfl
        rcases line_item_cut (s := ' ' :: scalarText D other z) (by simp [blankFirst]) hp with h | h | ⟨t, h⟩
        · exact .inr (fin _ [] h rfl)
        · left
          rw [List.cons_append, List.mapM_cons, hl, List.mapM_append, items, List.mapM_cons, h]
          rfl
        · exact .inr (fin _ [t] h rfl)
    · simp

/-! ## The document -/

theorem objOf_valOf {rd : ℝ → Fl} (hrd : Spec.Reader rd) {D : Digits} (hD : Spec.ReprDigits D) (other : Str → Tag) (v : Obj)
    (hv : Spec.IsFloats v) : objOf rd other (valOf D other v) = some v := by
  cases v with
  | one x =>
    simp only [valOf, objOf, scalarOf_tok hrd hD other (x := x) hv]
    rfl
  | list l =>
    have : (l.map (tokOf D other)).mapM (scalarOf rd other) = some l := by
      revert hv
      induction l with
      | nil => intro _; rfl
      | cons x l ih =>
        intro hv
        rw [List.map_cons, List.mapM_cons, scalarOf_tok hrd hD other (hv x (by simp)),
          ih fun y hy => hv y (by simp [hy])]
        rfl
    simp only [valOf, objOf, this]
    rfl

theorem get_mem {m : List (Str × Val)} (hn : (m.map Prod.fst).Nodup) {k : Str} {w : Val} (h : (k, w) ∈ m) :
    get m k = some w := by
  have h' : (k, w) ∈ m.reverse := List.mem_reverse.2 h
  have hn'' : (m.reverse.map Prod.fst).Nodup := by rw [List.map_reverse]; exact List.nodup_reverse.2 hn
  unfold Yaml.get
  generalize m.reverse = l at h' hn''
  induction l with
  | nil => cases h'
  | cons e l ih =>
    rw [List.map_cons, List.nodup_cons] at hn''
    rcases List.mem_cons.1 h' with rfl | h'
    · rw [List.find?_cons_of_pos (by simp)]
      rfl
    · rw [List.find?_cons_of_neg, ih h' hn''.2]
      simp only [decide_eq_true_eq]
      intro he
      exact hn''.1 (List.mem_map.2 ⟨_, h', he.symm⟩)

theorem mem_of_get {m : List (Str × Val)} {k : Str} {w : Val} (h : get m k = some w) : (k, w) ∈ m := by
  unfold Yaml.get at h
  obtain ⟨e, h1, h2⟩ := Option.map_eq_some_iff.1 h
  have h3 := List.mem_of_find?_eq_some h1
  have h4 := List.find?_some h1
  simp only [decide_eq_true_eq] at h4
  rw [← h4, ← h2]
  exact List.mem_reverse.1 h3

theorem docOk_floats {other : Str → Tag} {doc : List (Str × Obj)} (h : Spec.DocOk other doc) :
    ∀ e ∈ doc, Spec.IsFloats e.2 := by
  intro e he
  have hv := h.val e he
  obtain ⟨k, v⟩ := e
  cases v with
  | one x => exact (plain_writable (D := fun _ => ([], 0)) (other := other) hv).2
  | list l => exact fun x hx => (plain_writable (D := fun _ => ([], 0)) (other := other) (hv x hx)).2

theorem docOk_keys {other : Str → Tag} {doc : List (Str × Obj)} (h : Spec.DocOk other doc) :
    ∀ e ∈ doc, ∀ c ∈ e.1, keyChar c = true := by
  intro e he c hc
  simpa [keyChar] using (h.key e he).2.1 c hc

/-- The lines of the text. -/
noncomputable def infoLines (D : Digits) (other : Str → Tag) (d : List (Str × Obj)) : List Str :=
  "# pyoof relevant information".toList :: d.flatMap fun e => entryLines D other e.1 e.2

theorem dump_eq {D : Digits} {other : Str → Tag} {doc : List (Str × Obj)} {text : Str}
    (h : dump D other doc = some text) :
    text = (infoLines D other (doc.mergeSort keyLe)).flatMap fun l => l ++ ['\n'] := by
  unfold dump at h
  split_ifs at h
  exact (Option.some.inj h).symm

theorem info_visible {D : Digits} (hD : Spec.ReprDigits D) {other : Str → Tag} {doc : List (Str × Obj)}
    (h : Spec.DocOk other doc) : ∀ l ∈ infoLines D other doc, ∀ c ∈ l, Spec.Visible c := by
  intro l hl c hc
  simp only [infoLines, List.mem_cons, List.mem_flatMap] at hl
  rcases hl with rfl | ⟨e, he, hl⟩
  · have : ∀ d ∈ "# pyoof relevant information".toList, Spec.Visible d := by decide +kernel
    exact this c hc
  · exact entry_visible hD (docOk_keys h e he) (h.val e he) hl hc

theorem entries_mapM {D : Digits} (hD : Spec.ReprDigits D) {other : Str → Tag} {doc : List (Str × Obj)}
    (h : Spec.DocOk other doc) (m : List (Str × Obj)) (hm : ∀ e ∈ m, e ∈ doc) :
    (m.flatMap fun e => entryLines D other e.1 e.2).mapM line = some (m.flatMap fun e => readLines D other e.1 e.2) := by
  induction m with
  | nil => rfl
  | cons e m ih =>
    have he := hm e (by simp)
    rw [List.flatMap_cons, List.flatMap_cons]
    exact mapM_line_append (lines_entry hD other (h.key e he).1 (docOk_keys h e he) (docOk_floats h e he))
      (ih fun e he => hm e (by simp [he]))

theorem header_mapM : ["# pyoof relevant information".toList].mapM line = some [.blank] := by
  rw [List.mapM_cons, line_blank (by decide)]
  rfl

/-- A text that begins with complete lines, and ends with a part of one. -/
theorem load_cut {D : Digits} (hD : Spec.ReprDigits D) {other : Str → Tag} {doc : List (Str × Obj)}
    (h : Spec.DocOk other doc) (d1 : List (Str × Obj)) (e : Str × Obj) (d2 : List (Str × Obj)) (hd : doc = d1 ++ e :: d2)
    (a b : List Str) (l p : Str) (he : entryLines D other e.1 e.2 = a ++ l :: b) (hp : p <+: l) :
    load ((("# pyoof relevant information".toList :: ((d1.flatMap fun e => entryLines D other e.1 e.2) ++ a)).flatMap
      fun l => l ++ ['\n']) ++ p) =
    ((a ++ [p]).mapM line).bind fun R => (group R).bind fun q =>
      if q.1.isEmpty then some ((d1.map fun e => (e.1, valOf D other e.2)) ++ q.2) else none := by
  have hin1 : ∀ x ∈ d1, x ∈ doc := fun x hx => by rw [hd]; simp [hx]
  have hine : e ∈ doc := by rw [hd]; simp
  have hvis := info_visible hD h
  have hvl : ∀ c ∈ l, Spec.Visible c := hvis l (by
    simp only [infoLines, List.mem_cons, List.mem_flatMap]
    exact .inr ⟨e, hine, by rw [he]; simp⟩)
  have hpre : ∀ x ∈ "# pyoof relevant information".toList :: ((d1.flatMap fun e => entryLines D other e.1 e.2) ++ a),
      ∀ c ∈ x, Spec.Visible c := by
    intro x hx
    refine hvis x ?_
    simp only [infoLines, List.mem_cons, List.mem_append, List.mem_flatMap] at hx ⊢
    rcases hx with rfl | ⟨y, hy, hx⟩ | hx
    · exact .inl rfl
    · exact .inr ⟨y, hin1 y hy, hx⟩
    · exact .inr ⟨e, hine, by rw [he]; simp [hx]⟩
  unfold Yaml.load
  rw [if_pos, split_cut _ _ (fun l hl hc => visible_newline (hpre l hl _ hc) rfl)
    (fun hc => visible_newline (hvl _ (hp.subset hc)) rfl)]
  · rw [show "# pyoof relevant information".toList :: ((d1.flatMap fun e => entryLines D other e.1 e.2) ++ a) ++ [p] =
      ["# pyoof relevant information".toList] ++ ((d1.flatMap fun e => entryLines D other e.1 e.2) ++ (a ++ [p])) by simp]
    cases hR : (a ++ [p]).mapM line with
    | none =>
      rw [List.mapM_append, header_mapM, List.mapM_append, entries_mapM hD h d1 hin1, hR]
      rfl
    | some R =>
      rw [mapM_line_append header_mapM (mapM_line_append (entries_mapM hD h d1 hin1) hR)]
      rcases entry_cut hD other (h.key e hine).1 (docOk_keys h e hine) (docOk_floats h e hine) he hp with h' | ⟨R', m, h1, h2, -⟩
      · rw [h'] at hR; cases hR
      · rw [h1] at hR
        obtain rfl := Option.some.inj hR
        rw [Option.bind_some, Option.bind_some, List.singleton_append, group,
          group_entries hD other d1 (fun e he => docOk_floats h e (hin1 e he)) R' m h2, h2]
        rfl
  · rw [List.all_eq_true]
    intro c hc
    rcases List.mem_append.1 hc with hc | hc
    · obtain ⟨l', hl, hc⟩ := List.mem_flatMap.1 hc
      rcases List.mem_append.1 hc with hc | hc
      · exact visible_ok (hpre l' hl c hc)
      · rw [List.mem_singleton.1 hc]; decide
    · exact visible_ok (hvl c (hp.subset hc))

theorem load_full {D : Digits} (hD : Spec.ReprDigits D) {other : Str → Tag} {doc : List (Str × Obj)}
    (h : Spec.DocOk other doc) :
    load ((infoLines D other doc).flatMap fun l => l ++ ['\n']) = some (doc.map fun e => (e.1, valOf D other e.2)) := by
  have hvis := info_visible hD h
  have := split_cut (infoLines D other doc) [] (fun l hl hc => visible_newline (hvis l hl _ hc) rfl) (by simp)
  rw [List.append_nil] at this
  unfold Yaml.load
  rw [if_pos, this]
  · have h1 : [([] : Str)].mapM line = some [.blank] := rfl
    rw [show infoLines D other doc ++ [[]] = ["# pyoof relevant information".toList] ++
      ((doc.flatMap fun e => entryLines D other e.1 e.2) ++ [[]]) from rfl,
      mapM_line_append header_mapM (mapM_line_append (entries_mapM hD h doc fun _ h => h) h1), Option.bind_some,
      List.singleton_append, group, group_entries hD other doc (docOk_floats h) [.blank] [] rfl]
    simp [step]
  · rw [List.all_eq_true]
    intro c hc
    obtain ⟨l', hl, hc⟩ := List.mem_flatMap.1 hc
    rcases List.mem_append.1 hc with hc | hc
    · exact visible_ok (hvis l' hl c hc)
    · rw [List.mem_singleton.1 hc]; decide

/-- What is loaded from a first part of the text. -/
theorem load_prefix {D : Digits} (hD : Spec.ReprDigits D) {other : Str → Tag} {doc : List (Str × Obj)}
    (h : Spec.DocOk other doc) {t : Str} (ht : t <+: (infoLines D other doc).flatMap fun l => l ++ ['\n']) :
    load t = none ∨ ∃ d1 d2 m, doc = d1 ++ d2 ∧
      load t = some ((d1.map fun e => (e.1, valOf D other e.2)) ++ m) ∧
      (m = [] ∨ ∃ e d3 x, d2 = e :: d3 ∧ m = [(e.1, x)]) := by
  rcases prefix_lines ht with rfl | ⟨pre, l, post, p, e1, hp, rfl⟩
  · exact .inr ⟨doc, [], [], by simp, by rw [load_full hD h]; simp, .inl rfl⟩
  cases pre with
  | nil =>
    obtain ⟨rfl, -⟩ := List.cons.inj e1
    right
    refine ⟨[], doc, [], rfl, ?_, .inl rfl⟩
    have hb : afterBlank p = true := by
      rcases List.prefix_cons_iff.1 hp with rfl | ⟨r, rfl, -⟩
      · rfl
      · rfl
    have hs := split_cut [] p (by simp) (fun hc => by
      have : '\n' ∉ "# pyoof relevant information".toList := by decide
      exact this (hp.subset hc))
    unfold Yaml.load
    rw [if_pos, hs]
    · rw [List.nil_append, List.mapM_cons, line_blank hb]
      rfl
    · rw [List.all_eq_true]
      intro c hc
      have : ∀ c ∈ "# pyoof relevant information".toList, okChar c = true := by decide
      exact this c (hp.subset hc)
  | cons y pre =>
    obtain ⟨rfl, e2⟩ := List.cons.inj e1
    obtain ⟨d1, e, d2, a, b, hd, he, rfl⟩ := flatMap_cut _ e2
    have hine : e ∈ doc := by rw [hd]; simp
    rw [load_cut hD h d1 e d2 hd a b l p he hp]
    rcases entry_cut hD other (h.key e hine).1 (docOk_keys h e hine) (docOk_floats h e hine) he hp with h' | ⟨R, m, h1, h2, h3⟩
    · left; rw [h']; rfl
    · right
      refine ⟨d1, e :: d2, m, hd, by rw [h1, Option.bind_some, h2]; rfl, ?_⟩
      rcases h3 with rfl | ⟨x, rfl⟩
      · exact .inl rfl
      · exact .inr ⟨e, d2, x, rfl, rfl⟩

theorem docOk_perm {other : Str → Tag} {doc doc' : List (Str × Obj)} (h : Spec.DocOk other doc) (hp : doc'.Perm doc) :
    Spec.DocOk other doc' :=
  ⟨fun e he => h.key e (hp.mem_iff.1 he), fun e he => h.val e (hp.mem_iff.1 he), (hp.map Prod.fst).nodup_iff.2 h.nodup⟩

theorem doc_sorted (doc : List (Str × Obj)) :
    (doc.mergeSort keyLe).Pairwise fun a b => a.1.map Char.toNat ≤ b.1.map Char.toNat := by
  have := List.pairwise_mergeSort (le := keyLe) (fun a b c h1 h2 => by
    simp only [keyLe, decide_eq_true_eq] at h1 h2 ⊢
    exact le_trans h1 h2) (fun a b => by
    simp only [keyLe, Bool.or_eq_true, decide_eq_true_eq]
    exact le_total _ _) doc
  exact this.imp fun h => by simpa [keyLe] using h

/-- The entries before the last one that is loaded are exact. -/
theorem prefix_get {D : Digits} {other : Str → Tag} {d : List (Str × Obj)} (h : Spec.DocOk other d)
    {d1 d2 : List (Str × Obj)} {m : List (Str × Val)} (hd : d = d1 ++ d2)
    (hm : m = [] ∨ ∃ e d3 x, d2 = e :: d3 ∧ m = [(e.1, x)]) :
    ((d1.map fun e => (e.1, valOf D other e.2)) ++ m).map Prod.fst <+: d.map Prod.fst ∧
    ∀ e ∈ d1, get ((d1.map fun e => (e.1, valOf D other e.2)) ++ m) e.1 = some (valOf D other e.2) := by
  have hpre : ((d1.map fun e => (e.1, valOf D other e.2)) ++ m).map Prod.fst <+: d.map Prod.fst := by
    rw [hd, List.map_append, List.map_map, List.map_append]
    refine List.prefix_append_right_inj _ |>.2 ?_
    rcases hm with rfl | ⟨e, d3, x, rfl, rfl⟩
    · exact List.nil_prefix
    · exact ⟨d3.map Prod.fst, rfl⟩
  refine ⟨hpre, fun e he => get_mem (h.nodup.sublist hpre.sublist) ?_⟩
  exact List.mem_append_left _ (List.mem_map.2 ⟨e, he, rfl⟩)

/-! ## The entries that are found -/

/-- **C141**. From every first part of the file that is accepted: there are no other keys than those of the run, and
every entry before one that is found, in the order of the keys, is exact. -/
theorem C141_before {rd : ℝ → Fl} (hrd : Spec.Reader rd) {D : Digits} (hD : Spec.ReprDigits D) (other : Str → Tag)
    {doc : List (Str × Obj)} (h : Spec.DocOk other doc) {text t : Str} (hw : dump D other doc = some text) (ht : t <+: text)
    {m : List (Str × Val)} (hl : load t = some m) :
    (∀ k, get m k ≠ none → k ∈ doc.map Prod.fst) ∧
    ∀ e ∈ doc, ∀ k, get m k ≠ none → Spec.KeyBefore e.1 k → Spec.infoAt rd other m e.1 = some e.2 := by
  rw [dump_eq hw] at ht
  have hperm := List.mergeSort_perm doc keyLe
  have hs := doc_sorted doc
  have h' := docOk_perm h hperm
  generalize doc.mergeSort keyLe = d at ht hperm hs h'
  rcases load_prefix hD h' ht with hn | ⟨d1, d2, m', hd, hl', hm⟩
  · rw [hn] at hl; cases hl
  rw [hl'] at hl
  obtain rfl := Option.some.inj hl
  obtain ⟨hpre, hget⟩ := prefix_get (D := D) h' hd hm
  have hkey : ∀ k, get ((d1.map fun e => (e.1, valOf D other e.2)) ++ m') k ≠ none →
      k ∈ ((d1.map fun e => (e.1, valOf D other e.2)) ++ m').map Prod.fst := by
    intro k hk
    obtain ⟨w, hw⟩ := Option.ne_none_iff_exists'.1 hk
    exact List.mem_map.2 ⟨_, mem_of_get hw, rfl⟩
  refine ⟨fun k hk => (hperm.map Prod.fst).mem_iff.1 (hpre.subset (hkey k hk)), fun e he k hk hb => ?_⟩
  have hed : e ∈ d := hperm.mem_iff.2 he
  have h1 : e ∈ d1 := by
    rw [hd] at hed
    rcases List.mem_append.1 hed with h1 | h2
    · exact h1
    exfalso
    have hk' := hkey k hk
    rw [List.map_append, List.mem_append, List.map_map] at hk'
    rw [hd, List.pairwise_append] at hs
    rcases hk' with hk' | hk'
    · obtain ⟨f, hf, rfl⟩ := List.mem_map.1 hk'
      exact absurd hb (not_lt.2 (hs.2.2 f hf e h2))
    · rcases hm with rfl | ⟨f, d3, x, rfl, rfl⟩
      · cases hk'
      · obtain rfl : k = f.1 := by simpa using hk'
        rcases List.mem_cons.1 h2 with rfl | h2
        · exact absurd hb (lt_irrefl _)
        · exact absurd hb (not_lt.2 ((List.pairwise_cons.1 hs.2.1).1 e h2))
  rw [Spec.infoAt, hget e h1, Option.bind_some]
  exact objOf_valOf hrd hD other e.2 (docOk_floats h e he)

/-- **C141**. At most one of the entries that are found is not exact. -/
theorem C141_one {rd : ℝ → Fl} (hrd : Spec.Reader rd) {D : Digits} (hD : Spec.ReprDigits D) (other : Str → Tag)
    {doc : List (Str × Obj)} (h : Spec.DocOk other doc) {text t : Str} (hw : dump D other doc = some text) (ht : t <+: text)
    {m : List (Str × Val)} (hl : load t = some m) {e f : Str × Obj} (he : e ∈ doc) (hf : f ∈ doc) (hef : e.1 ≠ f.1)
    (he' : get m e.1 ≠ none) (hf' : get m f.1 ≠ none) :
    Spec.infoAt rd other m e.1 = some e.2 ∨ Spec.infoAt rd other m f.1 = some f.2 := by
  have hinj : e.1.map Char.toNat ≠ f.1.map Char.toNat := fun hh =>
    hef ((List.map_injective_iff.2 fun a b hab => Char.toNat_inj.1 hab) hh)
  rcases lt_or_gt_of_ne hinj with hlt | hlt
  · exact .inl ((C141_before hrd hD other h hw ht hl).2 e he f.1 hf' hlt)
  · exact .inr ((C141_before hrd hD other h hw ht hl).2 f hf e.1 he' hlt)

/-- **C141**. Without its last line feed the file is as good as complete. -/
theorem C141_complete {rd : ℝ → Fl} (hrd : Spec.Reader rd) {D : Digits} (hD : Spec.ReprDigits D) (other : Str → Tag)
    {doc : List (Str × Obj)} (h : Spec.DocOk other doc) {text t : Str} (hw : dump D other doc = some text)
    (ht : text = t ++ ['\n']) :
    ∃ m, load t = some m ∧ ∀ e ∈ doc, Spec.infoAt rd other m e.1 = some e.2 := by
  have htext := dump_eq hw
  have hperm := List.mergeSort_perm doc keyLe
  have h' := docOk_perm h hperm
  generalize doc.mergeSort keyLe = d at htext hperm h'
  have hvis := info_visible hD h'
  obtain ⟨pre, l, hpl⟩ : ∃ pre l, infoLines D other d = pre ++ [l] := by
    rcases List.eq_nil_or_concat (infoLines D other d) with h0 | ⟨pre, l, h0⟩
    · exact absurd h0 (by simp [infoLines])
    · exact ⟨pre, l, by rw [h0, List.concat_eq_append]⟩
  have het : t = (pre.flatMap fun l => l ++ ['\n']) ++ l := by
    rw [ht, hpl, List.flatMap_append, List.flatMap_singleton, ← List.append_assoc] at htext
    exact List.append_cancel_right htext
  have hload : load t = some (d.map fun e => (e.1, valOf D other e.2)) := by
    have hmem : ∀ x ∈ pre, x ∈ infoLines D other d := fun x hx => by rw [hpl]; simp [hx]
    have hlm : l ∈ infoLines D other d := by rw [hpl]; simp
    unfold Yaml.load
    rw [if_pos, het, split_cut pre l (fun x hx hc => visible_newline (hvis x (hmem x hx) _ hc) rfl)
      (fun hc => visible_newline (hvis l hlm _ hc) rfl), ← hpl]
    · have := group_entries hD other d (docOk_floats h') [] [] rfl
      rw [List.append_nil] at this
      rw [show infoLines D other d = ["# pyoof relevant information".toList] ++
        (d.flatMap fun e => entryLines D other e.1 e.2) from rfl,
        mapM_line_append header_mapM (entries_mapM hD h' d fun _ h => h), Option.bind_some,
        List.singleton_append, group, this]
      simp [step]
    · rw [List.all_eq_true]
      intro c hc
      rw [het] at hc
      rcases List.mem_append.1 hc with hc | hc
      · obtain ⟨x, hx, hc⟩ := List.mem_flatMap.1 hc
        rcases List.mem_append.1 hc with hc | hc
        · exact visible_ok (hvis x (hmem x hx) c hc)
        · rw [List.mem_singleton.1 hc]; decide
      · exact visible_ok (hvis l hlm c hc)
  refine ⟨_, hload, fun e he => ?_⟩
  have := (prefix_get (D := D) h' (List.append_nil d).symm (.inl rfl)).2 e (hperm.mem_iff.2 he)
  rw [List.append_nil] at this
  rw [Spec.infoAt, this, Option.bind_some]
  exact objOf_valOf hrd hD other e.2 (docOk_floats h e he)

/-- **C141**. The last entry may be wrong, and nobody is told: a number between zero and one that is the last entry is
read, from some first part of the file, as an integer, with all of the other entries exact. -/
theorem C141_wrong {rd : ℝ → Fl} (hrd : Spec.Reader rd) {D : Digits} (hD : Spec.ReprDigits D) (other : Str → Tag)
    {doc : List (Str × Obj)} (h : Spec.DocOk other doc) {text : Str} (hw : dump D other doc = some text) {k : Str} {x : ℝ}
    (hx0 : 0 < x) (hx1 : x < 1) (hk : (k, .one (.float (.fin x))) ∈ doc)
    (hlast : ∀ e ∈ doc, e.1 ≠ k → Spec.KeyBefore e.1 k) :
    ∃ t m, ∃ z : ℤ, t <+: text ∧ load t = some m ∧ Spec.infoAt rd other m k = some (.one (.int z)) ∧ (z : ℝ) ≠ x ∧
      ∀ e ∈ doc, e.1 ≠ k → Spec.infoAt rd other m e.1 = some e.2 := by
  have htext := dump_eq hw
  have hperm := List.mergeSort_perm doc keyLe
  have hs := doc_sorted doc
  have h' := docOk_perm h hperm
  generalize doc.mergeSort keyLe = d at htext hperm hs h'
  obtain ⟨d1, d2, hd⟩ := List.append_of_mem (hperm.mem_iff.2 hk)
  obtain rfl : d2 = [] := by
    cases d2 with
    | nil => rfl
    | cons f d2 =>
      exfalso
      have hf : f ∈ d := by rw [hd]; simp
      have hne : f.1 ≠ k := by
        have := h'.nodup
        rw [hd, List.map_append, List.nodup_append] at this
        have := (List.nodup_cons.1 this.2.1).1
        intro hfk
        exact this (by simp [hfk])
      rw [hd, List.pairwise_append] at hs
      exact absurd (hlast f (hperm.mem_iff.1 hf) hne) (not_lt.2 ((List.pairwise_cons.1 hs.2.1).1 f (by simp)))
  have hxd : Spec.IsDouble x := docOk_floats h _ hk
  obtain ⟨n, hn, hp, hsign, hft, -⟩ := floatText_fin hD hxd
  rw [if_neg (not_lt.2 hx0.le)] at hsign
  obtain ⟨c, ip, hip⟩ := List.exists_cons_of_ne_nil hn.ip
  have hdec : decInt (c.val : ℤ) = [digitChar c.val] := by
    have : ∀ c : Fin 10, decInt (c.val : ℤ) = [digitChar c.val] := by decide
    exact this c
  have htx : [digitChar c.val] <+: floatText D (.fin x) := by
    rw [hft]
    exact ⟨_, by simp only [Spec.Numeral.text, hsign, hip, Spec.signText, Spec.digs, List.map_cons, List.nil_append,
      List.cons_append]; rfl⟩
  have hlines : entryLines D other k (.one (.int c.val)) = [k ++ ": ".toList ++ [digitChar c.val]] := by
    rw [entryLines, scalarText, hdec]
  have hke := h'.key _ (show (k, Obj.one (.float (.fin x))) ∈ d by rw [hd]; simp)
  have hkc := docOk_keys h' _ (show (k, Obj.one (.float (.fin x))) ∈ d by rw [hd]; simp)
  have hcut := load_cut hD h' d1 (k, .one (.float (.fin x))) [] hd [] []
    (k ++ ": ".toList ++ floatText D (.fin x)) (k ++ ": ".toList ++ [digitChar c.val]) rfl
    ((List.prefix_append_right_inj _).2 htx)
  have hR := lines_entry hD other (k := k) (v := .one (.int c.val)) hke.1 hkc trivial
  have hG := group_entries hD other [(k, .one (.int c.val))] (by simp [Spec.IsFloats, Spec.IsFloat]) [] [] rfl
  rw [hlines] at hR
  rw [List.flatMap_singleton, List.append_nil, List.append_nil] at hG
  rw [List.nil_append, hR, Option.bind_some, hG] at hcut
  obtain ⟨hpre, hget⟩ := prefix_get (D := D) h' hd (m := [(k, valOf D other (.one (.int c.val)))])
    (.inr ⟨_, _, _, rfl, rfl⟩)
  refine ⟨_, _, c.val, ?_, hcut, ?_, ?_, ?_⟩
  · rw [htext, hd, infoLines, List.flatMap_append, List.append_nil, List.flatMap_singleton]
    rw [← List.cons_append, List.flatMap_append, List.prefix_append_right_inj]
    simp only [entryLines, scalarText, List.flatMap_singleton]
    refine List.IsPrefix.trans ?_ (List.prefix_append _ _)
    exact (List.prefix_append_right_inj _).2 htx
  · refine Eq.trans (congrArg (fun o => Option.bind o (objOf rd other)) (get_mem (h'.nodup.sublist hpre.sublist)
      (List.mem_append_right _ (List.mem_singleton.2 rfl)))) ?_
    exact objOf_valOf hrd hD other (.one (.int c.val)) trivial
  · intro hz
    rw [← hz] at hx0 hx1
    have h1 : (0 : ℤ) < (c.val : ℤ) := by exact_mod_cast hx0
    have h2 : (c.val : ℤ) < 1 := by exact_mod_cast hx1
    omega
  · intro e he hne
    have h1 : e ∈ d1 := by
      have := hperm.mem_iff.2 he
      rw [hd] at this
      rcases List.mem_append.1 this with h1 | h2
      · exact h1
      · rw [List.mem_singleton.1 h2] at hne
        exact absurd rfl hne
    refine Eq.trans (congrArg (fun o => Option.bind o (objOf rd other)) (hget e h1)) ?_
    exact objOf_valOf hrd hD other e.2 (docOk_floats h e he)

/-! ## The file of a run -/

theorem infoDoc_ok {other : Str → Tag} (ho : ∀ k ∈ Spec.infoKeys, other k.toList = .str) {i : Info} {box : Scalar}
    (h : Spec.InfoOk i box) : Spec.DocOk other (infoDoc i box) := by
  have hres : ∀ k ∈ Spec.infoKeys, resolve other k.toList = .str := by
    intro k hk
    have h1 : ∀ k ∈ Spec.infoKeys, ¬ (k.toList = [] ∨ k.toList = "~".toList ∨ k.toList = "null".toList ∨
        k.toList = "Null".toList ∨ k.toList = "NULL".toList) ∧ ¬ isInt k.toList = true ∧
        ¬ (isFloat k.toList || isSpecial k.toList) = true := by decide +kernel
    obtain ⟨a, b, c⟩ := h1 k hk
    unfold resolve
    rw [if_neg a, if_neg b, if_neg c, ho k hk]
  have hkeys : ∀ e ∈ infoDoc i box, ∃ k ∈ Spec.infoKeys, e.1 = k.toList := by
    intro e he
    simp only [infoDoc, List.mem_cons, List.not_mem_nil, or_false] at he
    rcases he with rfl | rfl | rfl | rfl | rfl | rfl | rfl | rfl | rfl | rfl | rfl | rfl | rfl | rfl <;>
      exact ⟨_, by simp [Spec.infoKeys], rfl⟩
  refine ⟨?_, ?_, ?_⟩
  · intro e he
    obtain ⟨k, hk, hek⟩ := hkeys e he
    have : ∀ k ∈ Spec.infoKeys, k.toList ≠ [] ∧ (∀ c ∈ k.toList, c.isAlphanum = true ∨ c = '_') ∧
        k.toList.length ≤ 80 := by decide +kernel
    obtain ⟨a, b, c⟩ := this k hk
    rw [hek]
    exact ⟨a, b, c, hres k hk⟩
  · intro e he
    simp only [infoDoc, List.mem_cons, List.not_mem_nil, or_false] at he
    rcases he with rfl | rfl | rfl | rfl | rfl | rfl | rfl | rfl | rfl | rfl | rfl | rfl | rfl | rfl
    · exact h.telName
    · exact h.telOpd
    · exact h.pr
    · exact h.name
    · exact h.obsObject
    · exact h.obsDate
    · intro x hx
      obtain ⟨y, hy, rfl⟩ := List.mem_map.1 hx
      exact h.dz y hy
    · exact h.wavel
    · exact h.frequency
    · exact h.illumination
    · exact h.meanel
    · trivial
    · exact h.box
    · intro x hx
      obtain ⟨y, hy, rfl⟩ := List.mem_map.1 hx
      exact h.snr y hy
  · have : (infoDoc i box).map Prod.fst = Spec.infoKeys.map String.toList := rfl
    rw [this]
    decide +kernel

/-- **C141**. If `table_pyoof_out` finds the name of the telescope in a half-written file, then the name, the object,
the date, the elevation and the signal-to-noise ratios that it puts beside it are exact. -/
theorem C141_table {rd : ℝ → Fl} (hrd : Spec.Reader rd) {D : Digits} (hD : Spec.ReprDigits D) (other : Str → Tag)
    (ho : ∀ k ∈ Spec.infoKeys, other k.toList = .str) (i : Info) (box : Scalar) (h : Spec.InfoOk i box) {text t : Str}
    (hw : dump D other (infoDoc i box) = some text) (ht : t <+: text) {m : List (Str × Val)} (hl : load t = some m)
    (hf : get m "tel_name".toList ≠ none) :
    Spec.infoAt rd other m "name".toList = some (.one (.str i.name)) ∧
    Spec.infoAt rd other m "obs_object".toList = some (.one (.str i.obsObject)) ∧
    Spec.infoAt rd other m "obs_date".toList = some (.one (.str i.obsDate)) ∧
    Spec.infoAt rd other m "meanel".toList = some (.one (.float (.fin i.meanel))) ∧
    Spec.infoAt rd other m "snr".toList = some (.list (i.snr.map .float)) := by
  have g : ∀ {k : Str} {v : Obj}, (k, v) ∈ infoDoc i box → Spec.KeyBefore k "tel_name".toList →
      Spec.infoAt rd other m k = some v := fun hk hb =>
    (C141_before hrd hD other (infoDoc_ok ho h) hw ht hl).2 _ hk _ hf hb
  refine ⟨g ?_ ?_, g ?_ ?_, g ?_ ?_, g ?_ ?_, g ?_ ?_⟩ <;> first | (simp [infoDoc]; done) | (unfold Spec.KeyBefore; decide)

/-- **C141**. If `plot_fit_path` finds the wavelength in a half-written file, then the thirteen other entries are
exact. -/
theorem C141_plot {rd : ℝ → Fl} (hrd : Spec.Reader rd) {D : Digits} (hD : Spec.ReprDigits D) (other : Str → Tag)
    (ho : ∀ k ∈ Spec.infoKeys, other k.toList = .str) (i : Info) (box : Scalar) (h : Spec.InfoOk i box) {text t : Str}
    (hw : dump D other (infoDoc i box) = some text) (ht : t <+: text) {m : List (Str × Val)} (hl : load t = some m)
    (hf : get m "wavel".toList ≠ none) :
    ∀ e ∈ infoDoc i box, e.1 ≠ "wavel".toList → Spec.infoAt rd other m e.1 = some e.2 := by
  intro e he hne
  refine (C141_before hrd hD other (infoDoc_ok ho h) hw ht hl).2 e he _ hf ?_
  have hk : e.1 ∈ (infoDoc i box).map Prod.fst := List.mem_map.2 ⟨_, he, rfl⟩
  have : ∀ k ∈ Spec.infoKeys.map String.toList, k ≠ "wavel".toList →
      k.map Char.toNat < "wavel".toList.map Char.toNat := by decide +kernel
  exact this e.1 hk hne

/-- **C141**. The wavelength itself may be wrong: for every wavelength below one metre there is a first part of the
file with all of the keys in which the wavelength is an integer. -/
theorem C141_wavel {rd : ℝ → Fl} (hrd : Spec.Reader rd) {D : Digits} (hD : Spec.ReprDigits D) (other : Str → Tag)
    (ho : ∀ k ∈ Spec.infoKeys, other k.toList = .str) (i : Info) (box : Scalar) (h : Spec.InfoOk i box) {text : Str}
    (hw : dump D other (infoDoc i box) = some text) (h0 : 0 < i.wavel) (h1 : i.wavel < 1) :
    ∃ t m, ∃ z : ℤ, t <+: text ∧ load t = some m ∧ Spec.infoAt rd other m "wavel".toList = some (.one (.int z)) ∧
      (z : ℝ) ≠ i.wavel ∧ ∀ e ∈ infoDoc i box, e.1 ≠ "wavel".toList → Spec.infoAt rd other m e.1 = some e.2 := by
  refine C141_wrong hrd hD other (infoDoc_ok ho h) hw h0 h1 (by simp [infoDoc]) fun e he hne => ?_
  have hk : e.1 ∈ (infoDoc i box).map Prod.fst := List.mem_map.2 ⟨_, he, rfl⟩
  have : ∀ k ∈ Spec.infoKeys.map String.toList, k ≠ "wavel".toList →
      k.map Char.toNat < "wavel".toList.map Char.toNat := by decide +kernel
  exact this e.1 hk hne

/-- An observation at 1/128 m: there is a first part of its file that gives an integer for the wavelength, and the
date and the ratios as they were. -/
example : ∃ rd D, Spec.Reader rd ∧ Spec.ReprDigits D ∧ ∃ text,
    dump D (fun w => if w = "2018-03-14T12:00:00".toList then .other else .str) (infoDoc ⟨"effelsberg".toList,
      "telescope: 1".toList, 50, "S9mm_0397".toList, "3C 84, the 'core'".toList, "2018-03-14T12:00:00".toList,
      [-1 / 4, 0, 1 / 4], 1 / 128, 1 / 2 ^ 40, "pedestal".toList, 3 / 4, 256, 5, [.fin 100, .nan, .pinf]⟩
      (.int 5)) = some text ∧
    ∃ t m, ∃ z : ℤ, t <+: text ∧ load t = some m ∧
      Spec.infoAt rd (fun w => if w = "2018-03-14T12:00:00".toList then .other else .str) m "wavel".toList =
        some (.one (.int z)) ∧
      Spec.infoAt rd (fun w => if w = "2018-03-14T12:00:00".toList then .other else .str) m "obs_date".toList =
        some (.one (.str "2018-03-14T12:00:00".toList)) ∧
      Spec.infoAt rd (fun w => if w = "2018-03-14T12:00:00".toList then .other else .str) m "snr".toList =
        some (.list [.float (.fin 100), .float .nan, .float .pinf]) := by
  obtain ⟨rd, hrd⟩ := reader_exists
  obtain ⟨D, hD⟩ := digits_exist
  have d50 : Spec.IsDouble 50 := ⟨50, 0, by norm_num, by norm_num, by norm_num, by norm_num⟩
  have d100 : Spec.IsDouble 100 := ⟨100, 0, by norm_num, by norm_num, by norm_num, by norm_num⟩
  have d0 : Spec.IsDouble 0 := ⟨0, 0, by norm_num, by norm_num, by norm_num, by norm_num⟩
  have d4 : Spec.IsDouble (1 / 4) := ⟨1, -2, by norm_num, by norm_num, by norm_num, by norm_num⟩
  have d4' : Spec.IsDouble (-1 / 4) := ⟨-1, -2, by norm_num, by norm_num, by norm_num, by norm_num⟩
  have d34 : Spec.IsDouble (3 / 4) := ⟨3, -2, by norm_num, by norm_num, by norm_num, by norm_num⟩
  have d128 : Spec.IsDouble (1 / 128) := ⟨1, -7, by norm_num, by norm_num, by norm_num, by norm_num⟩
  have d40 : Spec.IsDouble (1 / 2 ^ 40) := ⟨1, -40, by norm_num, by norm_num, by norm_num, by norm_num⟩
  have ho : ∀ k ∈ Spec.infoKeys, (fun w : Str => if w = "2018-03-14T12:00:00".toList then Tag.other else .str) k.toList =
      .str := by decide
  have hok : Spec.InfoOk ⟨"effelsberg".toList,
      "telescope: 1".toList, 50, "S9mm_0397".toList, "3C 84, the 'core'".toList, "2018-03-14T12:00:00".toList,
      [-1 / 4, 0, 1 / 4], 1 / 128, 1 / 2 ^ 40, "pedestal".toList, 3 / 4, 256, 5, [.fin 100, .nan, .pinf]⟩ (.int 5) :=
    { telName := ⟨by decide, by decide⟩
      telOpd := ⟨by decide, by decide⟩
      pr := d50
      name := ⟨by decide, by decide⟩
      obsObject := ⟨by decide, by decide⟩
      obsDate := ⟨by decide, by decide⟩
      dz := by simp only [List.mem_cons, List.not_mem_nil, or_false]; rintro x (rfl | rfl | rfl) <;> assumption
      wavel := d128
      frequency := d40
      illumination := ⟨by decide, by decide⟩
      meanel := d34
      box := trivial
      snr := by
        simp only [List.mem_cons, List.not_mem_nil, or_false]
        rintro x (rfl | rfl | rfl)
        · exact d100
        · trivial
        · trivial }
  obtain ⟨text, doc, h1, -⟩ := C106_info hrd hD (fun w => if w = "2018-03-14T12:00:00".toList then .other else .str) ho _ _ hok
  obtain ⟨t, m, z, a, b, c, -, e⟩ := C141_wavel hrd hD (fun w => if w = "2018-03-14T12:00:00".toList then .other else .str) ho _ _ hok h1 (by norm_num) (by norm_num)
  exact ⟨rd, D, hrd, hD, text, h1, t, m, z, a, b, c,
    e ("obs_date".toList, .one (.str "2018-03-14T12:00:00".toList)) (by simp [infoDoc]) (by decide),
    e ("snr".toList, .list [.float (.fin 100), .float .nan, .float .pinf]) (by simp [infoDoc]) (by decide)⟩

end Verif.Props
