import Verif.Model.Config
import Verif.Lemmas.Yaml
import Verif.Props.Csv
import Verif.Props.FitStart

/-!
# The configuration file (C105)
-/

namespace Verif.Props

open Verif Verif.Yaml Verif.Csv Verif.Actuator.Act Verif.Fs Verif.Store Verif.Core Verif.Config

/-! ## Specification: the text of a configuration file -/

/-- A character that is printed. -/
def Spec.Visible (c : Char) : Prop :=
  32 ≤ c.toNat ∧ c.toNat ≤ 126 ∨ 160 ≤ c.toNat ∧ c.toNat ≠ 8232 ∧ c.toNat ≠ 8233 ∧ c.toNat ≠ 65279

/-- An entry: letters, digits, signs and points. -/
def Spec.Word (w : Str) : Prop :=
  w ≠ [] ∧ w ≠ ['-'] ∧ ∀ c ∈ w, c.isAlphanum = true ∨ c ∈ "._+-".toList

/-- A line below a key: an entry (with something behind it), a line that is commented out, or an empty line. -/
inductive Spec.CfgLine
  | entry (gap : ℕ) (w tail : Str)
  | off (gap : ℕ) (c : Str)
  | blank (gap : ℕ)

/-- The text of a line. -/
def Spec.CfgLine.text : Spec.CfgLine → Str
  | .entry g w t => '-' :: (List.replicate (g + 1) ' ' ++ (w ++ t))
  | .off g c => List.replicate g ' ' ++ '#' :: c
  | .blank g => List.replicate g ' '

/-- The entry of a line; a line that is commented out has none. -/
def Spec.CfgLine.word : Spec.CfgLine → Option Str
  | .entry _ w _ => some w
  | _ => none

/-- Lines that may be written. -/
def Spec.CfgLine.Ok : Spec.CfgLine → Prop
  | .entry _ w t => Spec.Word w ∧ Tail t ∧ ∀ c ∈ t, Spec.Visible c
  | .off _ c => ∀ x ∈ c, Spec.Visible x
  | .blank _ => True

/-- A key and the lines below it. -/
structure Spec.Section where
  key : Str
  value : Option Str
  tail : Str
  lines : List Spec.CfgLine

/-- The entries. -/
def Spec.Section.words (s : Spec.Section) : List Str := s.lines.filterMap Spec.CfgLine.word

/-- The text. -/
def Spec.Section.text (s : Spec.Section) : List Str :=
  (s.key ++ ':' :: ((match s.value with | none => [] | some w => ' ' :: w) ++ s.tail)) ::
    s.lines.map Spec.CfgLine.text

/-- Sections that may be written: with a value behind the key (a word or `[]`) there are no entries. -/
structure Spec.Section.Ok (s : Spec.Section) : Prop where
  key : s.key ≠ []
  keyChars : ∀ c ∈ s.key, c.isAlphanum = true ∨ c = '_'
  tail : Tail s.tail
  visible : ∀ c ∈ s.tail, Spec.Visible c
  lines : ∀ l ∈ s.lines, l.Ok
  value : ∀ w ∈ s.value, (Spec.Word w ∨ w = ['[', ']']) ∧ s.words = []

/-- What a section means. -/
def Spec.Section.val (s : Spec.Section) : Val :=
  match s.value with
  | some w => if w = ['[', ']'] then .seq [] else .scalar (.plain w)
  | none => if s.words = [] then .null else .seq (s.words.map .plain)

/-- The text of the file: comments and empty lines, then the sections. -/
def Spec.cfgText (pre : List Spec.CfgLine) (secs : List Spec.Section) : Str :=
  ['\n'].intercalate (pre.map Spec.CfgLine.text ++ secs.flatMap Spec.Section.text)

/-! ## Lines -/

theorem word_noColon {w : Str} (h : ∀ c ∈ w, c ≠ ':') : noKey w = true := by
  induction w with
  | nil => rfl
  | cons c w ih =>
    cases w with
    | nil => simpa [noKey] using h c (by simp)
    | cons d w =>
      rw [noKey, ih fun c hc => h c (by simp [hc])]
      simp [h c (by simp)]

theorem noBlank_noComment {w : Str} (h : ∀ c ∈ w, c ≠ ' ') : NoComment w := by
  induction w with
  | nil => trivial
  | cons c w ih =>
    cases w with
    | nil => trivial
    | cons d w => exact ⟨fun hc => h c (by simp) hc.1, ih fun c hc => h c (by simp [hc])⟩

theorem word_chars {c : Char} (h : c.isAlphanum = true ∨ c ∈ "._+-".toList) :
    c ≠ ' ' ∧ c ≠ ':' ∧ c ≠ '\n' ∧ c ∉ "?:,[]{}#&*!|>'\"%@`".toList := by
  refine ⟨?_, ?_, ?_, ?_⟩
  · rintro rfl; revert h; decide
  · rintro rfl; revert h; decide
  · rintro rfl; revert h; decide
  · intro hc
    have : ∀ d ∈ "?:,[]{}#&*!|>'\"%@`".toList, ¬ (d.isAlphanum = true ∨ d ∈ "._+-".toList) := by decide
    exact this c hc h

theorem word_plain {w : Str} (h : Spec.Word w) : IsPlain w := by
  obtain ⟨h0, h1, h2⟩ := h
  have hb : ∀ c ∈ w, c ≠ ' ' := fun c hc => (word_chars (h2 c hc)).1
  refine ⟨h0, ?_, hb _ (List.getLast_mem h0), noBlank_noComment hb, ?_, ?_⟩
  · intro c hc
    have hc' := word_chars (h2 c (List.mem_of_mem_head? hc))
    refine ⟨hc'.1, ?_, ?_⟩ <;> rintro rfl <;> exact hc'.2.2.2 (by decide)
  · have hk := word_noColon fun c hc => (word_chars (h2 c hc)).2.1
    cases w with
    | nil => rfl
    | cons c w =>
      rw [plainOk, hk, Bool.and_true]
      split_ifs with hc
      · cases w with
        | nil =>
          have hw := h2 c (by simp)
          simp only [Bool.or_eq_true, decide_eq_true_eq] at hc
          rcases hc with (rfl | rfl) | rfl
          · exact absurd rfl h1
          · exact absurd hw (by decide)
          · exact absurd hw (by decide)
        | cons d w =>
          have := hb d (by simp)
          simpa using this
      · have := (word_chars (h2 c (by simp))).2.2.2
        simp at this ⊢
        exact this.2.2
  · rintro rfl
    have := h2 '[' (by simp)
    revert this
    decide

theorem visible_ok {c : Char} (h : Spec.Visible c) : okChar c = true := by
  unfold okChar
  simp only [Bool.or_eq_true, Bool.and_eq_true, decide_eq_true_eq, ne_eq, decide_not, Bool.not_eq_true',
    decide_eq_false_iff_not]
  rcases h with h | h
  · exact .inl (.inr h)
  · exact .inr ⟨⟨⟨h.1, h.2.1⟩, h.2.2.1⟩, h.2.2.2⟩

theorem visible_newline {c : Char} (h : Spec.Visible c) : c ≠ '\n' := by
  rintro rfl
  revert h
  unfold Spec.Visible
  decide

theorem alnum_visible {c : Char} (h : c.isAlphanum = true) : Spec.Visible c := by
  simp only [Char.isAlphanum, Char.isAlpha, Char.isUpper, Char.isLower, Char.isDigit, Bool.or_eq_true,
    Bool.and_eq_true, decide_eq_true_eq] at h
  left
  simp only [Char.toNat, ge_iff_le, UInt32.le_iff_toNat_le] at *
  change ((_ ∧ _) ∨ (_ ∧ _)) ∨ (_ ∧ _) at h
  simp only [UInt32.reduceToNat, Char.reduceVal] at h
  omega

theorem word_visible {w : Str} (h : Spec.Word w) {c : Char} (hc : c ∈ w) : Spec.Visible c := by
  rcases h.2.2 c hc with h | h
  · exact alnum_visible h
  · have : ∀ d ∈ "._+-".toList, 32 ≤ d.toNat ∧ d.toNat ≤ 126 := by decide
    exact .inl (this c h)

/-- How a line is read. -/
def Spec.CfgLine.read : Spec.CfgLine → Line
  | .entry _ w _ => .item (.plain w)
  | _ => .blank

theorem line_cfg {l : Spec.CfgLine} (h : l.Ok) : line l.text = some l.read := by
  cases l with
  | entry g w t =>
    obtain ⟨h1, h2, -⟩ := h
    rw [Spec.CfgLine.text, line_item, value_plain (word_plain h1) h2]
    · rfl
    · simp [blankFirst, List.replicate_succ]
  | off g c =>
    rw [Spec.CfgLine.text, line_blank]
    · rfl
    · rw [afterBlank_pad]; simp [afterBlank]
  | blank g =>
    rw [Spec.CfgLine.text, line_blank]
    · rfl
    · have := afterBlank_pad g []
      rw [List.append_nil] at this
      rw [this]; rfl

/-- The token behind the key. -/
def Spec.Section.tok (s : Spec.Section) : Tok :=
  match s.value with
  | none => .plain []
  | some w => if w = ['[', ']'] then .emptySeq else .plain w

theorem line_section {s : Spec.Section} (h : s.Ok) :
    line (s.key ++ ':' :: ((match s.value with | none => [] | some w => ' ' :: w) ++ s.tail)) =
      some (.key s.key s.tok) := by
  have hk : ∀ c ∈ s.key, keyChar c = true := by
    intro c hc
    simpa [keyChar] using h.keyChars c hc
  cases hv : s.value with
  | none =>
    rw [line_key h.key hk (by simpa using blankFirst_tail h.tail)]
    simp only [List.nil_append]
    rw [value_tail h.tail, Spec.Section.tok, hv]
    rfl
  | some w =>
    rw [line_key h.key hk (by simp [blankFirst]), Spec.Section.tok, hv]
    rcases (h.value w hv).1 with hw | rfl
    · have := value_plain (word_plain hw) h.tail 1
      simp only [List.replicate_one, List.singleton_append] at this
      rw [List.cons_append, this]
      have hne := (word_plain hw).notSeq
      simp [hne]
    · have := value_emptySeq h.tail 1
      simp only [List.replicate_one, List.singleton_append] at this
      rw [List.cons_append, this]
      simp

theorem mapM_pairs (l : List (Str × Line)) (h : ∀ p ∈ l, line p.1 = some p.2) :
    (l.map Prod.fst).mapM line = some (l.map Prod.snd) := by
  induction l with
  | nil => rfl
  | cons p l ih =>
    rw [List.map_cons, List.mapM_cons, h p (by simp), ih fun p hp => h p (by simp [hp])]
    rfl

/-! ## Sections -/

theorem group_lines (ls : List Spec.CfgLine) (rest : List Line) (toks : List Tok) (doc : List (Str × Val))
    (h : group rest = some (toks, doc)) :
    group (ls.map Spec.CfgLine.read ++ rest) =
      some ((ls.filterMap Spec.CfgLine.word).map .plain ++ toks, doc) := by
  induction ls with
  | nil => simpa using h
  | cons l ls ih =>
    rw [List.map_cons, List.cons_append, group, ih, Option.bind_some]
    cases l <;> simp [Spec.CfgLine.read, step, Spec.CfgLine.word, List.filterMap_cons]

theorem group_sections (secs : List Spec.Section) (h : ∀ s ∈ secs, s.Ok) :
    group (secs.flatMap fun s => .key s.key s.tok :: s.lines.map Spec.CfgLine.read) =
      some ([], secs.map fun s => (s.key, s.val)) := by
  induction secs with
  | nil => rfl
  | cons s secs ih =>
    rw [List.flatMap_cons, List.cons_append, group,
      group_lines _ _ _ _ (ih fun s hs => h s (by simp [hs])), Option.bind_some, List.append_nil]
    have hs := h s (by simp)
    have hw : s.lines.filterMap Spec.CfgLine.word = s.words := rfl
    rw [hw]
    cases hv : s.value with
    | none =>
      rw [Spec.Section.tok, hv]
      simp only [step, List.map_cons, Spec.Section.val, hv]
      by_cases he : s.words = []
      · simp [he]
      · simp [he]
    | some w =>
      obtain ⟨h1, h2⟩ := hs.value w hv
      rw [Spec.Section.tok, hv, h2]
      simp only [List.map_cons, Spec.Section.val, hv, List.map_nil]
      by_cases he : w = ['[', ']']
      · simp [he, step]
      · rcases h1 with h1 | h1
        · have : w ≠ [] := h1.1
          cases w with
          | nil => exact absurd rfl this
          | cons c w => simp [he, step]
        · exact absurd h1 he

/-- **C105.**  How a configuration file is read: comments, empty lines, blanks and lines that are commented out do
not count; the entries of a section are those of the lines that are left, in their order; a section without any is
`None`. -/
theorem C105_read (pre : List Spec.CfgLine) (secs : List Spec.Section)
    (hpre : ∀ l ∈ pre, l.Ok ∧ l.word = none) (hsecs : ∀ s ∈ secs, s.Ok) :
    load (Spec.cfgText pre secs) = some (secs.map fun s => (s.key, s.val)) := by
  set ps : List (Str × Line) := pre.map (fun l => (l.text, l.read)) ++ secs.flatMap fun s =>
    ((s.key ++ ':' :: ((match s.value with | none => [] | some w => ' ' :: w) ++ s.tail)), .key s.key s.tok) ::
      s.lines.map fun l => (l.text, l.read) with hps
  have hfst : ps.map Prod.fst = pre.map Spec.CfgLine.text ++ secs.flatMap Spec.Section.text := by
    rw [hps, List.map_append, List.map_map, List.map_flatMap]
    congr 1
    congr 1
    funext s
    rw [List.map_cons, List.map_map]
    rfl
  have hsnd : ps.map Prod.snd = pre.map Spec.CfgLine.read ++
      secs.flatMap fun s => .key s.key s.tok :: s.lines.map Spec.CfgLine.read := by
    rw [hps, List.map_append, List.map_map, List.map_flatMap]
    congr 1
    congr 1
    funext s
    rw [List.map_cons, List.map_map]
    rfl
  have hline : ∀ p ∈ ps, line p.1 = some p.2 := by
    intro p hp
    rw [hps, List.mem_append, List.mem_map, List.mem_flatMap] at hp
    rcases hp with ⟨l, hl, rfl⟩ | ⟨s, hs, hp⟩
    · exact line_cfg (hpre l hl).1
    · rcases List.mem_cons.1 hp with rfl | hp
      · exact line_section (hsecs s hs)
      · obtain ⟨l, hl, rfl⟩ := List.mem_map.1 hp
        exact line_cfg ((hsecs s hs).lines l hl)
  have hcl : ∀ l : Spec.CfgLine, l.Ok → ∀ c ∈ l.text, Spec.Visible c := by
    intro l hl c hc
    cases l with
    | entry g w t =>
      obtain ⟨h1, -, h3⟩ := hl
      simp only [Spec.CfgLine.text, List.mem_cons, List.mem_append, List.mem_replicate] at hc
      rcases hc with rfl | hc | hc | hc
      · left; decide
      · rw [hc.2]; left; decide
      · exact word_visible h1 hc
      · exact h3 c hc
    | off g x =>
      simp only [Spec.CfgLine.text, List.mem_cons, List.mem_append, List.mem_replicate] at hc
      rcases hc with hc | rfl | hc
      · rw [hc.2]; left; decide
      · left; decide
      · exact hl c hc
    | blank g =>
      simp only [Spec.CfgLine.text, List.mem_replicate] at hc
      rw [hc.2]; left; decide
  have hvis : ∀ t ∈ ps.map Prod.fst, ∀ c ∈ t, Spec.Visible c := by
    intro t ht c hc
    rw [hfst, List.mem_append, List.mem_map, List.mem_flatMap] at ht
    rcases ht with ⟨l, hl, rfl⟩ | ⟨s, hs, ht⟩
    · exact hcl l (hpre l hl).1 c hc
    · have hso := hsecs s hs
      rcases List.mem_cons.1 ht with rfl | ht
      · simp only [List.mem_append, List.mem_cons] at hc
        rcases hc with hc | rfl | hc | hc
        · rcases hso.keyChars c hc with h | rfl
          · exact alnum_visible h
          · left; decide
        · left; decide
        · cases hv : s.value with
          | none => rw [hv] at hc; cases hc
          | some w =>
            rw [hv] at hc
            rcases List.mem_cons.1 hc with rfl | hc
            · left; decide
            · rcases (hso.value w hv).1 with hw | rfl
              · exact word_visible hw hc
              · have : ∀ d ∈ ['[', ']'], 32 ≤ d.toNat ∧ d.toNat ≤ 126 := by decide
                exact .inl (this c hc)
        · exact hso.visible c hc
      · obtain ⟨l, hl, rfl⟩ := List.mem_map.1 ht
        exact hcl l (hso.lines l hl) c hc
  have hsplit : (Spec.cfgText pre secs).splitOn '\n' = ps.map Prod.fst ∨
      ((Spec.cfgText pre secs).splitOn '\n' = [[]] ∧ ps = []) := by
    unfold Spec.cfgText
    rw [← hfst]
    by_cases hne : ps.map Prod.fst = []
    · right
      rw [hne]
      exact ⟨rfl, by simpa using hne⟩
    · left
      exact List.splitOn_intercalate '\n' (fun l hl h => visible_newline (hvis l hl _ h) rfl) hne
  have hall : (Spec.cfgText pre secs).all okChar = true := by
    rw [List.all_eq_true]
    intro c hc
    unfold Spec.cfgText at hc
    rw [← hfst] at hc
    rcases mem_intercalate hc with h | ⟨w, hw, hcw⟩
    · have : c = '\n' := by simpa using h
      subst this; decide
    · exact visible_ok (hvis w hw c hcw)
  have hgroup : group (ps.map Prod.snd) = some ([], secs.map fun s => (s.key, s.val)) := by
    rw [hsnd, group_lines _ _ _ _ (group_sections secs hsecs)]
    have : pre.filterMap Spec.CfgLine.word = [] := List.filterMap_eq_nil_iff.2 fun l hl => (hpre l hl).2
    rw [this]
    rfl
  unfold load
  rw [if_pos hall]
  rcases hsplit with hsplit | ⟨hsplit, hnil⟩
  · rw [hsplit, mapM_pairs ps hline, Option.bind_some, hgroup]
    rfl
  · rw [hsplit]
    rw [hnil] at hgroup
    have : ([[]] : List Str).mapM line = some [.blank] := rfl
    rw [this, Option.bind_some, group, Option.bind_assoc]
    rw [List.map_nil] at hgroup
    rw [hgroup]
    rfl

/-! ## Numbers -/

/-- A decimal number as it is written: `-14.5`, `10`, `.01`, `-1.`, `1e-3`, `2.5E+3`, `-.5`. -/
structure Spec.Numeral where
  sign : Option Bool
  ip : List (Fin 10)
  point : Bool
  fp : List (Fin 10)
  exp : Option (Bool × Option Bool × List (Fin 10))

/-- There is a digit; digits behind the point have a point; the exponent has a digit; no leading zero in front of an
integer (to YAML that is an octal number). -/
structure Spec.Numeral.Ok (n : Spec.Numeral) : Prop where
  digit : n.ip ++ n.fp ≠ []
  point : n.fp ≠ [] → n.point = true
  exp : ∀ x ∈ n.exp, x.2.2 ≠ []
  octal : n.point = false → n.exp = none → n.ip = [0] ∨ n.ip.head? ≠ some 0

/-- Digits as text. -/
def Spec.digs (l : List (Fin 10)) : Str := l.map fun d : Fin 10 => digitChar d.val

/-- A sign as text: `true` is minus. -/
def Spec.signText : Option Bool → Str
  | none => []
  | some true => ['-']
  | some false => ['+']

/-- The exponent as text: `true` is the capital letter. -/
def Spec.expoText : Option (Bool × Option Bool × List (Fin 10)) → Str
  | none => []
  | some (u, s, l) => (if u then 'E' else 'e') :: (Spec.signText s ++ Spec.digs l)

/-- The text of the number. -/
def Spec.Numeral.text (n : Spec.Numeral) : Str :=
  Spec.signText n.sign ++ (Spec.digs n.ip ++ ((if n.point then ['.'] else []) ++ (Spec.digs n.fp ++ Spec.expoText n.exp)))

/-- The number that digits stand for. -/
def Spec.natOf (l : List (Fin 10)) : ℕ := Nat.ofDigits 10 (l.reverse.map Fin.val)

/-- The exponent. -/
def Spec.expoOf : Option (Bool × Option Bool × List (Fin 10)) → ℤ
  | none => 0
  | some (_, s, l) => if s = some true then -(Spec.natOf l : ℤ) else Spec.natOf l

/-- The value of the number. -/
noncomputable def Spec.Numeral.val (n : Spec.Numeral) : ℝ :=
  (if n.sign = some true then -1 else 1) *
    (Spec.natOf (n.ip ++ n.fp) * (10 : ℝ) ^ (Spec.expoOf n.exp - (n.fp.length : ℤ)))

theorem digs_digit {l : List (Fin 10)} {c : Char} (h : c ∈ Spec.digs l) : IsDigit c := by
  obtain ⟨d, -, rfl⟩ := List.mem_map.1 h
  exact digitChar_isDigit d.2

theorem digs_val (l : List (Fin 10)) : digitsVal (Spec.digs l) = Spec.natOf l := by
  unfold digitsVal Spec.digs Spec.natOf
  rw [← List.map_reverse, List.map_map]
  congr 1
  refine List.map_congr_left fun d _ => ?_
  simp [digitChar_toNat d.2]

theorem digs_append (l l' : List (Fin 10)) : Spec.digs (l ++ l') = Spec.digs l ++ Spec.digs l' := List.map_append

theorem digs_ne {l : List (Fin 10)} (h : l ≠ []) : Spec.digs l ≠ [] := by simpa [Spec.digs] using h

theorem lower_digit {c : Char} (h : IsDigit c) : c.toLower = c := by
  have h1 : c.toNat ≤ 57 := h.2
  unfold Char.toLower
  rw [dif_neg]
  rintro ⟨h2, -⟩
  have : (65 : ℕ) ≤ c.toNat := h2
  omega

theorem lower_digs (l : List (Fin 10)) : (Spec.digs l).map Char.toLower = Spec.digs l := by
  conv_rhs => rw [← List.map_id (Spec.digs l)]
  exact List.map_congr_left fun c hc => lower_digit (digs_digit hc)

/-- The text in small letters. -/
def lowExp : Option (Bool × Option Bool × List (Fin 10)) → Str
  | none => []
  | some (_, s, l) => 'e' :: (Spec.signText s ++ Spec.digs l)

theorem lower_sign (s : Option Bool) : (Spec.signText s).map Char.toLower = Spec.signText s := by
  match s with
  | none => rfl
  | some true => rfl
  | some false => rfl

theorem lower_expo (e : Option (Bool × Option Bool × List (Fin 10))) :
    (Spec.expoText e).map Char.toLower = lowExp e := by
  match e with
  | none => rfl
  | some (u, s, l) =>
    simp only [Spec.expoText, lowExp, List.map_cons, List.map_append, lower_sign, lower_digs]
    congr 1
    cases u <;> rfl

/-- The text without the sign. -/
def bodyText (n : Spec.Numeral) : Str :=
  Spec.digs n.ip ++ ((if n.point then ['.'] else []) ++ (Spec.digs n.fp ++ lowExp n.exp))

theorem lower_text (n : Spec.Numeral) : n.text.map Char.toLower = Spec.signText n.sign ++ bodyText n := by
  unfold Spec.Numeral.text bodyText
  simp only [List.map_append, lower_sign, lower_digs, lower_expo]
  congr 3
  cases n.point <;> rfl

theorem parseInt_signed (s : Option Bool) {l : List (Fin 10)} (hl : l ≠ []) :
    parseInt (Spec.signText s ++ Spec.digs l) =
      some (if s = some true then -(Spec.natOf l : ℤ) else Spec.natOf l) := by
  have hp : parseNat (Spec.digs l) = some (Spec.natOf l) := by
    rw [parseNat_digits (fun c hc => digs_digit hc) (digs_ne hl), digs_val]
  match s with
  | some true => simp [Spec.signText, parseInt, hp]
  | some false => simp [Spec.signText, parseInt, hp]
  | none =>
    rw [Spec.signText, List.nil_append]
    have : parseInt (Spec.digs l) = (parseNat (Spec.digs l)).map fun n : ℕ => (n : ℤ) := by
      cases hd : Spec.digs l with
      | nil => exact absurd hd (digs_ne hl)
      | cons c t =>
        have hc : IsDigit c := digs_digit (l := l) (by rw [hd]; simp)
        unfold parseInt
        split
        · rename_i heq; cases heq; exact absurd hc (by decide)
        · rename_i heq; cases heq; exact absurd hc (by decide)
        · rfl
    rw [this, hp]
    simp

theorem parseDec_body {n : Spec.Numeral} (h : n.Ok) : parseDec (bodyText n) =
    some (Spec.natOf (n.ip ++ n.fp) * (10 : ℝ) ^ (Spec.expoOf n.exp - (n.fp.length : ℤ))) := by
  set m : Str := Spec.digs n.ip ++ ((if n.point then ['.'] else []) ++ Spec.digs n.fp) with hm
  have hb : bodyText n = m ++ lowExp n.exp := by
    unfold bodyText
    rw [hm]
    simp only [List.append_assoc]
  have hme : ∀ c ∈ m, decide (c ≠ 'e') = true := by
    intro c hc
    rw [decide_eq_true_eq]
    rw [hm, List.mem_append, List.mem_append] at hc
    rcases hc with hc | hc | hc
    · exact digit_ne (digs_digit hc) _ (by decide)
    · split_ifs at hc
      · rw [List.mem_singleton] at hc; subst hc; decide
      · cases hc
    · exact digit_ne (digs_digit hc) _ (by decide)
  have htw : (bodyText n).takeWhile (fun c => decide (c ≠ 'e')) = m := by
    rw [hb]
    cases he : n.exp with
    | none =>
      rw [lowExp, List.append_nil]
      exact List.takeWhile_eq_self_iff.2 hme
    | some x =>
      rw [lowExp]
      exact takeWhile_stop hme (by simp) _
  have hdw : (bodyText n).dropWhile (fun c => decide (c ≠ 'e')) = lowExp n.exp := by
    rw [hb]
    cases he : n.exp with
    | none =>
      rw [lowExp, List.append_nil]
      exact List.dropWhile_eq_nil_iff.2 hme
    | some x =>
      rw [lowExp]
      exact dropWhile_stop hme (by simp) _
  have hexp : (match lowExp n.exp with | [] => some 0 | _ :: t => parseInt t) = some (Spec.expoOf n.exp) := by
    cases he : n.exp with
    | none => rfl
    | some x =>
      obtain ⟨u, s, l⟩ := x
      exact parseInt_signed s (h.exp _ he)
  have hip : m.takeWhile (fun c => decide (c ≠ '.')) = Spec.digs n.ip ∧
      (m.dropWhile (fun c => decide (c ≠ '.'))).drop 1 = Spec.digs n.fp := by
    have hd : ∀ c ∈ Spec.digs n.ip, decide (c ≠ '.') = true := fun c hc => by
      rw [decide_eq_true_eq]; exact digit_ne (digs_digit hc) _ (by decide)
    by_cases hp : n.point = true
    · rw [hm, if_pos hp, List.singleton_append, takeWhile_stop hd (by simp), dropWhile_stop hd (by simp)]
      exact ⟨rfl, rfl⟩
    · have hfp : n.fp = [] := by
        by_contra hne
        exact hp (h.point hne)
      rw [hm, if_neg hp, hfp]
      have h0 : Spec.digs [] = [] := rfl
      rw [h0]
      simp only [List.append_nil]
      refine ⟨List.takeWhile_eq_self_iff.2 hd, ?_⟩
      rw [List.dropWhile_eq_nil_iff.2 hd]
      rfl
  unfold parseDec
  simp only [htw, hdw, hip.1, hip.2]
  rw [← digs_append]
  have hnat : parseNat (Spec.digs (n.ip ++ n.fp)) = some (Spec.natOf (n.ip ++ n.fp)) := by
    rw [parseNat_digits (fun c hc => digs_digit hc) (digs_ne h.digit), digs_val]
  have hlen : (Spec.digs n.fp).length = n.fp.length := by simp [Spec.digs]
  rw [hnat, hlen]
  cases hl : lowExp n.exp with
  | nil =>
    rw [hl] at hexp
    have : Spec.expoOf n.exp = 0 := (Option.some.inj hexp).symm
    rw [this]
    rfl
  | cons c t =>
    rw [hl] at hexp
    simp only at hexp ⊢
    rw [hexp]
    rfl

theorem body_head {n : Spec.Numeral} (h : n.Ok) : ∃ c t, bodyText n = c :: t ∧ (IsDigit c ∨ c = '.') := by
  unfold bodyText
  cases hi : n.ip with
  | cons d l => exact ⟨_, _, rfl, .inl (digitChar_isDigit d.2)⟩
  | nil =>
    have hf : n.fp ≠ [] := by
      have := h.digit
      rw [hi] at this
      simpa using this
    rw [if_pos (h.point hf)]
    exact ⟨_, _, rfl, .inr rfl⟩

/-- A number in decimal notation is read as its value, rounded. -/
theorem parse_numeral (rd : ℝ → Fl) {n : Spec.Numeral} (h : n.Ok) :
    parseFloat rd (n.text.map Char.toLower) = some (rd n.val) := by
  rw [lower_text]
  obtain ⟨c, t, hct, hc⟩ := body_head h
  have hp := parseDec_body h
  have hc1 : c ≠ '-' := by rcases hc with hc | rfl; exact digit_ne hc _ (by decide); decide
  have hc2 : c ≠ '+' := by rcases hc with hc | rfl; exact digit_ne hc _ (by decide); decide
  have hc3 : c ≠ 'n' := by rcases hc with hc | rfl; exact digit_ne hc _ (by decide); decide
  have hc4 : c ≠ 'i' := by rcases hc with hc | rfl; exact digit_ne hc _ (by decide); decide
  have hn : "nan".toList = ['n', 'a', 'n'] := rfl
  have hi : "inf".toList = ['i', 'n', 'f'] := rfl
  have hm : "-inf".toList = ['-', 'i', 'n', 'f'] := rfl
  unfold parseFloat
  rw [hn, hi, hm]
  rw [hct] at hp ⊢
  unfold Spec.Numeral.val
  match n.sign with
  | some true =>
    simp only [Spec.signText, List.singleton_append, List.cons.injEq, hc4, false_and, and_false, if_false,
      show ('-' : Char) ≠ 'n' by decide, show ('-' : Char) ≠ 'i' by decide]
    rw [hp]
    simp
  | some false =>
    simp only [Spec.signText, List.singleton_append, List.cons.injEq, false_and, and_false, if_false,
      show ('+' : Char) ≠ 'n' by decide, show ('+' : Char) ≠ 'i' by decide, show ('+' : Char) ≠ '-' by decide]
    rw [hp]
    simp
  | none =>
    simp only [Spec.signText, List.nil_append, List.cons.injEq, hc1, hc3, hc4, false_and, if_false]
    split
    · rename_i heq; cases heq; exact absurd rfl hc1
    · rename_i heq; cases heq; exact absurd rfl hc2
    · rw [hp]; simp

theorem text_head {n : Spec.Numeral} (h : n.Ok) :
    ∃ c t, n.text = c :: t ∧ (IsDigit c ∨ c = '.' ∨ c = '-' ∨ c = '+') := by
  unfold Spec.Numeral.text
  match n.sign with
  | some true => exact ⟨_, _, rfl, by tauto⟩
  | some false => exact ⟨_, _, rfl, by tauto⟩
  | none =>
    rw [Spec.signText, List.nil_append]
    cases hi : n.ip with
    | cons d l => exact ⟨_, _, rfl, .inl (digitChar_isDigit d.2)⟩
    | nil =>
      have hf : n.fp ≠ [] := by
        have := h.digit
        rw [hi] at this
        simpa using this
      rw [if_pos (h.point hf)]
      exact ⟨_, _, rfl, by tauto⟩

/-- A number of the file, whether YAML takes it for an integer, for a float or for a string. -/
theorem number_numeral {rd : ℝ → Fl} {other : Str → Tag} {n : Spec.Numeral} (h : n.Ok)
    (ho : other n.text = .str) {x : ℝ} (hx : rd n.val = .fin x) :
    number rd other (.plain n.text) = pure x := by
  have hd : decimal rd n.text = pure x := by
    unfold decimal
    rw [parse_numeral rd h, hx]
  obtain ⟨c, t, hct, hc⟩ := text_head h
  have hnull : ¬ (n.text = [] ∨ n.text = "~".toList ∨ n.text = "null".toList ∨ n.text = "Null".toList ∨
      n.text = "NULL".toList) := by
    have h1 : "~".toList = ['~'] := rfl
    have h2 : "null".toList = ['n', 'u', 'l', 'l'] := rfl
    have h3 : "Null".toList = ['N', 'u', 'l', 'l'] := rfl
    have h4 : "NULL".toList = ['N', 'U', 'L', 'L'] := rfl
    rw [hct, h1, h2, h3, h4]
    simp only [List.cons.injEq, reduceCtorEq, false_or]
    rintro (⟨rfl, -⟩ | ⟨rfl, -⟩ | ⟨rfl, -⟩ | ⟨rfl, -⟩) <;> revert hc <;> decide
  unfold number resolve
  simp only
  rw [if_neg hnull]
  split_ifs
  · exact hd
  · exact hd
  · rw [ho]; exact hd

theorem digit_isDigit {c : Char} (h : IsDigit c) : c.isDigit = true := by
  simp only [Char.isDigit, Bool.and_eq_true, decide_eq_true_eq]
  exact h

theorem isInt_decNat (n : ℕ) : isInt (decNat n) = true := by
  by_cases h0 : n = 0
  · subst h0; rfl
  have hun : unsign (decNat n) = decNat n := by
    cases hd : decNat n with
    | nil => rfl
    | cons c t =>
      have hc : IsDigit c := decNat_isDigit (n := n) (by rw [hd]; simp)
      unfold unsign
      split
      · rename_i heq; cases heq; exact absurd hc (by decide)
      · rename_i heq; cases heq; exact absurd hc (by decide)
      · rfl
  unfold isInt
  rw [hun]
  have hall : ∀ c ∈ decNat n, c.isDigit = true := fun c hc => digit_isDigit (decNat_isDigit hc)
  have hne : Nat.digits 10 n ≠ [] := Nat.digits_ne_nil_iff_ne_zero.2 h0
  have hlast := Nat.getLast_digit_ne_zero 10 h0
  have hlt : (Nat.digits 10 n).getLast hne < 10 := Nat.digits_lt_base (by norm_num) (List.getLast_mem hne)
  have hhead : ∀ c ∈ (decNat n).head?, c ≠ '0' := by
    intro c hc
    unfold decNat at hc
    rw [if_neg h0, List.head?_map, List.head?_reverse, List.getLast?_eq_getLast_of_ne_nil hne, Option.map_some] at hc
    have hc' : digitChar ((Nat.digits 10 n).getLast hne) = c := by simpa using hc
    rintro rfl
    exact hlast (digitChar_inj hlt (by norm_num) hc')
  cases hd : decNat n with
  | nil => exact absurd hd (decNat_ne_nil n)
  | cons c t =>
    rw [hd] at hall hhead
    simp only [Bool.or_eq_true, Bool.and_eq_true, List.all_eq_true]
    right
    exact ⟨by simpa using hhead c (by simp), hall⟩

theorem index_decNat (other : Str → Tag) (n : ℕ) : index other (.plain (decNat n)) = pure (n : ℤ) := by
  have hnull : ¬ (decNat n = [] ∨ decNat n = "~".toList ∨ decNat n = "null".toList ∨ decNat n = "Null".toList ∨
      decNat n = "NULL".toList) := by
    rintro (h | h | h | h | h)
    · exact decNat_ne_nil n h
    all_goals
      have h2 := fun c hc => decNat_isDigit (n := n) (c := c) hc
      rw [h] at h2
      revert h2
      decide
  have hp : parseInt (decNat n) = some (n : ℤ) := by
    have := parseInt_decInt (n : ℤ)
    unfold decInt at this
    rwa [if_neg (by omega), Int.natAbs_natCast] at this
  unfold index resolve
  simp only
  rw [if_neg hnull]
  simp only [isInt_decNat, if_true, hp]

theorem mapM_pure' {α β : Type} (f : α → M β) (l : List α) (r : List β)
    (h : List.Forall₂ (fun a b => f a = pure b) l r) :
    l.mapM f = pure r := by
  induction h with
  | nil => rfl
  | cons h _ ih => rw [List.mapM_cons, h, ih]; rfl

/-! ## The configuration -/

/-- The entries below a key (the last one, if it occurs several times). -/
def Spec.Given (secs : List Spec.Section) (k : String) (ws : List Str) : Prop :=
  ∃ a s b, secs = a ++ s :: b ∧ s.key = k.toList ∧ s.value = none ∧ s.words = ws ∧ ∀ t ∈ b, t.key ≠ k.toList

/-- A value on the line of the key. -/
def Spec.GivenValue (secs : List Spec.Section) (k : String) (w : String) : Prop :=
  ∃ a s b, secs = a ++ s :: b ∧ s.key = k.toList ∧ s.value = some w.toList ∧ ∀ t ∈ b, t.key ≠ k.toList

/-- The entries below a key are these numbers. -/
def Spec.GivenNumbers (rd : ℝ → Fl) (secs : List Spec.Section) (k : String) (xs : List ℝ) : Prop :=
  ∃ ws, ws ≠ [] ∧ Spec.Given secs k ws ∧
    List.Forall₂ (fun w x => ∃ n : Spec.Numeral, n.Ok ∧ w = n.text ∧ rd n.val = .fin x) ws xs

theorem get_last (a : List Spec.Section) (s : Spec.Section) (b : List Spec.Section) (k : Str) (hk : s.key = k)
    (hb : ∀ t ∈ b, t.key ≠ k) : Yaml.get ((a ++ s :: b).map fun s => (s.key, s.val)) k = some s.val := by
  unfold Yaml.get
  rw [← List.map_reverse, List.find?_map, List.reverse_append, List.reverse_cons, List.append_assoc,
    List.find?_append]
  have : b.reverse.find? ((fun p : Str × Val => decide (p.1 = k)) ∘ fun s => (s.key, s.val)) = none := by
    rw [List.find?_eq_none]
    intro t ht
    simpa using hb t (List.mem_reverse.1 ht)
  rw [this, Option.none_or, List.singleton_append, List.find?_cons_of_pos (by simpa using hk)]
  rfl

theorem entry_given {secs : List Spec.Section} {k : String} {ws : List Str} (h : Spec.Given secs k ws) :
    entry (secs.map fun s => (s.key, s.val)) k = pure (if ws = [] then .null else .seq (ws.map .plain)) := by
  obtain ⟨a, s, b, rfl, h1, h2, h3, h4⟩ := h
  unfold entry
  rw [get_last a s b k.toList h1 h4]
  have : s.val = if ws = [] then .null else .seq (ws.map .plain) := by
    rw [Spec.Section.val, h2, h3]
  rw [this, if_neg (by simp)]

theorem entry_value {secs : List Spec.Section} {k w : String} (h : Spec.GivenValue secs k w) :
    entry (secs.map fun s => (s.key, s.val)) k =
      pure (if w.toList = ['[', ']'] then .seq [] else .scalar (.plain w.toList)) := by
  obtain ⟨a, s, b, rfl, h1, h2, h4⟩ := h
  unfold entry
  rw [get_last a s b k.toList h1 h4]
  have : s.val = if w.toList = ['[', ']'] then .seq [] else .scalar (.plain w.toList) := by
    rw [Spec.Section.val, h2]
  rw [this, if_neg (by simp)]

theorem numbers_given {rd : ℝ → Fl} {other : Str → Tag} (ho : ∀ n : Spec.Numeral, n.Ok → other n.text = .str)
    {secs : List Spec.Section} {k : String} {xs : List ℝ} (h : Spec.GivenNumbers rd secs k xs) :
    ∃ v, entry (secs.map fun s => (s.key, s.val)) k = pure v ∧ numbers rd other v = pure xs := by
  obtain ⟨ws, hne, h1, h2⟩ := h
  refine ⟨_, entry_given h1, ?_⟩
  rw [if_neg hne, numbers]
  apply mapM_pure'
  rw [List.forall₂_map_left_iff]
  refine h2.imp fun w x hwx => ?_
  obtain ⟨n, hn, rfl, hx⟩ := hwx
  exact number_numeral hn (ho n hn) hx

/-- `excluded` in the file: the numbers of the parameters one below the other, or `[]`. -/
def Spec.GivenExcluded (secs : List Spec.Section) (S : List ℕ) : Prop :=
  (S ≠ [] ∧ Spec.Given secs "excluded" (S.map decNat)) ∨ (S = [] ∧ Spec.GivenValue secs "excluded" "[]")

theorem indices_given {other : Str → Tag} {secs : List Spec.Section} {S : List ℕ} (h : Spec.GivenExcluded secs S) :
    ∃ v, entry (secs.map fun s => (s.key, s.val)) "excluded" = pure v ∧
      indices other v = pure (S.map fun e : ℕ => (e : ℤ)) := by
  rcases h with ⟨hS, h⟩ | ⟨rfl, h⟩
  · refine ⟨_, entry_given h, ?_⟩
    rw [if_neg (by simpa using hS), indices]
    apply mapM_pure'
    rw [List.forall₂_map_left_iff, List.forall₂_map_left_iff, List.forall₂_map_right_iff]
    exact List.forall₂_same.2 fun n _ => index_decNat other n
  · refine ⟨_, entry_value h, ?_⟩
    rw [if_pos (show "[]".toList = ['[', ']'] from rfl), indices]
    rfl

theorem bind_pure_M {α β : Type} (a : α) (f : α → M β) : (pure a : M α) >>= f = f a := rfl

/-- **C105.**  A fit with a configuration file is the fit with the numbers of the file: the parameters on the lines of
`excluded` that are not commented out are excluded, in their order, and the other lists are the numbers as they are
written (rounded by `rd`), also those that YAML takes for strings. -/
theorem C105_fit {rd : ℝ → Fl} {other : Str → Tag} (ho : ∀ n : Spec.Numeral, n.Ok → other n.text = .str)
    (pre : List Spec.CfgLine) (secs : List Spec.Section) (hpre : ∀ l ∈ pre, l.Ok ∧ l.word = none)
    (hsecs : ∀ s ∈ secs, s.Ok) (S : List ℕ) (fixed init lo hi : List ℝ)
    (hex : Spec.GivenExcluded secs S) (hfixed : Spec.GivenNumbers rd secs "fixed" fixed)
    (hinit : Spec.GivenNumbers rd secs "init" init) (hlo : Spec.GivenNumbers rd secs "bound_min" lo)
    (hhi : Spec.GivenNumbers rd secs "bound_max" hi) {N M : ℕ} (a : Verif.Fit.Input N M) :
    ∃ p, fitText rd other (Spec.cfgText pre secs) a = some p ∧
      ∀ fs, p.run fs = (Verif.Fit.fitZpoly
        { a with cfg := ⟨S.map fun e : ℕ => (e : ℤ), fixed, init, lo, hi⟩ }).run fs := by
  obtain ⟨v1, e1, n1⟩ := numbers_given ho hinit
  obtain ⟨v2, e2, n2⟩ := indices_given (other := other) hex
  obtain ⟨v3, e3, n3⟩ := numbers_given ho hlo
  obtain ⟨v4, e4, n4⟩ := numbers_given ho hhi
  obtain ⟨v5, e5, n5⟩ := numbers_given ho hfixed
  have hdoc : ofDoc rd other (secs.map fun s => (s.key, s.val)) =
      pure ⟨S.map fun e : ℕ => (e : ℤ), fixed, init, lo, hi⟩ := by
    unfold ofDoc
    rw [e1, bind_pure_M, n1, bind_pure_M, e2, bind_pure_M, n2, bind_pure_M, e3, bind_pure_M, n3, bind_pure_M,
      e4, bind_pure_M, n4, bind_pure_M, e5, bind_pure_M, n5, bind_pure_M]
  unfold fitText
  rw [C105_read pre secs hpre hsecs, Option.bind_some, hdoc]
  refine ⟨_, rfl, fun fs => ?_⟩
  unfold Verif.Fit.fitZpoly
  congr 1
  simp only
  congr 1
  funext d
  congr 1
  funext s0
  congr 1
  funext s1
  congr 1
  funext s2
  split_ifs with h0
  · simp only [h0]
    rfl
  · rfl

/-- **C105.**  With all lines of `excluded` commented out, or with `None` behind the key, the fit does not include all
parameters: it ends in an `IndexError`, and leaves its directory without any file. -/
theorem C105_none {rd : ℝ → Fl} {other : Str → Tag} (ho : ∀ n : Spec.Numeral, n.Ok → other n.text = .str)
    (hnone : other "None".toList = .str)
    (pre : List Spec.CfgLine) (secs : List Spec.Section) (hpre : ∀ l ∈ pre, l.Ok ∧ l.word = none)
    (hsecs : ∀ s ∈ secs, s.Ok) (init : List ℝ)
    (hex : Spec.Given secs "excluded" [] ∨ Spec.GivenValue secs "excluded" "None")
    (hinit : Spec.GivenNumbers rd secs "init" init)
    {N M : ℕ} (a : Verif.Fit.Input N M) (hn : 1 ≤ a.orderMax) (hsnr : ∀ i, ∃ x, a.snr i = .ok x)
    (fs fs1 : FS Content) (d : Path) (hd : (Verif.Fit.allocDir a.workDir a.name).run fs = (.ok d, fs1)) :
    ∃ p, fitText rd other (Spec.cfgText pre secs) a = some p ∧ p.run fs = (.error .indexError, fs1) := by
  obtain ⟨v1, e1, n1⟩ := numbers_given ho hinit
  obtain ⟨v2, e2, n2⟩ : ∃ v, entry (secs.map fun s => (s.key, s.val)) "excluded" = pure v ∧
      indices other v = throw .indexError := by
    rcases hex with h | h
    · exact ⟨_, entry_given h, rfl⟩
    · refine ⟨_, entry_value h, ?_⟩
      have hr : resolve other "None".toList = .str := by
        unfold resolve
        rw [if_neg (by decide), if_neg (by decide), if_neg (by decide +kernel), hnone]
      rw [if_neg (by decide), indices]
      unfold index
      simp only
      rw [hr]
      rfl
  have hdoc : ofDoc rd other (secs.map fun s => (s.key, s.val)) = throw .indexError := by
    unfold ofDoc
    rw [e1, bind_pure_M, n1, bind_pure_M, e2, bind_pure_M, n2]
    rfl
  unfold fitText
  rw [C105_read pre secs hpre hsecs, Option.bind_some, hdoc]
  refine ⟨_, rfl, ?_⟩
  obtain ⟨x0, h0⟩ := hsnr 0
  obtain ⟨x1, h1⟩ := hsnr 1
  obtain ⟨x2, h2⟩ := hsnr 2
  rw [Prog.run_bind_error]
  refine .inr ⟨d, fs1, hd, ?_⟩
  rw [h0, h1, h2]
  simp only [if_neg (show ¬ a.orderMax = 0 by omega)]
  rfl

/-! ## What is stored -/

theorem stored_names {N M : ℕ} (a : Verif.Fit.Input N M) (fs fs' : FS Content) (d : Path)
    (h : (Verif.Fit.fitZpoly a).run fs = (.ok d, fs')) (hd : fs d = none ∨ isDir fs d) (k : ℕ) (hk : 1 ≤ k)
    (hk' : k ≤ a.orderMax) :
    ∃ names fit init, fs' (Spec.file "fitpar" k :: d) = some (.file (.params names fit init)) ∧
      names[6]? = some "K(1, -1)".toList ∧ names[7]? = some "K(1, 1)".toList := by
  obtain ⟨fs1, s0, s1, s2, h1, -, -, -, h2⟩ := fitZpoly_ok h
  obtain ⟨init, out, names, -, e2, -, -⟩ := fitLoop_ok le_rfl (allocDir_isDir h1 hd) h2
  obtain ⟨-, hn, hl, -, hmem⟩ := e2 k hk (by omega)
  rw [paramNames_eq] at hn
  have hn' := (Except.ok.inj hn).symm
  refine ⟨names k, (out k).sol, init k, hmem _ (orderStore_head a _ k _ _ _), ?_, ?_⟩
  · rw [hn', List.getElem?_append_right (by simp), List.getElem?_map]
    have := Aperture.nlList_get k 1 0 hk (by omega)
    simp only [Aperture.tri] at this
    simp only [List.length_cons, List.length_nil, Nat.zero_add, Nat.reduceAdd, Nat.reduceSub]
    simp at this
    rw [this]
    rfl
  · rw [hn', List.getElem?_append_right (by simp), List.getElem?_map]
    have := Aperture.nlList_get k 1 1 hk (by omega)
    simp only [Aperture.tri] at this
    simp only [List.length_cons, List.length_nil, Nat.zero_add, Nat.reduceAdd, Nat.reduceSub]
    simp at this
    rw [this]
    rfl

/-- **C105.**  What is stored: the excluded parameters have exactly the numbers of the lines of `fixed`; parameter 6,
`K(1, 1)` to the comments of the shipped file, is `K(1, -1)`, and 7 is `K(1, 1)`. -/
theorem C105_stored {rd : ℝ → Fl} {other : Str → Tag} (ho : ∀ n : Spec.Numeral, n.Ok → other n.text = .str)
    (pre : List Spec.CfgLine) (secs : List Spec.Section) (hpre : ∀ l ∈ pre, l.Ok ∧ l.word = none)
    (hsecs : ∀ s ∈ secs, s.Ok) (S : List ℕ) (fixed init lo hi : List ℝ)
    (hex : Spec.GivenExcluded secs S) (hfixed : Spec.GivenNumbers rd secs "fixed" fixed)
    (hinit : Spec.GivenNumbers rd secs "init" init) (hlo : Spec.GivenNumbers rd secs "bound_min" lo)
    (hhi : Spec.GivenNumbers rd secs "bound_max" hi)
    (hf : Spec.Feasible ⟨S.map fun e : ℕ => (e : ℤ), fixed, init, lo, hi⟩ S)
    {N M : ℕ} (a : Verif.Fit.Input N M) (hb : Spec.InBounds a.solver) :
    ∃ p, fitText rd other (Spec.cfgText pre secs) a = some p ∧
      ∀ fs fs' d, p.run fs = (.ok d, fs') → (fs d = none ∨ isDir fs d) → ∀ k, 1 ≤ k → k ≤ a.orderMax →
        ∃ names fit start, fs' (Spec.file "fitpar" k :: d) = some (.file (.params names fit start)) ∧
          names[6]? = some "K(1, -1)".toList ∧ names[7]? = some "K(1, 1)".toList ∧
          fit.length = 5 + Spec.nK k ∧ ∀ e ∈ S, fit[e]? = fixed[e]? := by
  obtain ⟨p, hp, hrun⟩ := C105_fit ho pre secs hpre hsecs S fixed init lo hi hex hfixed hinit hlo hhi a
  refine ⟨p, hp, fun fs fs' d h hd k hk hk' => ?_⟩
  rw [hrun] at h
  obtain ⟨names, fit, start, e1, e2, e3⟩ := stored_names _ fs fs' d h hd k hk hk'
  obtain ⟨names', fit', start', e1', -, h2, -, -, -, h3, -⟩ := C40_stored { a with cfg := _ } S hf hb fs fs' d h hd k hk hk'
  rw [e1] at e1'
  cases e1'
  exact ⟨names, fit, start, e1, e2, e3, h2, h3⟩

/-! ## The file that comes with the package -/

/-- pyoof/data/config_params.yml, line by line. -/
def Spec.shipped : List String := [
  "# Default parameters pyoof package",
  "bound_max:",
  "- 10      # i_amp (illumination amplitude)",
  "- -1.     # c_dB (illumination taper)",
  "- 2.      # q",
  "- 0.01    # x0 (illumination x-axis offset)",
  "- 0.01    # y0 (illumination y-axis offset)",
  "- 5.      # K(0, 0) (Piston Zernike circle polynomial coefficient)",
  "- 5.      # K(1, 1) (Tilt Zernike circle polynomial coefficient)",
  "- 5.      # K(1, -1) (Tilt Zernike circle polynomial coefficient)",
  "",
  "bound_min:",
  "- 0       # i_amp",
  "- -25.    # c_dB",
  "- 1.      # q",
  "- -0.01   # x0",
  "- -0.01   # y0",
  "- -5.     # K(0, 0) (Piston Zernike circle polynomial coefficient)",
  "- -5.     # K(1, 1) (Tilt Zernike circle polynomial coefficient)",
  "- -5.     # K(1, -1) (Tilt Zernike circle polynomial coefficient)",
  "",
  "# commented means included parameter",
  "excluded:",
  "# - 0       # i_amp",
  "- 1       # c_dB",
  "- 2       # q",
  "- 3       # x0",
  "- 4       # y0",
  "- 5       # K(0, 0)",
  "# - 6       # K(1, 1)",
  "# - 7       # K(1, -1)",
  "",
  "fixed:",
  "- 1.      # i_amp",
  "- -14.5   # c_dB",
  "- 1.4     # q",
  "- 0.      # x0",
  "- 0.      # y0",
  "- 0.      # K(0, 0)",
  "- 0.      # K(0, 1)",
  "- 0.      # K(0, -1)",
  "",
  "init:",
  "- .01     # i_amp",
  "- -10.    # c_dB",
  "- 1.5     # q",
  "- 0.      # x0",
  "- 0.      # y0",
  "- 0.1     # K(0, 0)",
  "- 0.1     # K(0, 1)",
  "- 0.1     # K(0, -1)",
  ""]

/-- An entry with a comment behind it. -/
def Spec.cfgItem (w : String) (n : ℕ) (c : String) : Spec.CfgLine :=
  .entry 0 w.toList (List.replicate (n + 1) ' ' ++ '#' :: c.toList)

/-- The lines before the first key. -/
def shippedPre : List Spec.CfgLine := [.off 0 " Default parameters pyoof package".toList]

/-- A section of the file. -/
def shipped_bound_max : Spec.Section := ⟨"bound_max".toList, none, [], [
    Spec.cfgItem "10" 5 " i_amp (illumination amplitude)",
    Spec.cfgItem "-1." 4 " c_dB (illumination taper)",
    Spec.cfgItem "2." 5 " q",
    Spec.cfgItem "0.01" 3 " x0 (illumination x-axis offset)",
    Spec.cfgItem "0.01" 3 " y0 (illumination y-axis offset)",
    Spec.cfgItem "5." 5 " K(0, 0) (Piston Zernike circle polynomial coefficient)",
    Spec.cfgItem "5." 5 " K(1, 1) (Tilt Zernike circle polynomial coefficient)",
    Spec.cfgItem "5." 5 " K(1, -1) (Tilt Zernike circle polynomial coefficient)",
    .blank 0]⟩

/-- A section of the file. -/
def shipped_bound_min : Spec.Section := ⟨"bound_min".toList, none, [], [
    Spec.cfgItem "0" 6 " i_amp",
    Spec.cfgItem "-25." 3 " c_dB",
    Spec.cfgItem "1." 5 " q",
    Spec.cfgItem "-0.01" 2 " x0",
    Spec.cfgItem "-0.01" 2 " y0",
    Spec.cfgItem "-5." 4 " K(0, 0) (Piston Zernike circle polynomial coefficient)",
    Spec.cfgItem "-5." 4 " K(1, 1) (Tilt Zernike circle polynomial coefficient)",
    Spec.cfgItem "-5." 4 " K(1, -1) (Tilt Zernike circle polynomial coefficient)",
    .blank 0,
    .off 0 " commented means included parameter".toList]⟩

/-- A section of the file. -/
def shipped_excluded : Spec.Section := ⟨"excluded".toList, none, [], [
    .off 0 " - 0       # i_amp".toList,
    Spec.cfgItem "1" 6 " c_dB",
    Spec.cfgItem "2" 6 " q",
    Spec.cfgItem "3" 6 " x0",
    Spec.cfgItem "4" 6 " y0",
    Spec.cfgItem "5" 6 " K(0, 0)",
    .off 0 " - 6       # K(1, 1)".toList,
    .off 0 " - 7       # K(1, -1)".toList,
    .blank 0]⟩

/-- A section of the file. -/
def shipped_fixed : Spec.Section := ⟨"fixed".toList, none, [], [
    Spec.cfgItem "1." 5 " i_amp",
    Spec.cfgItem "-14.5" 2 " c_dB",
    Spec.cfgItem "1.4" 4 " q",
    Spec.cfgItem "0." 5 " x0",
    Spec.cfgItem "0." 5 " y0",
    Spec.cfgItem "0." 5 " K(0, 0)",
    Spec.cfgItem "0." 5 " K(0, 1)",
    Spec.cfgItem "0." 5 " K(0, -1)",
    .blank 0]⟩

/-- A section of the file. -/
def shipped_init : Spec.Section := ⟨"init".toList, none, [], [
    Spec.cfgItem ".01" 4 " i_amp",
    Spec.cfgItem "-10." 3 " c_dB",
    Spec.cfgItem "1.5" 4 " q",
    Spec.cfgItem "0." 5 " x0",
    Spec.cfgItem "0." 5 " y0",
    Spec.cfgItem "0.1" 4 " K(0, 0)",
    Spec.cfgItem "0.1" 4 " K(0, 1)",
    Spec.cfgItem "0.1" 4 " K(0, -1)",
    .blank 0]⟩

/-- The sections. -/
def shippedSecs : List Spec.Section := [shipped_bound_max, shipped_bound_min, shipped_excluded, shipped_fixed, shipped_init]

theorem shipped_text : ['\n'].intercalate (Spec.shipped.map String.toList) = Spec.cfgText shippedPre shippedSecs := by
  unfold Spec.cfgText
  congr 1

instance (c : Char) : Decidable (Spec.Visible c) := by unfold Spec.Visible; infer_instance

instance (w : Str) : Decidable (Spec.Word w) := by unfold Spec.Word; infer_instance

theorem cfgItem_ok {w c : String} {n : ℕ} (hw : Spec.Word w.toList) (hc : ∀ x ∈ c.toList, Spec.Visible x) :
    (Spec.cfgItem w n c).Ok := by
  refine ⟨hw, .inr ⟨n, c.toList, rfl⟩, fun x hx => ?_⟩
  rcases List.mem_append.1 hx with hx | hx
  · rw [List.eq_of_mem_replicate hx]; decide
  · rcases List.mem_cons.1 hx with rfl | hx
    · decide
    · exact hc x hx

theorem off_ok {c : Str} (hc : ∀ x ∈ c, Spec.Visible x) : (Spec.CfgLine.off 0 c).Ok := hc

theorem shipped_pre_ok : ∀ l ∈ shippedPre, l.Ok ∧ l.word = none := by
  simp only [shippedPre, List.mem_singleton, forall_eq]
  exact ⟨off_ok (by decide +kernel), rfl⟩

theorem shipped_bound_max_ok : shipped_bound_max.Ok where
  key := by decide +kernel
  keyChars := by decide +kernel
  tail := .inl ⟨0, rfl⟩
  visible := fun c h => absurd (show c ∈ ([] : Str) from h) List.not_mem_nil
  lines := List.forall_mem_cons.2 ⟨cfgItem_ok (by decide +kernel) (by decide +kernel),
    List.forall_mem_cons.2 ⟨cfgItem_ok (by decide +kernel) (by decide +kernel),
    List.forall_mem_cons.2 ⟨cfgItem_ok (by decide +kernel) (by decide +kernel),
    List.forall_mem_cons.2 ⟨cfgItem_ok (by decide +kernel) (by decide +kernel),
    List.forall_mem_cons.2 ⟨cfgItem_ok (by decide +kernel) (by decide +kernel),
    List.forall_mem_cons.2 ⟨cfgItem_ok (by decide +kernel) (by decide +kernel),
    List.forall_mem_cons.2 ⟨cfgItem_ok (by decide +kernel) (by decide +kernel),
    List.forall_mem_cons.2 ⟨cfgItem_ok (by decide +kernel) (by decide +kernel),
    List.forall_mem_cons.2 ⟨trivial,
    by simp⟩⟩⟩⟩⟩⟩⟩⟩⟩
  value := fun w h => absurd (show (none : Option Str) = some w from h) (by simp)

theorem shipped_bound_min_ok : shipped_bound_min.Ok where
  key := by decide +kernel
  keyChars := by decide +kernel
  tail := .inl ⟨0, rfl⟩
  visible := fun c h => absurd (show c ∈ ([] : Str) from h) List.not_mem_nil
  lines := List.forall_mem_cons.2 ⟨cfgItem_ok (by decide +kernel) (by decide +kernel),
    List.forall_mem_cons.2 ⟨cfgItem_ok (by decide +kernel) (by decide +kernel),
    List.forall_mem_cons.2 ⟨cfgItem_ok (by decide +kernel) (by decide +kernel),
    List.forall_mem_cons.2 ⟨cfgItem_ok (by decide +kernel) (by decide +kernel),
    List.forall_mem_cons.2 ⟨cfgItem_ok (by decide +kernel) (by decide +kernel),
    List.forall_mem_cons.2 ⟨cfgItem_ok (by decide +kernel) (by decide +kernel),
    List.forall_mem_cons.2 ⟨cfgItem_ok (by decide +kernel) (by decide +kernel),
    List.forall_mem_cons.2 ⟨cfgItem_ok (by decide +kernel) (by decide +kernel),
    List.forall_mem_cons.2 ⟨trivial,
    List.forall_mem_cons.2 ⟨off_ok (by decide +kernel),
    by simp⟩⟩⟩⟩⟩⟩⟩⟩⟩⟩
  value := fun w h => absurd (show (none : Option Str) = some w from h) (by simp)

theorem shipped_excluded_ok : shipped_excluded.Ok where
  key := by decide +kernel
  keyChars := by decide +kernel
  tail := .inl ⟨0, rfl⟩
  visible := fun c h => absurd (show c ∈ ([] : Str) from h) List.not_mem_nil
  lines := List.forall_mem_cons.2 ⟨off_ok (by decide +kernel),
    List.forall_mem_cons.2 ⟨cfgItem_ok (by decide +kernel) (by decide +kernel),
    List.forall_mem_cons.2 ⟨cfgItem_ok (by decide +kernel) (by decide +kernel),
    List.forall_mem_cons.2 ⟨cfgItem_ok (by decide +kernel) (by decide +kernel),
    List.forall_mem_cons.2 ⟨cfgItem_ok (by decide +kernel) (by decide +kernel),
    List.forall_mem_cons.2 ⟨cfgItem_ok (by decide +kernel) (by decide +kernel),
    List.forall_mem_cons.2 ⟨off_ok (by decide +kernel),
    List.forall_mem_cons.2 ⟨off_ok (by decide +kernel),
    List.forall_mem_cons.2 ⟨trivial,
    by simp⟩⟩⟩⟩⟩⟩⟩⟩⟩
  value := fun w h => absurd (show (none : Option Str) = some w from h) (by simp)

theorem shipped_fixed_ok : shipped_fixed.Ok where
  key := by decide +kernel
  keyChars := by decide +kernel
  tail := .inl ⟨0, rfl⟩
  visible := fun c h => absurd (show c ∈ ([] : Str) from h) List.not_mem_nil
  lines := List.forall_mem_cons.2 ⟨cfgItem_ok (by decide +kernel) (by decide +kernel),
    List.forall_mem_cons.2 ⟨cfgItem_ok (by decide +kernel) (by decide +kernel),
    List.forall_mem_cons.2 ⟨cfgItem_ok (by decide +kernel) (by decide +kernel),
    List.forall_mem_cons.2 ⟨cfgItem_ok (by decide +kernel) (by decide +kernel),
    List.forall_mem_cons.2 ⟨cfgItem_ok (by decide +kernel) (by decide +kernel),
    List.forall_mem_cons.2 ⟨cfgItem_ok (by decide +kernel) (by decide +kernel),
    List.forall_mem_cons.2 ⟨cfgItem_ok (by decide +kernel) (by decide +kernel),
    List.forall_mem_cons.2 ⟨cfgItem_ok (by decide +kernel) (by decide +kernel),
    List.forall_mem_cons.2 ⟨trivial,
    by simp⟩⟩⟩⟩⟩⟩⟩⟩⟩
  value := fun w h => absurd (show (none : Option Str) = some w from h) (by simp)

theorem shipped_init_ok : shipped_init.Ok where
  key := by decide +kernel
  keyChars := by decide +kernel
  tail := .inl ⟨0, rfl⟩
  visible := fun c h => absurd (show c ∈ ([] : Str) from h) List.not_mem_nil
  lines := List.forall_mem_cons.2 ⟨cfgItem_ok (by decide +kernel) (by decide +kernel),
    List.forall_mem_cons.2 ⟨cfgItem_ok (by decide +kernel) (by decide +kernel),
    List.forall_mem_cons.2 ⟨cfgItem_ok (by decide +kernel) (by decide +kernel),
    List.forall_mem_cons.2 ⟨cfgItem_ok (by decide +kernel) (by decide +kernel),
    List.forall_mem_cons.2 ⟨cfgItem_ok (by decide +kernel) (by decide +kernel),
    List.forall_mem_cons.2 ⟨cfgItem_ok (by decide +kernel) (by decide +kernel),
    List.forall_mem_cons.2 ⟨cfgItem_ok (by decide +kernel) (by decide +kernel),
    List.forall_mem_cons.2 ⟨cfgItem_ok (by decide +kernel) (by decide +kernel),
    List.forall_mem_cons.2 ⟨trivial,
    by simp⟩⟩⟩⟩⟩⟩⟩⟩⟩
  value := fun w h => absurd (show (none : Option Str) = some w from h) (by simp)

theorem shipped_secs_ok : ∀ s ∈ shippedSecs, s.Ok := by
  simp only [shippedSecs, List.mem_cons, List.not_mem_nil, or_false, forall_eq_or_imp, forall_eq]
  exact ⟨shipped_bound_max_ok, shipped_bound_min_ok, shipped_excluded_ok, shipped_fixed_ok, shipped_init_ok⟩

theorem shipNum0 (r : ℝ → ℝ) : ∃ n : Spec.Numeral, n.Ok ∧ "10".toList = n.text ∧
    (fun x => Fl.fin (r x)) n.val = .fin (r (10)) :=
  ⟨⟨none, [1, 0], false, [], none⟩, ⟨by decide, by decide, by simp, by decide⟩, by decide +kernel,
    congrArg (fun x => Fl.fin (r x)) (by simp [Spec.Numeral.val, Spec.natOf, Spec.expoOf]; try norm_num [Nat.ofDigits])⟩

theorem shipNum1 (r : ℝ → ℝ) : ∃ n : Spec.Numeral, n.Ok ∧ "-1.".toList = n.text ∧
    (fun x => Fl.fin (r x)) n.val = .fin (r (-1)) :=
  ⟨⟨some true, [1], true, [], none⟩, ⟨by decide, by decide, by simp, by decide⟩, by decide +kernel,
    congrArg (fun x => Fl.fin (r x)) (by simp [Spec.Numeral.val, Spec.natOf, Spec.expoOf]; try norm_num [Nat.ofDigits])⟩

theorem shipNum2 (r : ℝ → ℝ) : ∃ n : Spec.Numeral, n.Ok ∧ "2.".toList = n.text ∧
    (fun x => Fl.fin (r x)) n.val = .fin (r (2)) :=
  ⟨⟨none, [2], true, [], none⟩, ⟨by decide, by decide, by simp, by decide⟩, by decide +kernel,
    congrArg (fun x => Fl.fin (r x)) (by simp [Spec.Numeral.val, Spec.natOf, Spec.expoOf]; try norm_num [Nat.ofDigits])⟩

theorem shipNum3 (r : ℝ → ℝ) : ∃ n : Spec.Numeral, n.Ok ∧ "0.01".toList = n.text ∧
    (fun x => Fl.fin (r x)) n.val = .fin (r (0.01)) :=
  ⟨⟨none, [0], true, [0, 1], none⟩, ⟨by decide, by decide, by simp, by decide⟩, by decide +kernel,
    congrArg (fun x => Fl.fin (r x)) (by simp [Spec.Numeral.val, Spec.natOf, Spec.expoOf]; try norm_num [Nat.ofDigits])⟩

theorem shipNum4 (r : ℝ → ℝ) : ∃ n : Spec.Numeral, n.Ok ∧ "5.".toList = n.text ∧
    (fun x => Fl.fin (r x)) n.val = .fin (r (5)) :=
  ⟨⟨none, [5], true, [], none⟩, ⟨by decide, by decide, by simp, by decide⟩, by decide +kernel,
    congrArg (fun x => Fl.fin (r x)) (by simp [Spec.Numeral.val, Spec.natOf, Spec.expoOf]; try norm_num [Nat.ofDigits])⟩

theorem shipNum5 (r : ℝ → ℝ) : ∃ n : Spec.Numeral, n.Ok ∧ "0".toList = n.text ∧
    (fun x => Fl.fin (r x)) n.val = .fin (r (0)) :=
  ⟨⟨none, [0], false, [], none⟩, ⟨by decide, by decide, by simp, by decide⟩, by decide +kernel,
    congrArg (fun x => Fl.fin (r x)) (by simp [Spec.Numeral.val, Spec.natOf, Spec.expoOf]; try norm_num [Nat.ofDigits])⟩

theorem shipNum6 (r : ℝ → ℝ) : ∃ n : Spec.Numeral, n.Ok ∧ "-25.".toList = n.text ∧
    (fun x => Fl.fin (r x)) n.val = .fin (r (-25)) :=
  ⟨⟨some true, [2, 5], true, [], none⟩, ⟨by decide, by decide, by simp, by decide⟩, by decide +kernel,
    congrArg (fun x => Fl.fin (r x)) (by simp [Spec.Numeral.val, Spec.natOf, Spec.expoOf]; try norm_num [Nat.ofDigits])⟩

theorem shipNum7 (r : ℝ → ℝ) : ∃ n : Spec.Numeral, n.Ok ∧ "1.".toList = n.text ∧
    (fun x => Fl.fin (r x)) n.val = .fin (r (1)) :=
  ⟨⟨none, [1], true, [], none⟩, ⟨by decide, by decide, by simp, by decide⟩, by decide +kernel,
    congrArg (fun x => Fl.fin (r x)) (by simp [Spec.Numeral.val, Spec.natOf, Spec.expoOf]; try norm_num [Nat.ofDigits])⟩

theorem shipNum8 (r : ℝ → ℝ) : ∃ n : Spec.Numeral, n.Ok ∧ "-0.01".toList = n.text ∧
    (fun x => Fl.fin (r x)) n.val = .fin (r (-0.01)) :=
  ⟨⟨some true, [0], true, [0, 1], none⟩, ⟨by decide, by decide, by simp, by decide⟩, by decide +kernel,
    congrArg (fun x => Fl.fin (r x)) (by simp [Spec.Numeral.val, Spec.natOf, Spec.expoOf]; try norm_num [Nat.ofDigits])⟩

theorem shipNum9 (r : ℝ → ℝ) : ∃ n : Spec.Numeral, n.Ok ∧ "-5.".toList = n.text ∧
    (fun x => Fl.fin (r x)) n.val = .fin (r (-5)) :=
  ⟨⟨some true, [5], true, [], none⟩, ⟨by decide, by decide, by simp, by decide⟩, by decide +kernel,
    congrArg (fun x => Fl.fin (r x)) (by simp [Spec.Numeral.val, Spec.natOf, Spec.expoOf]; try norm_num [Nat.ofDigits])⟩

theorem shipNum10 (r : ℝ → ℝ) : ∃ n : Spec.Numeral, n.Ok ∧ "-14.5".toList = n.text ∧
    (fun x => Fl.fin (r x)) n.val = .fin (r (-14.5)) :=
  ⟨⟨some true, [1, 4], true, [5], none⟩, ⟨by decide, by decide, by simp, by decide⟩, by decide +kernel,
    congrArg (fun x => Fl.fin (r x)) (by simp [Spec.Numeral.val, Spec.natOf, Spec.expoOf]; try norm_num [Nat.ofDigits])⟩

theorem shipNum11 (r : ℝ → ℝ) : ∃ n : Spec.Numeral, n.Ok ∧ "1.4".toList = n.text ∧
    (fun x => Fl.fin (r x)) n.val = .fin (r (1.4)) :=
  ⟨⟨none, [1], true, [4], none⟩, ⟨by decide, by decide, by simp, by decide⟩, by decide +kernel,
    congrArg (fun x => Fl.fin (r x)) (by simp [Spec.Numeral.val, Spec.natOf, Spec.expoOf]; try norm_num [Nat.ofDigits])⟩

theorem shipNum12 (r : ℝ → ℝ) : ∃ n : Spec.Numeral, n.Ok ∧ "0.".toList = n.text ∧
    (fun x => Fl.fin (r x)) n.val = .fin (r (0)) :=
  ⟨⟨none, [0], true, [], none⟩, ⟨by decide, by decide, by simp, by decide⟩, by decide +kernel,
    congrArg (fun x => Fl.fin (r x)) (by simp [Spec.Numeral.val, Spec.natOf, Spec.expoOf]; try norm_num [Nat.ofDigits])⟩

theorem shipNum13 (r : ℝ → ℝ) : ∃ n : Spec.Numeral, n.Ok ∧ ".01".toList = n.text ∧
    (fun x => Fl.fin (r x)) n.val = .fin (r (0.01)) :=
  ⟨⟨none, [], true, [0, 1], none⟩, ⟨by decide, by decide, by simp, by decide⟩, by decide +kernel,
    congrArg (fun x => Fl.fin (r x)) (by simp [Spec.Numeral.val, Spec.natOf, Spec.expoOf]; try norm_num [Nat.ofDigits])⟩

theorem shipNum14 (r : ℝ → ℝ) : ∃ n : Spec.Numeral, n.Ok ∧ "-10.".toList = n.text ∧
    (fun x => Fl.fin (r x)) n.val = .fin (r (-10)) :=
  ⟨⟨some true, [1, 0], true, [], none⟩, ⟨by decide, by decide, by simp, by decide⟩, by decide +kernel,
    congrArg (fun x => Fl.fin (r x)) (by simp [Spec.Numeral.val, Spec.natOf, Spec.expoOf]; try norm_num [Nat.ofDigits])⟩

theorem shipNum15 (r : ℝ → ℝ) : ∃ n : Spec.Numeral, n.Ok ∧ "1.5".toList = n.text ∧
    (fun x => Fl.fin (r x)) n.val = .fin (r (1.5)) :=
  ⟨⟨none, [1], true, [5], none⟩, ⟨by decide, by decide, by simp, by decide⟩, by decide +kernel,
    congrArg (fun x => Fl.fin (r x)) (by simp [Spec.Numeral.val, Spec.natOf, Spec.expoOf]; try norm_num [Nat.ofDigits])⟩

theorem shipNum16 (r : ℝ → ℝ) : ∃ n : Spec.Numeral, n.Ok ∧ "0.1".toList = n.text ∧
    (fun x => Fl.fin (r x)) n.val = .fin (r (0.1)) :=
  ⟨⟨none, [0], true, [1], none⟩, ⟨by decide, by decide, by simp, by decide⟩, by decide +kernel,
    congrArg (fun x => Fl.fin (r x)) (by simp [Spec.Numeral.val, Spec.natOf, Spec.expoOf]; try norm_num [Nat.ofDigits])⟩

theorem shipped_given_bound_max (r : ℝ → ℝ) :
    Spec.GivenNumbers (fun x => .fin (r x)) shippedSecs "bound_max" (defaultConfig.boundMax.map r) :=
  ⟨shipped_bound_max.words, by decide,
    ⟨[], shipped_bound_max, [shipped_bound_min, shipped_excluded, shipped_fixed, shipped_init],
      rfl, rfl, rfl, rfl, by decide⟩,
    .cons (shipNum0 r) (.cons (shipNum1 r) (.cons (shipNum2 r) (.cons (shipNum3 r) (
    .cons (shipNum3 r) (.cons (shipNum4 r) (.cons (shipNum4 r) (.cons (shipNum4 r) .nil)))))))⟩

theorem shipped_given_bound_min (r : ℝ → ℝ) :
    Spec.GivenNumbers (fun x => .fin (r x)) shippedSecs "bound_min" (defaultConfig.boundMin.map r) :=
  ⟨shipped_bound_min.words, by decide,
    ⟨[shipped_bound_max], shipped_bound_min, [shipped_excluded, shipped_fixed, shipped_init],
      rfl, rfl, rfl, rfl, by decide⟩,
    .cons (shipNum5 r) (.cons (shipNum6 r) (.cons (shipNum7 r) (.cons (shipNum8 r) (
    .cons (shipNum8 r) (.cons (shipNum9 r) (.cons (shipNum9 r) (.cons (shipNum9 r) .nil)))))))⟩

theorem shipped_given_fixed (r : ℝ → ℝ) :
    Spec.GivenNumbers (fun x => .fin (r x)) shippedSecs "fixed" (defaultConfig.fixed.map r) :=
  ⟨shipped_fixed.words, by decide,
    ⟨[shipped_bound_max, shipped_bound_min, shipped_excluded], shipped_fixed, [shipped_init],
      rfl, rfl, rfl, rfl, by decide⟩,
    .cons (shipNum7 r) (.cons (shipNum10 r) (.cons (shipNum11 r) (.cons (shipNum12 r) (
    .cons (shipNum12 r) (.cons (shipNum12 r) (.cons (shipNum12 r) (.cons (shipNum12 r) .nil)))))))⟩

theorem shipped_init_nums (r : ℝ → ℝ) : List.Forall₂ (fun w x => ∃ n : Spec.Numeral, n.Ok ∧ w = n.text ∧
    (fun x => Fl.fin (r x)) n.val = .fin x) shipped_init.words (defaultConfig.init.map r) :=
  .cons (shipNum13 r) (.cons (shipNum14 r) (.cons (shipNum15 r) (.cons (shipNum12 r) (
    .cons (shipNum12 r) (.cons (shipNum16 r) (.cons (shipNum16 r) (.cons (shipNum16 r) .nil)))))))

theorem shipped_given_init (r : ℝ → ℝ) :
    Spec.GivenNumbers (fun x => .fin (r x)) shippedSecs "init" (defaultConfig.init.map r) :=
  ⟨shipped_init.words, by decide,
    ⟨[shipped_bound_max, shipped_bound_min, shipped_excluded, shipped_fixed], shipped_init, [],
      rfl, rfl, rfl, rfl, by decide⟩,
    shipped_init_nums r⟩

theorem shipped_given_excluded : Spec.GivenExcluded shippedSecs [1, 2, 3, 4, 5] :=
  .inl ⟨by simp, [shipped_bound_max, shipped_bound_min], shipped_excluded, [shipped_fixed, shipped_init], rfl, rfl, rfl,
    by decide, by decide⟩

/-- **C105.**  The file that comes with the package: a fit reads from it the numbers of `defaultConfig`, each rounded as
`float()` rounds it, so all that is proved for `defaultConfig` holds for a fit that is given no file.  -/
theorem C105_shipped {other : Str → Tag} (ho : ∀ n : Spec.Numeral, n.Ok → other n.text = .str) (r : ℝ → ℝ)
    {N M : ℕ} (a : Verif.Fit.Input N M) :
    ∃ p, fitText (fun x => .fin (r x)) other (['\n'].intercalate (Spec.shipped.map String.toList)) a = some p ∧
      ∀ fs, p.run fs = (Verif.Fit.fitZpoly { a with cfg := ⟨[1, 2, 3, 4, 5], defaultConfig.fixed.map r,
        defaultConfig.init.map r, defaultConfig.boundMin.map r, defaultConfig.boundMax.map r⟩ }).run fs := by
  rw [shipped_text]
  exact C105_fit ho _ _ shipped_pre_ok shipped_secs_ok [1, 2, 3, 4, 5] _ _ _ _ shipped_given_excluded
    (shipped_given_fixed r) (shipped_given_init r) (shipped_given_bound_min r) (shipped_given_bound_max r) a

/-! ## Examples -/

/-- The shipped file meets the conditions of `C105_stored`, with the exact numbers and any optimiser that keeps the
bounds; parameters 1 to 5 are stored as -14.5, 1.4, 0, 0, 0. -/
example {N M : ℕ} (a : Verif.Fit.Input N M) (hb : Spec.InBounds a.solver) :
    ∃ p, fitText (fun x => .fin x) (fun _ => .str) (['\n'].intercalate (Spec.shipped.map String.toList)) a = some p ∧
      ∀ fs fs' d, p.run fs = (.ok d, fs') → (fs d = none ∨ isDir fs d) → ∀ k, 1 ≤ k → k ≤ a.orderMax →
        ∃ names fit start, fs' (Spec.file "fitpar" k :: d) = some (.file (.params names fit start)) ∧
          fit[1]? = some (-14.5 : ℝ) ∧ fit[2]? = some (1.4 : ℝ) ∧ fit[5]? = some (0 : ℝ) := by
  rw [shipped_text]
  obtain ⟨p, hp, h⟩ := C105_stored (rd := fun x => .fin (id x)) (other := fun _ => .str) (fun _ _ => rfl) _ _
    shipped_pre_ok shipped_secs_ok [1, 2, 3, 4, 5] _ _ _ _ shipped_given_excluded
    (shipped_given_fixed id) (shipped_given_init id) (shipped_given_bound_min id) (shipped_given_bound_max id)
    (by rw [List.map_id, List.map_id, List.map_id, List.map_id]; exact default_feasible) a hb
  refine ⟨p, hp, fun fs fs' d hr hd k hk hk' => ?_⟩
  obtain ⟨names, fit, start, h1, -, -, -, h2⟩ := h fs fs' d hr hd k hk hk'
  refine ⟨names, fit, start, h1, ?_, ?_, ?_⟩ <;> rw [h2 _ (by simp)] <;> simp [defaultConfig]

/-- All lines of `excluded` commented out. -/
def noneExcluded : Spec.Section :=
  ⟨"excluded".toList, none, [], [.off 0 " - 0".toList, .off 0 " - 1       # c_dB".toList]⟩

/-- All sections. -/
def commentedOut : List Spec.Section :=
  [shipped_bound_max, shipped_bound_min, noneExcluded, shipped_fixed, shipped_init]

example {N M : ℕ} (a : Verif.Fit.Input N M) (hn : 1 ≤ a.orderMax) (hsnr : ∀ i, ∃ x, a.snr i = .ok x)
    (fs fs1 : FS Content) (d : Path) (hd : (Verif.Fit.allocDir a.workDir a.name).run fs = (.ok d, fs1)) :
    ∃ p, fitText (fun x => .fin x) (fun _ => .str) (Spec.cfgText shippedPre commentedOut) a = some p ∧
      p.run fs = (.error .indexError, fs1) := by
  refine C105_none (fun _ _ => rfl) rfl shippedPre commentedOut shipped_pre_ok ?_ (defaultConfig.init.map id)
    (.inl ⟨[shipped_bound_max, shipped_bound_min], _, [shipped_fixed, shipped_init],
      rfl, rfl, rfl, rfl, by decide⟩)
    ⟨shipped_init.words, by decide,
    ⟨[shipped_bound_max, shipped_bound_min, noneExcluded, shipped_fixed], shipped_init, [],
      rfl, rfl, rfl, rfl, by simp⟩,
      (shipped_init_nums id)⟩ a hn hsnr fs fs1 d hd
  simp only [commentedOut, List.mem_cons, List.not_mem_nil, or_false, forall_eq_or_imp, forall_eq]
  refine ⟨shipped_bound_max_ok, shipped_bound_min_ok, ?_, shipped_fixed_ok, shipped_init_ok⟩
  exact
    { key := by decide +kernel
      keyChars := by decide +kernel
      tail := .inl ⟨0, rfl⟩
      visible := fun c h => absurd (show c ∈ ([] : Str) from h) List.not_mem_nil
      lines := List.forall_mem_cons.2 ⟨off_ok (by decide +kernel),
        List.forall_mem_cons.2 ⟨off_ok (by decide +kernel), by simp⟩⟩
      value := fun w h => absurd (show (none : Option Str) = some w from h) (by simp) }

end Verif.Props
