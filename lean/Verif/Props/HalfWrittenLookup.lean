import Mathlib.Data.List.GetD
import Verif.Props.HalfWritten
import Verif.Props.Lookup
import Verif.Props.Rings

/-!
# C133: a look-up table that was not written to its end

`write_lookup` is stopped, or the disk is full: the file holds a first part of the text.
-/

namespace Verif.Props

open Verif Verif.Np Verif.Actuator

/-! ## Specification -/

/-- The table `v` in which the last displacement, the one of the last actuator at the zenith, has lost its last `i`
digits. -/
def Spec.cutLast (v : Fin 11 → Fin 96 → ℤ) (i : ℕ) : Fin 11 → Fin 96 → ℤ := fun j k =>
  if j = 10 ∧ k = 95 then (v j k).tdiv (10 ^ i) else v j k

/-! ## First parts of numbers -/

theorem decNat_small {n : ℕ} (h : n < 10) : decNat n = [digitChar n] := by
  unfold decNat
  split_ifs with h0
  · subst h0; rfl
  · rw [Nat.digits_of_lt 10 n h0 h]; rfl

theorem decNat_last {n : ℕ} (h : 10 ≤ n) : decNat n = decNat (n / 10) ++ [digitChar (n % 10)] := by
  unfold decNat
  rw [if_neg (by omega), if_neg (by omega), Nat.digits_def' (by norm_num) (by omega)]
  simp

theorem decNat_prefix (n : ℕ) {w : Str} (hw : w <+: decNat n) (h0 : w ≠ []) :
    ∃ i, w = decNat (n / 10 ^ i) ∧ (n ≠ 0 → n / 10 ^ i ≠ 0) := by
  induction n using Nat.strong_induction_on with
  | _ n ih =>
    by_cases h : n < 10
    · refine ⟨0, ?_, by simp⟩
      rw [pow_zero, Nat.div_one]
      rw [decNat_small h] at hw ⊢
      rcases List.prefix_cons_iff.1 hw with rfl | ⟨t, rfl, ht⟩
      · exact absurd rfl h0
      · rw [List.prefix_nil] at ht
        rw [ht]
    · rw [decNat_last (by omega)] at hw
      rcases List.prefix_concat_iff.1 hw with rfl | hw
      · exact ⟨0, by rw [pow_zero, Nat.div_one, decNat_last (n := n) (by omega)], by simp⟩
      · obtain ⟨i, hi, hi'⟩ := ih (n / 10) (by omega) hw
        refine ⟨i + 1, ?_, fun _ => ?_⟩
        · rw [hi, Nat.div_div_eq_div_mul, pow_succ']
        · rw [pow_succ', ← Nat.div_div_eq_div_mul]
          exact hi' (by omega)

theorem decNat_shorter (n i : ℕ) (h : n / 10 ^ i ≠ 0) : decNat (n / 10 ^ i) <+: decNat n := by
  induction i with
  | zero => simp
  | succ i ih =>
    have e : n / 10 ^ (i + 1) = n / 10 ^ i / 10 := by rw [pow_succ, Nat.div_div_eq_div_mul]
    rw [e] at h ⊢
    refine List.IsPrefix.trans ?_ (ih (by intro h0; rw [h0] at h; simp at h))
    generalize n / 10 ^ i = m at h ⊢
    rw [decNat_last (n := m) (by omega)]
    exact List.prefix_append _ _

theorem decInt_tdiv (z : ℤ) (i : ℕ) (h : z.natAbs / 10 ^ i ≠ 0 ∨ 0 ≤ z) :
    decInt (z.tdiv (10 ^ i)) = if z < 0 then '-' :: decNat (z.natAbs / 10 ^ i) else decNat (z.natAbs / 10 ^ i) := by
  have hn : (z.tdiv (10 ^ i)).natAbs = z.natAbs / 10 ^ i := by
    rw [Int.natAbs_tdiv, Int.natAbs_pow]
    rfl
  unfold decInt
  rw [hn]
  by_cases hz : z < 0
  · have h1 : z.natAbs / 10 ^ i ≠ 0 := h.resolve_right (not_le.2 hz)
    have : z.tdiv (10 ^ i) < 0 := by
      have h2 : z.tdiv (10 ^ i) ≤ 0 := by
        rw [← neg_neg z, Int.neg_tdiv]
        exact neg_nonpos.2 (Int.tdiv_nonneg (by omega) (by positivity))
      refine lt_of_le_of_ne h2 fun h3 => h1 ?_
      rw [← hn, h3]
      rfl
    rw [if_pos this, if_pos hz]
  · rw [if_neg hz, if_neg (not_lt.2 (Int.tdiv_nonneg (not_lt.1 hz) (by positivity)))]

theorem decInt_prefix (z : ℤ) {w : Str} (hw : w <+: decInt z) (h0 : w ≠ []) :
    w = ['-'] ∨ ∃ i : ℕ, w = decInt (z.tdiv (10 ^ i)) := by
  unfold decInt at hw
  split_ifs at hw with hz
  · rcases List.prefix_cons_iff.1 hw with rfl | ⟨t, rfl, ht⟩
    · exact absurd rfl h0
    · by_cases ht0 : t = []
      · exact .inl (by rw [ht0])
      · obtain ⟨i, rfl, hi⟩ := decNat_prefix _ ht ht0
        exact .inr ⟨i, by rw [decInt_tdiv z i (.inl (hi (by omega))), if_pos hz]⟩
  · obtain ⟨i, rfl, hi⟩ := decNat_prefix _ hw h0
    exact .inr ⟨i, by rw [decInt_tdiv z i (.inr (not_lt.1 hz)), if_neg hz]⟩

theorem decInt_shorter (z : ℤ) (i : ℕ) (h : 10 ^ i ≤ z.natAbs) :
    decInt (z.tdiv (10 ^ i)) <+: decInt z := by
  have h1 : z.natAbs / 10 ^ i ≠ 0 := by
    rw [Nat.ne_zero_iff_zero_lt]
    exact Nat.div_pos h (by positivity)
  rw [decInt_tdiv z i (.inl h1)]
  unfold decInt
  split_ifs
  · exact (List.prefix_cons_inj _).2 (decNat_shorter _ _ h1)
  · exact decNat_shorter _ _ h1

/-! ## First parts of lines -/

theorem words_lead {c : Char} (hc : c ≠ ' ' ∧ c ≠ '\t') (s : Str) (hs : '\t' ∉ s) : Act.words (c :: s) ≠ [] := by
  have key : ∀ (s w : Str), '\t' ∉ s → w ≠ [] → (∀ c ∈ w, c ≠ ' ' ∧ c ≠ '\t') → Act.words (w ++ s) ≠ [] := by
    intro s
    induction s with
    | nil =>
      intro w _ h0 hw
      rw [List.append_nil, Act.words_word hw h0]
      simp
    | cons d s ih =>
      intro w hs h0 hw
      by_cases hd : d = ' '
      · subst hd
        rw [Act.words_cons hw h0]
        simp
      · have := ih (w ++ [d]) (fun h => hs (by simp [h])) (by simp) (by
          intro c hc
          rcases List.mem_append.1 hc with h | h
          · exact hw c h
          · rw [List.mem_singleton] at h
            subst h
            exact ⟨hd, fun h => hs (by simp [h])⟩)
        simpa using this
  exact key s [c] hs (by simp) (by simpa using hc)

/-- The words of a first part of a line: some words, and a first part of the next one. -/
theorem words_prefix (s : Str) (hs : '\t' ∉ s) (u : Str) (hu : u <+: s) :
    Act.words u = [] ∨ ∃ a full b w, Act.words s = a ++ full :: b ∧ w ≠ [] ∧ w <+: full ∧ Act.words u = a ++ [w] := by
  induction hn : s.length using Nat.strong_induction_on generalizing s u with
  | _ n ih =>
    cases s with
    | nil =>
      rw [List.prefix_nil] at hu
      subst hu
      exact .inl rfl
    | cons c s =>
      by_cases hc : c = ' '
      · subst hc
        rcases List.prefix_cons_iff.1 hu with rfl | ⟨t, rfl, ht⟩
        · exact .inl rfl
        · rw [Act.words_blank, Act.words_blank]
          exact ih s.length (by simp at hn; omega) s (fun h => hs (by simp [h])) t ht rfl
      · set p : Char → Bool := fun d => decide (d ≠ ' ') with hp
        set w0 := (c :: s).takeWhile p with hw0
        have hsplit : c :: s = w0 ++ (c :: s).dropWhile p := (List.takeWhile_append_dropWhile).symm
        have hne : w0 ≠ [] := by
          rw [hw0, List.takeWhile_cons, if_pos (by simp [hp, hc])]
          simp
        have hwc : ∀ d ∈ w0, d ≠ ' ' ∧ d ≠ '\t' := by
          intro d hd
          refine ⟨by simpa [hp] using List.mem_takeWhile_imp hd, fun h => hs ?_⟩
          rw [hsplit]
          exact List.mem_append_left _ (h ▸ hd)
        have base : ∀ r, Act.words (c :: s) = w0 :: r → u <+: w0 → Act.words u = [] ∨ ∃ a full b w,
            Act.words (c :: s) = a ++ full :: b ∧ w ≠ [] ∧ w <+: full ∧ Act.words u = a ++ [w] := by
          intro r hr h
          by_cases hu0 : u = []
          · subst hu0
            exact .inl rfl
          · exact .inr ⟨[], w0, r, u, hr, hu0, h, Act.words_word (fun d hd => hwc d (h.subset hd)) hu0⟩
        cases hd : (c :: s).dropWhile p with
        | nil =>
          rw [hd, List.append_nil] at hsplit
          exact base [] (by rw [hsplit]; exact Act.words_word hwc hne) (hsplit ▸ hu)
        | cons d r =>
          have hdb : d = ' ' := by
            have h1 : ((c :: s).dropWhile p) ≠ [] := by rw [hd]; simp
            have h2 := List.head_dropWhile_not p h1
            have h3 : ((c :: s).dropWhile p).head h1 = d := by simp only [hd, List.head_cons]
            rw [h3] at h2
            simpa [hp] using h2
          subst hdb
          rw [hd] at hsplit
          have hws : Act.words (c :: s) = w0 :: Act.words r := by rw [hsplit, Act.words_cons hwc hne]
          rw [hsplit] at hu
          rcases prefix_append_cases hu with h | ⟨v, rfl, hv⟩
          · exact base _ hws h
          rcases List.prefix_cons_iff.1 hv with rfl | ⟨t, rfl, ht⟩
          · exact base _ hws (by simp)
          · have hlen : r.length < n := by
              have := congrArg List.length hsplit
              simp at this hn
              omega
            have hrt : '\t' ∉ r := fun h => hs (by rw [hsplit]; simp [h])
            rw [hws, Act.words_cons hwc hne]
            rcases ih r.length hlen r hrt t ht rfl with h | ⟨a, full, b, w, e1, e2, e3, e4⟩
            · exact .inr ⟨[], w0, Act.words r, w0, rfl, hne, List.prefix_refl _, by rw [h]; rfl⟩
            · exact .inr ⟨w0 :: a, full, b, w, by rw [e1]; rfl, e2, e3, by rw [e4]; rfl⟩

/-- The line of an actuator without its end. -/
def lookupBody (k : ℕ) (l : List ℤ) : Str :=
  "NR ".toList ++ decNat (k + 1) ++ " ffff ".toList ++ "  ".toList.intercalate (l.map decInt)

theorem lookupRow_body (k : ℕ) (l : List ℤ) : Spec.lookupRow k l = lookupBody k l ++ ['\n'] := by
  unfold Spec.lookupRow lookupBody
  rw [joined_eq]
  rfl

theorem lookupBody_words (k : ℕ) (l : List ℤ) :
    Act.words (lookupBody k l) = "NR".toList :: decNat (k + 1) :: "ffff".toList :: l.map decInt := Act.line_words k l

theorem lookupBody_chars {k : ℕ} {l : List ℤ} {c : Char} (h : c ∈ lookupBody k l) : c ≠ '\n' ∧ c ≠ '*' :=
  Act.line_chars h

theorem lookupBody_tab (k : ℕ) (l : List ℤ) : '\t' ∉ lookupBody k l := by
  intro h
  unfold lookupBody at h
  rw [List.mem_append, List.mem_append, List.mem_append] at h
  rcases h with ((h | h) | h) | h
  · revert h; decide
  · exact (Act.char_ok (.inr (decNat_isDigit h))).2.1 rfl
  · revert h; decide
  · rcases Act.mem_intercalate h with h | ⟨w, hw, hc⟩
    · revert h; decide
    · obtain ⟨z, -, rfl⟩ := List.mem_map.1 hw
      exact (Act.char_ok (Act.decInt_chars hc)).2.1 rfl

/-! ## First parts of the file -/

/-- The first `k` actuators. -/
def firstOf {n : ℕ} (v : Fin 11 → Fin n → ℤ) {k : ℕ} (hk : k ≤ n) : Fin 11 → Fin k → ℤ := fun j i => v j (i.castLE hk)

theorem lookupRows_succ {n : ℕ} (v : Fin 11 → Fin (n + 1) → ℤ) : Spec.lookupRows v =
    Spec.lookupRows (firstOf v n.le_succ) ++ (lookupBody n (List.ofFn fun j => v j (Fin.last n)) ++ ['\n']) := by
  unfold Spec.lookupRows
  rw [List.ofFn_succ', List.concat_eq_append, List.flatten_append, List.flatten_singleton, lookupRow_body]
  rfl

/-- A first part of the lines: complete lines, and a first part of the next one. -/
theorem rows_cut {n : ℕ} (v : Fin 11 → Fin n → ℤ) (p : Str) (hp : p <+: Spec.lookupRows v) :
    ∃ (k : ℕ) (hk : k ≤ n) (u : Str), p = Spec.lookupRows (firstOf v hk) ++ u ∧
      (u = [] ∨ u ≠ [] ∧ ∃ h : k < n, u <+: lookupBody k (List.ofFn fun j => v j ⟨k, h⟩)) := by
  induction n with
  | zero =>
    refine ⟨0, le_rfl, [], ?_, .inl rfl⟩
    rw [List.append_nil]
    have : p = [] := by simpa [Spec.lookupRows] using hp
    rw [this]
    rfl
  | succ n ih =>
    rw [lookupRows_succ] at hp
    rcases prefix_append_cases hp with h | ⟨u, rfl, hu⟩
    · obtain ⟨k, hk, u, e1, e2⟩ := ih _ h
      refine ⟨k, hk.trans n.le_succ, u, e1, e2.imp_right fun h2 => ⟨h2.1, ?_⟩⟩
      obtain ⟨h3, h4⟩ := h2.2
      exact ⟨h3.trans n.lt_succ_self, h4⟩
    · rcases List.prefix_concat_iff.1 hu with rfl | hu
      · exact ⟨n + 1, le_rfl, [], by rw [List.append_nil]; exact (lookupRows_succ v).symm, .inl rfl⟩
      · refine ⟨n, n.le_succ, u, rfl, ?_⟩
        by_cases h0 : u = []
        · exact .inl h0
        · exact .inr ⟨h0, n.lt_succ_self, hu⟩

theorem tableRows_append {n : ℕ} (v : Fin 11 → Fin n → ℤ) (r : Str) :
    Act.tableRows (Spec.lookupRows v ++ r) = Act.tableRows (Spec.lookupRows v) ++ Act.tableRows r := by
  induction n generalizing r with
  | zero => rfl
  | succ n ih =>
    rw [lookupRows_succ, List.append_assoc, ih, ih, List.append_assoc, List.append_assoc, List.singleton_append,
      Act.tableRows_line (fun h => (lookupBody_chars h).1 rfl) (by rw [lookupBody_words]; simp)]
    have := Act.tableRows_line (s := lookupBody n (List.ofFn fun j => v j (Fin.last n)))
      (fun h => (lookupBody_chars h).1 rfl) (by rw [lookupBody_words]; simp) []
    rw [this]
    rfl

theorem tableRows_single {u : Str} (h1 : '\n' ∉ u) (h2 : Act.words u ≠ []) : Act.tableRows u = [Act.words u] := by
  unfold Act.tableRows
  rw [List.splitOnP_eq_singleton fun c hc => by simpa using fun h : c = '\n' => h1 (h ▸ hc)]
  simp [h2]

/-- `u` is a first part of the line of actuator `k`. -/
theorem body_cut (k : ℕ) (l : List ℤ) (hl : l.length = 11) (u : Str) (h0 : u ≠ []) (hu : u <+: lookupBody k l) :
    ∃ ws, Act.words u = ws ∧ ws ≠ [] ∧ (ws.length ≠ 14 ∨ ∃ w, w ≠ [] ∧ w <+: decInt (l.getD 10 0) ∧
      ws = "NR".toList :: decNat (k + 1) :: "ffff".toList :: ((l.take 10).map decInt ++ [w])) := by
  have hne : Act.words u ≠ [] := by
    have e : ∃ r, lookupBody k l = 'N' :: r := ⟨_, rfl⟩
    obtain ⟨r, e⟩ := e
    have ht := lookupBody_tab k l
    rw [e] at hu ht
    rcases List.prefix_cons_iff.1 hu with rfl | ⟨t, rfl, ht'⟩
    · exact absurd rfl h0
    · exact words_lead (by decide) t fun h => ht (by simp [ht'.subset h])
  refine ⟨_, rfl, hne, ?_⟩
  rcases words_prefix _ (lookupBody_tab k l) u hu with h | ⟨a, full, b, w, e1, e2, e3, e4⟩
  · exact absurd h hne
  · by_cases h14 : (Act.words u).length = 14
    · right
      rw [lookupBody_words] at e1
      have ha : a.length = 13 := by
        rw [e4] at h14
        simpa using h14
      have hb : b = [] := by
        have := congrArg List.length e1
        simp [hl, ha] at this
        exact List.length_eq_zero_iff.1 (by omega)
      subst hb
      have hl2 : l = l.take 10 ++ [l.getD 10 0] := by
        conv_lhs => rw [← List.take_append_drop 10 l]
        rw [List.drop_eq_getElem_cons (by omega), List.getD_eq_getElem _ _ (by omega),
          List.drop_eq_nil_of_le (by omega)]
      rw [hl2, List.map_append] at e1
      have e5 : ("NR".toList :: decNat (k + 1) :: "ffff".toList :: (l.take 10).map decInt) ++ [decInt (l.getD 10 0)] =
          a ++ [full] := by simpa using e1
      obtain ⟨e6, e7⟩ := List.append_inj' e5 rfl
      refine ⟨w, e2, ?_, ?_⟩
      · rw [List.singleton_inj.1 e7]
        exact e3
      · rw [e4, ← e6]
        rfl
    · exact .inl h14

/-! ## What is read -/

theorem beforeEnd_append {s : Str} (hs : '*' ∉ s) (r : Str) : Act.beforeEnd (s ++ r) = s ++ Act.beforeEnd r := by
  induction s with
  | nil => rfl
  | cons c s ih =>
    have hc : c ≠ '*' := fun h => hs (h ▸ List.mem_cons_self)
    rw [List.cons_append, Act.beforeEnd, ih fun h => hs (List.mem_cons_of_mem _ h)]
    have : "**ENDE**".toList.isPrefixOf (c :: (s ++ r)) = false := by
      simp [List.isPrefixOf, hc.symm]
    rw [this]
    simp

/-- The rows of a text, in the cases that occur. -/
theorem fileRows_prefix (v : Fin 11 → Fin 96 → ℤ) (t : Str) (ht : t <+: Spec.lookupText v) :
    Act.fileRows t = .error .fileNotFoundError ∨ Act.fileRows t = .error .valueError ∨
    (∃ (k : ℕ) (hk : k ≤ 96), 0 < k ∧ Act.beforeEnd t = Spec.lookupRows (firstOf v hk) ∧
      (k < 96 → t = Spec.lookupRows (firstOf v hk))) ∨
    ∃ (k : ℕ) (hk : k < 96) (w : Str), 0 < k ∧ w ≠ [] ∧ w <+: decInt (v 10 ⟨k, hk⟩) ∧
      Act.fileRows t = .ok (Act.tableRows (Spec.lookupRows (firstOf v hk.le)) ++
        ["NR".toList :: decNat (k + 1) :: "ffff".toList ::
          ((List.ofFn fun j => v j ⟨k, hk⟩).take 10).map decInt ++ [w]]) := by
  have hrows : ∀ {k : ℕ} (hk : k ≤ 96) {r}, r ∈ Act.tableRows (Spec.lookupRows (firstOf v hk)) → r.length = 14 := by
    intro k hk r hr
    rw [tableRows_rows] at hr
    obtain ⟨i, rfl⟩ := List.mem_ofFn.1 hr
    simp
  rcases prefix_append_cases ht with h | ⟨m, rfl, hm⟩
  · have hb : Act.beforeEnd t = t := Act.beforeEnd_none fun hc => rows_star v (h.subset hc)
    obtain ⟨k, hk, u, e1, e2⟩ := rows_cut v t h
    by_cases h0 : k = 0
    · subst h0
      left
      unfold Act.fileRows
      rw [hb, if_pos]
      rw [e1]
      rcases e2 with rfl | ⟨-, h1, h2⟩
      · simp [Spec.lookupRows]
      · intro hc
        rcases List.mem_append.1 hc with hc | hc
        · simp [Spec.lookupRows] at hc
        · exact (lookupBody_chars (h2.subset hc)).1 rfl
    rcases e2 with rfl | ⟨h2, h3, h4⟩
    · right; right; left
      rw [List.append_nil] at e1
      exact ⟨k, hk, by omega, by rw [hb, e1], fun _ => e1⟩
    · obtain ⟨ws, hw1, hw2, hw3⟩ := body_cut k _ (by simp) u h2 h4
      have hnl : '\n' ∉ u := fun hc => (lookupBody_chars (h4.subset hc)).1 rfl
      have hT : Act.tableRows t = Act.tableRows (Spec.lookupRows (firstOf v hk)) ++ [ws] := by
        rw [e1, tableRows_append, tableRows_single hnl (by rw [hw1]; exact hw2), hw1]
      have hbr : '\n' ∈ t := by
        rw [e1]
        exact List.mem_append_left _ (rows_break (by omega) _)
      rcases hw3 with h5 | ⟨w, h5, h6, h7⟩
      · right; left
        unfold Act.fileRows
        rw [hb, if_neg (not_not.2 hbr), if_pos]
        exact .inr ⟨ws, by rw [hT]; simp, h5⟩
      · right; right; right
        refine ⟨k, h3, w, by omega, h5, ?_, ?_⟩
        · simpa [List.getD_eq_getElem?_getD] using h6
        · unfold Act.fileRows
          rw [hb, if_neg (not_not.2 hbr), if_neg, hT, h7]
          · rfl
          · rw [hT]
            rintro (h8 | ⟨r, h8, h9⟩)
            · simp at h8
            · rcases List.mem_append.1 h8 with h8 | h8
              · exact h9 (hrows hk h8)
              · rw [List.mem_singleton] at h8
                rw [h8, h7] at h9
                simp at h9
  · have hfull : firstOf v (le_refl 96) = v := rfl
    have hb := beforeEnd_append (rows_star v) m
    by_cases hm0 : Act.beforeEnd m = []
    · right; right; left
      exact ⟨96, le_rfl, by norm_num, by rw [hb, hm0, List.append_nil, hfull], fun h => absurd h (by norm_num)⟩
    · right; left
      have hm2 : Act.tableRows (Act.beforeEnd m) = [[m]] := by
        have hcases : m ∈ ("**ENDE**\n".toList).inits := (List.mem_inits _ _).2 hm
        clear hb hm ht
        revert hm0
        revert m
        decide
      unfold Act.fileRows
      rw [hb, if_neg (not_not.2 (List.mem_append_left _ (rows_break (by norm_num) v))), if_pos]
      rw [tableRows_append, hm2]
      exact .inr ⟨[m], by simp, by simp⟩

/-- A table of which the last number is `z`. -/
theorem tableRows_last {k : ℕ} (v : Fin 11 → Fin (k + 1) → ℤ) (z : ℤ) :
    Act.tableRows (Spec.lookupRows (firstOf v k.le_succ)) ++ ["NR".toList :: decNat (k + 1) :: "ffff".toList ::
        ((List.ofFn fun j => v j (Fin.last k)).take 10).map decInt ++ [decInt z]] =
      Act.tableRows (Spec.lookupRows fun j i => if j = 10 ∧ i = Fin.last k then z else v j i) := by
  rw [lookupRows_succ (fun j i => if j = 10 ∧ i = Fin.last k then z else v j i), tableRows_append]
  have h1 : (firstOf (fun j i => if j = 10 ∧ i = Fin.last k then z else v j i) k.le_succ) = firstOf v k.le_succ := by
    funext j i
    refine if_neg ?_
    rintro ⟨-, h⟩
    have h1 := congrArg Fin.val h
    have h2 := i.isLt
    rw [Fin.val_castLE, Fin.val_last] at h1
    omega
  have h2 := Act.tableRows_line
    (s := lookupBody k (List.ofFn fun j => if j = 10 ∧ Fin.last k = Fin.last k then z else v j (Fin.last k)))
    (fun h => (lookupBody_chars h).1 rfl) (by rw [lookupBody_words]; simp) []
  rw [h1, h2, lookupBody_words, Act.tableRows_nil]
  congr 2
  simp [List.ofFn_succ, Fin.ext_iff]

theorem readLookup_congr {s t : Str} (h : Act.fileRows s = Act.fileRows t) : Act.readLookup s = Act.readLookup t := by
  unfold Act.readLookup
  rw [h]

theorem readSurface_congr (a : Act) {s t : Str} (h : Act.fileRows s = Act.fileRows t) :
    a.readSurface s = a.readSurface t := by
  unfold Act.readSurface
  rw [h]

/-- A last number that is only a sign. -/
theorem minus_column {k : ℕ} (v : Fin 11 → Fin (k + 1) → ℤ) :
    ((List.range 11).mapM fun j => Act.intColumn (Act.tableRows (Spec.lookupRows (firstOf v k.le_succ)) ++
      ["NR".toList :: decNat (k + 1) :: "ffff".toList ::
        ((List.ofFn fun j => v j (Fin.last k)).take 10).map decInt ++ [['-']]]) (j + 3)) = .error .typeError := by
  have hR : ∀ (j : ℕ) (hj : j < 11), (Act.tableRows (Spec.lookupRows (firstOf v k.le_succ))).mapM
      (fun r => (r[j + 3]?).bind Act.parseInt) = some (List.ofFn fun i : Fin k => firstOf v k.le_succ ⟨j, hj⟩ i) := by
    intro j hj
    rw [tableRows_rows]
    refine mapM_ofFn _ _ _ fun k => ?_
    simp only [List.getElem?_cons_succ]
    rw [List.getElem?_ofFn, dif_pos hj, Option.bind_some, Act.parseInt_decInt]
  rw [show List.range 11 = List.range 10 ++ 10 :: [] from rfl]
  refine mapM_stops _ _ _ _ _ (fun j hj => ?_) ?_
  · have hj := List.mem_range.1 hj
    refine ⟨(List.ofFn fun i : Fin k => firstOf v k.le_succ ⟨j, by omega⟩ i) ++ [v ⟨j, by omega⟩ (Fin.last k)], ?_⟩
    unfold Act.intColumn
    rw [List.mapM_append, hR j (by omega)]
    have : (([("NR".toList :: decNat (k + 1) :: "ffff".toList ::
        ((List.ofFn fun j => v j (Fin.last k)).take 10).map decInt ++ [['-']])]).mapM
        fun r => (r[j + 3]?).bind Act.parseInt) = some [v ⟨j, by omega⟩ (Fin.last k)] := by
      rw [List.mapM_cons, List.mapM_nil]
      have e : (("NR".toList :: decNat (k + 1) :: "ffff".toList ::
        ((List.ofFn fun j => v j (Fin.last k)).take 10).map decInt ++ [['-']])[j + 3]?) =
          some (decInt (v ⟨j, by omega⟩ (Fin.last k))) := by
        simp only [List.cons_append, List.getElem?_cons_succ]
        rw [List.getElem?_append_left (by simp; omega), List.getElem?_map, List.getElem?_take_of_lt hj,
          List.getElem?_ofFn, dif_pos (by omega)]
        rfl
      rw [e, Option.bind_some, Act.parseInt_decInt]
      rfl
    rw [this]
    rfl
  · unfold Act.intColumn
    rw [List.mapM_append, hR 10 (by omega)]
    have : (([("NR".toList :: decNat (k + 1) :: "ffff".toList ::
        ((List.ofFn fun j => v j (Fin.last k)).take 10).map decInt ++ [['-']])]).mapM
        fun r => (r[10 + 3]?).bind Act.parseInt) = none := by
      rw [List.mapM_cons]
      have e : (("NR".toList :: decNat (k + 1) :: "ffff".toList ::
        ((List.ofFn fun j => v j (Fin.last k)).take 10).map decInt ++ [['-']])[10 + 3]?) = some ['-'] := by
        simp only [List.cons_append, List.getElem?_cons_succ]
        rw [List.getElem?_append_right (by simp)]
        simp
      rw [e]
      rfl
    rw [this]
    rfl

/-- What both readers see of a first part of a file. -/
theorem lookup_prefix (v : Fin 11 → Fin 96 → ℤ) (t : Str) (ht : t <+: Spec.lookupText v) :
    (∃ e, (e = .fileNotFoundError ∨ e = .valueError ∨ e = .typeError) ∧ Act.readLookup t = .error e ∧
      ∀ a : Act, a.readSurface t = .error e) ∨
    (∃ (k : ℕ) (u : Fin 11 → Fin k → ℤ), 0 < k ∧ k < 96 ∧ Act.fileRows t = .ok (Act.tableRows (Spec.lookupRows u)) ∧
      (k = 1 → ∃ hk : k ≤ 96, u = firstOf v hk ∧ t = Spec.lookupRows u)) ∨
    ∃ i : ℕ, Act.fileRows t = .ok (Act.tableRows (Spec.lookupRows (Spec.cutLast v i))) := by
  rcases fileRows_prefix v t ht with h | h | ⟨k, hk, h0, hb, hlt⟩ | ⟨k, hk, w, h0, hw0, hw, hr⟩
  · exact .inl ⟨_, .inl rfl, by unfold Act.readLookup; rw [h]; rfl, fun a => by unfold Act.readSurface; rw [h]; rfl⟩
  · exact .inl ⟨_, .inr (.inl rfl), by unfold Act.readLookup; rw [h]; rfl,
      fun a => by unfold Act.readSurface; rw [h]; rfl⟩
  · right
    by_cases hk' : k < 96
    · exact .inl ⟨k, firstOf v hk, h0, hk', fileRows_of h0 _ hb, fun _ => ⟨hk, rfl, hlt hk'⟩⟩
    · obtain rfl : k = 96 := by omega
      refine .inr ⟨0, ?_⟩
      have e : Spec.cutLast v 0 = v := by
        funext j i
        simp [Spec.cutLast]
      rw [e]
      exact fileRows_of h0 _ hb
  · rcases decInt_prefix _ hw hw0 with rfl | ⟨i, rfl⟩
    · left
      have hm := minus_column (firstOf v (Nat.succ_le_of_lt hk))
      refine ⟨_, .inr (.inr rfl), ?_, fun a => ?_⟩
      · unfold Act.readLookup
        rw [hr]
        simp only [bind, Except.bind]
        exact congrArg (fun x : Py (List (List ℤ)) => x.bind fun l => l.mapM Act.assign96) hm
      · unfold Act.readSurface
        rw [hr]
        simp only [bind, Except.bind]
        exact congrArg (fun x : Py (List (List ℤ)) => x.bind fun l => l.mapM a.surfaceMap) hm
    · right
      have hT := tableRows_last (firstOf v (Nat.succ_le_of_lt hk)) ((v 10 ⟨k, hk⟩).tdiv (10 ^ i))
      by_cases hk' : k + 1 < 96
      · exact .inl ⟨k + 1, _, by omega, hk', hr.trans (congrArg _ hT), fun h => absurd h (by omega)⟩
      · obtain rfl : k = 95 := by omega
        refine .inr ⟨i, hr.trans (congrArg _ (hT.trans ?_))⟩
        congr 2
        funext j l
        unfold Spec.cutLast firstOf
        by_cases hj : j = 10 ∧ l = Fin.last 95
        · obtain ⟨rfl, rfl⟩ := hj
          rfl
        · rw [if_neg hj]
          exact (if_neg hj).symm

/-- **C133.**  `read_lookup(interp=False)` of a first part of a look-up table: an exception; or the table, in which the last
number may have lost its last digits; or, if the file ends after the first line, the displacements of the first actuator for
all of them. -/
theorem C133_read (v : Fin 11 → Fin 96 → ℤ) (t : Str) (ht : t <+: Spec.lookupText v) :
    (∃ e, (e = .fileNotFoundError ∨ e = .valueError ∨ e = .typeError) ∧ Act.readLookup t = .error e) ∨
    (∃ i : ℕ, Act.readLookup t =
      .ok (List.ofFn fun j : Fin 11 => List.ofFn fun k : Fin 96 => Spec.cutLast v i j k)) ∨
    t = Spec.lookupRow 0 (List.ofFn fun j => v j 0) ∧
      Act.readLookup t = .ok (List.ofFn fun j : Fin 11 => List.replicate 96 (v j 0)) := by
  rcases lookup_prefix v t ht with ⟨e, h1, h2, -⟩ | ⟨k, u, h0, hk, hr, h1⟩ | ⟨i, hr⟩
  · exact .inl ⟨e, h1, h2⟩
  · have hc : Act.readLookup t = Act.readLookup (Spec.lookupRows u) :=
      readLookup_congr (hr.trans (fileRows_of h0 u (before_rows u).2).symm)
    by_cases hk1 : k = 1
    · obtain ⟨hk', rfl, rfl⟩ := h1 hk1
      subst hk1
      refine .inr (.inr ⟨?_, ?_⟩)
      · simp [Spec.lookupRows, firstOf, List.ofFn_succ]
      · rw [C60_one_line]
        rfl
    · refine .inl ⟨.valueError, .inr (.inl rfl), ?_⟩
      rw [hc, C60_truncated_read hk hk1, if_neg (by omega)]
  · refine .inr (.inl ⟨i, ?_⟩)
    rw [readLookup_congr (hr.trans (fileRows_of (by norm_num) _ (before_rows (Spec.cutLast v i)).1).symm), C60_read]

theorem beforeEnd_prefix (s : Str) : Act.beforeEnd s <+: s := by
  induction s with
  | nil => exact List.prefix_refl _
  | cons c s ih =>
    rw [Act.beforeEnd]
    split_ifs
    · exact List.nil_prefix
    · exact (List.prefix_cons_inj c).2 ih

theorem mapM_raises {α β : Type} (f : α → Py β) (l : List α) (e : PyErr) (h : l.mapM f = .error e) :
    ∃ x ∈ l, f x = .error e := by
  induction l with
  | nil => cases h
  | cons x l ih =>
    rw [List.mapM_cons] at h
    cases hx : f x with
    | error e' =>
      rw [hx] at h
      cases h
      exact ⟨x, by simp, hx⟩
    | ok y =>
      rw [hx] at h
      cases hl : l.mapM f with
      | error e' =>
        rw [hl] at h
        cases h
        obtain ⟨z, hz, hz'⟩ := ih hl
        exact ⟨z, by simp [hz], hz'⟩
      | ok r =>
        rw [hl] at h
        cases h

/-- **C133.**  `FileNotFoundError` is for the files without a complete line, the other exceptions for the other files. -/
theorem C133_first (v : Fin 11 → Fin 96 → ℤ) (t : Str) (ht : t <+: Spec.lookupText v) :
    Act.readLookup t = .error .fileNotFoundError ↔ '\n' ∉ t := by
  constructor
  · intro h hn
    have hb : '\n' ∈ Act.beforeEnd t := by
      rcases prefix_append_cases ht with h1 | ⟨m, rfl, -⟩
      · rw [Act.beforeEnd_none fun hc => rows_star v (h1.subset hc)]
        exact hn
      · rw [beforeEnd_append (rows_star v)]
        exact List.mem_append_left _ (rows_break (by norm_num) v)
    unfold Act.readLookup Act.fileRows at h
    rw [if_neg (not_not.2 hb)] at h
    split_ifs at h with h1
    · cases h
    · simp only [bind, Except.bind] at h
      split at h
      · rename_i e he
        obtain ⟨j, -, hj⟩ := mapM_raises _ _ _ he
        cases h
        unfold Act.intColumn at hj
        split at hj <;> cases hj
      · obtain ⟨l, -, hl⟩ := mapM_raises _ _ _ h
        unfold Act.assign96 at hl
        split_ifs at hl
        split at hl <;> cases hl
  · intro h
    unfold Act.readLookup Act.fileRows
    rw [if_pos fun hc => h ((beforeEnd_prefix t).subset hc)]
    rfl

/-- **C133.**  The maps of an object that is made from a first part of a look-up table: an exception, or those of the table
in which the last number may have lost its last digits. -/
theorem C133_surface (a : Act) (v : Fin 11 → Fin 96 → ℤ) (t : Str) (ht : t <+: Spec.lookupText v) :
    (∃ e, (e = .fileNotFoundError ∨ e = .valueError ∨ e = .typeError) ∧ a.readSurface t = .error e) ∨
    ∃ i : ℕ, a.readSurface t = a.readSurface (Spec.lookupText (Spec.cutLast v i)) := by
  rcases lookup_prefix v t ht with ⟨e, h1, -, h2⟩ | ⟨k, u, h0, hk, hr, h1⟩ | ⟨i, hr⟩
  · exact .inl ⟨e, h1, h2 a⟩
  · refine .inl ⟨.valueError, .inr (.inl rfl), ?_⟩
    rw [readSurface_congr a (hr.trans (fileRows_of h0 u (before_rows u).1).symm), C74_read_rows a (by omega) u,
      if_neg (by omega)]
  · exact .inr ⟨i, readSurface_congr a
      (hr.trans (fileRows_of (by norm_num) _ (before_rows (Spec.cutLast v i)).1).symm)⟩

/-- **C133.**  A number that has lost digits lies between zero and the one that was to be written. -/
theorem C133_between (v : Fin 11 → Fin 96 → ℤ) (i : ℕ) (j : Fin 11) (k : Fin 96) :
    min 0 (v j k) ≤ Spec.cutLast v i j k ∧ Spec.cutLast v i j k ≤ max 0 (v j k) := by
  unfold Spec.cutLast
  split_ifs
  · have h1 := Int.natAbs_tdiv_le_natAbs (v j k) (10 ^ i)
    rcases le_total 0 (v j k) with h | h
    · have h2 : 0 ≤ (v j k).tdiv (10 ^ i) := Int.tdiv_nonneg h (by positivity)
      rw [min_eq_left h, max_eq_right h]
      omega
    · have h2 : (v j k).tdiv (10 ^ i) ≤ 0 := by
        rw [← neg_neg (v j k), Int.neg_tdiv]
        exact neg_nonpos.2 (Int.tdiv_nonneg (by omega) (by positivity))
      rw [min_eq_right h, max_eq_left h]
      omega
  · exact ⟨min_le_right _ _, le_max_right _ _⟩

/-- The lines without the last line break. -/
theorem fileRows_dropLast (v : Fin 11 → Fin 96 → ℤ) :
    Act.fileRows (Spec.lookupRows v).dropLast = Act.fileRows (Spec.lookupText v) := by
  have e := lookupRows_succ v
  have e2 : (Spec.lookupRows v).dropLast = Spec.lookupRows (firstOf v (Nat.le_succ 95)) ++
      lookupBody 95 (List.ofFn fun j => v j (Fin.last 95)) := by
    rw [e, ← List.append_assoc, List.dropLast_concat]
  have hs : '*' ∉ (Spec.lookupRows v).dropLast := fun h => rows_star v (List.dropLast_subset _ h)
  have hT : Act.tableRows (Spec.lookupRows v).dropLast = Act.tableRows (Spec.lookupRows v) := by
    rw [e2, tableRows_append, tableRows_single (fun h => (lookupBody_chars h).1 rfl) (by rw [lookupBody_words]; simp),
      e, tableRows_append]
    have h2 := Act.tableRows_line (s := lookupBody 95 (List.ofFn fun j => v j (Fin.last 95)))
      (fun h => (lookupBody_chars h).1 rfl) (by rw [lookupBody_words]; simp) []
    rw [h2]
    rfl
  unfold Act.fileRows
  rw [Act.beforeEnd_none hs, (before_rows v).1, hT, if_neg, if_neg (not_not.2 (rows_break (by norm_num) v))]
  rw [not_not, e2]
  exact List.mem_append_left _ (rows_break (by norm_num) _)

/-- **C133.**  The file is read completely as soon as the last number is there, or with its end mark; with a part of the
end mark it is refused. -/
theorem C133_end (v : Fin 11 → Fin 96 → ℤ) :
    (∀ m, m = [] ∨ m = "**ENDE**".toList ∨ m = "**ENDE**\n".toList →
      Act.readLookup (Spec.lookupRows v ++ m) = .ok (List.ofFn fun j : Fin 11 => List.ofFn fun k : Fin 96 => v j k)) ∧
    Act.readLookup (Spec.lookupRows v).dropLast = .ok (List.ofFn fun j : Fin 11 => List.ofFn fun k : Fin 96 => v j k) ∧
    ∀ m, m ≠ [] → m <+: "**ENDE*".toList → Act.readLookup (Spec.lookupRows v ++ m) = .error .valueError := by
  have hb := fun m => beforeEnd_append (rows_star v) m
  refine ⟨fun m hm => ?_, ?_, fun m hm0 hm => ?_⟩
  · have hm' : Act.beforeEnd m = [] := by
      rcases hm with rfl | rfl | rfl <;> decide
    rw [← C60_read v]
    refine readLookup_congr ?_
    rw [fileRows_of (by norm_num) v (before_rows v).1,
      fileRows_of (by norm_num) v (by rw [hb, hm', List.append_nil])]
  · rw [← C60_read v]
    exact readLookup_congr (fileRows_dropLast v)
  · have hm2 : Act.tableRows (Act.beforeEnd m) = [[m]] := by
      have hcases : m ∈ ("**ENDE*".toList).inits := (List.mem_inits _ _).2 hm
      clear hm hb
      revert hm0
      revert m
      decide
    have : Act.fileRows (Spec.lookupRows v ++ m) = .error .valueError := by
      unfold Act.fileRows
      rw [hb, if_neg (not_not.2 (List.mem_append_left _ (rows_break (by norm_num) v))), if_pos]
      rw [tableRows_append, hm2]
      exact .inr ⟨[m], by simp, by simp⟩
    unfold Act.readLookup
    rw [this]
    rfl

/-- **C133.**  Wrong digits do occur: the last number may lose any number of digits as long as one is left. -/
theorem C133_wrong (v : Fin 11 → Fin 96 → ℤ) (i : ℕ) (hi : 10 ^ i ≤ (v 10 95).natAbs) :
    ∃ t, t <+: Spec.lookupText v ∧
      Act.readLookup t = .ok (List.ofFn fun j : Fin 11 => List.ofFn fun k : Fin 96 => Spec.cutLast v i j k) ∧
      ∀ a : Act, a.readSurface t = a.readSurface (Spec.lookupText (Spec.cutLast v i)) := by
  have hfirst : firstOf (Spec.cutLast v i) (Nat.le_succ 95) = firstOf v (Nat.le_succ 95) := by
    funext j k
    refine if_neg ?_
    rintro ⟨-, h⟩
    have h1 := congrArg Fin.val h
    have h2 := k.isLt
    rw [Fin.val_castLE] at h1
    change (k : ℕ) = 95 at h1
    omega
  have hz : decInt ((v 10 95).tdiv (10 ^ i)) <+: decInt (v 10 95) := decInt_shorter _ _ hi
  have hpre : lookupBody 95 (List.ofFn fun j => Spec.cutLast v i j (Fin.last 95)) <+:
      lookupBody 95 (List.ofFn fun j => v j (Fin.last 95)) := by
    have hl : ∀ u : Fin 11 → ℤ, ∃ p, ∀ z, lookupBody 95 (List.ofFn fun j => if j = 10 then z else u j) = p ++ decInt z := by
      intro u
      refine ⟨"NR ".toList ++ decNat 96 ++ " ffff ".toList ++
        ("  ".toList.intercalate ((List.ofFn fun j : Fin 10 => decInt (u j.castSucc))) ++ "  ".toList), fun z => ?_⟩
      unfold lookupBody
      simp only [List.append_assoc]
      congr 3
      simp [List.ofFn_succ, List.intercalate_cons_cons, List.intercalate_singleton, Fin.ext_iff]
    obtain ⟨p, hp⟩ := hl fun j => v j (Fin.last 95)
    have e1 : (fun j => Spec.cutLast v i j (Fin.last 95)) = fun j => if j = 10 then (v 10 95).tdiv (10 ^ i) else v j (Fin.last 95) := by
      funext j
      unfold Spec.cutLast
      by_cases hj : j = 10
      · subst hj; rfl
      · rw [if_neg (fun h => hj h.1), if_neg hj]
    have e2 : (fun j => v j (Fin.last 95)) = fun j => if j = 10 then v 10 95 else v j (Fin.last 95) := by
      funext j
      by_cases hj : j = 10
      · subst hj; rfl
      · rw [if_neg hj]
    rw [e1, hp]
    conv_rhs => rw [e2, hp]
    rw [List.prefix_append_right_inj]
    exact hz
  have ht : (Spec.lookupRows (Spec.cutLast v i)).dropLast = Spec.lookupRows (firstOf v (Nat.le_succ 95)) ++
      lookupBody 95 (List.ofFn fun j => Spec.cutLast v i j (Fin.last 95)) := by
    rw [lookupRows_succ, hfirst, ← List.append_assoc, List.dropLast_concat]
  refine ⟨(Spec.lookupRows (Spec.cutLast v i)).dropLast, ?_, ?_, fun a => readSurface_congr a (fileRows_dropLast _)⟩
  · unfold Spec.lookupText
    rw [ht, lookupRows_succ v, List.append_assoc, List.prefix_append_right_inj, List.append_assoc]
    exact List.prefix_append_of_prefix hpre
  · rw [readLookup_congr (fileRows_dropLast _), C60_read]

/-! ## Cases -/

/-- A table of -1234 µm everywhere, cut so that the last number is -12 µm. -/
example : ∃ t, t <+: Spec.lookupText (fun (_ : Fin 11) (_ : Fin 96) => (-1234 : ℤ)) ∧
    ∃ T : List (List ℤ), Act.readLookup t = .ok T ∧ (T.getD 10 []).getD 95 0 = -12 ∧ (T.getD 10 []).getD 94 0 = -1234 := by
  obtain ⟨t, h1, h2, -⟩ := C133_wrong (fun _ _ => -1234) 2 (by decide)
  have h : ∀ (f : Fin 11 → Fin 96 → ℤ) (j : Fin 11) (k : Fin 96),
      ((List.ofFn fun j => List.ofFn fun k => f j k).getD j []).getD k 0 = f j k := by
    intro f j k
    have h3 : (List.ofFn fun j => List.ofFn fun k => f j k).getD j [] = List.ofFn fun k => f j k := by
      rw [List.getD_eq_getElem _ _ (by rw [List.length_ofFn]; exact j.isLt), List.getElem_ofFn]
    rw [h3, List.getD_eq_getElem _ _ (by rw [List.length_ofFn]; exact k.isLt), List.getElem_ofFn]
  exact ⟨t, h1, _, h2, h _ 10 95, h _ 10 94⟩

/-- The first line of a table, with its end. -/
example : (Spec.lookupRow 0 (List.ofFn fun j : Fin 11 => ((j : ℕ) : ℤ))) <+:
      Spec.lookupText (fun (j : Fin 11) (k : Fin 96) => ((j : ℕ) : ℤ) + (k : ℕ)) ∧
    Act.readLookup (Spec.lookupRow 0 (List.ofFn fun j : Fin 11 => ((j : ℕ) : ℤ))) =
      .ok (List.ofFn fun j : Fin 11 => List.replicate 96 ((j : ℕ) : ℤ)) := by
  constructor
  · unfold Spec.lookupText Spec.lookupRows
    have e : ∀ f : Fin 96 → Str, (List.ofFn f).flatten = f 0 ++ (List.ofFn fun k : Fin 95 => f k.succ).flatten := by
      intro f
      rw [List.ofFn_succ, List.flatten_cons]
    rw [e, List.append_assoc]
    exact List.prefix_append_of_prefix (by simp)
  · have := C60_one_line fun j (_ : Fin 1) => ((j : ℕ) : ℤ)
    simpa [Spec.lookupRows, List.ofFn_succ] using this

end Verif.Props
