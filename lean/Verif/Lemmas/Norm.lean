import Verif.Model.MathFn
import Verif.Lemmas.Fl
import Verif.Lemmas.Wavefront

/-! # Lemmas on `norm` -/

namespace Verif.MathFn

open Verif Verif.Np Finset

theorem lt_irrefl' (a : Fl) : ¬ Fl.lt a a := by
  cases a <;> simp [Fl.lt]

theorem lt_trans' {a b c : Fl} (h1 : Fl.lt a b) (h2 : Fl.lt b c) : Fl.lt a c := by
  cases a <;> cases b <;> cases c <;> simp only [Fl.lt] at * <;> first | trivial | linarith

theorem lt_total' {a b : Fl} (ha : a ≠ .nan) (hb : b ≠ .nan) : Fl.lt a b ∨ a = b ∨ Fl.lt b a := by
  cases a with
  | nan => exact absurd rfl ha
  | pinf => cases b with
    | nan => exact absurd rfl hb
    | _ => simp [Fl.lt]
  | ninf => cases b with
    | nan => exact absurd rfl hb
    | _ => simp [Fl.lt]
  | fin r => cases b with
    | nan => exact absurd rfl hb
    | fin s =>
      simp only [Fl.lt, Fl.fin.injEq]
      exact lt_trichotomy r s
    | _ => simp [Fl.lt]

/-- `v` is what `.min()` gives for elements with membership predicate `S`. -/
def IsMin (S : Fl → Prop) (v : Fl) : Prop :=
  (S .nan → v = .nan) ∧ (¬ S .nan → S v ∧ ∀ x, S x → ¬ Fl.lt x v)

def IsMax (S : Fl → Prop) (v : Fl) : Prop :=
  (S .nan → v = .nan) ∧ (¬ S .nan → S v ∧ ∀ x, S x → ¬ Fl.lt v x)

theorem IsMin.unique {S : Fl → Prop} {v w : Fl} (hv : IsMin S v) (hw : IsMin S w) : v = w := by
  by_cases h : S .nan
  · rw [hv.1 h, hw.1 h]
  · obtain ⟨h1, h2⟩ := hv.2 h
    obtain ⟨h3, h4⟩ := hw.2 h
    have hv0 : v ≠ .nan := fun e => h (e ▸ h1)
    have hw0 : w ≠ .nan := fun e => h (e ▸ h3)
    rcases lt_total' hv0 hw0 with h5 | h5 | h5
    · exact absurd h5 (h4 _ h1)
    · exact h5
    · exact absurd h5 (h2 _ h3)

theorem IsMax.unique {S : Fl → Prop} {v w : Fl} (hv : IsMax S v) (hw : IsMax S w) : v = w := by
  by_cases h : S .nan
  · rw [hv.1 h, hw.1 h]
  · obtain ⟨h1, h2⟩ := hv.2 h
    obtain ⟨h3, h4⟩ := hw.2 h
    have hv0 : v ≠ .nan := fun e => h (e ▸ h1)
    have hw0 : w ≠ .nan := fun e => h (e ▸ h3)
    rcases lt_total' hv0 hw0 with h5 | h5 | h5
    · exact absurd h5 (h2 _ h3)
    · exact h5
    · exact absurd h5 (h4 _ h1)

theorem min2_isMin (a b : Fl) : IsMin (fun x => x = a ∨ x = b) (min2 a b) := by
  unfold min2
  constructor
  · intro h
    rw [if_pos (h.imp Eq.symm Eq.symm)]
  · intro h
    have h' : ¬ (a = .nan ∨ b = .nan) := fun e => h (e.imp Eq.symm Eq.symm)
    rw [if_neg h']
    split_ifs with hlt
    · refine ⟨.inr rfl, ?_⟩
      rintro x (rfl | rfl)
      · exact fun h2 => lt_irrefl' _ (lt_trans' h2 hlt)
      · exact lt_irrefl' _
    · refine ⟨.inl rfl, ?_⟩
      rintro x (rfl | rfl)
      · exact lt_irrefl' _
      · exact hlt

theorem max2_isMax (a b : Fl) : IsMax (fun x => x = a ∨ x = b) (max2 a b) := by
  unfold max2
  constructor
  · intro h
    rw [if_pos (h.imp Eq.symm Eq.symm)]
  · intro h
    have h' : ¬ (a = .nan ∨ b = .nan) := fun e => h (e.imp Eq.symm Eq.symm)
    rw [if_neg h']
    split_ifs with hlt
    · refine ⟨.inr rfl, ?_⟩
      rintro x (rfl | rfl)
      · exact fun h2 => lt_irrefl' _ (lt_trans' h2 hlt)
      · exact lt_irrefl' _
    · refine ⟨.inl rfl, ?_⟩
      rintro x (rfl | rfl)
      · exact lt_irrefl' _
      · exact hlt

theorem foldl_isMin (l : List Fl) (a : Fl) : IsMin (· ∈ a :: l) (l.foldl min2 a) := by
  induction l generalizing a with
  | nil =>
    simp only [List.foldl_nil, List.mem_singleton]
    exact ⟨fun h => h.symm, fun _ => ⟨rfl, fun x hx => hx ▸ lt_irrefl' _⟩⟩
  | cons b l ih =>
    have h1 := ih (min2 a b)
    have h2 := min2_isMin a b
    rw [List.foldl_cons]
    constructor
    · intro h
      by_cases hm : min2 a b = .nan
      · exact h1.1 (by rw [hm]; exact List.mem_cons_self)
      · have : Fl.nan ∈ l := by
          simp only [List.mem_cons] at h
          rcases h with h | h | h
          · exact absurd (h2.1 (.inl h)) hm
          · exact absurd (h2.1 (.inr h)) hm
          · exact h
        exact h1.1 (List.mem_cons_of_mem _ this)
    · intro h
      simp only [List.mem_cons, not_or] at h
      obtain ⟨h3, h4⟩ := h2.2 (fun e => e.elim h.1 h.2.1)
      have hn : Fl.nan ∉ min2 a b :: l := by
        simp only [List.mem_cons, not_or]
        refine ⟨fun e => ?_, h.2.2⟩
        rcases h3 with h3 | h3
        · exact h.1 (e.trans h3)
        · exact h.2.1 (e.trans h3)
      obtain ⟨h5, h6⟩ := h1.2 hn
      refine ⟨?_, ?_⟩
      · simp only [List.mem_cons] at h5 ⊢
        rcases h5 with h5 | h5
        · rw [h5]
          rcases h3 with h3 | h3
          · exact .inl h3
          · exact .inr (.inl h3)
        · exact .inr (.inr h5)
      · intro x hx
        simp only [List.mem_cons] at hx
        have key : x = a ∨ x = b → ¬ Fl.lt x (l.foldl min2 (min2 a b)) := by
          intro hx hlt
          have h7 := h6 (min2 a b) List.mem_cons_self
          have h8 := h4 x hx
          have hv0 : l.foldl min2 (min2 a b) ≠ .nan := fun e => hn (e ▸ h5)
          have hm0 : min2 a b ≠ .nan := fun e => hn (by rw [← e]; exact List.mem_cons_self)
          rcases lt_total' hv0 hm0 with h9 | h9 | h9
          · exact h8 (lt_trans' hlt h9)
          · rw [h9] at hlt
            exact h8 hlt
          · exact h7 h9
        rcases hx with hx | hx | hx
        · exact key (.inl hx)
        · exact key (.inr hx)
        · exact h6 x (List.mem_cons_of_mem _ hx)

theorem foldl_isMax (l : List Fl) (a : Fl) : IsMax (· ∈ a :: l) (l.foldl max2 a) := by
  induction l generalizing a with
  | nil =>
    simp only [List.foldl_nil, List.mem_singleton]
    exact ⟨fun h => h.symm, fun _ => ⟨rfl, fun x hx => hx ▸ lt_irrefl' _⟩⟩
  | cons b l ih =>
    have h1 := ih (max2 a b)
    have h2 := max2_isMax a b
    rw [List.foldl_cons]
    constructor
    · intro h
      by_cases hm : max2 a b = .nan
      · exact h1.1 (by rw [hm]; exact List.mem_cons_self)
      · have : Fl.nan ∈ l := by
          simp only [List.mem_cons] at h
          rcases h with h | h | h
          · exact absurd (h2.1 (.inl h)) hm
          · exact absurd (h2.1 (.inr h)) hm
          · exact h
        exact h1.1 (List.mem_cons_of_mem _ this)
    · intro h
      simp only [List.mem_cons, not_or] at h
      obtain ⟨h3, h4⟩ := h2.2 (fun e => e.elim h.1 h.2.1)
      have hn : Fl.nan ∉ max2 a b :: l := by
        simp only [List.mem_cons, not_or]
        refine ⟨fun e => ?_, h.2.2⟩
        rcases h3 with h3 | h3
        · exact h.1 (e.trans h3)
        · exact h.2.1 (e.trans h3)
      obtain ⟨h5, h6⟩ := h1.2 hn
      refine ⟨?_, ?_⟩
      · simp only [List.mem_cons] at h5 ⊢
        rcases h5 with h5 | h5
        · rw [h5]
          rcases h3 with h3 | h3
          · exact .inl h3
          · exact .inr (.inl h3)
        · exact .inr (.inr h5)
      · intro x hx
        simp only [List.mem_cons] at hx
        have key : x = a ∨ x = b → ¬ Fl.lt (l.foldl max2 (max2 a b)) x := by
          intro hx hlt
          have h7 := h6 (max2 a b) List.mem_cons_self
          have h8 := h4 x hx
          have hv0 : l.foldl max2 (max2 a b) ≠ .nan := fun e => hn (e ▸ h5)
          have hm0 : max2 a b ≠ .nan := fun e => hn (by rw [← e]; exact List.mem_cons_self)
          rcases lt_total' hv0 hm0 with h9 | h9 | h9
          · exact h7 h9
          · rw [h9] at hlt
            exact h8 hlt
          · exact h8 (lt_trans' h9 hlt)
        rcases hx with hx | hx | hx
        · exact key (.inl hx)
        · exact key (.inr hx)
        · exact h6 x (List.mem_cons_of_mem _ hx)

theorem arrMin_ok {l : List Fl} (h : l ≠ []) : ∃ v, arrMin l = .ok v ∧ IsMin (· ∈ l) v := by
  cases l with
  | nil => exact absurd rfl h
  | cons a l => exact ⟨_, rfl, foldl_isMin l a⟩

theorem arrMax_ok {l : List Fl} (h : l ≠ []) : ∃ v, arrMax l = .ok v ∧ IsMax (· ∈ l) v := by
  cases l with
  | nil => exact absurd rfl h
  | cons a l => exact ⟨_, rfl, foldl_isMax l a⟩

/-- The normalised element. -/
noncomputable def normPt (x mn mx : Fl) : ℝ := Fl.nanToNum (Fl.div (Fl.sub x mn) (Fl.sub mx mn))

theorem normPt_bad (x mn mx : Fl) (h : mn = .nan ∨ mn = .ninf ∨ mx = .pinf) : normPt x mn mx = 0 := by
  rcases h with rfl | rfl | rfl
  · cases x <;> cases mx <;> simp [normPt, Fl.sub, Fl.neg, Fl.add, Fl.div, Fl.nanToNum]
  · cases x <;> cases mx <;> simp [normPt, Fl.sub, Fl.neg, Fl.add, Fl.div, Fl.nanToNum]
  · cases x <;> cases mn <;> simp [normPt, Fl.sub, Fl.neg, Fl.add, Fl.div, Fl.nanToNum]

theorem normPt_fin (x mn mx : ℝ) :
    normPt (.fin x) (.fin mn) (.fin mx) = if mn = mx then Fl.nanToNum (Fl.infSign (x - mn))
      else (x - mn) / (mx - mn) := by
  unfold normPt
  rw [Fl.sub_fin, Fl.sub_fin]
  by_cases h : mn = mx
  · simp [h, Fl.div]
  · rw [if_neg h, Fl.div_fin _ (sub_ne_zero.2 (Ne.symm h))]
    rfl

theorem mem_family {ι : Type} [Fintype ι] (P : ι → Fl) (x : Fl) :
    x ∈ univ.toList.map P ↔ ∃ q, P q = x := by
  simp

theorem mem_line {n : ℕ} (P : Fin n → Fl) (x : Fl) : x ∈ List.ofFn P ↔ ∃ q, P q = x := by
  simp [List.mem_ofFn]

/-- `norm` returns for a non empty array; the extremes are those of the family. -/
theorem norm_ok {ι : Type} [Fintype ι] [Nonempty ι] (P : ι → Fl) :
    ∃ mn mx, IsMin (fun x => ∃ q, P q = x) mn ∧ IsMax (fun x => ∃ q, P q = x) mx ∧
      norm P = .ok (fun q => normPt (P q) mn mx) := by
  have hne : univ.toList.map P ≠ [] := by
    obtain ⟨q⟩ := ‹Nonempty ι›
    intro h
    have : P q ∈ univ.toList.map P := (mem_family P _).2 ⟨q, rfl⟩
    rw [h] at this
    exact absurd this List.not_mem_nil
  obtain ⟨mn, h1, h2⟩ := arrMin_ok hne
  obtain ⟨mx, h3, h4⟩ := arrMax_ok hne
  refine ⟨mn, mx, ?_, ?_, ?_⟩
  · simpa only [mem_family] using h2
  · simpa only [mem_family] using h4
  · unfold norm
    rw [h1]
    show (do let mx ← arrMax (univ.toList.map P); _) = _
    rw [h3]
    rfl

theorem norm_empty {ι : Type} [Fintype ι] [IsEmpty ι] (P : ι → Fl) :
    norm P = .error .valueError := by
  have : univ.toList.map P = [] := by simp
  unfold norm
  rw [this]
  rfl

/-- What `norm` does for a family: two cases. -/
theorem norm_cases {ι : Type} (P : ι → Fl) {mn mx : Fl}
    (hmn : IsMin (fun x => ∃ q, P q = x) mn) (hmx : IsMax (fun x => ∃ q, P q = x) mx) :
    (∃ (p : ι → ℝ) (a b : ι), (∀ q, P q = .fin (p q)) ∧ (∀ q, p a ≤ p q ∧ p q ≤ p b) ∧
      ∀ q, normPt (P q) mn mx = (p q - p a) / (p b - p a)) ∨
    ((∃ q, ∀ r, P q ≠ .fin r) ∧ ∀ q, normPt (P q) mn mx = 0) := by
  by_cases hbad : ∃ q, ∀ r, P q ≠ .fin r
  · right
    refine ⟨hbad, fun q => normPt_bad _ _ _ ?_⟩
    obtain ⟨z, hz⟩ := hbad
    by_cases hn : ∃ q, P q = .nan
    · exact .inl (hmn.1 hn)
    · obtain ⟨⟨a, ha⟩, h2⟩ := hmn.2 hn
      obtain ⟨⟨b, hb⟩, h4⟩ := hmx.2 hn
      have hmn0 : mn ≠ .nan := fun e => hn ⟨a, ha.trans e⟩
      have hmx0 : mx ≠ .nan := fun e => hn ⟨b, hb.trans e⟩
      cases hPz : P z with
      | nan => exact absurd ⟨z, hPz⟩ hn
      | fin r => exact absurd hPz (hz r)
      | pinf =>
        right; right
        have := h4 .pinf ⟨z, hPz⟩
        cases mx with
        | nan => exact absurd rfl hmx0
        | pinf => rfl
        | ninf => exact absurd trivial this
        | fin r => exact absurd trivial this
      | ninf =>
        right; left
        have := h2 .ninf ⟨z, hPz⟩
        cases mn with
        | nan => exact absurd rfl hmn0
        | ninf => rfl
        | pinf => exact absurd trivial this
        | fin r => exact absurd trivial this
  · left
    push Not at hbad
    choose p hp using hbad
    have hn : ¬ ∃ q, P q = .nan := by
      rintro ⟨q, hq⟩
      rw [hp] at hq
      cases hq
    obtain ⟨⟨a, ha⟩, h2⟩ := hmn.2 hn
    obtain ⟨⟨b, hb⟩, h4⟩ := hmx.2 hn
    rw [hp] at ha hb
    subst ha hb
    have hle : ∀ q, p a ≤ p q ∧ p q ≤ p b := fun q =>
      ⟨not_lt.1 (h2 _ ⟨q, hp q⟩), not_lt.1 (h4 _ ⟨q, hp q⟩)⟩
    refine ⟨p, a, b, hp, hle, fun q => ?_⟩
    rw [hp, normPt_fin]
    split_ifs with h
    · have : p q = p a := le_antisymm ((hle q).2.trans h.ge) (hle q).1
      rw [this, sub_self, zero_div]
      simp [Fl.infSign, Fl.nanToNum]
    · rfl

theorem norm_fin {ι : Type} [Fintype ι] [Nonempty ι] (p : ι → ℝ) :
    ∃ a b, (∀ q, p a ≤ p q ∧ p q ≤ p b) ∧
      norm (fun q => Fl.fin (p q)) = .ok (fun q => (p q - p a) / (p b - p a)) := by
  obtain ⟨mn, mx, h1, h2, h3⟩ := norm_ok (fun q => Fl.fin (p q))
  rcases norm_cases _ h1 h2 with ⟨p', a, b, hp, hle, hv⟩ | ⟨⟨q, hq⟩, -⟩
  · have : p' = p := by
      funext q
      exact (Fl.fin.inj (hp q)).symm
    subst this
    refine ⟨a, b, hle, ?_⟩
    rw [h3]
    congr 1
    funext q
    exact hv q
  · exact absurd rfl (hq (p q))

end Verif.MathFn
