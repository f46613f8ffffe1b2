import Verif.Model.Params
import Mathlib.Data.Finset.Card
import Mathlib.Data.List.InsertIdx
import Mathlib.Data.Fintype.Card
import Mathlib.Tactic.NormNum
import Mathlib.Tactic.IntervalCases

/-! # C36, C37, C38: the fitted and the complete parameter vector -/

namespace Verif.Props

open Verif Verif.Core

/-! ## lemmas on deletion and insertion -/

theorem dropAt_of_lt {α : Type} (S : List ℕ) (e : ℕ) (l : List α) (k : ℕ) (h : e < k) :
    dropAt (e :: S) k l = dropAt S k l := by
  induction l generalizing k with
  | nil => rfl
  | cons a l ih =>
    have h1 : k ≠ e := by omega
    simp only [dropAt, List.mem_cons, h1, false_or, ih (k + 1) (by omega)]

theorem dropAt_map {α β : Type} (f : α → β) (S : List ℕ) (l : List α) (k : ℕ) :
    dropAt S k (l.map f) = (dropAt S k l).map f := by
  induction l generalizing k with
  | nil => rfl
  | cons a l ih =>
    simp only [dropAt, List.map_cons]
    split_ifs <;> simp [ih]

theorem dropAt_nil {α : Type} (l : List α) (k : ℕ) : dropAt [] k l = l := by
  induction l generalizing k with
  | nil => rfl
  | cons a l ih => simp [dropAt, ih]

theorem dropAt_congr {α : Type} (S S' : List ℕ) (h : ∀ x, x ∈ S ↔ x ∈ S') (l : List α) (k : ℕ) :
    dropAt S k l = dropAt S' k l := by
  induction l generalizing k with
  | nil => rfl
  | cons a l ih => simp [dropAt, ih, h]

/-- Inserting at the least deleted position. -/
theorem insert_dropAt {α : Type} (S : List ℕ) (e : ℕ) (hS : ∀ x ∈ S, e < x) (v : α) (l : List α)
    (k : ℕ) (hk : k ≤ e) (hl : e - k < l.length) :
    e - k ≤ (dropAt (e :: S) k l).length ∧
    (dropAt (e :: S) k l).insertIdx (e - k) v = dropAt S k (l.set (e - k) v) := by
  induction l generalizing k with
  | nil => exact absurd hl (Nat.not_lt_zero _)
  | cons a l ih =>
    by_cases he : k = e
    · subst he
      have h1 : k ∉ S := fun h => lt_irrefl _ (hS k h)
      simp [dropAt, h1, dropAt_of_lt]
    · have h1 : k ∉ e :: S := by
        simp only [List.mem_cons, not_or]
        exact ⟨he, fun h => by have := hS k h; omega⟩
      have h2 : k ∉ S := fun h => h1 (List.mem_cons_of_mem _ h)
      obtain ⟨m, hm⟩ : ∃ m, e - k = m + 1 := ⟨e - k - 1, by omega⟩
      have h3 : e - (k + 1) = m := by omega
      have := ih (k + 1) (by omega) (by simp only [List.length_cons] at hl; omega)
      rw [h3] at this
      rw [hm]
      simp only [dropAt, h1, h2, if_false, List.length_cons, List.set_cons_succ,
        List.insertIdx_succ_cons, this.2, and_true]
      exact Nat.succ_le_succ this.1

/-- Putting the values back in ascending order. -/
theorem foldlM_insert {α : Type} (val : ℕ → α) (S : List ℕ) (hS : S.Pairwise (· < ·)) (p : List α)
    (hp : ∀ e ∈ S, e < p.length) :
    S.foldlM (fun q e => npInsert q e (val e)) (dropAt S 0 p) =
      .ok (S.foldl (fun q e => q.set e (val e)) p) := by
  induction S generalizing p with
  | nil => rw [dropAt_nil]; rfl
  | cons e S ih =>
    rw [List.pairwise_cons] at hS
    have h1 := insert_dropAt S e hS.1 (val e) p 0 (Nat.zero_le _) (by simpa using hp e (by simp))
    rw [Nat.sub_zero] at h1
    rw [List.foldlM_cons]
    have h2 : npInsert (dropAt (e :: S) 0 p) e (val e) = .ok (dropAt S 0 (p.set e (val e))) := by
      unfold npInsert
      rw [if_pos h1.1, ← h1.2]
    rw [h2]
    show S.foldlM _ _ = _
    rw [ih hS.2 (p.set e (val e)) (fun x hx => by
      rw [List.length_set]
      exact hp x (List.mem_cons_of_mem _ hx))]
    rfl

theorem foldl_set_length {α : Type} (val : ℕ → α) (S : List ℕ) (p : List α) :
    (S.foldl (fun q e => q.set e (val e)) p).length = p.length := by
  induction S generalizing p with
  | nil => rfl
  | cons e S ih => rw [List.foldl_cons, ih, List.length_set]

theorem foldl_set_get {α : Type} (val : ℕ → α) (S : List ℕ) (p : List α) (k : ℕ) (hk : k < p.length) :
    (S.foldl (fun q e => q.set e (val e)) p)[k]? = if k ∈ S then some (val k) else p[k]? := by
  induction S generalizing p with
  | nil => simp
  | cons e S ih =>
    rw [List.foldl_cons, ih _ (by rwa [List.length_set])]
    by_cases h1 : k ∈ S
    · simp [h1]
    · by_cases h2 : k = e
      · subst h2
        simp [h1, hk]
      · simp [h1, h2, Ne.symm h2]

/-- Deletion does not see the deleted values. -/
theorem dropAt_ext {α : Type} (S : List ℕ) (p p' : List α) (k : ℕ) (hl : p.length = p'.length)
    (h : ∀ i, k + i ∉ S → p[i]? = p'[i]?) : dropAt S k p = dropAt S k p' := by
  induction p generalizing p' k with
  | nil =>
    cases p' with
    | nil => rfl
    | cons a p' => simp at hl
  | cons a p ih =>
    cases p' with
    | nil => simp at hl
    | cons b p' =>
      have := ih p' (k + 1) (by simpa using hl) (fun i hi => by
        have := h (i + 1) (by rwa [show k + (i + 1) = k + 1 + i by omega])
        simpa using this)
      simp only [dropAt]
      split_ifs with h1
      · exact this
      · have h2 := h 0 h1
        simp only [List.getElem?_cons_zero, Option.some.injEq] at h2
        rw [h2, this]

theorem countP_range' (S : List ℕ) (hS : S.Nodup) (n : ℕ) (h : ∀ x ∈ S, x < n) :
    (List.range' 0 n).countP (· ∈ S) = S.length := by
  rw [List.countP_eq_length_filter, ← List.toFinset_card_of_nodup hS, ← List.toFinset_card_of_nodup
    ((List.nodup_range' (s := 0) (n := n)).filter _)]
  congr 1
  ext x
  simp only [List.mem_toFinset, List.mem_filter, List.mem_range'_1, decide_eq_true_eq, zero_le,
    true_and, zero_add]
  exact ⟨fun hx => hx.2, fun hx => ⟨h x hx, hx⟩⟩

/-- Every short vector comes from a complete one. -/
theorem dropAt_surj (S : List ℕ) (n k : ℕ) (x : List ℝ)
    (h : x.length + (List.range' k n).countP (· ∈ S) = n) :
    ∃ p : List ℝ, p.length = n ∧ dropAt S k p = x := by
  induction n generalizing k x with
  | zero =>
    refine ⟨[], rfl, ?_⟩
    have : x.length = 0 := by omega
    rw [List.length_eq_zero_iff.1 this]
    rfl
  | succ n ih =>
    rw [List.range'_succ, List.countP_cons] at h
    by_cases hk : k ∈ S
    · obtain ⟨p, h1, h2⟩ := ih (k + 1) x (by simp only [hk, decide_true, if_true] at h; omega)
      exact ⟨0 :: p, by simp [h1], by simp [dropAt, hk, h2]⟩
    · cases x with
      | nil =>
        simp only [hk, decide_false] at h
        have h3 := List.countP_le_length (p := fun x => decide (x ∈ S)) (l := List.range' (k + 1) n)
        rw [List.length_range'] at h3
        simp at h
        omega
      | cons a x =>
        obtain ⟨p, h1, h2⟩ := ih (k + 1) x (by simp [hk] at h; omega)
        exact ⟨a :: p, by simp [h1], by simp [dropAt, hk, h2]⟩

/-! ## the code -/

theorem wrapIdx_nat (n e : ℕ) (h : e < n) : wrapIdx n (e : ℤ) = some e := by
  unfold wrapIdx
  rw [if_pos ⟨by omega, by omega⟩]
  rfl

theorem mapM_wrap (n : ℕ) (S : List ℕ) (h : ∀ e ∈ S, e < n) :
    (S.map (fun e : ℕ => (e : ℤ))).mapM (wrapIdx n) = some S := by
  induction S with
  | nil => rfl
  | cons e S ih =>
    rw [List.map_cons, List.mapM_cons, wrapIdx_nat n e (h e (by simp)),
      ih (fun x hx => h x (List.mem_cons_of_mem _ hx))]
    rfl

theorem npDelete_ok {α : Type} (p : List α) (S : List ℕ) (h : ∀ e ∈ S, e < p.length) :
    npDelete p (S.map (fun e : ℕ => (e : ℤ))) = .ok (dropAt S 0 p) := by
  unfold npDelete
  rw [mapM_wrap _ _ h]

theorem step_eq (f0 f1 f2 f3 f4 f5 f6 f7 : ℝ) (p : List ℝ) (e : ℕ) (he : e ≤ 7) :
    completeStep f0 f1 f2 f3 f4 f5 f6 f7 p (e : ℤ) =
      npInsert p e ([f0, f1, f2, f3, f4, f5, f6, f7].getD e 0) := by
  unfold completeStep
  interval_cases e <;> rfl

theorem foldlM_step (f0 f1 f2 f3 f4 f5 f6 f7 : ℝ) (S : List ℕ) (hS : ∀ e ∈ S, e ≤ 7) (p : List ℝ) :
    (S.map (fun e : ℕ => (e : ℤ))).foldlM (completeStep f0 f1 f2 f3 f4 f5 f6 f7) p =
      S.foldlM (fun q e => npInsert q e ([f0, f1, f2, f3, f4, f5, f6, f7].getD e 0)) p := by
  induction S generalizing p with
  | nil => rfl
  | cons e S ih =>
    rw [List.map_cons, List.foldlM_cons, List.foldlM_cons, step_eq _ _ _ _ _ _ _ _ _ _ (hS e (by simp))]
    cases npInsert p e ([f0, f1, f2, f3, f4, f5, f6, f7].getD e 0) with
    | error e => rfl
    | ok q => exact ih (fun x hx => hS x (List.mem_cons_of_mem _ hx)) q

theorem dropAt_length_lt {α : Type} (S : List ℕ) (l : List α) (k : ℕ) :
    (dropAt S k l).length ≤ l.length := by
  induction l generalizing k with
  | nil => exact le_rfl
  | cons a l ih =>
    simp only [dropAt]
    split_ifs
    · exact (ih _).trans (Nat.le_succ _)
    · exact Nat.succ_le_succ (ih _)

theorem dropAt_length_ne {α : Type} (S : List ℕ) (l : List α) (k e : ℕ) (he : e ∈ S) (hk : k ≤ e)
    (hl : e < k + l.length) : (dropAt S k l).length < l.length := by
  induction l generalizing k with
  | nil => simp at hl; omega
  | cons a l ih =>
    simp only [dropAt]
    split_ifs with h
    · exact Nat.lt_succ_of_le (dropAt_length_lt _ _ _)
    · have : k ≠ e := fun h' => h (h' ▸ he)
      exact Nat.succ_lt_succ (ih (k + 1) (by omega) (by simp only [List.length_cons] at hl; omega))

/-- What `params_complete` makes of the shortened vector. -/
theorem complete_delete (cfg : Config) (S : List ℕ) (hex : cfg.excluded = S.map (fun e : ℕ => (e : ℤ)))
    (hS : S.Pairwise (· < ·)) (h7 : ∀ e ∈ S, e ≤ 7) (hf : cfg.fixed.length = 8) (nK : ℕ) (hK : 3 ≤ nK)
    (p : List ℝ) (hp : p.length = 5 + nK) :
    paramsComplete (dropAt S 0 p) nK cfg =
      .ok (S.foldl (fun q e => q.set e (cfg.fixed.getD e 0)) p) := by
  obtain ⟨f0, f1, f2, f3, f4, f5, f6, f7, hfx⟩ : ∃ f0 f1 f2 f3 f4 f5 f6 f7,
      cfg.fixed = [f0, f1, f2, f3, f4, f5, f6, f7] := by
    match h : cfg.fixed, hf with
    | [f0, f1, f2, f3, f4, f5, f6, f7], _ => exact ⟨f0, f1, f2, f3, f4, f5, f6, f7, rfl⟩
  unfold paramsComplete
  rw [hfx]
  simp only
  cases S with
  | nil =>
    rw [dropAt_nil, if_neg (by simp [hp])]
    rfl
  | cons e S =>
    have hlt : ∀ x ∈ e :: S, x < p.length := fun x hx => by have := h7 x hx; omega
    have := dropAt_length_ne (e :: S) p 0 e (by simp) (Nat.zero_le _)
      (by simpa using hlt e (by simp))
    rw [if_pos (by omega), hex, foldlM_step _ _ _ _ _ _ _ _ _ h7, foldlM_insert _ _ hS _ hlt]

/-- `r` is `p` with the positions in `S` holding the values `fixed`. -/
def Spec.replaced (S : List ℕ) (fixed p r : List ℝ) : Prop :=
  r.length = p.length ∧ ∀ k < p.length,
    (k ∈ S → r[k]? = fixed[k]?) ∧ (k ∉ S → r[k]? = p[k]?)

/-- **C36** completing the shortened vector: the excluded positions get the fixed values, all others
their value, and shortening again gives the fitted values back. -/
theorem C36_round_trip (cfg : Config) (S : List ℕ)
    (hex : cfg.excluded = S.map (fun e : ℕ => (e : ℤ))) (hS : S.Pairwise (· < ·))
    (h7 : ∀ e ∈ S, e ≤ 7) (hf : cfg.fixed.length = 8) (nK : ℕ) (hK : 3 ≤ nK)
    (p : List ℝ) (hp : p.length = 5 + nK) :
    ∃ x r, npDelete p cfg.excluded = .ok x ∧ paramsComplete x nK cfg = .ok r ∧
      Spec.replaced S cfg.fixed p r ∧ npDelete r cfg.excluded = .ok x := by
  have hlt : ∀ x ∈ S, x < p.length := fun x hx => by have := h7 x hx; omega
  have hrep : Spec.replaced S cfg.fixed p (S.foldl (fun q e => q.set e (cfg.fixed.getD e 0)) p) := by
    refine ⟨foldl_set_length _ _ _, fun k hk => ⟨fun hm => ?_, fun hm => ?_⟩⟩
    · rw [foldl_set_get _ _ _ _ hk, if_pos hm]
      have : k < cfg.fixed.length := by have := h7 k hm; omega
      simp [this]
    · rw [foldl_set_get _ _ _ _ hk, if_neg hm]
  refine ⟨_, _, by rw [hex]; exact npDelete_ok p S hlt,
    complete_delete cfg S hex hS h7 hf nK hK p hp, hrep, ?_⟩
  rw [hex, npDelete_ok _ S (by rw [hrep.1]; exact hlt)]
  congr 1
  apply dropAt_ext _ _ _ _ hrep.1
  intro i hi
  rw [zero_add] at hi
  by_cases hi2 : i < p.length
  · exact (hrep.2 i hi2).2 hi
  · rw [List.getElem?_eq_none (by rw [hrep.1]; omega), List.getElem?_eq_none (by omega)]

/-- **C36** seen from the optimiser: any vector of the right number of fitted values is completed
to `5 + N` values, with the fixed values at the excluded positions, and can be recovered. -/
theorem C36_complete (cfg : Config) (S : List ℕ)
    (hex : cfg.excluded = S.map (fun e : ℕ => (e : ℤ))) (hS : S.Pairwise (· < ·))
    (h7 : ∀ e ∈ S, e ≤ 7) (hf : cfg.fixed.length = 8) (nK : ℕ) (hK : 3 ≤ nK)
    (x : List ℝ) (hx : x.length + S.length = 5 + nK) :
    ∃ r, paramsComplete x nK cfg = .ok r ∧ r.length = 5 + nK ∧
      (∀ e ∈ S, r[e]? = cfg.fixed[e]?) ∧ npDelete r cfg.excluded = .ok x := by
  have hnd : S.Nodup := hS.imp (fun h => ne_of_lt h)
  obtain ⟨p, h1, h2⟩ := dropAt_surj S (5 + nK) 0 x (by
    rw [countP_range' S hnd _ (fun e he => by have := h7 e he; omega)]; exact hx)
  obtain ⟨x', r, h3, h4, h5, h6⟩ := C36_round_trip cfg S hex hS h7 hf nK hK p h1
  have hx' : x' = x := by
    rw [hex, npDelete_ok p S (fun e he => by have := h7 e he; omega), h2] at h3
    exact (Except.ok.inj h3).symm
  subst hx'
  exact ⟨r, h4, h5.1.trans h1, fun e he => (h5.2 e (by have := h7 e he; omega)).1 he, h6⟩

/-- **C36** is false for a list that is not ascending: with `excluded = [1, 0]` the third parameter
ends up in place 1 and the fixed value of parameter 1 in place 2. -/
theorem C36_unsorted (cfg : Config) (hex : cfg.excluded = [1, 0]) (f0 f1 : ℝ) (fs : List ℝ)
    (hf : cfg.fixed = f0 :: f1 :: fs) (hfl : fs.length = 6) (nK : ℕ) (p0 p1 p2 : ℝ) (ps : List ℝ)
    (hp : ps.length = 2 + nK) :
    npDelete (p0 :: p1 :: p2 :: ps) cfg.excluded = .ok (p2 :: ps) ∧
    paramsComplete (p2 :: ps) nK cfg = .ok (f0 :: p2 :: f1 :: ps) := by
  constructor
  · unfold npDelete
    rw [hex]
    have h1 : wrapIdx (p0 :: p1 :: p2 :: ps).length 1 = some 1 :=
      wrapIdx_nat _ 1 (by simp)
    have h0 : wrapIdx (p0 :: p1 :: p2 :: ps).length 0 = some 0 :=
      wrapIdx_nat _ 0 (by simp)
    have : [(1 : ℤ), 0].mapM (wrapIdx (p0 :: p1 :: p2 :: ps).length) = some [1, 0] := by
      simp only [List.mapM_cons, h1, h0, List.mapM_nil]
      rfl
    rw [this]
    have h2 := dropAt_of_lt [0] 1 ps 3 (by omega)
    have h3 := dropAt_of_lt [] 0 ps 3 (by omega)
    simp [dropAt, h2, h3, dropAt_nil]
  · obtain ⟨f2, f3, f4, f5, f6, f7, rfl⟩ : ∃ f2 f3 f4 f5 f6 f7, fs = [f2, f3, f4, f5, f6, f7] := by
      match fs, hfl with
      | [f2, f3, f4, f5, f6, f7], _ => exact ⟨f2, f3, f4, f5, f6, f7, rfl⟩
    unfold paramsComplete
    rw [hf, hex]
    simp only [List.length_cons]
    rw [if_pos (by omega)]
    simp [completeStep, npInsert, bind, Except.bind, pure, Except.pure]

example : ∃ cfg : Config, cfg.excluded = [1, 2, 3, 4, 5] ∧ cfg.fixed.length = 8 ∧
    ∃ x r, npDelete [1, 2, 3, 4, 5, 6, 7, 8] cfg.excluded = .ok x ∧
      paramsComplete x 3 cfg = .ok r ∧ npDelete r cfg.excluded = .ok x := by
  refine ⟨⟨[1, 2, 3, 4, 5], [1, -14.5, 1.4, 0, 0, 0, 0, 0], [], [], []⟩, rfl, rfl, ?_⟩
  obtain ⟨x, r, h1, h2, -, h3⟩ := C36_round_trip
    ⟨[1, 2, 3, 4, 5], [1, -14.5, 1.4, 0, 0, 0, 0, 0], [], [], []⟩ [1, 2, 3, 4, 5] rfl (by decide)
    (by decide) rfl 3 le_rfl [1, 2, 3, 4, 5, 6, 7, 8] rfl
  exact ⟨x, r, h1, h2, h3⟩

/-! ## C37 -/

/-- **C37** a vector that already has `5 + N` entries is returned unchanged. -/
theorem C37_full (cfg : Config) (hf : cfg.fixed.length = 8) (nK : ℕ) (p : List ℝ)
    (hp : p.length = 5 + nK) : paramsComplete p nK cfg = .ok p := by
  unfold paramsComplete
  match h : cfg.fixed, hf with
  | [f0, f1, f2, f3, f4, f5, f6, f7], _ => simp [hp]

/-- **C37** a `fixed` list of another length than 8: `ValueError`. -/
theorem C37_fixed_length (cfg : Config) (hf : cfg.fixed.length ≠ 8) (nK : ℕ) (p : List ℝ) :
    paramsComplete p nK cfg = .error .valueError := by
  unfold paramsComplete
  split
  · rename_i h
    rw [h] at hf
    simp at hf
  · rfl

theorem step_ignored (f0 f1 f2 f3 f4 f5 f6 f7 : ℝ) (p : List ℝ) (i : ℤ) (hi : ¬ (0 ≤ i ∧ i ≤ 7)) :
    completeStep f0 f1 f2 f3 f4 f5 f6 f7 p i = .ok p := by
  unfold completeStep
  repeat rw [if_neg (by omega)]

theorem foldlM_ignored (f0 f1 f2 f3 f4 f5 f6 f7 : ℝ) (l : List ℤ) (p : List ℝ) :
    l.foldlM (completeStep f0 f1 f2 f3 f4 f5 f6 f7) p =
      (l.filter fun i => 0 ≤ i ∧ i ≤ 7).foldlM (completeStep f0 f1 f2 f3 f4 f5 f6 f7) p := by
  induction l generalizing p with
  | nil => rfl
  | cons i l ih =>
    by_cases hi : 0 ≤ i ∧ i ≤ 7
    · rw [List.filter_cons_of_pos (by simpa using hi), List.foldlM_cons, List.foldlM_cons]
      cases completeStep f0 f1 f2 f3 f4 f5 f6 f7 p i with
      | error e => rfl
      | ok q => exact ih q
    · rw [List.filter_cons_of_neg (by simpa using hi), List.foldlM_cons, step_ignored _ _ _ _ _ _ _ _ _ _ hi]
      exact ih p

/-- **C37** indices outside `0..7` are ignored: the result is the one for the other indices. -/
theorem C37_ignored (cfg : Config) (nK : ℕ) (p : List ℝ) :
    paramsComplete p nK cfg =
      paramsComplete p nK { cfg with excluded := cfg.excluded.filter fun i => 0 ≤ i ∧ i ≤ 7 } := by
  unfold paramsComplete
  simp only
  split
  · rw [foldlM_ignored]
  · rfl

theorem foldlM_length (f0 f1 f2 f3 f4 f5 f6 f7 : ℝ) (l : List ℤ) (p r : List ℝ)
    (h : l.foldlM (completeStep f0 f1 f2 f3 f4 f5 f6 f7) p = .ok r) :
    r.length = p.length + (l.filter fun i => 0 ≤ i ∧ i ≤ 7).length := by
  induction l generalizing p with
  | nil => cases h; rfl
  | cons i l ih =>
    rw [List.foldlM_cons] at h
    by_cases hi : 0 ≤ i ∧ i ≤ 7
    · obtain ⟨e, rfl⟩ := Int.eq_ofNat_of_zero_le hi.1
      rw [step_eq _ _ _ _ _ _ _ _ _ _ (by omega)] at h
      unfold npInsert at h
      split_ifs at h with hl
      · have := ih _ h
        rw [this, List.length_insertIdx_of_le_length hl, List.filter_cons_of_pos (by simpa using hi),
          List.length_cons]
        omega
      · cases h
    · rw [step_ignored _ _ _ _ _ _ _ _ _ _ hi] at h
      rw [List.filter_cons_of_neg (by simpa using hi)]
      exact ih p h

/-- **C37** so the result is too short when, beside ascending indices within `0..7`, larger indices
were excluded from the fit: the number of missing values is the number of those indices. -/
theorem C37_short (cfg : Config) (nK : ℕ) (x r : List ℝ) (hr : paramsComplete x nK cfg = .ok r)
    (hxl : x.length + cfg.excluded.length = 5 + nK) (i : ℤ) (hi : i ∈ cfg.excluded)
    (hi7 : ¬ (0 ≤ i ∧ i ≤ 7)) :
    r.length + (cfg.excluded.filter fun i => ¬ (0 ≤ i ∧ i ≤ 7)).length = 5 + nK ∧ r.length < 5 + nK := by
  have hpos : 0 < (cfg.excluded.filter fun i => ¬ (0 ≤ i ∧ i ≤ 7)).length :=
    List.length_pos_of_mem (a := i) (List.mem_filter.2 ⟨hi, by simpa only [decide_eq_true_eq] using hi7⟩)
  have hne : 0 < cfg.excluded.length := List.length_pos_of_mem hi
  unfold paramsComplete at hr
  split at hr
  · rw [if_pos (by omega)] at hr
    have h1 := foldlM_length _ _ _ _ _ _ _ _ _ _ _ hr
    have h2 := List.length_eq_length_filter_add (l := cfg.excluded) (fun i => decide (0 ≤ i ∧ i ≤ 7))
    have h3 : (cfg.excluded.filter fun i => !decide (0 ≤ i ∧ i ≤ 7)) =
        cfg.excluded.filter fun i => ¬ (0 ≤ i ∧ i ≤ 7) := by
      apply List.filter_congr
      intro x _
      rw [decide_not]
    rw [h3] at h2
    omega
  · cases hr

/-- **C37** an index in `0..7` beyond the end of the vector: `IndexError`, whatever follows. -/
theorem C37_indexError (cfg : Config) (hf : cfg.fixed.length = 8) (nK : ℕ) (p : List ℝ)
    (hp : p.length ≠ 5 + nK) (e : ℕ) (rest : List ℤ) (he : e ≤ 7) (hl : p.length < e)
    (hex : cfg.excluded = (e : ℤ) :: rest) : paramsComplete p nK cfg = .error .indexError := by
  unfold paramsComplete
  match h : cfg.fixed, hf with
  | [f0, f1, f2, f3, f4, f5, f6, f7], _ =>
    simp only
    rw [if_pos hp, hex, List.foldlM_cons, step_eq _ _ _ _ _ _ _ _ _ _ he]
    unfold npInsert
    rw [if_neg (by omega)]
    rfl

/-- A config that excludes an index above 7 gives a short vector. -/
example : ∃ x r, npDelete [1, 2, 3, 4, 5, 6, 7, 8, 9, 10, 11] [0, 9] = .ok x ∧
    paramsComplete x 6 ⟨[0, 9], [1, 1, 1, 1, 1, 1, 1, 1], [], [], []⟩ = .ok r ∧ r.length < 5 + 6 := by
  have hd := npDelete_ok [(1 : ℝ), 2, 3, 4, 5, 6, 7, 8, 9, 10, 11] [0, 9] (by simp)
  have hc : paramsComplete [2, 3, 4, 5, 6, 7, 8, 9, 11] 6
      ⟨[0, 9], [1, 1, 1, 1, 1, 1, 1, 1], [], [], []⟩ = .ok [1, 2, 3, 4, 5, 6, 7, 8, 9, 11] := by
    simp [paramsComplete, completeStep, npInsert, bind, Except.bind, pure, Except.pure]
  have hd2 : dropAt [0, 9] 0 [(1 : ℝ), 2, 3, 4, 5, 6, 7, 8, 9, 10, 11] =
      [2, 3, 4, 5, 6, 7, 8, 9, 11] := by simp [dropAt]
  rw [hd2] at hd
  exact ⟨_, _, hd, hc, (C37_short _ 6 _ _ hc rfl 9 (by simp) (by norm_num)).2⟩

/-! ## C38 -/

/-- **C38** the header row `np.delete(np.arange(N + 5), excluded)` of the covariance file: as many
entries as fitted values, and entry `c` is the place of fitted value `c` in the complete vector. -/
theorem C38_header (cfg : Config) (S : List ℕ)
    (hex : cfg.excluded = S.map (fun e : ℕ => (e : ℤ))) (hS : S.Pairwise (· < ·))
    (h7 : ∀ e ∈ S, e ≤ 7) (hf : cfg.fixed.length = 8) (nK : ℕ) (hK : 3 ≤ nK)
    (x : List ℝ) (hx : x.length + S.length = 5 + nK) :
    ∃ (r : List ℝ) (header : List ℕ), paramsComplete x nK cfg = .ok r ∧
      npDelete (List.range (nK + 5)) cfg.excluded = .ok header ∧ header.length = x.length ∧
      header.Pairwise (· < ·) ∧ (∀ k, k ∈ header ↔ k < nK + 5 ∧ k ∉ S) ∧
      ∀ c k : ℕ, header[c]? = some k → r[k]? = x[c]? ∧ x[c]? ≠ none := by
  obtain ⟨r, h1, h2, h3, h4⟩ := C36_complete cfg S hex hS h7 hf nK hK x hx
  have hlt : ∀ e ∈ S, e < nK + 5 := fun e he => by have := h7 e he; omega
  have hhd := npDelete_ok (List.range (nK + 5)) S (by simpa using hlt)
  have hr : r = (List.range (nK + 5)).map (fun k => r.getD k 0) := by
    apply List.ext_getElem (by simp [h2]; omega)
    intro i hi1 hi2
    simp [hi1]
  have hxe : x = (dropAt S 0 (List.range (nK + 5))).map (fun k => r.getD k 0) := by
    rw [← dropAt_map, ← hr]
    rw [hex, npDelete_ok r S (by rw [h2]; intro e he; have := h7 e he; omega)] at h4
    exact (Except.ok.inj h4).symm
  have hsub : ∀ (l : List ℕ) (k : ℕ), (dropAt S k l).Sublist l := by
    intro l
    induction l with
    | nil => intro k; exact List.Sublist.refl _
    | cons a l ih =>
      intro k
      simp only [dropAt]
      split_ifs
      · exact (ih _).cons _
      · exact (ih _).cons_cons _
  refine ⟨r, dropAt S 0 (List.range (nK + 5)), h1, by rw [hex]; exact hhd, ?_, ?_, ?_, ?_⟩
  · conv_rhs => rw [hxe]
    simp
  · exact List.Pairwise.sublist (hsub _ _) List.pairwise_lt_range
  · have hmem : ∀ (n k j : ℕ), j ∈ dropAt S k (List.range' k n) ↔ (k ≤ j ∧ j < k + n) ∧ j ∉ S := by
      intro n
      induction n with
      | zero => intro k j; simp [dropAt]
      | succ n ih =>
        intro k j
        rw [List.range'_succ]
        simp only [dropAt]
        split_ifs with hk
        · rw [ih]
          constructor
          · rintro ⟨⟨ha, hb⟩, hc⟩
            exact ⟨⟨by omega, by omega⟩, hc⟩
          · rintro ⟨⟨ha, hb⟩, hc⟩
            have : j ≠ k := fun e => hc (e ▸ hk)
            exact ⟨⟨by omega, by omega⟩, hc⟩
        · rw [List.mem_cons, ih]
          constructor
          · rintro (rfl | ⟨⟨ha, hb⟩, hc⟩)
            · exact ⟨⟨by omega, by omega⟩, hk⟩
            · exact ⟨⟨by omega, by omega⟩, hc⟩
          · rintro ⟨⟨ha, hb⟩, hc⟩
            by_cases he : j = k
            · exact .inl he
            · exact .inr ⟨⟨by omega, by omega⟩, hc⟩
    intro k
    rw [List.range_eq_range', hmem]
    simp
  · intro c k hck
    have hk : k < nK + 5 := by
      have := List.mem_of_getElem? hck
      exact List.mem_range.1 ((hsub _ _).subset this)
    have hxc : x[c]? = some (r.getD k 0) := by
      rw [hxe, List.getElem?_map, hck]
      rfl
    rw [hxc]
    refine ⟨?_, by simp⟩
    have : k < r.length := by omega
    simp [this]

end Verif.Props
