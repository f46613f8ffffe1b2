import Verif.Model.Mpi
import Mathlib.Data.List.Basic
import Mathlib.Data.List.Nodup
import Mathlib.Tactic.Linarith
import Mathlib.Tactic.Ring

/-!
# Work distribution over ranks (C66)
-/

namespace Verif.Props

open Verif Verif.Mpi

/-- The first index of rank `i` when `len` files are distributed over `n` ranks: `len / n` files for
each rank before it, and one more for each of the first `len % n`. -/
def Spec.firstOf (len n i : ℕ) : ℕ := i * (len / n) + min i (len % n)

theorem sum_rep (n x : ℕ) : (List.replicate n x).sum = n * x := by
  induction n with
  | zero => simp
  | succ n ih => rw [List.replicate_succ, List.sum_cons, ih]; ring

theorem cumsum_getD (l : List ℕ) (s i : ℕ) (hi : i < l.length) :
    (cumsum s l).getD i 0 = s + (l.take (i + 1)).sum := by
  induction l generalizing s i with
  | nil => simp at hi
  | cons x l ih =>
    cases i with
    | zero => simp [cumsum]
    | succ i =>
      have := ih (s + x) i (by simpa using hi)
      simp only [cumsum, List.getD_cons_succ, List.take_succ_cons, List.sum_cons] at this ⊢
      rw [this]; ring

theorem points_eq (len n : ℕ) (hn : 0 < n) (i : ℕ) (hi : i ≤ n) :
    (cumsum 0 ([0] ++ List.replicate (len % n) (len / n + 1) ++
      List.replicate (n - len % n) (len / n))).getD i 0 = Spec.firstOf len n i := by
  have hmod : len % n < n := Nat.mod_lt _ hn
  rw [cumsum_getD _ _ _ (by simp; omega)]
  unfold Spec.firstOf
  rw [List.append_assoc, List.singleton_append, List.take_succ_cons, List.sum_cons, List.take_append,
    List.take_replicate, List.take_replicate, List.sum_append, sum_rep,
    sum_rep, List.length_replicate]
  simp only [zero_add]
  rcases le_total i (len % n) with h | h
  · rw [min_eq_left h, Nat.sub_eq_zero_of_le h]; simp; ring
  · rw [min_eq_right h, min_eq_left (by omega)]
    obtain ⟨d, rfl⟩ := Nat.exists_eq_add_of_le h
    rw [Nat.add_sub_cancel_left]; ring

theorem firstOf_mono (len n i : ℕ) : Spec.firstOf len n i ≤ Spec.firstOf len n (i + 1) := by
  unfold Spec.firstOf
  have : min i (len % n) ≤ min (i + 1) (len % n) := min_le_min_right _ (Nat.le_succ i)
  have h0 : 0 ≤ len / n := Nat.zero_le _
  rw [Nat.succ_mul]
  generalize len / n = d at *
  omega

theorem firstOf_all (len n : ℕ) (hn : 0 < n) : Spec.firstOf len n n = len := by
  unfold Spec.firstOf
  rw [min_eq_right (Nat.mod_lt _ hn).le]
  exact Nat.div_add_mod len n

theorem firstOf_le (len n i : ℕ) (hn : 0 < n) (hi : i ≤ n) : Spec.firstOf len n i ≤ len := by
  have h : Monotone (Spec.firstOf len n) := monotone_nat_of_le_succ (firstOf_mono len n)
  calc _ ≤ Spec.firstOf len n n := h hi
    _ = len := firstOf_all len n hn

theorem firstOf_step (len n i : ℕ) : Spec.firstOf len n (i + 1) =
    Spec.firstOf len n i + (len / n + if i < len % n then 1 else 0) := by
  unfold Spec.firstOf
  rw [Nat.succ_mul]
  split_ifs with h
  · rw [min_eq_left h, min_eq_left h.le]; ring
  · rw [min_eq_right (not_lt.1 h), min_eq_right (by omega)]; ring

theorem split_eq {α : Type} (l : List α) (n : ℕ) (hn : 0 < n) :
    arraySplit l n = .ok ((List.range n).map fun i =>
      (l.take (Spec.firstOf l.length n (i + 1))).drop (Spec.firstOf l.length n i)) := by
  unfold arraySplit
  rw [if_neg (by omega)]
  simp only [Int.toNat_natCast]
  congr 1
  refine List.map_congr_left fun i hi => ?_
  have hi := List.mem_range.1 hi
  rw [points_eq _ _ hn _ (by omega), points_eq _ _ hn _ (by omega)]

theorem rank_eq {α : Type} (l : List α) (n : ℕ) (i : ℕ) (hi : i < n) :
    rankFiles l n i = .ok ((l.take (Spec.firstOf l.length n (i + 1))).drop
      (Spec.firstOf l.length n i)) := by
  unfold rankFiles
  rw [split_eq l n (by omega)]
  simp [hi, bind, Except.bind]

theorem flat_prefix {α : Type} (l : List α) (f : ℕ → ℕ) (h0 : f 0 = 0) (hf : Monotone f) (k : ℕ) :
    ((List.range k).map fun i => (l.take (f (i + 1))).drop (f i)).flatten = l.take (f k) := by
  induction k with
  | zero => simp [h0]
  | succ k ih =>
    rw [List.range_succ, List.map_append, List.flatten_append, ih]
    simp only [List.map_cons, List.map_nil, List.flatten_cons, List.flatten_nil, List.append_nil]
    have h : l.take (f k) = (l.take (f (k + 1))).take (f k) := by
      rw [List.take_take, min_eq_left (hf (Nat.le_succ k))]
    rw [h, List.take_append_drop]

/-- **C66.**  Nothing is lost, nothing is done twice and the order is kept: the parts of the ranks one
after the other are the list of files, for every number of files and of ranks. -/
theorem C66_partition {α : Type} (files : List α) (size : ℕ) (hs : 0 < size) :
    ∃ parts : List (List α), parts.length = size ∧ parts.flatten = files ∧
      ∀ rank (h : rank < parts.length), rankFiles files size rank = .ok parts[rank] := by
  refine ⟨(List.range size).map fun i => (files.take (Spec.firstOf files.length size (i + 1))).drop
      (Spec.firstOf files.length size i), ?_, ?_, fun rank h => ?_⟩
  · simp
  · rw [flat_prefix _ _ (by simp [Spec.firstOf]) (monotone_nat_of_le_succ (firstOf_mono _ _)),
      firstOf_all _ _ hs, List.take_length]
  · rw [rank_eq _ _ _ (by simpa using h)]
    simp

/-- **C66.**  The loads: the first `len % size` ranks have one file more than the others. -/
theorem C66_load {α : Type} (files : List α) (size rank : ℕ) (h : rank < size) :
    ∃ part, rankFiles files size rank = .ok part ∧
      part.length = files.length / size + if rank < files.length % size then 1 else 0 := by
  refine ⟨_, rank_eq _ _ _ h, ?_⟩
  rw [List.length_drop, List.length_take,
    min_eq_left (firstOf_le _ _ _ (by omega) (by omega)), firstOf_step, Nat.add_sub_cancel_left]

/-- **C66.**  So no two ranks differ by more than one. -/
theorem C66_balanced {α : Type} (files : List α) (size r r' : ℕ) (h : r < size) (h' : r' < size)
    (p p' : List α) (hp : rankFiles files size r = .ok p) (hp' : rankFiles files size r' = .ok p') :
    p.length ≤ p'.length + 1 := by
  obtain ⟨q, e1, e2⟩ := C66_load files size r h
  obtain ⟨q', e1', e2'⟩ := C66_load files size r' h'
  rw [hp] at e1; cases e1
  rw [hp'] at e1'; cases e1'
  rw [e2, e2']
  split_ifs <;> omega

/-- **C66.**  When the list of files has no duplicates, every file is on exactly one rank, once. -/
theorem C66_exactly_one {α : Type} (files : List α) (hnd : files.Nodup) (size : ℕ) (hs : 0 < size)
    (f : α) (hf : f ∈ files) :
    ∃ rank < size, (∃ p, rankFiles files size rank = .ok p ∧ f ∈ p ∧ p.Nodup) ∧
      ∀ r < size, ∀ p, rankFiles files size r = .ok p → f ∈ p → r = rank := by
  obtain ⟨parts, h1, h2, h3⟩ := C66_partition files size hs
  have hnd' : parts.flatten.Nodup := h2 ▸ hnd
  rw [List.nodup_flatten] at hnd'
  rw [← h2, List.mem_flatten] at hf
  obtain ⟨p, hp, hfp⟩ := hf
  obtain ⟨rank, hr, rfl⟩ := List.getElem_of_mem hp
  refine ⟨rank, h1 ▸ hr, ⟨_, h3 rank hr, hfp, hnd'.1 _ hp⟩, fun r hr' q hq hfq => ?_⟩
  have hr2 : r < parts.length := h1 ▸ hr'
  rw [h3 r hr2, Except.ok.injEq] at hq
  subst hq
  by_contra hne
  have hpw := List.pairwise_iff_getElem.1 hnd'.2
  rcases Nat.lt_or_ge r rank with h | h
  · exact hpw r rank hr2 hr h hfq hfp
  · exact hpw rank r hr hr2 (by omega) hfp hfq

/-- **C66.**  No ranks: `ValueError`.  A rank that does not exist: `IndexError`. -/
theorem C66_rejects {α : Type} (files : List α) :
    (∀ n : ℤ, n ≤ 0 → arraySplit files n = .error .valueError) ∧
    ∀ size rank : ℕ, 0 < size → size ≤ rank → rankFiles files size rank = .error .indexError := by
  constructor
  · intro n hn
    simp [arraySplit, hn]
  · intro size rank hs hr
    unfold rankFiles
    rw [split_eq _ _ hs]
    simp [bind, Except.bind, hr]

/-- **C66.**  Every rank reads the directory itself.  When the order is not the same on both of two
ranks a file may be left out by both; here for any even number of files. -/
theorem C66_order (α : Type) (f g : α) (hfg : f ≠ g) (rest : List α) (hf : f ∉ rest)
    (hlen : rest.length % 2 = 0) :
    ∃ order0 order1 : List α, order0.Perm order1 ∧ f ∈ order0 ∧
      (∀ p, rankFiles order0 2 0 = .ok p → f ∉ p) ∧ ∀ p, rankFiles order1 2 1 = .ok p → f ∉ p := by
  -- `f` last on rank 0, first on rank 1
  refine ⟨(g :: rest) ++ [f], f :: (g :: rest), ?_, by simp, fun p hp => ?_, fun p hp => ?_⟩
  · exact List.perm_append_singleton f (g :: rest)
  · rw [rank_eq _ _ _ (by omega), Except.ok.injEq] at hp
    have e : Spec.firstOf (g :: rest ++ [f]).length 2 (0 + 1) = rest.length / 2 + 1 := by
      simp only [Spec.firstOf, List.length_append, List.length_cons, List.length_nil]; omega
    rw [e] at hp
    subst hp
    intro hmem
    have h1 := List.mem_of_mem_drop hmem
    rw [List.take_append_of_le_length (by simp; omega)] at h1
    have h2 := List.mem_of_mem_take h1
    rcases List.mem_cons.1 h2 with h | h
    · exact hfg h
    · exact hf h
  · rw [rank_eq _ _ _ (by omega), Except.ok.injEq] at hp
    have e : Spec.firstOf (f :: g :: rest).length 2 1 = rest.length / 2 + 1 := by
      simp only [Spec.firstOf, List.length_cons]; omega
    rw [e] at hp
    subst hp
    intro hmem
    rw [List.drop_take] at hmem
    have h1 := List.mem_of_mem_take hmem
    rw [List.drop_succ_cons] at h1
    have h2 := List.mem_of_mem_drop h1
    rcases List.mem_cons.1 h2 with h | h
    · exact hfg h
    · exact hf h

example : rankFiles ["a", "b", "c", "d", "e"] 3 0 = .ok ["a", "b"] ∧
    rankFiles ["a", "b", "c", "d", "e"] 3 1 = .ok ["c", "d"] ∧
    rankFiles ["a", "b", "c", "d", "e"] 3 2 = .ok ["e"] := ⟨rfl, rfl, rfl⟩

example : ["a", "b"].Nodup ∧ rankFiles ["a", "b"] 3 2 = .ok [] := ⟨by simp, rfl⟩

end Verif.Props
