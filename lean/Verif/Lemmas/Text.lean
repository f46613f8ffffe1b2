import Mathlib.Tactic.IntervalCases
import Mathlib.Tactic.NormNum
import Mathlib.Data.Nat.Digits.Lemmas
import Verif.Model.Text

/-! # Printing of integers -/

namespace Verif

/-- The ten digit characters. -/
def IsDigit (c : Char) : Prop := '0' ≤ c ∧ c ≤ '9'

instance (c : Char) : Decidable (IsDigit c) := by unfold IsDigit; infer_instance

theorem digitChar_toNat {d : ℕ} (h : d < 10) : (digitChar d).toNat = 48 + d := by
  interval_cases d <;> rfl

theorem digitChar_inj {a b : ℕ} (ha : a < 10) (hb : b < 10) (h : digitChar a = digitChar b) :
    a = b := by
  have := congrArg Char.toNat h
  rw [digitChar_toNat ha, digitChar_toNat hb] at this
  omega

theorem digitChar_isDigit {d : ℕ} (h : d < 10) : IsDigit (digitChar d) := by
  interval_cases d <;> decide

theorem decNat_ne_nil (n : ℕ) : decNat n ≠ [] := by
  unfold decNat
  split_ifs with h
  · simp
  · simpa using Nat.digits_ne_nil_iff_ne_zero.2 h

theorem decNat_isDigit {n : ℕ} {c : Char} (h : c ∈ decNat n) : IsDigit c := by
  unfold decNat at h
  split_ifs at h with h0
  · rw [List.mem_singleton] at h
    subst h; decide
  · rw [List.mem_map] at h
    obtain ⟨d, hd, rfl⟩ := h
    exact digitChar_isDigit (Nat.digits_lt_base (by norm_num) (List.mem_reverse.1 hd))

theorem map_digitChar_inj {l l' : List ℕ} (h : ∀ d ∈ l, d < 10) (h' : ∀ d ∈ l', d < 10)
    (e : l.map digitChar = l'.map digitChar) : l = l' := by
  induction l generalizing l' with
  | nil => cases l' with
    | nil => rfl
    | cons b l' => simp at e
  | cons a l ih => cases l' with
    | nil => simp at e
    | cons b l' =>
      simp only [List.map_cons, List.cons.injEq] at e
      rw [digitChar_inj (h a (by simp)) (h' b (by simp)) e.1,
        ih (fun d hd => h d (by simp [hd])) (fun d hd => h' d (by simp [hd])) e.2]

/-- `decNat` without the special case. -/
theorem decNat_eq (n : ℕ) : decNat n =
    ((if n = 0 then [0] else Nat.digits 10 n).reverse).map digitChar := by
  unfold decNat
  split_ifs with h
  · simp [digitChar]
  · rfl

theorem decNat_inj {m n : ℕ} (h : decNat m = decNat n) : m = n := by
  rw [decNat_eq, decNat_eq] at h
  have hd : ∀ k : ℕ, ∀ d ∈ (if k = 0 then [0] else Nat.digits 10 k).reverse, d < 10 := by
    intro k d hd
    split_ifs at hd with hk
    · simp at hd; omega
    · exact Nat.digits_lt_base (by norm_num) (List.mem_reverse.1 hd)
  have h2 := map_digitChar_inj (hd m) (hd n) h
  rw [List.reverse_inj] at h2
  split_ifs at h2 with h3 h4 h4
  · omega
  · have := Nat.ofDigits_digits 10 n
    rw [← h2] at this
    simp [Nat.ofDigits] at this
    omega
  · have := Nat.ofDigits_digits 10 m
    rw [h2] at this
    simp [Nat.ofDigits] at this
    omega
  · exact Nat.digits_inj_iff.1 h2

theorem decInt_inj {a b : ℤ} (h : decInt a = decInt b) : a = b := by
  have key : ∀ n l, '-' :: l ≠ decNat n := by
    intro n l e
    have : IsDigit '-' := decNat_isDigit (n := n) (by rw [← e]; simp)
    exact absurd this (by decide)
  unfold decInt at h
  split_ifs at h with h1 h2 h2
  · rw [List.cons.injEq] at h
    have := decNat_inj h.2
    omega
  · exact absurd h (key _ _)
  · exact absurd h.symm (key _ _)
  · have := decNat_inj h
    omega

theorem decNat_length_le {n : ℕ} (h : n < 1000) : (decNat n).length ≤ 3 := by
  unfold decNat
  split_ifs with h0
  · simp
  · rw [List.length_map, List.length_reverse]
    exact (Nat.digits_length_le_iff (by norm_num) n).2 h

theorem pad3_length {n : ℕ} (h : n < 1000) : (pad3 n).length = 3 := by
  have := decNat_length_le h
  unfold pad3
  rw [List.length_append, List.length_replicate]
  omega

/-- The value of a list of digits, most significant first. -/
def digitsVal (l : Str) : ℕ := Nat.ofDigits 10 (l.reverse.map fun c => c.toNat - 48)

theorem digitsVal_decNat (n : ℕ) : digitsVal (decNat n) = n := by
  unfold digitsVal
  rw [decNat_eq, ← List.map_reverse, List.reverse_reverse, List.map_map]
  have : (if n = 0 then [0] else Nat.digits 10 n).map ((fun c => c.toNat - 48) ∘ digitChar) =
      if n = 0 then [0] else Nat.digits 10 n := by
    conv_rhs => rw [← List.map_id (if n = 0 then [0] else Nat.digits 10 n)]
    refine List.map_congr_left fun d hd => ?_
    have : d < 10 := by
      split_ifs at hd with hk
      · simp at hd; omega
      · exact Nat.digits_lt_base (by norm_num) hd
    simp [digitChar_toNat this]
  rw [this]
  split_ifs with h
  · simp [h]
  · exact Nat.ofDigits_digits 10 n

theorem ofDigits_append_zeros (l : List ℕ) (k : ℕ) :
    Nat.ofDigits 10 (l ++ List.replicate k 0) = Nat.ofDigits 10 l := by
  rw [Nat.ofDigits_append]
  have : Nat.ofDigits 10 (List.replicate k 0) = 0 := by
    induction k with
    | zero => rfl
    | succ k ih => rw [List.replicate_succ, Nat.ofDigits_cons, ih]
  rw [this]; simp

theorem digitsVal_pad3 (n : ℕ) : digitsVal (pad3 n) = n := by
  unfold pad3
  conv_rhs => rw [← digitsVal_decNat n]
  unfold digitsVal
  rw [List.reverse_append, List.map_append, List.reverse_replicate, List.map_replicate]
  exact ofDigits_append_zeros _ _

theorem pad3_inj {m n : ℕ} (h : pad3 m = pad3 n) : m = n := by
  rw [← digitsVal_pad3 m, h, digitsVal_pad3]

end Verif
