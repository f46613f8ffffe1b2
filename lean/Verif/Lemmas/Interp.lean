import Verif.Model.Residual
import Mathlib.Order.Interval.Finset.Fin
import Mathlib.Tactic.Linarith
import Mathlib.Tactic.FieldSimp
import Mathlib.Tactic.Ring

/-! # Lemmas on the linear interpolator -/

namespace Verif.Core

open Verif Finset

theorem searchsorted_iff {n : ℕ} (g : Fin n → ℝ) (hg : StrictMono g) (x : ℝ) (k : Fin n) :
    g k < x ↔ (k : ℕ) < searchsorted g x := by
  classical
  unfold searchsorted
  constructor
  · intro h
    have hsub : Finset.Iic k ⊆ univ.filter fun k => g k < x := by
      intro j hj
      rw [Finset.mem_Iic] at hj
      exact mem_filter.2 ⟨mem_univ _, (hg.monotone hj).trans_lt h⟩
    have := card_le_card hsub
    rw [Fin.card_Iic] at this
    convert Nat.lt_of_succ_le this
  · intro h
    by_contra hn
    have hsub : (univ.filter fun k => g k < x) ⊆ Finset.Iio k := by
      intro j hj
      rw [Finset.mem_Iio]
      by_contra hjk
      exact hn ((hg.monotone (not_lt.1 hjk)).trans_lt (mem_filter.1 hj).2)
    have := card_le_card hsub
    rw [Fin.card_Iio] at this
    have h' : (k : ℕ) < (univ.filter fun k => g k < x).card := by convert h
    omega

theorem gridAt_lt {n : ℕ} (g : Fin n → ℝ) {i : ℕ} (h : i < n) : gridAt g i = g ⟨i, h⟩ := by
  simp [gridAt, h]

/-- The cell chosen for a point within the grid contains it. -/
theorem cell_spec {n : ℕ} (hn : 2 ≤ n) (g : Fin n → ℝ) (hg : StrictMono g) (x : ℝ) (hx : inGrid g x) :
    cellIdx g x + 1 < n ∧ gridAt g (cellIdx g x) ≤ x ∧ x ≤ gridAt g (cellIdx g x + 1) := by
  have hs := searchsorted_iff g hg x
  set c := searchsorted g x with hc
  have hi : cellIdx g x = min (c - 1) (n - 2) := rfl
  obtain ⟨⟨a, ha⟩, b, hb⟩ := hx
  have hcb : c ≤ b := not_lt.1 fun h => absurd ((hs b).2 h) (not_lt.2 hb)
  have hlt : cellIdx g x + 1 < n := by omega
  refine ⟨hlt, ?_, ?_⟩
  · rw [gridAt_lt g (by omega)]
    by_cases h0 : c = 0
    · have h1 : (⟨cellIdx g x, by omega⟩ : Fin n) ≤ a := Fin.le_def.2 (by
        have : cellIdx g x = 0 := by rw [hi, h0]; simp
        show cellIdx g x ≤ _
        omega)
      exact (hg.monotone h1).trans ha
    · exact ((hs ⟨cellIdx g x, by omega⟩).2 (by
        show cellIdx g x < c
        omega)).le
  · rw [gridAt_lt g hlt]
    have hbn := b.isLt
    have := (hs ⟨cellIdx g x + 1, hlt⟩).not.2 (by
      show ¬ cellIdx g x + 1 < c
      omega)
    exact not_lt.1 this

/-- Linear interpolation in one cell. -/
noncomputable def lin (f : ℕ → ℝ) (i : ℕ) (s : ℝ) : ℝ := f i * (1 - s) + f (i + 1) * s

theorem evalLinear_lin {n : ℕ} (g0 g1 : Fin n → ℝ) (V : Fin n × Fin n → ℝ) (x y : ℝ) :
    evalLinear g0 g1 V x y = lin (fun i => lin (fun j => valAt V i j) (cellIdx g1 y) (cellDist g1 y))
      (cellIdx g0 x) (cellDist g0 x) := by
  unfold evalLinear lin
  ring

/-- The interpolation does not depend on which of the cells containing the point is used. -/
theorem lin_cell {n : ℕ} (hn : 2 ≤ n) (g : Fin n → ℝ) (hg : StrictMono g) (x : ℝ) (a : ℕ)
    (ha : a + 1 < n) (h1 : g ⟨a, by omega⟩ ≤ x) (h2 : x ≤ g ⟨a + 1, ha⟩) (f : ℕ → ℝ) :
    lin f (cellIdx g x) (cellDist g x) =
      lin f a ((x - g ⟨a, by omega⟩) / (g ⟨a + 1, ha⟩ - g ⟨a, by omega⟩)) := by
  obtain ⟨hi, h3, h4⟩ := cell_spec hn g hg x ⟨⟨_, h1⟩, _, h2⟩
  unfold cellDist
  generalize cellIdx g x = i at *
  rw [gridAt_lt g (by omega : i < n)] at *
  rw [gridAt_lt g hi] at *
  have hlt : ∀ j (hj : j + 1 < n), g ⟨j, by omega⟩ < g ⟨j + 1, hj⟩ := fun j hj =>
    hg (Fin.lt_def.2 (Nat.lt_succ_self j))
  rcases lt_trichotomy i a with h | h | h
  · -- i < a: x = g (i + 1) = g a, a = i + 1
    have h5 : g ⟨i + 1, hi⟩ ≤ g ⟨a, by omega⟩ := hg.monotone (Fin.le_def.2 h)
    have hxa : x = g ⟨a, by omega⟩ := le_antisymm (h4.trans h5) h1
    have hgi : g ⟨i + 1, hi⟩ = g ⟨a, by omega⟩ := le_antisymm h5 (hxa ▸ h4)
    have hia : i + 1 = a := Fin.mk.inj (hg.injective hgi)
    subst hia
    rw [hxa, div_self (sub_ne_zero.2 (hlt i hi).ne'), sub_self, zero_div]
    unfold lin
    ring
  · subst h
    rfl
  · have h5 : g ⟨a + 1, ha⟩ ≤ g ⟨i, by omega⟩ := hg.monotone (Fin.le_def.2 h)
    have hxi : x = g ⟨i, by omega⟩ := le_antisymm (h2.trans h5) h3
    have hgi : g ⟨a + 1, ha⟩ = g ⟨i, by omega⟩ := le_antisymm h5 (hxi ▸ h2)
    have hia : a + 1 = i := Fin.mk.inj (hg.injective hgi)
    subst hia
    rw [hxi, div_self (sub_ne_zero.2 (hlt a ha).ne'), sub_self, zero_div]
    unfold lin
    ring

/-- At a node the value of the node. -/
theorem lin_node {n : ℕ} (hn : 2 ≤ n) (g : Fin n → ℝ) (hg : StrictMono g) (a : Fin n) (f : ℕ → ℝ) :
    lin f (cellIdx g (g a)) (cellDist g (g a)) = f a := by
  have ha := a.isLt
  by_cases h : (a : ℕ) + 1 < n
  · rw [lin_cell hn g hg (g a) a h le_rfl (hg.monotone (Fin.le_def.2 (Nat.le_succ _)))]
    simp [lin]
  · obtain ⟨b, hb⟩ : ∃ b, (a : ℕ) = b + 1 := ⟨a - 1, by omega⟩
    have hab : a = ⟨b + 1, by omega⟩ := Fin.ext hb
    have hlt : g ⟨b, by omega⟩ < g ⟨b + 1, by omega⟩ := hg (Fin.lt_def.2 (Nat.lt_succ_self b))
    rw [hab, lin_cell hn g hg _ b (by omega) hlt.le le_rfl, div_self (sub_ne_zero.2 hlt.ne')]
    simp [lin]

theorem valAt_lt {n : ℕ} (V : Fin n × Fin n → ℝ) {i j : ℕ} (hi : i < n) (hj : j < n) :
    valAt V i j = V (⟨i, hi⟩, ⟨j, hj⟩) := by
  simp [valAt, hi, hj]

theorem cellDist_mem {n : ℕ} (hn : 2 ≤ n) (g : Fin n → ℝ) (hg : StrictMono g) (x : ℝ)
    (hx : inGrid g x) : 0 ≤ cellDist g x ∧ cellDist g x ≤ 1 := by
  obtain ⟨hi, h3, h4⟩ := cell_spec hn g hg x hx
  have hlt : gridAt g (cellIdx g x) < gridAt g (cellIdx g x + 1) := by
    rw [gridAt_lt g hi, gridAt_lt g (by omega : cellIdx g x < n)]
    exact hg (Fin.lt_def.2 (Nat.lt_succ_self _))
  unfold cellDist
  constructor
  · exact div_nonneg (by linarith) (by linarith)
  · rw [div_le_one (by linarith)]
    linarith

theorem evalLinear_smul {n : ℕ} (g0 g1 : Fin n → ℝ) (c : ℝ) (V : Fin n × Fin n → ℝ) (x y : ℝ) :
    evalLinear g0 g1 (fun q => c * V q) x y = c * evalLinear g0 g1 V x y := by
  have : ∀ i j, valAt (fun q => c * V q) i j = c * valAt V i j := by
    intro i j
    unfold valAt
    split_ifs <;> ring
  unfold evalLinear
  simp only [this]
  ring

end Verif.Core
