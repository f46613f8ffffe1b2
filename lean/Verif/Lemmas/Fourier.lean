import Verif.Model.Aperture
import Mathlib.Analysis.SpecialFunctions.Trigonometric.Basic
import Mathlib.Analysis.SpecialFunctions.Complex.CircleAddChar
import Mathlib.Algebra.Field.GeomSum
import Mathlib.Data.Int.ModEq
import Mathlib.Tactic.LinearCombination

/-! # Discrete Fourier transform lemmas -/

namespace Verif.Fourier

open Verif Verif.Np Finset Complex

/-- `exp(-2πi z/N)` -/
noncomputable def ew (N : ℕ) (z : ℤ) : ℂ := Complex.exp (-(2 * Real.pi * I) * ((z : ℂ) / (N : ℂ)))

theorem ew_add (N : ℕ) (a b : ℤ) : ew N (a + b) = ew N a * ew N b := by
  unfold ew
  rw [← Complex.exp_add]
  congr 1
  push_cast
  ring

theorem ew_zero (N : ℕ) : ew N 0 = 1 := by simp [ew]

theorem ew_norm (N : ℕ) (z : ℤ) : ‖ew N z‖ = 1 := by
  have : -(2 * Real.pi * I) * ((z : ℂ) / (N : ℂ)) = ((-(2 * Real.pi) * (z / N) : ℝ) : ℂ) * I := by
    push_cast
    ring
  rw [ew, this, Complex.norm_exp_ofReal_mul_I]

theorem ew_conj (N : ℕ) (z : ℤ) : (starRingEnd ℂ) (ew N z) = ew N (-z) := by
  unfold ew
  rw [← Complex.exp_conj]
  congr 1
  simp only [map_mul, map_neg, map_div₀, Complex.conj_I, Complex.conj_ofReal, map_ofNat,
    map_natCast, map_intCast]
  push_cast
  ring

theorem ew_mul_period {N : ℕ} (hN : N ≠ 0) (k : ℤ) : ew N (N * k) = 1 := by
  unfold ew
  have hN' : (N : ℂ) ≠ 0 := by exact_mod_cast hN
  rw [Complex.exp_eq_one_iff]
  refine ⟨-k, ?_⟩
  push_cast
  field_simp

theorem ew_congr {N : ℕ} (hN : N ≠ 0) {a b : ℤ} (h : a ≡ b [ZMOD N]) : ew N a = ew N b := by
  obtain ⟨k, hk⟩ := h.dvd
  have : b = a + N * k := by omega
  rw [this, ew_add, ew_mul_period hN, mul_one]

theorem ew_eq_one_iff {N : ℕ} (hN : N ≠ 0) (z : ℤ) : ew N z = 1 ↔ (N : ℤ) ∣ z := by
  constructor
  · intro h
    unfold ew at h
    rw [Complex.exp_eq_one_iff] at h
    obtain ⟨n, hn⟩ := h
    have hN' : (N : ℂ) ≠ 0 := by exact_mod_cast hN
    have hp : (2 * Real.pi * I : ℂ) ≠ 0 := by
      simp [Real.pi_ne_zero]
    have : (z : ℂ) = N * ((-n : ℤ) : ℂ) := by
      have h1 : -((z : ℂ) / N) = n := by
        apply mul_left_cancel₀ hp
        linear_combination hn
      push_cast
      rw [← h1]
      field_simp
    exact ⟨-n, by exact_mod_cast this⟩
  · rintro ⟨k, rfl⟩
    exact ew_mul_period hN k

theorem ew_nsmul (N : ℕ) (z : ℤ) (k : ℕ) : ew N (k * z) = ew N z ^ k := by
  induction k with
  | zero => simp [ew_zero]
  | succ k ih =>
    rw [pow_succ, ← ih, ← ew_add]
    congr 1
    push_cast
    ring

theorem ew_sum {N : ℕ} (hN : N ≠ 0) (z : ℤ) :
    ∑ k : Fin N, ew N (((k : ℕ) : ℤ) * z) = if (N : ℤ) ∣ z then (N : ℂ) else 0 := by
  split_ifs with h
  · have : ∀ k : Fin N, ew N (((k : ℕ) : ℤ) * z) = 1 := fun k =>
      (ew_eq_one_iff hN _).2 (h.mul_left _)
    simp [this]
  · have h1 : ew N z ≠ 1 := fun h' => h ((ew_eq_one_iff hN z).1 h')
    have h2 : ∑ k : Fin N, ew N (((k : ℕ) : ℤ) * z) = ∑ k ∈ range N, ew N z ^ k := by
      rw [← Fin.sum_univ_eq_sum_range (fun k => ew N z ^ k)]
      exact sum_congr rfl fun k _ => ew_nsmul N z k
    rw [h2, geom_sum_eq h1, ← ew_nsmul, ew_mul_period hN, sub_self, zero_div]

/-- Parseval in one dimension. -/
theorem parseval1 {N : ℕ} (f : Fin N → ℂ) :
    ∑ k : Fin N, ‖∑ a : Fin N, f a * ew N (((k : ℕ) : ℤ) * ((a : ℕ) : ℤ))‖ ^ 2 =
      N * ∑ a : Fin N, ‖f a‖ ^ 2 := by
  rcases Nat.eq_zero_or_pos N with rfl | hN
  · simp
  have hN0 : N ≠ 0 := hN.ne'
  have key : ∀ z : ℂ, ((‖z‖ ^ 2 : ℝ) : ℂ) = z * (starRingEnd ℂ) z := fun z => by
    rw [Complex.mul_conj, Complex.normSq_eq_norm_sq]
  have : ((∑ k : Fin N, ‖∑ a : Fin N, f a * ew N (((k : ℕ) : ℤ) * ((a : ℕ) : ℤ))‖ ^ 2 : ℝ) : ℂ) =
      ((N * ∑ a : Fin N, ‖f a‖ ^ 2 : ℝ) : ℂ) := by
    rw [Complex.ofReal_sum]
    simp_rw [key, map_sum, map_mul, ew_conj, sum_mul_sum]
    rw [sum_comm]
    simp_rw [fun a : Fin N => sum_comm (s := (univ : Finset (Fin N))) (t := univ)
      (f := fun k b : Fin N => f a * ew N (((k : ℕ) : ℤ) * ((a : ℕ) : ℤ)) *
        ((starRingEnd ℂ) (f b) * ew N (-(((k : ℕ) : ℤ) * ((b : ℕ) : ℤ)))))]
    have h3 : ∀ a b : Fin N, ∑ k : Fin N, f a * ew N (((k : ℕ) : ℤ) * ((a : ℕ) : ℤ)) *
        ((starRingEnd ℂ) (f b) * ew N (-(((k : ℕ) : ℤ) * ((b : ℕ) : ℤ)))) =
        if a = b then N * (f a * (starRingEnd ℂ) (f a)) else 0 := by
      intro a b
      have : ∀ k : Fin N, f a * ew N (((k : ℕ) : ℤ) * ((a : ℕ) : ℤ)) *
        ((starRingEnd ℂ) (f b) * ew N (-(((k : ℕ) : ℤ) * ((b : ℕ) : ℤ)))) =
          f a * (starRingEnd ℂ) (f b) * ew N (((k : ℕ) : ℤ) * (((a : ℕ) : ℤ) - ((b : ℕ) : ℤ))) := by
        intro k
        rw [mul_sub, sub_eq_add_neg, ew_add]
        ring
      simp_rw [this]
      rw [← mul_sum, ew_sum hN0]
      by_cases hab : a = b
      · subst hab
        simp
        ring
      · rw [if_neg hab, if_neg, mul_zero]
        intro hd
        apply hab
        have ha := a.2
        have hb := b.2
        have := Int.eq_zero_of_abs_lt_dvd hd (by rw [abs_lt]; constructor <;> omega)
        apply Fin.ext
        omega
    simp_rw [h3]
    simp only [sum_ite_eq, mem_univ, if_true]
    rw [← mul_sum]
    push_cast
    simp_rw [← key]
    push_cast
    rfl
  exact_mod_cast this

theorem fft2_eq {N : ℕ} (E : Fin N × Fin N → ℂ) (q : Fin N × Fin N) :
    fft2 E q = ∑ a : Fin N, ∑ b : Fin N, E (a, b) *
      ew N (((q.1 : ℕ) : ℤ) * ((a : ℕ) : ℤ) + ((q.2 : ℕ) : ℤ) * ((b : ℕ) : ℤ)) := by
  unfold fft2 ew
  push_cast
  rfl

theorem shiftIdx_congr {N : ℕ} (i : Fin N) :
    ((shiftIdx i : ℕ) : ℤ) ≡ ((i : ℕ) : ℤ) - ((N / 2 : ℕ) : ℤ) [ZMOD N] := by
  have hn : 0 < N := i.pos
  have h1 := Int.emod_nonneg (((i : ℕ) : ℤ) - ((N / 2 : ℕ) : ℤ)) (by omega : (N : ℤ) ≠ 0)
  unfold shiftIdx
  simp only
  rw [Int.toNat_of_nonneg h1]
  exact Int.mod_modEq _ _

theorem shiftIdx_inj {N : ℕ} : Function.Injective (shiftIdx (n := N)) := by
  intro i j h
  have h1 := shiftIdx_congr i
  rw [h] at h1
  have h2 := (h1.symm.trans (shiftIdx_congr j)).dvd
  have hi := i.2
  have hj := j.2
  have := Int.eq_zero_of_abs_lt_dvd h2 (by rw [abs_lt]; constructor <;> omega)
  apply Fin.ext
  omega

theorem shiftIdx_bij {N : ℕ} : Function.Bijective (shiftIdx (n := N)) :=
  Finite.injective_iff_bijective.1 shiftIdx_inj

/-- The shifted transform with the centred frequencies. -/
theorem shifted_eq {N : ℕ} (E : Fin N × Fin N → ℂ) (q : Fin N × Fin N) :
    fftshift2 (fft2 E) q = ∑ a : Fin N, ∑ b : Fin N, E (a, b) *
      ew N ((((q.1 : ℕ) : ℤ) - ((N / 2 : ℕ) : ℤ)) * ((a : ℕ) : ℤ) +
        (((q.2 : ℕ) : ℤ) - ((N / 2 : ℕ) : ℤ)) * ((b : ℕ) : ℤ)) := by
  have hN : N ≠ 0 := q.1.pos.ne'
  unfold fftshift2
  rw [fft2_eq]
  refine sum_congr rfl fun a _ => sum_congr rfl fun b _ => ?_
  congr 1
  apply ew_congr hN
  exact ((shiftIdx_congr q.1).mul_right _).add ((shiftIdx_congr q.2).mul_right _)

/-- Parseval in two dimensions. -/
theorem parseval2 {N : ℕ} (E : Fin N × Fin N → ℂ) :
    ∑ q : Fin N × Fin N, ‖fft2 E q‖ ^ 2 = (N : ℝ) ^ 2 * ∑ q : Fin N × Fin N, ‖E q‖ ^ 2 := by
  have h1 : ∀ q : Fin N × Fin N, fft2 E q = ∑ a : Fin N,
      (∑ b : Fin N, E (a, b) * ew N (((q.2 : ℕ) : ℤ) * ((b : ℕ) : ℤ))) *
        ew N (((q.1 : ℕ) : ℤ) * ((a : ℕ) : ℤ)) := by
    intro q
    rw [fft2_eq]
    refine sum_congr rfl fun a _ => ?_
    rw [sum_mul]
    refine sum_congr rfl fun b _ => ?_
    rw [ew_add]
    ring
  simp_rw [h1]
  rw [Fintype.sum_prod_type_right, Fintype.sum_prod_type]
  simp only
  have h2 := fun l : Fin N => parseval1 (fun a : Fin N =>
    ∑ b : Fin N, E (a, b) * ew N (((l : ℕ) : ℤ) * ((b : ℕ) : ℤ)))
  simp_rw [h2]
  rw [← mul_sum, sum_comm]
  have h3 := fun a : Fin N => parseval1 (fun b : Fin N => E (a, b))
  simp_rw [h3]
  rw [← mul_sum]
  ring

theorem parseval_shift {N : ℕ} (E : Fin N × Fin N → ℂ) :
    ∑ q : Fin N × Fin N, ‖fftshift2 (fft2 E) q‖ ^ 2 =
      (N : ℝ) ^ 2 * ∑ q : Fin N × Fin N, ‖E q‖ ^ 2 := by
  rw [← parseval2]
  unfold fftshift2
  exact Fintype.sum_bijective (fun q : Fin N × Fin N => (shiftIdx q.1, shiftIdx q.2))
    (shiftIdx_bij.prodMap shiftIdx_bij) _ _ fun q => rfl

theorem fft2_smul {N : ℕ} (c : ℂ) (E : Fin N × Fin N → ℂ) (q : Fin N × Fin N) :
    fft2 (fun p => c * E p) q = c * fft2 E q := by
  unfold fft2
  simp_rw [mul_sum]
  refine sum_congr rfl fun a _ => sum_congr rfl fun b _ => ?_
  ring

/-- The frequency of the shifted axis. -/
theorem fftfreq_shift {N : ℕ} (d : ℝ) (i : Fin N) :
    fftfreq N d (shiftIdx i) = (((i : ℕ) : ℝ) - ((N / 2 : ℕ) : ℝ)) / (N * d) := by
  have hn : 0 < N := i.pos
  have hi := i.2
  unfold fftfreq
  simp only
  have key : (if (shiftIdx i : ℕ) < (N - 1) / 2 + 1 then ((shiftIdx i : ℕ) : ℤ)
      else -((N / 2 : ℕ) : ℤ) + (((shiftIdx i : ℕ) - ((N - 1) / 2 + 1) : ℕ) : ℤ)) =
      ((i : ℕ) : ℤ) - ((N / 2 : ℕ) : ℤ) := by
    by_cases h : N / 2 ≤ (i : ℕ)
    · have hs : (shiftIdx i : ℕ) = (i : ℕ) - N / 2 := by
        unfold shiftIdx
        simp only
        rw [Int.emod_eq_of_lt (by omega) (by omega)]
        omega
      rw [hs, if_pos (by omega)]
      omega
    · have hs : (shiftIdx i : ℕ) = (i : ℕ) + N - N / 2 := by
        unfold shiftIdx
        simp only
        rw [← Int.add_emod_right, Int.emod_eq_of_lt (by omega) (by omega)]
        omega
      rw [hs, if_neg (by omega)]
      omega
  rw [key, Int.cast_sub, Int.cast_natCast, Int.cast_natCast]
  ring

end Verif.Fourier
