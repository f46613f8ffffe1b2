import Verif.Lemmas.Riemann

/-!
# How far the sum over a grid of a square is from the integral
-/

namespace Verif.Riemann

open MeasureTheory Filter Topology Set

/-- The index of the cell of a point of the square. -/
theorem cell_exists {R h : ℝ} {N : ℕ} (hh : 0 < h) (hmul : h * ((N : ℝ) - 1) = 2 * R) {t : ℝ} (h1 : -R ≤ t) (h2 : t < R) :
    ∃ b : ℕ, b < N ∧ ⌊(t + R) / h⌋ = (b : ℤ) := by
  have h0 : 0 ≤ ⌊(t + R) / h⌋ := Int.floor_nonneg.2 (div_nonneg (by linarith) hh.le)
  obtain ⟨b, hb⟩ := Int.eq_ofNat_of_zero_le h0
  refine ⟨b, ?_, hb⟩
  have h3 : (t + R) / h < (N : ℝ) - 1 := by
    rw [div_lt_iff₀ hh]
    nlinarith
  have h4 : (⌊(t + R) / h⌋ : ℝ) < (N : ℝ) := by
    have := Int.floor_le ((t + R) / h)
    linarith
  rw [hb] at h4
  exact_mod_cast h4

theorem cell_box {R h : ℝ} {N : ℕ} (hh : 0 < h) (hmul : h * ((N : ℝ) - 1) = 2 * R) (hle : h ≤ 2 * R) {t : ℝ} {b : ℕ}
    (hb : b < N) (e : ⌊(t + R) / h⌋ = (b : ℤ)) : t ∈ Icc (-R) (3 * R) := by
  rw [← mem_cell hh, mem_Ico] at e
  have hb' : (b : ℝ) + 1 ≤ N := by exact_mod_cast hb
  have hb0 : (0 : ℝ) ≤ b := Nat.cast_nonneg b
  have := mul_le_mul_of_nonneg_right hb' hh.le
  have h3 := mul_nonneg hb0 hh.le
  constructor <;> nlinarith [e.1, e.2]

/-- A bounded function that vanishes outside the square and, but for a set of area `κ`, changes by at most `L` within a
cell. -/
theorem sum_rate {R M L κ h : ℝ} (hR : 0 < R) {N : ℕ} (hN : 2 ≤ N) (hh : h = 2 * R / ((N : ℝ) - 1)) (G : ℝ × ℝ → ℂ)
    (hm : AEStronglyMeasurable G) (hM : ∀ p, ‖G p‖ ≤ M) (hz : ∀ p : ℝ × ℝ, R < |p.1| ∨ R < |p.2| → G p = 0)
    (hL0 : 0 ≤ L) (hκ0 : 0 ≤ κ) (E : Set (ℝ × ℝ)) (hE : MeasurableSet E) (hκ : volume E ≤ ENNReal.ofReal κ)
    (hL : ∀ p q : ℝ × ℝ, p ∉ E → |p.1 - q.1| ≤ h → |p.2 - q.2| ≤ h → ‖G p - G q‖ ≤ L) :
    ‖∑ a ∈ Finset.range N, ∑ b ∈ Finset.range N, ((h * h : ℝ) : ℂ) * G (-R + b * h, -R + a * h) - ∫ p, G p‖ ≤
      16 * R ^ 2 * L + 2 * M * κ := by
  have hM0 : 0 ≤ M := (norm_nonneg _).trans (hM 0)
  have hn1 : (1 : ℝ) ≤ (N : ℝ) - 1 := by
    have : (2 : ℝ) ≤ N := by exact_mod_cast hN
    linarith
  have hpos : 0 < h := by rw [hh]; exact div_pos (by linarith) (by linarith)
  have hmul : h * ((N : ℝ) - 1) = 2 * R := by rw [hh]; exact div_mul_cancel₀ _ (by linarith)
  have hle : h ≤ 2 * R := by rw [hh]; exact div_le_self (by linarith) hn1
  let c : ℕ → ℕ → ℂ := fun a b => G (-R + b * h, -R + a * h)
  have hS : ∑ a ∈ Finset.range N, ∑ b ∈ Finset.range N, ((h * h : ℝ) : ℂ) * G (-R + b * h, -R + a * h) =
      ∫ p, step R h N c p := (step_integral R h hpos N c).symm
  let Q : Set (ℝ × ℝ) := Icc (-R) (3 * R) ×ˢ Icc (-R) (3 * R)
  have hQ : MeasurableSet Q := measurableSet_Icc.prod measurableSet_Icc
  have hQv : volume.real Q = 16 * R ^ 2 := by
    dsimp only [Q]
    rw [Measure.volume_eq_prod, measureReal_prod_prod, Real.volume_real_Icc, max_eq_left (by linarith)]
    ring
  have hQf : volume Q ≠ ⊤ := by
    dsimp only [Q]
    rw [Measure.volume_eq_prod, Measure.prod_prod, Real.volume_Icc]
    exact ENNReal.mul_ne_top ENNReal.ofReal_ne_top ENNReal.ofReal_ne_top
  have hEf : volume E ≠ ⊤ := ne_top_of_le_ne_top ENNReal.ofReal_ne_top hκ
  have i1 : Integrable (Q.indicator fun _ => L) := (integrable_indicator_iff hQ).2 (integrableOn_const hQf)
  have i2 : Integrable (E.indicator fun _ => 2 * M) := (integrable_indicator_iff hE).2 (integrableOn_const hEf)
  have i3 : Integrable (Q.indicator fun _ => M) := (integrable_indicator_iff hQ).2 (integrableOn_const hQf)
  have hstep : ∀ p : ℝ × ℝ, p.1 ≠ R → p.2 ≠ R →
      (p ∈ Q ∧ step R h N c p = G (low R h p.1, low R h p.2)) ∨ (step R h N c p = 0 ∧ G p = 0) := by
    intro p p1 p2
    by_cases he : ∃ a b : ℕ, a < N ∧ b < N ∧ ⌊(p.1 + R) / h⌋ = (b : ℤ) ∧ ⌊(p.2 + R) / h⌋ = (a : ℤ)
    · obtain ⟨a, b, ha, hb, e1, e2⟩ := he
      refine .inl ⟨⟨cell_box hpos hmul hle hb e1, cell_box hpos hmul hle ha e2⟩, ?_⟩
      rw [step_in hpos _ ha hb e1 e2]
      show G _ = _
      unfold low
      rw [e1, e2]
      push_cast
      rfl
    · refine .inr ⟨step_out hpos _ he, hz p ?_⟩
      by_contra hcon
      push Not at hcon
      rw [abs_le, abs_le] at hcon
      obtain ⟨b, hb, e1⟩ := cell_exists hpos hmul hcon.1.1 (lt_of_le_of_ne hcon.1.2 p1)
      obtain ⟨a, ha, e2⟩ := cell_exists hpos hmul hcon.2.1 (lt_of_le_of_ne hcon.2.2 p2)
      exact he ⟨a, b, ha, hb, e1, e2⟩
  have n1 : ∀ᵐ p : ℝ × ℝ, p.1 ≠ R := by
    rw [ae_iff]; simpa using null_fst R
  have n2 : ∀ᵐ p : ℝ × ℝ, p.2 ≠ R := by
    rw [ae_iff]; simpa using null_snd R
  have iG : Integrable G := by
    refine i3.mono' hm (ae_of_all _ fun p => ?_)
    by_cases hp : p ∈ Q
    · rw [indicator_of_mem hp]
      exact hM p
    · rw [indicator_of_notMem hp]
      have : G p = 0 := by
        refine hz p ?_
        by_contra hcon
        push Not at hcon
        rw [abs_le, abs_le] at hcon
        exact hp ⟨⟨hcon.1.1, by linarith⟩, hcon.2.1, by linarith⟩
      rw [this, norm_zero]
  have iS : Integrable (step R h N c) := by
    refine i3.mono' (step_measurable _ _ _ _).aestronglyMeasurable ?_
    filter_upwards [n1, n2] with p p1 p2
    rcases hstep p p1 p2 with ⟨hp, e⟩ | ⟨e, -⟩
    · rw [e, indicator_of_mem hp]
      exact hM _
    · rw [e, norm_zero]
      exact indicator_nonneg (fun _ _ => hM0) _
  rw [hS, ← integral_sub iS iG]
  have hbound : ∀ᵐ p : ℝ × ℝ, ‖step R h N c p - G p‖ ≤ Q.indicator (fun _ => L) p + E.indicator (fun _ => 2 * M) p := by
    filter_upwards [n1, n2] with p p1 p2
    have hQ0 : 0 ≤ Q.indicator (fun _ => L) p := indicator_nonneg (fun _ _ => hL0) _
    have hE0 : 0 ≤ E.indicator (fun _ => 2 * M) p := indicator_nonneg (fun _ _ => by linarith) _
    rcases hstep p p1 p2 with ⟨hp, e⟩ | ⟨e, e'⟩
    · rw [e]
      by_cases hpE : p ∈ E
      · rw [indicator_of_mem hpE]
        have := norm_sub_le (G (low R h p.1, low R h p.2)) (G p)
        have := hM (low R h p.1, low R h p.2)
        have := hM p
        linarith
      · rw [indicator_of_mem hp, norm_sub_rev]
        have := hL p (low R h p.1, low R h p.2) hpE (by rw [abs_sub_comm]; exact low_near hpos _)
          (by rw [abs_sub_comm]; exact low_near hpos _)
        linarith
    · rw [e, e', sub_zero, norm_zero]
      linarith
  refine (norm_integral_le_of_norm_le (i1.add i2) hbound).trans ?_
  show ∫ p, (Q.indicator (fun _ => L) p + E.indicator (fun _ => 2 * M) p) ≤ _
  rw [integral_add i1 i2, integral_indicator_const _ hQ, integral_indicator_const _ hE, hQv, smul_eq_mul, smul_eq_mul]
  have hEr : volume.real E ≤ κ := by
    have := ENNReal.toReal_mono ENNReal.ofReal_ne_top hκ
    rwa [ENNReal.toReal_ofReal hκ0] at this
  have := mul_le_mul_of_nonneg_right hEr (by linarith : 0 ≤ 2 * M)
  linarith

end Verif.Riemann
