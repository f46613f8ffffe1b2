import Mathlib.MeasureTheory.Integral.DominatedConvergence
import Mathlib.MeasureTheory.Integral.Bochner.Set
import Mathlib.MeasureTheory.Measure.Lebesgue.Basic
import Mathlib.MeasureTheory.Measure.Prod

/-!
# Sums over finer and finer grids of a square converge to the integral
-/

namespace Verif.Riemann

open MeasureTheory Filter Topology Set

/-- The point of the grid below `t`. -/
noncomputable def low (R h t : ℝ) : ℝ := -R + (⌊(t + R) / h⌋ : ℝ) * h

theorem low_near {R h : ℝ} (hh : 0 < h) (t : ℝ) : |low R h t - t| ≤ h := by
  unfold low
  have h1 := Int.floor_le ((t + R) / h)
  have h2 := Int.lt_floor_add_one ((t + R) / h)
  rw [le_div_iff₀ hh] at h1
  rw [div_lt_iff₀ hh] at h2
  rw [abs_le]
  constructor <;> linarith

theorem mem_cell {R h : ℝ} (hh : 0 < h) (t : ℝ) (b : ℕ) :
    t ∈ Ico (-R + b * h) (-R + (b + 1) * h) ↔ ⌊(t + R) / h⌋ = (b : ℤ) := by
  rw [Int.floor_eq_iff, mem_Ico, le_div_iff₀ hh, div_lt_iff₀ hh]
  push_cast
  constructor <;> rintro ⟨h1, h2⟩ <;> constructor <;> linarith

/-- The step function of the values `c a b` on the cells of the grid. -/
noncomputable def step (R h : ℝ) (N : ℕ) (c : ℕ → ℕ → ℂ) (p : ℝ × ℝ) : ℂ :=
  ∑ a ∈ Finset.range N, ∑ b ∈ Finset.range N,
    (Ico (-R + b * h) (-R + (b + 1) * h) ×ˢ Ico (-R + a * h) (-R + (a + 1) * h)).indicator (fun _ => c a b) p

theorem step_in {R h : ℝ} (hh : 0 < h) {N : ℕ} (c : ℕ → ℕ → ℂ) {p : ℝ × ℝ} {a b : ℕ} (ha : a < N) (hb : b < N)
    (h1 : ⌊(p.1 + R) / h⌋ = (b : ℤ)) (h2 : ⌊(p.2 + R) / h⌋ = (a : ℤ)) : step R h N c p = c a b := by
  unfold step
  rw [Finset.sum_eq_single a, Finset.sum_eq_single b]
  · rw [indicator_of_mem]
    exact ⟨(mem_cell hh _ _).2 h1, (mem_cell hh _ _).2 h2⟩
  · intro b' _ hne
    rw [indicator_of_notMem]
    rintro ⟨e, -⟩
    rw [mem_cell hh, h1] at e
    exact hne (by exact_mod_cast e.symm)
  · intro hn
    exact absurd (Finset.mem_range.2 hb) hn
  · intro a' _ hne
    refine Finset.sum_eq_zero fun b' _ => ?_
    rw [indicator_of_notMem]
    rintro ⟨-, e⟩
    rw [mem_cell hh, h2] at e
    exact hne (by exact_mod_cast e.symm)
  · intro hn
    exact absurd (Finset.mem_range.2 ha) hn

theorem step_out {R h : ℝ} (hh : 0 < h) {N : ℕ} (c : ℕ → ℕ → ℂ) {p : ℝ × ℝ}
    (hn : ¬ ∃ a b : ℕ, a < N ∧ b < N ∧ ⌊(p.1 + R) / h⌋ = (b : ℤ) ∧ ⌊(p.2 + R) / h⌋ = (a : ℤ)) :
    step R h N c p = 0 := by
  unfold step
  refine Finset.sum_eq_zero fun a ha => Finset.sum_eq_zero fun b hb => ?_
  rw [indicator_of_notMem]
  rintro ⟨e1, e2⟩
  rw [mem_cell hh] at e1 e2
  exact hn ⟨a, b, Finset.mem_range.1 ha, Finset.mem_range.1 hb, e1, e2⟩

theorem step_integral (R h : ℝ) (hh : 0 < h) (N : ℕ) (c : ℕ → ℕ → ℂ) :
    ∫ p, step R h N c p = ∑ a ∈ Finset.range N, ∑ b ∈ Finset.range N, ((h * h : ℝ) : ℂ) * c a b := by
  unfold step
  have hm : ∀ a b : ℕ, MeasurableSet
      (Ico (-R + b * h) (-R + (b + 1) * h) ×ˢ Ico (-R + a * h) (-R + (a + 1) * h)) :=
    fun a b => measurableSet_Ico.prod measurableSet_Ico
  have hv : ∀ a b : ℕ, volume.real
      (Ico (-R + b * h) (-R + (b + 1) * h) ×ˢ Ico (-R + a * h) (-R + (a + 1) * h)) = h * h := by
    intro a b
    rw [Measure.volume_eq_prod, measureReal_prod_prod, Real.volume_real_Ico, Real.volume_real_Ico]
    rw [max_eq_left (by nlinarith), max_eq_left (by nlinarith)]
    ring
  have hfin : ∀ a b : ℕ, volume
      (Ico (-R + b * h) (-R + (b + 1) * h) ×ˢ Ico (-R + a * h) (-R + (a + 1) * h)) ≠ ⊤ := by
    intro a b
    rw [Measure.volume_eq_prod, Measure.prod_prod, Real.volume_Ico, Real.volume_Ico]
    exact ENNReal.mul_ne_top ENNReal.ofReal_ne_top ENNReal.ofReal_ne_top
  have hint : ∀ a b : ℕ, Integrable ((Ico (-R + b * h) (-R + (b + 1) * h) ×ˢ
      Ico (-R + a * h) (-R + (a + 1) * h)).indicator fun _ => c a b) :=
    fun a b => (integrable_indicator_iff (hm a b)).2 (integrableOn_const (hfin a b))
  rw [integral_finset_sum _ fun a _ => integrable_finset_sum _ fun b _ => hint a b]
  refine Finset.sum_congr rfl fun a _ => ?_
  rw [integral_finset_sum _ fun b _ => hint a b]
  refine Finset.sum_congr rfl fun b _ => ?_
  rw [integral_indicator_const _ (hm a b), hv, Complex.real_smul]

theorem step_measurable (R h : ℝ) (N : ℕ) (c : ℕ → ℕ → ℂ) : Measurable (step R h N c) := by
  unfold step
  refine Finset.measurable_fun_sum _ fun a _ => Finset.measurable_fun_sum _ fun b _ => ?_
  exact measurable_const.indicator (measurableSet_Ico.prod measurableSet_Ico)

theorem null_fst (c : ℝ) : volume {p : ℝ × ℝ | p.1 = c} = 0 := by
  have : {p : ℝ × ℝ | p.1 = c} = {c} ×ˢ univ := by ext p; simp
  rw [this, Measure.volume_eq_prod, Measure.prod_prod]
  simp

theorem null_snd (c : ℝ) : volume {p : ℝ × ℝ | p.2 = c} = 0 := by
  have : {p : ℝ × ℝ | p.2 = c} = univ ×ˢ {c} := by ext p; simp
  rw [this, Measure.volume_eq_prod, Measure.prod_prod]
  simp

/-- Sums of bounded functions that converge continuously, over finer and finer grids of a square outside which the
limit vanishes. -/
theorem tendsto_sum {R M : ℝ} (hR : 0 < R) (N : ℕ → ℕ) (hN2 : ∀ k, 2 ≤ N k) (hN : Tendsto N atTop atTop)
    (G : ℕ → ℝ × ℝ → ℂ) (L : ℝ × ℝ → ℂ) (hM : ∀ k p, ‖G k p‖ ≤ M)
    (hz : ∀ p : ℝ × ℝ, R < |p.1| ∨ R < |p.2| → L p = 0)
    (hc : ∀ᵐ p, ∀ q : ℕ → ℝ × ℝ, Tendsto q atTop (𝓝 p) → Tendsto (fun k => G k (q k)) atTop (𝓝 (L p))) :
    Tendsto (fun k => ∑ a ∈ Finset.range (N k), ∑ b ∈ Finset.range (N k),
      (((2 * R / ((N k : ℝ) - 1)) * (2 * R / ((N k : ℝ) - 1)) : ℝ) : ℂ) *
        G k (-R + b * (2 * R / ((N k : ℝ) - 1)), -R + a * (2 * R / ((N k : ℝ) - 1)))) atTop (𝓝 (∫ p, L p)) := by
  have hM0 : 0 ≤ M := (norm_nonneg _).trans (hM 0 0)
  set h : ℕ → ℝ := fun k => 2 * R / ((N k : ℝ) - 1) with hh
  have hn1 : ∀ k, (1 : ℝ) ≤ (N k : ℝ) - 1 := fun k => by
    have : (2 : ℝ) ≤ N k := by exact_mod_cast hN2 k
    linarith
  have hpos : ∀ k, 0 < h k := fun k => div_pos (by linarith) (by linarith [hn1 k])
  have hmul : ∀ k, h k * ((N k : ℝ) - 1) = 2 * R := fun k => div_mul_cancel₀ _ (by linarith [hn1 k])
  have hle : ∀ k, h k ≤ 2 * R := fun k => div_le_self (by linarith) (hn1 k)
  have hlim : Tendsto h atTop (𝓝 0) := by
    refine Tendsto.div_atTop tendsto_const_nhds ?_
    exact tendsto_atTop_add_const_right _ _ (tendsto_natCast_atTop_atTop.comp hN)
  let c : ℕ → ℕ → ℕ → ℂ := fun k a b => G k (-R + b * h k, -R + a * h k)
  have hS : ∀ k, ∑ a ∈ Finset.range (N k), ∑ b ∈ Finset.range (N k), ((h k * h k : ℝ) : ℂ) *
      G k (-R + b * h k, -R + a * h k) = ∫ p, step R (h k) (N k) (c k) p := fun k =>
    (step_integral R (h k) (hpos k) (N k) (c k)).symm
  refine Tendsto.congr (fun k => (hS k).symm) ?_
  -- a bound
  refine tendsto_integral_of_dominated_convergence
    ((Icc (-R) (3 * R) ×ˢ Icc (-R) (3 * R)).indicator fun _ => M) (fun k => (step_measurable _ _ _ _).aestronglyMeasurable)
    ?_ (fun k => ae_of_all _ fun p => ?_) ?_
  · refine (integrable_indicator_iff (measurableSet_Icc.prod measurableSet_Icc)).2 (integrableOn_const ?_)
    rw [Measure.volume_eq_prod, Measure.prod_prod, Real.volume_Icc]
    exact ENNReal.mul_ne_top ENNReal.ofReal_ne_top ENNReal.ofReal_ne_top
  · by_cases he : ∃ a b : ℕ, a < N k ∧ b < N k ∧ ⌊(p.1 + R) / h k⌋ = (b : ℤ) ∧ ⌊(p.2 + R) / h k⌋ = (a : ℤ)
    · obtain ⟨a, b, ha, hb, e1, e2⟩ := he
      rw [step_in (hpos k) _ ha hb e1 e2]
      have hmem : ∀ (t : ℝ) (b : ℕ), b < N k → ⌊(t + R) / h k⌋ = (b : ℤ) → t ∈ Icc (-R) (3 * R) := by
        intro t b hb e
        rw [← mem_cell (hpos k), mem_Ico] at e
        have hb' : (b : ℝ) + 1 ≤ N k := by exact_mod_cast hb
        have hb0 : (0 : ℝ) ≤ b := Nat.cast_nonneg b
        have := mul_le_mul_of_nonneg_right hb' (hpos k).le
        have h3 := mul_nonneg hb0 (hpos k).le
        have h4 := hmul k
        have h5 := hle k
        constructor <;> nlinarith [e.1, e.2]
      rw [indicator_of_mem (show p ∈ Icc (-R) (3 * R) ×ˢ Icc (-R) (3 * R) from ⟨hmem _ _ hb e1, hmem _ _ ha e2⟩)]
      exact hM _ _
    · rw [step_out (hpos k) _ he, norm_zero]
      exact indicator_nonneg (fun _ _ => hM0) _
  · have n1 : ∀ᵐ p : ℝ × ℝ, p.1 ≠ R := by
      rw [ae_iff]; simpa using null_fst R
    have n2 : ∀ᵐ p : ℝ × ℝ, p.2 ≠ R := by
      rw [ae_iff]; simpa using null_snd R
    filter_upwards [hc, n1, n2] with p hp p1 p2
    by_cases hin : (-R ≤ p.1 ∧ p.1 < R) ∧ (-R ≤ p.2 ∧ p.2 < R)
    · -- inside
      have key : ∀ k (t : ℝ), -R ≤ t → t < R → ∃ b : ℕ, b < N k ∧ ⌊(t + R) / h k⌋ = (b : ℤ) := by
        intro k t h1 h2
        have h0 : 0 ≤ ⌊(t + R) / h k⌋ := Int.floor_nonneg.2 (div_nonneg (by linarith) (hpos k).le)
        obtain ⟨b, hb⟩ := Int.eq_ofNat_of_zero_le h0
        refine ⟨b, ?_, hb⟩
        have h3 : (t + R) / h k < (N k : ℝ) - 1 := by
          rw [div_lt_iff₀ (hpos k)]
          have := hmul k
          nlinarith
        have h4 : (⌊(t + R) / h k⌋ : ℝ) < (N k : ℝ) := by
          have := Int.floor_le ((t + R) / h k)
          linarith
        rw [hb] at h4
        exact_mod_cast h4
      have hval : ∀ k, step R (h k) (N k) (c k) p = G k (low R (h k) p.1, low R (h k) p.2) := by
        intro k
        obtain ⟨b, hb, e1⟩ := key k p.1 hin.1.1 hin.1.2
        obtain ⟨a, ha, e2⟩ := key k p.2 hin.2.1 hin.2.2
        rw [step_in (hpos k) _ ha hb e1 e2]
        show G k _ = _
        unfold low
        rw [e1, e2]
        push_cast
        rfl
      simp only [hval]
      refine hp _ ?_
      have near : ∀ t, Tendsto (fun k => low R (h k) t) atTop (𝓝 t) := fun t =>
        tendsto_iff_dist_tendsto_zero.2 (squeeze_zero (fun _ => dist_nonneg)
          (fun k => low_near (hpos k) t) hlim)
      exact (near p.1).prodMk_nhds (near p.2)
    · -- outside
      have hL : L p = 0 := by
        refine hz p ?_
        by_contra hcon
        push Not at hcon
        rw [abs_le, abs_le] at hcon
        exact hin ⟨⟨hcon.1.1, lt_of_le_of_ne hcon.1.2 p1⟩, hcon.2.1, lt_of_le_of_ne hcon.2.2 p2⟩
      rw [hL]
      have out : ∀ t : ℝ, t ≠ R → ¬ (-R ≤ t ∧ t < R) →
          ∀ᶠ k in atTop, ¬ ∃ b : ℕ, b < N k ∧ ⌊(t + R) / h k⌋ = (b : ℤ) := by
        intro t ht hn
        by_cases hl : -R ≤ t
        · have hgt : R < t := lt_of_le_of_ne (not_lt.1 fun hlt => hn ⟨hl, hlt⟩) (Ne.symm ht)
          have : ∀ᶠ k in atTop, h k < t - R := hlim.eventually (gt_mem_nhds (by linarith))
          filter_upwards [this] with k hk
          rintro ⟨b, hb, e⟩
          rw [← mem_cell (hpos k), mem_Ico] at e
          have hb' : (b : ℝ) + 1 ≤ N k := by exact_mod_cast hb
          have := mul_le_mul_of_nonneg_right hb' (hpos k).le
          have h4 := hmul k
          nlinarith [e.2]
        · refine Eventually.of_forall fun k => ?_
          rintro ⟨b, hb, e⟩
          rw [← mem_cell (hpos k), mem_Ico] at e
          have hb0 : (0 : ℝ) ≤ b := Nat.cast_nonneg b
          have h3 := mul_nonneg hb0 (hpos k).le
          exact hl (by linarith [e.1])
      refine tendsto_const_nhds.congr' ?_
      rcases not_and_or.1 hin with h1 | h1
      · filter_upwards [out _ p1 h1] with k hk
        rw [step_out (hpos k)]
        rintro ⟨a, b, -, hb, e, -⟩
        exact hk ⟨b, hb, e⟩
      · filter_upwards [out _ p2 h1] with k hk
        rw [step_out (hpos k)]
        rintro ⟨a, b, ha, -, -, e⟩
        exact hk ⟨a, ha, e⟩

end Verif.Riemann
