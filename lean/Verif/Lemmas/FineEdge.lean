import Mathlib.MeasureTheory.Measure.Lebesgue.Basic
import Mathlib.MeasureTheory.Measure.Lebesgue.VolumeOfBalls
import Mathlib.MeasureTheory.Measure.Prod
import Mathlib.Analysis.Calculus.ContDiff.RCLike
import Mathlib.Topology.Algebra.MetricSpace.Lipschitz

/-!
# Sets of the plane whose edge has an area proportional to its width, and functions that jump only there
-/

namespace Verif.Fine

open MeasureTheory Set

/-- The points from which a step of at most `δ` along each axis crosses the edge of the set. -/
def edge (S : Set (ℝ × ℝ)) (δ : ℝ) : Set (ℝ × ℝ) :=
  {p | ∃ q : ℝ × ℝ, |p.1 - q.1| ≤ δ ∧ |p.2 - q.2| ≤ δ ∧ ¬ (p ∈ S ↔ q ∈ S)}

/-- The square of the points with both coordinates of at most `r`. -/
def square (r : ℝ) : Set (ℝ × ℝ) := {p | |p.1| ≤ r ∧ |p.2| ≤ r}

/-- Within any square the area of the edge is at most proportional to its width. -/
def FineEdge (S : Set (ℝ × ℝ)) : Prop :=
  ∀ r D : ℝ, ∃ κ, 0 ≤ κ ∧ ∀ δ, 0 < δ → δ ≤ D → volume (edge S δ ∩ square r) ≤ ENNReal.ofReal (κ * δ)

theorem fine_of {S T U : Set (ℝ × ℝ)} (hS : FineEdge S) (hT : FineEdge T)
    (h : ∀ δ, edge U δ ⊆ edge S δ ∪ edge T δ) : FineEdge U := by
  intro r D
  obtain ⟨κ, h0, hκ⟩ := hS r D
  obtain ⟨κ', h0', hκ'⟩ := hT r D
  refine ⟨κ + κ', add_nonneg h0 h0', fun δ hδ hD => ?_⟩
  rw [add_mul, ENNReal.ofReal_add (mul_nonneg h0 hδ.le) (mul_nonneg h0' hδ.le)]
  refine (measure_mono ?_).trans ((measure_union_le _ _).trans (add_le_add (hκ δ hδ hD) (hκ' δ hδ hD)))
  rintro p ⟨hp, hr⟩
  exact (h δ hp).elim (fun e => .inl ⟨e, hr⟩) fun e => .inr ⟨e, hr⟩

theorem fine_compl {S : Set (ℝ × ℝ)} (h : FineEdge S) : FineEdge Sᶜ := by
  refine fine_of h h fun δ => ?_
  rintro p ⟨q, h1, h2, h3⟩
  exact .inl ⟨q, h1, h2, fun e => h3 (not_congr e)⟩

theorem fine_inter {S T : Set (ℝ × ℝ)} (hS : FineEdge S) (hT : FineEdge T) : FineEdge (S ∩ T) := by
  refine fine_of hS hT fun δ => ?_
  rintro p ⟨q, h1, h2, h3⟩
  by_cases h4 : p ∈ S ↔ q ∈ S
  · exact .inr ⟨q, h1, h2, fun h5 => h3 (and_congr h4 h5)⟩
  · exact .inl ⟨q, h1, h2, h4⟩

theorem fine_union {S T : Set (ℝ × ℝ)} (hS : FineEdge S) (hT : FineEdge T) : FineEdge (S ∪ T) := by
  have := fine_compl (fine_inter (fine_compl hS) (fine_compl hT))
  rwa [compl_inter, compl_compl, compl_compl] at this

/-- The edge of a set that a function of bounded slope separates from the rest. -/
theorem edge_sub {S : Set (ℝ × ℝ)} {g : ℝ × ℝ → ℝ} {K δ : ℝ}
    (hg : ∀ p q : ℝ × ℝ, |p.1 - q.1| ≤ δ → |p.2 - q.2| ≤ δ → |g p - g q| ≤ K * δ) (h1 : ∀ p, g p < 0 → p ∈ S)
    (h2 : ∀ p, 0 < g p → p ∉ S) : edge S δ ⊆ {p | |g p| ≤ K * δ} := by
  rintro p ⟨q, e1, e2, e3⟩
  have h := hg p q e1 e2
  show |g p| ≤ K * δ
  rw [abs_le] at h ⊢
  by_cases hp : p ∈ S
  · have hq : q ∉ S := fun hq => e3 ⟨fun _ => hq, fun _ => hp⟩
    have a : g p ≤ 0 := le_of_not_gt fun e => h2 p e hp
    have b : 0 ≤ g q := le_of_not_gt fun e => hq (h1 q e)
    constructor <;> linarith
  · have hq : q ∈ S := by
      by_contra hq
      exact e3 ⟨fun e => absurd e hp, fun e => absurd e hq⟩
    have a : 0 ≤ g p := le_of_not_gt fun e => hp (h1 p e)
    have b : g q ≤ 0 := le_of_not_gt fun e => h2 q e hq
    constructor <;> linarith

/-- The points near the graph of `±f`. -/
theorem graph_area {f : ℝ → ℝ} (hf : Continuous f) (r η : ℝ) (hη : 0 ≤ η) :
    volume ({p : ℝ × ℝ | |(|p.2| - f p.1)| ≤ η} ∩ square r) ≤ ENNReal.ofReal (8 * r * η) := by
  have hm : MeasurableSet ({p : ℝ × ℝ | |(|p.2| - f p.1)| ≤ η} ∩ square r) := by
    refine IsClosed.measurableSet (IsClosed.inter (isClosed_le (by fun_prop) continuous_const) ?_)
    exact (isClosed_le (f := fun p : ℝ × ℝ => |p.1|) (by fun_prop) continuous_const).inter
      (isClosed_le (f := fun p : ℝ × ℝ => |p.2|) (by fun_prop) continuous_const)
  rw [Measure.volume_eq_prod, Measure.prod_apply hm]
  have hb : ∀ x : ℝ, volume (Prod.mk x ⁻¹' ({p : ℝ × ℝ | |(|p.2| - f p.1)| ≤ η} ∩ square r)) ≤
      (Icc (-r) r).indicator (fun _ => ENNReal.ofReal (4 * η)) x := by
    intro x
    by_cases hx : x ∈ Icc (-r) r
    · rw [indicator_of_mem hx]
      refine (measure_mono (t := Icc (f x - η) (f x + η) ∪ Icc (-f x - η) (-f x + η)) ?_).trans
        ((measure_union_le _ _).trans ?_)
      · rintro y ⟨hy, -⟩
        have hy' : |(|y| - f x)| ≤ η := hy
        rw [abs_le] at hy'
        rcases abs_choice y with e | e
        · rw [e] at hy'
          exact .inl ⟨by linarith, by linarith⟩
        · rw [e] at hy'
          exact .inr ⟨by linarith, by linarith⟩
      · rw [Real.volume_Icc, Real.volume_Icc, ← ENNReal.ofReal_add (by linarith) (by linarith)]
        exact ENNReal.ofReal_le_ofReal (by linarith)
    · rw [indicator_of_notMem hx]
      refine le_of_eq ?_
      have : Prod.mk x ⁻¹' ({p : ℝ × ℝ | |(|p.2| - f p.1)| ≤ η} ∩ square r) = ∅ := by
        ext y
        simp only [mem_preimage, mem_inter_iff, mem_empty_iff_false, iff_false]
        rintro ⟨-, h, -⟩
        exact hx (abs_le.1 h)
      rw [this, measure_empty]
  refine (lintegral_mono hb).trans ?_
  rw [lintegral_indicator_const measurableSet_Icc, Real.volume_Icc, ← ENNReal.ofReal_mul (by linarith)]
  exact ENNReal.ofReal_le_ofReal (by nlinarith)

/-- A set bounded by the graph of `±f`. -/
theorem fine_graph {S : Set (ℝ × ℝ)} {f : ℝ → ℝ} (hf : Continuous f) {K : ℝ} (hK0 : 0 ≤ K)
    (hK : ∀ x y, |f x - f y| ≤ K * |x - y|)
    (h : (∀ p : ℝ × ℝ, |p.2| < f p.1 → p ∈ S) ∧ ∀ p : ℝ × ℝ, f p.1 < |p.2| → p ∉ S) : FineEdge S := by
  intro r D
  refine ⟨8 * |r| * (1 + K), by positivity, fun δ hδ _ => ?_⟩
  have hsub := edge_sub (S := S) (g := fun p => |p.2| - f p.1) (K := 1 + K) (δ := δ) (fun p q e1 e2 => by
    have a := abs_abs_sub_abs_le_abs_sub p.2 q.2
    have b := hK p.1 q.1
    have c := mul_le_mul_of_nonneg_left e1 hK0
    have := abs_sub (|p.2| - |q.2|) (f p.1 - f q.1)
    rw [show |p.2| - f p.1 - (|q.2| - f q.1) = |p.2| - |q.2| - (f p.1 - f q.1) by ring]
    calc _ ≤ |(|p.2| - |q.2|)| + |f p.1 - f q.1| := this
      _ ≤ δ + K * δ := add_le_add (a.trans e2) (b.trans c)
      _ = _ := by ring) (fun p hp => h.1 p (by linarith)) (fun p hp => h.2 p (by linarith))
  refine (measure_mono (inter_subset_inter hsub ?_)).trans
    ((graph_area hf |r| ((1 + K) * δ) (by positivity)).trans (le_of_eq ?_))
  · exact fun p hp => ⟨hp.1.trans (le_abs_self _), hp.2.trans (le_abs_self _)⟩
  · congr 1
    ring

theorem fine_swap {S : Set (ℝ × ℝ)} (h : FineEdge (Prod.swap ⁻¹' S)) : FineEdge S := by
  intro r D
  obtain ⟨κ, h0, hκ⟩ := h r D
  refine ⟨κ, h0, fun δ hδ hD => ?_⟩
  have e : edge (Prod.swap ⁻¹' S) δ ∩ square r = Prod.swap ⁻¹' (edge S δ ∩ square r) := by
    ext p
    constructor
    · rintro ⟨⟨q, h1, h2, h3⟩, h4⟩
      exact ⟨⟨q.swap, h2, h1, h3⟩, h4.2, h4.1⟩
    · rintro ⟨⟨q, h1, h2, h3⟩, h4⟩
      exact ⟨⟨q.swap, h2, h1, by simpa using h3⟩, h4.2, h4.1⟩
  have := (Measure.measurePreserving_swap (μ := (volume : Measure ℝ)) (ν := (volume : Measure ℝ))).measure_preimage_emb
    MeasurableEquiv.prodComm.measurableEmbedding (edge S δ ∩ square r)
  have h2 := hκ δ hδ hD
  rw [e] at h2
  rw [Measure.volume_eq_prod] at h2 ⊢
  rw [← this]
  exact h2

/-- The ring of width `η` on both sides of a circle. -/
theorem ring_area (x0 y0 ρ η D : ℝ) (hρ : 0 ≤ ρ) (hη : 0 ≤ η) (hD : η ≤ D) :
    volume {p : ℝ × ℝ | |Real.sqrt ((p.1 - x0) ^ 2 + (p.2 - y0) ^ 2) - ρ| ≤ η} ≤
      ENNReal.ofReal (4 * Real.pi * (ρ + D) * η) := by
  have hpi := Real.pi_pos
  rw [← Complex.volume_preserving_equiv_real_prod.measure_preimage_equiv]
  have hn : ∀ z : ℂ, ‖z - ⟨x0, y0⟩‖ = Real.sqrt ((z.re - x0) ^ 2 + (z.im - y0) ^ 2) := fun z => by
    rw [Complex.norm_eq_sqrt_sq_add_sq]
    rfl
  refine (measure_mono (t := Metric.closedBall (⟨x0, y0⟩ : ℂ) (ρ + η) \ Metric.ball ⟨x0, y0⟩ (ρ - η)) ?_).trans ?_
  · intro z hz
    have hz' : |Real.sqrt ((z.re - x0) ^ 2 + (z.im - y0) ^ 2) - ρ| ≤ η := hz
    rw [abs_le, ← hn] at hz'
    refine ⟨?_, fun hb => ?_⟩
    · rw [Metric.mem_closedBall, dist_eq_norm]
      linarith
    · rw [Metric.mem_ball, dist_eq_norm] at hb
      linarith
  · have hsub : Metric.ball (⟨x0, y0⟩ : ℂ) (ρ - η) ⊆ Metric.closedBall ⟨x0, y0⟩ (ρ + η) := fun z hz => by
      rw [Metric.mem_ball] at hz
      rw [Metric.mem_closedBall]
      linarith
    have hball : volume (Metric.ball (⟨x0, y0⟩ : ℂ) (ρ - η)) = ENNReal.ofReal (Real.pi * max (ρ - η) 0 ^ 2) := by
      rw [Complex.volume_ball, mul_comm Real.pi, ENNReal.ofReal_mul (by positivity), ENNReal.ofReal_pow (le_max_right _ _),
        ENNReal.ofReal_max, ENNReal.ofReal_zero, max_eq_left zero_le, ENNReal.ofReal_coe_nnreal.symm, NNReal.coe_real_pi]
    have hcl : volume (Metric.closedBall (⟨x0, y0⟩ : ℂ) (ρ + η)) = ENNReal.ofReal (Real.pi * (ρ + η) ^ 2) := by
      rw [Complex.volume_closedBall, mul_comm Real.pi, ENNReal.ofReal_mul (by positivity), ENNReal.ofReal_pow (by linarith),
        ENNReal.ofReal_coe_nnreal.symm, NNReal.coe_real_pi]
    rw [measure_sdiff hsub measurableSet_ball.nullMeasurableSet (by rw [hball]; exact ENNReal.ofReal_ne_top), hball, hcl,
      ← ENNReal.ofReal_sub _ (by positivity)]
    refine ENNReal.ofReal_le_ofReal ?_
    rw [← mul_sub, show 4 * Real.pi * (ρ + D) * η = Real.pi * (4 * (ρ + D) * η) by ring]
    refine mul_le_mul_of_nonneg_left ?_ hpi.le
    rcases le_total η ρ with h | h
    · rw [max_eq_left (by linarith)]
      nlinarith
    · rw [max_eq_right (by linarith)]
      nlinarith

/-- A set bounded by a circle. -/
theorem fine_circle {S : Set (ℝ × ℝ)} (x0 y0 c : ℝ)
    (h : ((∀ p : ℝ × ℝ, (p.1 - x0) ^ 2 + (p.2 - y0) ^ 2 < c → p ∈ S) ∧
      ∀ p : ℝ × ℝ, c < (p.1 - x0) ^ 2 + (p.2 - y0) ^ 2 → p ∉ S)) : FineEdge S := by
  rcases lt_or_ge c 0 with hc | hc
  · have hS : S = ∅ := by
      ext p
      simp only [mem_empty_iff_false, iff_false]
      exact h.2 p (lt_of_lt_of_le hc (by positivity))
    intro r D
    refine ⟨0, le_rfl, fun δ _ _ => ?_⟩
    have : edge S δ = ∅ := by
      ext p
      simp [edge, hS]
    rw [this, empty_inter, measure_empty]
    exact zero_le
  · intro r D
    refine ⟨4 * Real.pi * (Real.sqrt c + 2 * |D|) * 2, by have := Real.pi_pos; positivity, fun δ hδ hD => ?_⟩
    have hs0 := Real.sqrt_nonneg c
    have hss := Real.sq_sqrt hc
    have hn : ∀ p : ℝ × ℝ, Real.sqrt ((p.1 - x0) ^ 2 + (p.2 - y0) ^ 2) = ‖(⟨p.1 - x0, p.2 - y0⟩ : ℂ)‖ := fun p =>
      (Complex.norm_eq_sqrt_sq_add_sq ⟨p.1 - x0, p.2 - y0⟩).symm
    have hsub := edge_sub (S := S) (g := fun p => Real.sqrt ((p.1 - x0) ^ 2 + (p.2 - y0) ^ 2) - Real.sqrt c) (K := 2) (δ := δ)
      (fun p q e1 e2 => by
        rw [sub_sub_sub_cancel_right, hn, hn]
        refine (abs_norm_sub_norm_le _ _).trans ((Complex.norm_le_abs_re_add_abs_im _).trans ?_)
        simp only [Complex.sub_re, Complex.sub_im, sub_sub_sub_cancel_right]
        linarith)
      (fun p hp => h.1 p (by
        have h1 : Real.sqrt ((p.1 - x0) ^ 2 + (p.2 - y0) ^ 2) < Real.sqrt c := by linarith
        exact (Real.sqrt_lt_sqrt_iff (by positivity)).1 h1))
      (fun p hp => h.2 p (by
        have h1 : Real.sqrt c < Real.sqrt ((p.1 - x0) ^ 2 + (p.2 - y0) ^ 2) := by linarith
        exact (Real.sqrt_lt_sqrt_iff hc).1 h1))
    refine (measure_mono (inter_subset_left.trans hsub)).trans ((ring_area x0 y0 (Real.sqrt c) (2 * δ) (2 * |D|) hs0
      (by linarith) (by linarith [le_abs_self D])).trans (le_of_eq ?_))
    congr 1
    ring

/-! ## Functions -/

/-- Bounded in the square, and but for a set with an area proportional to the step, changing at most in proportion to
it. -/
def Tame (f : ℝ × ℝ → ℂ) (r D : ℝ) : Prop :=
  ∃ M L κ : ℝ, 0 ≤ M ∧ 0 ≤ L ∧ 0 ≤ κ ∧ (∀ p ∈ square r, ‖f p‖ ≤ M) ∧
    ∀ δ, 0 < δ → δ ≤ D → ∃ E, volume E ≤ ENNReal.ofReal (κ * δ) ∧
      ∀ p ∈ square r, ∀ q ∈ square r, p ∉ E → |p.1 - q.1| ≤ δ → |p.2 - q.2| ≤ δ → ‖f p - f q‖ ≤ L * δ

theorem square_eq (r : ℝ) : square r = Icc (-r) r ×ˢ Icc (-r) r := by
  ext p
  simp only [square, mem_ofPred_eq, mem_prod, mem_Icc, abs_le]

theorem tame_smooth {f : ℝ × ℝ → ℂ} (hf : ContDiff ℝ 1 f) (r D : ℝ) : Tame f r D := by
  have hc : IsCompact (square r) := by rw [square_eq]; exact isCompact_Icc.prod isCompact_Icc
  obtain ⟨M, hM⟩ := hc.exists_bound_of_continuousOn hf.continuous.continuousOn
  obtain ⟨K, hK⟩ := LocallyLipschitzOn.exists_lipschitzOnWith_of_compact hc (hf.locallyLipschitz.locallyLipschitzOn (s := square r))
  refine ⟨max M 0, K, 0, le_max_right _ _, K.2, le_rfl, fun p hp => (hM p hp).trans (le_max_left _ _), fun δ hδ _ =>
    ⟨∅, by simp, fun p hp q hq _ h1 h2 => ?_⟩⟩
  have := hK.dist_le_mul p hp q hq
  rw [dist_eq_norm] at this
  refine this.trans (mul_le_mul_of_nonneg_left ?_ K.2)
  rw [Prod.dist_eq]
  exact max_le h1 h2

theorem tame_mul {f g : ℝ × ℝ → ℂ} {r D : ℝ} (hf : Tame f r D) (hg : Tame g r D) : Tame (fun p => f p * g p) r D := by
  obtain ⟨M, L, κ, hM0, hL0, hκ0, hM, hE⟩ := hf
  obtain ⟨M', L', κ', hM0', hL0', hκ0', hM', hE'⟩ := hg
  refine ⟨M * M', M * L' + L * M', κ + κ', by positivity, by positivity, by positivity, fun p hp => ?_, fun δ hδ hD => ?_⟩
  · rw [norm_mul]
    exact mul_le_mul (hM p hp) (hM' p hp) (norm_nonneg _) hM0
  · obtain ⟨E, hv, h⟩ := hE δ hδ hD
    obtain ⟨E', hv', h'⟩ := hE' δ hδ hD
    refine ⟨E ∪ E', (measure_union_le _ _).trans ?_, fun p hp q hq hn h1 h2 => ?_⟩
    · rw [add_mul, ENNReal.ofReal_add (by positivity) (by positivity)]
      exact add_le_add hv hv'
    · rw [mem_union, not_or] at hn
      have a := h p hp q hq hn.1 h1 h2
      have b := h' p hp q hq hn.2 h1 h2
      rw [show f p * g p - f q * g q = f p * (g p - g q) + (f p - f q) * g q by ring]
      refine (norm_add_le _ _).trans ?_
      rw [norm_mul, norm_mul]
      have c1 := mul_le_mul (hM p hp) b (norm_nonneg _) hM0
      have c2 := mul_le_mul a (hM' q hq) (norm_nonneg _) (by positivity)
      linarith

theorem tame_piece {f g k : ℝ × ℝ → ℂ} {r D : ℝ} {S : Set (ℝ × ℝ)} (hS : FineEdge S) (hf : Tame f r D) (hg : Tame g r D)
    (h1 : ∀ p ∈ S, k p = f p) (h2 : ∀ p ∉ S, k p = g p) : Tame k r D := by
  obtain ⟨M, L, κ, hM0, hL0, hκ0, hM, hE⟩ := hf
  obtain ⟨M', L', κ', hM0', hL0', hκ0', hM', hE'⟩ := hg
  obtain ⟨τ, hτ0, hτ⟩ := hS r D
  refine ⟨max M M', max L L', κ + κ' + τ, hM0.trans (le_max_left _ _), hL0.trans (le_max_left _ _), by positivity,
    fun p hp => ?_, fun δ hδ hD => ?_⟩
  · by_cases h : p ∈ S
    · rw [h1 p h]; exact (hM p hp).trans (le_max_left _ _)
    · rw [h2 p h]; exact (hM' p hp).trans (le_max_right _ _)
  · obtain ⟨E, hv, h⟩ := hE δ hδ hD
    obtain ⟨E', hv', h'⟩ := hE' δ hδ hD
    refine ⟨E ∪ E' ∪ edge S δ ∩ square r, (measure_union_le _ _).trans ?_, fun p hp q hq hn e1 e2 => ?_⟩
    · rw [add_mul, add_mul, ENNReal.ofReal_add (by positivity) (by positivity), ENNReal.ofReal_add (by positivity) (by positivity)]
      exact add_le_add ((measure_union_le _ _).trans (add_le_add hv hv')) (hτ δ hδ hD)
    · rw [mem_union, mem_union, not_or, not_or] at hn
      have hiff : p ∈ S ↔ q ∈ S := by
        by_contra hne
        exact hn.2 ⟨⟨q, e1, e2, hne⟩, hp⟩
      by_cases hpS : p ∈ S
      · rw [h1 p hpS, h1 q (hiff.1 hpS)]
        exact (h p hp q hq hn.1.1 e1 e2).trans (mul_le_mul_of_nonneg_right (le_max_left _ _) hδ.le)
      · rw [h2 p hpS, h2 q (fun e => hpS (hiff.2 e))]
        exact (h' p hp q hq hn.1.2 e1 e2).trans (mul_le_mul_of_nonneg_right (le_max_right _ _) hδ.le)

end Verif.Fine
