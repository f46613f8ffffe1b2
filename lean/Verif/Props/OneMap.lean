import Verif.Props.OddOrders
import Verif.Props.Complete
import Mathlib.Topology.Algebra.Module.Cardinality

/-!
# What one map determines

Two apertures with the same light and the same power at every pixel have the same autocorrelation, if the light is within
half of the grid.  The pair of the last and the first lit pixel is the only one with its separation, and from this pair the
phases are found from the outside inwards, two pixels at a time.
-/

namespace Verif.Props

open Verif Verif.Np Verif.Aperture Verif.MathFn Verif.Core Verif.Telgeometry Verif.Fourier Finset

/-- The number of a pixel in the order in which numpy stores the grid. -/
def Spec.rowMajor {N : ℕ} (p : Fin N × Fin N) : ℤ := ((p.1 : ℕ) : ℤ) * N + ((p.2 : ℕ) : ℤ)

theorem rowMajor_inj {N : ℕ} {p q : Fin N × Fin N} (h : Spec.rowMajor p = Spec.rowMajor q) : p = q := by
  have hN : (0 : ℤ) < N := by
    have := p.1.2
    omega
  unfold Spec.rowMajor at h
  have h1 : (N : ℤ) ∣ ((p.2 : ℕ) : ℤ) - ((q.2 : ℕ) : ℤ) := ⟨((q.1 : ℕ) : ℤ) - ((p.1 : ℕ) : ℤ), by linear_combination h⟩
  have h2 := Int.eq_zero_of_abs_lt_dvd h1 (by
    rw [abs_lt]
    have := p.2.2
    have := q.2.2
    constructor <;> omega)
  have h3 : ((p.1 : ℕ) : ℤ) = ((q.1 : ℕ) : ℤ) := by
    have : (((p.1 : ℕ) : ℤ) - ((q.1 : ℕ) : ℤ)) * N = 0 := by linear_combination h - h2
    have := (mul_eq_zero.1 this).resolve_right hN.ne'
    omega
  exact Prod.ext (Fin.ext (by omega)) (Fin.ext (by omega))

theorem sum_two {ι : Type} [Fintype ι] [DecidableEq ι] (f : ι → ℂ) (u v : ι) (huv : u ≠ v)
    (h : ∀ w, w ≠ u → w ≠ v → f w = 0) : ∑ w, f w = f u + f v := by
  rw [← sum_pair huv]
  exact (sum_subset (subset_univ _) fun w _ hw => by
    simp only [mem_insert, mem_singleton, not_or] at hw
    exact h w hw.1 hw.2).symm

/-- `p - p' = r - r'` in both coordinates. -/
def Spec.SameStep {N : ℕ} (p p' r r' : Fin N × Fin N) : Prop :=
  ((p.1 : ℕ) : ℤ) - ((p'.1 : ℕ) : ℤ) = ((r.1 : ℕ) : ℤ) - ((r'.1 : ℕ) : ℤ) ∧
    ((p.2 : ℕ) : ℤ) - ((p'.2 : ℕ) : ℤ) = ((r.2 : ℕ) : ℤ) - ((r'.2 : ℕ) : ℤ)

instance {N : ℕ} (p p' r r' : Fin N × Fin N) : Decidable (Spec.SameStep p p' r r') := by
  unfold Spec.SameStep; infer_instance

theorem Spec.SameStep.key {N : ℕ} {p p' r r' : Fin N × Fin N} (h : Spec.SameStep p p' r r') :
    Spec.rowMajor p - Spec.rowMajor p' = Spec.rowMajor r - Spec.rowMajor r' := by
  unfold Spec.rowMajor
  linear_combination (N : ℤ) * h.1 + h.2

/-- `q` and `r` lie opposite to each other with respect to the middle between `top` and `bot`. -/
def Spec.Across {N : ℕ} (top bot q r : Fin N × Fin N) : Prop :=
  (q.1 : ℕ) + (r.1 : ℕ) = (top.1 : ℕ) + (bot.1 : ℕ) ∧ (q.2 : ℕ) + (r.2 : ℕ) = (top.2 : ℕ) + (bot.2 : ℕ)

theorem Spec.Across.key {N : ℕ} {top bot q r : Fin N × Fin N} (h : Spec.Across top bot q r) :
    Spec.rowMajor q + Spec.rowMajor r = Spec.rowMajor top + Spec.rowMajor bot := by
  unfold Spec.rowMajor
  have h1 : ((q.1 : ℕ) : ℤ) + ((r.1 : ℕ) : ℤ) = ((top.1 : ℕ) : ℤ) + ((bot.1 : ℕ) : ℤ) := by exact_mod_cast h.1
  have h2 : ((q.2 : ℕ) : ℤ) + ((r.2 : ℕ) : ℤ) = ((top.2 : ℕ) : ℤ) + ((bot.2 : ℕ) : ℤ) := by exact_mod_cast h.2
  linear_combination (N : ℤ) * h1 + h2

/-- From the outside inwards: a function `T` of two pixels whose sum over the pairs with any one step is zero. -/
theorem outside_in {N : ℕ} (lit Kn : Fin N × Fin N → Prop) (T : Fin N × Fin N → Fin N × Fin N → ℂ)
    (top bot : Fin N × Fin N) (htop : lit top) (hbot : lit bot)
    (hmax : ∀ p, lit p → Spec.rowMajor p ≤ Spec.rowMajor top) (hmin : ∀ p, lit p → Spec.rowMajor bot ≤ Spec.rowMajor p)
    (hT0 : ∀ p p', ¬ (lit p ∧ lit p') → T p p' = 0) (hTk : ∀ p p', Kn p → Kn p' → T p p' = 0)
    (hsum : ∀ r r', lit r → lit r' → r ≠ r' → ∑ w : (Fin N × Fin N) × (Fin N × Fin N),
      (if Spec.SameStep w.1 w.2 r r' then T w.1 w.2 else 0) = 0)
    (hKt : Kn top) (hKb : Kn bot)
    (hpair : ∀ q r, lit q → lit r → Spec.Across top bot q r → q ≠ top → q ≠ bot → T top q + T r bot = 0 → Kn q ∧ Kn r)
    (hone : ∀ q, lit q → T top q = 0 → Kn q) (hone' : ∀ q, lit q → T q bot = 0 → Kn q) : ∀ q, lit q → Kn q := by
  have main : ∀ k : ℕ, ∀ q, lit q → (Spec.rowMajor q < Spec.rowMajor bot + k ∨ Spec.rowMajor top - k < Spec.rowMajor q) →
      Kn q := by
    intro k
    induction k with
    | zero =>
      intro q hq h
      have := hmax q hq
      have := hmin q hq
      omega
    | succ k ih =>
      -- the pairs with a step of this size which are not both known
      have inner : ∀ p p', lit p → lit p' → p ≠ top → p' ≠ bot →
          Spec.rowMajor p - Spec.rowMajor p' = Spec.rowMajor top - Spec.rowMajor bot - k → T p p' = 0 := by
        intro p p' hp hp' h1 h2 h3
        have l1 : Spec.rowMajor p < Spec.rowMajor top := lt_of_le_of_ne (hmax p hp) fun h => h1 (rowMajor_inj h)
        have l2 : Spec.rowMajor bot < Spec.rowMajor p' := lt_of_le_of_ne (hmin p' hp') fun h => h2 (rowMajor_inj h).symm
        exact hTk p p' (ih p hp (Or.inr (by omega))) (ih p' hp' (Or.inl (by omega)))
      have low : ∀ q, lit q → Spec.rowMajor q = Spec.rowMajor bot + k → q ≠ top → q ≠ bot →
          Kn q ∧ ∀ r, lit r → Spec.Across top bot q r → Kn r := by
        intro q hq hk h1 h2
        have hs := hsum top q htop hq h1.symm
        by_cases hr : ∃ r, lit r ∧ Spec.Across top bot q r
        · obtain ⟨r, hr, hac⟩ := hr
          have step : Spec.SameStep r bot top q := by
            obtain ⟨e1, e2⟩ := hac
            constructor <;> omega
          rw [sum_two _ (top, q) (r, bot) (fun h => h2 (Prod.ext_iff.1 h).2)] at hs
          · rw [if_pos ⟨rfl, rfl⟩, if_pos step] at hs
            obtain ⟨g1, g2⟩ := hpair q r hq hr hac h1 h2 hs
            refine ⟨g1, fun r' hr' hac' => ?_⟩
            have : r' = r := rowMajor_inj (by linarith [hac.key, hac'.key])
            rw [this]
            exact g2
          · rintro ⟨p, p'⟩ n1 n2
            by_cases hst : Spec.SameStep p p' top q
            · rw [if_pos hst]
              by_cases hl : lit p ∧ lit p'
              · refine inner p p' hl.1 hl.2 (fun hp => n1 ?_) (fun hp => n2 ?_) (by rw [hst.key]; omega)
                · subst hp
                  have : p' = q := rowMajor_inj (by linarith [hst.key])
                  rw [this]
                · subst hp
                  have : p = r := rowMajor_inj (by linarith [hst.key, hac.key])
                  rw [this]
              · exact hT0 _ _ hl
            · rw [if_neg hst]
        · rw [Fintype.sum_eq_single (top, q)] at hs
          · rw [if_pos ⟨rfl, rfl⟩] at hs
            exact ⟨hone q hq hs, fun r hr' hac => absurd ⟨r, hr', hac⟩ hr⟩
          · rintro ⟨p, p'⟩ n1
            by_cases hst : Spec.SameStep p p' top q
            · rw [if_pos hst]
              by_cases hl : lit p ∧ lit p'
              · refine inner p p' hl.1 hl.2 (fun hp => n1 ?_) (fun hp => hr ⟨p, hl.1, ?_⟩) (by rw [hst.key]; omega)
                · subst hp
                  have : p' = q := rowMajor_inj (by linarith [hst.key])
                  rw [this]
                · subst hp
                  obtain ⟨e1, e2⟩ := hst
                  constructor <;> omega
              · exact hT0 _ _ hl
            · rw [if_neg hst]
      have high : ∀ q, lit q → Spec.rowMajor q = Spec.rowMajor top - k → q ≠ top → q ≠ bot → Kn q := by
        intro q hq hk h1 h2
        by_cases hr : ∃ r, lit r ∧ Spec.Across top bot r q
        · obtain ⟨r, hr, hac⟩ := hr
          refine (low r hr (by linarith [hac.key]) (fun h => ?_) (fun h => ?_)).2 q hq hac
          · subst h
            exact h2 (rowMajor_inj (by linarith [hac.key]))
          · subst h
            exact h1 (rowMajor_inj (by linarith [hac.key]))
        · have hs := hsum q bot hq hbot h2
          rw [Fintype.sum_eq_single (q, bot)] at hs
          · rw [if_pos ⟨rfl, rfl⟩] at hs
            exact hone' q hq hs
          · rintro ⟨p, p'⟩ n1
            by_cases hst : Spec.SameStep p p' q bot
            · rw [if_pos hst]
              by_cases hl : lit p ∧ lit p'
              · refine inner p p' hl.1 hl.2 (fun hp => hr ⟨p', hl.2, ?_⟩) (fun hp => n1 ?_) (by rw [hst.key]; omega)
                · subst hp
                  obtain ⟨e1, e2⟩ := hst
                  constructor <;> omega
                · subst hp
                  have : p = q := rowMajor_inj (by linarith [hst.key])
                  rw [this]
              · exact hT0 _ _ hl
            · rw [if_neg hst]
      intro q hq h
      by_cases e1 : q = top
      · rw [e1]; exact hKt
      by_cases e2 : q = bot
      · rw [e2]; exact hKb
      push_cast at h
      rcases h with h | h
      · rcases (show Spec.rowMajor q < Spec.rowMajor bot + k ∨ Spec.rowMajor q = Spec.rowMajor bot + k by omega) with h | h
        · exact ih q hq (Or.inl h)
        · exact (low q hq h e1 e2).1
      · rcases (show Spec.rowMajor top - k < Spec.rowMajor q ∨ Spec.rowMajor q = Spec.rowMajor top - k by omega) with h | h
        · exact ih q hq (Or.inr h)
        · exact high q hq h e1 e2
  intro q hq
  refine main (Spec.rowMajor q - Spec.rowMajor bot + 1).toNat q hq (Or.inl ?_)
  have := hmin q hq
  omega

/-! ## Equal powers, equal correlations -/

theorem step_dvd {N : ℕ} {L : Fin N × Fin N → Prop}
    (half : ∀ p q, L p → L q → 2 * |((p.1 : ℕ) : ℤ) - ((q.1 : ℕ) : ℤ)| < N ∧ 2 * |((p.2 : ℕ) : ℤ) - ((q.2 : ℕ) : ℤ)| < N)
    {p p' r r' : Fin N × Fin N} (h1 : L p) (h2 : L p') (h3 : L r) (h4 : L r') :
    ((N : ℤ) ∣ ((p.1 : ℕ) : ℤ) - ((p'.1 : ℕ) : ℤ) + -(((r.1 : ℕ) : ℤ) - ((r'.1 : ℕ) : ℤ)) ∧
      (N : ℤ) ∣ ((p.2 : ℕ) : ℤ) - ((p'.2 : ℕ) : ℤ) + -(((r.2 : ℕ) : ℤ) - ((r'.2 : ℕ) : ℤ))) ↔ Spec.SameStep p p' r r' := by
  obtain ⟨a1, a2⟩ := half p p' h1 h2
  obtain ⟨b1, b2⟩ := half r r' h3 h4
  have key : ∀ x y : ℤ, 2 * |x| < N → 2 * |y| < N → ((N : ℤ) ∣ x + -y ↔ x = y) := by
    intro x y hx hy
    constructor
    · intro hd
      have := Int.eq_zero_of_abs_lt_dvd hd (by
        have := abs_add_le x (-y)
        rw [abs_neg] at this
        linarith)
      omega
    · rintro rfl
      simp
  rw [key _ _ a1 b1, key _ _ a2 b2]
  rfl

theorem corr_step {N : ℕ} (hN : N ≠ 0) {L : Fin N × Fin N → Prop}
    (half : ∀ p q, L p → L q → 2 * |((p.1 : ℕ) : ℤ) - ((q.1 : ℕ) : ℤ)| < N ∧ 2 * |((p.2 : ℕ) : ℤ) - ((q.2 : ℕ) : ℤ)| < N)
    (E : Fin N × Fin N → ℂ) (hE : ∀ p, ¬ L p → E p = 0) (r r' : Fin N × Fin N) (h3 : L r) (h4 : L r') :
    ∑ q : Fin N × Fin N, ((‖fft2 E q‖ ^ 2 : ℝ) : ℂ) * ew N (((q.1 : ℕ) : ℤ) * -(((r.1 : ℕ) : ℤ) - ((r'.1 : ℕ) : ℤ)) +
        ((q.2 : ℕ) : ℤ) * -(((r.2 : ℕ) : ℤ) - ((r'.2 : ℕ) : ℤ))) =
      (N : ℂ) ^ 2 * ∑ w : (Fin N × Fin N) × (Fin N × Fin N),
        if Spec.SameStep w.1 w.2 r r' then E w.1 * (starRingEnd ℂ) (E w.2) else 0 := by
  rw [power_corr hN]
  congr 1
  refine Eq.trans ?_ (Fintype.sum_prod_type _).symm
  refine sum_congr rfl fun p _ => sum_congr rfl fun p' _ => ?_
  by_cases h1 : L p
  · by_cases h2 : L p'
    · simp only [step_dvd half h1 h2 h3 h4]
    · simp [hE p' h2]
  · simp [hE p h1]

theorem corr_const {N : ℕ} (hN : N ≠ 0) {L : Fin N × Fin N → Prop}
    (half : ∀ p q, L p → L q → 2 * |((p.1 : ℕ) : ℤ) - ((q.1 : ℕ) : ℤ)| < N ∧ 2 * |((p.2 : ℕ) : ℤ) - ((q.2 : ℕ) : ℤ)| < N)
    (r r' : Fin N × Fin N) (h3 : L r) (h4 : L r') (hne : r ≠ r') :
    ∑ q : Fin N × Fin N, ew N (((q.1 : ℕ) : ℤ) * -(((r.1 : ℕ) : ℤ) - ((r'.1 : ℕ) : ℤ)) +
        ((q.2 : ℕ) : ℤ) * -(((r.2 : ℕ) : ℤ) - ((r'.2 : ℕ) : ℤ))) = 0 := by
  rw [ew_sum2 hN, if_neg]
  intro h
  have := (step_dvd half h3 h3 h3 h4).1 (by simpa using h)
  obtain ⟨e1, e2⟩ := this
  exact hne (Prod.ext (Fin.ext (by omega)) (Fin.ext (by omega)))

theorem corr_relation {N : ℕ} (hN : N ≠ 0) {L : Fin N × Fin N → Prop}
    (half : ∀ p q, L p → L q → 2 * |((p.1 : ℕ) : ℤ) - ((q.1 : ℕ) : ℤ)| < N ∧ 2 * |((p.2 : ℕ) : ℤ) - ((q.2 : ℕ) : ℤ)| < N)
    (E E' : Fin N × Fin N → ℂ) (hE : ∀ p, ¬ L p → E p = 0) (hE' : ∀ p, ¬ L p → E' p = 0) (al be : ℝ)
    (h : ∀ q, ‖fft2 E' q‖ ^ 2 = al * ‖fft2 E q‖ ^ 2 + be) (r r' : Fin N × Fin N) (h3 : L r) (h4 : L r') (hne : r ≠ r') :
    ∑ w : (Fin N × Fin N) × (Fin N × Fin N), (if Spec.SameStep w.1 w.2 r r' then
      E' w.1 * (starRingEnd ℂ) (E' w.2) - al * (E w.1 * (starRingEnd ℂ) (E w.2)) else 0) = 0 := by
  have c1 := corr_step hN half E hE r r' h3 h4
  have c2 := corr_step hN half E' hE' r r' h3 h4
  simp only [h] at c2
  push_cast at c1 c2
  simp only [add_mul, sum_add_distrib, mul_assoc, ← mul_sum] at c2
  rw [corr_const hN half r r' h3 h4 hne, mul_zero, add_zero] at c2
  rw [c1] at c2
  have hN2 : ((N : ℂ) ^ 2) ≠ 0 := pow_ne_zero 2 (Nat.cast_ne_zero.2 hN)
  have c3 : (N : ℂ) ^ 2 * (∑ w : (Fin N × Fin N) × (Fin N × Fin N),
        (if Spec.SameStep w.1 w.2 r r' then E' w.1 * (starRingEnd ℂ) (E' w.2) else 0) -
      al * ∑ w : (Fin N × Fin N) × (Fin N × Fin N),
        (if Spec.SameStep w.1 w.2 r r' then E w.1 * (starRingEnd ℂ) (E w.2) else 0)) = 0 := by
    linear_combination -c2
  refine Eq.trans ?_ ((mul_eq_zero.1 c3).resolve_left hN2)
  rw [mul_sum, ← sum_sub_distrib]
  refine sum_congr rfl fun w _ => ?_
  split_ifs <;> simp

theorem two_dirs (c1 c2 A B : ℝ) (h : (c1 : ℂ) * Complex.exp ((A : ℂ) * Complex.I) +
    (c2 : ℂ) * Complex.exp ((B : ℂ) * Complex.I) = 0) (hs : Real.sin (A - B) ≠ 0) : c1 = 0 ∧ c2 = 0 := by
  have hr := congrArg Complex.re h
  have hi := congrArg Complex.im h
  simp only [Complex.add_re, Complex.add_im, Complex.re_ofReal_mul, Complex.im_ofReal_mul, Complex.exp_ofReal_mul_I_re,
    Complex.exp_ofReal_mul_I_im, Complex.zero_re, Complex.zero_im] at hr hi
  rw [Real.sin_sub] at hs
  constructor
  · refine (mul_eq_zero.1 (?_ : c1 * (Real.sin A * Real.cos B - Real.cos A * Real.sin B) = 0)).resolve_right hs
    linear_combination Real.cos B * hi - Real.sin B * hr
  · refine (mul_eq_zero.1 (?_ : c2 * (Real.sin A * Real.cos B - Real.cos A * Real.sin B) = 0)).resolve_right hs
    linear_combination Real.sin A * hr - Real.cos A * hi

/-- With `top` and `bot` the last and the first lit pixel: for no two lit pixels opposite to each other with respect to
their middle is the sum of the phases the one of `top` and `bot`, up to multiples of π. -/
def Spec.Skew {N : ℕ} (a phi : Fin N × Fin N → ℝ) : Prop :=
  ∀ top bot, a top ≠ 0 → a bot ≠ 0 →
    (∀ p, a p ≠ 0 → Spec.rowMajor bot ≤ Spec.rowMajor p ∧ Spec.rowMajor p ≤ Spec.rowMajor top) →
    ∀ q r, a q ≠ 0 → a r ≠ 0 → Spec.Across top bot q r → q ≠ top → q ≠ bot →
      Real.sin (phi top + phi bot - phi q - phi r) ≠ 0

theorem exists_ends {N : ℕ} (a : Fin N × Fin N → ℝ) (p0 : Fin N × Fin N) (h0 : a p0 ≠ 0) :
    ∃ top bot, a top ≠ 0 ∧ a bot ≠ 0 ∧
      ∀ p, a p ≠ 0 → Spec.rowMajor bot ≤ Spec.rowMajor p ∧ Spec.rowMajor p ≤ Spec.rowMajor top := by
  classical
  obtain ⟨t, ht, mt⟩ := exists_max_image (univ.filter fun p => a p ≠ 0) Spec.rowMajor ⟨p0, by simpa using h0⟩
  obtain ⟨b, hb, mb⟩ := exists_min_image (univ.filter fun p => a p ≠ 0) Spec.rowMajor ⟨p0, by simpa using h0⟩
  simp only [mem_filter, mem_univ, true_and] at ht mt hb mb
  exact ⟨t, b, ht, hb, fun p hp => ⟨mb p hp, mt p hp⟩⟩

/-- A sum over the pairs of lit pixels with the step of the last from the first has one term. -/
theorem sum_ends {N : ℕ} (a : Fin N × Fin N → ℝ) (T : Fin N × Fin N → Fin N × Fin N → ℂ) (top bot : Fin N × Fin N)
    (hends : ∀ p, a p ≠ 0 → Spec.rowMajor bot ≤ Spec.rowMajor p ∧ Spec.rowMajor p ≤ Spec.rowMajor top)
    (hT0 : ∀ p p', ¬ (a p ≠ 0 ∧ a p' ≠ 0) → T p p' = 0) :
    ∑ w : (Fin N × Fin N) × (Fin N × Fin N), (if Spec.SameStep w.1 w.2 top bot then T w.1 w.2 else 0) = T top bot := by
  rw [Fintype.sum_eq_single (top, bot)]
  · rw [if_pos ⟨rfl, rfl⟩]
  · rintro ⟨p, p'⟩ hne
    by_cases hst : Spec.SameStep p p' top bot
    · rw [if_pos hst]
      refine hT0 _ _ fun hl => hne ?_
      have := hst.key
      have h1 := hends p hl.1
      have h2 := hends p' hl.2
      exact Prod.ext (rowMajor_inj (by dsimp only; omega)) (rowMajor_inj (by dsimp only; omega))
    · rw [if_neg hst]

/-- The product of one field at a pixel with the conjugate of it at another. -/
theorem field_pair (a phi : ℝ) (a' phi' : ℝ) :
    ((a : ℂ) * Complex.exp ((phi : ℂ) * Complex.I)) * (starRingEnd ℂ) ((a' : ℂ) * Complex.exp ((phi' : ℂ) * Complex.I)) =
      ((a * a' : ℝ) : ℂ) * Complex.exp (((phi - phi' : ℝ) : ℂ) * Complex.I) := by
  rw [map_mul, Complex.conj_ofReal, ← Complex.exp_conj, map_mul, Complex.conj_I, Complex.conj_ofReal]
  push_cast
  rw [sub_mul, sub_eq_add_neg, Complex.exp_add, mul_neg]
  ring

theorem exp_diff (x y : ℝ) : Complex.exp ((y : ℂ) * Complex.I) - Complex.exp ((x : ℂ) * Complex.I) =
    (2 * Complex.I) * (((Real.sin ((y - x) / 2) : ℝ) : ℂ) * Complex.exp ((((x + y) / 2 : ℝ) : ℂ) * Complex.I)) := by
  obtain ⟨m, d, rfl, rfl⟩ : ∃ m d : ℝ, x = m - d ∧ y = m + d := ⟨(x + y) / 2, (y - x) / 2, by ring, by ring⟩
  rw [show (m + d - (m - d)) / 2 = d by ring, show (m - d + (m + d)) / 2 = m by ring]
  push_cast
  rw [add_mul, sub_mul, Complex.exp_add, sub_eq_add_neg ((m : ℂ) * Complex.I), Complex.exp_add, Complex.sin, neg_mul]
  linear_combination (-Complex.exp ((m : ℂ) * Complex.I)) * (Complex.exp (-((d : ℂ) * Complex.I)) -
    Complex.exp ((d : ℂ) * Complex.I)) * Complex.I_sq

/-- Two phases over the same light with the same power up to gain and offset: the same up to a constant, if the mean of them
is skew. -/
theorem phase_unique {N : ℕ} (hN : N ≠ 0) (a phi phi' : Fin N × Fin N → ℝ)
    (half : ∀ p q, a p ≠ 0 → a q ≠ 0 → 2 * |((p.1 : ℕ) : ℤ) - ((q.1 : ℕ) : ℤ)| < N ∧
      2 * |((p.2 : ℕ) : ℤ) - ((q.2 : ℕ) : ℤ)| < N)
    (al be : ℝ) (hal : 0 < al)
    (h : ∀ q, ‖fft2 (fun p => (a p : ℂ) * Complex.exp ((phi' p : ℂ) * Complex.I)) q‖ ^ 2 =
      al * ‖fft2 (fun p => (a p : ℂ) * Complex.exp ((phi p : ℂ) * Complex.I)) q‖ ^ 2 + be)
    (hsk : Spec.Skew a fun p => (phi p + phi' p) / 2) (p q : Fin N × Fin N) (hp : a p ≠ 0) (hq : a q ≠ 0) :
    Complex.exp (((phi' p - phi p : ℝ) : ℂ) * Complex.I) = Complex.exp (((phi' q - phi q : ℝ) : ℂ) * Complex.I) := by
  obtain ⟨top, bot, ht, hb, hends⟩ := exists_ends a p hp
  have zero : ∀ ph : Fin N × Fin N → ℝ, ∀ p, ¬ a p ≠ 0 → (a p : ℂ) * Complex.exp ((ph p : ℂ) * Complex.I) = 0 := by
    intro ph p hz
    rw [not_not] at hz
    rw [hz, Complex.ofReal_zero, zero_mul]
  have hrel := corr_relation hN half _ _ (zero phi) (zero phi') al be h
  simp only [field_pair] at hrel
  have cancel : ∀ x y x' y' : ℝ, (Complex.exp (((x - y : ℝ) : ℂ) * Complex.I) = Complex.exp (((x' - y' : ℝ) : ℂ) * Complex.I)) ↔
      Complex.exp (((x - x' : ℝ) : ℂ) * Complex.I) = Complex.exp (((y - y' : ℝ) : ℂ) * Complex.I) := by
    intro x y x' y'
    push_cast
    simp only [sub_mul, Complex.exp_sub]
    have h1 := Complex.exp_ne_zero ((y : ℂ) * Complex.I)
    have h2 := Complex.exp_ne_zero ((x' : ℂ) * Complex.I)
    have h3 := Complex.exp_ne_zero ((y' : ℂ) * Complex.I)
    rw [div_eq_div_iff h1 h3, div_eq_div_iff h2 h3, mul_comm (Complex.exp ((x' : ℂ) * Complex.I))]
  by_cases htb : top = bot
  · have all : ∀ s, a s ≠ 0 → s = top := fun s hs => rowMajor_inj (by
      have := hends s hs
      rw [← htb] at this
      omega)
    rw [all p hp, all q hq]
  have hends1 := hrel top bot ht hb htb
  rw [sum_ends a (fun p p' => ((a p * a p' : ℝ) : ℂ) * Complex.exp (((phi' p - phi' p' : ℝ) : ℂ) * Complex.I) -
    al * (((a p * a p' : ℝ) : ℂ) * Complex.exp (((phi p - phi p' : ℝ) : ℂ) * Complex.I))) top bot hends (by
      intro p p' hl
      have : a p * a p' = 0 := by
        by_contra hc
        exact hl ⟨left_ne_zero_of_mul hc, right_ne_zero_of_mul hc⟩
      simp [this])] at hends1
  have hal1 : al = 1 := by
    have := congrArg (‖·‖) (sub_eq_zero.1 hends1)
    simp only [norm_mul, Complex.norm_exp_ofReal_mul_I, mul_one, Complex.norm_real, Real.norm_eq_abs] at this
    rw [abs_of_pos hal] at this
    have hne : |a top| * |a bot| ≠ 0 := mul_ne_zero (abs_ne_zero.2 ht) (abs_ne_zero.2 hb)
    have h2 : (al - 1) * (|a top| * |a bot|) = 0 := by linarith
    linarith [(mul_eq_zero.1 h2).resolve_right hne]
  subst hal1
  simp only [Complex.ofReal_one, one_mul] at hrel hends1
  set T : Fin N × Fin N → Fin N × Fin N → ℂ := fun p p' =>
    ((a p * a p' : ℝ) : ℂ) * Complex.exp (((phi' p - phi' p' : ℝ) : ℂ) * Complex.I) -
      ((a p * a p' : ℝ) : ℂ) * Complex.exp (((phi p - phi p' : ℝ) : ℂ) * Complex.I) with hT
  have Tzero : ∀ p p', a p ≠ 0 → a p' ≠ 0 → (T p p' = 0 ↔
      Complex.exp (((phi' p - phi p : ℝ) : ℂ) * Complex.I) = Complex.exp (((phi' p' - phi p' : ℝ) : ℂ) * Complex.I)) := by
    intro p p' h1 h2
    rw [hT]
    dsimp only
    rw [← mul_sub, mul_eq_zero, or_iff_right (Complex.ofReal_ne_zero.2 (mul_ne_zero h1 h2)), sub_eq_zero, cancel]
  have hT0 : ∀ p p', ¬ (a p ≠ 0 ∧ a p' ≠ 0) → T p p' = 0 := by
    intro p p' hl
    have : a p * a p' = 0 := by
      by_contra hc
      exact hl ⟨left_ne_zero_of_mul hc, right_ne_zero_of_mul hc⟩
    rw [hT]
    dsimp only
    rw [this, Complex.ofReal_zero, zero_mul, zero_mul, sub_zero]
  have Tval : ∀ p p', T p p' = (2 * Complex.I) * (((a p * a p' * Real.sin ((phi' p - phi' p' - (phi p - phi p')) / 2) : ℝ) : ℂ) *
      Complex.exp ((((phi p - phi p' + (phi' p - phi' p')) / 2 : ℝ) : ℂ) * Complex.I)) := by
    intro p p'
    rw [hT]
    dsimp only
    rw [← mul_sub, exp_diff]
    push_cast
    ring
  have main := outside_in (fun p => a p ≠ 0) (fun p => Complex.exp (((phi' p - phi p : ℝ) : ℂ) * Complex.I) =
      Complex.exp (((phi' top - phi top : ℝ) : ℂ) * Complex.I)) T top bot ht hb (fun p hp => (hends p hp).2)
    (fun p hp => (hends p hp).1) hT0 (fun p p' h1 h2 => ?_) hrel rfl ((Tzero top bot ht hb).1 hends1).symm ?_
    (fun q hq h0 => ((Tzero top q ht hq).1 h0).symm)
    (fun q hq h0 => ((Tzero q bot hq hb).1 h0).trans ((Tzero top bot ht hb).1 hends1).symm)
  · rw [main p hp, main q hq]
  · by_cases hl : a p ≠ 0 ∧ a p' ≠ 0
    · exact (Tzero p p' hl.1 hl.2).2 (h1.trans h2.symm)
    · exact hT0 _ _ hl
  · intro q r hq hr hac n1 n2 hsum
    have hs := hsk top bot ht hb hends q r hq hr hac n1 n2
    rw [Tval, Tval, ← mul_add] at hsum
    have h2 := (mul_eq_zero.1 hsum).resolve_left (mul_ne_zero two_ne_zero Complex.I_ne_zero)
    obtain ⟨z1, z2⟩ := two_dirs _ _ _ _ h2 (by
      convert hs using 2
      ring)
    have g1 : T top q = 0 := by rw [Tval, z1]; simp
    have g2 : T r bot = 0 := by rw [Tval, z2]; simp
    exact ⟨((Tzero top q ht hq).1 g1).symm, ((Tzero r bot hr hb).1 g2).trans ((Tzero top bot ht hb).1 hends1).symm⟩

/-- And to first order: a change of the phase with no effect on the power but gain and offset is constant. -/
theorem phase_slope {N : ℕ} (hN : N ≠ 0) (a phi V : Fin N × Fin N → ℝ)
    (half : ∀ p q, a p ≠ 0 → a q ≠ 0 → 2 * |((p.1 : ℕ) : ℤ) - ((q.1 : ℕ) : ℤ)| < N ∧
      2 * |((p.2 : ℕ) : ℤ) - ((q.2 : ℕ) : ℤ)| < N)
    (al be : ℝ)
    (h : ∀ q, 2 * ((starRingEnd ℂ) (fft2 (fun p => (a p : ℂ) * Complex.exp ((phi p : ℂ) * Complex.I)) q) *
        fft2 (fun p => (a p : ℂ) * Complex.exp ((phi p : ℂ) * Complex.I) * (2 * Real.pi * V p * Complex.I)) q).re =
      al * ‖fft2 (fun p => (a p : ℂ) * Complex.exp ((phi p : ℂ) * Complex.I)) q‖ ^ 2 + be)
    (hsk : Spec.Skew a phi) (p q : Fin N × Fin N) (hp : a p ≠ 0) (hq : a q ≠ 0) : V p = V q := by
  obtain ⟨top, bot, ht, hb, hends⟩ := exists_ends a p hp
  by_cases htb : top = bot
  · have all : ∀ s, a s ≠ 0 → s = top := fun s hs => rowMajor_inj (by
      have := hends s hs
      rw [← htb] at this
      omega)
    rw [all p hp, all q hq]
  have hpi := Real.pi_pos
  set E : Fin N × Fin N → ℂ := fun p => (a p : ℂ) * Complex.exp ((phi p : ℂ) * Complex.I) with hE
  set S : Fin N × Fin N → ℂ := fun p => (a p : ℂ) * Complex.exp ((phi p : ℂ) * Complex.I) *
    (2 * Real.pi * V p * Complex.I) with hS
  have zE : ∀ p, ¬ a p ≠ 0 → E p = 0 := by
    intro p hz
    rw [not_not] at hz
    simp [hE, hz]
  have zS : ∀ p, ¬ a p ≠ 0 → S p = 0 := by
    intro p hz
    rw [not_not] at hz
    simp [hS, hz]
  obtain ⟨U, hU⟩ : ∃ U : Fin N × Fin N → ℂ, ∀ p, U p = E p + S p := ⟨_, fun _ => rfl⟩
  have hadd : ∀ q, fft2 U q = fft2 E q + fft2 S q := by
    intro q
    simp only [fft2_sum, hU, add_mul, sum_add_distrib]
  have hpol : ∀ z w : ℂ, ‖z + w‖ ^ 2 = ‖z‖ ^ 2 + ‖w‖ ^ 2 + 2 * ((starRingEnd ℂ) z * w).re := by
    intro z w
    rw [← Complex.normSq_eq_norm_sq, ← Complex.normSq_eq_norm_sq, ← Complex.normSq_eq_norm_sq, Complex.normSq_add]
    congr 2
    simp [Complex.mul_re]
  have hrel : ∀ r r', a r ≠ 0 → a r' ≠ 0 → r ≠ r' → ∑ w : (Fin N × Fin N) × (Fin N × Fin N),
      (if Spec.SameStep w.1 w.2 r r' then ((a w.1 * a w.2 : ℝ) : ℂ) *
        Complex.exp (((phi w.1 - phi w.2 : ℝ) : ℂ) * Complex.I) * (((2 * Real.pi * (V w.1 - V w.2) : ℝ) : ℂ) * Complex.I - al)
      else 0) = 0 := by
    intro r r' h3 h4 hne
    have c1 := corr_step hN half E zE r r' h3 h4
    have c2 := corr_step hN half S zS r r' h3 h4
    have c3 := corr_step hN half U (fun p hz => by rw [hU, zE p hz, zS p hz, add_zero]) r r' h3 h4
    have c0 := corr_const hN half r r' h3 h4 hne
    simp only [hadd, hpol, h] at c3
    push_cast at c1 c2 c3
    simp only [add_mul, sum_add_distrib, mul_assoc, ← mul_sum] at c3
    rw [c0, c1, c2] at c3
    have hN2 : ((N : ℂ) ^ 2) ≠ 0 := pow_ne_zero 2 (Nat.cast_ne_zero.2 hN)
    refine (mul_eq_zero.1 (?_ : (N : ℂ) ^ 2 * _ = 0)).resolve_left hN2
    have split : ∀ w : (Fin N × Fin N) × (Fin N × Fin N),
        (if Spec.SameStep w.1 w.2 r r' then ((a w.1 * a w.2 : ℝ) : ℂ) *
          Complex.exp (((phi w.1 - phi w.2 : ℝ) : ℂ) * Complex.I) *
            (((2 * Real.pi * (V w.1 - V w.2) : ℝ) : ℂ) * Complex.I - al) else 0) =
        (if Spec.SameStep w.1 w.2 r r' then U w.1 * (starRingEnd ℂ) (U w.2) else 0) -
        (if Spec.SameStep w.1 w.2 r r' then E w.1 * (starRingEnd ℂ) (E w.2) else 0) -
        (if Spec.SameStep w.1 w.2 r r' then S w.1 * (starRingEnd ℂ) (S w.2) else 0) -
        al * (if Spec.SameStep w.1 w.2 r r' then E w.1 * (starRingEnd ℂ) (E w.2) else 0) := by
      intro w
      split_ifs
      · rw [← field_pair]
        simp only [hU, hE, hS, map_add, map_mul, Complex.conj_ofReal, Complex.conj_I, map_ofNat]
        push_cast
        ring
      · simp
    rw [sum_congr rfl fun w _ => split w]
    simp only [sum_sub_distrib, ← mul_sum]
    linear_combination -c3
  have hT0 : ∀ c : ℂ, ∀ p p', ¬ (a p ≠ 0 ∧ a p' ≠ 0) → ((a p * a p' : ℝ) : ℂ) *
      Complex.exp (((phi p - phi p' : ℝ) : ℂ) * Complex.I) * (((2 * Real.pi * (V p - V p') : ℝ) : ℂ) * Complex.I - c) = 0 := by
    intro c p p' hl
    have : a p * a p' = 0 := by
      by_contra hc
      exact hl ⟨left_ne_zero_of_mul hc, right_ne_zero_of_mul hc⟩
    rw [this, Complex.ofReal_zero, zero_mul, zero_mul]
  have h1 := hrel top bot ht hb htb
  rw [sum_ends a (fun p p' => ((a p * a p' : ℝ) : ℂ) * Complex.exp (((phi p - phi p' : ℝ) : ℂ) * Complex.I) *
    (((2 * Real.pi * (V p - V p') : ℝ) : ℂ) * Complex.I - al)) top bot hends (hT0 _)] at h1
  have h2 := (mul_eq_zero.1 h1).resolve_left (mul_ne_zero (Complex.ofReal_ne_zero.2 (mul_ne_zero ht hb))
    (Complex.exp_ne_zero _))
  have hal : al = 0 := by
    have := congrArg Complex.re h2
    simpa using this
  subst hal
  simp only [Complex.ofReal_zero, sub_zero] at hrel h2 hT0
  have htb' : V bot = V top := by
    have h3 := (mul_eq_zero.1 h2).resolve_right Complex.I_ne_zero
    have h4 := (mul_eq_zero.1 (Complex.ofReal_eq_zero.1 h3)).resolve_left (by positivity)
    linarith
  set T : Fin N × Fin N → Fin N × Fin N → ℂ := fun p p' => ((a p * a p' : ℝ) : ℂ) *
    Complex.exp (((phi p - phi p' : ℝ) : ℂ) * Complex.I) * (((2 * Real.pi * (V p - V p') : ℝ) : ℂ) * Complex.I) with hT
  have Tzero : ∀ p p', a p ≠ 0 → a p' ≠ 0 → T p p' = 0 → V p = V p' := by
    intro p p' h1 h2 h3
    have h4 := (mul_eq_zero.1 h3).resolve_left (mul_ne_zero (Complex.ofReal_ne_zero.2 (mul_ne_zero h1 h2))
      (Complex.exp_ne_zero _))
    have h5 := (mul_eq_zero.1 h4).resolve_right Complex.I_ne_zero
    have h6 := (mul_eq_zero.1 (Complex.ofReal_eq_zero.1 h5)).resolve_left (by positivity)
    linarith
  have main := outside_in (fun p => a p ≠ 0) (fun p => V p = V top) T top bot ht hb (fun p hp => (hends p hp).2)
    (fun p hp => (hends p hp).1) (fun p p' hl => by simpa [hT] using hT0 0 p p' hl) (fun p p' h1 h2 => by
      rw [hT]
      dsimp only
      rw [h1, h2, sub_self, mul_zero, Complex.ofReal_zero, zero_mul, mul_zero]) hrel rfl htb' ?_
    (fun q hq h0 => (Tzero top q ht hq h0).symm) (fun q hq h0 => (Tzero q bot hq hb h0).trans htb')
  · rw [main p hp, main q hq]
  · intro q r hq hr hac n1 n2 hsum
    have hs := hsk top bot ht hb hends q r hq hr hac n1 n2
    have hval : ∀ p p', T p p' = Complex.I * (((a p * a p' * (2 * Real.pi * (V p - V p')) : ℝ) : ℂ) *
        Complex.exp (((phi p - phi p' : ℝ) : ℂ) * Complex.I)) := by
      intro p p'
      rw [hT]
      push_cast
      ring
    rw [hval, hval, ← mul_add] at hsum
    obtain ⟨z1, z2⟩ := two_dirs _ _ _ _ ((mul_eq_zero.1 hsum).resolve_left Complex.I_ne_zero) (by
      convert hs using 2
      ring)
    have g1 : T top q = 0 := by rw [hval, z1]; simp
    have g2 : T r bot = 0 := by rw [hval, z2]; simp
    exact ⟨(Tzero top q ht hq g1).symm, (Tzero r bot hr hb g2).trans htb'⟩

/-! ## The coefficients -/

theorem block_const {N : ℕ} (hN : 2 ≤ N) {pr bf : ℝ} (hpr : 0 < pr) (hbf : bf ≠ 0) (n : ℕ) (D : List ℝ)
    (hD : D.length = tri (n + 1)) (a : Fin N × Fin N → ℝ) (hb : Spec.LitBlock a n) (c : ℝ)
    (h : ∀ q, a q ≠ 0 → wfVal n D (Real.sqrt (Spec.gridPoint pr bf N q.2 ^ 2 + Spec.gridPoint pr bf N q.1 ^ 2) / pr)
      (arctan2 (Spec.gridPoint pr bf N q.1) (Spec.gridPoint pr bf N q.2)) = c) : ∀ d ∈ D.tail, d = 0 := by
  cases D with
  | nil => simp
  | cons d0 Ds =>
    have := block_zero hN hpr hbf n ((d0 + -c) :: Ds) (by simpa using hD) a hb (fun q hq => by
      rw [wfVal_piston, h q hq]
      ring)
    intro d hd
    exact this d (List.mem_cons_of_mem _ hd)

theorem lit_radius {N : ℕ} {pr bf : ℝ} (hpr : 0 < pr) {a : Fin N × Fin N → ℝ}
    (hdark : ∀ q, pr ^ 2 < Spec.gridPoint pr bf N q.2 ^ 2 + Spec.gridPoint pr bf N q.1 ^ 2 → a q = 0)
    (q : Fin N × Fin N) (hq : a q ≠ 0) :
    |Real.sqrt (Spec.gridPoint pr bf N q.2 ^ 2 + Spec.gridPoint pr bf N q.1 ^ 2) / pr| ≤ 1 := by
  have hin : ¬ pr ^ 2 < Spec.gridPoint pr bf N q.2 ^ 2 + Spec.gridPoint pr bf N q.1 ^ 2 := fun hlt => hq (hdark q hlt)
  rw [abs_of_nonneg (by positivity), div_le_one hpr]
  exact Real.sqrt_le_iff.2 ⟨hpr.le, not_lt.1 hin⟩

theorem dark_half {N : ℕ} (hN : 2 ≤ N) {pr bf : ℝ} (hpr : 0 < pr) (hbf : 2 ≤ bf) {a : Fin N × Fin N → ℝ}
    (hdark : ∀ q, pr ^ 2 < Spec.gridPoint pr bf N q.2 ^ 2 + Spec.gridPoint pr bf N q.1 ^ 2 → a q = 0)
    (p q : Fin N × Fin N) (h1 : a p ≠ 0) (h2 : a q ≠ 0) :
    2 * |((p.1 : ℕ) : ℤ) - ((q.1 : ℕ) : ℤ)| < N ∧ 2 * |((p.2 : ℕ) : ℤ) - ((q.2 : ℕ) : ℤ)| < N :=
  lit_half hN hpr hbf (fun q => (a q : ℂ)) (fun q hq => by rw [hdark q (square_disc hpr hq), Complex.ofReal_zero]) p q
    (Complex.ofReal_ne_zero.2 h1) (Complex.ofReal_ne_zero.2 h2)

theorem shifted_all {N : ℕ} (E E' : Fin N × Fin N → ℂ) (f : ℂ → ℂ → Prop)
    (h : ∀ q, f (fftshift2 (fft2 E) q) (fftshift2 (fft2 E') q)) (q : Fin N × Fin N) : f (fft2 E q) (fft2 E' q) := by
  obtain ⟨r, hr⟩ := (shiftIdx_bij.prodMap shiftIdx_bij).2 q
  have := h r
  unfold fftshift2 at this
  rw [show (shiftIdx r.1, shiftIdx r.2) = q from hr] at this
  exact this

/-- The coefficients half way between two sets. -/
noncomputable def Spec.midway (K K' : List ℝ) : List ℝ := List.zipWith (fun x y => (x + y) / 2) K K'

theorem wfVal_midway (n : ℕ) (K K' : List ℝ) (h : K'.length = K.length) (r t : ℝ) :
    wfVal n (Spec.midway K K') r t = (wfVal n K r t + wfVal n K' r t) / 2 := by
  have : Spec.midway K K' = (List.zipWith (· + ·) K K').map ((1 / 2) * ·) := by
    unfold Spec.midway
    rw [List.map_zipWith]
    congr 1
    funext x y
    ring
  rw [this, wfVal_smul, wfVal_add n K K' h.symm]
  ring

/-- **C139** Two sets of coefficients, less than half a wavelength apart in all, which give the same map at the same focus
offset up to gain and offset, differ in the first coefficient only, provided the phases at the state half way between them
are skew. -/
theorem C139_midway (I K K' : List ℝ) (n : ℕ) (hn : K.length = (n + 1) * (n + 2) / 2) (hn' : K'.length = K.length)
    (dz wavel : ℝ) (N : ℕ) (illum : Illum (Fin N × Fin N)) (tel : TelGeo (Fin N × Fin N)) (bf : ℝ) (hpr : 0 < tel.pr)
    (hbf : 2 ≤ bf) (P P' : Pattern N) (h : radiationPattern I K dz wavel illum tel bf = .ok P)
    (h' : radiationPattern I K' dz wavel illum tel bf = .ok P') (a psi : Fin N × Fin N → ℝ)
    (hp : Spec.Parts I (Spec.midway K K') dz wavel illum tel bf a psi)
    (hdark : ∀ q, tel.pr ^ 2 < Spec.gridPoint tel.pr bf N q.2 ^ 2 + Spec.gridPoint tel.pr bf N q.1 ^ 2 → a q = 0)
    (hlit : Spec.LitBlock a n) (hsk : Spec.Skew a psi) (hsmall : Spec.dist K K' < 1 / 2) (al be : ℝ) (hal : 0 < al)
    (hF : ∀ q, ‖P'.F q‖ ^ 2 = al * ‖P.F q‖ ^ 2 + be) : K.tail = K'.tail := by
  obtain ⟨hN, -⟩ := radiationPattern_ok h
  obtain ⟨a1, phi, hp1⟩ := C70_parts _ _ _ _ _ _ _ _ _ h
  obtain ⟨a2, phi', hp2⟩ := C70_parts _ _ _ _ _ _ _ _ _ h'
  obtain rfl := parts_unique hp1 hp
  obtain rfl := parts_unique hp1 hp2
  have f1 := parts_of_pattern h hp1
  have f2 := parts_of_pattern h' hp2
  rw [f1, f2] at hF
  have hF' := shifted_all _ _ (fun z w => ‖z‖ ^ 2 = al * ‖w‖ ^ 2 + be) hF
  obtain ⟨B, W, d, Ea, h1, h2, h3, h4, h5, h6⟩ := hp1
  obtain ⟨B', W', d', Ea', g1, g2, g3, g4, g5, g6⟩ := hp2
  obtain ⟨B'', W'', d'', Ea'', k1, k2, k3, k4, k5, k6⟩ := hp
  have htri : K.length = tri (n + 1) := hn
  rw [wavefront_ok _ _ K n htri] at h4
  rw [wavefront_ok _ _ K' n (hn'.trans htri)] at g4
  rw [wavefront_ok _ _ (Spec.midway K K') n (by rw [Spec.midway, List.length_zipWith, hn', min_self, htri])] at k4
  cases h4
  cases g4
  cases k4
  rw [h3] at g3 k3
  cases g3
  cases k3
  have hmean : psi = fun q => (phi q + phi' q) / 2 := by
    funext q
    rw [k6, h6, g6]
    dsimp only
    rw [wfVal_midway n K K' hn']
    ring
  rw [hmean] at hsk
  have huni := phase_unique (by omega) _ phi phi' (dark_half hN hpr hbf hdark) al be hal hF' hsk
  have hdiff : ∀ q, phi' q - phi q = 2 * Real.pi * (wfVal n K' (Real.sqrt (Spec.gridPoint tel.pr bf N q.2 ^ 2 +
      Spec.gridPoint tel.pr bf N q.1 ^ 2) / tel.pr)
      (arctan2 (Spec.gridPoint tel.pr bf N q.1) (Spec.gridPoint tel.pr bf N q.2)) -
      wfVal n K (Real.sqrt (Spec.gridPoint tel.pr bf N q.2 ^ 2 +
      Spec.gridPoint tel.pr bf N q.1 ^ 2) / tel.pr)
      (arctan2 (Spec.gridPoint tel.pr bf N q.1) (Spec.gridPoint tel.pr bf N q.2))) := by
    intro q
    rw [h6, g6]
    ring
  have hconst : ∀ p q, a2 p ≠ 0 → a2 q ≠ 0 → phi' p - phi p = phi' q - phi q := by
    intro p q hp hq
    have e := huni p q hp hq
    obtain ⟨m, hm⟩ := Complex.exp_eq_exp_iff_exists_int.1 e
    have hm' : phi' p - phi p = phi' q - phi q + m * (2 * Real.pi) := by
      have : ((phi' p - phi p : ℝ) : ℂ) * Complex.I =
          ((phi' q - phi q + m * (2 * Real.pi) : ℝ) : ℂ) * Complex.I := by
        rw [hm]
        push_cast
        ring
      exact_mod_cast mul_right_cancel₀ Complex.I_ne_zero this
    have b1 := wfVal_lipschitz n K K' htri hn'.symm _ (arctan2 (Spec.gridPoint tel.pr bf N p.1)
      (Spec.gridPoint tel.pr bf N p.2)) (lit_radius hpr hdark p hp)
    have b2 := wfVal_lipschitz n K K' htri hn'.symm _ (arctan2 (Spec.gridPoint tel.pr bf N q.1)
      (Spec.gridPoint tel.pr bf N q.2)) (lit_radius hpr hdark q hq)
    rw [hdiff p, hdiff q] at hm'
    have hpi := Real.pi_pos
    have key : ∀ X Y M : ℝ, 2 * Real.pi * X = 2 * Real.pi * Y + M * (2 * Real.pi) → X = Y + M := fun X Y M e =>
      mul_left_cancel₀ (show (2 * Real.pi) ≠ 0 by positivity) (e.trans (by ring))
    have hm2 := key _ _ _ hm'
    rw [abs_le] at b1 b2
    have l1 : (-1 : ℝ) < m := by linarith
    have l2 : (m : ℝ) < 1 := by linarith
    have l1' : (-1 : ℤ) < m := by exact_mod_cast l1
    have l2' : m < (1 : ℤ) := by exact_mod_cast l2
    have hm0 : m = 0 := by omega
    rw [hdiff p, hdiff q, hm2, hm0, Int.cast_zero, add_zero]
  obtain ⟨p0, hp0⟩ : ∃ p, a2 p ≠ 0 := by
    obtain ⟨S, T, hS, hT, hl⟩ := hlit
    obtain ⟨i, hi⟩ := card_pos.1 (show 0 < S.card by omega)
    obtain ⟨j, hj⟩ := card_pos.1 (show 0 < T.card by omega)
    exact ⟨(i, j), hl i hi j hj⟩
  have hall := block_const (bf := bf) hN hpr (by linarith) n (List.zipWith (· + ·) K' (K.map (-1 * ·)))
    (by rw [List.length_zipWith, List.length_map, hn', min_self, htri]) a2 hlit ((phi' p0 - phi p0) / (2 * Real.pi)) (by
      intro q hq
      rw [wfVal_sub n K' K hn', ← hconst q p0 hq hp0, hdiff q, mul_div_cancel_left₀ _ (by positivity)])
  refine List.ext_getElem (by rw [List.length_tail, List.length_tail, hn']) fun m m1 m2 => ?_
  rw [List.getElem_tail, List.getElem_tail]
  rw [List.length_tail] at m1 m2
  have := hall (K'[m + 1] + -1 * K[m + 1]) (List.mem_iff_getElem.2 ⟨m, by simp; omega, by simp⟩)
  linarith

theorem pos_lower {ι : Type} [Fintype ι] (f : ι → ℝ) : ∃ m : ℝ, 0 < m ∧ ∀ i, f i ≠ 0 → m ≤ |f i| := by
  classical
  rcases (univ.filter fun i => f i ≠ 0).eq_empty_or_nonempty with h | h
  · refine ⟨1, one_pos, fun i hi => ?_⟩
    have : i ∈ univ.filter fun i => f i ≠ 0 := by simpa using hi
    rw [h] at this
    simp at this
  · obtain ⟨i, hi, hm⟩ := exists_min_image _ (fun i => |f i|) h
    simp only [mem_filter, mem_univ, true_and] at hi hm
    exact ⟨|f i|, abs_pos.2 hi, hm⟩

theorem skew_open {N : ℕ} {a phi : Fin N × Fin N → ℝ} (h : Spec.Skew a phi) :
    ∃ d : ℝ, 0 < d ∧ ∀ psi : Fin N × Fin N → ℝ, (∀ p, a p ≠ 0 → |psi p - phi p| < d) → Spec.Skew a psi := by
  obtain ⟨m, hm, hf⟩ := pos_lower fun w : ((Fin N × Fin N) × (Fin N × Fin N)) × ((Fin N × Fin N) × (Fin N × Fin N)) =>
    Real.sin (phi w.1.1 + phi w.1.2 - phi w.2.1 - phi w.2.2)
  refine ⟨m / 4, by positivity, fun psi hpsi top bot ht hb hends q r hq hr hac n1 n2 hz => ?_⟩
  have h1 := hf ((top, bot), (q, r)) (h top bot ht hb hends q r hq hr hac n1 n2)
  dsimp only at h1
  have h2 := Real.abs_sin_sub_sin_le (phi top + phi bot - phi q - phi r) (psi top + psi bot - psi q - psi r)
  rw [hz, sub_zero] at h2
  have e1 := abs_lt.1 (hpsi top ht)
  have e2 := abs_lt.1 (hpsi bot hb)
  have e3 := abs_lt.1 (hpsi q hq)
  have e4 := abs_lt.1 (hpsi r hr)
  have h3 : |phi top + phi bot - phi q - phi r - (psi top + psi bot - psi q - psi r)| < m := by
    rw [abs_lt]
    constructor <;> linarith [e1.1, e1.2, e2.1, e2.2, e3.1, e3.2, e4.1, e4.2]
  linarith

/-- **C139** At a state with skew phases one map determines all coefficients but the first among those near by. -/
theorem C139_local (I K : List ℝ) (n : ℕ) (hn : K.length = (n + 1) * (n + 2) / 2) (dz wavel : ℝ) (N : ℕ)
    (illum : Illum (Fin N × Fin N)) (tel : TelGeo (Fin N × Fin N)) (bf : ℝ) (hpr : 0 < tel.pr)
    (hbf : 2 ≤ bf) (P : Pattern N) (h : radiationPattern I K dz wavel illum tel bf = .ok P)
    (a phi : Fin N × Fin N → ℝ) (hp : Spec.Parts I K dz wavel illum tel bf a phi)
    (hdark : ∀ q, tel.pr ^ 2 < Spec.gridPoint tel.pr bf N q.2 ^ 2 + Spec.gridPoint tel.pr bf N q.1 ^ 2 → a q = 0)
    (hlit : Spec.LitBlock a n) (hsk : Spec.Skew a phi) :
    ∃ eps : ℝ, 0 < eps ∧ ∀ (K' : List ℝ) (P' : Pattern N), K'.length = K.length → Spec.dist K K' < eps →
      radiationPattern I K' dz wavel illum tel bf = .ok P' → ∀ al be : ℝ, 0 < al →
      (∀ q, ‖P'.F q‖ ^ 2 = al * ‖P.F q‖ ^ 2 + be) → K.tail = K'.tail := by
  obtain ⟨d, hd, hopen⟩ := skew_open hsk
  have hpi := Real.pi_pos
  have htri : K.length = tri (n + 1) := hn
  refine ⟨min (1 / 2) (d / Real.pi), lt_min (by norm_num) (by positivity), fun K' P' hl hs h' al be hal hF => ?_⟩
  obtain ⟨B, W, del, Ea, h1, h2, h3, h4, h5, h6⟩ := hp
  have hml : (Spec.midway K K').length = tri (n + 1) := by rw [Spec.midway, List.length_zipWith, hl, min_self, htri]
  refine C139_midway I K K' n hn hl dz wavel N illum tel bf hpr hbf P P' h h' a
    (fun q => 2 * Real.pi * (wfVal n (Spec.midway K K') (Real.sqrt (Spec.gridPoint tel.pr bf N q.2 ^ 2 +
        Spec.gridPoint tel.pr bf N q.1 ^ 2) / tel.pr)
        (arctan2 (Spec.gridPoint tel.pr bf N q.1) (Spec.gridPoint tel.pr bf N q.2)) + del q / wavel))
    ⟨B, _, del, Ea, h1, h2, h3, wavefront_ok _ _ _ n hml, h5, fun q => rfl⟩ hdark hlit (hopen _ fun q hq => ?_)
    (hs.trans_le (min_le_left _ _)) al be hal hF
  rw [wavefront_ok _ _ K n htri] at h4
  cases h4
  have b1 := wfVal_lipschitz n K K' htri hl.symm _ (arctan2 (Spec.gridPoint tel.pr bf N q.1)
      (Spec.gridPoint tel.pr bf N q.2)) (lit_radius hpr hdark q hq)
  rw [h6, wfVal_midway n K K' hl]
  dsimp only
  have hs' := hs.trans_le (min_le_right _ _)
  rw [lt_div_iff₀ hpi] at hs'
  generalize wfVal n K _ _ = x at b1 ⊢
  generalize wfVal n K' _ _ = y at b1 ⊢
  rw [show 2 * Real.pi * ((x + y) / 2 + del q / wavel) - 2 * Real.pi * (x + del q / wavel) = -(Real.pi * (x - y)) by ring,
    abs_neg, abs_mul, abs_of_pos hpi]
  nlinarith

theorem norm_affine {ι : Type} [Fintype ι] [Nonempty ι] (p p' : ι → ℝ)
    (h : MathFn.norm (fun q => Fl.fin (p q)) = MathFn.norm (fun q => Fl.fin (p' q))) :
    ∃ al be : ℝ, 0 < al ∧ ∀ q, p' q = al * p q + be := by
  obtain ⟨a, b, hle, e⟩ := norm_fin p
  obtain ⟨a', b', hle', e'⟩ := norm_fin p'
  rw [e, e'] at h
  have hv : ∀ q, (p q - p a) / (p b - p a) = (p' q - p' a') / (p' b' - p' a') := fun q => congrFun (Except.ok.inj h) q
  rcases eq_or_lt_of_le (hle b).1 with hab | hab
  · have hab' : p' a' = p' b' := by
      by_contra hne
      have h0 := hv b'
      rw [hab, sub_self, div_zero, div_self (sub_ne_zero.2 (Ne.symm hne))] at h0
      exact zero_ne_one h0
    refine ⟨1, p' a' - p a, one_pos, fun q => ?_⟩
    have := hle q
    have := hle' q
    linarith
  · have hab' : p' a' < p' b' := by
      refine lt_of_le_of_ne (hle' b').1 fun hne => ?_
      have h0 := hv b
      rw [hne, sub_self, div_zero, div_self (sub_pos.2 hab).ne'] at h0
      exact one_ne_zero h0
    have d1 := sub_pos.2 hab
    have d2 := sub_pos.2 hab'
    refine ⟨(p' b' - p' a') / (p b - p a), p' a' - (p' b' - p' a') / (p b - p a) * p a, div_pos d2 d1, fun q => ?_⟩
    have h0 := hv q
    rw [div_eq_div_iff d1.ne' d2.ne'] at h0
    field_simp
    linarith

/-- **C139** In terms of the normalised maps. -/
theorem C139_norm (I K : List ℝ) (n : ℕ) (hn : K.length = (n + 1) * (n + 2) / 2) (dz wavel : ℝ) (N : ℕ)
    (illum : Illum (Fin N × Fin N)) (tel : TelGeo (Fin N × Fin N)) (bf : ℝ) (hpr : 0 < tel.pr)
    (hbf : 2 ≤ bf) (P : Pattern N) (h : radiationPattern I K dz wavel illum tel bf = .ok P)
    (a phi : Fin N × Fin N → ℝ) (hp : Spec.Parts I K dz wavel illum tel bf a phi)
    (hdark : ∀ q, tel.pr ^ 2 < Spec.gridPoint tel.pr bf N q.2 ^ 2 + Spec.gridPoint tel.pr bf N q.1 ^ 2 → a q = 0)
    (hlit : Spec.LitBlock a n) (hsk : Spec.Skew a phi) :
    ∃ eps : ℝ, 0 < eps ∧ ∀ (K' : List ℝ) (P' : Pattern N), K'.length = K.length → Spec.dist K K' < eps →
      radiationPattern I K' dz wavel illum tel bf = .ok P' →
      MathFn.norm (fun q => Fl.fin (‖P.F q‖ ^ 2)) = MathFn.norm (fun q => Fl.fin (‖P'.F q‖ ^ 2)) → K.tail = K'.tail := by
  obtain ⟨eps, he, hl⟩ := C139_local I K n hn dz wavel N illum tel bf hpr hbf P h a phi hp hdark hlit hsk
  refine ⟨eps, he, fun K' P' h1 h2 h3 hnorm => ?_⟩
  obtain ⟨hN, -⟩ := radiationPattern_ok h
  have : Nonempty (Fin N × Fin N) := ⟨(⟨0, by omega⟩, ⟨0, by omega⟩)⟩
  obtain ⟨al, be, hal, hF⟩ := norm_affine _ _ hnorm
  exact hl K' P' h1 h2 h3 al be hal hF

/-- **C139** And to first order: at such a state a change of the coefficients whose first order effect on the power is a
gain and an offset is a change of the first coefficient. -/
theorem C139_slope (I K D : List ℝ) (n : ℕ) (hn : K.length = (n + 1) * (n + 2) / 2) (hKD : K.length = D.length)
    (dz wavel : ℝ) (hw : 0 < wavel) (N : ℕ) (illum : Illum (Fin N × Fin N)) (tel : TelGeo (Fin N × Fin N)) (bf : ℝ)
    (hpr : 0 < tel.pr) (hbf : 2 ≤ bf) (P : ℝ → Pattern N)
    (h : ∀ t, radiationPattern I (Spec.moved K D t) dz wavel illum tel bf = .ok (P t))
    (a phi : Fin N × Fin N → ℝ) (hp : Spec.Parts I K dz wavel illum tel bf a phi)
    (hdark : ∀ q, tel.pr ^ 2 < Spec.gridPoint tel.pr bf N q.2 ^ 2 + Spec.gridPoint tel.pr bf N q.1 ^ 2 → a q = 0)
    (hlit : Spec.LitBlock a n) (hsk : Spec.Skew a phi) (al be : ℝ)
    (hflat : ∀ q, HasDerivAt (fun t => ‖(P t).F q‖ ^ 2) (al * ‖(P 0).F q‖ ^ 2 + be) 0) : ∀ d ∈ D.tail, d = 0 := by
  obtain ⟨hN, -⟩ := radiationPattern_ok (h 0)
  have htri : K.length = tri (n + 1) := hn
  have h0 : radiationPattern I K dz wavel illum tel bf = .ok (P 0) := by
    have := h 0
    rwa [show Spec.moved K D 0 = K by
      apply List.ext_getElem
      · rw [Spec.moved, List.length_zipWith]; omega
      · intro i _ _
        simp [Spec.moved]] at this
  obtain ⟨V, hVq, hV⟩ : ∃ V : Fin N × Fin N → ℝ, (∀ q, V q = wfVal n D (Real.sqrt (Spec.gridPoint tel.pr bf N q.2 ^ 2 +
      Spec.gridPoint tel.pr bf N q.1 ^ 2) / tel.pr)
      (arctan2 (Spec.gridPoint tel.pr bf N q.1) (Spec.gridPoint tel.pr bf N q.2))) ∧
      wavefront (fun q : Fin N × Fin N => Real.sqrt (Spec.gridPoint tel.pr bf N q.2 ^ 2 +
        Spec.gridPoint tel.pr bf N q.1 ^ 2) / tel.pr)
      (fun q => arctan2 (Spec.gridPoint tel.pr bf N q.1) (Spec.gridPoint tel.pr bf N q.2)) D = .ok V :=
    ⟨_, fun _ => rfl, wavefront_ok _ _ D n (hKD.symm.trans htri)⟩
  have hder : ∀ q, 2 * ((starRingEnd ℂ) ((P 0).F q) * Spec.slope a phi V q).re = al * ‖(P 0).F q‖ ^ 2 + be := by
    intro q
    obtain ⟨e, -⟩ := C121_power I K D dz wavel N illum tel bf hpr hw P a phi V hKD h hp hV hdark q
    exact e.unique (hflat q)
  have hsl : ∀ q, Spec.slope a phi V q = fftshift2 (fft2 fun p => (a p : ℂ) * Complex.exp ((phi p : ℂ) * Complex.I) *
      (2 * Real.pi * V p * Complex.I)) q := by
    intro q
    rw [shifted_eq]
    rfl
  simp only [hsl, parts_of_pattern h0 hp] at hder
  have hder' := shifted_all _ _ (fun z w => 2 * ((starRingEnd ℂ) z * w).re = al * ‖z‖ ^ 2 + be) hder
  have hconst := phase_slope (by omega) a phi V (dark_half hN hpr hbf hdark) al be hder' hsk
  obtain ⟨p0, hp0⟩ : ∃ p, a p ≠ 0 := by
    obtain ⟨S, T, hS, hT, hl⟩ := hlit
    obtain ⟨i, hi⟩ := card_pos.1 (show 0 < S.card by omega)
    obtain ⟨j, hj⟩ := card_pos.1 (show 0 < T.card by omega)
    exact ⟨(i, j), hl i hi j hj⟩
  exact block_const (bf := bf) hN hpr (by linarith) n D (hKD.symm.trans htri) a hlit (V p0) fun q hq => by
    rw [← hVq]
    exact hconst q p0 hq hp0

/-! ## Almost every state is of this kind -/

theorem between_ends {N : ℕ} {a : Fin N × Fin N → ℝ} {top bot q : Fin N × Fin N}
    (hends : ∀ p, a p ≠ 0 → Spec.rowMajor bot ≤ Spec.rowMajor p ∧ Spec.rowMajor p ≤ Spec.rowMajor top) (hq : a q ≠ 0)
    (n1 : q ≠ top) (n2 : q ≠ bot) : Spec.rowMajor bot < Spec.rowMajor q ∧ Spec.rowMajor q < Spec.rowMajor top :=
  ⟨lt_of_le_of_ne (hends q hq).1 fun h => n2 (rowMajor_inj h).symm, lt_of_le_of_ne (hends q hq).2 fun h => n1 (rowMajor_inj h)⟩

theorem gridPoint_rowMajor {N : ℕ} {pr bf : ℝ} (q : Fin N × Fin N) :
    Spec.gridPoint pr bf N q.2 / pr + N * (Spec.gridPoint pr bf N q.1 / pr) =
      2 * pr * bf / ((N : ℝ) - 1) / pr * Spec.rowMajor q - (N + 1) * (pr * bf / pr) := by
  unfold Spec.gridPoint Spec.rowMajor
  push_cast
  ring

/-- The coefficients of the deformation `(x + tau y)^2`. -/
theorem exists_bend (n : ℕ) (hn : 2 ≤ n) (tau : ℝ) : ∃ D : List ℝ, D.length = (n + 1) * (n + 2) / 2 ∧
    ∀ rho theta, wfVal n D rho theta = (rho * Real.cos theta + tau * (rho * Real.sin theta)) ^ 2 := by
  obtain ⟨D, ⟨hD, h⟩, -⟩ := C112_exact n fun i j => if i = 2 ∧ j = 0 then 1 else if i = 1 ∧ j = 1 then 2 * tau else
    if i = 0 ∧ j = 2 then tau ^ 2 else 0
  refine ⟨D, hD, fun rho theta => ?_⟩
  have h1 := h Unit (fun _ => rho) (fun _ => theta)
  rw [wavefront_ok _ _ D n hD] at h1
  rw [show wfVal n D rho theta = _ from congrFun (Except.ok.inj h1) ()]
  generalize rho * Real.cos theta = x
  generalize rho * Real.sin theta = y
  unfold Spec.surface
  have e0 : ∑ b ∈ range (n + 1 - 0), (if 0 = 2 ∧ b = 0 then (1 : ℝ) else if 0 = 1 ∧ b = 1 then 2 * tau else
      if 0 = 0 ∧ b = 2 then tau ^ 2 else 0) * x ^ 0 * y ^ b = tau ^ 2 * y ^ 2 := by
    rw [sum_eq_single 2]
    · simp
    · intro b _ hb
      simp [hb]
    · intro hb
      exact absurd (mem_range.2 (by omega)) hb
  have e1 : ∑ b ∈ range (n + 1 - 1), (if 1 = 2 ∧ b = 0 then (1 : ℝ) else if 1 = 1 ∧ b = 1 then 2 * tau else
      if 1 = 0 ∧ b = 2 then tau ^ 2 else 0) * x ^ 1 * y ^ b = 2 * tau * x * y := by
    rw [sum_eq_single 1]
    · simp
    · intro b _ hb
      simp [hb]
    · intro hb
      exact absurd (mem_range.2 (by omega)) hb
  have e2 : ∑ b ∈ range (n + 1 - 2), (if 2 = 2 ∧ b = 0 then (1 : ℝ) else if 2 = 1 ∧ b = 1 then 2 * tau else
      if 2 = 0 ∧ b = 2 then tau ^ 2 else 0) * x ^ 2 * y ^ b = x ^ 2 := by
    rw [sum_eq_single 0]
    · simp
    · intro b _ hb
      simp [hb]
    · intro hb
      exact absurd (mem_range.2 (by omega)) hb
  rw [← sum_subset (s₁ := {0, 1, 2}) (fun a ha => by
      simp only [mem_insert, mem_singleton] at ha
      exact mem_range.2 (by omega)), sum_insert (by decide), sum_insert (by decide), sum_singleton, e0, e1, e2]
  · ring
  · intro a _ ha
    simp only [mem_insert, mem_singleton, not_or] at ha
    refine sum_eq_zero fun b _ => ?_
    dsimp only
    rw [if_neg (by omega), if_neg (by omega), if_neg (by omega)]
    ring

theorem avoid_zeros {ι : Type} [Finite ι] (c d : ι → ℝ) (eta : ℝ) (he : 0 < eta) :
    ∃ t : ℝ, 0 < t ∧ t < eta ∧ ∀ i, d i ≠ 0 → Real.sin (c i + t * d i) ≠ 0 := by
  have : Countable ι := Finite.to_countable
  have hc : (⋃ i : ι, ⋃ k : ℤ, {((k : ℝ) * Real.pi - c i) / d i}).Countable :=
    Set.countable_iUnion fun i => Set.countable_iUnion fun k => Set.countable_singleton _
  obtain ⟨t, ht, h1, h2⟩ := (hc.dense_compl ℝ).exists_between he
  refine ⟨t, h1, h2, fun i hi hz => ht ?_⟩
  obtain ⟨k, hk⟩ := Real.sin_eq_zero_iff.1 hz
  refine Set.mem_iUnion.2 ⟨i, Set.mem_iUnion.2 ⟨k, ?_⟩⟩
  rw [Set.mem_singleton_iff, eq_div_iff hi]
  linarith

theorem dist_swap (K L : List ℝ) : Spec.dist K L = Spec.dist L K := by
  unfold Spec.dist
  rw [List.zipWith_comm]
  simp only [abs_sub_comm]

/-- **C139** With the second order among the coefficients, skew phases are found as near to any state as one likes. -/
theorem C139_generic (I K : List ℝ) (n : ℕ) (hn : K.length = (n + 1) * (n + 2) / 2) (h2 : 2 ≤ n) (dz wavel : ℝ) (N : ℕ)
    (hN : 2 ≤ N) (illum : Illum (Fin N × Fin N)) (tel : TelGeo (Fin N × Fin N)) (bf : ℝ) (hpr : tel.pr ≠ 0) (hbf : bf ≠ 0)
    (eps : ℝ) (he : 0 < eps) : ∃ K' : List ℝ, K'.length = K.length ∧ Spec.dist K K' < eps ∧
      ∀ a phi, Spec.Parts I K' dz wavel illum tel bf a phi → Spec.Skew a phi := by
  have htri : K.length = tri (n + 1) := hn
  by_cases hex : ∃ a phi, Spec.Parts I K dz wavel illum tel bf a phi
  · obtain ⟨a, phi, hp⟩ := hex
    obtain ⟨D, hD, hw⟩ := exists_bend n h2 N
    have hDK : D.length = K.length := hD.trans hn.symm
    obtain ⟨V, hV⟩ : ∃ V : Fin N × Fin N → ℝ, ∀ q, V q = wfVal n D (Real.sqrt (Spec.gridPoint tel.pr bf N q.2 ^ 2 +
      Spec.gridPoint tel.pr bf N q.1 ^ 2) / tel.pr)
      (arctan2 (Spec.gridPoint tel.pr bf N q.1) (Spec.gridPoint tel.pr bf N q.2)) := ⟨_, fun _ => rfl⟩
    have hVval : ∀ q, V q = (2 * tel.pr * bf / ((N : ℝ) - 1) / tel.pr * Spec.rowMajor q -
        (N + 1) * (tel.pr * bf / tel.pr)) ^ 2 := by
      intro q
      rw [hV, hw, ← gridPoint_rowMajor]
      set z : ℂ := ⟨Spec.gridPoint tel.pr bf N q.2, Spec.gridPoint tel.pr bf N q.1⟩ with hz
      have hnorm : Real.sqrt (Spec.gridPoint tel.pr bf N q.2 ^ 2 + Spec.gridPoint tel.pr bf N q.1 ^ 2) = ‖z‖ := by
        rw [Complex.norm_eq_sqrt_sq_add_sq]
      rw [hnorm, show arctan2 (Spec.gridPoint tel.pr bf N q.1) (Spec.gridPoint tel.pr bf N q.2) = Complex.arg z from rfl,
        div_mul_eq_mul_div, Complex.norm_mul_cos_arg, div_mul_eq_mul_div, Complex.norm_mul_sin_arg]
    have hS : 0 ≤ (D.map (|·|)).sum := List.sum_nonneg (by simp)
    obtain ⟨t, ht, hte, hgood⟩ := avoid_zeros
      (fun w : ((Fin N × Fin N) × (Fin N × Fin N)) × ((Fin N × Fin N) × (Fin N × Fin N)) =>
        phi w.1.1 + phi w.1.2 - phi w.2.1 - phi w.2.2)
      (fun w => 2 * Real.pi * (V w.1.1 + V w.1.2 - V w.2.1 - V w.2.2)) (eps / ((D.map (|·|)).sum + 1)) (by positivity)
    refine ⟨Spec.moved K D t, moved_length K D hDK.symm t, ?_, fun a' phi' hp' => ?_⟩
    · rw [dist_swap, dist_moved K D t hDK.symm, abs_of_pos ht]
      rw [lt_div_iff₀ (by positivity)] at hte
      nlinarith
    · obtain rfl := parts_unique hp hp'
      obtain ⟨B, W, d, Ea, h1, h2, h3, h4, h5, h6⟩ := hp
      obtain ⟨B', W', d', Ea', g1, g2, g3, g4, g5, g6⟩ := hp'
      rw [wavefront_ok _ _ K n htri] at h4
      rw [wavefront_ok _ _ _ n ((moved_length K D hDK.symm t).trans htri)] at g4
      cases h4
      cases g4
      rw [h3] at g3
      cases g3
      have hphi : ∀ q, phi' q = phi q + t * (2 * Real.pi * V q) := by
        intro q
        rw [h6, g6, hV]
        dsimp only
        rw [wfVal_moved n K D hDK.symm]
        ring
      intro top bot hat hab hends q r hq hr hac n1 n2
      have hord := between_ends hends hq n1 n2
      have hr' := hac.key
      have hne := hgood ((top, bot), (q, r)) ?_
      · dsimp only at hne
        rw [hphi, hphi, hphi, hphi]
        convert hne using 2
        ring
      · dsimp only
        have hN1 : ((N : ℝ) - 1) ≠ 0 := by
          have : (2 : ℝ) ≤ N := by exact_mod_cast hN
          linarith
        generalize hs : 2 * tel.pr * bf / ((N : ℝ) - 1) / tel.pr = s at hVval
        have hs0 : s ≠ 0 := by
          rw [← hs]
          exact div_ne_zero (div_ne_zero (mul_ne_zero (mul_ne_zero two_ne_zero hpr) hbf) hN1) hpr
        have hrr : (Spec.rowMajor r : ℝ) = Spec.rowMajor top + Spec.rowMajor bot - Spec.rowMajor q := by
          have : Spec.rowMajor r = Spec.rowMajor top + Spec.rowMajor bot - Spec.rowMajor q := by linarith
          exact_mod_cast this
        have o1 : (Spec.rowMajor bot : ℝ) < Spec.rowMajor q := by exact_mod_cast hord.1
        have o2 : (Spec.rowMajor q : ℝ) < Spec.rowMajor top := by exact_mod_cast hord.2
        have : V top + V bot - V q - V r = 2 * s ^ 2 *
            (((Spec.rowMajor top : ℝ) - Spec.rowMajor q) * (Spec.rowMajor q - Spec.rowMajor bot)) := by
          rw [hVval, hVval, hVval, hVval, hrr]
          ring
        rw [this]
        have := mul_pos (sub_pos.2 o2) (sub_pos.2 o1)
        have := Real.pi_pos
        positivity
  · refine ⟨K, rfl, ?_, fun a phi hp => absurd ?_ hex⟩
    · have : Spec.dist K K = 0 := by
        unfold Spec.dist
        rw [List.zipWith_self]
        simp
      linarith
    · exact ⟨a, phi, hp⟩

/-! ## Instances -/

/-- The manual telescope at any state of third order, out of focus or in focus: as near as one likes there is a state at
which one map settles all coefficients but the first, and at which nothing else has an effect of first order like a gain or
an offset. -/
example (K : List ℝ) (hK : K.length = 10) (dz eps : ℝ) (he : 0 < eps) : ∃ (L : List ℝ) (P : Pattern 256),
    L.length = 10 ∧ Spec.dist K L < eps ∧
    radiationPattern [1, -14, 2, 0, 0] L dz 0.009 illumGauss (manualTel 50 3.25 1 20 30 387.39435) 5 = .ok P ∧
    (∃ d : ℝ, 0 < d ∧ ∀ (M : List ℝ) (Q : Pattern 256), M.length = 10 → Spec.dist L M < d →
      radiationPattern [1, -14, 2, 0, 0] M dz 0.009 illumGauss (manualTel 50 3.25 1 20 30 387.39435) 5 = .ok Q →
      MathFn.norm (fun q => Fl.fin (‖P.F q‖ ^ 2)) = MathFn.norm (fun q => Fl.fin (‖Q.F q‖ ^ 2)) → L.tail = M.tail) ∧
    ∀ (D : List ℝ) (Q : ℝ → Pattern 256), D.length = 10 →
      (∀ t, radiationPattern [1, -14, 2, 0, 0] (Spec.moved L D t) dz 0.009 illumGauss
        (manualTel 50 3.25 1 20 30 387.39435) 5 = .ok (Q t)) →
      (∃ al be : ℝ, ∀ q, HasDerivAt (fun t => ‖(Q t).F q‖ ^ 2) (al * ‖(Q 0).F q‖ ^ 2 + be) 0) → ∀ d ∈ D.tail, d = 0 := by
  obtain ⟨L, hL, hd, hsk⟩ := C139_generic [1, -14, 2, 0, 0] K 3 hK (by norm_num) dz 0.009 256 (by norm_num) illumGauss
    (manualTel 50 3.25 1 20 30 387.39435) 5 (by norm_num [manualTel]) (by norm_num) eps he
  have hL10 : L.length = 10 := hL.trans hK
  obtain ⟨P, hP⟩ := pattern_exists (N := 256) (by norm_num) L 3 hL10 dz
  obtain ⟨a, phi, hp⟩ := C70_parts _ _ _ _ _ _ _ _ _ hP
  have hdark := (C80_manual _ _ _ _ _ _ _ _ _ _ dz _ _ a phi hp).1
  refine ⟨L, P, hL10, hd, hP, ?_, ?_⟩
  · obtain ⟨d, hd0, hu⟩ := C139_norm [1, -14, 2, 0, 0] L 3 hL10 dz 0.009 256 illumGauss
      (manualTel 50 3.25 1 20 30 387.39435) 5 (by norm_num [manualTel]) (by norm_num) P hP a phi hp hdark
      (lit_manual _ _ _ _ hp) (hsk a phi hp)
    exact ⟨d, hd0, fun M Q hM hdist hQ hn => hu M Q (hM.trans hL10.symm) hdist hQ hn⟩
  · rintro D Q hD hQ ⟨al, be, hflat⟩
    exact C139_slope [1, -14, 2, 0, 0] L D 3 hL10 (hL10.trans hD.symm) dz 0.009 (by norm_num) 256 illumGauss
      (manualTel 50 3.25 1 20 30 387.39435) 5 (by norm_num [manualTel]) (by norm_num) Q hQ a phi hp hdark
      (lit_manual _ _ _ _ hp) (hsk a phi hp) al be hflat

end Verif.Props
