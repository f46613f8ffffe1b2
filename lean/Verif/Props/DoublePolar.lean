import Verif.Model.DoublePolar
import Verif.Props.DoubleEffelsberg

/-!
# Polar coordinates and straight lines in the arithmetic of doubles (C151)
-/

namespace Verif.Props

open Verif Verif.Np

/-! ## Rounding -/

theorem isDouble_zpow {k : ℤ} (h1 : -1074 ≤ k) (h2 : k ≤ 1023) : Spec.IsDouble (2 ^ k) := by
  rcases le_total k 971 with h | h
  · exact ⟨1, k, by norm_num, h1, h, by simp⟩
  · refine ⟨2 ^ 52, k - 52, by norm_num, by omega, by omega, ?_⟩
    rw [Int.cast_pow, Int.cast_ofNat, ← zpow_natCast, ← zpow_add₀ two_ne_zero]
    congr 1
    push_cast
    ring

theorem two_pow_lt_top {k : ℕ} (h : k ≤ 1023) : (2 : ℝ) ^ k < 2 ^ 1024 - 2 ^ 970 := by
  have := isDouble_le (isDouble_zpow (k := k) (by omega) (by omega))
  rwa [zpow_natCast, abs_of_pos (by positivity)] at this

theorem isDouble_mag {x : ℝ} (h : Spec.IsDouble x) : Spec.IsDouble |x| := by
  rcases abs_choice x with e | e <;> rw [e]
  · exact h
  · exact isDouble_neg h

theorem add_top {c d : ℝ} (hc : 0 ≤ c) (hd : 0 ≤ d) (hc' : c ≤ 2 ^ 1022) (hd' : d ≤ 2 ^ 1022) :
    c + d ≤ 2 ^ 1023 ∧ |c + d| < 2 ^ 1024 - 2 ^ 970 := by
  have h1 : c + d ≤ 2 ^ 1023 := by
    have e : (2 : ℝ) ^ 1023 = 2 ^ 1022 + 2 ^ 1022 := by rw [pow_succ, mul_two]
    rw [e]
    exact add_le_add hc' hd'
  refine ⟨h1, ?_⟩
  rw [abs_of_nonneg (add_nonneg hc hd)]
  exact h1.trans_lt (two_pow_lt_top le_rfl)

/-- Below a double that is no power of two there is a gap of at least the last digit. -/
theorem double_below {p w : ℝ} (hp : Spec.IsDouble p) (hw : Spec.IsDouble w) (h0 : 0 < p) (h : w < p) :
    (∃ k : ℤ, p = 2 ^ k) ∨ p / (2 ^ 53 - 1) ≤ p - w := by
  obtain ⟨m, q, hm, -, -, rfl⟩ := hp
  obtain ⟨n, s, hn, -, -, rfl⟩ := hw
  have hq : (0 : ℝ) < 2 ^ q := zpow_pos two_pos q
  have hs : (0 : ℝ) < 2 ^ s := zpow_pos two_pos s
  have key : ∀ (M N : ℤ) (t : ℤ), M ≤ 2 ^ 53 - 1 → N < M →
      (M : ℝ) * 2 ^ t / (2 ^ 53 - 1) ≤ (M : ℝ) * 2 ^ t - N * 2 ^ t := by
    intro M N t hM hN
    have ht : (0 : ℝ) < 2 ^ t := zpow_pos two_pos t
    have h1 : (M : ℝ) ≤ 2 ^ 53 - 1 := by exact_mod_cast hM
    have h2 : (N : ℝ) + 1 ≤ M := by exact_mod_cast hN
    rw [div_le_iff₀ (by norm_num)]
    have h3 : (M : ℝ) * 2 ^ t ≤ (2 ^ 53 - 1) * 2 ^ t := mul_le_mul_of_nonneg_right h1 ht.le
    have h4 : (1 : ℝ) * 2 ^ t ≤ (M - N) * 2 ^ t := mul_le_mul_of_nonneg_right (by linarith) ht.le
    nlinarith
  rcases le_total q s with hqs | hqs
  · obtain ⟨k, rfl⟩ := Int.le.dest hqs
    right
    have e : (n : ℝ) * 2 ^ (q + (k : ℤ)) = ((n * 2 ^ k : ℤ) : ℝ) * 2 ^ q := by
      rw [zpow_add₀ two_ne_zero, zpow_natCast]; push_cast; ring
    rw [e] at h ⊢
    refine key m (n * 2 ^ k) q (by have := (abs_lt.1 hm).2; omega) ?_
    have := lt_of_mul_lt_mul_right h hq.le
    exact_mod_cast this
  · obtain ⟨k, rfl⟩ := Int.le.dest hqs
    have e : (m : ℝ) * 2 ^ (s + (k : ℤ)) = ((m * 2 ^ k : ℤ) : ℝ) * 2 ^ s := by
      rw [zpow_add₀ two_ne_zero, zpow_natCast]; push_cast; ring
    rw [e] at h ⊢
    have hlt : n < m * 2 ^ k := by
      have := lt_of_mul_lt_mul_right h hs.le
      exact_mod_cast this
    rcases lt_trichotomy (m * 2 ^ k) (2 ^ 53) with hM | hM | hM
    · right
      exact key _ n s (by omega) hlt
    · left
      refine ⟨53 + s, ?_⟩
      rw [hM, zpow_add₀ two_ne_zero]
      norm_num
    · right
      have hk : k ≠ 0 := by
        rintro rfl
        have := (abs_lt.1 hm).2
        omega
      obtain ⟨k, rfl⟩ := Nat.exists_eq_succ_of_ne_zero hk
      generalize hMM : m * 2 ^ (k + 1) = M at *
      have hev : 2 ∣ M := ⟨m * 2 ^ k, by rw [← hMM, pow_succ]; ring⟩
      have hM2 : 2 ^ 53 + 2 ≤ M := by omega
      have h1 : (2 ^ 53 + 2 : ℝ) ≤ M := by exact_mod_cast hM2
      have h2 : (n : ℝ) ≤ 2 ^ 53 - 1 := by
        have : n ≤ 2 ^ 53 - 1 := by have := (abs_lt.1 hn).2; omega
        exact_mod_cast this
      rw [div_le_iff₀ (by norm_num), ← sub_mul]
      have h3 : (M : ℝ) ≤ (M - n) * (2 ^ 53 - 1) := by nlinarith
      calc (M : ℝ) * 2 ^ s ≤ ((M - n) * (2 ^ 53 - 1)) * 2 ^ s := mul_le_mul_of_nonneg_right h3 hs.le
        _ = _ := by ring

/-- The rounded root of the rounded square is the number. -/
theorem sqrt_sq_double {rnd : ℝ → Fl} (h : Spec.Rounding rnd) {p P : ℝ} (hp : Spec.IsDouble p)
    (h1 : 2 ^ (-511 : ℤ) ≤ p) (h2 : p ≤ 2 ^ 511) (hP : rnd (p * p) = .fin P) : rnd (Real.sqrt P) = .fin p := by
  have h0 : 0 < p := lt_of_lt_of_le (by positivity) h1
  have hsq : p * p ≤ 2 ^ 1022 := by
    calc p * p ≤ 2 ^ 511 * 2 ^ 511 := mul_le_mul h2 h2 h0.le (by positivity)
      _ = 2 ^ 1022 := by rw [← pow_add]
  have hlo : 2 ^ (-1022 : ℤ) ≤ p * p := by
    calc (2 : ℝ) ^ (-1022 : ℤ) = 2 ^ (-511 : ℤ) * 2 ^ (-511 : ℤ) := by rw [← zpow_add₀ two_ne_zero]; norm_num
      _ ≤ p * p := mul_le_mul h1 h1 (by positivity) h0.le
  have hr : |p * p| < 2 ^ 1024 - 2 ^ 970 := by
    rw [abs_of_pos (by positivity)]
    exact hsq.trans_lt (two_pow_lt_top (by norm_num))
  by_cases hpow : ∃ k : ℤ, p = 2 ^ k
  · obtain ⟨k, rfl⟩ := hpow
    have k1 : -511 ≤ k := (zpow_le_zpow_iff_right₀ one_lt_two).1 h1
    have k2 : k ≤ 511 := by
      have : (2 : ℝ) ^ k ≤ 2 ^ (511 : ℤ) := by exact_mod_cast h2
      exact (zpow_le_zpow_iff_right₀ one_lt_two).1 this
    have hd : Spec.IsDouble ((2 : ℝ) ^ k * 2 ^ k) := by
      rw [← zpow_add₀ two_ne_zero]
      exact isDouble_zpow (by omega) (by omega)
    rw [round_self h hd] at hP
    cases hP
    rw [Real.sqrt_mul_self h0.le, round_self h hp]
  · obtain ⟨z, z1, z2, z3, z4⟩ := round_spec h hr
    rw [hP] at z1
    cases z1
    have hPe : |P - p * p| ≤ p * p / 2 ^ 53 := by
      rcases z4 with z4 | ⟨z4, -⟩
      · rwa [abs_of_pos (by positivity : 0 < p * p)] at z4
      · rw [abs_of_pos (by positivity)] at z4
        exact absurd hlo (not_le.2 z4)
    obtain ⟨e1, e2⟩ := abs_le.1 hPe
    have hP0 : 0 ≤ P := by
      have : p * p / 2 ^ 53 ≤ p * p := by
        rw [div_le_iff₀ (by positivity)]
        nlinarith [mul_pos h0 h0]
      linarith
    generalize hS : Real.sqrt P = S at *
    have hS0 : 0 ≤ S := hS ▸ Real.sqrt_nonneg _
    have hSS : S * S = P := by rw [← hS]; exact Real.mul_self_sqrt hP0
    -- the root is near `p`
    have hup : S ≤ p + p / 2 ^ 54 := by
      by_contra hc
      push Not at hc
      have : (p + p / 2 ^ 54) * (p + p / 2 ^ 54) < S * S := mul_self_lt_mul_self (by positivity) hc
      rw [hSS] at this
      have e3 : (p + p / 2 ^ 54) * (p + p / 2 ^ 54) = p * p + p * p / 2 ^ 53 + (p * p) / 2 ^ 108 := by ring
      have : 0 < p * p / 2 ^ 108 := by positivity
      linarith
    have hdn : p - p / (2 * (2 ^ 53 - 1)) < S := by
      by_contra hc
      push Not at hc
      have hpos : 0 ≤ p - p / (2 * (2 ^ 53 - 1)) := by
        have : p / (2 * (2 ^ 53 - 1)) ≤ p := by
          rw [div_le_iff₀ (by norm_num)]
          nlinarith
        linarith
      have i1 : S * S ≤ (p - p / (2 * (2 ^ 53 - 1))) * (p - p / (2 * (2 ^ 53 - 1))) := mul_self_le_mul_self hS0 hc
      rw [hSS] at i1
      have e3 : (p - p / (2 * (2 ^ 53 - 1))) * (p - p / (2 * (2 ^ 53 - 1))) =
          (p * p) * (1 - 1 / (2 * (2 ^ 53 - 1))) ^ 2 := by ring
      rw [e3] at i1
      have i2 : (1 - 1 / (2 * (2 ^ 53 - 1)) : ℝ) ^ 2 < 1 - 1 / 2 ^ 53 := by norm_num
      have := mul_lt_mul_of_pos_left i2 (mul_pos h0 h0)
      have e4 : p * p * (1 - 1 / 2 ^ 53) = p * p - p * p / 2 ^ 53 := by ring
      linarith
    have hSr : |S| < 2 ^ 1024 - 2 ^ 970 := by
      rw [abs_of_nonneg hS0]
      refine hup.trans_lt (lt_of_le_of_lt ?_ (two_pow_lt_top (k := 512) (by norm_num)))
      have e6 : (2 : ℝ) ^ 512 = 2 ^ 511 * 2 := pow_succ _ _
      have e7 : p / 2 ^ 54 ≤ p := div_le_self h0.le (by norm_num)
      have e8 : ∀ T : ℝ, p ≤ T → p + p / 2 ^ 54 ≤ T * 2 := fun T hT => by linarith
      rw [e6]
      exact e8 _ h2
    obtain ⟨w, w1, w2, w3, -⟩ := round_spec h hSr
    rw [w1]
    have hn := w3 p hp
    congr 1
    by_contra hne
    rcases lt_or_gt_of_ne hne with hlt | hgt
    · rcases double_below hp w2 h0 hlt with hk | hg
      · exact hpow hk
      · have e5 : p / (2 ^ 53 - 1) = 2 * (p / (2 * (2 ^ 53 - 1))) := by field_simp
        rcases le_total S p with hle | hle
        · rw [abs_of_nonpos (by linarith : S - p ≤ 0)] at hn
          have := (abs_le.1 hn).2
          linarith
        · rw [abs_of_nonneg (by linarith : 0 ≤ S - p), abs_of_nonneg (by linarith)] at hn
          linarith
    · have hg := double_gap hp w2 h0 hgt
      have e5 : p / 2 ^ 53 = 2 * (p / 2 ^ 54) := by ring
      rcases le_total S p with hle | hle
      · rw [abs_of_nonpos (by linarith : S - p ≤ 0), abs_of_nonpos (by linarith)] at hn
        linarith
      · rw [abs_of_nonneg (by linarith : 0 ≤ S - p)] at hn
        have := (abs_le.1 hn).1
        linarith

/-! ## The radius -/

/-- The four roundings of the radius. -/
theorem radius_parts {rnd : ℝ → Fl} (h : Spec.Rounding rnd) {x y : ℝ} (hx : |x| ≤ 2 ^ 511) (hy : |y| ≤ 2 ^ 511) :
    ∃ a b s r, rnd (x * x) = .fin a ∧ rnd (y * y) = .fin b ∧ rnd (a + b) = .fin s ∧ rnd (Real.sqrt s) = .fin r ∧
      0 ≤ a ∧ 0 ≤ b ∧ 0 ≤ s ∧ 0 ≤ r ∧ a ≤ 2 ^ 1022 ∧ b ≤ 2 ^ 1022 ∧ s ≤ 2 ^ 1023 ∧ Spec.IsDouble a ∧ Spec.IsDouble b ∧
      Spec.IsDouble s ∧ Spec.IsDouble r ∧ Dbl.sqrt rnd (Dbl.sumSq rnd (.fin x) (.fin y)) = .fin r := by
  have hsq : ∀ z : ℝ, |z| ≤ 2 ^ 511 → z * z ≤ 2 ^ 1022 := by
    intro z hz
    rw [← abs_mul_abs_self]
    calc |z| * |z| ≤ 2 ^ 511 * 2 ^ 511 := mul_le_mul hz hz (abs_nonneg _) (by positivity)
      _ = 2 ^ 1022 := by rw [← pow_add]
  -- a number between zero and a power of two is rounded to one between them
  have key : ∀ (t : ℝ) (k : ℕ), k ≤ 1023 → 0 ≤ t → t ≤ 2 ^ k →
      ∃ a, rnd t = .fin a ∧ 0 ≤ a ∧ a ≤ 2 ^ k ∧ Spec.IsDouble a := by
    intro t k hk h0 ht
    have hlt : (2 : ℝ) ^ k < 2 ^ 1024 - 2 ^ 970 := two_pow_lt_top (by omega)
    have hr : |t| < 2 ^ 1024 - 2 ^ 970 := by rw [abs_of_nonneg h0]; exact ht.trans_lt hlt
    obtain ⟨a, a1, a2, -⟩ := round_spec h hr
    have hd : Spec.IsDouble ((2 : ℝ) ^ k) := by
      have := isDouble_zpow (k := k) (by omega) (by omega)
      rwa [zpow_natCast] at this
    refine ⟨a, a1, ?_, ?_, a2⟩
    · exact round_mono h h0 (by rw [abs_zero]; exact lt_of_le_of_lt (by positivity) hlt) hr (rnd_zero h) a1
    · exact round_mono h ht hr (by rw [abs_of_pos (by positivity)]; exact hlt) a1 (round_self h hd)
  obtain ⟨a, a1, a2, a3, a4⟩ := key (x * x) 1022 (by norm_num) (mul_self_nonneg x) (hsq x hx)
  obtain ⟨b, b1, b2, b3, b4⟩ := key (y * y) 1022 (by norm_num) (mul_self_nonneg y) (hsq y hy)
  obtain ⟨s, s1, s2, s3, s4⟩ := key (a + b) 1023 (by norm_num) (add_nonneg a2 b2) (add_top a2 b2 a3 b3).1
  have hroot : Real.sqrt s ≤ 2 ^ 512 := by
    rw [Real.sqrt_le_left (by positivity), ← pow_mul]
    exact s3.trans (two_pow_le (by norm_num))
  obtain ⟨r, r1, r2, -, r4⟩ := key (Real.sqrt s) 512 (by norm_num) (Real.sqrt_nonneg _) hroot
  refine ⟨a, b, s, r, a1, b1, s1, r1, a2, b2, s2, r2, a3, b3, s3, a4, b4, s4, r4, ?_⟩
  rw [Dbl.sumSq, mul_fin_rnd, mul_fin_rnd, a1, b1, add_fin_rnd, s1, Dbl.sqrt, Fl.sqrt, if_neg (not_lt.2 s2), Dbl.rop, r1]

/-- **C151** on the axes the radius is the coordinate, to the last bit. -/
theorem C151_axis {rnd : ℝ → Fl} (h : Spec.Rounding rnd) (L : Dbl.LibmA) {x : ℝ} (hx : Spec.IsDouble x)
    (h1 : 2 ^ (-511 : ℤ) ≤ |x|) (h2 : |x| ≤ 2 ^ 511) :
    (Dbl.cart2pol rnd L (.fin x) (.fin 0)).1 = .fin |x| ∧ (Dbl.cart2pol rnd L (.fin 0) (.fin x)).1 = .fin |x| := by
  have h00 : |(0 : ℝ)| ≤ 2 ^ 511 := by rw [abs_zero]; positivity
  obtain ⟨a, b, s, r, a1, b1, s1, r1, -, -, -, -, -, -, -, a4, -, -, -, e⟩ := radius_parts h h2 h00
  rw [mul_zero, rnd_zero h] at b1
  cases b1
  rw [add_zero, round_self h a4] at s1
  cases s1
  have hr : rnd (Real.sqrt a) = .fin |x| :=
    sqrt_sq_double h (isDouble_mag hx) h1 h2 (by rw [abs_mul_abs_self]; exact a1)
  rw [hr] at r1
  cases r1
  refine ⟨e, ?_⟩
  have : Dbl.sumSq rnd (.fin 0) (.fin x) = Dbl.sumSq rnd (.fin x) (.fin 0) := by
    simp only [Dbl.sumSq, mul_fin_rnd, mul_zero, rnd_zero h, a1, add_fin_rnd, add_zero, zero_add]
  simp only [Dbl.cart2pol, this]
  exact e

/-- **C151** the radius never falls below a coordinate. -/
theorem C151_lower {rnd : ℝ → Fl} (h : Spec.Rounding rnd) (L : Dbl.LibmA) {x y : ℝ} (hx : Spec.IsDouble x)
    (hy : Spec.IsDouble y) (hxb : |x| ≤ 2 ^ 511) (hyb : |y| ≤ 2 ^ 511) :
    ∃ r, (Dbl.cart2pol rnd L (.fin x) (.fin y)).1 = .fin r ∧ Spec.IsDouble r ∧ 0 ≤ r ∧
      (2 ^ (-511 : ℤ) ≤ |x| → |x| ≤ r) ∧ (2 ^ (-511 : ℤ) ≤ |y| → |y| ≤ r) := by
  obtain ⟨a, b, s, r, a1, b1, s1, r1, a2, b2, s2, r2, a3, b3, s3, a4, b4, s4, r4, e⟩ := radius_parts h hxb hyb
  have hab := (add_top a2 b2 a3 b3).1
  have hR : ∀ t : ℝ, 0 ≤ t → t ≤ 2 ^ 1023 → |t| < 2 ^ 1024 - 2 ^ 970 := fun t h0 ht => by
    rw [abs_of_nonneg h0]
    exact ht.trans_lt (two_pow_lt_top le_rfl)
  have hroot : ∀ t : ℝ, 0 ≤ t → t ≤ 2 ^ 1023 → |Real.sqrt t| < 2 ^ 1024 - 2 ^ 970 := fun t h0 ht => by
    rw [abs_of_nonneg (Real.sqrt_nonneg _)]
    refine lt_of_le_of_lt ?_ (two_pow_lt_top (k := 512) (by norm_num))
    rw [Real.sqrt_le_left (by positivity), ← pow_mul]
    exact ht.trans (two_pow_le (by norm_num))
  -- a square that is at most the sum
  have key : ∀ z c : ℝ, Spec.IsDouble z → |z| ≤ 2 ^ 511 → rnd (z * z) = .fin c → 0 ≤ c → Spec.IsDouble c → c ≤ a + b →
      2 ^ (-511 : ℤ) ≤ |z| → |z| ≤ r := by
    intro z c hz hzb hc hc0 hcd hle hlo
    have i1 : c ≤ s := round_mono h hle (hR c hc0 (hle.trans hab)) (hR _ (by linarith) hab) (round_self h hcd) s1
    have i2 : rnd (Real.sqrt c) = .fin |z| :=
      sqrt_sq_double h (isDouble_mag hz) hlo hzb (by rw [abs_mul_abs_self]; exact hc)
    exact round_mono h (Real.sqrt_le_sqrt i1) (hroot c hc0 (hle.trans hab)) (hroot s s2 s3) i2 r1
  exact ⟨r, e, r4, r2, key x a hx hxb a1 a2 a4 (by linarith), key y b hy hyb b1 b2 b4 (by linarith)⟩

/-- **C151** moving away from both axes never lowers the radius; the signs and the order of the coordinates do not matter. -/
theorem C151_mono {rnd : ℝ → Fl} (h : Spec.Rounding rnd) (L : Dbl.LibmA) {x y x' y' : ℝ} (hx : |x| ≤ |x'|) (hy : |y| ≤ |y'|)
    (hxb : |x'| ≤ 2 ^ 511) (hyb : |y'| ≤ 2 ^ 511) :
    ∃ r r', (Dbl.cart2pol rnd L (.fin x) (.fin y)).1 = .fin r ∧ (Dbl.cart2pol rnd L (.fin x') (.fin y')).1 = .fin r' ∧
      r ≤ r' ∧ (Dbl.cart2pol rnd L (.fin y) (.fin x)).1 = .fin r ∧ (Dbl.cart2pol rnd L (.fin (-x)) (.fin y)).1 = .fin r := by
  obtain ⟨a, b, s, r, a1, b1, s1, r1, a2, b2, s2, r2, a3, b3, s3, a4, b4, s4, r4, e⟩ :=
    radius_parts h (hx.trans hxb) (hy.trans hyb)
  obtain ⟨a', b', s', r', a1', b1', s1', r1', a2', b2', s2', r2', a3', b3', s3', a4', b4', s4', r4', e'⟩ :=
    radius_parts h hxb hyb
  have hsq : ∀ z : ℝ, |z| ≤ 2 ^ 511 → |z * z| < 2 ^ 1024 - 2 ^ 970 := by
    intro z hz
    rw [abs_mul]
    refine lt_of_le_of_lt ?_ (two_pow_lt_top (k := 1022) (by norm_num))
    calc |z| * |z| ≤ 2 ^ 511 * 2 ^ 511 := mul_le_mul hz hz (abs_nonneg _) (by positivity)
      _ = 2 ^ 1022 := by rw [← pow_add]
  have hroot : ∀ t : ℝ, 0 ≤ t → t ≤ 2 ^ 1023 → |Real.sqrt t| < 2 ^ 1024 - 2 ^ 970 := fun t h0 ht => by
    rw [abs_of_nonneg (Real.sqrt_nonneg _)]
    refine lt_of_le_of_lt ?_ (two_pow_lt_top (k := 512) (by norm_num))
    rw [Real.sqrt_le_left (by positivity), ← pow_mul]
    exact ht.trans (two_pow_le (by norm_num))
  have i1 : a ≤ a' := round_mono h (by rw [← abs_mul_abs_self, ← abs_mul_abs_self x']; exact mul_self_le_mul_self (abs_nonneg _) hx)
    (hsq _ (hx.trans hxb)) (hsq _ hxb) a1 a1'
  have i2 : b ≤ b' := round_mono h (by rw [← abs_mul_abs_self, ← abs_mul_abs_self y']; exact mul_self_le_mul_self (abs_nonneg _) hy)
    (hsq _ (hy.trans hyb)) (hsq _ hyb) b1 b1'
  have i3 : s ≤ s' := round_mono h (add_le_add i1 i2) (add_top a2 b2 a3 b3).2 (add_top a2' b2' a3' b3').2 s1 s1'
  refine ⟨r, r', e, e', round_mono h (Real.sqrt_le_sqrt i3) (hroot s s2 s3) (hroot s' s2' s3') r1 r1', ?_, ?_⟩
  · have : Dbl.sumSq rnd (.fin y) (.fin x) = Dbl.sumSq rnd (.fin x) (.fin y) := by
      simp only [Dbl.sumSq, mul_fin_rnd, a1, b1, add_fin_rnd, add_comm]
    simp only [Dbl.cart2pol, this]
    exact e
  · have : Dbl.sumSq rnd (.fin (-x)) (.fin y) = Dbl.sumSq rnd (.fin x) (.fin y) := by
      simp only [Dbl.sumSq, mul_fin_rnd, neg_mul_neg]
    simp only [Dbl.cart2pol, this]
    exact e

/-- A relative error of a number halves in its root. -/
theorem sqrt_near_half {s S t : ℝ} (hS : 0 < S) (hs : 0 ≤ s) (h : |s - S| ≤ t * S) (ht : t ≤ 1 / 1000) :
    |Real.sqrt s - Real.sqrt S| ≤ t / 1.99 * Real.sqrt S := by
  have h1 : 0 < Real.sqrt S := Real.sqrt_pos.2 hS
  have h2 : 0.99 * Real.sqrt S ≤ Real.sqrt s := by
    apply Real.le_sqrt_of_sq_le
    rw [mul_pow, Real.sq_sqrt hS.le]
    have := (abs_le.1 h).1
    nlinarith
  have e : (Real.sqrt s - Real.sqrt S) * (Real.sqrt s + Real.sqrt S) = s - S := by
    have i1 := Real.mul_self_sqrt hs
    have i2 := Real.mul_self_sqrt hS.le
    nlinarith
  have h3 : |Real.sqrt s - Real.sqrt S| * (Real.sqrt s + Real.sqrt S) ≤ t * S := by
    rw [← abs_of_pos (show 0 < Real.sqrt s + Real.sqrt S by linarith), ← abs_mul, e]
    exact h
  have h4 : |Real.sqrt s - Real.sqrt S| * (1.99 * Real.sqrt S) ≤ t * (Real.sqrt S * Real.sqrt S) := by
    rw [Real.mul_self_sqrt hS.le]
    exact (mul_le_mul_of_nonneg_left (by linarith) (abs_nonneg _)).trans h3
  have h5 : |Real.sqrt s - Real.sqrt S| * 1.99 ≤ t * Real.sqrt S := by
    refine le_of_mul_le_mul_right ?_ h1
    linarith
  rw [div_mul_eq_mul_div, le_div_iff₀ (by norm_num)]
  exact h5

/-- **C151** the relative error of the radius is at most `3 · 2^-53`. -/
theorem C151_near {rnd : ℝ → Fl} (h : Spec.Rounding rnd) (L : Dbl.LibmA) {x y : ℝ} (hxb : |x| ≤ 2 ^ 511)
    (hyb : |y| ≤ 2 ^ 511) (hlo : 2 ^ (-511 : ℤ) ≤ |x| ∨ 2 ^ (-511 : ℤ) ≤ |y|) :
    ∃ r, (Dbl.cart2pol rnd L (.fin x) (.fin y)).1 = .fin r ∧
      |r - Real.sqrt (x ^ 2 + y ^ 2)| ≤ 3 / 2 ^ 53 * Real.sqrt (x ^ 2 + y ^ 2) := by
  obtain ⟨a, b, s, r, a1, b1, s1, r1, a2, b2, s2, r2, a3, b3, s3, a4, b4, s4, r4, e⟩ := radius_parts h hxb hyb
  refine ⟨r, e, ?_⟩
  have hsq : ∀ z : ℝ, |z| ≤ 2 ^ 511 → |z * z| < 2 ^ 1024 - 2 ^ 970 := by
    intro z hz
    rw [abs_mul]
    refine lt_of_le_of_lt ?_ (two_pow_lt_top (k := 1022) (by norm_num))
    calc |z| * |z| ≤ 2 ^ 511 * 2 ^ 511 := mul_le_mul hz hz (abs_nonneg _) (by positivity)
      _ = 2 ^ 1022 := by rw [← pow_add]
  have hlow : ∀ z : ℝ, 2 ^ (-511 : ℤ) ≤ |z| → 2 ^ (-1022 : ℤ) ≤ z * z := by
    intro z hz
    rw [← abs_mul_abs_self]
    calc (2 : ℝ) ^ (-1022 : ℤ) = 2 ^ (-511 : ℤ) * 2 ^ (-511 : ℤ) := by rw [← zpow_add₀ two_ne_zero]; norm_num
      _ ≤ |z| * |z| := mul_le_mul hz hz (by positivity) (abs_nonneg _)
  have herr : ∀ z c : ℝ, |z| ≤ 2 ^ 511 → rnd (z * z) = .fin c →
      |c - z * z| ≤ z * z / 2 ^ 53 ∨ z * z < 2 ^ (-1022 : ℤ) ∧ |c - z * z| ≤ 2 ^ (-1075 : ℤ) := by
    intro z c hz hc
    obtain ⟨w, w1, -, -, w4⟩ := round_spec h (hsq z hz)
    rw [hc] at w1
    cases w1
    rwa [abs_of_nonneg (mul_self_nonneg z)] at w4
  have hS : 2 ^ (-1022 : ℤ) ≤ x * x + y * y := by
    rcases hlo with hlo | hlo
    · exact (hlow x hlo).trans (le_add_of_nonneg_right (mul_self_nonneg y))
    · exact (hlow y hlo).trans (le_add_of_nonneg_left (mul_self_nonneg x))
  have hτ : (2 : ℝ) ^ (-1075 : ℤ) ≤ (x * x + y * y) / 2 ^ 53 := by
    rw [le_div_iff₀ (by positivity)]
    refine le_trans (le_of_eq ?_) hS
    rw [← zpow_natCast, ← zpow_add₀ two_ne_zero]
    norm_num
  have hS0 : 0 < x * x + y * y := lt_of_lt_of_le (by positivity) hS
  have hx0 := mul_self_nonneg x
  have hy0 := mul_self_nonneg y
  have hsum : |(a + b) - (x * x + y * y)| ≤ 2 * (x * x + y * y) / 2 ^ 53 := by
    have e1 : (a + b) - (x * x + y * y) = (a - x * x) + (b - y * y) := by ring
    rw [e1]
    refine (abs_add_le _ _).trans ?_
    have e2 : 2 * (x * x + y * y) / 2 ^ 53 = (x * x + y * y) / 2 ^ 53 + (x * x + y * y) / 2 ^ 53 := by ring
    have e3 : (x * x + y * y) / 2 ^ 53 = x * x / 2 ^ 53 + y * y / 2 ^ 53 := by ring
    have p1 : 0 ≤ x * x / 2 ^ 53 := by positivity
    have p2 : 0 ≤ y * y / 2 ^ 53 := by positivity
    rcases herr x a hxb a1 with i1 | ⟨i0, i1⟩ <;> rcases herr y b hyb b1 with j1 | ⟨j0, j1⟩
    · linarith
    · linarith
    · linarith
    · exfalso
      rcases hlo with hlo | hlo
      · exact absurd (hlow x hlo) (not_le.2 i0)
      · exact absurd (hlow y hlo) (not_le.2 j0)
  have hadd : |s - (a + b)| ≤ (a + b) / 2 ^ 53 := by
    have hab : |a - -b| < 2 ^ 1024 - 2 ^ 970 := by
      rw [sub_neg_eq_add]
      exact (add_top a2 b2 a3 b3).2
    obtain ⟨z, z1, -, z3⟩ := sub_spec h a4 (isDouble_neg b4) hab
    rw [sub_neg_eq_add, s1] at z1
    cases z1
    rwa [sub_neg_eq_add, abs_of_nonneg (add_nonneg a2 b2)] at z3
  rw [sq, sq]
  generalize x * x + y * y = S at *
  have hs : |s - S| ≤ (3.001 / 2 ^ 53) * S := by
    have e1 : s - S = (s - (a + b)) + ((a + b) - S) := by ring
    rw [e1]
    refine (abs_add_le _ _).trans ((add_le_add hadd hsum).trans ?_)
    have := (abs_le.1 hsum).2
    norm_num at this ⊢
    linarith only [this, hS0]
  have hroot := sqrt_near_half hS0 s2 hs (by norm_num)
  have hR0 : 0 < Real.sqrt S := Real.sqrt_pos.2 hS0
  have hsr : |Real.sqrt s| < 2 ^ 1024 - 2 ^ 970 := by
    rw [abs_of_nonneg (Real.sqrt_nonneg _)]
    refine lt_of_le_of_lt ?_ (two_pow_lt_top (k := 512) (by norm_num))
    rw [Real.sqrt_le_left (by positivity), ← pow_mul]
    exact s3.trans (two_pow_le (by norm_num))
  obtain ⟨w, w1, -, -, w4⟩ := round_spec h hsr
  rw [r1] at w1
  cases w1
  have hbig : 2 ^ (-1022 : ℤ) ≤ Real.sqrt s := by
    have j1 : (2 : ℝ) ^ (-511 : ℤ) ≤ Real.sqrt S := by
      apply Real.le_sqrt_of_sq_le
      rw [← zpow_natCast, ← zpow_mul]
      norm_num
      norm_num at hS
      exact hS
    have j2 := (abs_le.1 hroot).1
    have j3 : (2 : ℝ) ^ (-1022 : ℤ) ≤ 2 ^ (-511 : ℤ) / 2 := by
      rw [le_div_iff₀ two_pos]
      calc (2 : ℝ) ^ (-1022 : ℤ) * 2 = 2 ^ (-1021 : ℤ) := by
            rw [← zpow_add_one₀ two_ne_zero]; norm_num
        _ ≤ 2 ^ (-511 : ℤ) := zpow_le_zpow_right₀ one_le_two (by norm_num)
    norm_num at j2
    linarith
  have hfin : |r - Real.sqrt s| ≤ Real.sqrt s / 2 ^ 53 := by
    rcases w4 with w4 | ⟨w4, -⟩
    · rwa [abs_of_nonneg (Real.sqrt_nonneg _)] at w4
    · rw [abs_of_nonneg (Real.sqrt_nonneg _)] at w4
      exact absurd hbig (not_le.2 w4)
  have e1 : r - Real.sqrt S = (r - Real.sqrt s) + (Real.sqrt s - Real.sqrt S) := by ring
  rw [e1]
  refine (abs_add_le _ _).trans ((add_le_add hfin hroot).trans ?_)
  have := (abs_le.1 hroot).2
  norm_num at this ⊢
  linarith only [this, hR0]

/-- **C151** the point is found again from its polar coordinates. -/
theorem C151_roundtrip {rnd : ℝ → Fl} (h : Spec.Rounding rnd) {L : Dbl.LibmA} (hL : Spec.AccurateA L) {x y : ℝ}
    (hx : Spec.IsDouble x) (hy : Spec.IsDouble y) (hxb : |x| ≤ 2 ^ 511) (hyb : |y| ≤ 2 ^ 511)
    (hlo : 2 ^ (-511 : ℤ) ≤ |x| ∨ 2 ^ (-511 : ℤ) ≤ |y|) :
    ∃ r t, Dbl.cart2pol rnd L (.fin x) (.fin y) = (.fin r, .fin t) ∧
      |r * Real.cos t - x| ≤ 11 / 2 ^ 53 * Real.sqrt (x ^ 2 + y ^ 2) ∧
      |r * Real.sin t - y| ≤ 11 / 2 ^ 53 * Real.sqrt (x ^ 2 + y ^ 2) := by
  obtain ⟨r, hr, hre⟩ := C151_near h L hxb hyb hlo
  obtain ⟨t, ht, -, -, hte⟩ := hL.arctan2 x y hx hy
  refine ⟨r, t, Prod.ext hr ht, ?_⟩
  have hp := polarPt_cart x y one_pos
  rw [div_one, div_one, div_one] at hp
  have hsub := polarPt_sub r t (Real.sqrt (x ^ 2 + y ^ 2)) (Np.arctan2 y x)
  rw [hp] at hsub
  have hb : ‖polarPt r t - ⟨x, y⟩‖ ≤ 11 / 2 ^ 53 * Real.sqrt (x ^ 2 + y ^ 2) := by
    refine hsub.trans ?_
    rw [abs_of_nonneg (Real.sqrt_nonneg _)]
    refine (add_le_add hre (mul_le_mul_of_nonneg_left hte (Real.sqrt_nonneg _))).trans (le_of_eq ?_)
    ring
  have e : polarPt r t = ⟨r * Real.cos t, r * Real.sin t⟩ := by
    unfold polarPt
    apply Complex.ext <;> simp [Complex.exp_re, Complex.exp_im]
  rw [e] at hb
  have h1 := Complex.abs_re_le_norm ((⟨r * Real.cos t, r * Real.sin t⟩ : ℂ) - ⟨x, y⟩)
  have h2 := Complex.abs_im_le_norm ((⟨r * Real.cos t, r * Real.sin t⟩ : ℂ) - ⟨x, y⟩)
  rw [Complex.sub_re] at h1
  rw [Complex.sub_im] at h2
  exact ⟨h1.trans hb, h2.trans hb⟩

/-- **C151** coordinates whose squares leave the range of the doubles: the radius is infinite, or zero away from the
origin. -/
theorem C151_limits {rnd : ℝ → Fl} (h : Spec.Rounding rnd) (L : Dbl.LibmA) (x y : ℝ) :
    (2 ^ 512 ≤ |x| ∨ 2 ^ 512 ≤ |y| → (Dbl.cart2pol rnd L (.fin x) (.fin y)).1 = .pinf) ∧
    (|x| < 2 ^ (-538 : ℤ) → |y| < 2 ^ (-538 : ℤ) → (Dbl.cart2pol rnd L (.fin x) (.fin y)).1 = .fin 0) := by
  have hnn : ∀ z : ℝ, rnd (z * z) = .pinf ∨ ∃ c, rnd (z * z) = .fin c := by
    intro z
    rcases lt_or_ge (z * z) (2 ^ 1024 - 2 ^ 970) with hz | hz
    · obtain ⟨c, hc, -⟩ := round_spec h (y := z * z) (by rwa [abs_of_nonneg (mul_self_nonneg z)])
      exact .inr ⟨c, hc⟩
    · exact .inl (h.2.1 _ hz)
  have hbig : ∀ z : ℝ, 2 ^ 512 ≤ |z| → rnd (z * z) = .pinf := by
    intro z hz
    apply h.2.1
    rw [← abs_mul_abs_self]
    have : (2 : ℝ) ^ 1024 = 2 ^ 512 * 2 ^ 512 := by rw [← pow_add]
    have h1 : (2 : ℝ) ^ 512 * 2 ^ 512 ≤ |z| * |z| := mul_le_mul hz hz (by positivity) (abs_nonneg _)
    rw [← this] at h1
    exact (sub_le_self _ (by positivity)).trans h1
  have hsmall : ∀ z : ℝ, |z| < 2 ^ (-538 : ℤ) → rnd (z * z) = .fin 0 := by
    intro z hz
    have h1 : z * z < 2 ^ (-1076 : ℤ) := by
      rw [← abs_mul_abs_self]
      calc |z| * |z| < 2 ^ (-538 : ℤ) * 2 ^ (-538 : ℤ) := mul_self_lt_mul_self (abs_nonneg _) hz
        _ = 2 ^ (-1076 : ℤ) := by rw [← zpow_add₀ two_ne_zero]; norm_num
    have h0 := mul_self_nonneg z
    have hr : |z * z| < 2 ^ 1024 - 2 ^ 970 := by
      rw [abs_of_nonneg h0]
      refine h1.trans (lt_of_le_of_lt ?_ one_lt_range)
      exact zpow_le_one_of_nonpos₀ one_le_two (by norm_num)
    obtain ⟨c, c1, c2, c3, -⟩ := round_spec h hr
    have c4 := c3 0 isDouble_zero
    rw [sub_zero, abs_of_nonneg h0] at c4
    obtain ⟨k, hk⟩ := double_grid c2
    have h2 : |c| < 2 ^ (-1074 : ℤ) := by
      have e : c = z * z - (z * z - c) := by ring
      have h3 : |c| ≤ z * z + z * z := by
        rw [e]
        refine (abs_sub _ _).trans ?_
        rw [abs_of_nonneg h0]
        linarith
      have h4 : (2 : ℝ) ^ (-1074 : ℤ) = 4 * 2 ^ (-1076 : ℤ) := by
        rw [show (-1074 : ℤ) = 2 + -1076 by norm_num, zpow_add₀ two_ne_zero]
        norm_num
      rw [h4]
      linarith only [h1, h3, h0]
    have hk0 : k = 0 := by
      rw [hk, abs_mul, abs_of_pos (show (0 : ℝ) < 2 ^ (-1074 : ℤ) by positivity)] at h2
      have h3 : |(k : ℝ)| < 1 := by
        by_contra hc
        push Not at hc
        have := mul_le_mul_of_nonneg_right hc (show (0 : ℝ) ≤ 2 ^ (-1074 : ℤ) by positivity)
        rw [one_mul] at this
        exact absurd h2 (not_lt.2 this)
      have h5 : |k| < 1 := by exact_mod_cast h3
      exact Int.abs_lt_one_iff.1 h5
    rw [c1, hk, hk0, Int.cast_zero, zero_mul]
  constructor
  · intro hb
    have : Dbl.sumSq rnd (.fin x) (.fin y) = .pinf := by
      unfold Dbl.sumSq
      rw [mul_fin_rnd, mul_fin_rnd]
      rcases hb with hb | hb
      · rw [hbig x hb]
        rcases hnn y with e | ⟨c, e⟩ <;> rw [e] <;> rfl
      · rw [hbig y hb]
        rcases hnn x with e | ⟨c, e⟩ <;> rw [e] <;> rfl
    simp only [Dbl.cart2pol, this, Dbl.sqrt, Fl.sqrt, Dbl.rop]
  · intro hx hy
    have : Dbl.sumSq rnd (.fin x) (.fin y) = .fin 0 := by
      unfold Dbl.sumSq
      rw [mul_fin_rnd, mul_fin_rnd, hsmall x hx, hsmall y hy, add_fin_rnd, add_zero, rnd_zero h]
    simp only [Dbl.cart2pol, this, Dbl.sqrt, Fl.sqrt, lt_irrefl, if_false, Dbl.rop, Real.sqrt_zero, rnd_zero h]

/-! ## The straight line -/

/-- **C151** the line through two points passes through the first one to the last bit, if its slope is finite; with two equal
abscissae it has no finite value anywhere. -/
theorem C151_line_exact {rnd : ℝ → Fl} (h : Spec.Rounding rnd) {x1 y1 : ℝ} (hy1 : Spec.IsDouble y1) (x2 y2 : ℝ) :
    (∀ q, Dbl.div rnd (Dbl.sub rnd (.fin y2) (.fin y1)) (Dbl.sub rnd (.fin x2) (.fin x1)) = .fin q →
      Dbl.lineEquation rnd (.fin x1, .fin y1) (.fin x2, .fin y2) (.fin x1) = .fin y1) ∧
    ∀ x r, Dbl.lineEquation rnd (.fin x1, .fin y1) (.fin x1, .fin y2) (.fin x) ≠ .fin r := by
  constructor
  · intro q hq
    unfold Dbl.lineEquation
    simp only [hq]
    rw [sub_fin_rnd, sub_self, rnd_zero h, mul_fin_rnd, mul_zero, rnd_zero h, add_fin_rnd, zero_add, round_self h hy1]
  · intro x r
    unfold Dbl.lineEquation
    simp only [sub_fin_rnd, sub_self, rnd_zero h]
    have hd : ∀ f : Fl, ∀ q, Dbl.div rnd f (.fin 0) ≠ .fin q := by
      intro f q
      cases f <;> simp [Dbl.div, Fl.div, Dbl.rop, Fl.infSign]
      split_ifs <;> simp
    have hm : ∀ f g : Fl, (∀ q, f ≠ .fin q) → ∀ q, Dbl.mul rnd f g ≠ .fin q := by
      intro f g hf q
      cases f <;> cases g <;> simp_all [Dbl.mul, Fl.mul, Dbl.rop, Fl.infSign]
      all_goals (split_ifs <;> simp [Fl.neg])
    have ha : ∀ f g : Fl, (∀ q, f ≠ .fin q) → ∀ q, Dbl.add rnd f g ≠ .fin q := by
      intro f g hf q
      cases f <;> cases g <;> simp_all [Dbl.add, Fl.add, Dbl.rop]
    exact ha _ _ (hm _ _ (hd _)) r

/-- A number near another one is the other one times a factor near one. -/
theorem factor_of_near {z y u : ℝ} (hu : 0 ≤ u) (h : |z - y| ≤ |y| * u) : ∃ a, |a| ≤ u ∧ z = y * (1 + a) := by
  rcases eq_or_ne y 0 with rfl | h0
  · refine ⟨0, by simpa using hu, ?_⟩
    rw [abs_zero, zero_mul, sub_zero] at h
    rw [abs_nonpos_iff.1 h, zero_mul]
  · refine ⟨z / y - 1, ?_, by field_simp; ring⟩
    have e : z / y - 1 = (z - y) / y := by field_simp
    rw [e, abs_div, div_le_iff₀ (abs_pos.2 h0), mul_comm]
    exact h

/-- **C151** the error of the line at any place, for coordinates of moderate size. -/
theorem C151_line {rnd : ℝ → Fl} (h : Spec.Rounding rnd) {x1 y1 x2 y2 x : ℝ} (d1 : Spec.IsDouble x1) (d2 : Spec.IsDouble y1)
    (d3 : Spec.IsDouble x2) (d4 : Spec.IsDouble y2) (d5 : Spec.IsDouble x) (hx1 : |x1| ≤ 2 ^ 200) (hy1 : |y1| ≤ 2 ^ 200)
    (hx2 : |x2| ≤ 2 ^ 200) (hy2 : |y2| ≤ 2 ^ 200) (hx : |x| ≤ 2 ^ 200) (hsep : 1 / 2 ^ 200 ≤ |x2 - x1|) :
    ∃ l, Dbl.lineEquation rnd (.fin x1, .fin y1) (.fin x2, .fin y2) (.fin x) = .fin l ∧
      |l - ((y2 - y1) / (x2 - x1) * (x - x1) + y1)| ≤
        (7 * |(y2 - y1) / (x2 - x1) * (x - x1)| + |y1|) / 2 ^ 53 + 2 ^ (-860 : ℤ) := by
  have tri : ∀ a b : ℝ, |a| ≤ 2 ^ 200 → |b| ≤ 2 ^ 200 → |a - b| ≤ 2 ^ 201 := fun a b ha hb => by
    have e : (2 : ℝ) ^ 201 = 2 ^ 200 + 2 ^ 200 := by rw [pow_succ, mul_two]
    rw [e]
    exact (abs_sub _ _).trans (add_le_add ha hb)
  have hsub : ∀ a b : ℝ, Spec.IsDouble a → Spec.IsDouble b → |a| ≤ 2 ^ 200 → |b| ≤ 2 ^ 200 →
      ∃ z c, rnd (a - b) = .fin z ∧ |c| ≤ 1 / 2 ^ 53 ∧ z = (a - b) * (1 + c) := by
    intro a b da db ha hb
    obtain ⟨z, z1, -, z3⟩ := sub_spec h da db ((tri a b ha hb).trans_lt (two_pow_lt_top (by norm_num)))
    obtain ⟨c, c1, c2⟩ := factor_of_near (by positivity) (z3.trans_eq (div_eq_mul_one_div _ _))
    exact ⟨z, c, z1, c1, c2⟩
  obtain ⟨A, a, hA, ha, eA⟩ := hsub y2 y1 d4 d2 hy2 hy1
  obtain ⟨B, b, hB, hb, eB⟩ := hsub x2 x1 d3 d1 hx2 hx1
  obtain ⟨X, c, hX, hc, eX⟩ := hsub x x1 d5 d1 hx hx1
  have bA := tri y2 y1 hy2 hy1
  have bX := tri x x1 hx hx1
  have hline : Dbl.lineEquation rnd (.fin x1, .fin y1) (.fin x2, .fin y2) (.fin x) =
      Dbl.add rnd (Dbl.mul rnd (Dbl.div rnd (rnd (y2 - y1)) (rnd (x2 - x1))) (rnd (x - x1))) (.fin y1) := by
    unfold Dbl.lineEquation
    simp only [sub_fin_rnd]
  rw [hline]
  clear hline
  generalize y2 - y1 = dy at *
  generalize x2 - x1 = dx at *
  generalize x - x1 = w at *
  have hdx : 0 < |dx| := lt_of_lt_of_le (by positivity) hsep
  have hdx0 : dx ≠ 0 := abs_pos.1 hdx
  obtain ⟨a5, a6⟩ := abs_le.1 ha
  obtain ⟨b5, b6⟩ := abs_le.1 hb
  obtain ⟨c5, c6⟩ := abs_le.1 hc
  have hb0 : 0 < 1 + b := by norm_num at b5; linarith
  have hB0 : B ≠ 0 := by rw [eB]; exact mul_ne_zero hdx0 hb0.ne'
  -- the slope
  obtain ⟨f, hf, hfe⟩ : ∃ f, |f - 1| ≤ 2.001 / 2 ^ 53 ∧ A / B = dy / dx * f := by
    refine ⟨(1 + a) / (1 + b), ?_, by rw [eA, eB]; field_simp⟩
    have e : (1 + a) / (1 + b) - 1 = (a - b) / (1 + b) := by field_simp; ring
    rw [e, abs_div, abs_of_pos hb0, div_le_iff₀ hb0]
    refine (abs_sub _ _).trans ((add_le_add ha hb).trans ?_)
    norm_num at b5 ⊢
    linarith
  have hq0 : |dy / dx| ≤ 2 ^ 401 := by
    rw [abs_div, div_le_iff₀ hdx]
    calc |dy| ≤ 2 ^ 201 := bA
      _ = 2 ^ 401 * (1 / 2 ^ 200) := by rw [show 401 = 201 + 200 from rfl, pow_add]; field_simp
      _ ≤ 2 ^ 401 * |dx| := mul_le_mul_of_nonneg_left hsep (by positivity)
  have hf2 : |f| ≤ 2 := by
    obtain ⟨f1, f2⟩ := abs_le.1 hf
    rw [abs_le]
    constructor <;> norm_num at f1 f2 ⊢ <;> linarith
  have hAB : |A / B| ≤ 2 ^ 402 := by
    rw [hfe, abs_mul, pow_succ]
    exact mul_le_mul hq0 hf2 (abs_nonneg _) (by positivity)
  obtain ⟨q, hq, -, hqe⟩ := round_rel h (hAB.trans (two_pow_le (by norm_num)))
  have hXb : |X| ≤ 2 ^ 202 := by
    rw [eX, abs_mul, pow_succ]
    refine mul_le_mul bX ?_ (abs_nonneg _) (by positivity)
    rw [abs_le]
    constructor <;> norm_num at c5 c6 ⊢ <;> linarith
  have hτ1 : (2 : ℝ) ^ (-1075 : ℤ) ≤ 1 := zpow_le_one_of_nonpos₀ one_le_two (by norm_num)
  have hqb : |q| ≤ 2 ^ 403 := by
    have i1 := abs_near hqe
    have e : (2 : ℝ) ^ 403 = 2 ^ 402 * 2 := pow_succ _ _
    have i2 : (4 : ℝ) ≤ 2 ^ 402 := by
      calc (4 : ℝ) = 2 ^ 2 := by norm_num
        _ ≤ 2 ^ 402 := two_pow_le (by norm_num)
    have i3 : ∀ T : ℝ, |A / B| ≤ T → 4 ≤ T → |q| ≤ T * 2 := by
      intro T h1 h2
      have i4 : |A / B| / 2 ^ 53 ≤ |A / B| / 2 := div_le_div_of_nonneg_left (abs_nonneg _) (by norm_num) (by norm_num)
      linarith
    rw [e]
    exact i3 _ hAB i2
  have hqX : |q * X| ≤ 2 ^ 605 := by
    rw [abs_mul, show 605 = 403 + 202 from rfl, pow_add]
    exact mul_le_mul hqb hXb (abs_nonneg _) (by positivity)
  obtain ⟨P, hP, hPd, hPe⟩ := round_rel h (hqX.trans (two_pow_le (by norm_num)))
  -- the product
  generalize hT : dy / dx * w = T at *
  have e1 : A / B * X = T * (f * (1 + c)) := by rw [hfe, eX, ← hT]; ring
  have hfc : |f * (1 + c) - 1| ≤ 3.002 / 2 ^ 53 := by
    have e : f * (1 + c) - 1 = (f - 1) + f * c := by ring
    have i1 : |f| ≤ 1 + 2.001 / 2 ^ 53 := by
      have := abs_near hf
      rwa [abs_one] at this
    rw [e]
    have i2 : |f * c| ≤ (1 + 2.001 / 2 ^ 53) * (1 / 2 ^ 53) := by
      rw [abs_mul]
      exact mul_le_mul i1 hc (abs_nonneg _) (by positivity)
    exact (abs_add_le _ _).trans ((add_le_add hf i2).trans (by norm_num))
  have i1 : |A / B * X - T| ≤ 3.002 / 2 ^ 53 * |T| := by
    rw [e1, show T * (f * (1 + c)) - T = (f * (1 + c) - 1) * T by ring, abs_mul]
    exact mul_le_mul_of_nonneg_right hfc (abs_nonneg _)
  have hT0 := abs_nonneg T
  obtain ⟨τ, hτ⟩ : ∃ τ : ℝ, τ = 2 ^ (-870 : ℤ) := ⟨_, rfl⟩
  have hτ0 : 0 < τ := by rw [hτ]; positivity
  have hτX : (2 : ℝ) ^ (-1075 : ℤ) * |X| ≤ τ := by
    calc (2 : ℝ) ^ (-1075 : ℤ) * |X| ≤ 2 ^ (-1075 : ℤ) * 2 ^ 202 := mul_le_mul_of_nonneg_left hXb (by positivity)
      _ = 2 ^ (-873 : ℤ) := by rw [← zpow_natCast, ← zpow_add₀ two_ne_zero]; norm_num
      _ ≤ τ := by rw [hτ]; exact zpow_le_zpow_right₀ one_le_two (by norm_num)
  have hτ2 : (2 : ℝ) ^ (-1075 : ℤ) ≤ τ := by rw [hτ]; exact zpow_le_zpow_right₀ one_le_two (by norm_num)
  have hτ3 : 10 * τ ≤ 2 ^ (-860 : ℤ) := by
    rw [hτ, show (-860 : ℤ) = 10 + -870 by norm_num, zpow_add₀ two_ne_zero]
    exact mul_le_mul_of_nonneg_right (by norm_num) (by positivity)
  have i2 : |q * X - A / B * X| ≤ |A / B * X| / 2 ^ 53 + τ := by
    rw [← sub_mul, abs_mul]
    refine (mul_le_mul_of_nonneg_right hqe (abs_nonneg _)).trans ?_
    rw [add_mul, abs_mul, div_mul_eq_mul_div]
    linarith
  have i3 := abs_near i1
  have i4 : |q * X - T| ≤ 4.01 / 2 ^ 53 * |T| + τ := by
    have e : q * X - T = (q * X - A / B * X) + (A / B * X - T) := by ring
    rw [e]
    refine (abs_add_le _ _).trans ((add_le_add i2 i1).trans ?_)
    norm_num at i3 ⊢
    linarith
  have i5 := abs_near i4
  have hPe' : |P - q * X| ≤ |q * X| / 2 ^ 53 + τ := hPe.trans (add_le_add le_rfl hτ2)
  have i6 : |P - T| ≤ 5.02 / 2 ^ 53 * |T| + 3 * τ := by
    have e : P - T = (P - q * X) + (q * X - T) := by ring
    rw [e]
    refine (abs_add_le _ _).trans ((add_le_add hPe' i4).trans ?_)
    norm_num at i5 ⊢
    linarith only [i5, hT0, hτ0]
  have i7 := abs_near i6
  -- the sum
  have hTb : |P| ≤ 2 ^ 606 := by
    have j1 := abs_near hPe
    have e : (2 : ℝ) ^ 606 = 2 ^ 605 * 2 := pow_succ _ _
    have j2 : (4 : ℝ) ≤ 2 ^ 605 := by
      calc (4 : ℝ) = 2 ^ 2 := by norm_num
        _ ≤ 2 ^ 605 := two_pow_le (by norm_num)
    have j3 : ∀ Z : ℝ, |q * X| ≤ Z → 4 ≤ Z → |P| ≤ Z * 2 := by
      intro Z h1 h2
      have j4 : |q * X| / 2 ^ 53 ≤ |q * X| / 2 := div_le_div_of_nonneg_left (abs_nonneg _) (by norm_num) (by norm_num)
      linarith
    rw [e]
    exact j3 _ hqX j2
  have hPy : |P - -y1| < 2 ^ 1024 - 2 ^ 970 := by
    rw [sub_neg_eq_add]
    refine lt_of_le_of_lt (?_ : _ ≤ (2 : ℝ) ^ 607) (two_pow_lt_top (by norm_num))
    have e : (2 : ℝ) ^ 607 = 2 ^ 606 + 2 ^ 606 := by rw [pow_succ, mul_two]
    rw [e]
    exact (abs_add_le _ _).trans (add_le_add hTb (hy1.trans (two_pow_le (by norm_num))))
  obtain ⟨l, l1, -, l3⟩ := sub_spec h hPd (isDouble_neg d2) hPy
  rw [sub_neg_eq_add] at l1 l3
  refine ⟨l, ?_, ?_⟩
  · rw [hA, hB, hX, div_fin_rnd _ _ hB0, hq, mul_fin_rnd, hP, add_fin_rnd, l1]
  · have e : l - (T + y1) = (l - (P + y1)) + (P - T) := by ring
    rw [e]
    refine (abs_add_le _ _).trans ((add_le_add l3 i6).trans ?_)
    have j1 : |P + y1| ≤ |P| + |y1| := abs_add_le _ _
    have hy0 := abs_nonneg y1
    refine le_trans ?_ (add_le_add le_rfl hτ3)
    clear hτ hτX hτ2 hτ3
    norm_num at i7 ⊢
    linarith only [i7, j1, hy0, hT0, hτ0]

/-! ## Cases -/

/-- The double of 0.3 on the axis. -/
example : ∃ rnd, Spec.Rounding rnd ∧ ∀ L : Dbl.LibmA,
    (Dbl.cart2pol rnd L (.fin (5404319552844595 / 2 ^ 54)) (.fin 0)).1 = .fin (5404319552844595 / 2 ^ 54) := by
  obtain ⟨rnd, h⟩ := rounding_exists
  refine ⟨rnd, h, fun L => ?_⟩
  have hd : Spec.IsDouble (5404319552844595 / 2 ^ 54) :=
    ⟨5404319552844595, -54, by norm_num, by norm_num, by norm_num, by norm_num⟩
  have hlo : (2 : ℝ) ^ (-511 : ℤ) ≤ 1 / 4 :=
    (zpow_le_zpow_right₀ one_le_two (by norm_num : (-511 : ℤ) ≤ -2)).trans_eq (by norm_num)
  have hhi : (1 : ℝ) ≤ 2 ^ 511 := one_le_pow₀ one_le_two
  have e : |(5404319552844595 / 2 ^ 54 : ℝ)| = 5404319552844595 / 2 ^ 54 := abs_of_pos (by norm_num)
  have := (C151_axis h L hd (by rw [e]; exact hlo.trans (by norm_num)) (by rw [e]; exact le_trans (by norm_num) hhi)).1
  rwa [e] at this

/-- A point off the axes: (3, 4). -/
example : ∃ rnd L, Spec.Rounding rnd ∧ Spec.AccurateA L ∧
    ∃ r t, Dbl.cart2pol rnd L (.fin 3) (.fin 4) = (.fin r, .fin t) ∧ |r * Real.cos t - 3| ≤ 55 / 2 ^ 53 := by
  obtain ⟨rnd, h⟩ := rounding_exists
  have hL := bestLibmA_accurate h
  have hhi : (4 : ℝ) ≤ 2 ^ 511 :=
    le_trans (by norm_num : (4 : ℝ) ≤ 2 ^ 2) (two_pow_le (by norm_num))
  have d3 : Spec.IsDouble 3 := by simpa using isDouble_int (z := 3) (by norm_num)
  have d4 : Spec.IsDouble 4 := by simpa using isDouble_int (z := 4) (by norm_num)
  have a3 : |(3 : ℝ)| = 3 := abs_of_pos (by norm_num)
  have a4 : |(4 : ℝ)| = 4 := abs_of_pos (by norm_num)
  obtain ⟨r, t, e, hr, -⟩ := C151_roundtrip h hL d3 d4 (by rw [a3]; exact le_trans (by norm_num) hhi) (by rw [a4]; exact hhi)
    (.inl (by rw [a3]; exact (zpow_le_one_of_nonpos₀ one_le_two (by norm_num)).trans (by norm_num)))
  refine ⟨rnd, _, h, hL, r, t, e, hr.trans (le_of_eq ?_)⟩
  rw [show (3 : ℝ) ^ 2 + 4 ^ 2 = 5 ^ 2 by norm_num, Real.sqrt_sq (by norm_num)]
  norm_num

/-- A point away from the origin with radius zero. -/
example : ∃ rnd, Spec.Rounding rnd ∧ ∀ L : Dbl.LibmA,
    (Dbl.cart2pol rnd L (.fin (2 ^ (-600 : ℤ))) (.fin (-(2 ^ (-540 : ℤ))))).1 = .fin 0 := by
  obtain ⟨rnd, h⟩ := rounding_exists
  refine ⟨rnd, h, fun L => (C151_limits h L _ _).2 ?_ ?_⟩
  · rw [abs_of_pos (by positivity)]
    exact zpow_lt_zpow_right₀ one_lt_two (by norm_num)
  · rw [abs_neg, abs_of_pos (by positivity)]
    exact zpow_lt_zpow_right₀ one_lt_two (by norm_num)

/-- The line through (0, 1) and (3, 2) at 3: the second point is met within nine units of `2^-53` or so. -/
example : ∃ rnd, Spec.Rounding rnd ∧ ∃ l, Dbl.lineEquation rnd (.fin 0, .fin 1) (.fin 3, .fin 2) (.fin 3) = .fin l ∧
    |l - 2| ≤ 8 / 2 ^ 53 + 2 ^ (-860 : ℤ) := by
  obtain ⟨rnd, h⟩ := rounding_exists
  have d3 : Spec.IsDouble 3 := by simpa using isDouble_int (z := 3) (by norm_num)
  have d2 : Spec.IsDouble 2 := by simpa using isDouble_int (z := 2) (by norm_num)
  obtain ⟨l, hl, he⟩ := C151_line h (x1 := 0) (y1 := 1) (x2 := 3) (y2 := 2) (x := 3) isDouble_zero isDouble_one d3 d2 d3
    (by norm_num) (by norm_num) (by norm_num) (by norm_num) (by norm_num) (by norm_num)
  refine ⟨rnd, h, l, hl, ?_⟩
  have e : (2 - 1 : ℝ) / (3 - 0) * (3 - 0) = 1 := by norm_num
  rw [e, abs_one] at he
  have e2 : (1 : ℝ) + 1 = 2 := by norm_num
  have e3 : (7 * 1 + 1 : ℝ) / 2 ^ 53 = 8 / 2 ^ 53 := by norm_num
  rw [e2, e3] at he
  exact he

end Verif.Props
