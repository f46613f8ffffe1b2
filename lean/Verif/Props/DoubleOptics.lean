import Verif.Model.DoubleOptics
import Verif.Props.DoublePattern
import Verif.Lemmas.Fl

/-! # C126: the path difference, the blockage and the illuminations in the arithmetic of doubles -/

namespace Verif.Props

open Verif Verif.Np Verif.Aperture

/-! ## The path difference -/

/-- The function of the path difference forgives relative errors. -/
theorem cayley_rel {A B ε τ : ℝ} (hA : 0 ≤ A) (hB : 0 ≤ B) (hε : 0 ≤ ε) (hτ : 0 ≤ τ) (h : |A - B| ≤ ε * B + τ) :
    |(1 - A) / (1 + A) - (1 - B) / (1 + B)| ≤ 2 * ε + 2 * τ := by
  have h1 : 0 < 1 + A := by linarith
  have h2 : 0 < 1 + B := by linarith
  have e : (1 - A) / (1 + A) - (1 - B) / (1 + B) = 2 * (B - A) / ((1 + A) * (1 + B)) := by
    field_simp
    ring
  rw [e, abs_div, abs_of_pos (mul_pos h1 h2), abs_mul, abs_of_pos (by norm_num : (0 : ℝ) < 2), abs_sub_comm,
    div_le_iff₀ (mul_pos h1 h2)]
  have h3 : 1 + B ≤ (1 + A) * (1 + B) := by nlinarith
  have h4 : ε * B + τ ≤ (ε + τ) * (1 + B) := by nlinarith
  have h5 : (ε + τ) * (1 + B) ≤ (ε + τ) * ((1 + A) * (1 + B)) := mul_le_mul_of_nonneg_left h3 (by linarith)
  linarith

theorem cayley_abs {A : ℝ} (hA : 0 ≤ A) : |(1 - A) / (1 + A)| ≤ 1 := by
  have h1 : 0 < 1 + A := by linarith
  rw [abs_div, abs_of_pos h1, div_le_one h1, abs_le]
  constructor <;> linarith

theorem cayley_lip {a b : ℝ} (ha : 0 ≤ a) (hb : 0 ≤ b) :
    |(1 - a ^ 2) / (1 + a ^ 2) - (1 - b ^ 2) / (1 + b ^ 2)| ≤ 2 * |a - b| := by
  have h1 : 0 < 1 + a ^ 2 := by positivity
  have h2 : 0 < 1 + b ^ 2 := by positivity
  have e : (1 - a ^ 2) / (1 + a ^ 2) - (1 - b ^ 2) / (1 + b ^ 2) =
      (a - b) * (-(2 * (a + b)) / ((1 + a ^ 2) * (1 + b ^ 2))) := by
    field_simp
    ring
  rw [e, abs_mul, mul_comm]
  refine mul_le_mul_of_nonneg_right ?_ (abs_nonneg _)
  rw [abs_div, abs_of_pos (mul_pos h1 h2), abs_neg, abs_of_nonneg (by positivity), div_le_iff₀ (mul_pos h1 h2)]
  nlinarith [sq_nonneg (a - 1), sq_nonneg (b - 1), sq_nonneg (a * b)]

/-- The square of a number that is nearly `a`. -/
theorem cayley_near {a a' ε η : ℝ} (ha : 0 ≤ a) (hε : 0 ≤ ε) (hε' : ε ≤ 1 / 2 ^ 40) (hη : 0 ≤ η) (hη' : η ≤ 1 / 2 ^ 100)
    (h : |a' - a| ≤ ε * a + η) : |a' ^ 2 - a ^ 2| ≤ (3 * ε + 2 * η) * a ^ 2 + 3 * η := by
  have e : a' ^ 2 - a ^ 2 = (a' - a) * ((a' - a) + 2 * a) := by ring
  rw [e, abs_mul]
  have h1 : |(a' - a) + 2 * a| ≤ (ε * a + η) + 2 * a := by
    refine (abs_add_le _ _).trans ?_
    rw [abs_of_nonneg (by linarith : 0 ≤ 2 * a)]
    linarith
  have h2 : |a' - a| * |(a' - a) + 2 * a| ≤ (ε * a + η) * ((ε * a + η) + 2 * a) := by
    gcongr
  refine h2.trans ?_
  have h3 : ε * ε ≤ ε * (1 / 2 ^ 40) := mul_le_mul_of_nonneg_left hε' hε
  have h4 : η * η ≤ η * (1 / 2 ^ 100) := mul_le_mul_of_nonneg_left hη' hη
  have h5 : 2 * a ≤ 1 + a ^ 2 := by nlinarith [sq_nonneg (a - 1)]
  have h6 : ε * η ≤ 1 / 2 ^ 40 * η := mul_le_mul_of_nonneg_right hε' hη
  have h7 : 0 ≤ a ^ 2 := by positivity
  have e2 : (ε * a + η) * ((ε * a + η) + 2 * a) = (ε * ε) * a ^ 2 + 2 * ε * a ^ 2 + (ε * η) * (2 * a) + η * (2 * a) + η * η := by ring
  rw [e2]
  have i1 := mul_le_mul_of_nonneg_right h3 h7
  have i2 : (ε * η) * (2 * a) ≤ (1 / 2 ^ 40 * η) * (1 + a ^ 2) := mul_le_mul h6 h5 (by positivity) (by positivity)
  have i3 : η * (2 * a) ≤ η * (1 + a ^ 2) := mul_le_mul_of_nonneg_left h5 hη
  have i4 : 0 ≤ η * a ^ 2 := by positivity
  have i5 : 0 ≤ ε * a ^ 2 := by positivity
  norm_num at *
  nlinarith

/-- `sqrt(x ** 2 + y ** 2)` in doubles. -/
theorem radD_near {rnd : ℝ → Fl} (h : Spec.Rounding rnd) {x y B : ℝ} (hB : B ≤ 2 ^ 250) (hx : |x| ≤ B) (hy : |y| ≤ B) :
    ∃ r, Dbl.sqrt rnd (Dbl.sumSq rnd (.fin x) (.fin y)) = .fin r ∧ Spec.IsDouble r ∧ 0 ≤ r ∧
      |r - Real.sqrt (x ^ 2 + y ^ 2)| ≤ 5 * Real.sqrt (x ^ 2 + y ^ 2) / 2 ^ 53 + 2 ^ (-534 : ℤ) := by
  obtain ⟨s, hs, -, hs0, hse⟩ := sumSq_near h (hB.trans (two_pow_le (by norm_num))) hx hy
  set r := Real.sqrt (x ^ 2 + y ^ 2) with hr
  have hr0 : 0 ≤ r := Real.sqrt_nonneg _
  have hr2 : r ^ 2 = x ^ 2 + y ^ 2 := Real.sq_sqrt (by positivity)
  rw [← hr2] at hse
  have hκ : (2 : ℝ) ^ (-1075 : ℤ) ≤ (2 ^ (-537 : ℤ)) ^ 2 := by
    rw [← zpow_natCast, ← zpow_mul]
    exact zpow_le_zpow_right₀ one_le_two (by norm_num)
  have h1 := sqrt_near hr0 (by positivity : (0 : ℝ) ≤ 2 ^ (-537 : ℤ)) (hse.trans (by linarith))
  have hB0 : 0 ≤ B := (abs_nonneg x).trans hx
  have hrB : r ≤ 2 * B := by
    refine Real.sqrt_le_iff.2 ⟨by linarith, ?_⟩
    have := sq_le_sq' (by linarith [(abs_le.1 hx).1]) (abs_le.1 hx).2
    have := sq_le_sq' (by linarith [(abs_le.1 hy).1]) (abs_le.1 hy).2
    nlinarith
  have hτ0 : (2 : ℝ) ^ (-1075 : ℤ) ≤ 2 ^ (-537 : ℤ) := zpow_le_zpow_right₀ one_le_two (by norm_num)
  have hκ2 := tiny_le (k := -537) (by norm_num)
  have hbig : (2 : ℝ) ^ 900 = 2 ^ 650 * 2 ^ 250 := by rw [← pow_add]
  have hs1 : Real.sqrt s ≤ 2 ^ 900 := by
    have h2 := (abs_le.1 h1).2
    have h3 : Real.sqrt s ≤ 8 * 2 ^ 250 + 1 := by
      clear hbig hκ hτ0 h1
      generalize (2 : ℝ) ^ 250 = A at *
      generalize (2 : ℝ) ^ (-537 : ℤ) = κ at *
      norm_num at h2 hκ2 ⊢
      linarith
    refine h3.trans ?_
    rw [hbig]
    have h4 : (1 : ℝ) ≤ 2 ^ 250 := one_le_pow₀ one_le_two
    have h5 : (16 : ℝ) ≤ 2 ^ 650 := by
      calc (16 : ℝ) = 2 ^ 4 := by norm_num
        _ ≤ _ := two_pow_le (by norm_num)
    calc 8 * (2 : ℝ) ^ 250 + 1 ≤ 16 * 2 ^ 250 := by linarith
      _ ≤ _ := by gcongr
  obtain ⟨z, hz, hzd, hze⟩ := round_rel h (y := Real.sqrt s) (by rwa [abs_of_nonneg (Real.sqrt_nonneg s)])
  rw [abs_of_nonneg (Real.sqrt_nonneg s)] at hze
  refine ⟨z, ?_, hzd, ?_, ?_⟩
  · rw [hs, Dbl.sqrt]
    simp only [Fl.sqrt, if_neg (not_lt.2 hs0), Dbl.rop, hz]
  · exact round_mono h (Real.sqrt_nonneg s) (by rw [abs_zero]; exact lt_trans (by norm_num) (two_pow_lt_range (k := 1) (by norm_num)))
      (by rw [abs_of_nonneg (Real.sqrt_nonneg s)]; exact hs1.trans_lt (two_pow_lt_range (by norm_num))) (rnd_zero h) hz
  · have e : z - r = (z - Real.sqrt s) + (Real.sqrt s - r) := by ring
    rw [e]
    refine (abs_add_le _ _).trans ((add_le_add hze h1).trans ?_)
    have h2 := (abs_le.1 h1).2
    have e8 : (2 : ℝ) ^ (-534 : ℤ) = 8 * 2 ^ (-537 : ℤ) := by
      rw [show (-534 : ℤ) = 3 + -537 by norm_num, zpow_add₀ two_ne_zero]
      norm_num
    rw [e8]
    have hk0 : (0 : ℝ) < 2 ^ (-537 : ℤ) := by positivity
    clear hκ hbig hs1 hB e8
    generalize (2 : ℝ) ^ (-537 : ℤ) = κ at *
    generalize (2 : ℝ) ^ (-1075 : ℤ) = τ at *
    norm_num at h2 ⊢
    linarith

/-- `(1 - A) / (1 + A)` in doubles. -/
theorem quot_near {rnd : ℝ → Fl} (h : Spec.Rounding rnd) {r' F a' A G : ℝ} (hA0 : 0 ≤ A) (hAb : A ≤ 2 ^ 585)
    (hm : Dbl.mul rnd (.fin a') (.fin a') = .fin A) (hd1 : Dbl.div rnd (.fin r') (.fin (2 * F)) = .fin a')
    (h2F : Dbl.mul rnd (.fin 2) (.fin F) = .fin (2 * F))
    (hg : |(1 - A) / (1 + A) - G| ≤ 2 * (25 / 2 ^ 53) + 2 * 2 ^ (-400 : ℤ)) :
    ∃ z, Dbl.opdTerm rnd (.fin r') (.fin F) = .fin z ∧ Spec.IsDouble z ∧ |z - G| ≤ 56 / 2 ^ 53 := by
  have hb : 1 + A ≤ 2 ^ 900 := by
    have h2 : (1 : ℝ) ≤ 2 ^ 585 := one_le_pow₀ one_le_two
    calc 1 + A ≤ 2 * 2 ^ 585 := by rw [two_mul]; exact add_le_add h2 hAb
      _ = 2 ^ 586 := by rw [show (586 : ℕ) = 1 + 585 by norm_num, pow_add]; norm_num
      _ ≤ _ := two_pow_le (by norm_num)
  have hN : |1 - A| ≤ 1 + A := by
    rw [abs_le]
    constructor <;> linarith
  have hD0 : |1 + A| = 1 + A := abs_of_pos (by linarith)
  obtain ⟨n, hn, -, hne⟩ := round_rel h (hN.trans hb)
  obtain ⟨d, hd, -, hde⟩ := round_rel h (y := 1 + A) (by rwa [hD0])
  rw [hD0] at hde
  have hne' := hne.trans (add_le_add_left (div_le_div_of_nonneg_right hN (by positivity : (0 : ℝ) ≤ 2 ^ 53)) _)
  have hτ := tiny_le (k := -1075) (by norm_num)
  have hτ0 : (0 : ℝ) < 2 ^ (-1075 : ℤ) := by positivity
  have hτ4 := tiny_le (k := -400) (by norm_num)
  have hga := cayley_abs hA0
  clear hne hb hAb
  generalize (2 : ℝ) ^ (-1075 : ℤ) = τ at *
  generalize (2 : ℝ) ^ (-400 : ℤ) = τ' at *
  have hd9 : 9 / 10 * (1 + A) ≤ d := by
    have := (abs_le.1 hde).1
    norm_num at this hτ
    linarith
  have hdp : 0 < d := by linarith
  have hq : |n / d - (1 - A) / (1 + A)| ≤ 5 / 2 / 2 ^ 53 := by
    have h1 : 0 < 1 + A := by linarith
    have e : n / d - (1 - A) / (1 + A) = ((n - (1 - A)) - (1 - A) / (1 + A) * (d - (1 + A))) / d := by
      field_simp
      ring
    rw [e, abs_div, abs_of_pos hdp, div_le_iff₀ hdp]
    have h2 : |(n - (1 - A)) - (1 - A) / (1 + A) * (d - (1 + A))| ≤ ((1 + A) / 2 ^ 53 + τ) + 1 * ((1 + A) / 2 ^ 53 + τ) := by
      refine (abs_sub _ _).trans (add_le_add hne' ?_)
      rw [abs_mul]
      exact mul_le_mul hga hde (abs_nonneg _) zero_le_one
    refine h2.trans ?_
    norm_num at hτ ⊢
    linarith
  have hqb : |n / d| ≤ 2 := by
    have h1 : |n / d| ≤ |n / d - (1 - A) / (1 + A)| + |(1 - A) / (1 + A)| := by
      have := abs_add_le (n / d - (1 - A) / (1 + A)) ((1 - A) / (1 + A))
      rwa [sub_add_cancel] at this
    norm_num at hq
    linarith
  obtain ⟨z, hz, hzd, hze⟩ := round_step h (y := n / d) (A := 4 / 3) (by norm_num) (by norm_num) (by linarith)
  refine ⟨z, ?_, hzd, ?_⟩
  · simp only [Dbl.opdTerm, h2F, hd1, hm]
    rw [sub_fin_rnd, hn]
    have : Dbl.add rnd (.fin 1) (.fin A) = .fin d := by
      show Dbl.rop rnd (.fin (1 + A)) = _
      exact hd
    rw [this, Dbl.div, Fl.div_fin _ hdp.ne', Dbl.rop, hz]
  · have e : z - G = (z - n / d) + (n / d - (1 - A) / (1 + A)) + ((1 - A) / (1 + A) - G) := by ring
    rw [e]
    refine (abs_add_le _ _).trans ((add_le_add ((abs_add_le _ _).trans (add_le_add hze hq)) hg).trans ?_)
    norm_num at hτ4 ⊢
    linarith

/-- One of the two terms of the path difference, for a radius `r'` near `r`. -/
theorem opdTerm_near {rnd : ℝ → Fl} (h : Spec.Rounding rnd) {r r' F : ℝ} (hr0 : 0 ≤ r) (hr1 : r ≤ 2 ^ 200) (hr'0 : 0 ≤ r')
    (hr' : |r' - r| ≤ 5 * r / 2 ^ 53 + 2 ^ (-534 : ℤ)) (hF : Spec.IsDouble F) (hF1 : 1 / 2 ^ 90 ≤ F) (hF2 : F ≤ 2 ^ 90) :
    ∃ z, Dbl.opdTerm rnd (.fin r') (.fin F) = .fin z ∧ Spec.IsDouble z ∧
      |z - (1 - (r / (2 * F)) ^ 2) / (1 + (r / (2 * F)) ^ 2)| ≤ 56 / 2 ^ 53 := by
  have hF0 : 0 < F := lt_of_lt_of_le (by positivity) hF1
  have h2F : Dbl.mul rnd (.fin 2) (.fin F) = .fin (2 * F) := by
    show Dbl.rop rnd (.fin (2 * F)) = _
    exact round_self h (isDouble_two_mul hF (by
      rw [abs_of_pos hF0]
      exact hF2.trans (two_pow_le (by norm_num))))
  set a := r / (2 * F) with ha
  have ha0 : 0 ≤ a := by positivity
  have hFi : 1 / (2 * F) ≤ 2 ^ 89 := by
    rw [div_le_iff₀ (by positivity)]
    have : (2 : ℝ) ^ 89 * (2 * (1 / 2 ^ 90)) ≤ 2 ^ 89 * (2 * F) := by gcongr
    norm_num at this ⊢
    linarith
  have ha1 : a ≤ 2 ^ 289 := by
    rw [ha, div_eq_mul_one_div, show (2 : ℝ) ^ 289 = 2 ^ 200 * 2 ^ 89 by rw [← pow_add]]
    exact mul_le_mul hr1 hFi (by positivity) (by positivity)
  set a1 := r' / (2 * F) with ha1'
  have ha10 : 0 ≤ a1 := by positivity
  have hη : (2 : ℝ) ^ (-534 : ℤ) * 2 ^ 89 = 2 ^ (-445 : ℤ) := by
    rw [← zpow_natCast, ← zpow_add₀ two_ne_zero]
    norm_num
  have haa : |a1 - a| ≤ 5 * a / 2 ^ 53 + 2 ^ (-445 : ℤ) := by
    rw [ha1', ha, ← sub_div, div_eq_mul_one_div, abs_mul, abs_of_pos (by positivity : 0 < 1 / (2 * F)), ← hη]
    calc |r' - r| * (1 / (2 * F)) ≤ (5 * r / 2 ^ 53 + 2 ^ (-534 : ℤ)) * (1 / (2 * F)) := by gcongr
      _ = 5 * (r / (2 * F)) / 2 ^ 53 + 2 ^ (-534 : ℤ) * (1 / (2 * F)) := by ring
      _ ≤ _ := by gcongr
  have hτκ : (2 : ℝ) ^ (-1075 : ℤ) ≤ 2 ^ (-445 : ℤ) := zpow_le_zpow_right₀ one_le_two (by norm_num)
  have hκ2 := tiny_le (k := -445) (by norm_num)
  have hk0 : (0 : ℝ) < 2 ^ (-445 : ℤ) := by positivity
  have ha1b : a1 ≤ 2 ^ 291 := by
    have h1 := (abs_le.1 haa).2
    have h2 : (1 : ℝ) ≤ 2 ^ 289 := one_le_pow₀ one_le_two
    rw [show (2 : ℝ) ^ 291 = 4 * 2 ^ 289 by rw [show (291 : ℕ) = 2 + 289 by norm_num, pow_add]; norm_num]
    clear hη hr1
    generalize (2 : ℝ) ^ 289 = A at *
    generalize (2 : ℝ) ^ (-445 : ℤ) = κ at *
    norm_num at h1 hκ2
    linarith
  -- the quotient
  obtain ⟨a', hz, hzd, hze⟩ := round_rel h (y := a1) (by
    rw [abs_of_nonneg ha10]
    exact ha1b.trans (two_pow_le (by norm_num)))
  rw [abs_of_nonneg ha10] at hze
  have hd1 : Dbl.div rnd (.fin r') (.fin (2 * F)) = .fin a' := by
    rw [Dbl.div, Fl.div_fin _ (by positivity), Dbl.rop, hz]
  have ha'a : |a' - a| ≤ 7 / 2 ^ 53 * a + 3 * 2 ^ (-445 : ℤ) := by
    have e : a' - a = (a' - a1) + (a1 - a) := by ring
    rw [e]
    refine (abs_add_le _ _).trans ((add_le_add hze haa).trans ?_)
    have h1 := (abs_le.1 haa).2
    clear ha1b ha1 hη hr1
    generalize (2 : ℝ) ^ (-445 : ℤ) = κ at *
    generalize (2 : ℝ) ^ (-1075 : ℤ) = τ at *
    norm_num at h1 ⊢
    linarith
  have hsq := cayley_near ha0 (by norm_num : (0 : ℝ) ≤ 7 / 2 ^ 53) (by norm_num) (by positivity : (0 : ℝ) ≤ 3 * 2 ^ (-445 : ℤ))
    (by
      have := tiny_le (k := -443) (by norm_num)
      have e : (2 : ℝ) ^ (-443 : ℤ) = 4 * 2 ^ (-445 : ℤ) := by
        rw [show (-443 : ℤ) = 2 + -445 by norm_num, zpow_add₀ two_ne_zero]
        norm_num
      rw [e] at this
      linarith) ha'a
  -- the square
  have ha'b : |a'| ≤ 2 ^ 292 := by
    have h1 : |a'| ≤ |a' - a1| + |a1| := by
      have := abs_add_le (a' - a1) a1
      rwa [sub_add_cancel] at this
    rw [abs_of_nonneg ha10] at h1
    have h2 : (1 : ℝ) ≤ 2 ^ 291 := one_le_pow₀ one_le_two
    have hτ := tiny_le (k := -1075) (by norm_num)
    rw [show (2 : ℝ) ^ 292 = 2 * 2 ^ 291 by rw [show (292 : ℕ) = 1 + 291 by norm_num, pow_add]; norm_num]
    clear hη hr1 ha1 hsq
    generalize (2 : ℝ) ^ 291 = A at *
    generalize (2 : ℝ) ^ (-1075 : ℤ) = τ at *
    norm_num at hze hτ
    linarith
  have ha'2 : |a' * a'| ≤ 2 ^ 584 := by
    rw [abs_mul, show (2 : ℝ) ^ 584 = 2 ^ 292 * 2 ^ 292 by rw [← pow_add]]
    exact mul_le_mul ha'b ha'b (abs_nonneg _) (by positivity)
  obtain ⟨A, hA, -, hAe⟩ := round_rel h (ha'2.trans (two_pow_le (by norm_num)))
  rw [abs_mul_self] at hAe
  have hA0 : 0 ≤ A := round_mono h (mul_self_nonneg a') (by rw [abs_zero]; exact lt_trans (by norm_num) (two_pow_lt_range (k := 1) (by norm_num)))
    (ha'2.trans_lt (two_pow_lt_range (by norm_num))) (rnd_zero h) hA
  have hAb : A ≤ 2 ^ 585 := by
    have h1 := (abs_le.1 hAe).2
    rw [abs_mul_self] at ha'2
    have h2 : (1 : ℝ) ≤ 2 ^ 584 := one_le_pow₀ one_le_two
    have hτ := tiny_le (k := -1075) (by norm_num)
    rw [show (2 : ℝ) ^ 585 = 2 * 2 ^ 584 by rw [show (585 : ℕ) = 1 + 584 by norm_num, pow_add]; norm_num]
    clear hη hr1 ha1 hsq ha'b ha1b
    generalize (2 : ℝ) ^ 584 = A at *
    generalize (2 : ℝ) ^ (-1075 : ℤ) = τ at *
    norm_num at h1 hτ
    linarith
  have hm : Dbl.mul rnd (.fin a') (.fin a') = .fin A := by
    show Dbl.rop rnd (.fin (a' * a')) = _
    exact hA
  have hAB : |A - a ^ 2| ≤ 25 / 2 ^ 53 * a ^ 2 + 2 ^ (-400 : ℤ) := by
    have e : A - a ^ 2 = (A - a' * a') + (a' ^ 2 - a ^ 2) := by ring
    rw [e]
    refine (abs_add_le _ _).trans ((add_le_add hAe hsq).trans ?_)
    have h1 := (abs_le.1 hsq).2
    have e2 : (2 : ℝ) ^ (-400 : ℤ) = 2 ^ 45 * 2 ^ (-445 : ℤ) := by
      rw [← zpow_natCast, ← zpow_add₀ two_ne_zero]
      norm_num
    rw [e2]
    have h7 : 0 ≤ a ^ 2 := by positivity
    rw [← sq]
    clear hη hr1 ha1 hsq ha'b ha1b e2 hAb ha'2 ha'a haa
    generalize (2 : ℝ) ^ (-445 : ℤ) = κ at *
    generalize (2 : ℝ) ^ (-1075 : ℤ) = τ at *
    have h8 : κ * a ^ 2 ≤ 1 / 2 ^ 100 * a ^ 2 := mul_le_mul_of_nonneg_right hκ2 h7
    norm_num at h1 h8 hκ2 ⊢
    nlinarith
  have hg := cayley_rel hA0 (sq_nonneg a) (by norm_num : (0 : ℝ) ≤ 25 / 2 ^ 53) (by positivity) hAB
  exact quot_near h hA0 hAb hm hd1 h2F hg

/-- The radius changes by at most the sum of the changes of the coordinates. -/
theorem rad_lip (x y g k : ℝ) : |Real.sqrt (g ^ 2 + k ^ 2) - Real.sqrt (x ^ 2 + y ^ 2)| ≤ |g - x| + |k - y| := by
  have e : ∀ a b : ℝ, Real.sqrt (a ^ 2 + b ^ 2) = ‖(⟨a, b⟩ : ℂ)‖ := by
    intro a b
    rw [Complex.norm_eq_sqrt_sq_add_sq]
  rw [e, e]
  refine (abs_norm_sub_norm_le _ _).trans ?_
  refine (Complex.norm_le_abs_re_add_abs_im _).trans ?_
  simp

/-- The error of the path difference, per unit of the radial offset. -/
noncomputable def Spec.opdError (pr Fp F : ℝ) : ℝ := (128 + 896 * (pr / Fp + pr / F)) / 2 ^ 53

theorem opdAt_near {rnd : ℝ → Fl} (h : Spec.Rounding rnd) {p Fp F x y g k dz : ℝ} (h1 : 1 / 2 ^ 90 ≤ p) (h2 : p ≤ 2 ^ 90)
    (hg : |g - x| ≤ 448 * p / 2 ^ 53) (hk : |k - y| ≤ 448 * p / 2 ^ 53) (hgb : |g| ≤ 100 * p) (hkb : |k| ≤ 100 * p)
    (hFp : Spec.IsDouble Fp) (hFp1 : 1 / 2 ^ 90 ≤ Fp) (hFp2 : Fp ≤ 2 ^ 90)
    (hF : Spec.IsDouble F) (hF1 : 1 / 2 ^ 90 ≤ F) (hF2 : F ≤ 2 ^ 90) (hdz : |dz| ≤ 2 ^ 200) :
    ∃ d, Dbl.opdAt rnd (.fin Fp) (.fin F) (.fin g) (.fin k) (.fin dz) = .fin d ∧ Spec.IsDouble d ∧ |d| ≤ 2 ^ 300 ∧
      |d - Telgeometry.opdAt Fp F x y dz| ≤ |dz| * Spec.opdError p Fp F + 2 ^ (-1074 : ℤ) := by
  have hp0 : 0 < p := lt_of_lt_of_le (by positivity) h1
  have hFp0 : 0 < Fp := lt_of_lt_of_le (by positivity) hFp1
  have hF0 : 0 < F := lt_of_lt_of_le (by positivity) hF1
  have hB : 100 * p ≤ 2 ^ 250 := by
    refine (mul_le_mul_of_nonneg_left h2 (by norm_num)).trans ?_
    norm_num
  obtain ⟨r', hr', -, hr'0, hre⟩ := radD_near h hB hgb hkb
  set r := Real.sqrt (g ^ 2 + k ^ 2) with hr
  have hr0 : 0 ≤ r := Real.sqrt_nonneg _
  have hr200 : r ≤ 2 ^ 200 := by
    have h3 := rad_lip 0 0 g k
    rw [← hr, sub_zero, sub_zero] at h3
    simp only [ne_eq, OfNat.ofNat_ne_zero, not_false_eq_true, zero_pow, add_zero, Real.sqrt_zero, sub_zero] at h3
    rw [abs_of_nonneg hr0] at h3
    norm_num at h2 ⊢
    linarith
  obtain ⟨t1, ht1, -, ht1e⟩ := opdTerm_near h hr0 hr200 hr'0 hre hFp hFp1 hFp2
  obtain ⟨t2, ht2, -, ht2e⟩ := opdTerm_near h hr0 hr200 hr'0 hre hF hF1 hF2
  have ha1 := cayley_abs (sq_nonneg (r / (2 * Fp)))
  have ha2 := cayley_abs (sq_nonneg (r / (2 * F)))
  set R := Real.sqrt (x ^ 2 + y ^ 2) with hR
  have hR0 : 0 ≤ R := Real.sqrt_nonneg _
  have hrR : |r - R| ≤ 896 * p / 2 ^ 53 := (rad_lip x y g k).trans ((add_le_add hg hk).trans (by norm_num; linarith))
  have hmove : ∀ f : ℝ, 0 < f → |(1 - (r / (2 * f)) ^ 2) / (1 + (r / (2 * f)) ^ 2) - (1 - (R / (2 * f)) ^ 2) / (1 + (R / (2 * f)) ^ 2)| ≤
      896 * (p / f) / 2 ^ 53 := by
    intro f hf
    refine (cayley_lip (by positivity) (by positivity)).trans ?_
    rw [← sub_div, abs_div, abs_of_pos (by positivity : 0 < 2 * f)]
    calc 2 * (|r - R| / (2 * f)) = |r - R| / f := by
          field_simp
      _ ≤ 896 * p / 2 ^ 53 / f := by gcongr
      _ = _ := by ring
  have hm1 := hmove Fp hFp0
  have hm2 := hmove F hF0
  have hopd : Telgeometry.opdAt Fp F x y dz = dz * ((1 - (R / (2 * Fp)) ^ 2) / (1 + (R / (2 * Fp)) ^ 2) +
      (1 - (R / (2 * F)) ^ 2) / (1 + (R / (2 * F)) ^ 2)) := rfl
  have hpF : 0 < p / Fp := by positivity
  have hpF2 : 0 < p / F := by positivity
  rw [hopd]
  unfold Spec.opdError
  clear hre hmove hopd hgb hkb hg hk hrR h2 hFp2 hF2 hB hr200
  generalize (1 - (r / (2 * Fp)) ^ 2) / (1 + (r / (2 * Fp)) ^ 2) = c1 at *
  generalize (1 - (r / (2 * F)) ^ 2) / (1 + (r / (2 * F)) ^ 2) = c2 at *
  generalize (1 - (R / (2 * Fp)) ^ 2) / (1 + (R / (2 * Fp)) ^ 2) = C1 at *
  generalize (1 - (R / (2 * F)) ^ 2) / (1 + (R / (2 * F)) ^ 2) = C2 at *
  have hs2 : |t1 + t2| ≤ 21 / 10 := by
    have e : t1 + t2 = (t1 - c1) + (t2 - c2) + (c1 + c2) := by ring
    rw [e]
    refine (abs_add_le _ _).trans ((add_le_add ((abs_add_le _ _).trans (add_le_add ht1e ht2e))
      ((abs_add_le _ _).trans (add_le_add ha1 ha2))).trans ?_)
    norm_num
  obtain ⟨s, hs, -, hse⟩ := round_step h (y := t1 + t2) (A := 3 / 2) (by norm_num) (by norm_num) (by linarith)
  have hsb : |s| ≤ 3 := by
    have h3 : |s| ≤ |s - (t1 + t2)| + |t1 + t2| := by
      have := abs_add_le (s - (t1 + t2)) (t1 + t2)
      rwa [sub_add_cancel] at this
    norm_num at hse
    linarith
  have hds : |dz * s| ≤ 3 * |dz| := by
    rw [abs_mul, mul_comm]
    exact mul_le_mul_of_nonneg_right hsb (abs_nonneg dz)
  have hds9 : |dz * s| ≤ 2 ^ 202 := by
    rw [show (2 : ℝ) ^ 202 = 4 * 2 ^ 200 by rw [show (202 : ℕ) = 2 + 200 by norm_num, pow_add]; norm_num]
    have := abs_nonneg dz
    generalize (2 : ℝ) ^ 200 = A at *
    linarith
  obtain ⟨d, hd, hdd, hde⟩ := round_rel h (hds9.trans (two_pow_le (by norm_num)))
  refine ⟨d, ?_, hdd, ?_, ?_⟩
  · simp only [Dbl.opdAt, hr', ht1, ht2]
    have h3 : Dbl.add rnd (.fin t1) (.fin t2) = .fin s := by
      show Dbl.rop rnd (.fin (t1 + t2)) = _
      exact hs
    rw [h3]
    show Dbl.rop rnd (.fin (dz * s)) = _
    exact hd
  · have := bounded_round h (by norm_num : 202 ≤ 900) hds9
    rw [hd] at this
    obtain ⟨z, hz, -, hzb⟩ := this
    cases hz
    exact hzb.trans (two_pow_le (by norm_num))
  · have e : d - dz * (C1 + C2) = (d - dz * s) + dz * (s - (C1 + C2)) := by ring
    have hsC : |s - (C1 + C2)| ≤ (120 + 896 * (p / Fp + p / F)) / 2 ^ 53 := by
      have e2 : s - (C1 + C2) = (s - (t1 + t2)) + ((t1 - c1) + (t2 - c2)) + ((c1 - C1) + (c2 - C2)) := by ring
      rw [e2]
      refine (abs_add_le _ _).trans ((add_le_add ((abs_add_le _ _).trans (add_le_add hse ((abs_add_le _ _).trans
        (add_le_add ht1e ht2e)))) ((abs_add_le _ _).trans (add_le_add hm1 hm2))).trans ?_)
      norm_num
      linarith
    rw [e]
    refine (abs_add_le _ _).trans ?_
    rw [abs_mul dz]
    have h4 := mul_le_mul_of_nonneg_left hsC (abs_nonneg dz)
    have hτ : (2 : ℝ) ^ (-1075 : ℤ) ≤ 2 ^ (-1074 : ℤ) := zpow_le_zpow_right₀ one_le_two (by norm_num)
    have h5 : |d - dz * s| ≤ 3 * |dz| / 2 ^ 53 + 2 ^ (-1074 : ℤ) := by
      refine hde.trans (add_le_add ?_ hτ)
      gcongr
    refine (add_le_add h5 h4).trans ?_
    have e3 : |dz| * ((128 + 896 * (p / Fp + p / F)) / 2 ^ 53) = |dz| * ((120 + 896 * (p / Fp + p / F)) / 2 ^ 53) + 8 * |dz| / 2 ^ 53 := by
      ring
    rw [e3]
    have h6 : 3 * |dz| / 2 ^ 53 ≤ 8 * |dz| / 2 ^ 53 := by
      have := abs_nonneg dz
      gcongr
      norm_num
    linarith

/-! ## The blockage -/

/-- A pixel that is not within rounding of the rim of the dish, the rim of the sub-reflector, or the edges of the legs. -/
def Spec.ClearOfEdges (pr sr a L x y : ℝ) : Prop :=
  (x ^ 2 + y ^ 2 ≤ pr ^ 2 * (1 - 1 / 2 ^ 40) ∨ pr ^ 2 * (1 + 1 / 2 ^ 40) ≤ x ^ 2 + y ^ 2) ∧
  (x ^ 2 + y ^ 2 + pr ^ 2 / 2 ^ 40 ≤ sr ^ 2 ∨ sr ^ 2 + pr ^ 2 / 2 ^ 40 ≤ x ^ 2 + y ^ 2) ∧
  (a = 0 ∨ ((pr / 2 ^ 43 ≤ |(|x| - (sr + L))| ∧ pr / 2 ^ 43 ≤ |(|x| - a)|) ∧
    (pr / 2 ^ 43 ≤ |(|y| - (sr + L))| ∧ pr / 2 ^ 43 ≤ |(|y| - a)|)))

/-- The squared radius of a rounded node. -/
theorem radSq_near {p x y g k s : ℝ} (hp : 0 < p) (h1 : 1 / 2 ^ 100 ≤ p) (hg : |g - x| ≤ 448 * p / 2 ^ 53)
    (hk : |k - y| ≤ 448 * p / 2 ^ 53) (hs : |s - (g ^ 2 + k ^ 2)| ≤ 3 * (g ^ 2 + k ^ 2) / 2 ^ 53 + 4 * 2 ^ (-1075 : ℤ)) :
    |s - (x ^ 2 + y ^ 2)| ≤ 1000 * (x ^ 2 + y ^ 2 + p ^ 2) / 2 ^ 53 := by
  have hτ := tiny_sq h1
  have hsq : ∀ u z : ℝ, |z - u| ≤ 448 * p / 2 ^ 53 → |z ^ 2 - u ^ 2| ≤ 449 * (u ^ 2 + p ^ 2) / 2 ^ 53 := by
    intro u z hz
    have e : z ^ 2 - u ^ 2 = (z - u) * ((z - u) + 2 * u) := by ring
    rw [e, abs_mul]
    have i1 : |(z - u) + 2 * u| ≤ 448 * p / 2 ^ 53 + 2 * |u| := by
      refine (abs_add_le _ _).trans (add_le_add hz ?_)
      rw [abs_mul, abs_of_pos (by norm_num : (0 : ℝ) < 2)]
    have i2 := mul_le_mul hz i1 (abs_nonneg _) (by positivity)
    refine i2.trans ?_
    have i3 : 2 * (|u| * p) ≤ u ^ 2 + p ^ 2 := by
      rw [← sq_abs u]
      nlinarith [sq_nonneg (|u| - p)]
    have e2 : 448 * p / 2 ^ 53 * (448 * p / 2 ^ 53 + 2 * |u|) = (448 / 2 ^ 53) ^ 2 * p ^ 2 + 448 / 2 ^ 53 * (2 * (|u| * p)) := by ring
    rw [e2]
    have := sq_nonneg u
    have := sq_nonneg p
    norm_num at i3 ⊢
    linarith
  have hx := hsq x g hg
  have hy := hsq y k hk
  have e : s - (x ^ 2 + y ^ 2) = (s - (g ^ 2 + k ^ 2)) + ((g ^ 2 - x ^ 2) + (k ^ 2 - y ^ 2)) := by ring
  rw [e]
  refine (abs_add_le _ _).trans ((add_le_add hs ((abs_add_le _ _).trans (add_le_add hx hy))).trans ?_)
  have hx' := (abs_le.1 hx).2
  have hy' := (abs_le.1 hy).2
  have e3 : (p / 2 ^ 100) ^ 2 = p ^ 2 / 2 ^ 200 := by ring
  rw [e3] at hτ
  have := sq_nonneg x
  have := sq_nonneg y
  have := sq_nonneg p
  generalize (2 : ℝ) ^ (-1075 : ℤ) = τ at *
  norm_num at hx' hy' hτ ⊢
  linarith

/-- A comparison that rounding does not change. -/
theorem lt_stable {t g w w' p : ℝ} (hg : |g - t| ≤ 448 * p / 2 ^ 53) (hw : |w' - w| ≤ 4 * p / 2 ^ 53) (hp : 0 < p)
    (hm : p / 2 ^ 43 ≤ |(|t| - w)|) : (-w' < g ∧ g < w') ↔ (-w < t ∧ t < w) := by
  rw [← abs_lt, ← abs_lt]
  have h1 := (abs_le.1 ((abs_abs_sub_abs_le_abs_sub g t).trans hg))
  have h2 := abs_le.1 hw
  norm_num at h1 h2 hm
  rcases le_abs.1 hm with h3 | h3
  · constructor <;> intro h4 <;> linarith
  · constructor <;> intro h4 <;> linarith

theorem blockD_same {rnd : ℝ → Fl} (h : Spec.Rounding rnd) {ι : Type} {p sr a L : ℝ} (h1 : 1 / 2 ^ 90 ≤ p) (h2 : p ≤ 2 ^ 90)
    (hsr0 : 0 ≤ sr) (hsr : sr ≤ p) (hL0 : 0 ≤ L) (hL : L ≤ p) (x y g k : ι → ℝ)
    (hg : ∀ q, |g q - x q| ≤ 448 * p / 2 ^ 53 ∧ |k q - y q| ≤ 448 * p / 2 ^ 53)
    (hgb : ∀ q, |g q| ≤ 100 * p ∧ |k q| ≤ 100 * p) (hc : ∀ q, Spec.ClearOfEdges p sr a L (x q) (y q)) :
    ∃ B, Telgeometry.blockManual p sr a L x y = .ok B ∧
      Dbl.blockManual rnd (.fin p) (.fin sr) (.fin a) (.fin L) (fun q => .fin (g q)) (fun q => .fin (k q)) =
        .ok (fun q => .fin (B q)) ∧
      ∀ q, B q = 0 ∨ (B q = 1 ∧ x q ^ 2 + y q ^ 2 ≤ p ^ 2 * (1 - 1 / 2 ^ 40)) := by
  have hp0 : 0 < p := lt_of_lt_of_le (by positivity) h1
  have h1' : 1 / 2 ^ 100 ≤ p := le_trans (by norm_num) h1
  have h2' : p ≤ 2 ^ 100 := h2.trans (two_pow_le (by norm_num))
  have hB : 100 * p ≤ 2 ^ 300 := by
    refine (mul_le_mul_of_nonneg_left h2 (by norm_num)).trans ?_
    refine le_trans ?_ (two_pow_le (show 100 ≤ 300 by norm_num))
    norm_num
  obtain ⟨P, hP, -, hPe⟩ := rimSq_near h h1' h2'
  have hτ := tiny_sq h1'
  have hτ1 := tiny_rel h1'
  obtain ⟨S, hS, -, hSe⟩ := round_rel h (y := sr * sr) (by
    rw [abs_of_nonneg (mul_nonneg hsr0 hsr0)]
    have i1 : sr * sr ≤ 2 ^ 90 * 2 ^ 90 := mul_le_mul (hsr.trans h2) (hsr.trans h2) hsr0 (by positivity)
    rw [← pow_add] at i1
    exact i1.trans (two_pow_le (by norm_num)))
  rw [abs_of_nonneg (mul_nonneg hsr0 hsr0), ← sq] at hSe
  have hS' : Dbl.mul rnd (.fin sr) (.fin sr) = .fin S := by
    show Dbl.rop rnd (.fin (sr * sr)) = _
    exact hS
  obtain ⟨w, hw, -, hwe⟩ := round_rel h (y := sr + L) (by
    rw [abs_of_nonneg (add_nonneg hsr0 hL0)]
    calc sr + L ≤ 2 * 2 ^ 90 := by linarith
      _ = 2 ^ 91 := by norm_num
      _ ≤ _ := two_pow_le (by norm_num))
  rw [abs_of_nonneg (add_nonneg hsr0 hL0)] at hwe
  have hw' : Dbl.add rnd (.fin sr) (.fin L) = .fin w := by
    show Dbl.rop rnd (.fin (sr + L)) = _
    exact hw
  have hwe' : |w - (sr + L)| ≤ 4 * p / 2 ^ 53 := by
    refine hwe.trans ?_
    generalize (2 : ℝ) ^ (-1075 : ℤ) = τ at *
    norm_num at hτ1 ⊢
    linarith
  have hrad : ∀ q, ∃ s, Dbl.sumSq rnd (.fin (g q)) (.fin (k q)) = .fin s ∧ ((s < P ∧ S < s) ↔
      (x q ^ 2 + y q ^ 2 < p ^ 2 ∧ x q ^ 2 + y q ^ 2 > sr ^ 2)) := by
    intro q
    obtain ⟨s, hs, -, -, hse⟩ := sumSq_near h hB (hgb q).1 (hgb q).2
    refine ⟨s, hs, ?_⟩
    have hse2 := abs_le.1 (radSq_near hp0 h1' (hg q).1 (hg q).2 hse)
    have hsr2 : sr ^ 2 ≤ p ^ 2 := pow_le_pow_left₀ hsr0 hsr 2
    have hP2 := abs_le.1 hPe
    have hS2 := abs_le.1 hSe
    have e3 : (p / 2 ^ 100) ^ 2 = p ^ 2 / 2 ^ 200 := by ring
    rw [e3] at hτ
    have h0 : 0 < p ^ 2 := by positivity
    have h00 : 0 ≤ sr ^ 2 := by positivity
    obtain ⟨c1, c2, -⟩ := hc q
    generalize x q ^ 2 + y q ^ 2 = R at *
    generalize p ^ 2 = p2 at *
    generalize sr ^ 2 = s2 at *
    generalize (2 : ℝ) ^ (-1075 : ℤ) = τ at *
    clear hg hgb hc hse hPe hSe hwe hwe'
    norm_num at hse2 hP2 hS2 hτ c1 c2
    refine and_congr ?_ ?_
    · rcases c1 with c | c <;> constructor <;> intro i <;> linarith
    · rcases c2 with c | c <;> constructor <;> intro i <;> linarith
  choose s hs hs' using hrad
  have hleg : ∀ q, ((-w < g q ∧ g q < w ∧ -a < k q ∧ k q < a) ↔
      (-(sr + L) < x q ∧ x q < sr + L ∧ -a < y q ∧ y q < a)) ∧
      ((-w < k q ∧ k q < w ∧ -a < g q ∧ g q < a) ↔ (-(sr + L) < y q ∧ y q < sr + L ∧ -a < x q ∧ x q < a)) := by
    intro q
    rcases (hc q).2.2 with ha | ⟨⟨c1, c2⟩, c3, c4⟩
    · subst ha
      constructor <;> constructor <;> rintro ⟨-, -, i, j⟩ <;> linarith
    · have z : |a - a| ≤ 4 * p / 2 ^ 53 := by rw [sub_self, abs_zero]; positivity
      have i1 := lt_stable (hg q).1 hwe' hp0 c1
      have i2 := lt_stable (hg q).1 z hp0 c2
      have i3 := lt_stable (hg q).2 hwe' hp0 c3
      have i4 := lt_stable (hg q).2 z hp0 c4
      constructor
      · rw [← and_assoc, i1, i4, and_assoc]
      · rw [← and_assoc, i3, i2, and_assoc]
  refine ⟨_, rfl, ?_, fun q => ?_⟩
  · simp only [Dbl.blockManual, hP, hS', hw', hs, Fl.lt, Fl.neg, hs', (hleg _).1, (hleg _).2]
  · simp only [Telgeometry.setWhere]
    split_ifs with i1 i2 i3
    · exact Or.inl rfl
    · exact Or.inl rfl
    · right
      refine ⟨rfl, ?_⟩
      rcases (hc q).1 with c | c
      · exact c
      · have : 0 < p ^ 2 := by positivity
        norm_num at c
        linarith [i3.1]
    · exact Or.inl rfl

end Verif.Props
