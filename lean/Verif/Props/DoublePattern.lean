import Verif.Props.DoubleField
import Verif.Lemmas.Radiation
import Mathlib.Analysis.InnerProductSpace.PiL2

/-! # C124, continued: the radiation pattern and the power pattern in the arithmetic of doubles -/

namespace Verif.Props

open Verif Verif.Zernike Verif.Np Verif.Aperture Finset

/-! ## The grid of the box -/

theorem linspace_scale (p : ℝ) (N : ℕ) (i : Fin N) : Np.linspace (-p) p N i = p * Np.linspace (-1) 1 N i := by
  unfold Np.linspace
  ring

/-- A rounding in the normal range. -/
theorem round_normal {rnd : ℝ → Fl} (h : Spec.Rounding rnd) {y : ℝ} (hy : |y| ≤ 2 ^ 900) (hy' : y = 0 ∨ 1 / 2 ^ 500 ≤ |y|) :
    ∃ z, rnd y = .fin z ∧ Spec.IsDouble z ∧ |z - y| ≤ |y| / 2 ^ 52 := by
  rcases hy' with rfl | hy'
  · exact ⟨0, rnd_zero h, isDouble_zero, by simp⟩
  obtain ⟨z, h1, h2, h3⟩ := round_rel h hy
  refine ⟨z, h1, h2, h3.trans ?_⟩
  have a1 : (2 : ℝ) ^ (-1075 : ℤ) ≤ 2 ^ (-600 : ℤ) := zpow_le_zpow_right₀ one_le_two (by norm_num)
  have a2 : (2 : ℝ) ^ (-600 : ℤ) = 1 / 2 ^ 500 / 2 ^ 100 := by
    rw [show (-600 : ℤ) = -((600 : ℕ) : ℤ) from rfl, zpow_neg, zpow_natCast, div_div, ← pow_add, one_div]
  have a3 : (2 : ℝ) ^ (-1075 : ℤ) ≤ |y| / 2 ^ 100 := (a1.trans_eq a2).trans (by gcongr)
  have := abs_nonneg y
  clear a1 a2 h3 hy hy' h1
  generalize (2 : ℝ) ^ (-1075 : ℤ) = τ at *
  norm_num at a3 ⊢
  linarith

theorem box_near {rnd : ℝ → Fl} (h : Spec.Rounding rnd) {p b : ℝ} (h1 : 1 / 2 ^ 90 ≤ p) (h2 : p ≤ 2 ^ 90) (hb1 : 1 ≤ b)
    (hb2 : b ≤ 50) :
    ∃ c, Dbl.mul rnd (.fin p) (.fin b) = .fin c ∧ Spec.IsDouble c ∧ |c - p * b| ≤ p * b / 2 ^ 52 ∧ 1 / 2 ^ 100 ≤ c ∧
      c ≤ 2 ^ 100 := by
  have hp0 : 0 < p := lt_of_lt_of_le (by positivity) h1
  have hpb : p ≤ p * b := by nlinarith
  have hpb2 : p * b ≤ 50 * p := by nlinarith
  have habs : |p * b| = p * b := abs_of_nonneg (by positivity)
  obtain ⟨c, hc, hcd, hce⟩ := round_normal h (y := p * b) (by
    rw [habs]
    refine le_trans ?_ (two_pow_le (show 96 ≤ 900 by norm_num))
    rw [show 96 = 6 + 90 from rfl, pow_add]
    norm_num at h2 ⊢
    linarith) (Or.inr (by
    rw [habs]
    refine le_trans ?_ (h1.trans hpb)
    exact one_div_le_one_div_of_le (by positivity) (two_pow_le (by norm_num))))
  rw [habs] at hce
  have h3 := abs_le.1 hce
  refine ⟨c, hc, hcd, hce, ?_, ?_⟩
  · have : (1 : ℝ) / 2 ^ 100 = 1 / 2 ^ 90 / 1024 := by norm_num
    rw [this]
    clear hc habs h2 hce
    generalize (1 : ℝ) / 2 ^ 90 = A at *
    norm_num at h3
    linarith
  · rw [show (2 : ℝ) ^ 100 = 1024 * 2 ^ 90 by norm_num]
    clear hc habs h1 hce
    generalize (2 : ℝ) ^ 90 = A at *
    norm_num at h3
    linarith

/-- The nodes of the box. -/
theorem boxGrid_near {rnd : ℝ → Fl} (h : Spec.Rounding rnd) {p b c : ℝ} (hp0 : 0 < p) (hb1 : 1 ≤ b)
    (hb2 : b ≤ 50) (hcd : Spec.IsDouble c) (hce : |c - p * b| ≤ p * b / 2 ^ 52) (hc1 : 1 / 2 ^ 100 ≤ c) (hc2 : c ≤ 2 ^ 100)
    {N : ℕ} (hN : 2 ≤ N) (hN' : N ≤ 2 ^ 30) (i : Fin N) :
    ∃ t, Dbl.linspace rnd (.fin (-c)) (.fin c) N i = .fin t ∧ Spec.IsDouble t ∧
      |t - Np.linspace (-c) c N i| ≤ 6 * c / 2 ^ 53 ∧ ((i : ℕ) = 0 → t = -c) ∧
      |t - Np.linspace (-(p * b)) (p * b) N i| ≤ 448 * p / 2 ^ 53 ∧
      |Np.linspace (-(p * b)) (p * b) N i| ≤ 64 * p := by
  obtain ⟨t, ht, htd, hte, ht0⟩ := linspaceD_near h hcd hc1 hc2 hN hN' i
  have h1 := linspace_abs (p := 1) one_pos hN i
  have hpb : 0 < p * b := by positivity
  refine ⟨t, ht, htd, hte, ht0, ?_, ?_⟩
  · have e : t - Np.linspace (-(p * b)) (p * b) N i = (t - Np.linspace (-c) c N i) + (c - p * b) * Np.linspace (-1) 1 N i := by
      rw [linspace_scale c, linspace_scale (p * b)]
      ring
    have h3 : |(c - p * b) * Np.linspace (-1) 1 N i| ≤ p * b / 2 ^ 52 := by
      rw [abs_mul]
      exact (mul_le_of_le_one_right (abs_nonneg _) h1).trans hce
    have h4 := (abs_le.1 hce).2
    have h5 : p * b ≤ 50 * p := by nlinarith
    rw [e]
    refine (abs_add_le _ _).trans ((add_le_add hte h3).trans ?_)
    norm_num at h4 ⊢
    linarith
  · rw [linspace_scale, abs_mul, abs_of_pos hpb]
    have h5 : p * b ≤ 50 * p := by nlinarith
    have h6 := abs_nonneg (Np.linspace (-1) 1 N i)
    nlinarith

/-! ## The axes -/

theorem rel_round {a b z t : ℝ} (h : |a - b| ≤ t * |b|) (ht : t ≤ 1 / 4) (hz : |z - a| ≤ |a| / 2 ^ 52) :
    |z - b| ≤ (t + 3 / 2 ^ 53) * |b| := by
  have hb := abs_nonneg b
  have ha : |a| ≤ 5 / 4 * |b| := by
    have := abs_add_le (a - b) b
    rw [sub_add_cancel] at this
    nlinarith
  have e : z - b = (z - a) + (a - b) := by ring
  rw [e]
  refine (abs_add_le _ _).trans ?_
  rw [add_mul]
  norm_num at hz ⊢
  linarith

theorem rel_inv {a b t : ℝ} (hb : 0 < b) (h : |a - b| ≤ t * b) (ht : t ≤ 1 / 4) :
    0 < a ∧ |1 / a - 1 / b| ≤ 4 / 3 * t * |1 / b| := by
  have h1 := abs_le.1 h
  have ht0 : 0 ≤ t := nonneg_of_mul_nonneg_left ((abs_nonneg _).trans h) hb
  have ha : 3 / 4 * b ≤ a := by nlinarith
  have ha0 : 0 < a := by linarith
  refine ⟨ha0, ?_⟩
  have e : 1 / a - 1 / b = (b - a) / (a * b) := by field_simp
  rw [e, abs_div, abs_of_pos (by positivity : 0 < a * b), abs_of_pos (by positivity : (0 : ℝ) < 1 / b), abs_sub_comm,
    div_le_iff₀ (by positivity)]
  have e2 : 4 / 3 * t * (1 / b) * (a * b) = 4 / 3 * t * a := by field_simp
  rw [e2]
  nlinarith

theorem normal_range {y lo hi : ℝ} (h3 : lo / 2 ≤ |y|) (h4 : |y| ≤ 2 * hi) (h5 : 1 / 2 ^ 490 ≤ lo) (h6 : hi ≤ 2 ^ 800) :
    |y| ≤ 2 ^ 900 ∧ (y = 0 ∨ 1 / 2 ^ 500 ≤ |y|) := by
  refine ⟨h4.trans ?_, Or.inr (le_trans ?_ h3)⟩
  · refine le_trans ?_ (two_pow_le (show 801 ≤ 900 by norm_num))
    rw [pow_succ]
    generalize (2 : ℝ) ^ 800 = A at *
    linarith
  · have : (1 : ℝ) / 2 ^ 500 ≤ 1 / 2 ^ 490 / 2 := by
      rw [div_div, ← pow_succ]
      exact one_div_le_one_div_of_le (by positivity) (two_pow_le (by norm_num))
    generalize (1 : ℝ) / 2 ^ 490 = A at *
    linarith

theorem rel_range {y B t : ℝ} (h3 : |y - B| ≤ t * |B|) (h4 : t ≤ 1 / 4) : |B| / 2 ≤ |y| ∧ |y| ≤ 2 * |B| := by
  have a1 := abs_add_le (y - B) B
  rw [sub_add_cancel] at a1
  have a2 := abs_sub_abs_le_abs_sub B y
  rw [abs_sub_comm] at a2
  have := abs_nonneg B
  constructor <;> nlinarith

theorem low_range {k : ℕ} {z : ℝ} (hk : k ≤ 490) (hz : 1 / 2 ^ k ≤ z) : 1 / 2 ^ 490 ≤ z :=
  le_trans (one_div_le_one_div_of_le (by positivity) (two_pow_le hk)) hz

/-- The spacing of the grid is a difference of neighbours, so one loses a factor `N`. -/
theorem spacing_near {rnd : ℝ → Fl} (h : Spec.Rounding rnd) {p b c : ℝ} (hp : 1 / 2 ^ 90 ≤ p) (hp' : p ≤ 2 ^ 90) (hb1 : 1 ≤ b)
    (hb2 : b ≤ 50) (hce : |c - p * b| ≤ p * b / 2 ^ 52)
    {N : ℕ} (hN : 2 ≤ N) (hN' : N ≤ 2 ^ 30) {x0 x1 : ℝ} (hx0 : x0 = -c)
    (hx1 : |x1 - Np.linspace (-c) c N ⟨1, by omega⟩| ≤ 6 * c / 2 ^ 53) :
    ∃ dx, Dbl.sub rnd (.fin x1) (.fin x0) = .fin dx ∧
      |dx - 2 * (p * b) / ((N : ℝ) - 1)| ≤ ((3 * N + 4) / 2 ^ 53 + 3 / 2 ^ 53) * |2 * (p * b) / ((N : ℝ) - 1)| ∧
      1 / 2 ^ 119 ≤ 2 * (p * b) / ((N : ℝ) - 1) ∧ 2 * (p * b) / ((N : ℝ) - 1) ≤ 2 ^ 97 := by
  have hp0 : 0 < p := lt_of_lt_of_le (by positivity) hp
  have hNr : (2 : ℝ) ≤ N := by exact_mod_cast hN
  have hNr' : (N : ℝ) ≤ 1073741824 := by exact_mod_cast hN'
  have hpb : 0 < p * b := by positivity
  set n1 : ℝ := (N : ℝ) - 1 with hn1
  have hn10 : 1 ≤ n1 := by linarith
  set H := 2 * (p * b) / n1 with hH
  have hH0 : 0 < H := by positivity
  have hHn : H * n1 = 2 * (p * b) := by rw [hH]; field_simp
  have hpb50 : p * b ≤ 50 * p := by nlinarith
  have hpbp : p ≤ p * b := by nlinarith
  have hHle : H ≤ 100 * p := by
    rw [hH, div_le_iff₀ (by linarith)]
    nlinarith
  have hHge : p / 2 ^ 29 ≤ H := by
    rw [hH, div_le_div_iff₀ (by positivity) (by linarith)]
    norm_num
    nlinarith
  -- the spacing
  have hlin : Np.linspace (-c) c N ⟨1, by omega⟩ = -c + 2 * c / n1 := by
    unfold Np.linspace
    rw [← hn1]
    norm_num
    ring
  have d1 : |(x1 - x0) - H| ≤ (3 * N + 4) / 2 ^ 53 * H := by
    have e : (x1 - x0) - H = (x1 - Np.linspace (-c) c N ⟨1, by omega⟩) + 2 * (c - p * b) / n1 := by
      rw [hlin, hx0, hH]
      ring
    have e2 : |2 * (c - p * b) / n1| ≤ H / 2 ^ 52 := by
      rw [abs_div, abs_mul, abs_two, abs_of_pos (by linarith : 0 < n1), div_le_iff₀ (by linarith)]
      have : H / 2 ^ 52 * n1 = 2 * (p * b / 2 ^ 52) := by
        rw [div_mul_eq_mul_div, hHn]
        ring
      linarith
    have e3 : 6 * c / 2 ^ 53 ≤ (3 * N + 2) / 2 ^ 53 * H := by
      have h4 := (abs_le.1 hce).2
      have e4 : (3 * (N : ℝ) + 2) / 2 ^ 53 * H = (3 * (H * n1) + 5 * H) / 2 ^ 53 := by
        rw [hn1]
        ring
      rw [e4, hHn]
      gcongr
      have h5 : 6 * (p * b / 2 ^ 52) ≤ 5 * H := by
        rw [hH]
        have : 2 * (p * b) / 1073741824 ≤ 2 * (p * b) / n1 := by
          gcongr
          linarith
        norm_num at this ⊢
        linarith
      linarith
    rw [e]
    refine (abs_add_le _ _).trans ((add_le_add (hx1.trans e3) e2).trans (le_of_eq ?_))
    ring
  have ht0 : (3 * (N : ℝ) + 4) / 2 ^ 53 ≤ 1 / 100 := by
    norm_num
    linarith
  have p90 : (1 : ℝ) / 2 ^ 90 / 2 ^ 29 = 1 / 2 ^ 119 := by rw [div_div, ← pow_add]
  have hHlow : 1 / 2 ^ 119 ≤ H := by
    rw [← p90]
    exact le_trans (by gcongr) hHge
  have hHhigh : H ≤ 2 ^ 97 := by
    refine hHle.trans ?_
    rw [show (97 : ℕ) = 7 + 90 from rfl, pow_add]
    norm_num at hp' ⊢
    linarith
  have d1' : |(x1 - x0) - H| ≤ (3 * N + 4) / 2 ^ 53 * |H| := by rwa [abs_of_pos hH0]
  obtain ⟨b1, b2⟩ := rel_range d1' (by linarith)
  rw [abs_of_pos hH0] at b1 b2
  have hr := normal_range b1 b2 (low_range (by norm_num) hHlow) (hHhigh.trans (two_pow_le (by norm_num)))
  obtain ⟨dx, hdx, -, hdxe⟩ := round_normal h hr.1 hr.2
  refine ⟨dx, ?_, rel_round d1' (by linarith) hdxe, hHlow, hHhigh⟩
  simp only [Dbl.sub, Fl.sub, Fl.neg, Fl.add, Dbl.rop, ← sub_eq_add_neg, hdx]

theorem freq_near {rnd : ℝ → Fl} (h : Spec.Rounding rnd) {N : ℕ} (hN : 2 ≤ N) (hN' : N ≤ 2 ^ 30) {H dx : ℝ}
    (hHlow : 1 / 2 ^ 119 ≤ H) (hHhigh : H ≤ 2 ^ 97) (d2 : |dx - H| ≤ ((3 * N + 4) / 2 ^ 53 + 3 / 2 ^ 53) * |H|) :
    ∃ v, Dbl.div rnd (.fin 1) (Dbl.mul rnd (Dbl.ofInt rnd (N : ℤ)) (.fin dx)) = .fin v ∧
      |v - 1 / (N * H)| ≤
        (4 / 3 * ((3 * (N : ℝ) + 4) / 2 ^ 53 + 3 / 2 ^ 53 + 3 / 2 ^ 53) + 3 / 2 ^ 53) * |1 / (N * H)| ∧
      1 / 2 ^ 127 ≤ 1 / (N * H) ∧ 1 / (N * H) ≤ 2 ^ 119 ∧
      4 / 3 * ((3 * (N : ℝ) + 4) / 2 ^ 53 + 3 / 2 ^ 53 + 3 / 2 ^ 53) ≤ 1 / 30 := by
  have hH0 : 0 < H := lt_of_lt_of_le (by positivity) hHlow
  have hNr : (2 : ℝ) ≤ N := by exact_mod_cast hN
  have hNr' : (N : ℝ) ≤ 1073741824 := by exact_mod_cast hN'
  have rN : Dbl.ofInt rnd (N : ℤ) = .fin (N : ℝ) := by
    have := round_self h (isDouble_int (z := (N : ℤ)) (by
      rw [abs_of_nonneg (by positivity)]
      have : (N : ℤ) ≤ 2 ^ 30 := by exact_mod_cast hN'
      exact this.trans_lt (by norm_num)))
    unfold Dbl.ofInt
    rw [this]
    norm_num
  have hNH : 0 < N * H := by positivity
  have d3 : |N * dx - N * H| ≤ ((3 * N + 4) / 2 ^ 53 + 3 / 2 ^ 53) * |N * H| := by
    rw [← mul_sub, abs_mul, abs_mul, abs_of_pos (by linarith : (0 : ℝ) < N)]
    nlinarith
  have ht1 : (3 * (N : ℝ) + 4) / 2 ^ 53 + 3 / 2 ^ 53 ≤ 1 / 50 := by
    norm_num
    linarith
  have hNHlow : 1 / 2 ^ 119 ≤ N * H := hHlow.trans (by nlinarith)
  have hNHhigh : N * H ≤ 2 ^ 127 := by
    rw [show (127 : ℕ) = 30 + 97 from rfl, pow_add]
    exact mul_le_mul (hNr'.trans (by norm_num)) hHhigh hH0.le (by positivity)
  obtain ⟨b3, b4⟩ := rel_range d3 (by linarith)
  rw [abs_of_pos hNH] at b3 b4
  have hr := normal_range b3 b4 (low_range (by norm_num) hNHlow) (hNHhigh.trans (two_pow_le (by norm_num)))
  obtain ⟨m, hm, -, hme⟩ := round_normal h hr.1 hr.2
  have d4 := rel_round d3 (by linarith) hme
  rw [abs_of_pos hNH] at d4
  -- its inverse
  obtain ⟨hm0, d5⟩ := rel_inv hNH d4 (by norm_num at ht1 ⊢; linarith)
  have hinv : 0 < 1 / (N * H) := by positivity
  have hinvlow : 1 / 2 ^ 127 ≤ 1 / (N * H) := one_div_le_one_div_of_le hNH hNHhigh
  have hinvhigh : 1 / (N * H) ≤ 2 ^ 119 := by
    rw [div_le_iff₀ hNH]
    rw [div_le_iff₀ (by positivity)] at hNHlow
    linarith
  have ht2 : 4 / 3 * ((3 * (N : ℝ) + 4) / 2 ^ 53 + 3 / 2 ^ 53 + 3 / 2 ^ 53) ≤ 1 / 30 := by
    norm_num
    linarith
  obtain ⟨b5, b6⟩ := rel_range d5 (by linarith)
  rw [abs_of_pos hinv] at b5 b6
  have hr' := normal_range b5 b6 (low_range (by norm_num) hinvlow) (hinvhigh.trans (two_pow_le (by norm_num)))
  obtain ⟨v, hv, -, hve⟩ := round_normal h hr'.1 hr'.2
  have d6 := rel_round d5 (by linarith) hve
  refine ⟨v, ?_, d6, hinvlow, hinvhigh, ht2⟩
  have s2 : Fl.div (.fin 1) (.fin m) = .fin (1 / m) := if_neg hm0.ne'
  rw [rN]
  simp only [Dbl.mul, Fl.mul, Dbl.rop, hm, Dbl.div, s2, hv]

/-- The axes. -/
theorem axis_near {rnd : ℝ → Fl} (h : Spec.Rounding rnd) {p b c : ℝ} (hp : 1 / 2 ^ 90 ≤ p) (hp' : p ≤ 2 ^ 90) (hb1 : 1 ≤ b)
    (hb2 : b ≤ 50) (hce : |c - p * b| ≤ p * b / 2 ^ 52)
    {N : ℕ} (hN : 2 ≤ N) (hN' : N ≤ 2 ^ 30) {x0 x1 wavel : ℝ} (hx0 : x0 = -c)
    (hx1 : |x1 - Np.linspace (-c) c N ⟨1, by omega⟩| ≤ 6 * c / 2 ^ 53) (hl : 1 / 2 ^ 100 ≤ wavel) (hl2 : wavel ≤ 2 ^ 100)
    (i : Fin N) :
    ∃ a, Dbl.mul rnd (Dbl.fftfreq rnd N (Dbl.sub rnd (.fin x1) (.fin x0)) i) (.fin wavel) = .fin a ∧ Spec.IsDouble a ∧
      |a - Np.fftfreq N (2 * (p * b) / ((N : ℝ) - 1)) i * wavel| ≤
        N / 2 ^ 49 * |Np.fftfreq N (2 * (p * b) / ((N : ℝ) - 1)) i * wavel| := by
  have hl0 : 0 < wavel := lt_of_lt_of_le (by positivity) hl
  have hNr : (2 : ℝ) ≤ N := by exact_mod_cast hN
  have hNr' : (N : ℝ) ≤ 1073741824 := by exact_mod_cast hN'
  obtain ⟨dx, hdx, d2, hHlow, hHhigh⟩ := spacing_near h hp hp' hb1 hb2 hce hN hN' hx0 hx1
  generalize 2 * (p * b) / ((N : ℝ) - 1) = H at *
  obtain ⟨v, hv, d6, hinvlow, hinvhigh, ht2⟩ := freq_near h hN hN' hHlow hHhigh d2
  have hinv : 0 < 1 / (N * H) := lt_of_lt_of_le (by positivity) hinvlow
  -- the frequency
  unfold Np.fftfreq Dbl.fftfreq
  simp only
  generalize hk : (if (i : ℕ) < (N - 1) / 2 + 1 then ((i : ℕ) : ℤ)
    else -((N / 2 : ℕ) : ℤ) + (((i : ℕ) - ((N - 1) / 2 + 1) : ℕ) : ℤ)) = k
  have hkb : |k| ≤ 2 ^ 30 := by
    have hi := i.2
    have : (N : ℤ) ≤ 2 ^ 30 := by exact_mod_cast hN'
    rw [← hk, abs_le]
    split_ifs <;> constructor <;> omega
  have rk : Dbl.ofInt rnd k = .fin (k : ℝ) :=
    round_self h (isDouble_int (z := k) (hkb.trans_lt (by norm_num)))
  have hkr : |(k : ℝ)| ≤ 2 ^ 30 := by
    rw [← Int.cast_abs]
    exact_mod_cast hkb
  have hk01 : (k : ℝ) = 0 ∨ 1 ≤ |(k : ℝ)| := by
    rcases eq_or_ne k 0 with rfl | hk0
    · left; simp
    · right
      rw [← Int.cast_abs]
      exact_mod_cast Int.one_le_abs hk0
  set ω := (k : ℝ) * (1 / (N * H)) with hω
  have d7 : |k * v - ω| ≤ (4 / 3 * ((3 * (N : ℝ) + 4) / 2 ^ 53 + 3 / 2 ^ 53 + 3 / 2 ^ 53) + 3 / 2 ^ 53) * |ω| := by
    rw [hω, ← mul_sub, abs_mul, abs_mul (k : ℝ)]
    have := mul_le_mul_of_nonneg_left d6 (abs_nonneg (k : ℝ))
    linarith
  have ht3 : 4 / 3 * ((3 * (N : ℝ) + 4) / 2 ^ 53 + 3 / 2 ^ 53 + 3 / 2 ^ 53) + 3 / 2 ^ 53 ≤ 1 / 20 := by
    norm_num at ht2 ⊢
    linarith
  obtain ⟨b7, b8⟩ := rel_range d7 (by linarith)
  have hωhigh : |ω| ≤ 2 ^ 149 := by
    rw [hω, abs_mul, abs_of_pos hinv, show (149 : ℕ) = 30 + 119 from rfl, pow_add]
    gcongr
  have hωlow : (k : ℝ) ≠ 0 → 1 / 2 ^ 127 ≤ |ω| := by
    intro hk0
    have hk1 := hk01.resolve_left hk0
    rw [hω, abs_mul, abs_of_pos hinv]
    nlinarith
  have hkv : |k * v| ≤ 2 ^ 900 ∧ (k * v = 0 ∨ 1 / 2 ^ 500 ≤ |k * v|) := by
    rcases eq_or_ne (k : ℝ) 0 with hk0 | hk0
    · rw [hk0]
      simp
    · exact normal_range b7 b8 (low_range (by norm_num) (hωlow hk0))
        (hωhigh.trans (two_pow_le (by norm_num)))
  obtain ⟨g, hg, -, hge⟩ := round_normal h hkv.1 hkv.2
  have d8 := rel_round d7 (by linarith) hge
  -- the angle
  have d9 : |g * wavel - ω * wavel| ≤
      (4 / 3 * ((3 * (N : ℝ) + 4) / 2 ^ 53 + 3 / 2 ^ 53 + 3 / 2 ^ 53) + 3 / 2 ^ 53 + 3 / 2 ^ 53) * |ω * wavel| := by
    rw [← sub_mul, abs_mul, abs_mul, abs_of_pos hl0, ← mul_assoc]
    exact mul_le_mul_of_nonneg_right d8 hl0.le
  have ht4 : 4 / 3 * ((3 * (N : ℝ) + 4) / 2 ^ 53 + 3 / 2 ^ 53 + 3 / 2 ^ 53) + 3 / 2 ^ 53 + 3 / 2 ^ 53 ≤ 1 / 10 := by
    norm_num at ht3 ⊢
    linarith
  obtain ⟨b9, b10⟩ := rel_range d9 (by linarith)
  have hgw : |g * wavel| ≤ 2 ^ 900 ∧ (g * wavel = 0 ∨ 1 / 2 ^ 500 ≤ |g * wavel|) := by
    rcases eq_or_ne (k : ℝ) 0 with hk0 | hk0
    · have : ω = 0 := by rw [hω, hk0, zero_mul]
      rw [this] at d8
      have hg0 : g = 0 := by simpa using d8
      rw [hg0]
      simp
    · have hw1 : |ω * wavel| ≤ 2 ^ 249 := by
        rw [abs_mul, abs_of_pos hl0, show (249 : ℕ) = 149 + 100 from rfl, pow_add]
        gcongr
      have hw2 : 1 / 2 ^ 227 ≤ |ω * wavel| := by
        rw [abs_mul, abs_of_pos hl0, show (227 : ℕ) = 127 + 100 from rfl, pow_add, one_div, mul_inv, ← one_div, ← one_div]
        exact mul_le_mul (hωlow hk0) hl (by positivity) (abs_nonneg _)
      exact normal_range b9 b10 (low_range (by norm_num) hw2) (hw1.trans (two_pow_le (by norm_num)))
  obtain ⟨a, ha, had, hae⟩ := round_normal h hgw.1 hgw.2
  have d10 := rel_round d9 (by linarith) hae
  refine ⟨a, ?_, had, d10.trans (mul_le_mul_of_nonneg_right ?_ (abs_nonneg _))⟩
  · rw [hdx, rk, hv]
    simp only [Dbl.mul, Fl.mul, Dbl.rop, hg, ha]
  · norm_num
    linarith

/-! ## The Fourier transform -/

/-- `np.fft.fft2` in doubles: for moderate input the result is finite and its distance to the exact transform (root of
the sum of squares) is at most `η` times the length of the latter, up to underflow.  For the fast transform `η` is a few
times the logarithm of the number of pixels times `2 ^ -53`. -/
def Spec.FourierAccurate (η : ℝ) {N : ℕ} (fft : (Fin N × Fin N → Dbl.Cx) → Fin N × Fin N → Dbl.Cx) : Prop :=
  ∀ E : Fin N × Fin N → ℂ, (∀ q, Spec.CDouble (E q) ∧ ‖E q‖ ≤ 2 ^ 303) →
    ∃ G : Fin N × Fin N → ℂ, fft (fun q => Spec.cx (E q)) = (fun q => Spec.cx (G q)) ∧ (∀ q, Spec.CDouble (G q)) ∧
      ∑ q, ‖G q - Np.fft2 E q‖ ^ 2 ≤ η ^ 2 * ∑ q, ‖Np.fft2 E q‖ ^ 2 + 2 ^ (-2000 : ℤ)

theorem fft2_sub_le {N : ℕ} (E E' : Fin N × Fin N → ℂ) (q : Fin N × Fin N) :
    ‖Np.fft2 E q - Np.fft2 E' q‖ ≤ ∑ p, ‖E p - E' p‖ := by
  rw [Fourier.fft2_eq, Fourier.fft2_eq, ← Finset.sum_sub_distrib, Fintype.sum_prod_type]
  refine (norm_sum_le _ _).trans (Finset.sum_le_sum fun a _ => ?_)
  rw [← Finset.sum_sub_distrib]
  refine (norm_sum_le _ _).trans (Finset.sum_le_sum fun b _ => ?_)
  rw [← sub_mul, norm_mul, Fourier.ew_norm, mul_one]

theorem l2_triangle {ι : Type} [Fintype ι] (E E' : ι → ℂ) :
    Real.sqrt (∑ q, ‖E' q‖ ^ 2) ≤ Real.sqrt (∑ q, ‖E q‖ ^ 2) + ∑ q, ‖E' q - E q‖ := by
  have h1 := norm_add_le (WithLp.toLp 2 E : EuclideanSpace ℂ ι) (WithLp.toLp 2 (fun q => E' q - E q))
  rw [EuclideanSpace.norm_eq, EuclideanSpace.norm_eq, EuclideanSpace.norm_eq] at h1
  simp only [PiLp.add_apply, add_sub_cancel] at h1
  refine h1.trans (add_le_add le_rfl ?_)
  rw [Real.sqrt_le_left (Finset.sum_nonneg fun q _ => norm_nonneg _)]
  exact Finset.sum_sq_le_sq_sum_of_nonneg fun q _ => norm_nonneg _

/-- The transform of nearly equal fields. -/
theorem fourier_near {η : ℝ} (hη : 0 ≤ η) (hη1 : η ≤ 1) {N : ℕ} (hN : N ≤ 2 ^ 30) {fft : (Fin N × Fin N → Dbl.Cx) → Fin N × Fin N → Dbl.Cx}
    (hF : Spec.FourierAccurate η fft) (E Ed : Fin N × Fin N → ℂ) (hEd : ∀ q, Spec.CDouble (Ed q) ∧ ‖Ed q‖ ≤ 2 ^ 303)
    {T : ℝ} (hT : ∑ q, ‖Ed q - E q‖ ≤ T) :
    ∃ G : Fin N × Fin N → ℂ, fft (fun q => Spec.cx (Ed q)) = (fun q => Spec.cx (G q)) ∧ (∀ q, Spec.CDouble (G q)) ∧
      ∀ q, ‖G q‖ ≤ 2 ^ 400 ∧
        ‖G q - Np.fft2 E q‖ ≤ T + η * N * (Real.sqrt (∑ q, ‖E q‖ ^ 2) + T) + 2 ^ (-1000 : ℤ) := by
  obtain ⟨G, h1, h2, h3⟩ := hF Ed hEd
  refine ⟨G, h1, h2, fun q => ?_⟩
  have hS : 0 ≤ ∑ q, ‖Ed q‖ ^ 2 := Finset.sum_nonneg fun q _ => by positivity
  have e1 : ‖G q - Np.fft2 Ed q‖ ≤ η * N * Real.sqrt (∑ q, ‖Ed q‖ ^ 2) + 2 ^ (-1000 : ℤ) := by
    refine abs_le_of_sq_le_sq' ?_ (by positivity) |>.2
    have := Finset.single_le_sum (f := fun q => ‖G q - Np.fft2 Ed q‖ ^ 2) (fun q _ => by positivity) (Finset.mem_univ q)
    refine this.trans (h3.trans ?_)
    rw [Fourier.parseval2, add_sq, mul_pow, mul_pow, Real.sq_sqrt hS]
    have e : ((2 : ℝ) ^ (-1000 : ℤ)) ^ 2 = 2 ^ (-2000 : ℤ) := by
      rw [← zpow_natCast, ← zpow_mul]
      norm_num
    rw [e, mul_assoc (η ^ 2)]
    have : 0 ≤ 2 * (η * N * Real.sqrt (∑ q, ‖Ed q‖ ^ 2)) * 2 ^ (-1000 : ℤ) := by positivity
    generalize (2 : ℝ) ^ (-2000 : ℤ) = τ at *
    linarith
  refine ⟨?_, ?_⟩
  · have hA : ∑ p, ‖Ed p‖ ≤ 2 ^ 363 := by
      refine (Finset.sum_le_card_nsmul _ _ _ fun p _ => (hEd p).2).trans ?_
      rw [Finset.card_univ, Fintype.card_prod, Fintype.card_fin, nsmul_eq_mul, show (2 : ℝ) ^ 363 = 2 ^ 60 * 2 ^ 303 by rw [← pow_add]]
      refine mul_le_mul_of_nonneg_right ?_ (by positivity)
      have : N * N ≤ 2 ^ 30 * 2 ^ 30 := Nat.mul_le_mul hN hN
      rw [← pow_add] at this
      exact_mod_cast this
    have hA0 : 0 ≤ ∑ p, ‖Ed p‖ := Finset.sum_nonneg fun q _ => norm_nonneg _
    have h4 : ‖Np.fft2 Ed q‖ ≤ 2 ^ 363 := by
      refine le_trans ?_ hA
      rw [Fourier.fft2_eq, Fintype.sum_prod_type]
      refine (norm_sum_le _ _).trans (Finset.sum_le_sum fun a _ => ?_)
      refine (norm_sum_le _ _).trans (Finset.sum_le_sum fun b _ => ?_)
      rw [norm_mul, Fourier.ew_norm, mul_one]
    have h5 : Real.sqrt (∑ q, ‖Ed q‖ ^ 2) ≤ 2 ^ 363 := by
      refine le_trans ?_ hA
      rw [Real.sqrt_le_left hA0]
      exact Finset.sum_sq_le_sq_sum_of_nonneg fun q _ => norm_nonneg _
    have hNr : (N : ℝ) ≤ 2 ^ 30 := by exact_mod_cast hN
    have h6 : η * N * Real.sqrt (∑ q, ‖Ed q‖ ^ 2) ≤ 1 * 2 ^ 30 * 2 ^ 363 := by gcongr
    have h7 := norm_le_norm_sub_add (G q) (Np.fft2 Ed q)
    have h8 : (2 : ℝ) ^ (-1000 : ℤ) ≤ 1 := zpow_le_one_of_nonpos₀ one_le_two (by norm_num)
    have h9 : (1 : ℝ) ≤ 2 ^ 363 := one_le_pow₀ one_le_two
    rw [show (2 : ℝ) ^ 400 = 137438953472 * 2 ^ 363 by
      rw [show (137438953472 : ℝ) = 2 ^ 37 by norm_num, ← pow_add]]
    generalize (2 : ℝ) ^ 363 = A at *
    generalize (2 : ℝ) ^ (-1000 : ℤ) = τ at *
    norm_num at h6
    linarith
  have e2 : ‖Np.fft2 Ed q - Np.fft2 E q‖ ≤ T := (fft2_sub_le Ed E q).trans hT
  have e3 : Real.sqrt (∑ q, ‖Ed q‖ ^ 2) ≤ Real.sqrt (∑ q, ‖E q‖ ^ 2) + T :=
    (l2_triangle E Ed).trans (add_le_add le_rfl hT)
  have e4 : η * N * Real.sqrt (∑ q, ‖Ed q‖ ^ 2) ≤ η * N * (Real.sqrt (∑ q, ‖E q‖ ^ 2) + T) := by gcongr
  refine (norm_sub_le_norm_sub_add_norm_sub _ (Np.fft2 Ed q) _).trans ?_
  generalize (2 : ℝ) ^ (-1000 : ℤ) = τ at *
  linarith

/-! ## The radiation pattern -/

/-- The nodes of the grid that `radiation_pattern` makes, in doubles. -/
noncomputable def Spec.gridD (rnd : ℝ → Fl) (pr bf : ℝ) (N : ℕ) (i : Fin N) : Fl :=
  Dbl.linspace rnd (Fl.neg (Dbl.mul rnd (.fin pr) (.fin bf))) (Dbl.mul rnd (.fin pr) (.fin bf)) N i

/-- The error of the whole aperture field. -/
noncomputable def Spec.totalError {ι : Type} [Fintype ι] (E : ι → ℂ) (ε εa : ℝ) : ℝ :=
  ε * ∑ q, ‖E q‖ + Fintype.card ι * (2 * εa + 2 ^ (-1074 : ℤ))

/-- The error of the far field: the aperture and the transform. -/
noncomputable def Spec.farError {N : ℕ} (E : Fin N × Fin N → ℂ) (ε εa η : ℝ) : ℝ :=
  Spec.totalError E ε εa + η * N * (Real.sqrt (∑ q, ‖E q‖ ^ 2) + Spec.totalError E ε εa) + 2 ^ (-1000 : ℤ)

/-- **C124.**  The radiation pattern in doubles.  Neither program raises; all numbers are finite.  The axes are right to
`N / 2 ^ 49` of their value, the field in every pixel to `Spec.farError`. -/
theorem C124_pattern {rnd : ℝ → Fl} (h : Spec.Rounding rnd) {L : Dbl.LibmC} (hL : Spec.AccurateC L) (n : ℕ)
    (hn : n ≤ 20) (K : List ℝ) (hK : K.length = (n + 1) * (n + 2) / 2) (hKd : ∀ k ∈ K, Spec.IsDouble k)
    (hKs : (K.map fun k => |k|).sum ≤ 2 ^ 200) (N : ℕ) (hN : 2 ≤ N) (hN' : N ≤ 2 ^ 30)
    (fft : (Fin N × Fin N → Dbl.Cx) → Fin N × Fin N → Dbl.Cx) (η : ℝ) (hη : 0 ≤ η) (hη1 : η ≤ 1)
    (hF : Spec.FourierAccurate η fft)
    (tel : TelGeo (Fin N × Fin N)) (illum : Illum (Fin N × Fin N)) (telD : Dbl.TelGeo (Fin N × Fin N))
    (illumD : Dbl.Illum (Fin N × Fin N)) (hp : Spec.IsDouble tel.pr) (h1 : 1 / 2 ^ 90 ≤ tel.pr) (h2 : tel.pr ≤ 2 ^ 90)
    (I : List ℝ) (bf dz wavel εa εd D : ℝ) (hb1 : 1 ≤ bf) (hb2 : bf ≤ 50)
    (hl : 1 / 2 ^ 100 ≤ wavel) (hl2 : wavel ≤ 2 ^ 100) (hD0 : 0 ≤ D) (hD : D ≤ 2 ^ 200) (hε0 : 0 ≤ εd) (hε : εd ≤ 1)
    (hεa : 0 ≤ εa) (B Ea delta : Fin N × Fin N → ℝ)
    (hO : Spec.SameOptics tel illum telD illumD (fun q => Np.linspace (-(tel.pr * bf)) (tel.pr * bf) N q.2)
      (fun q => Np.linspace (-(tel.pr * bf)) (tel.pr * bf) N q.1) (fun q => Spec.gridD rnd tel.pr bf N q.2)
      (fun q => Spec.gridD rnd tel.pr bf N q.1) I dz wavel εa εd D B Ea delta) :
    ∃ P Q E, Dbl.radiationPattern rnd L fft (I.map .fin) (K.map .fin) (.fin dz) (.fin wavel) illumD telD (.fin bf) = .ok P ∧
      Aperture.radiationPattern I K dz wavel illum tel bf = .ok Q ∧
      Aperture.aperture (fun q => Np.linspace (-(tel.pr * bf)) (tel.pr * bf) N q.2)
        (fun q => Np.linspace (-(tel.pr * bf)) (tel.pr * bf) N q.1) I K dz wavel illum tel = .ok E ∧
      (∀ q, ‖E q‖ = |B q * Ea q|) ∧
      (∀ i, ∃ a b, P.u i = .fin a ∧ P.v i = .fin b ∧ Spec.IsDouble a ∧ Spec.IsDouble b ∧
        |a - Q.u i| ≤ N / 2 ^ 49 * |Q.u i| ∧ |b - Q.v i| ≤ N / 2 ^ 49 * |Q.v i|) ∧
      ∀ q, ∃ F, P.F q = Spec.cx F ∧ Spec.CDouble F ∧ ‖F‖ ≤ 2 ^ 400 ∧ ‖F - Q.F q‖ ≤ Spec.farError E (Spec.fieldError n K D εd) εa η := by
  have hp0 : 0 < tel.pr := lt_of_lt_of_le (by positivity) h1
  obtain ⟨c, hc, hcd, hce, hc1, hc2⟩ := box_near h h1 h2 hb1 hb2
  choose g hg hgd hge hg0 hge' hgb using fun i => boxGrid_near h hp0 hb1 hb2 hcd hce hc1 hc2 hN hN' i
  have hgrid : ∀ i, Spec.gridD rnd tel.pr bf N i = .fin (g i) := by
    intro i
    unfold Spec.gridD
    rw [hc]
    exact hg i
  have e1 : (fun q : Fin N × Fin N => Spec.gridD rnd tel.pr bf N q.2) = fun q => .fin (g q.2) := funext fun q => hgrid _
  have e2 : (fun q : Fin N × Fin N => Spec.gridD rnd tel.pr bf N q.1) = fun q => .fin (g q.1) := funext fun q => hgrid _
  rw [e1, e2] at hO
  have hlow : (1 : ℝ) / 2 ^ 100 ≤ 1 / 2 ^ 90 := one_div_le_one_div_of_le (by positivity) (two_pow_le (by norm_num))
  obtain ⟨E, Ed, hE, hEd, hEb, hdark, hlit⟩ := C124_aperture h hL n hn K hK hKd hKs tel illum telD illumD hp
    (hlow.trans h1) (h2.trans (two_pow_le (by norm_num))) _ _ (fun q => g q.2) (fun q => g q.1)
    (fun q => ⟨hgd _, hgd _⟩) (fun q => ⟨hge' _, hge' _⟩) (fun q => ⟨hgb _, hgb _⟩) I dz wavel εa εd D hl hD0 hD hε0 hε B Ea
    delta hO
  have hS0 : 0 ≤ (K.map fun k => |k|).sum := List.sum_nonneg (by simp)
  have hfe : 0 ≤ Spec.fieldError n K D εd := by
    unfold Spec.fieldError
    have : 0 ≤ (1 + Real.sqrt 2) ^ n / 2 ^ 34 * (K.map fun k => |k|).sum := by positivity
    positivity
  have hT : ∑ q, ‖Ed q - E q‖ ≤ Spec.totalError E (Spec.fieldError n K D εd) εa := by
    unfold Spec.totalError
    rw [Finset.mul_sum, ← nsmul_eq_mul, ← Finset.card_univ, ← Finset.sum_const, ← Finset.sum_add_distrib]
    refine Finset.sum_le_sum fun q _ => ?_
    rcases hO.lit q with hB | ⟨hB, -⟩
    · rw [(hdark q hB).1, (hdark q hB).2, sub_self, norm_zero]
      positivity
    · refine (hlit q hB).2.trans (le_of_eq ?_)
      ring
  obtain ⟨G, hG, hGd, hGe⟩ := fourier_near hη hη1 hN' hF E Ed hEb hT
  have hQ := radiationPattern_eq I K dz wavel hN illum tel bf
  rw [hE] at hQ
  -- the program on doubles
  have hP : Dbl.radiationPattern rnd L fft (I.map .fin) (K.map .fin) (.fin dz) (.fin wavel) illumD telD (.fin bf) =
      .ok ⟨fun i => Dbl.mul rnd (fftshift1 (Dbl.fftfreq rnd N (Dbl.sub rnd (.fin (g ⟨1, by omega⟩)) (.fin (g ⟨0, by omega⟩)))) i)
          (.fin wavel),
        fun i => Dbl.mul rnd (fftshift1 (Dbl.fftfreq rnd N (Dbl.sub rnd (.fin (g ⟨1, by omega⟩)) (.fin (g ⟨0, by omega⟩)))) i)
          (.fin wavel), fftshift2 (fft fun q => Spec.cx (Ed q))⟩ := by
    unfold Dbl.radiationPattern
    have hx : Dbl.linspace rnd (Fl.neg (Dbl.mul rnd telD.pr (.fin bf))) (Dbl.mul rnd telD.pr (.fin bf)) N =
        fun i => .fin (g i) := by
      funext i
      rw [hO.pr]
      exact hgrid i
    have hX : meshX (fun i => Fl.fin (g i)) (fun i => Fl.fin (g i)) = fun q => Fl.fin (g q.2) := rfl
    have hY : meshY (fun i => Fl.fin (g i)) (fun i => Fl.fin (g i)) = fun q => Fl.fin (g q.1) := rfl
    simp only [hx, pyIdx_ofFn _ 1 (by omega : 1 < N), pyIdx_ofFn _ 0 (by omega : 0 < N), bind, Except.bind, hX, hY, hEd]
    rfl
  refine ⟨_, _, E, hP, hQ, hE, fun q => ?_, fun i => ?_, fun q => ?_⟩
  · rcases hO.lit q with hB | ⟨hB, -⟩
    · rw [(hdark q hB).1, hB, zero_mul, norm_zero, abs_zero]
    · rw [(hlit q hB).1, hB, one_mul]
  · obtain ⟨a, ha, had, hae⟩ := axis_near h h1 h2 hb1 hb2 hce hN hN' (hg0 ⟨0, by omega⟩ rfl) (hge ⟨1, by omega⟩) hl hl2
      (shiftIdx i)
    rw [Fourier.fftfreq_shift] at hae
    exact ⟨a, a, ha, ha, had, had, hae, hae⟩
  · refine ⟨G (shiftIdx q.1, shiftIdx q.2), ?_, hGd _, hGe _⟩
    show fft (fun q => Spec.cx (Ed q)) (shiftIdx q.1, shiftIdx q.2) = _
    rw [hG]

/-! ## The power -/

/-- **C124.**  The power in doubles: never negative, and the error is that of the field and of two operations. -/
theorem C124_power {rnd : ℝ → Fl} (h : Spec.Rounding rnd) {L : Dbl.LibmC} (hL : Spec.AccurateC L) (F G : ℂ) (e : ℝ)
    (hd : Spec.CDouble F) (hb : ‖F‖ ≤ 2 ^ 400) (he : ‖F - G‖ ≤ e) :
    ∃ p, Dbl.power rnd L (Spec.cx F) = .fin p ∧ Spec.IsDouble p ∧ 0 ≤ p ∧
      |p - ‖G‖ ^ 2| ≤ e * (2 * ‖G‖ + e) + (‖G‖ + e) ^ 2 / 2 ^ 48 + 2 ^ (-600 : ℤ) := by
  have hn : Real.sqrt (F.re ^ 2 + F.im ^ 2) = ‖F‖ := by
    rw [Complex.norm_def, Complex.normSq_apply, sq, sq]
  obtain ⟨r, hr, hrd, hr0, hre⟩ := hL.cabs F.re F.im hd.1 hd.2 (by rw [hn]; exact hb)
  rw [hn] at hre
  set m := ‖F‖ with hm
  have hm0 : 0 ≤ m := norm_nonneg F
  have he0 : 0 ≤ e := (norm_nonneg _).trans he
  have hτ0 : (0 : ℝ) < 2 ^ (-1072 : ℤ) := by positivity
  have hτ1 := tiny_le (k := -1072) (by norm_num)
  have hτ2 : (2 : ℝ) ^ 400 * 2 ^ (-1072 : ℤ) = 2 ^ (-672 : ℤ) := by
    rw [← zpow_natCast, ← zpow_add₀ two_ne_zero]
    norm_num
  have hτ3 : (2 : ℝ) ^ (-672 : ℤ) ≤ 2 ^ (-650 : ℤ) := zpow_le_zpow_right₀ one_le_two (by norm_num)
  have hτ4 : (2 : ℝ) ^ (-1072 : ℤ) ≤ 2 ^ (-650 : ℤ) := zpow_le_zpow_right₀ one_le_two (by norm_num)
  have hτ5 : (2 : ℝ) ^ (-1075 : ℤ) ≤ 2 ^ (-650 : ℤ) := zpow_le_zpow_right₀ one_le_two (by norm_num)
  have hτ6 : (2 : ℝ) ^ (-600 : ℤ) = 2 ^ (-650 : ℤ) * 1125899906842624 := by
    rw [show (1125899906842624 : ℝ) = 2 ^ (50 : ℤ) by norm_num, ← zpow_add₀ two_ne_zero]
    norm_num
  have hmτ : m * 2 ^ (-1072 : ℤ) ≤ 2 ^ (-650 : ℤ) :=
    (mul_le_mul_of_nonneg_right hb hτ0.le).trans (hτ2.le.trans hτ3)
  have hrm : r ≤ 2 * m + 2 ^ (-1072 : ℤ) := by
    have := (abs_le.1 hre).2
    have h5 : m / 2 ^ 50 ≤ m := div_le_self hm0 (one_le_pow₀ one_le_two)
    linarith
  have hbig : r * r ≤ 2 ^ 900 := by
    have h3 : r ≤ 2 ^ 402 := by
      refine hrm.trans ?_
      rw [show (2 : ℝ) ^ 402 = 4 * 2 ^ 400 by rw [show 402 = 2 + 400 from rfl, pow_add]; norm_num]
      have h5 : (1 : ℝ) ≤ 2 ^ 400 := one_le_pow₀ one_le_two
      generalize (2 : ℝ) ^ 400 = A at *
      generalize (2 : ℝ) ^ (-1072 : ℤ) = τ at *
      norm_num at hτ1
      linarith
    calc r * r ≤ 2 ^ 402 * 2 ^ 402 := mul_le_mul h3 h3 hr0 (by positivity)
      _ = 2 ^ 804 := by rw [← pow_add]
      _ ≤ _ := two_pow_le (by norm_num)
  have habs : |r * r| = r * r := abs_of_nonneg (by positivity)
  obtain ⟨p, hp, hpd, hpe⟩ := round_rel h (y := r * r) (by rw [habs]; exact hbig)
  rw [habs] at hpe
  refine ⟨p, ?_, hpd, ?_, ?_⟩
  · unfold Dbl.power Spec.cx
    rw [hr]
    exact hp
  · exact round_mono h (by positivity : 0 ≤ r * r) (by rw [abs_zero]; exact lt_of_le_of_lt (by positivity) (two_pow_lt_range (Nat.zero_le 1000)))
      (by rw [habs]; exact hbig.trans_lt (two_pow_lt_range (by norm_num))) (rnd_zero h) hp
  · have hG0 : 0 ≤ ‖G‖ := norm_nonneg G
    have hmG : |m - ‖G‖| ≤ e := (abs_norm_sub_norm_le F G).trans he
    have hq : |m ^ 2 - ‖G‖ ^ 2| ≤ e * (2 * ‖G‖ + e) := by
      rw [show m ^ 2 - ‖G‖ ^ 2 = (m - ‖G‖) * (m + ‖G‖) by ring, abs_mul, abs_of_nonneg (add_nonneg hm0 hG0)]
      have := (abs_le.1 hmG).2
      exact mul_le_mul hmG (by linarith) (by positivity) he0
    have hm2 : m ^ 2 ≤ (‖G‖ + e) ^ 2 := by
      have := (abs_le.1 hmG).2
      exact pow_le_pow_left₀ hm0 (by linarith) 2
    generalize (2 : ℝ) ^ (-1072 : ℤ) = τ at *
    generalize (2 : ℝ) ^ (-1075 : ℤ) = τ' at *
    generalize (2 : ℝ) ^ (-600 : ℤ) = ω at *
    generalize (2 : ℝ) ^ (-650 : ℤ) = σ at *
    have hττ : τ * τ ≤ σ := by
      have : τ ≤ 1 := hτ1.trans (by norm_num)
      exact (mul_le_of_le_one_left hτ0.le this).trans hτ4
    have hr2 : |r * r - m ^ 2| ≤ m ^ 2 * (3 / 2 ^ 50) + 4 * σ := by
      have h6 : |r + m| ≤ 2 * m + (m / 2 ^ 50 + τ) := by
        rw [abs_of_nonneg (add_nonneg hr0 hm0)]
        have := (abs_le.1 hre).2
        linarith
      rw [show r * r - m ^ 2 = (r - m) * (r + m) by ring, abs_mul]
      refine (mul_le_mul hre h6 (abs_nonneg _) (by positivity)).trans ?_
      norm_num
      nlinarith [sq_nonneg m]
    have hr3 : r * r ≤ m ^ 2 * 2 + 4 * σ := by
      have := (abs_le.1 hr2).2
      norm_num at this
      nlinarith [sq_nonneg m]
    have hm3 : 0 ≤ m ^ 2 := sq_nonneg m
    have hσ : 0 ≤ σ := hτ0.le.trans hτ4
    generalize r * r = R at *
    generalize m ^ 2 = M at *
    generalize ‖G‖ ^ 2 = G2 at *
    generalize (‖G‖ + e) ^ 2 = Q at *
    generalize e * (2 * ‖G‖ + e) = Z at *
    have h7 := abs_le.1 hpe
    have h8 := abs_le.1 hr2
    have h9 := abs_le.1 hq
    clear hb hbig hre hrm hmτ hτ2 hτ3 hmG
    norm_num at h7 h8 ⊢
    rw [abs_le]
    constructor <;> linarith

end Verif.Props
