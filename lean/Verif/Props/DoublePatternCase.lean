import Verif.Props.DoublePattern

/-!
# The assumptions of C124 can be met

A correctly rounded library and transform, and a square opening in a dish of 100 m, on a grid of 1001 by 1001 pixels.
-/

namespace Verif.Props

open Verif Verif.Np Verif.Aperture

/-- The correctly rounded library. -/
noncomputable def Spec.bestLibmC (rnd : ℝ → Fl) : Dbl.LibmC where
  toLibmA := Spec.bestLibmA rnd
  expI := fun x => match x with
    | .fin x => (rnd (Real.cos x), rnd (Real.sin x))
    | _ => (.nan, .nan)
  cabs := fun z => match z with
    | (.fin a, .fin b) => rnd (Real.sqrt (a ^ 2 + b ^ 2))
    | _ => .nan

theorem small_range {x : ℝ} (hx : |x| ≤ 2 ^ 400) : |x| < 2 ^ 1024 - 2 ^ 970 :=
  hx.trans_lt (two_pow_lt_range (by norm_num))

theorem round_le_one {rnd : ℝ → Fl} (h : Spec.Rounding rnd) {x z : ℝ} (hx : |x| ≤ 1) (hz : rnd x = .fin z) : |z| ≤ 1 := by
  have h1 : (1 : ℝ) ≤ 2 ^ 400 := one_le_pow₀ one_le_two
  rw [abs_le] at hx ⊢
  constructor
  · exact round_mono h hx.1 (small_range (by rw [abs_neg, abs_one]; exact h1))
      (small_range ((abs_le.2 hx).trans h1)) (round_self h (isDouble_neg isDouble_one)) hz
  · exact round_mono h hx.2 (small_range ((abs_le.2 hx).trans h1)) (small_range (by rw [abs_one]; exact h1)) hz
      (round_self h isDouble_one)

theorem bestLibmC_accurate {rnd : ℝ → Fl} (h : Spec.Rounding rnd) : Spec.AccurateC (Spec.bestLibmC rnd) where
  base := bestLibmA_accurate h
  pow_finite := by
    intro x k _ hx hk
    have h1 : |x ^ k| ≤ 2 ^ 200 := by
      rw [abs_pow]
      calc |x| ^ k ≤ (2 ^ 10) ^ k := pow_le_pow_left₀ (abs_nonneg x) hx k
        _ = 2 ^ (10 * k) := by rw [← pow_mul]
        _ ≤ _ := two_pow_le (by omega)
    obtain ⟨z, h2, h3, h4⟩ := round_rel h (h1.trans (two_pow_le (by norm_num)))
    refine ⟨z, h2, h3, ?_⟩
    have h5 := abs_sub_abs_le_abs_sub z (x ^ k)
    have hτ := tiny_le (k := -1075) (by norm_num)
    have h6 : (1 : ℝ) ≤ 2 ^ 200 := one_le_pow₀ one_le_two
    rw [show (2 : ℝ) ^ 201 = 2 * 2 ^ 200 by rw [pow_succ]; ring]
    generalize (2 : ℝ) ^ 200 = A at *
    generalize (2 : ℝ) ^ (-1075 : ℤ) = τ at *
    have h7 := abs_nonneg (x ^ k)
    generalize |x ^ k| = X at *
    norm_num at h4 hτ
    linarith
  expI := by
    intro x _
    obtain ⟨c, h1, h2, h3⟩ := round_unit h (Real.abs_cos_le_one x)
    obtain ⟨s, h4, h5, h6⟩ := round_unit h (Real.abs_sin_le_one x)
    refine ⟨c, s, ?_, h2, h5, round_le_one h (Real.abs_cos_le_one x) h1, round_le_one h (Real.abs_sin_le_one x) h4,
      h3.2, h6.2⟩
    show (rnd (Real.cos x), rnd (Real.sin x)) = _
    rw [h1, h4]
  cabs := by
    intro a b _ _ hab
    have h0 := Real.sqrt_nonneg (a ^ 2 + b ^ 2)
    obtain ⟨r, h1, h2, h3⟩ := round_rel h (y := Real.sqrt (a ^ 2 + b ^ 2)) (by
      rw [abs_of_nonneg h0]
      exact hab.trans (two_pow_le (by norm_num)))
    rw [abs_of_nonneg h0] at h3
    refine ⟨r, h1, h2, round_mono h h0 (small_range (by rw [abs_zero]; positivity))
      (small_range (by rwa [abs_of_nonneg h0])) (rnd_zero h) h1, h3.trans ?_⟩
    have hτ : (2 : ℝ) ^ (-1075 : ℤ) ≤ 2 ^ (-1072 : ℤ) := zpow_le_zpow_right₀ one_le_two (by norm_num)
    refine add_le_add ?_ hτ
    gcongr
    · norm_num
    · norm_num

/-- A finite number, or zero. -/
def Spec.finPart : Fl → ℝ
  | .fin x => x
  | _ => 0

/-- The correctly rounded transform. -/
noncomputable def Spec.bestFft (rnd : ℝ → Fl) {N : ℕ} (E : Fin N × Fin N → Dbl.Cx) (q : Fin N × Fin N) : Dbl.Cx :=
  let F := Np.fft2 (fun p => (⟨Spec.finPart (E p).1, Spec.finPart (E p).2⟩ : ℂ)) q
  (rnd F.re, rnd F.im)

theorem fft2_bound {N : ℕ} (hN : N ≤ 2 ^ 30) {E : Fin N × Fin N → ℂ} (hE : ∀ q, ‖E q‖ ≤ 2 ^ 303) (q : Fin N × Fin N) :
    ‖Np.fft2 E q‖ ≤ 2 ^ 363 := by
  have hA : ∑ p, ‖E p‖ ≤ 2 ^ 363 := by
    refine (Finset.sum_le_card_nsmul _ _ _ fun p _ => hE p).trans ?_
    rw [Finset.card_univ, Fintype.card_prod, Fintype.card_fin, nsmul_eq_mul,
      show (2 : ℝ) ^ 363 = 2 ^ 60 * 2 ^ 303 by rw [← pow_add]]
    refine mul_le_mul_of_nonneg_right ?_ (by positivity)
    have : N * N ≤ 2 ^ 30 * 2 ^ 30 := Nat.mul_le_mul hN hN
    rw [← pow_add] at this
    exact_mod_cast this
  refine le_trans ?_ hA
  rw [Fourier.fft2_eq, Fintype.sum_prod_type]
  refine (norm_sum_le _ _).trans (Finset.sum_le_sum fun a _ => ?_)
  refine (norm_sum_le _ _).trans (Finset.sum_le_sum fun b _ => ?_)
  rw [norm_mul, Fourier.ew_norm, mul_one]

theorem sq_round {a b τ : ℝ} (h : |a| ≤ |b| / 2 ^ 53 + τ) (hτ : 0 ≤ τ) : a ^ 2 ≤ b ^ 2 / 2 ^ 105 + 2 * τ ^ 2 := by
  have h1 : a ^ 2 ≤ (|b| / 2 ^ 53 + τ) ^ 2 := by
    rw [← sq_abs a]
    exact pow_le_pow_left₀ (abs_nonneg a) h 2
  refine h1.trans ?_
  rw [← sq_abs b]
  have e : |b| ^ 2 / 2 ^ 105 = 2 * (|b| / 2 ^ 53) ^ 2 := by
    rw [div_pow]
    norm_num
    ring
  rw [e]
  nlinarith [sq_nonneg (|b| / 2 ^ 53 - τ)]

theorem bestFft_accurate {rnd : ℝ → Fl} (h : Spec.Rounding rnd) {N : ℕ} (hN : N ≤ 2 ^ 30) :
    Spec.FourierAccurate (1 / 2 ^ 52) (Spec.bestFft rnd (N := N)) := by
  intro E hE
  have hb := fft2_bound hN fun q => (hE q).2
  have hre : ∀ q, ∃ z, rnd (Np.fft2 E q).re = .fin z ∧ Spec.IsDouble z ∧
      |z - (Np.fft2 E q).re| ≤ |(Np.fft2 E q).re| / 2 ^ 53 + 2 ^ (-1075 : ℤ) := fun q =>
    round_rel h ((Complex.abs_re_le_norm _).trans ((hb q).trans (two_pow_le (by norm_num))))
  have him : ∀ q, ∃ z, rnd (Np.fft2 E q).im = .fin z ∧ Spec.IsDouble z ∧
      |z - (Np.fft2 E q).im| ≤ |(Np.fft2 E q).im| / 2 ^ 53 + 2 ^ (-1075 : ℤ) := fun q =>
    round_rel h ((Complex.abs_im_le_norm _).trans ((hb q).trans (two_pow_le (by norm_num))))
  choose a ha had hae using hre
  choose b hb' hbd hbe using him
  refine ⟨fun q => ⟨a q, b q⟩, ?_, fun q => ⟨had q, hbd q⟩, ?_⟩
  · funext q
    show (rnd (Np.fft2 (fun p => (⟨(E p).re, (E p).im⟩ : ℂ)) q).re, rnd (Np.fft2 (fun p => (⟨(E p).re, (E p).im⟩ : ℂ)) q).im) = _
    have : (fun p => (⟨(E p).re, (E p).im⟩ : ℂ)) = E := rfl
    rw [this, ha, hb']
    rfl
  · have hq : ∀ q, ‖(⟨a q, b q⟩ : ℂ) - Np.fft2 E q‖ ^ 2 ≤ ‖Np.fft2 E q‖ ^ 2 / 2 ^ 105 + 4 * (2 ^ (-1075 : ℤ)) ^ 2 := by
      intro q
      rw [← Complex.normSq_eq_norm_sq, ← Complex.normSq_eq_norm_sq, Complex.normSq_apply, Complex.normSq_apply]
      have h1 := sq_round (hae q) (by positivity)
      have h2 := sq_round (hbe q) (by positivity)
      simp only [Complex.sub_re, Complex.sub_im]
      generalize (2 : ℝ) ^ (-1075 : ℤ) = τ at *
      norm_num at h1 h2 ⊢
      linarith
    refine (Finset.sum_le_sum fun q _ => hq q).trans ?_
    rw [Finset.sum_add_distrib, ← Finset.sum_div, Finset.sum_const, Finset.card_univ, Fintype.card_prod, Fintype.card_fin,
      nsmul_eq_mul]
    have hS : 0 ≤ ∑ q, ‖Np.fft2 E q‖ ^ 2 := Finset.sum_nonneg fun q _ => by positivity
    refine add_le_add ?_ ?_
    · norm_num
      linarith
    · have h1 : ((N * N : ℕ) : ℝ) ≤ 2 ^ 60 := by
        have : N * N ≤ 2 ^ 30 * 2 ^ 30 := Nat.mul_le_mul hN hN
        rw [← pow_add] at this
        exact_mod_cast this
      have h2 : (4 : ℝ) * (2 ^ (-1075 : ℤ)) ^ 2 = 2 ^ (-2148 : ℤ) := by
        rw [← zpow_natCast, ← zpow_mul, show (4 : ℝ) = 2 ^ (2 : ℤ) by norm_num, ← zpow_add₀ two_ne_zero]
        norm_num
      rw [h2]
      calc ((N * N : ℕ) : ℝ) * 2 ^ (-2148 : ℤ) ≤ 2 ^ 60 * 2 ^ (-2148 : ℤ) := by gcongr
        _ = 2 ^ (-2088 : ℤ) := by
          rw [← zpow_natCast, ← zpow_add₀ two_ne_zero]
          norm_num
        _ ≤ _ := zpow_le_zpow_right₀ one_le_two (by norm_num)

/-- A square opening of 60.5 m. -/
noncomputable def Spec.squareBlock {ι : Type} (x y : ι → ℝ) : Py (ι → ℝ) :=
  .ok fun q => if |x q| ≤ 121 / 4 ∧ |y q| ≤ 121 / 4 then 1 else 0

/-- The same on doubles. -/
noncomputable def Spec.squareBlockD {ι : Type} (x y : ι → Fl) : Py (ι → Fl) :=
  .ok fun q => .fin (if |Spec.finPart (x q)| ≤ 121 / 4 ∧ |Spec.finPart (y q)| ≤ 121 / 4 then 1 else 0)

theorem grid_half {i : Fin 1001} {t : ℝ} (ht : |t - Np.linspace (-(50 * 5)) (50 * 5) 1001 i| ≤ 448 * 50 / 2 ^ 53) :
    (|t| ≤ 121 / 4 ↔ |Np.linspace (-(50 * 5)) (50 * 5) 1001 i| ≤ 121 / 4) ∧
      (|Np.linspace (-(50 * 5)) (50 * 5) 1001 i| ≤ 121 / 4 → |Np.linspace (-(50 * 5)) (50 * 5) 1001 i| ≤ 30) := by
  have hx : Np.linspace (-(50 * 5)) (50 * 5) 1001 i = (((i : ℕ) : ℤ) - 500 : ℤ) / 2 := by
    unfold Np.linspace
    push_cast
    norm_num
    ring
  rw [hx] at ht ⊢
  generalize ((i : ℕ) : ℤ) - 500 = k at *
  norm_num at ht
  rw [abs_le] at ht
  have hk : (|(k : ℝ) / 2| ≤ 121 / 4 → |(k : ℝ) / 2| ≤ 30) := by
    intro h1
    rw [abs_div, abs_of_pos (by norm_num : (0 : ℝ) < 2)] at h1 ⊢
    have h2 : ((|k| : ℤ) : ℝ) ≤ 121 / 2 := by
      push_cast
      linarith
    have h3 : |k| ≤ 60 := by
      by_contra hc
      push Not at hc
      have : (61 : ℝ) ≤ ((|k| : ℤ) : ℝ) := by exact_mod_cast hc
      linarith
    have : ((|k| : ℤ) : ℝ) ≤ 60 := by exact_mod_cast h3
    push_cast at this
    linarith
  refine ⟨⟨fun h1 => ?_, fun h1 => ?_⟩, hk⟩
  · by_contra hc
    push Not at hc
    have h2 : ((121 / 2 : ℝ)) < ((|k| : ℤ) : ℝ) := by
      rw [abs_div, abs_of_pos (by norm_num : (0 : ℝ) < 2)] at hc
      push_cast
      linarith
    have h3 : 61 ≤ |k| := by
      by_contra hc'
      push Not at hc'
      have : ((|k| : ℤ) : ℝ) ≤ 60 := by exact_mod_cast (by omega : |k| ≤ 60)
      linarith
    have h4 : (61 : ℝ) ≤ |(k : ℝ)| := by exact_mod_cast h3
    rw [abs_le] at h1
    rcases abs_cases (k : ℝ) with ⟨e, -⟩ | ⟨e, -⟩ <;> rw [e] at h4 <;> linarith
  · have h2 := abs_le.1 (hk h1)
    rw [abs_le]
    constructor <;> linarith

/-- The dish of 100 m at a wavelength of 1/128 m, a square part of which is lit, defocused by a quarter of a wavelength; the
grid is five times as wide as the dish.  14641 pixels are lit with amplitude 1; every pixel of the far field is right to
2/10000. -/
example : ∃ rnd L, ∃ fft : (Fin 1001 × Fin 1001 → Dbl.Cx) → Fin 1001 × Fin 1001 → Dbl.Cx, Spec.Rounding rnd ∧
    Spec.AccurateC L ∧ Spec.FourierAccurate (1 / 2 ^ 52) fft ∧ ∃ P Q,
      Dbl.radiationPattern rnd L fft [] ([0, 0, 0, 0, 1 / 4, 0].map .fin) (.fin 0) (.fin (1 / 128)) (fun _ _ _ _ => .ok fun _ => .fin 1)
        ⟨Spec.squareBlockD, fun _ _ _ => .ok fun _ => .fin 0, .fin 50⟩ (.fin 5) = .ok P ∧
      Aperture.radiationPattern [] [0, 0, 0, 0, 1 / 4, 0] 0 (1 / 128) (fun _ _ _ _ => .ok fun _ => 1)
        ⟨Spec.squareBlock, fun _ _ _ => .ok fun _ => 0, 50⟩ 5 = .ok Q ∧
      ∀ q, ∃ F, P.F q = Spec.cx F ∧ ‖F - Q.F q‖ ≤ 2 / 10 ^ 4 := by
  obtain ⟨rnd, h⟩ := rounding_exists
  have hdq : Spec.IsDouble (1 / 4) := ⟨1, -2, by norm_num, by norm_num, by norm_num, by norm_num⟩
  have hd50 : Spec.IsDouble 50 := by simpa using isDouble_int (z := 50) (by norm_num)
  have hsum : (([0, 0, 0, 0, 1 / 4, 0] : List ℝ).map fun k => |k|).sum = 1 / 4 := by norm_num [abs_of_pos]
  obtain ⟨c, hc, hcd, hce, hc1, hc2⟩ := box_near (p := 50) (b := 5) h (by norm_num) (by norm_num) (by norm_num) (by norm_num)
  choose g hg hgd hge hg0 hge' hgb using fun i : Fin 1001 =>
    boxGrid_near (p := 50) (b := 5) h (by norm_num) (by norm_num) (by norm_num) hcd hce hc1 hc2 (by norm_num) (by norm_num) i
  have hgrid : ∀ i : Fin 1001, Spec.gridD rnd 50 5 1001 i = .fin (g i) := by
    intro i
    unfold Spec.gridD
    rw [hc]
    exact hg i
  have hg2 := fun i => grid_half (hge' i)
  set X : Fin 1001 → ℝ := Np.linspace (-(50 * 5)) (50 * 5) 1001 with hX
  have hO : Spec.SameOptics (⟨Spec.squareBlock, fun _ _ _ => .ok fun _ => 0, 50⟩ : TelGeo (Fin 1001 × Fin 1001))
      (fun _ _ _ _ => .ok fun _ => 1) ⟨Spec.squareBlockD, fun _ _ _ => .ok fun _ => .fin 0, .fin 50⟩
      (fun _ _ _ _ => .ok fun _ => .fin 1) (fun q => X q.2) (fun q => X q.1) (fun q => Spec.gridD rnd 50 5 1001 q.2)
      (fun q => Spec.gridD rnd 50 5 1001 q.1) [] 0 (1 / 128) 0 0 0
      (fun q => if |X q.2| ≤ 121 / 4 ∧ |X q.1| ≤ 121 / 4 then 1 else 0) (fun _ => 1) (fun _ => 0) := by
    refine ⟨rfl, rfl, ?_, fun q => ?_, rfl, ⟨fun _ => 1, rfl, fun q => ⟨isDouble_one, ?_, fun _ => by simp⟩⟩, rfl,
      ⟨fun _ => 0, rfl, fun q => ⟨isDouble_zero, ?_, fun _ => by simp⟩⟩⟩
    · show Except.ok _ = Except.ok _
      congr 1
      funext q
      simp only [hgrid, Spec.finPart, (hg2 q.1).1, (hg2 q.2).1]
    · by_cases hq : |X q.2| ≤ 121 / 4 ∧ |X q.1| ≤ 121 / 4
      · right
        refine ⟨if_pos hq, ?_⟩
        have h1 := abs_le.1 ((hg2 q.2).2 hq.1)
        have h2 := abs_le.1 ((hg2 q.1).2 hq.2)
        norm_num
        nlinarith
      · exact Or.inl (if_neg hq)
    · rw [abs_one]
      exact one_le_pow₀ one_le_two
    · rw [abs_zero]
      positivity
  obtain ⟨P, Q, E, hP, hQ, -, hE, -, hF⟩ := C124_pattern h (bestLibmC_accurate h) 2 (by norm_num) [0, 0, 0, 0, 1 / 4, 0]
    (by simp) (by
      intro k hk
      simp only [List.mem_cons, List.not_mem_nil, or_false] at hk
      rcases hk with rfl | rfl | rfl | rfl | rfl | rfl
      all_goals first | exact isDouble_zero | exact hdq) (by rw [hsum]; norm_num) 1001 (by norm_num) (by norm_num)
    (Spec.bestFft rnd) (1 / 2 ^ 52) (by positivity) (by norm_num) (bestFft_accurate h (by norm_num))
    ⟨Spec.squareBlock, fun _ _ _ => .ok fun _ => 0, 50⟩ (fun _ _ _ _ => .ok fun _ => 1)
    ⟨Spec.squareBlockD, fun _ _ _ => .ok fun _ => .fin 0, .fin 50⟩ (fun _ _ _ _ => .ok fun _ => .fin 1) hd50 (by norm_num)
    (by norm_num) [] 5 0 (1 / 128) 0 0 0 (by norm_num) (by norm_num) (by norm_num) (by norm_num) le_rfl (by positivity) le_rfl
    (by norm_num) le_rfl _ _ _ hO
  refine ⟨rnd, _, _, h, bestLibmC_accurate h, bestFft_accurate h (by norm_num), P, Q, hP, hQ, fun q => ?_⟩
  obtain ⟨F, hF1, -, -, hF2⟩ := hF q
  refine ⟨F, hF1, hF2.trans ?_⟩
  have hE1 : ∀ q, ‖E q‖ ≤ 1 := by
    intro q
    rw [hE q]
    split_ifs <;> norm_num
  have h1 : ∑ q, ‖E q‖ ≤ 1002001 := by
    refine (Finset.sum_le_card_nsmul _ _ _ fun q _ => hE1 q).trans ?_
    rw [Finset.card_univ, Fintype.card_prod, Fintype.card_fin]
    norm_num
  have h2 : Real.sqrt (∑ q, ‖E q‖ ^ 2) ≤ 1001 := by
    rw [Real.sqrt_le_left (by norm_num)]
    refine (Finset.sum_le_card_nsmul _ _ 1 fun q _ => pow_le_one₀ (norm_nonneg _) (hE1 q)).trans ?_
    rw [Finset.card_univ, Fintype.card_prod, Fintype.card_fin]
    norm_num
  have h3 : Spec.fieldError 2 [0, 0, 0, 0, 1 / 4, 0] 0 0 ≤ 1 / 10 ^ 10 := by
    unfold Spec.fieldError
    rw [hsum]
    have : Real.sqrt 2 ≤ 3 / 2 := by
      rw [Real.sqrt_le_left (by norm_num)]
      norm_num
    have h4 : (1 + Real.sqrt 2) ^ 2 ≤ (1 + 3 / 2) ^ 2 := by gcongr
    norm_num at h4 ⊢
    linarith
  have hτ1 := tiny_le (k := -1074) (by norm_num)
  have hτ2 := tiny_le (k := -1000) (by norm_num)
  have h5 : Spec.totalError E (Spec.fieldError 2 [0, 0, 0, 0, 1 / 4, 0] 0 0) 0 ≤ 10021 / 10 ^ 8 := by
    unfold Spec.totalError
    rw [Fintype.card_prod, Fintype.card_fin]
    have h6 : Spec.fieldError 2 [0, 0, 0, 0, 1 / 4, 0] 0 0 * ∑ q, ‖E q‖ ≤ 1 / 10 ^ 10 * 1002001 :=
      mul_le_mul h3 h1 (Finset.sum_nonneg fun q _ => norm_nonneg _) (by positivity)
    generalize (2 : ℝ) ^ (-1074 : ℤ) = τ at *
    norm_num at h6 hτ1 ⊢
    linarith
  unfold Spec.farError
  generalize (2 : ℝ) ^ (-1000 : ℤ) = τ at *
  generalize Spec.totalError E (Spec.fieldError 2 [0, 0, 0, 0, 1 / 4, 0] 0 0) 0 = T at *
  norm_num at h5 hτ2 ⊢
  linarith

end Verif.Props
