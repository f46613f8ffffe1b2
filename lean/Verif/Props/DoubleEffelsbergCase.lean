import Verif.Props.DoubleEffelsbergFar
import Verif.Props.DoubleOwnCase

/-!
# The assumptions of C127 can be met

A correctly rounded library, and the Effelsberg telescope with a shade of 45 degrees on a grid of six by six pixels, 20 m apart.
-/

namespace Verif.Props

open Verif Verif.Np Verif.Aperture

/-- The correctly rounded library with a tangent. -/
noncomputable def Spec.bestLibmT (rnd : ℝ → Fl) : Dbl.LibmT where
  toLibmP := Spec.bestLibmP rnd
  tan := fun x => match x with
    | .fin x => rnd (Real.tan x)
    | _ => .nan

theorem bestLibmT_accurate {rnd : ℝ → Fl} (h : Spec.Rounding rnd) : Spec.AccurateT (Spec.bestLibmT rnd) where
  base := bestLibmP_accurate h
  tan := by
    intro x _ h1 h2
    have hx0 : 0 < x := lt_of_lt_of_le (by positivity) h1
    have hpi := Real.pi_gt_three
    have hlo : x ≤ Real.tan x := Real.le_tan hx0.le (by linarith)
    have hc : 1 / 5 ≤ Real.cos x := by
      have := Real.one_sub_sq_div_two_le_cos (x := x)
      nlinarith
    have hhi : Real.tan x ≤ 5 := by
      rw [Real.tan_eq_sin_div_cos, div_le_iff₀ (by linarith)]
      have := Real.sin_le_one x
      linarith
    obtain ⟨z, j1, j2, j3⟩ := round_pos h (y := Real.tan x) (le_trans (by norm_num at h1 ⊢; linarith) hlo) (hhi.trans (by norm_num))
    refine ⟨z, j1, j2, j3.trans ?_⟩
    have : 0 ≤ Real.tan x := hx0.le.trans hlo
    gcongr <;> norm_num

theorem bestLibmT_zero {rnd : ℝ → Fl} (h : Spec.Rounding rnd) : (Spec.bestLibmT rnd).sin (.fin 0) = .fin 0 ∧
    (Spec.bestLibmT rnd).powr (.fin 0) (.fin (-2)) = .pinf := by
  constructor
  · show rnd (Real.sin 0) = _
    rw [Real.sin_zero, rnd_zero h]
  · show Dbl.rop rnd (Fl.pow (.fin 0) (-2)) = _
    rw [Fl.pow_fin, if_neg (by norm_num), if_pos rfl, if_neg (by norm_num)]
    rfl

theorem angle45 : (45 : ℝ) * (Real.pi / 180) = Real.pi / 4 := by ring

theorem shade45 : 34.85 ≤ Spec.shadeD (Real.pi / 4) ∧ Spec.shadeD (Real.pi / 4) ≤ 34.855 ∧
    Spec.shadeC (Real.pi / 4) = Spec.shadeD (Real.pi / 4) := by
  have hs : Real.sin (Real.pi / 4) ^ 2 = 1 / 2 := by
    rw [Real.sin_pi_div_four, div_pow, Real.sq_sqrt (by norm_num)]
    norm_num
  have e : Spec.shadeD (Real.pi / 4) = (Real.sqrt 4999 - 1) / 2 := by
    unfold Spec.shadeD
    rw [hs]
    norm_num
    ring
  have h1 : 70.7 ≤ Real.sqrt 4999 := Real.le_sqrt_of_sq_le (by norm_num)
  have h2 : Real.sqrt 4999 ≤ 70.71 := by
    rw [Real.sqrt_le_left (by norm_num)]
    norm_num
  refine ⟨?_, ?_, ?_⟩
  · rw [e]
    norm_num at h1 ⊢
    linarith
  · rw [e]
    norm_num at h2 ⊢
    linarith
  · unfold Spec.shadeC
    rw [Real.tan_pi_div_four, div_one]

theorem node50 (i : Fin 6) : Spec.node 50 1 6 i ^ 2 = 2500 ∧ |Spec.node 50 1 6 i| = 50 ∨
    Spec.node 50 1 6 i ^ 2 = 900 ∧ |Spec.node 50 1 6 i| = 30 ∨
    Spec.node 50 1 6 i ^ 2 = 100 ∧ |Spec.node 50 1 6 i| = 10 := by
  have e : Spec.node 50 1 6 i = 20 * ((i : ℕ) : ℝ) - 50 := by
    unfold Spec.node Np.linspace
    push_cast
    norm_num
    ring
  rw [e]
  have hi : i = 0 ∨ i = 1 ∨ i = 2 ∨ i = 3 ∨ i = 4 ∨ i = 5 := by fin_cases i <;> decide
  rcases hi with rfl | rfl | rfl | rfl | rfl | rfl
  all_goals
    simp only [Fin.val_zero, Fin.val_one, Fin.val_two, show ((3 : Fin 6) : ℕ) = 3 from rfl, show ((4 : Fin 6) : ℕ) = 4 from rfl,
      show ((5 : Fin 6) : ℕ) = 5 from rfl]
    norm_num [abs_of_neg, abs_of_pos]

theorem clear50 (q : Fin 6 × Fin 6) : Spec.ClearOfEdges 50 3.25 1 20 (Spec.node 50 1 6 q.2) (Spec.node 50 1 6 q.1) := by
  unfold Spec.ClearOfEdges
  rcases node50 q.2 with ⟨a1, a2⟩ | ⟨a1, a2⟩ | ⟨a1, a2⟩ <;> rcases node50 q.1 with ⟨b1, b2⟩ | ⟨b1, b2⟩ | ⟨b1, b2⟩ <;>
    rw [a1, a2, b1, b2] <;> norm_num [abs_of_neg, abs_of_pos]

/-- The edge of the wedge of 45 degrees 30 m from the axis. -/
theorem wedge45 : 21.27 ≤ 1 + Spec.shadeD (Real.pi / 4) / (Spec.shadeC (Real.pi / 4) - 23.25) * (30 - 23.25) ∧
    1 + Spec.shadeD (Real.pi / 4) / (Spec.shadeC (Real.pi / 4) - 23.25) * (30 - 23.25) ≤ 21.3 := by
  obtain ⟨h1, h2, h3⟩ := shade45
  rw [h3]
  generalize Spec.shadeD (Real.pi / 4) = d at *
  norm_num at h1 h2
  have hp : 0 < d - 23.25 := by norm_num; linarith
  have l1 : 3.003 ≤ d / (d - 23.25) := by
    rw [le_div_iff₀ hp]
    norm_num
    linarith
  have l2 : d / (d - 23.25) ≤ 3.005 := by
    rw [div_le_iff₀ hp]
    norm_num
    linarith
  generalize d / (d - 23.25) = s at *
  norm_num at l1 l2 ⊢
  constructor <;> linarith

theorem clearShade50 (i j : Fin 6) : Spec.ClearOfShade (45 * (Real.pi / 180)) (Spec.node 50 1 6 i) (Spec.node 50 1 6 j) := by
  rw [angle45]
  obtain ⟨h1, h2, h3⟩ := shade45
  obtain ⟨w1, w2⟩ := wedge45
  have hj : |Spec.node 50 1 6 j| = 10 ∨ 30 ≤ |Spec.node 50 1 6 j| := by
    rcases node50 j with ⟨-, b⟩ | ⟨-, b⟩ | ⟨-, b⟩ <;> rw [b] <;> norm_num
  unfold Spec.ClearOfShade
  rcases node50 i with ⟨-, a⟩ | ⟨-, a⟩ | ⟨-, a⟩ <;> rw [a]
  · refine ⟨?_, fun _ hC => ?_⟩
    · rw [h3, abs_of_pos (by norm_num at h2; linarith)]
      norm_num at h2 ⊢
      linarith
    · rw [h3] at hC
      norm_num at h2
      linarith
  · refine ⟨?_, fun _ _ => ?_⟩
    · rw [h3, abs_of_neg (by norm_num at h1; linarith)]
      norm_num at h1 ⊢
      linarith
    · generalize 1 + Spec.shadeD (Real.pi / 4) / (Spec.shadeC (Real.pi / 4) - 23.25) * (30 - 23.25) = w at *
      norm_num at w1 w2
      rcases hj with hj | hj
      · rw [hj, abs_of_neg (by linarith)]
        norm_num
        linarith
      · rw [abs_of_pos (by linarith)]
        norm_num
        linarith
  · refine ⟨?_, fun hC _ => ?_⟩
    · rw [h3, abs_of_neg (by norm_num at h1; linarith)]
      norm_num at h1 ⊢
      linarith
    · norm_num at hC

theorem unshaded45 {x y : ℝ} (h : |x| = 10 ∨ (|x| = 30 ∧ |y| = 30)) : ¬ Spec.shade (45 * (Real.pi / 180)) x y := by
  rw [angle45]
  obtain ⟨h1, h2, h3⟩ := shade45
  obtain ⟨w1, w2⟩ := wedge45
  unfold Spec.shade
  rcases h with hx | ⟨hx, hy⟩
  · rw [hx]
    rintro (⟨i, -⟩ | i)
    · norm_num at i
    · rw [h3] at i
      norm_num at h1
      linarith
  · rw [hx, hy]
    rintro (⟨-, -, i⟩ | i)
    · generalize 1 + Spec.shadeD (Real.pi / 4) / (Spec.shadeC (Real.pi / 4) - 23.25) * (30 - 23.25) = w at *
      norm_num at w2
      linarith
    · rw [h3] at i
      norm_num at h1
      linarith

/-- The shade of 45 degrees darkens the pixel at (30, 10) m and leaves the ones at (30, 30) m and (10, 10) m. -/
example : ∃ B, Telgeometry.blockEffelsberg (45 * (Real.pi / 180)) ![30, 30, 10] ![10, 30, -10] = .ok B ∧ B 0 = 0 ∧ B 1 = 1 ∧
    B 2 = 1 := by
  have hp := Real.pi_pos
  obtain ⟨h1, h2, h3⟩ := shade45
  obtain ⟨w1, w2⟩ := wedge45
  obtain ⟨B, hB, hv⟩ := C25_value (45 * (Real.pi / 180)) (by positivity) (by rw [angle45]; linarith) ![30, 30, 10] ![10, 30, -10]
  refine ⟨B, hB, (hv 0).2 fun hn => hn.2.1 ?_, (hv 1).1 ⟨?_, ?_, ?_⟩, (hv 2).1 ⟨?_, ?_, ?_⟩⟩
  · rw [angle45]
    left
    refine ⟨by norm_num [abs_of_pos], ?_, ?_⟩
    · rw [h3]
      norm_num [abs_of_pos] at h1 ⊢
      linarith
    · show |(10 : ℝ)| < 1 + _ * (|(30 : ℝ)| - 23.25)
      rw [show |(30 : ℝ)| = 30 from abs_of_pos (by norm_num), show |(10 : ℝ)| = 10 from abs_of_pos (by norm_num)]
      norm_num at w1 ⊢
      linarith
  · unfold Spec.visible
    show _ ∧ _ ∧ _
    norm_num [abs_of_pos]
  · exact unshaded45 (.inr ⟨abs_of_pos (by norm_num), abs_of_pos (by norm_num)⟩)
  · exact unshaded45 (.inr ⟨abs_of_pos (by norm_num), abs_of_pos (by norm_num)⟩)
  · show Spec.visible 50 3.25 1 20 10 (-10)
    unfold Spec.visible
    norm_num [abs_of_pos]
  · exact unshaded45 (.inl (by show |(10 : ℝ)| = 10; norm_num [abs_of_pos]))
  · exact unshaded45 (.inl (by show |(-10 : ℝ)| = 10; norm_num))

theorem angle_case (Lm : Dbl.LibmT) : Spec.ShadeAngle Lm 45 (fun q : Fin 6 × Fin 6 => Spec.node 50 1 6 q.2)
    (fun q => Spec.node 50 1 6 q.1) :=
  .inr ⟨by norm_num, by norm_num, fun q => ⟨clearShade50 _ _, clearShade50 _ _⟩⟩

theorem eff_light : Spec.SensibleLight 50 1 (-14) 0 0 where
  i1 := by norm_num
  id := isDouble_one
  c0 := by norm_num
  c1 := by norm_num
  x1 := by norm_num
  y1 := by norm_num

theorem eff_own (rnd : ℝ → Fl) (Lm : Dbl.LibmP) : Spec.OwnLight rnd Lm (ι := Fin 6 × Fin 6) 50 (fun q => Spec.node 50 1 6 q.2)
    (fun q => Spec.node 50 1 6 q.1) [1, -14, 2, 0, 0] Aperture.illumParabolic (Dbl.illumParabolic rnd Lm)
    (|1| / 2 ^ 35 + 2 ^ (-1074 : ℤ)) :=
  .inl ⟨rfl, rfl, 1, -14, 2, 0, 0, rfl, eff_light, by simpa using isDouble_int (z := 2) (by norm_num), by norm_num,
    by norm_num, fun q hq => .inr (.inl rfl), rfl⟩

theorem eff_amp {B Ea : Fin 6 × Fin 6 → ℝ}
    (hB : Telgeometry.blockEffelsberg (45 * (Real.pi / 180)) (fun q : Fin 6 × Fin 6 => Spec.node 50 1 6 q.2)
      (fun q => Spec.node 50 1 6 q.1) = .ok B)
    (hE : Aperture.illumParabolic (fun q : Fin 6 × Fin 6 => Spec.node 50 1 6 q.2) (fun q => Spec.node 50 1 6 q.1)
      [1, -14, 2, 0, 0] 50 = .ok Ea) (q : Fin 6 × Fin 6) : |B q * Ea q| ≤ 1 := by
  have hp := Real.pi_pos
  obtain ⟨B', hB', hv⟩ := C25_value (45 * (Real.pi / 180)) (by positivity) (by rw [angle45]; linarith)
    (fun q : Fin 6 × Fin 6 => Spec.node 50 1 6 q.2) (fun q => Spec.node 50 1 6 q.1)
  have hBB : B' = B := Except.ok.inj (hB'.symm.trans hB)
  subst hBB
  by_cases hV : Spec.visible 50 3.25 1 20 (Spec.node 50 1 6 q.2) (Spec.node 50 1 6 q.1) ∧
      ¬ Spec.shade (45 * (Real.pi / 180)) (Spec.node 50 1 6 q.2) (Spec.node 50 1 6 q.1) ∧
      ¬ Spec.shade (45 * (Real.pi / 180)) (Spec.node 50 1 6 q.1) (Spec.node 50 1 6 q.2)
  · rw [(hv q).1 hV, one_mul]
    have hin := hV.1.2.1
    have hEq : Ea q = Aperture.parabolicAt 1 (.bare (-14)) 2 (.bare 0) (.bare 0) 50 (Spec.node 50 1 6 q.2)
        (Spec.node 50 1 6 q.1) := by
      have := Except.ok.inj hE
      rw [← this]
      rfl
    set b := 1 - (Real.sqrt ((Spec.node 50 1 6 q.2 - 0) ^ 2 + (Spec.node 50 1 6 q.1 - 0) ^ 2) / 50) ^ 2 with hb
    have hb2 : b = 1 - (Spec.node 50 1 6 q.2 ^ 2 + Spec.node 50 1 6 q.1 ^ 2) / 2500 := by
      rw [hb, div_pow, Real.sq_sqrt (by positivity), sub_zero, sub_zero]
      norm_num
    have hb0 : 0 < b := by
      rw [hb2]
      norm_num at hin
      linarith
    have hb1 : b ≤ 1 := by
      rw [hb2]
      have : 0 ≤ Spec.node 50 1 6 q.2 ^ 2 + Spec.node 50 1 6 q.1 ^ 2 := by positivity
      linarith
    rw [hEq, parabolicAt_val (by norm_num) (by norm_num) (.inr (.inr hb0)), ← hb, one_mul]
    obtain ⟨t1, t2⟩ := taper_range (c := -14) (by norm_num) (by norm_num)
    have t0 : (0 : ℝ) ≤ 10 ^ (-14 / 20 : ℝ) := le_trans (by positivity) t1
    have p1 : b ^ (2 : ℝ) ≤ 1 := Real.rpow_le_one hb0.le hb1 (by norm_num)
    have p0 : 0 ≤ b ^ (2 : ℝ) := Real.rpow_nonneg hb0.le _
    generalize (10 : ℝ) ^ (-14 / 20 : ℝ) = C at *
    generalize b ^ (2 : ℝ) = w at *
    rw [abs_of_nonneg (by nlinarith)]
    nlinarith
  · rw [(hv q).2 hV, zero_mul, abs_zero]
    exact zero_le_one

/-- Effelsberg with a shade of 45 degrees, tapered by 14 dB, at a wavelength of 1/128 m and a radial offset of 1/32 m: every pixel of the
far field is right to 1/10 ^ 8. -/
example : ∃ rnd Lm, ∃ fft : (Fin 6 × Fin 6 → Dbl.Cx) → Fin 6 × Fin 6 → Dbl.Cx, Spec.Rounding rnd ∧
    Spec.AccurateT Lm ∧ Spec.FourierAccurate (1 / 2 ^ 52) fft ∧ ∃ P Q,
      Dbl.radiationPattern rnd Lm.toLibmC fft ([1, -14, 2, 0, 0].map .fin) ([1 / 4].map .fin) (.fin (1 / 32)) (.fin (1 / 128))
        (Dbl.illumParabolic rnd Lm.toLibmP) (Dbl.effelsbergTel rnd Lm (.fin 45)) (.fin 1) = .ok P ∧
      Aperture.radiationPattern [1, -14, 2, 0, 0] [1 / 4] (1 / 32) (1 / 128) Aperture.illumParabolic
        (Telgeometry.effelsbergTel (45 * (Real.pi / 180))) 1 = .ok Q ∧
      ∀ q, ∃ G, P.F q = Spec.cx G ∧ ‖G - Q.F q‖ ≤ 1 / 10 ^ 8 := by
  obtain ⟨rnd, h⟩ := rounding_exists
  have hdq : Spec.IsDouble (1 / 4) := ⟨1, -2, by norm_num, by norm_num, by norm_num, by norm_num⟩
  have h32 : |(1 / 32 : ℝ)| = 1 / 32 := abs_of_pos (by norm_num)
  obtain ⟨P, Q, E, B, Ea, hP, hQ, hB, hE, hEa, -, hF⟩ := C127_pattern h (bestLibmT_accurate h) 0 (by norm_num) [1 / 4]
    (by simp) (by
      intro k hk
      simp only [List.mem_cons, List.not_mem_nil, or_false] at hk
      rw [hk]
      exact hdq) (by norm_num [abs_of_pos]) 6 (by norm_num) (by norm_num) (Spec.bestFft rnd) (1 / 2 ^ 52) (by positivity) (by norm_num)
    (bestFft_accurate h (by norm_num)) 45 1 le_rfl (by norm_num) clear50 (angle_case _) [1, -14, 2, 0, 0] _ _ _ (eff_own rnd _)
    (1 / 32) (1 / 128) (by norm_num) (by norm_num) (by norm_num) (by
      rw [h32]
      norm_num)
  refine ⟨rnd, _, _, h, bestLibmT_accurate h, bestFft_accurate h (by norm_num), P, Q, hP, hQ, fun q => ?_⟩
  obtain ⟨G, hF1, -, hF2⟩ := hF q
  refine ⟨G, hF1, hF2.trans ?_⟩
  have hE1 : ∀ q, ‖E q‖ ≤ 1 := by
    intro q
    rw [hEa q]
    exact eff_amp hB hE q
  have h1 : ∑ q, ‖E q‖ ≤ 36 := by
    refine (Finset.sum_le_card_nsmul _ _ _ fun q _ => hE1 q).trans ?_
    rw [Finset.card_univ, Fintype.card_prod, Fintype.card_fin]
    norm_num
  have hτ1 := tiny_le (k := -1074) (by norm_num)
  have hτ2 := tiny_le (k := -1000) (by norm_num)
  have h2 : Real.sqrt (∑ q, ‖E q‖ ^ 2) ≤ 6 := by
    rw [Real.sqrt_le_left (by norm_num)]
    refine (Finset.sum_le_card_nsmul _ _ 1 fun q _ => pow_le_one₀ (norm_nonneg _) (hE1 q)).trans ?_
    rw [Finset.card_univ, Fintype.card_prod, Fintype.card_fin]
    norm_num
  have hw : Spec.effWaves |1 / 32| (1 / 128) ≤ 5 / 2 ^ 42 := by
    unfold Spec.effWaves
    rw [h32]
    generalize (2 : ℝ) ^ (-1074 : ℤ) = τ at *
    norm_num at hτ1 ⊢
    linarith
  set e := Spec.fieldError 0 [1 / 4] (2 * |1 / 32| / (1 / 128)) (Spec.effWaves |1 / 32| (1 / 128)) with he
  have h3 : e ≤ 1 / 10 ^ 10 := by
    rw [he]
    unfold Spec.fieldError
    rw [h32] at hw ⊢
    generalize Spec.effWaves (1 / 32) (1 / 128) = W at *
    norm_num [abs_of_pos] at hw ⊢
    linarith
  have h5 : Spec.totalError E e (|1| / 2 ^ 35 + 2 ^ (-1074 : ℤ)) ≤ 6 / 10 ^ 9 := by
    unfold Spec.totalError
    rw [Fintype.card_prod, Fintype.card_fin, abs_one]
    have h6 : e * ∑ q, ‖E q‖ ≤ 1 / 10 ^ 10 * 36 :=
      mul_le_mul h3 h1 (Finset.sum_nonneg fun q _ => norm_nonneg _) (by positivity)
    generalize (2 : ℝ) ^ (-1074 : ℤ) = τ at *
    norm_num at h6 hτ1 ⊢
    linarith
  unfold Spec.farError
  generalize (2 : ℝ) ^ (-1000 : ℤ) = τ at *
  generalize Spec.totalError E e (|1| / 2 ^ 35 + 2 ^ (-1074 : ℤ)) = T at *
  norm_num at h5 hτ2 ⊢
  linarith

theorem eff_gauss (rnd : ℝ → Fl) (Lm : Dbl.LibmP) : Spec.OwnLight rnd Lm (ι := Fin 6 × Fin 6) 50 (fun q => Spec.node 50 1 6 q.2)
    (fun q => Spec.node 50 1 6 q.1) [1, -14, 2, 1, -2] Aperture.illumGauss (Dbl.illumGauss rnd Lm)
    (|1| / 2 ^ 40 + 2 ^ (-1073 : ℤ)) :=
  .inr ⟨rfl, rfl, 1, -14, 1, -2, [2], rfl, ⟨by norm_num, isDouble_one, by norm_num, by norm_num, by norm_num, by norm_num⟩, rfl⟩

/-- A fit with the Gaussian illumination, off the axis, and without shade, as in scripts/pyoof_effelsberg_mpi.py: six finite residuals
between -1 and 1. -/
example : ∃ rnd Lm, ∃ fft : (Fin 6 × Fin 6 → Dbl.Cx) → Fin 6 × Fin 6 → Dbl.Cx, Spec.Rounding rnd ∧
    Spec.AccurateT Lm ∧ Spec.FourierAccurate (1 / 2 ^ 52) fft ∧ ∃ rd : List ℝ,
      Dbl.residualTrue rnd Lm.toLibmC fft ([1, -14, 2, 1, -2, 1 / 4].map .fin) (fun q => .fin (Spec.twoPowers q))
        (fun q => .fin (Spec.twoPlaces q)) (fun _ => .fin 0) (fun j => .fin (![-(1 / 32), 0, 1 / 32] j)) (.fin (1 / 128))
        (Dbl.illumGauss rnd Lm.toLibmP) (Dbl.effelsbergTel rnd Lm (.fin 0)) (.fin 1) = .ok (rd.map .fin) ∧
      rd.length = 6 ∧ ∀ x ∈ rd, Spec.IsDouble x ∧ -1 ≤ x ∧ x ≤ 1 := by
  obtain ⟨rnd, h⟩ := rounding_exists
  have hdq : Spec.IsDouble (1 / 4) := ⟨1, -2, by norm_num, by norm_num, by norm_num, by norm_num⟩
  obtain ⟨r, rd, B, Ea, -, h2, -, -, -, h4, h5, -⟩ := C127_residual h (bestLibmT_accurate h) 0 (by norm_num)
    [1, -14, 2, 1, -2, 1 / 4] (by simp) (by
      intro k hk
      simp only [List.drop_succ_cons, List.drop_zero, List.mem_cons, List.not_mem_nil, or_false] at hk
      rw [hk]
      exact hdq) (by norm_num [abs_of_pos]) (M := 2) (N := 6) (by norm_num) (by norm_num) (by norm_num) (Spec.bestFft rnd) (1 / 2 ^ 52)
    (by positivity) (by norm_num) (bestFft_accurate h (by norm_num)) 0 1 le_rfl (by norm_num) clear50
    (.inl ⟨rfl, (bestLibmT_zero h).1, (bestLibmT_zero h).2⟩) _ _ _ (eff_gauss rnd _)
    ![-(1 / 32), 0, 1 / 32] (1 / 32) (1 / 128) (by norm_num) (by norm_num) (by
      intro i
      fin_cases i <;> norm_num [abs_of_pos]) (by norm_num) (by norm_num) Spec.twoPlaces (fun _ => 0) Spec.twoPowers two_double (by
      intro q
      unfold Spec.InBeam Spec.axisStep Spec.twoPlaces
      constructor
      · split_ifs <;> norm_num
      · norm_num) two_powers
  exact ⟨rnd, _, _, h, bestLibmT_accurate h, bestFft_accurate h (by norm_num), rd, h2, h4, h5⟩

end Verif.Props
