import Verif.Props.DoubleOwn
import Verif.Props.DoublePatternCase
import Verif.Props.DoubleResidualCase

/-!
# The assumptions of C126 can be met

A correctly rounded library, and a dish of 192 m with a secondary of 64 m and four struts on a grid of six by six pixels.
-/

namespace Verif.Props

open Verif Verif.Np Verif.Aperture

/-- The correctly rounded library. -/
noncomputable def Spec.bestLibmP (rnd : ℝ → Fl) : Dbl.LibmP where
  toLibmC := Spec.bestLibmC rnd
  powr := fun x q => match x, q with
    | .fin x, .fin q => Dbl.rop rnd (Fl.pow (.fin x) q)
    | _, _ => .nan
  exp := fun x => match x with
    | .fin x => rnd (Real.exp x)
    | _ => .nan

theorem tiny_1072 : (2 : ℝ) ^ (-1075 : ℤ) ≤ 2 ^ (-1072 : ℤ) := zpow_le_zpow_right₀ one_le_two (by norm_num)

theorem bestLibmP_accurate {rnd : ℝ → Fl} (h : Spec.Rounding rnd) : Spec.AccurateP (Spec.bestLibmP rnd) where
  base := bestLibmC_accurate h
  powr := by
    intro x q _ _ hx hb
    have hy : 0 < x ^ q := Real.rpow_pos_of_pos hx q
    have e : Fl.pow (.fin x) q = .fin (x ^ q) := by
      rw [Fl.pow_fin]
      split_ifs with h1 h2 h3 h4
      · rw [h1, Real.rpow_zero]
      · linarith
      · linarith
      · linarith [h4.1]
      · rfl
    obtain ⟨z, h1, h2, h3⟩ := round_rel h (y := x ^ q) (by rwa [abs_of_pos hy])
    refine ⟨z, ?_, h2, ?_, ?_⟩
    · show Dbl.rop rnd (Fl.pow (.fin x) q) = _
      rw [e]
      exact h1
    · refine round_mono h hy.le ?_ ?_ (rnd_zero h) h1
      · rw [abs_zero]
        exact lt_of_le_of_lt (by norm_num) (two_pow_lt_range (k := 1) (by norm_num))
      · rw [abs_of_pos hy]
        exact hb.trans_lt (two_pow_lt_range (by norm_num))
    · refine h3.trans ?_
      rw [abs_of_pos hy]
      refine add_le_add ?_ tiny_1072
      gcongr <;> norm_num
  powr_int := by
    intro x q _ hq hb
    have e : Fl.pow (.fin x) q = .fin (x ^ q) := by
      rw [fl_pow_pos (q := q) (by rcases hq with rfl | rfl <;> norm_num)
        (by rcases hq with rfl | rfl <;> norm_num), Real.rpow_natCast]
    have hb2 : |x ^ q| ≤ 2 ^ 900 := by
      rw [abs_pow]
      calc |x| ^ q ≤ (2 ^ 20) ^ q := pow_le_pow_left₀ (abs_nonneg x) hb q
        _ = 2 ^ (20 * q) := by rw [← pow_mul]
        _ ≤ _ := two_pow_le (by omega)
    obtain ⟨z, h1, h2, h3⟩ := round_rel h hb2
    refine ⟨z, ?_, h2, ?_⟩
    · show Dbl.rop rnd (Fl.pow (.fin x) q) = _
      rw [e]
      exact h1
    · refine h3.trans ?_
      rw [abs_pow]
      refine add_le_add ?_ tiny_1072
      gcongr <;> norm_num
  powr_neg := by
    intro x q _ _ hx hb hq1 hq2
    by_cases hi : ∃ k : ℤ, q = k
    · right
      obtain ⟨k, rfl⟩ := hi
      have hk : k = 1 ∨ k = 2 := by
        have h1 : 1 ≤ k := by exact_mod_cast hq1
        have h2 : k ≤ 2 := by exact_mod_cast hq2
        omega
      have e : ∃ n : ℕ, (k : ℝ) = n ∧ (n = 1 ∨ n = 2) := by
        rcases hk with rfl | rfl
        · exact ⟨1, by norm_num, .inl rfl⟩
        · exact ⟨2, by norm_num, .inr rfl⟩
      obtain ⟨n, e1, e2⟩ := e
      have hb2 : |x ^ n| ≤ 2 ^ 40 := by
        rw [abs_pow]
        calc |x| ^ n ≤ (2 ^ 20) ^ n := pow_le_pow_left₀ (abs_nonneg x) hb n
          _ = 2 ^ (20 * n) := by rw [← pow_mul]
          _ ≤ _ := two_pow_le (by omega)
      obtain ⟨z, h1, h2, h3⟩ := bounded_round h (by norm_num) hb2
      refine ⟨z, ?_, h2, h3.trans (two_pow_le (by norm_num))⟩
      show Dbl.rop rnd (Fl.pow (.fin x) k) = _
      rw [e1, fl_pow_pos (by rcases e2 with rfl | rfl <;> norm_num) (by rcases e2 with rfl | rfl <;> norm_num), Real.rpow_natCast]
      exact h1
    · rcases hx.lt_or_eq with hx | rfl
      · left
        show Dbl.rop rnd (Fl.pow (.fin x) q) = _
        rw [Fl.pow_fin, if_neg (by linarith), if_neg hx.ne, if_pos ⟨hx, hi⟩]
        rfl
      · right
        refine ⟨0, ?_, isDouble_zero, by rw [abs_zero]; positivity⟩
        show Dbl.rop rnd (Fl.pow (.fin 0) q) = _
        rw [Fl.pow_fin, if_neg (by linarith), if_pos rfl, if_pos (by linarith)]
        exact rnd_zero h
  exp := by
    intro x _ hx
    have hy := Real.exp_pos x
    have h1 : Real.exp x ≤ 1 := Real.exp_le_one_iff.2 hx
    have hb : |Real.exp x| ≤ 2 ^ 900 := by
      rw [abs_of_pos hy]
      exact h1.trans (one_le_pow₀ one_le_two)
    obtain ⟨z, h2, h3, h4⟩ := round_rel h hb
    refine ⟨z, h2, h3, ?_, ?_⟩
    · refine round_mono h hy.le ?_ ?_ (rnd_zero h) h2
      · rw [abs_zero]
        exact lt_of_le_of_lt (by norm_num) (two_pow_lt_range (k := 1) (by norm_num))
      · exact hb.trans_lt (two_pow_lt_range (by norm_num))
    · refine h4.trans ?_
      rw [abs_of_pos hy]
      refine add_le_add ?_ tiny_1072
      gcongr <;> norm_num

theorem six_node (i : Fin 6) : Spec.node 96 1 6 i ^ 2 = 9216 ∧ |Spec.node 96 1 6 i| = 96 ∨
    Spec.node 96 1 6 i ^ 2 = 3317.76 ∧ |Spec.node 96 1 6 i| = 57.6 ∨
    Spec.node 96 1 6 i ^ 2 = 368.64 ∧ |Spec.node 96 1 6 i| = 19.2 := by
  have e : Spec.node 96 1 6 i = 38.4 * ((i : ℕ) : ℝ) - 96 := by
    unfold Spec.node Np.linspace
    push_cast
    norm_num
    ring
  rw [e]
  have hi : i = 0 ∨ i = 1 ∨ i = 2 ∨ i = 3 ∨ i = 4 ∨ i = 5 := by fin_cases i <;> decide
  rcases hi with rfl | rfl | rfl | rfl | rfl | rfl
  all_goals
    simp only [Fin.val_zero, Fin.val_one, Fin.val_two, show ((3 : Fin 6) : ℕ) = 3 from rfl, show ((4 : Fin 6) : ℕ) = 4 from rfl,
      show ((5 : Fin 6) : ℕ) = 5 from rfl]
    norm_num [abs_of_neg, abs_of_pos]

theorem six_clear (q : Fin 6 × Fin 6) : Spec.ClearOfEdges 96 32 24 48 (Spec.node 96 1 6 q.2) (Spec.node 96 1 6 q.1) := by
  unfold Spec.ClearOfEdges
  rcases six_node q.2 with ⟨a1, a2⟩ | ⟨a1, a2⟩ | ⟨a1, a2⟩ <;> rcases six_node q.1 with ⟨b1, b2⟩ | ⟨b1, b2⟩ | ⟨b1, b2⟩ <;>
    rw [a1, a2, b1, b2] <;> norm_num [abs_of_neg, abs_of_pos]

theorem six_inside (q : Fin 6 × Fin 6) : Spec.node 96 1 6 q.2 ^ 2 + Spec.node 96 1 6 q.1 ^ 2 ≤ 7000 ∨
    10000 ≤ Spec.node 96 1 6 q.2 ^ 2 + Spec.node 96 1 6 q.1 ^ 2 ∨
    9584 ≤ Spec.node 96 1 6 q.2 ^ 2 + Spec.node 96 1 6 q.1 ^ 2 := by
  rcases six_node q.2 with ⟨a1, -⟩ | ⟨a1, -⟩ | ⟨a1, -⟩ <;> rcases six_node q.1 with ⟨b1, -⟩ | ⟨b1, -⟩ | ⟨b1, -⟩ <;>
    rw [a1, b1] <;> norm_num

theorem six_tel : Spec.SensibleTel 96 32 24 48 30 400 where
  pr1 := by norm_num
  pr2 := by norm_num
  prd := by simpa using isDouble_int (z := 96) (by norm_num)
  sr0 := by norm_num
  sr1 := by norm_num
  L0 := by norm_num
  L1 := by norm_num
  Fp1 := by norm_num
  Fp2 := by norm_num
  Fpd := by simpa using isDouble_int (z := 30) (by norm_num)
  F1 := by norm_num
  F2 := by norm_num
  Fd := by simpa using isDouble_int (z := 400) (by norm_num)

theorem six_light : Spec.SensibleLight 96 1 (-14) 0 0 where
  i1 := by norm_num
  id := isDouble_one
  c0 := by norm_num
  c1 := by norm_num
  x1 := by norm_num
  y1 := by norm_num

theorem six_own (rnd : ℝ → Fl) (Lm : Dbl.LibmP) : Spec.OwnLight rnd Lm (ι := Fin 6 × Fin 6) 96 (fun q => Spec.node 96 1 6 q.2)
    (fun q => Spec.node 96 1 6 q.1) [1, -14, 3 / 2, 0, 0] Aperture.illumParabolic (Dbl.illumParabolic rnd Lm)
    (|1| / 2 ^ 35 + 2 ^ (-1074 : ℤ)) := by
  refine .inl ⟨rfl, rfl, 1, -14, 3 / 2, 0, 0, rfl, six_light, ⟨3, -1, by norm_num, by norm_num, by norm_num, by norm_num⟩, by norm_num,
    by norm_num, fun q hq => .inr (.inr ?_), rfl⟩
  rw [sub_zero, sub_zero]
  rcases six_inside q with h | h | h
  · norm_num
    linarith
  · norm_num at hq
    linarith
  · norm_num at hq
    linarith

theorem six_amp {B Ea : Fin 6 × Fin 6 → ℝ}
    (hB : Telgeometry.blockManual 96 32 24 48 (fun q : Fin 6 × Fin 6 => Spec.node 96 1 6 q.2) (fun q => Spec.node 96 1 6 q.1) = .ok B)
    (hE : Aperture.illumParabolic (fun q : Fin 6 × Fin 6 => Spec.node 96 1 6 q.2) (fun q => Spec.node 96 1 6 q.1)
      [1, -14, 3 / 2, 0, 0] 96 = .ok Ea) (q : Fin 6 × Fin 6) : |B q * Ea q| ≤ 1 := by
  have hB1 : |B q| ≤ 1 ∧ (9584 ≤ Spec.node 96 1 6 q.2 ^ 2 + Spec.node 96 1 6 q.1 ^ 2 → B q = 0) := by
    have := Except.ok.inj hB
    rw [← this]
    simp only [Telgeometry.setWhere]
    constructor
    · split_ifs <;> norm_num
    · intro h
      have : ¬ (Spec.node 96 1 6 q.2 ^ 2 + Spec.node 96 1 6 q.1 ^ 2 < 96 ^ 2 ∧
        Spec.node 96 1 6 q.2 ^ 2 + Spec.node 96 1 6 q.1 ^ 2 > 32 ^ 2) := by
        rintro ⟨j, -⟩
        norm_num at j
        linarith
      rw [if_neg this]
      split_ifs <;> rfl
  by_cases hout : 9584 ≤ Spec.node 96 1 6 q.2 ^ 2 + Spec.node 96 1 6 q.1 ^ 2
  · rw [hB1.2 hout]
    norm_num
  · have hin : Spec.node 96 1 6 q.2 ^ 2 + Spec.node 96 1 6 q.1 ^ 2 ≤ 7000 := by
      rcases six_inside q with h | h | h
      · exact h
      · exact absurd (le_trans (by norm_num) h) hout
      · exact absurd h hout
    have hEq : Ea q = Aperture.parabolicAt 1 (.bare (-14)) (3 / 2) (.bare 0) (.bare 0) 96 (Spec.node 96 1 6 q.2)
        (Spec.node 96 1 6 q.1) := by
      have := Except.ok.inj hE
      rw [← this]
      rfl
    set b := 1 - (Real.sqrt ((Spec.node 96 1 6 q.2 - 0) ^ 2 + (Spec.node 96 1 6 q.1 - 0) ^ 2) / 96) ^ 2 with hb
    have hb2 : b = 1 - (Spec.node 96 1 6 q.2 ^ 2 + Spec.node 96 1 6 q.1 ^ 2) / 9216 := by
      rw [hb, div_pow, Real.sq_sqrt (by positivity), sub_zero, sub_zero]
      norm_num
    have hb0 : 0 < b := by
      rw [hb2]
      linarith
    have hb1 : b ≤ 1 := by
      rw [hb2]
      have : 0 ≤ Spec.node 96 1 6 q.2 ^ 2 + Spec.node 96 1 6 q.1 ^ 2 := by positivity
      linarith
    rw [hEq, parabolicAt_val (by norm_num) (by norm_num) (.inr (.inr hb0)), ← hb, one_mul]
    obtain ⟨t1, t2⟩ := taper_range (c := -14) (by norm_num) (by norm_num)
    have t0 : (0 : ℝ) ≤ 10 ^ (-14 / 20 : ℝ) := le_trans (by positivity) t1
    have p1 : b ^ (3 / 2 : ℝ) ≤ 1 := Real.rpow_le_one hb0.le hb1 (by norm_num)
    have p0 : 0 ≤ b ^ (3 / 2 : ℝ) := Real.rpow_nonneg hb0.le _
    generalize (10 : ℝ) ^ (-14 / 20 : ℝ) = C at *
    generalize b ^ (3 / 2 : ℝ) = w at *
    have hv : |C + (1 - C) * w| ≤ 1 := by
      rw [abs_of_nonneg (by nlinarith)]
      nlinarith
    rw [abs_mul]
    calc |B q| * |C + (1 - C) * w| ≤ 1 * 1 := mul_le_mul hB1.1 hv (abs_nonneg _) (by norm_num)
      _ = 1 := by norm_num

/-- A dish of 192 m, its secondary and its struts, tapered by 14 dB with the exponent 3/2, at a wavelength of 1/64 m and a radial offset of
1/32 m: every pixel of the far field is right to 1/10 ^ 8. -/
example : ∃ rnd Lm, ∃ fft : (Fin 6 × Fin 6 → Dbl.Cx) → Fin 6 × Fin 6 → Dbl.Cx, Spec.Rounding rnd ∧
    Spec.AccurateP Lm ∧ Spec.FourierAccurate (1 / 2 ^ 52) fft ∧ ∃ P Q,
      Dbl.radiationPattern rnd Lm.toLibmC fft ([1, -14, 3 / 2, 0, 0].map .fin) ([1 / 4].map .fin) (.fin (1 / 32)) (.fin (1 / 64))
        (Dbl.illumParabolic rnd Lm) (Dbl.manualTel rnd (.fin 96) (.fin 32) (.fin 24) (.fin 48) (.fin 30) (.fin 400)) (.fin 1) = .ok P ∧
      Aperture.radiationPattern [1, -14, 3 / 2, 0, 0] [1 / 4] (1 / 32) (1 / 64) Aperture.illumParabolic
        (Telgeometry.manualTel 96 32 24 48 30 400) 1 = .ok Q ∧
      ∀ q, ∃ G, P.F q = Spec.cx G ∧ ‖G - Q.F q‖ ≤ 1 / 10 ^ 8 := by
  obtain ⟨rnd, h⟩ := rounding_exists
  have hdq : Spec.IsDouble (1 / 4) := ⟨1, -2, by norm_num, by norm_num, by norm_num, by norm_num⟩
  have hop : Spec.opdError 96 30 400 ≤ 3300 / 2 ^ 53 := by
    unfold Spec.opdError
    norm_num
  have h32 : |(1 / 32 : ℝ)| = 1 / 32 := abs_of_pos (by norm_num)
  obtain ⟨P, Q, E, B, Ea, hP, hQ, hB, hE, hEa, -, hF⟩ := C126_pattern h (bestLibmP_accurate h) 0 (by norm_num) [1 / 4]
    (by simp) (by
      intro k hk
      simp only [List.mem_cons, List.not_mem_nil, or_false] at hk
      rw [hk]
      exact hdq) (by norm_num [abs_of_pos]) 6 (by norm_num) (by norm_num) (Spec.bestFft rnd) (1 / 2 ^ 52) (by positivity) (by norm_num)
    (bestFft_accurate h (by norm_num)) six_tel 1 le_rfl (by norm_num) six_clear [1, -14, 3 / 2, 0, 0] _ _ _ (six_own rnd _) (1 / 32) (1 / 64)
    (by norm_num) (by norm_num) (by norm_num) (by
      rw [h32]
      norm_num at hop ⊢
      linarith)
  refine ⟨rnd, _, _, h, bestLibmP_accurate h, bestFft_accurate h (by norm_num), P, Q, hP, hQ, fun q => ?_⟩
  obtain ⟨G, hF1, -, hF2⟩ := hF q
  refine ⟨G, hF1, hF2.trans ?_⟩
  have hE1 : ∀ q, ‖E q‖ ≤ 1 := by
    intro q
    rw [hEa q]
    exact six_amp hB hE q
  have h1 : ∑ q, ‖E q‖ ≤ 36 := by
    refine (Finset.sum_le_card_nsmul _ _ _ fun q _ => hE1 q).trans ?_
    rw [Finset.card_univ, Fintype.card_prod, Fintype.card_fin]
    norm_num
  have h2 : Real.sqrt (∑ q, ‖E q‖ ^ 2) ≤ 6 := by
    rw [Real.sqrt_le_left (by norm_num)]
    refine (Finset.sum_le_card_nsmul _ _ 1 fun q _ => pow_le_one₀ (norm_nonneg _) (hE1 q)).trans ?_
    rw [Finset.card_univ, Fintype.card_prod, Fintype.card_fin]
    norm_num
  have hτ1 := tiny_le (k := -1074) (by norm_num)
  have hτ2 := tiny_le (k := -1000) (by norm_num)
  have hw : Spec.opdWaves 96 30 400 |1 / 32| (1 / 64) ≤ 6601 / 2 ^ 53 := by
    unfold Spec.opdWaves
    rw [h32]
    generalize (2 : ℝ) ^ (-1074 : ℤ) = τ at *
    norm_num at hop hτ1 ⊢
    linarith
  set e := Spec.fieldError 0 [1 / 4] (2 * |1 / 32| / (1 / 64)) (Spec.opdWaves 96 30 400 |1 / 32| (1 / 64)) with he
  have h3 : e ≤ 1 / 10 ^ 10 := by
    rw [he]
    unfold Spec.fieldError
    rw [h32] at hw ⊢
    generalize Spec.opdWaves 96 30 400 (1 / 32) (1 / 64) = W at *
    norm_num [abs_of_pos] at hw ⊢
    linarith
  have h5 : Spec.totalError E e (|1| / 2 ^ 35 + 2 ^ (-1074 : ℤ)) ≤ 6 / 10 ^ 9 := by
    unfold Spec.totalError
    rw [Fintype.card_prod, Fintype.card_fin, abs_one]
    have h6 : e * ∑ q, ‖E q‖ ≤ 1 / 10 ^ 10 * 36 :=
      mul_le_mul h3 h1 (Finset.sum_nonneg fun q _ => norm_nonneg _) (by positivity)
    generalize (2 : ℝ) ^ (-1074 : ℤ) = τ at *
    norm_num at h6 hτ1 ⊢
    linarith
  unfold Spec.farError
  generalize (2 : ℝ) ^ (-1000 : ℤ) = τ at *
  generalize Spec.totalError E e (|1| / 2 ^ 35 + 2 ^ (-1074 : ℤ)) = T at *
  norm_num at h5 hτ2 ⊢
  linarith

/-- The Gaussian illumination with the same taper, its centre off the axis. -/
theorem six_gauss (rnd : ℝ → Fl) (Lm : Dbl.LibmP) : Spec.OwnLight rnd Lm (ι := Fin 6 × Fin 6) 96 (fun q => Spec.node 96 1 6 q.2)
    (fun q => Spec.node 96 1 6 q.1) [1, -14, 2, 1, -2] Aperture.illumGauss (Dbl.illumGauss rnd Lm)
    (|1| / 2 ^ 40 + 2 ^ (-1073 : ℤ)) :=
  .inr ⟨rfl, rfl, 1, -14, 1, -2, [2], rfl, ⟨by norm_num, isDouble_one, by norm_num, by norm_num, by norm_num, by norm_num⟩, rfl⟩

/-- A fit with it: six finite residuals between -1 and 1. -/
example : ∃ rnd Lm, ∃ fft : (Fin 6 × Fin 6 → Dbl.Cx) → Fin 6 × Fin 6 → Dbl.Cx, Spec.Rounding rnd ∧
    Spec.AccurateP Lm ∧ Spec.FourierAccurate (1 / 2 ^ 52) fft ∧ ∃ rd : List ℝ,
      Dbl.residualTrue rnd Lm.toLibmC fft ([1, -14, 2, 1, -2, 1 / 4].map .fin) (fun q => .fin (Spec.twoPowers q))
        (fun q => .fin (Spec.twoPlaces q)) (fun _ => .fin 0) (fun j => .fin (![-(1 / 32), 0, 1 / 32] j)) (.fin (1 / 64))
        (Dbl.illumGauss rnd Lm)
        (Dbl.manualTel rnd (.fin 96) (.fin 32) (.fin 24) (.fin 48) (.fin 30) (.fin 400)) (.fin 1) = .ok (rd.map .fin) ∧
      rd.length = 6 ∧ ∀ x ∈ rd, Spec.IsDouble x ∧ -1 ≤ x ∧ x ≤ 1 := by
  obtain ⟨rnd, h⟩ := rounding_exists
  have hdq : Spec.IsDouble (1 / 4) := ⟨1, -2, by norm_num, by norm_num, by norm_num, by norm_num⟩
  have hop : Spec.opdError 96 30 400 ≤ 3300 / 2 ^ 53 := by
    unfold Spec.opdError
    norm_num
  obtain ⟨r, rd, B, Ea, -, h2, -, -, -, h4, h5, -⟩ := C126_residual h (bestLibmP_accurate h) 0 (by norm_num)
    [1, -14, 2, 1, -2, 1 / 4] (by simp) (by
      intro k hk
      simp only [List.drop_succ_cons, List.drop_zero, List.mem_cons, List.not_mem_nil, or_false] at hk
      rw [hk]
      exact hdq) (by norm_num [abs_of_pos]) (M := 2) (N := 6) (by norm_num) (by norm_num) (by norm_num) (Spec.bestFft rnd) (1 / 2 ^ 52)
    (by positivity) (by norm_num) (bestFft_accurate h (by norm_num)) six_tel 1 le_rfl (by norm_num) six_clear _ _ _ (six_gauss rnd _)
    ![-(1 / 32), 0, 1 / 32] (1 / 32) (1 / 64) (by norm_num) (by norm_num) (by
      intro i
      fin_cases i <;> norm_num [abs_of_pos]) (by norm_num) (by
      norm_num at hop ⊢
      linarith) Spec.twoPlaces (fun _ => 0) Spec.twoPowers two_double (by
      intro q
      unfold Spec.InBeam Spec.axisStep Spec.twoPlaces
      constructor
      · split_ifs <;> norm_num
      · norm_num) two_powers
  exact ⟨rnd, _, _, h, bestLibmP_accurate h, bestFft_accurate h (by norm_num), rd, h2, h4, h5⟩

end Verif.Props
