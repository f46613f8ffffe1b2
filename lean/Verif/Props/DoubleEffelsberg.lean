import Verif.Props.DoubleShade
import Verif.Props.DoubleOwn

/-!
# C127: the blockage and the path difference of the Effelsberg telescope in the arithmetic of doubles
-/

namespace Verif.Props

open Verif Verif.Np Verif.Aperture

/-- A rounding of a number up to 8000. -/
theorem round_small {rnd : ℝ → Fl} (h : Spec.Rounding rnd) {y : ℝ} (hy : |y| ≤ 8000) :
    ∃ z, rnd y = .fin z ∧ |z - y| ≤ 1 / 2 ^ 39 := by
  obtain ⟨z, h1, -, h3⟩ := round_rel h (y := y) (hy.trans (le_trans (by norm_num : (8000 : ℝ) ≤ 2 ^ 13) (two_pow_le (by norm_num))))
  refine ⟨z, h1, h3.trans ?_⟩
  have hτ := tiny_le (show (-1075 : ℤ) ≤ -100 by norm_num)
  generalize (2 : ℝ) ^ (-1075 : ℤ) = τ at *
  norm_num at hτ ⊢
  linarith

theorem near_trans {a b c ε η : ℝ} (h1 : |a - b| ≤ ε) (h2 : |b - c| ≤ η) : |a - c| ≤ ε + η := by
  have e : a - c = (a - b) + (b - c) := by ring
  rw [e]
  exact (abs_add_le _ _).trans (add_le_add h1 h2)

theorem abs_near {a b ε : ℝ} (h : |a - b| ≤ ε) : |a| ≤ |b| + ε := by
  have := abs_add_le (a - b) b
  rw [sub_add_cancel] at this
  linarith

/-- `line_equation` in doubles, for points of the dish. -/
theorem lineD_near {rnd : ℝ → Fl} (h : Spec.Rounding rnd) {x1 y1 x2 y2 x2' y2' x x' : ℝ} (hx1 : |x1| ≤ 24) (hy1 : |y1| ≤ 1)
    (hx2 : |x2| ≤ 50) (hy2 : |y2| ≤ 50) (hx : |x| ≤ 51) (hm : 1 ≤ |x2 - x1|) (ex : |x2' - x2| ≤ 1 / 2 ^ 34)
    (ey : |y2' - y2| ≤ 1 / 2 ^ 34) (e : |x' - x| ≤ 1 / 2 ^ 34) :
    ∃ l, Dbl.lineEquation rnd (.fin x1, .fin y1) (.fin x2', .fin y2') (.fin x') = .fin l ∧
      |l - ((y2 - y1) / (x2 - x1) * (x - x1) + y1)| ≤ 1 / 2 ^ 21 := by
  have tri : ∀ a b : ℝ, |a - b| ≤ |a| + |b| := abs_sub
  have sh : ∀ a b c : ℝ, |(a - c) - (b - c)| = |a - b| := fun a b c => by rw [sub_sub_sub_cancel_right]
  -- numerator
  have n0 : |y2 - y1| ≤ 51 := (tri _ _).trans (by linarith)
  have n1 : |(y2' - y1) - (y2 - y1)| ≤ 1 / 2 ^ 34 := by rw [sh]; exact ey
  obtain ⟨n, hn, hne⟩ := round_small h (y := y2' - y1) ((abs_near n1).trans (by norm_num at *; linarith))
  have n2 := near_trans hne n1
  -- denominator
  have m0 : |x2 - x1| ≤ 74 := (tri _ _).trans (by linarith)
  have m1 : |(x2' - x1) - (x2 - x1)| ≤ 1 / 2 ^ 34 := by rw [sh]; exact ex
  obtain ⟨m, hmr, hme⟩ := round_small h (y := x2' - x1) ((abs_near m1).trans (by norm_num at *; linarith))
  have m2 := near_trans hme m1
  have m3 : 999 / 1000 ≤ |m| := by
    have := abs_near ((abs_sub_comm (x2 - x1) m).trans_le m2)
    have hnum : (1 / 2 ^ 39 + 1 / 2 ^ 34 : ℝ) ≤ 1 / 1000 := by norm_num
    linarith
  have m4 : m ≠ 0 := fun h0 => by rw [h0, abs_zero] at m3; norm_num at m3
  have m5 : x2 - x1 ≠ 0 := fun h0 => by rw [h0, abs_zero] at hm; norm_num at hm
  -- slope
  have q0 : |(y2 - y1) / (x2 - x1)| ≤ 51 := by
    rw [abs_div, div_le_iff₀ (by linarith)]
    linarith
  have q1 : |n / m - (y2 - y1) / (x2 - x1)| ≤ 54 / 2 ^ 34 := by
    have e1 : n / m - (y2 - y1) / (x2 - x1) = ((n - (y2 - y1)) - (y2 - y1) / (x2 - x1) * (m - (x2 - x1))) / m := by
      field_simp
      ring
    rw [e1, abs_div, div_le_iff₀ (by linarith)]
    have e2 : |(y2 - y1) / (x2 - x1) * (m - (x2 - x1))| ≤ 51 * (1 / 2 ^ 39 + 1 / 2 ^ 34) := by
      rw [abs_mul]
      exact mul_le_mul q0 m2 (abs_nonneg _) (by norm_num)
    refine (tri _ _).trans ((add_le_add n2 e2).trans ?_)
    refine le_trans ?_ (mul_le_mul_of_nonneg_left m3 (by norm_num))
    norm_num
  obtain ⟨q, hq, hqe⟩ := round_small h (y := n / m) ((abs_near q1).trans (by norm_num at *; linarith))
  have q2 := near_trans hqe q1
  have q3 := abs_near q2
  -- distance
  have w0 : |x - x1| ≤ 75 := (tri _ _).trans (by linarith)
  have w1 : |(x' - x1) - (x - x1)| ≤ 1 / 2 ^ 34 := by rw [sh]; exact e
  obtain ⟨w, hw, hwe⟩ := round_small h (y := x' - x1) ((abs_near w1).trans (by norm_num at *; linarith))
  have w2 := near_trans hwe w1
  have w3 := abs_near w2
  -- product
  set Q := (y2 - y1) / (x2 - x1) with hQ
  have p0 : |Q * (x - x1)| ≤ 3825 := by
    rw [abs_mul]
    exact (mul_le_mul q0 w0 (abs_nonneg _) (by norm_num)).trans (by norm_num)
  have p1 : |q * w - Q * (x - x1)| ≤ 4109 / 2 ^ 34 := by
    have e1 : q * w - Q * (x - x1) = (q - Q) * w + Q * (w - (x - x1)) := by ring
    rw [e1]
    have i1 : |(q - Q) * w| ≤ (1 / 2 ^ 39 + 54 / 2 ^ 34) * (75 + (1 / 2 ^ 39 + 1 / 2 ^ 34)) := by
      rw [abs_mul]
      exact mul_le_mul q2 (w3.trans (by linarith)) (abs_nonneg _) (by norm_num)
    have i2 : |Q * (w - (x - x1))| ≤ 51 * (1 / 2 ^ 39 + 1 / 2 ^ 34) := by
      rw [abs_mul]
      exact mul_le_mul q0 w2 (abs_nonneg _) (by norm_num)
    exact (abs_add_le _ _).trans ((add_le_add i1 i2).trans (by norm_num))
  obtain ⟨p, hp, hpe⟩ := round_small h (y := q * w) ((abs_near p1).trans (by
    generalize |Q * (x - x1)| = Z at *
    norm_num at *
    linarith))
  have p2 := near_trans hpe p1
  have p3 := abs_near p2
  have r1 : |(p + y1) - (Q * (x - x1) + y1)| ≤ 1 / 2 ^ 39 + 4109 / 2 ^ 34 := by
    rw [add_sub_add_right_eq_sub]
    exact p2
  obtain ⟨l, hl, hle⟩ := round_small h (y := p + y1) ((abs_add_le _ _).trans (by
    generalize |Q * (x - x1)| = Z at *
    norm_num at *
    linarith))
  refine ⟨l, ?_, (near_trans hle r1).trans (by norm_num)⟩
  unfold Dbl.lineEquation
  simp only [sub_fin_rnd, hn, hmr, hw]
  rw [div_fin_rnd _ _ m4, hq, mul_fin_rnd, hp, add_fin_rnd, hl]

/-- A pixel more than a micrometre away from the edges of the shade of the legs along the first axis. -/
def Spec.ClearOfShade (alpha x y : ℝ) : Prop :=
  1 / 2 ^ 20 ≤ |(|x| - Spec.shadeC alpha)| ∧
  (23.25 < |x| → |x| < Spec.shadeC alpha →
    1 / 2 ^ 20 ≤ |(|y| - (1 + Spec.shadeD alpha / (Spec.shadeC alpha - 23.25) * (|x| - 23.25)))|)

/-- The wedge of the shade on the positive side, in doubles. -/
theorem wedgeD_pos {rnd : ℝ → Fl} (h : Spec.Rounding rnd) {C d C' D' X Y X' Y' : ℝ} (hC1 : 24.25 ≤ C) (hC2 : C ≤ 50)
    (hd1 : 0 < d) (hd2 : d ≤ 49) (hC : |C' - C| ≤ 1 / 2 ^ 34) (hD : |D' - (1 + d)| ≤ 1 / 2 ^ 34) (hX : |X| ≤ 50)
    (eX : |X' - X| ≤ 1 / 2 ^ 38) (eY : |Y' - Y| ≤ 1 / 2 ^ 38) (cA : 1 / 2 ^ 38 < |(|X| - 23.25)|)
    (cC : 1 / 2 ^ 20 ≤ |(|X| - C)|)
    (cL : 23.25 < |X| → |X| < C → 1 / 2 ^ 20 ≤ |(|Y| - (1 + d / (C - 23.25) * (|X| - 23.25)))|) :
    ((Fl.fin 23.25).lt (.fin X') ∧ (Fl.fin X').lt (.fin C') ∧
      (Fl.fin Y').lt (Dbl.lineEquation rnd (.fin 23.25, .fin 1) (.fin C', .fin D') (.fin X')) ∧
      (Dbl.lineEquation rnd (.fin 23.25, .fin (-1)) (.fin C', .fin (-D')) (.fin X')).lt (.fin Y')) ↔
    (23.25 < X ∧ X < C ∧ |Y| < 1 + d / (C - 23.25) * (X - 23.25)) := by
  have hX' := abs_le.1 hX
  have eX' := abs_le.1 eX
  have eY' := abs_le.1 eY
  have hC' := abs_le.1 hC
  have hD' := abs_le.1 hD
  have e34 : |X' - X| ≤ 1 / 2 ^ 34 := eX.trans (by norm_num)
  have neg_near : |-D' - -(1 + d)| ≤ 1 / 2 ^ 34 := by
    rw [neg_sub_neg, abs_sub_comm]
    exact hD
  norm_num at hC1
  have hm : 1 ≤ |C - 23.25| := by
    rw [abs_of_pos (by norm_num; linarith)]
    norm_num
    linarith
  have hCa : |C| ≤ 50 := by rw [abs_le]; constructor <;> linarith
  obtain ⟨l1, hl1, hl1e⟩ := lineD_near h (x1 := 23.25) (y1 := 1) (x2 := C) (y2 := 1 + d) (x2' := C') (y2' := D') (x := X) (x' := X')
    (by norm_num [abs_of_pos]) (by norm_num) hCa
    (by rw [abs_of_pos (by linarith)]; linarith) (by linarith) hm hC hD e34
  obtain ⟨l2, hl2, hl2e⟩ := lineD_near h (x1 := 23.25) (y1 := -1) (x2 := C) (y2 := -(1 + d)) (x2' := C') (y2' := -D') (x := X) (x' := X')
    (by norm_num [abs_of_pos]) (by norm_num) hCa
    (by rw [abs_neg, abs_of_pos (by linarith)]; linarith) (by linarith) hm hC neg_near e34
  have hne : C ≠ 23.25 := by
    intro h0
    rw [h0] at hC1
    norm_num at hC1
  rw [(line_eq_aux hne).1] at hl1e
  rw [(line_eq_aux hne).2.1] at hl2e
  rw [hl1, hl2]
  show (23.25 < X' ∧ X' < C' ∧ Y' < l1 ∧ l2 < Y') ↔ _
  have k1 := abs_le.1 hl1e
  have k2 := abs_le.1 hl2e
  have sA : 23.25 < X' ↔ 23.25 < X := by
    rcases lt_abs.1 cA with c | c
    · rcases le_total 0 X with h0 | h0
      · rw [abs_of_nonneg h0] at c
        norm_num at c eX' ⊢
        constructor <;> intro i <;> linarith
      · norm_num at eX' ⊢
        constructor <;> intro i <;> linarith
    · have := le_abs_self X
      norm_num at c eX' ⊢
      constructor <;> intro i <;> linarith
  rw [sA]
  refine and_congr_right fun hA => ?_
  have hX0 : 0 < X := by norm_num at hA; linarith
  rw [abs_of_pos hX0] at cC cL
  have sC : X' < C' ↔ X < C := by
    norm_num at cC eX' hC'
    rcases le_abs.1 cC with c | c
    · constructor <;> intro i <;> linarith
    · constructor <;> intro i <;> linarith
  rw [sC]
  refine and_congr_right fun hc => ?_
  have cl := cL hA hc
  set T := 1 + d / (C - 23.25) * (X - 23.25) with hT
  rw [abs_lt]
  rcases le_abs.1 cl with c | c
  · have hno : ¬ |Y| < T := by
      norm_num at c
      intro i
      linarith
    rw [abs_lt] at hno
    refine iff_of_false ?_ hno
    rintro ⟨i1, i2⟩
    norm_num at c eY' k1 k2
    rcases le_total 0 Y with h0 | h0
    · rw [abs_of_nonneg h0] at c
      linarith
    · rw [abs_of_nonpos h0] at c
      linarith
  · have := le_abs_self Y
    have := neg_le_abs Y
    norm_num at c eY' k1 k2
    refine iff_of_true ⟨by linarith, by linarith⟩ ⟨by linarith, by linarith⟩

/-- The wedge of the shade on the negative side, in doubles. -/
theorem wedgeD_neg {rnd : ℝ → Fl} (h : Spec.Rounding rnd) {C d C' D' X Y X' Y' : ℝ} (hC1 : 24.25 ≤ C) (hC2 : C ≤ 50)
    (hd1 : 0 < d) (hd2 : d ≤ 49) (hC : |C' - C| ≤ 1 / 2 ^ 34) (hD : |D' - (1 + d)| ≤ 1 / 2 ^ 34) (hX : |X| ≤ 50)
    (eX : |X' - X| ≤ 1 / 2 ^ 38) (eY : |Y' - Y| ≤ 1 / 2 ^ 38) (cA : 1 / 2 ^ 38 < |(|X| - 23.25)|)
    (cC : 1 / 2 ^ 20 ≤ |(|X| - C)|)
    (cL : 23.25 < |X| → |X| < C → 1 / 2 ^ 20 ≤ |(|Y| - (1 + d / (C - 23.25) * (|X| - 23.25)))|) :
    ((Fl.fin X').lt (.fin (-23.25)) ∧ (Fl.fin (-C')).lt (.fin X') ∧
      (Dbl.lineEquation rnd (.fin (-23.25), .fin (-1)) (.fin (-C'), .fin (-D')) (.fin X')).lt (.fin Y') ∧
      (Fl.fin Y').lt (Dbl.lineEquation rnd (.fin (-23.25), .fin 1) (.fin (-C'), .fin D') (.fin X'))) ↔
    (23.25 < -X ∧ -X < C ∧ |Y| < 1 + d / (C - 23.25) * (-X - 23.25)) := by
  have hX' := abs_le.1 hX
  have eX' := abs_le.1 eX
  have eY' := abs_le.1 eY
  have hC' := abs_le.1 hC
  have hD' := abs_le.1 hD
  have e34 : |X' - X| ≤ 1 / 2 ^ 34 := eX.trans (by norm_num)
  have neg_near : ∀ a b : ℝ, |a - b| ≤ 1 / 2 ^ 34 → |-a - -b| ≤ 1 / 2 ^ 34 := fun a b i => by
    rw [neg_sub_neg, abs_sub_comm]
    exact i
  norm_num at hC1
  have hm : 1 ≤ |-C - -23.25| := by
    rw [abs_of_neg (by norm_num; linarith)]
    norm_num
    linarith
  have hCa : |-C| ≤ 50 := by rw [abs_neg, abs_le]; constructor <;> linarith
  obtain ⟨l1, hl1, hl1e⟩ := lineD_near h (x1 := -23.25) (y1 := 1) (x2 := -C) (y2 := 1 + d) (x2' := -C') (y2' := D') (x := X)
    (x' := X') (by norm_num [abs_of_pos]) (by norm_num) hCa
    (by rw [abs_of_pos (by linarith)]; linarith) (by linarith) hm (neg_near _ _ hC) hD e34
  obtain ⟨l2, hl2, hl2e⟩ := lineD_near h (x1 := -23.25) (y1 := -1) (x2 := -C) (y2 := -(1 + d)) (x2' := -C') (y2' := -D') (x := X)
    (x' := X') (by norm_num [abs_of_pos]) (by norm_num) hCa
    (by rw [abs_neg, abs_of_pos (by linarith)]; linarith) (by linarith) hm (neg_near _ _ hC) (neg_near _ _ hD) e34
  have hne : C ≠ 23.25 := by
    intro h0
    rw [h0] at hC1
    norm_num at hC1
  rw [(line_eq_aux hne).2.2.1] at hl1e
  rw [(line_eq_aux hne).2.2.2] at hl2e
  rw [hl1, hl2]
  show (X' < -23.25 ∧ -C' < X' ∧ l2 < Y' ∧ Y' < l1) ↔ _
  have k1 := abs_le.1 hl1e
  have k2 := abs_le.1 hl2e
  have sA : X' < -23.25 ↔ 23.25 < -X := by
    rcases lt_abs.1 cA with c | c
    · rcases le_total 0 X with h0 | h0
      · norm_num at eX' ⊢
        constructor <;> intro i <;> linarith
      · rw [abs_of_nonpos h0] at c
        norm_num at c eX' ⊢
        constructor <;> intro i <;> linarith
    · have := neg_le_abs X
      norm_num at c eX' ⊢
      constructor <;> intro i <;> linarith
  rw [sA]
  refine and_congr_right fun hA => ?_
  have hX0 : X < 0 := by norm_num at hA; linarith
  rw [abs_of_neg hX0] at cC cL
  have sC : -C' < X' ↔ -X < C := by
    norm_num at cC eX' hC'
    rcases le_abs.1 cC with c | c
    · constructor <;> intro i <;> linarith
    · constructor <;> intro i <;> linarith
  rw [sC]
  refine and_congr_right fun hc => ?_
  have cl := cL hA hc
  set T := 1 + d / (C - 23.25) * (-X - 23.25) with hT
  rw [abs_lt]
  rcases le_abs.1 cl with c | c
  · have hno : ¬ |Y| < T := by
      norm_num at c
      intro i
      linarith
    rw [abs_lt] at hno
    refine iff_of_false ?_ hno
    rintro ⟨i1, i2⟩
    norm_num at c eY' k1 k2
    rcases le_total 0 Y with h0 | h0
    · rw [abs_of_nonneg h0] at c
      linarith
    · rw [abs_of_nonpos h0] at c
      linarith
  · have := le_abs_self Y
    have := neg_le_abs Y
    norm_num at c eY' k1 k2
    refine iff_of_true ⟨by linarith, by linarith⟩ ⟨by linarith, by linarith⟩

/-- Pixels of the dish are below the rim in doubles. -/
theorem circD_inside {rnd : ℝ → Fl} (h : Spec.Rounding rnd) {X Y X' Y' : ℝ} (hin : X ^ 2 + Y ^ 2 ≤ 50 ^ 2 * (1 - 1 / 2 ^ 40))
    (eX : |X' - X| ≤ 448 * 50 / 2 ^ 53) (eY : |Y' - Y| ≤ 448 * 50 / 2 ^ 53) :
    (Fl.fin Y').lt (Dbl.circ rnd (.fin 50) (.fin X')) ∧ (Dbl.circ rnd (.fin 50) (.fin X')).neg.lt (.fin Y') ∧ X' < 50 ∧ -50 < X' := by
  have hin' : X ^ 2 + Y ^ 2 ≤ 2500 * (1 - 1 / 2 ^ 40) := by norm_num at hin ⊢; linarith
  have hle : X ^ 2 + Y ^ 2 ≤ 2500 := hin'.trans (by norm_num)
  have hXa : |X| ≤ 50 := abs_le_of_sq_le_sq (by nlinarith [sq_nonneg Y]) (by norm_num)
  have hYa : |Y| ≤ 50 := abs_le_of_sq_le_sq (by nlinarith [sq_nonneg X]) (by norm_num)
  have hsq : ∀ u z : ℝ, |u| ≤ 50 → |z - u| ≤ 448 * 50 / 2 ^ 53 → |z ^ 2 - u ^ 2| ≤ 2250000 / 2 ^ 53 := by
    intro u z hu hz
    have e : z ^ 2 - u ^ 2 = (z - u) * ((z - u) + 2 * u) := by ring
    rw [e, abs_mul]
    have i1 : |(z - u) + 2 * u| ≤ 448 * 50 / 2 ^ 53 + 2 * 50 := by
      refine (abs_add_le _ _).trans (add_le_add hz ?_)
      rw [abs_mul, abs_of_pos (by norm_num : (0 : ℝ) < 2)]
      linarith
    exact (mul_le_mul hz i1 (abs_nonneg _) (by norm_num)).trans (by norm_num)
  have sX := hsq X X' hXa eX
  have sY := hsq Y Y' hYa eY
  have sX' := abs_le.1 sX
  have sY' := abs_le.1 sY
  have hX2 : 0 ≤ X' * X' ∧ X' * X' ≤ 2501 := by
    refine ⟨mul_self_nonneg _, ?_⟩
    rw [← sq]
    norm_num at sX'
    nlinarith [sq_nonneg Y]
  obtain ⟨P, hP, hPe⟩ := round_small h (y := X' * X') (by rw [abs_of_nonneg hX2.1]; linarith)
  have hPe' : |P - X' * X'| ≤ 2502 / 2 ^ 53 := by
    obtain ⟨P2, i1, -, i3⟩ := round_rel h (y := X' * X') (by
      rw [abs_of_nonneg hX2.1]
      exact hX2.2.trans (le_trans (by norm_num : (2501 : ℝ) ≤ 2 ^ 13) (two_pow_le (by norm_num))))
    have : P2 = P := by
      rw [hP] at i1
      exact (Fl.fin.inj i1).symm
    subst this
    refine i3.trans ?_
    rw [abs_of_nonneg hX2.1]
    have hτ := tiny_le (show (-1075 : ℤ) ≤ -100 by norm_num)
    generalize (2 : ℝ) ^ (-1075 : ℤ) = τ at *
    norm_num at hτ ⊢
    linarith
  have hPl := abs_le.1 hPe'
  have hgap : Y' ^ 2 + 5000000 / 2 ^ 53 ≤ 2500 - P := by
    norm_num at hPl sX' sY' hin' ⊢
    nlinarith
  have hP0 : 0 < 2500 - P := lt_of_lt_of_le (by positivity) hgap
  have hP3 : 2500 - P ≤ 2501 := by
    norm_num at hPl
    linarith [hX2.1]
  obtain ⟨z, hz, -, hze⟩ := round_pos h (y := 2500 - P) (le_trans (le_trans (by norm_num) (by nlinarith [sq_nonneg Y'] : (5000000 : ℝ) / 2 ^ 53 ≤ _)) hgap)
    (hP3.trans (by norm_num))
  have hzl := abs_le.1 hze
  have hgap2 : Y' ^ 2 + 4900000 / 2 ^ 53 ≤ z := by
    norm_num at hzl hgap ⊢
    linarith
  have hz0 : 0 < z := lt_of_lt_of_le (by positivity) hgap2
  have hz3 : z ≤ 2502 := by
    norm_num at hzl
    linarith
  have hsq1 : 1 / 2 ^ 250 ≤ Real.sqrt z := by
    rw [Real.le_sqrt (by positivity) hz0.le]
    refine le_trans ?_ ((by nlinarith [sq_nonneg Y'] : (4900000 : ℝ) / 2 ^ 53 ≤ _).trans hgap2)
    rw [div_pow, one_pow, ← pow_mul]
    calc (1 : ℝ) / 2 ^ (250 * 2) ≤ 1 / 2 ^ 53 := one_div_le_one_div_of_le (by positivity) (two_pow_le (by norm_num))
      _ ≤ _ := by norm_num
  have hsq2 : Real.sqrt z ≤ 51 := by
    rw [Real.sqrt_le_left (by norm_num)]
    norm_num
    linarith
  obtain ⟨c, hc, -, hce⟩ := round_pos h hsq1 (hsq2.trans (by norm_num))
  have hcl := abs_le.1 hce
  have hc0 : 0 < c := by
    have : 0 < Real.sqrt z := Real.sqrt_pos.2 hz0
    norm_num at hcl
    linarith
  have hYc : |Y'| < c := by
    apply abs_lt_of_sq_lt_sq _ hc0.le
    have i1 : Real.sqrt z * (1 - 1 / 2 ^ 53) ≤ c := by
      norm_num at hcl ⊢
      linarith
    have i2 : (Real.sqrt z * (1 - 1 / 2 ^ 53)) ^ 2 ≤ c ^ 2 :=
      pow_le_pow_left₀ (mul_nonneg (Real.sqrt_nonneg _) (by norm_num)) i1 2
    rw [mul_pow, Real.sq_sqrt hz0.le] at i2
    norm_num at i2 hgap2 ⊢
    linarith
  have hcirc : Dbl.circ rnd (.fin 50) (.fin X') = .fin c := by
    unfold Dbl.circ
    rw [mul_fin_rnd, mul_fin_rnd, hP, show (50 : ℝ) * 50 = 2500 by norm_num, round_self h isDouble_2500, sub_fin_rnd, hz]
    show Dbl.sqrt rnd (.fin |z|) = _
    rw [abs_of_pos hz0, Dbl.sqrt, show Fl.sqrt (.fin z) = .fin (Real.sqrt z) from if_neg (not_lt.2 hz0.le)]
    exact hc
  rw [hcirc]
  have hX5 : |X'| < 50 := by
    apply abs_lt_of_sq_lt_sq _ (by norm_num)
    norm_num at sX' hin' ⊢
    nlinarith [sq_nonneg Y]
  obtain ⟨a1, a2⟩ := abs_lt.1 hYc
  obtain ⟨b1, b2⟩ := abs_lt.1 hX5
  exact ⟨a2, a1, b2, b1⟩

theorem isDouble_quarter (z : ℤ) (hz : |z| < 2 ^ 53) : Spec.IsDouble (z / 4) :=
  ⟨z, -2, hz, by norm_num, by norm_num, by norm_num [zpow_neg]; ring⟩

/-- Beyond the corner, in doubles. -/
theorem beyondD {C C' X X' : ℝ} (hC1 : 24.25 ≤ C) (hC : |C' - C| ≤ 1 / 2 ^ 34) (eX : |X' - X| ≤ 1 / 2 ^ 38)
    (cC : 1 / 2 ^ 20 ≤ |(|X| - C)|) : (C' < X' ↔ C < X) ∧ (X' < -C' ↔ X < -C) := by
  have h1 := abs_le.1 hC
  have h2 := abs_le.1 eX
  norm_num at h1 h2 cC hC1
  rcases le_abs.1 cC with c | c
  · rcases le_total 0 X with h0 | h0
    · rw [abs_of_nonneg h0] at c
      constructor <;> constructor <;> intro i <;> linarith
    · rw [abs_of_nonpos h0] at c
      constructor <;> constructor <;> intro i <;> linarith
  · have := le_abs_self X
    have := neg_le_abs X
    constructor <;> constructor <;> intro i <;> linarith

/-- **C127.**  `block_effelsberg(alpha)` in doubles lights the same pixels as in exact numbers, for every angle from 1 to 60 degrees and
every pixel that is not within a micrometre of an edge of the shade or within rounding of the other edges. -/
theorem C127_block {rnd : ℝ → Fl} (h : Spec.Rounding rnd) {Lm : Dbl.LibmT} (hL : Spec.AccurateT Lm) {ι : Type} {α : ℝ} (h1 : 1 ≤ α)
    (h2 : α ≤ 60) (x y g k : ι → ℝ)
    (hg : ∀ q, |g q - x q| ≤ 448 * 50 / 2 ^ 53 ∧ |k q - y q| ≤ 448 * 50 / 2 ^ 53)
    (hbox : ∀ q, |x q| ≤ 64 * 50 ∧ |y q| ≤ 64 * 50) (hc : ∀ q, Spec.ClearOfEdges 50 3.25 1 20 (x q) (y q))
    (hsh : ∀ q, Spec.ClearOfShade (α * (Real.pi / 180)) (x q) (y q) ∧ Spec.ClearOfShade (α * (Real.pi / 180)) (y q) (x q)) :
    ∃ B, Telgeometry.blockEffelsberg (α * (Real.pi / 180)) x y = .ok B ∧
      Dbl.blockEffelsberg rnd Lm (.fin α) (fun q => .fin (g q)) (fun q => .fin (k q)) = .ok (fun q => .fin (B q)) ∧
      ∀ q, B q = 0 ∨ (B q = 1 ∧ x q ^ 2 + y q ^ 2 ≤ 50 ^ 2 * (1 - 1 / 2 ^ 40)) := by
  obtain ⟨j1, j2⟩ := radians_range h1 h2
  have hp := Real.pi_pos
  have hgb : ∀ q, |g q| ≤ 100 * 50 ∧ |k q| ≤ 100 * 50 := fun q =>
    ⟨gridPoint_le (by norm_num) (hg q).1 (hbox q).1, gridPoint_le (by norm_num) (hg q).2 (hbox q).2⟩
  obtain ⟨B0, hB0, hB0d, hlit⟩ := blockD_same h (p := 50) (sr := 3.25) (a := 1) (L := 20) (by norm_num) (by norm_num) (by norm_num)
    (by norm_num) (by norm_num) (by norm_num) x y g k hg hgb hc
  obtain ⟨B, hB, hBv⟩ := C25_value (α * (Real.pi / 180)) (by linarith) (by linarith) x y
  obtain ⟨B1, hB1, hv⟩ := C24_value 50 3.25 1 20 x y
  have hB10 : B1 = B0 := Except.ok.inj (hB1.symm.trans hB0)
  subst hB10
  obtain ⟨d, C, D, t, T, hd, ht, hT, hC, hD, hCe, hDe⟩ := cornerD_near h hL h1 h2
  obtain ⟨c1, c2, d1, d2⟩ := shade_corner_range h1 h2
  have hCp : 0 < Spec.shadeC (α * (Real.pi / 180)) := by norm_num at c1; linarith
  set θ := α * (Real.pi / 180) with hθ
  refine ⟨B, hB, ?_, fun q => ?_⟩
  · have hA : Dbl.add rnd (.fin 3.25) (.fin 20) = .fin 23.25 := by
      rw [add_fin_rnd, show (3.25 : ℝ) + 20 = ((93 : ℤ) : ℝ) / 4 by norm_num, round_self h (isDouble_quarter 93 (by norm_num))]
      norm_num
    have hman := hB0d
    unfold Dbl.blockManual at hman
    simp only [hA, Except.ok.injEq] at hman
    unfold Dbl.blockEffelsberg
    simp only [hA, hd, ht, hT, hC, hD]
    show Except.ok _ = Except.ok _
    congr 1
    funext q
    have hq := congrFun hman q
    simp only [Fl.fin.injEq] at hq ⊢
    simp only [show ∀ a : ℝ, (Fl.fin a).neg = .fin (-a) from fun _ => rfl] at hq ⊢
    unfold Telgeometry.setWhere at hq ⊢
    simp only at hq ⊢
    rw [hq]
    obtain ⟨hv1, hv0⟩ := hv q
    by_cases hV : Spec.visible 50 3.25 1 20 (x q) (y q)
    · rw [hv1 hV]
      have hin : x q ^ 2 + y q ^ 2 ≤ 50 ^ 2 * (1 - 1 / 2 ^ 40) := by
        rcases hlit q with i | i
        · rw [hv1 hV] at i
          norm_num at i
        · exact i.2
      obtain ⟨⟨x1, x2⟩, ⟨y1, y2⟩⟩ := hsh q
      have gx : |g q - x q| ≤ 1 / 2 ^ 38 := (hg q).1.trans (by norm_num)
      have ky : |k q - y q| ≤ 1 / 2 ^ 38 := (hg q).2.trans (by norm_num)
      have hr : x q ^ 2 + y q ^ 2 ≤ 2500 := hin.trans (by norm_num)
      have hx5 : |x q| ≤ 50 := abs_le_of_sq_le_sq (by nlinarith [sq_nonneg (y q)]) (by norm_num)
      have hy5 : |y q| ≤ 50 := abs_le_of_sq_le_sq (by nlinarith [sq_nonneg (x q)]) (by norm_num)
      have hleg := (hc q).2.2.resolve_left (by norm_num)
      have ax : 1 / 2 ^ 38 < |(|x q| - 23.25)| := by
        have := hleg.1.1
        rw [show (3.25 : ℝ) + 20 = 23.25 by norm_num] at this
        exact lt_of_lt_of_le (by norm_num) this
      have ay : 1 / 2 ^ 38 < |(|y q| - 23.25)| := by
        have := hleg.2.1
        rw [show (3.25 : ℝ) + 20 = 23.25 by norm_num] at this
        exact lt_of_lt_of_le (by norm_num) this
      obtain ⟨p1, p2, p3, p4⟩ := circD_inside h hin (hg q).1 (hg q).2
      obtain ⟨r1, r2, r3, r4⟩ := circD_inside h (by rw [add_comm]; exact hin : y q ^ 2 + x q ^ 2 ≤ _) (hg q).2 (hg q).1
      have w1 := wedgeD_pos h c1 c2 d1 d2 hCe hDe hx5 gx ky ax x1 x2
      have w2 := wedgeD_neg h c1 c2 d1 d2 hCe hDe hx5 gx ky ax x1 x2
      have w3 := wedgeD_pos h c1 c2 d1 d2 hCe hDe hy5 ky gx ay y1 y2
      have w4 := wedgeD_neg h c1 c2 d1 d2 hCe hDe hy5 ky gx ay y1 y2
      have b1 := beyondD c1 hCe gx x1
      have b2 := beyondD c1 hCe ky y1
      have w3' := (and_congr_right fun _ => and_congr_right fun _ => and_comm).trans w3
      have hBq := hBv q
      rw [shade_iff θ _ _ hCp, shade_iff θ _ _ hCp] at hBq
      by_cases hS : Spec.shade θ (x q) (y q) ∨ Spec.shade θ (y q) (x q)
      · rw [shade_iff θ _ _ hCp, shade_iff θ _ _ hCp] at hS
        rw [hBq.2 (fun i => hS.elim i.2.1 i.2.2)]
        split_ifs with m11 m10 m9 m8 m7 m6 m5 m4
        all_goals try rfl
        exfalso
        rcases hS with (i | i | i | i) | (i | i | i | i)
        · exact m4 (w1.2 i)
        · exact m5 ⟨p3, b1.1.2 i, p1, p2⟩
        · exact m8 (w2.2 i)
        · exact m9 ⟨p4, b1.2.2 i, p1, p2⟩
        · exact m10 (w3'.2 i)
        · exact m11 ⟨r3, b2.1.2 i, p1, p2⟩
        · exact m6 (w4.2 i)
        · exact m7 ⟨r4, b2.2.2 i, r1, r2⟩
      · rw [shade_iff θ _ _ hCp, shade_iff θ _ _ hCp] at hS
        simp only [not_or] at hS
        obtain ⟨hx, hy⟩ := hS
        rw [hBq.1 ⟨hV, by simp only [not_or]; exact hx, by simp only [not_or]; exact hy⟩]
        rw [if_neg (fun i => hy.2.1 (b2.1.1 i.2.1)), if_neg (fun i => hy.1 (w3'.1 i)), if_neg (fun i => hx.2.2.2 (b1.2.1 i.2.1)),
          if_neg (fun i => hx.2.2.1 (w2.1 i)), if_neg (fun i => hy.2.2.2 (b2.2.1 i.2.1)), if_neg (fun i => hy.2.2.1 (w4.1 i)),
          if_neg (fun i => hx.2.1 (b1.1.1 i.2.1)), if_neg (fun i => hx.1 (w1.1 i))]
    · rw [hv0 hV, (hBv q).2 (fun i => hV i.1)]
      simp
  · by_cases hV : Spec.visible 50 3.25 1 20 (x q) (y q) ∧ ¬ Spec.shade θ (x q) (y q) ∧ ¬ Spec.shade θ (y q) (x q)
    · refine .inr ⟨(hBv q).1 hV, ?_⟩
      rcases hlit q with i | i
      · rw [(hv q).1 hV.1] at i
        norm_num at i
      · exact i.2
    · exact .inl ((hBv q).2 hV)

/-- **C127.**  At 0 degrees there is no shade: the square of the cosecant is infinite, the corner is nan, no comparison with nan is
true, and `block_effelsberg` is `block_manual` with the sizes of Effelsberg, bit for bit and for all arrays. -/
theorem C127_zero {rnd : ℝ → Fl} (h : Spec.Rounding rnd) {Lm : Dbl.LibmT} (hs : Lm.sin (.fin 0) = .fin 0)
    (hp : Lm.powr (.fin 0) (.fin (-2)) = .pinf) {ι : Type} (x y : ι → Fl) :
    Dbl.blockEffelsberg rnd Lm (.fin 0) x y = Dbl.blockManual rnd (.fin 50) (.fin 3.25) (.fin 1) (.fin 20) x y := by
  have hp4 := Real.pi_le_four
  have hp3 := Real.pi_gt_three
  obtain ⟨p, hpr, -, -⟩ := round_pos h (y := Real.pi) (le_trans (by norm_num) hp3.le) (hp4.trans (by norm_num))
  obtain ⟨p2, hpr2, hpe⟩ := round_small h (y := Real.pi) (by rw [abs_of_pos Real.pi_pos]; linarith)
  have hpp : p = p2 := Fl.fin.inj (hpr.symm.trans hpr2)
  subst hpp
  have hpl := abs_le.1 hpe
  obtain ⟨f, hf, -⟩ := round_small h (y := p / 180) (by
    rw [abs_of_nonneg (by norm_num at hpl ⊢; linarith)]
    norm_num at hpl ⊢
    linarith)
  have hr : Dbl.radians rnd (.fin 0) = .fin 0 := by
    unfold Dbl.radians
    rw [hpr, div_fin_rnd _ _ (by norm_num), hf, mul_fin_rnd, zero_mul]
    exact rnd_zero h
  have m1 : Dbl.mul rnd (.fin 1) (.fin 1) = .fin 1 := by
    rw [mul_fin_rnd, mul_one]
    exact round_self h isDouble_one
  have m2 : Dbl.mul rnd (.fin 50) (.fin 50) = .fin 2500 := by
    rw [mul_fin_rnd, show (50 : ℝ) * 50 = 2500 by norm_num]
    exact round_self h isDouble_2500
  have m3 : Dbl.sub rnd (.fin 1) (.fin 2500) = .fin (-2499) := by
    rw [sub_fin_rnd, show (1 : ℝ) - 2500 = -2499 by norm_num]
    exact round_self h isDouble_2499
  have hd : Dbl.shadeBase rnd Lm (.fin 50) (.fin 1) (.fin 0) = .nan := by
    unfold Dbl.shadeBase
    simp only [hr, hs, hp, m1, m2, m3]
    have e1 : Dbl.mul rnd (.fin (-2499)) .pinf = .ninf := by
      rw [Dbl.mul]
      norm_num [Fl.mul, Fl.infSign, Dbl.rop]
    rw [e1]
    rfl
  have hdiv : ∀ z : Fl, Dbl.div rnd .nan z = .nan := fun z => by cases z <;> rfl
  have hline : ∀ (P : Fl × Fl) (D z : Fl), Dbl.lineEquation rnd P (.nan, D) z = .nan := by
    rintro ⟨p, q⟩ D z
    unfold Dbl.lineEquation
    have e1 : Dbl.sub rnd .nan p = .nan := by cases p <;> rfl
    have e2 : ∀ w : Fl, Dbl.div rnd w .nan = .nan := fun w => by cases w <;> rfl
    have e3 : ∀ w : Fl, Dbl.mul rnd .nan w = .nan := fun w => by cases w <;> rfl
    have e4 : ∀ w : Fl, Dbl.add rnd .nan w = .nan := fun w => by cases w <;> rfl
    simp only [e1, e2, e3, e4]
  have hn : Fl.neg .nan = .nan := rfl
  have l1 : ∀ z : Fl, ¬ Fl.lt .nan z := fun z => by cases z <;> exact id
  have l2 : ∀ z : Fl, ¬ Fl.lt z .nan := fun z => by cases z <;> exact id
  unfold Dbl.blockEffelsberg Dbl.blockManual
  simp only [hd, hdiv, hn, hline]
  show Except.ok _ = Except.ok _
  congr 1
  funext q
  congr 1
  unfold Telgeometry.setWhere
  simp only [l1, l2, false_and, and_false, if_false]

/-- The error of the path difference of Effelsberg in wavelengths, for radial offsets up to `dm`. -/
noncomputable def Spec.effWaves (dm wavel : ℝ) : ℝ := (dm / 2 ^ 42 + 2 ^ (-1074 : ℤ)) / wavel

/-- **C127.**  `opd_effelsberg` in doubles. -/
theorem C127_opd {rnd : ℝ → Fl} (h : Spec.Rounding rnd) {ι : Type} (x y g k : ι → ℝ)
    (hg : ∀ q, |g q - x q| ≤ 448 * 50 / 2 ^ 53 ∧ |k q - y q| ≤ 448 * 50 / 2 ^ 53)
    (hbox : ∀ q, |x q| ≤ 64 * 50 ∧ |y q| ≤ 64 * 50) (dz : ℝ) (hdz : |dz| ≤ 2 ^ 90) :
    ∃ delta d : ι → ℝ, Telgeometry.opdEffelsberg x y dz = .ok delta ∧
      Dbl.opdEffelsberg rnd (fun q => .fin (g q)) (fun q => .fin (k q)) (.fin dz) = .ok (fun q => .fin (d q)) ∧
      ∀ q, Spec.IsDouble (d q) ∧ |d q| ≤ 2 ^ 300 ∧ |delta q| ≤ 2 * |dz| ∧
        (x q ^ 2 + y q ^ 2 ≤ 50 ^ 2 → |d q - delta q| ≤ |dz| / 2 ^ 42 + 2 ^ (-1074 : ℤ)) := by
  have hgb : ∀ q, |g q| ≤ 100 * 50 ∧ |k q| ≤ 100 * 50 := fun q =>
    ⟨gridPoint_le (by norm_num) (hg q).1 (hbox q).1, gridPoint_le (by norm_num) (hg q).2 (hbox q).2⟩
  obtain ⟨F, hF, hFd, hFe⟩ := round_pos h (y := 387.39435) (by norm_num) (by norm_num)
  have hFl := abs_le.1 hFe
  have hF1 : 387 ≤ F ∧ F ≤ 388 := by
    norm_num at hFl
    constructor <;> linarith
  have h30 : Spec.IsDouble 30 := by simpa using isDouble_int (z := 30) (by norm_num)
  choose d hd hdd hdb hde using fun q => opdAt_near h (p := 50) (Fp := 30) (F := F) (by norm_num) (by norm_num) (hg q).1 (hg q).2
    (hgb q).1 (hgb q).2 h30 (by norm_num) (by norm_num) hFd (le_trans (by norm_num) hF1.1) (hF1.2.trans (by norm_num)) (dz := dz)
    (hdz.trans (two_pow_le (by norm_num)))
  refine ⟨fun q => Telgeometry.opdAt 30 387.39435 (x q) (y q) dz, d, rfl, ?_, fun q => ⟨hdd q, hdb q, opdAt_le _ _ _ _ _, fun hin => ?_⟩⟩
  · unfold Dbl.opdEffelsberg
    simp only [hF, hd]
  · have hr0 := Real.sqrt_nonneg (x q ^ 2 + y q ^ 2)
    have hr1 : Real.sqrt (x q ^ 2 + y q ^ 2) ≤ 50 := by
      rw [Real.sqrt_le_left (by norm_num)]
      exact hin
    have hfoc : |Telgeometry.opdAt 30 F (x q) (y q) dz - Telgeometry.opdAt 30 387.39435 (x q) (y q) dz| ≤ |dz| / 2 ^ 53 := by
      unfold Telgeometry.opdAt
      simp only
      rw [← mul_sub, abs_mul, add_sub_add_left_eq_sub, div_eq_mul_one_div |dz|]
      refine mul_le_mul_of_nonneg_left ?_ (abs_nonneg dz)
      generalize Real.sqrt (x q ^ 2 + y q ^ 2) = r at *
      have hF0 : 0 < F := by linarith [hF1.1]
      refine (cayley_lip (by positivity) (by positivity)).trans ?_
      have e : r / (2 * F) - r / (2 * 387.39435) = r * (387.39435 - F) / (2 * F * 387.39435) := by
        field_simp
      have hpos : 0 < 2 * F * 387.39435 := by positivity
      rw [e, abs_div, abs_of_pos hpos, abs_mul, abs_of_nonneg hr0, ← mul_div_assoc, div_le_iff₀ hpos]
      have i1 : r * |387.39435 - F| ≤ 50 * (387.39435 / 2 ^ 53) := by
        rw [abs_sub_comm]
        exact mul_le_mul hr1 hFe (abs_nonneg _) (by norm_num)
      have i2 := hF1.1
      norm_num at i1 ⊢
      linarith
    have herr : Spec.opdError 50 30 F ≤ 1900 / 2 ^ 53 := by
      unfold Spec.opdError
      have : (50 : ℝ) / F ≤ 50 / 387 := by
        gcongr
        exact hF1.1
      norm_num at this ⊢
      linarith
    have hZ := mul_le_mul_of_nonneg_left herr (abs_nonneg dz)
    refine (near_trans (hde q) hfoc).trans ?_
    have h0 := abs_nonneg dz
    clear hde hfoc
    generalize (2 : ℝ) ^ (-1074 : ℤ) = τ
    generalize |dz| * Spec.opdError 50 30 F = Z at *
    generalize |dz| = m at *
    norm_num at hZ ⊢
    linarith

end Verif.Props
