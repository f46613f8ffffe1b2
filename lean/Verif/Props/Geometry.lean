import Verif.Model.Telgeometry
import Verif.Lemmas.Fl
import Mathlib.Analysis.SpecialFunctions.Trigonometric.Basic
import Mathlib.Tactic.Positivity
import Mathlib.Tactic.Linarith
import Mathlib.Tactic.LinearCombination
import Mathlib.Tactic.FieldSimp

/-! # C23 - C26, C32: telescope geometry -/

namespace Verif.Props

open Verif Verif.Telgeometry

/-! ## C23 -/

/-- The documented path difference, in terms of `s = x² + y²`. -/
noncomputable def Spec.opd (Fp F s dz : ℝ) : ℝ :=
  dz * ((1 - s / (2 * Fp) ^ 2) / (1 + s / (2 * Fp) ^ 2) + (1 - s / (2 * F) ^ 2) / (1 + s / (2 * F) ^ 2))

/-- The value at one point. -/
theorem opdAt_value (Fp F x y dz : ℝ) :
    opdAt Fp F x y dz = Spec.opd Fp F (x ^ 2 + y ^ 2) dz := by
  have h : Real.sqrt (x ^ 2 + y ^ 2) ^ 2 = x ^ 2 + y ^ 2 := Real.sq_sqrt (by positivity)
  unfold opdAt Spec.opd
  simp only [div_pow, h]

theorem opdAt_linear (Fp F x y dz dz' c : ℝ) :
    opdAt Fp F x y (dz + dz') = opdAt Fp F x y dz + opdAt Fp F x y dz' ∧
    opdAt Fp F x y (c * dz) = c * opdAt Fp F x y dz ∧ opdAt Fp F x y 0 = 0 := by
  unfold opdAt
  refine ⟨by ring, by ring, by ring⟩

theorem frac_eq (t : ℝ) (ht : 0 ≤ t) : (1 - t) / (1 + t) = 2 / (1 + t) - 1 := by
  field_simp
  ring

theorem frac_lt {t t' : ℝ} (ht : 0 ≤ t) (h : t < t') : (1 - t') / (1 + t') < (1 - t) / (1 + t) := by
  rw [frac_eq t ht, frac_eq t' (ht.trans h.le)]
  have : 2 / (1 + t') < 2 / (1 + t) :=
    div_lt_div_of_pos_left (by norm_num) (by linarith) (by linarith)
  linarith

theorem frac_abs {t : ℝ} (ht : 0 ≤ t) : |(1 - t) / (1 + t)| ≤ 1 := by
  rw [abs_div, abs_of_pos (by linarith : 0 < 1 + t), div_le_one (by linarith), abs_le]
  constructor <;> linarith

theorem opdAt_bounds (Fp F x y dz : ℝ) :
    opdAt Fp F 0 0 dz = 2 * dz ∧ |opdAt Fp F x y dz| ≤ 2 * |dz| := by
  constructor
  · rw [opdAt_value]
    unfold Spec.opd
    norm_num
    ring
  · rw [opdAt_value]
    unfold Spec.opd
    rw [abs_mul, mul_comm]
    apply mul_le_mul_of_nonneg_right _ (abs_nonneg _)
    have h1 := frac_abs (t := (x ^ 2 + y ^ 2) / (2 * Fp) ^ 2) (by positivity)
    have h2 := frac_abs (t := (x ^ 2 + y ^ 2) / (2 * F) ^ 2) (by positivity)
    exact (abs_add_le _ _).trans (by linarith)

theorem opdAt_decreasing (Fp F x y x' y' dz : ℝ) (hFp : Fp ≠ 0) (hF : F ≠ 0) (hdz : 0 < dz)
    (h : x ^ 2 + y ^ 2 < x' ^ 2 + y' ^ 2) :
    opdAt Fp F x' y' dz < opdAt Fp F x y dz := by
  rw [opdAt_value, opdAt_value]
  unfold Spec.opd
  apply mul_lt_mul_of_pos_left _ hdz
  have hp : (0 : ℝ) < (2 * Fp) ^ 2 := by positivity
  have hf : (0 : ℝ) < (2 * F) ^ 2 := by positivity
  have h1 := frac_lt (t := (x ^ 2 + y ^ 2) / (2 * Fp) ^ 2) (by positivity)
    (div_lt_div_of_pos_right h hp)
  have h2 := frac_lt (t := (x ^ 2 + y ^ 2) / (2 * F) ^ 2) (by positivity)
    (div_lt_div_of_pos_right h hf)
  linarith

/-- **C23** the value, a function of `x² + y²` only. -/
theorem C23_value {ι : Type} (Fp F : ℝ) (x y : ι → ℝ) (dz : ℝ) :
    opdManual Fp F x y dz = .ok fun q => Spec.opd Fp F (x q ^ 2 + y q ^ 2) dz := by
  simp only [opdManual, opdAt_value]

/-- **C23** linear in the radial offset, 0 in focus. -/
theorem C23_linear {ι : Type} (Fp F : ℝ) (x y : ι → ℝ) (dz dz' c : ℝ) :
    ∃ d d', opdManual Fp F x y dz = .ok d ∧ opdManual Fp F x y dz' = .ok d' ∧
      opdManual Fp F x y (dz + dz') = .ok (fun q => d q + d' q) ∧
      opdManual Fp F x y (c * dz) = .ok (fun q => c * d q) ∧ opdManual Fp F x y 0 = .ok fun _ => 0 :=
  ⟨_, _, rfl, rfl, congrArg Except.ok (funext fun q => (opdAt_linear Fp F (x q) (y q) dz dz' c).1),
    congrArg Except.ok (funext fun q => (opdAt_linear Fp F (x q) (y q) dz dz' c).2.1),
    congrArg Except.ok (funext fun q => (opdAt_linear Fp F (x q) (y q) dz dz' c).2.2)⟩

/-- **C23** `2 d_z` at the centre, bounded by `2 |d_z|` everywhere. -/
theorem C23_bounds {ι : Type} (Fp F : ℝ) (x y : ι → ℝ) (dz : ℝ) (d : ι → ℝ)
    (h : opdManual Fp F x y dz = .ok d) (q : ι) :
    (x q = 0 → y q = 0 → d q = 2 * dz) ∧ |d q| ≤ 2 * |dz| := by
  simp only [opdManual, Except.ok.injEq] at h
  subst h
  refine ⟨fun h1 h2 => ?_, (opdAt_bounds Fp F (x q) (y q) dz).2⟩
  simp only [h1, h2]
  exact (opdAt_bounds Fp F 0 0 dz).1

/-- **C23** strictly decreasing with the distance to the axis for a positive offset. -/
theorem C23_decreasing {ι : Type} (Fp F : ℝ) (x y : ι → ℝ) (dz : ℝ) (d : ι → ℝ) (hFp : Fp ≠ 0)
    (hF : F ≠ 0) (hdz : 0 < dz) (h : opdManual Fp F x y dz = .ok d) (q q' : ι)
    (hq : x q ^ 2 + y q ^ 2 < x q' ^ 2 + y q' ^ 2) : d q' < d q := by
  simp only [opdManual, Except.ok.injEq] at h
  subst h
  exact opdAt_decreasing Fp F _ _ _ _ dz hFp hF hdz hq

/-- **C23** the Effelsberg function is the manual one with its two foci. -/
theorem C23_effelsberg {ι : Type} (x y : ι → ℝ) (dz : ℝ) :
    opdEffelsberg x y dz = opdManual 30 387.39435 x y dz := rfl

/-- **C23** the path difference functions meet the hypotheses of the conjugation theorem. -/
theorem C23_odd {ι : Type} (Fp F : ℝ) (x y : ι → ℝ) (dz : ℝ) (d : ι → ℝ)
    (h : opdManual Fp F x y dz = .ok d) : opdManual Fp F x y (-dz) = .ok (fun q => -d q) := by
  unfold opdManual at h ⊢
  simp only [Except.ok.injEq] at h ⊢
  subst h
  funext q
  unfold opdAt
  ring

example (d : Fin 2 → ℝ) (h : opdEffelsberg ![10, 50] ![20, 0] 0.02 = .ok d) : d 1 < d 0 :=
  C23_decreasing 30 387.39435 _ _ _ d (by norm_num) (by norm_num) (by norm_num) h 0 1 (by simp; norm_num)

/-! ## C24 -/

/-- The open region of an annulus outside two crossed open rectangles. -/
def Spec.visible (pr sr a L x y : ℝ) : Prop :=
  sr ^ 2 < x ^ 2 + y ^ 2 ∧ x ^ 2 + y ^ 2 < pr ^ 2 ∧
    ¬ (|x| < sr + L ∧ |y| < a) ∧ ¬ (|y| < sr + L ∧ |x| < a)

/-- **C24** 0 or 1, and 1 exactly on the visible region. -/
theorem C24_value {ι : Type} (pr sr a L : ℝ) (x y : ι → ℝ) :
    ∃ B, blockManual pr sr a L x y = .ok B ∧ ∀ q,
      (Spec.visible pr sr a L (x q) (y q) → B q = 1) ∧
      (¬ Spec.visible pr sr a L (x q) (y q) → B q = 0) := by
  refine ⟨_, rfl, fun q => ?_⟩
  simp only [setWhere, Spec.visible, abs_lt, and_assoc]
  constructor
  · rintro ⟨h1, h2, h3, h4⟩
    rw [if_neg h4, if_neg h3, if_pos ⟨h2, h1⟩]
  · intro h
    split_ifs with h4 h3 h12
    · rfl
    · rfl
    · exact absurd ⟨h12.2, h12.1, h3, h4⟩ h
    · rfl

/-- **C24** the visible region has the symmetries of the square. -/
theorem C24_symmetric (pr sr a L x y : ℝ) :
    (Spec.visible pr sr a L (-x) y ↔ Spec.visible pr sr a L x y) ∧
    (Spec.visible pr sr a L x (-y) ↔ Spec.visible pr sr a L x y) ∧
    (Spec.visible pr sr a L y x ↔ Spec.visible pr sr a L x y) := by
  unfold Spec.visible
  refine ⟨by rw [neg_sq, abs_neg], by rw [neg_sq, abs_neg], ?_⟩
  rw [add_comm]
  tauto

/-- **C24** symmetric as a function: for every shape, equal values at symmetric positions. -/
theorem C24_symmetric_values {ι : Type} (pr sr a L : ℝ) (x y : ι → ℝ) :
    blockManual pr sr a L (fun q => -x q) y = blockManual pr sr a L x y ∧
    blockManual pr sr a L x (fun q => -y q) = blockManual pr sr a L x y ∧
    blockManual pr sr a L y x = blockManual pr sr a L x y := by
  have key : ∀ x y x' y' : ι → ℝ, (∀ q, Spec.visible pr sr a L (x q) (y q) ↔
      Spec.visible pr sr a L (x' q) (y' q)) →
      blockManual pr sr a L x y = blockManual pr sr a L x' y' := by
    intro x y x' y' h
    obtain ⟨B, hB, h1⟩ := C24_value pr sr a L x y
    obtain ⟨B', hB', h1'⟩ := C24_value pr sr a L x' y'
    rw [hB, hB']
    congr 1
    funext q
    by_cases hv : Spec.visible pr sr a L (x q) (y q)
    · rw [(h1 q).1 hv, (h1' q).1 ((h q).1 hv)]
    · rw [(h1 q).2 hv, (h1' q).2 (fun h' => hv ((h q).2 h'))]
  exact ⟨key _ _ _ _ fun q => (C24_symmetric pr sr a L (x q) (y q)).1,
    key _ _ _ _ fun q => (C24_symmetric pr sr a L (x q) (y q)).2.1,
    key _ _ _ _ fun q => (C24_symmetric pr sr a L (x q) (y q)).2.2⟩

/-- **C24** without sub-reflector and legs: the punctured disc. -/
theorem C24_empty (pr x y : ℝ) :
    Spec.visible pr 0 0 0 x y ↔ 0 < x ^ 2 + y ^ 2 ∧ x ^ 2 + y ^ 2 < pr ^ 2 := by
  unfold Spec.visible
  have := abs_nonneg x
  have := abs_nonneg y
  constructor
  · rintro ⟨h1, h2, -, -⟩
    exact ⟨by simpa using h1, h2⟩
  · rintro ⟨h1, h2⟩
    exact ⟨by simpa using h1, h2, fun h => by linarith [h.2], fun h => by linarith [h.2]⟩

example : Spec.visible 50 3.25 1 20 10 10 := by
  unfold Spec.visible
  norm_num [abs_of_pos]

example : ¬ Spec.visible 50 3.25 1 20 10 0.5 := by
  unfold Spec.visible
  norm_num [abs_of_pos]

/-! ## C25 -/

/-- Distance from the leg to the point where its shade line meets the rim: the positive root of
`d² / sin²α + 2 a d + a² = pr²`. -/
noncomputable def Spec.shadeD (alpha : ℝ) : ℝ :=
  (-1 + Real.sqrt (1 + 2499 * (1 / Real.sin alpha ^ 2))) * Real.sin alpha ^ 2

/-- The corner of the shade wedge: `(C, D)`. -/
noncomputable def Spec.shadeC (alpha : ℝ) : ℝ := Spec.shadeD alpha / Real.tan alpha

/-- The shade of the legs along the first axis: a wedge from the leg's end `(23.25, 1)` to the
corner `(C, D)`, and everything beyond `C`. -/
def Spec.shade (alpha x y : ℝ) : Prop :=
  (23.25 < |x| ∧ |x| < Spec.shadeC alpha ∧
    |y| < 1 + Spec.shadeD alpha / (Spec.shadeC alpha - 23.25) * (|x| - 23.25)) ∨
  Spec.shadeC alpha < |x|

theorem shadeD_pos {alpha : ℝ} (hs : 0 < Real.sin alpha) : 0 < Spec.shadeD alpha := by
  unfold Spec.shadeD
  apply mul_pos _ (by positivity)
  have : 1 < Real.sqrt (1 + 2499 * (1 / Real.sin alpha ^ 2)) := by
    rw [Real.lt_sqrt (by norm_num)]
    have : 0 < 1 / Real.sin alpha ^ 2 := by positivity
    linarith
  linarith

/-- **C25** the corner of the wedge is on the rim. -/
theorem C25_corner (alpha : ℝ) (h0 : 0 < alpha) (h1 : alpha < Real.pi / 2) :
    Spec.shadeC alpha ^ 2 + (1 + Spec.shadeD alpha) ^ 2 = 50 ^ 2 ∧
    0 < Spec.shadeC alpha ∧ 0 < Spec.shadeD alpha := by
  have hs : 0 < Real.sin alpha := Real.sin_pos_of_pos_of_lt_pi h0 (by linarith [Real.pi_pos])
  have hc : 0 < Real.cos alpha := Real.cos_pos_of_mem_Ioo ⟨by linarith, h1⟩
  have hd := shadeD_pos hs
  refine ⟨?_, ?_, hd⟩
  · have hq : Spec.shadeD alpha ^ 2 / Real.sin alpha ^ 2 + 2 * Spec.shadeD alpha + 1 = 2500 := by
      unfold Spec.shadeD
      have hx : Real.sqrt (1 + 2499 * (1 / Real.sin alpha ^ 2)) ^ 2 =
        1 + 2499 * (1 / Real.sin alpha ^ 2) := Real.sq_sqrt (by positivity)
      set S := Real.sqrt (1 + 2499 * (1 / Real.sin alpha ^ 2))
      field_simp at hx ⊢
      linear_combination hx
    unfold Spec.shadeC
    rw [div_pow, Real.tan_eq_sin_div_cos]
    have hsc := Real.sin_sq_add_cos_sq alpha
    have : Spec.shadeD alpha ^ 2 / (Real.sin alpha / Real.cos alpha) ^ 2 =
        Spec.shadeD alpha ^ 2 / Real.sin alpha ^ 2 - Spec.shadeD alpha ^ 2 := by
      field_simp
      linear_combination hsc
    rw [this]
    linear_combination hq
  · unfold Spec.shadeC
    rw [Real.tan_eq_sin_div_cos]
    positivity

theorem fl_d {alpha : ℝ} (hs : 0 < Real.sin alpha) :
    Fl.div (Fl.add (.fin (-1)) (Fl.sqrt (Fl.sub (.fin (1 ^ 2))
      (Fl.mul (.fin (1 ^ 2 - 50 ^ 2)) (Fl.pow (.fin (Real.sin alpha)) (-2))))))
      (Fl.pow (.fin (Real.sin alpha)) (-2)) = .fin (Spec.shadeD alpha) := by
  have hp : Fl.pow (.fin (Real.sin alpha)) (-2) = .fin (1 / Real.sin alpha ^ 2) := by
    rw [Fl.pow_fin, if_neg (by norm_num), if_neg hs.ne', if_neg (fun h => absurd h.1 (by linarith)),
      Real.rpow_neg hs.le, Real.rpow_two, one_div]
  have hpos : 0 < 1 / Real.sin alpha ^ 2 := by positivity
  rw [hp]
  simp only [Fl.mul]
  rw [Fl.sub_fin]
  have : Fl.sqrt (.fin (1 ^ 2 - (1 ^ 2 - 50 ^ 2) * (1 / Real.sin alpha ^ 2))) =
      .fin (Real.sqrt (1 + 2499 * (1 / Real.sin alpha ^ 2))) := by
    unfold Fl.sqrt
    simp only
    rw [if_neg (by nlinarith)]
    congr 2
    ring
  rw [this]
  simp only [Fl.add]
  rw [Fl.div_fin _ hpos.ne']
  unfold Spec.shadeD
  congr 1
  field_simp

theorem line_fin {x1 y1 x2 y2 x : ℝ} (h : x2 ≠ x1) :
    lineEquation (.fin x1, .fin y1) (.fin x2, .fin y2) (.fin x) =
      .fin ((y2 - y1) / (x2 - x1) * (x - x1) + y1) := by
  unfold lineEquation
  simp only
  rw [Fl.sub_fin, Fl.sub_fin, Fl.sub_fin, Fl.div_fin _ (sub_ne_zero.2 h)]
  rfl

theorem line_eq_aux {A C d X : ℝ} (h : C ≠ A) :
    (1 + d - 1) / (C - A) * (X - A) + 1 = 1 + d / (C - A) * (X - A) ∧
    (-(1 + d) - -1) / (C - A) * (X - A) + -1 = -(1 + d / (C - A) * (X - A)) ∧
    (1 + d - 1) / (-C - -A) * (X - -A) + 1 = 1 + d / (C - A) * (-X - A) ∧
    (-(1 + d) - -1) / (-C - -A) * (X - -A) + -1 = -(1 + d / (C - A) * (-X - A)) := by
  have h1 : C - A ≠ 0 := sub_ne_zero.2 h
  have h2 : -C - -A ≠ 0 := by
    intro h3
    apply h1
    linarith
  have h3 : d / (-C - -A) = -(d / (C - A)) := by
    rw [show -C - -A = -(C - A) by ring, div_neg]
  have h4 : -d / (C - A) = -(d / (C - A)) := neg_div _ _
  have h5 : -d / (-C - -A) = d / (C - A) := by
    rw [show -C - -A = -(C - A) by ring, neg_div_neg_eq]
  refine ⟨by rw [show 1 + d - 1 = d by ring]; ring, ?_, ?_, ?_⟩
  · rw [show -(1 + d) - -1 = -d by ring, h4]; ring
  · rw [show 1 + d - 1 = d by ring, h3]; ring
  · rw [show -(1 + d) - -1 = -d by ring, h5]; ring

theorem wedge_pos (A C d X Y : ℝ) :
    ((Fl.fin A).lt (.fin X) ∧ (Fl.fin X).lt (.fin C) ∧
      (Fl.fin Y).lt (lineEquation (.fin A, .fin 1) (.fin C, .fin (1 + d)) (.fin X)) ∧
      (lineEquation (.fin A, .fin (-1)) (.fin C, .fin (-(1 + d))) (.fin X)).lt (.fin Y)) ↔
    (A < X ∧ X < C ∧ |Y| < 1 + d / (C - A) * (X - A)) := by
  by_cases h : C = A
  · subst h
    constructor
    · rintro ⟨h1, h2, -⟩
      exact absurd h1 (not_lt.2 (le_of_lt h2))
    · rintro ⟨h1, h2, -⟩
      linarith
  · rw [line_fin h, line_fin h, (line_eq_aux h).1, (line_eq_aux h).2.1, abs_lt]
    show A < X ∧ X < C ∧ Y < _ ∧ _ < Y ↔ _
    tauto

theorem wedge_neg (A C d X Y : ℝ) :
    ((Fl.fin X).lt (.fin (-A)) ∧ (Fl.fin (-C)).lt (.fin X) ∧
      (lineEquation (.fin (-A), .fin (-1)) (.fin (-C), .fin (-(1 + d))) (.fin X)).lt (.fin Y) ∧
      (Fl.fin Y).lt (lineEquation (.fin (-A), .fin 1) (.fin (-C), .fin (1 + d)) (.fin X))) ↔
    (A < -X ∧ -X < C ∧ |Y| < 1 + d / (C - A) * (-X - A)) := by
  by_cases h : C = A
  · subst h
    constructor
    · rintro ⟨h1, h2, -⟩
      exact absurd h1 (not_lt.2 (le_of_lt h2))
    · rintro ⟨h1, h2, -⟩
      linarith
  · have h' : -C ≠ -A := fun e => h (neg_inj.1 e)
    rw [line_fin h', line_fin h', (line_eq_aux h).2.2.1, (line_eq_aux h).2.2.2, abs_lt]
    show X < -A ∧ -C < X ∧ _ < Y ∧ Y < _ ↔ _
    constructor
    · rintro ⟨h1, h2, h3, h4⟩
      exact ⟨by linarith, by linarith, h3, h4⟩
    · rintro ⟨h1, h2, h3, h4⟩
      exact ⟨by linarith, by linarith, h3, h4⟩

theorem inside_circ {X Y : ℝ} (h : X ^ 2 + Y ^ 2 < 50 ^ 2) :
    Y < Real.sqrt |50 ^ 2 - X ^ 2| ∧ -Real.sqrt |50 ^ 2 - X ^ 2| < Y ∧ X < 50 ∧ -50 < X := by
  have h1 : |Y| < Real.sqrt |50 ^ 2 - X ^ 2| := by
    rw [Real.lt_sqrt (abs_nonneg _), sq_abs, abs_of_pos (by nlinarith [sq_nonneg Y])]
    linarith
  have h2 : |X| < 50 := by
    apply abs_lt_of_sq_lt_sq _ (by norm_num)
    nlinarith [sq_nonneg Y]
  rw [abs_lt] at h1 h2
  exact ⟨h1.2, h1.1, h2.2, h2.1⟩

theorem shade_iff (alpha X Y : ℝ) (hC : 0 < Spec.shadeC alpha) : Spec.shade alpha X Y ↔
    ((23.25 < X ∧ X < Spec.shadeC alpha ∧
      |Y| < 1 + Spec.shadeD alpha / (Spec.shadeC alpha - 23.25) * (X - 23.25)) ∨
    Spec.shadeC alpha < X ∨
    (23.25 < -X ∧ -X < Spec.shadeC alpha ∧
      |Y| < 1 + Spec.shadeD alpha / (Spec.shadeC alpha - 23.25) * (-X - 23.25)) ∨
    X < -Spec.shadeC alpha) := by
  unfold Spec.shade
  generalize Spec.shadeC alpha = C at *
  generalize Spec.shadeD alpha = d at *
  rcases le_total 0 X with hX | hX
  · rw [abs_of_nonneg hX]
    constructor
    · rintro (h | h)
      · exact .inl h
      · exact .inr (.inl h)
    · rintro (h | h | h | h)
      · exact .inl h
      · exact .inr h
      · linarith [h.1]
      · linarith
  · rw [abs_of_nonpos hX]
    constructor
    · rintro (h | h)
      · exact .inr (.inr (.inl h))
      · exact .inr (.inr (.inr (by linarith)))
    · rintro (h | h | h | h)
      · linarith [h.1]
      · linarith
      · exact .inl h
      · exact .inr (by linarith)

/-- **C25** the blockage: 0 or 1, and 1 exactly where the manual blockage with the Effelsberg
dimensions is 1 and the point is in no shade of the two pairs of legs. -/
theorem C25_value {ι : Type} (alpha : ℝ) (h0 : 0 < alpha) (h1 : alpha < Real.pi / 2)
    (x y : ι → ℝ) :
    ∃ B, blockEffelsberg alpha x y = .ok B ∧ ∀ q,
      ((Spec.visible 50 3.25 1 20 (x q) (y q) ∧ ¬ Spec.shade alpha (x q) (y q) ∧
        ¬ Spec.shade alpha (y q) (x q)) → B q = 1) ∧
      (¬ (Spec.visible 50 3.25 1 20 (x q) (y q) ∧ ¬ Spec.shade alpha (x q) (y q) ∧
        ¬ Spec.shade alpha (y q) (x q)) → B q = 0) := by
  have hs : 0 < Real.sin alpha := Real.sin_pos_of_pos_of_lt_pi h0 (by linarith [Real.pi_pos])
  have hc : 0 < Real.cos alpha := Real.cos_pos_of_mem_Ioo ⟨by linarith, h1⟩
  have ht : Real.tan alpha ≠ 0 := by rw [Real.tan_eq_sin_div_cos]; positivity
  obtain ⟨-, hCp, hDp⟩ := C25_corner alpha h0 h1
  obtain ⟨B0, hB0, hv⟩ := C24_value 50 3.25 1 20 x y
  unfold blockManual at hB0
  unfold blockEffelsberg
  simp only [Except.ok.injEq] at hB0
  simp only [hB0, fl_d hs, Fl.div_fin _ ht]
  rw [show Spec.shadeD alpha / Real.tan alpha = Spec.shadeC alpha from rfl]
  simp only [Fl.add, Fl.neg, show (3.25 : ℝ) + 20 = 23.25 by norm_num]
  refine ⟨_, rfl, fun q => ?_⟩
  rw [shade_iff alpha _ _ hCp, shade_iff alpha _ _ hCp]
  simp only [setWhere, wedge_pos, wedge_neg]
  have w7 : ∀ X Y : ℝ, ((Fl.fin 23.25).lt (.fin Y) ∧ (Fl.fin Y).lt (.fin (Spec.shadeC alpha)) ∧
      (lineEquation (.fin 23.25, .fin (-1)) (.fin (Spec.shadeC alpha), .fin (-(1 + Spec.shadeD alpha)))
        (.fin Y)).lt (.fin X) ∧ (Fl.fin X).lt (lineEquation (.fin 23.25, .fin 1)
          (.fin (Spec.shadeC alpha), .fin (1 + Spec.shadeD alpha)) (.fin Y))) ↔
      (23.25 < Y ∧ Y < Spec.shadeC alpha ∧
        |X| < 1 + Spec.shadeD alpha / (Spec.shadeC alpha - 23.25) * (Y - 23.25)) := by
    intro X Y
    rw [← wedge_pos]
    tauto
  simp only [w7]
  obtain ⟨hv1, hv0⟩ := hv q
  by_cases hV : Spec.visible 50 3.25 1 20 (x q) (y q)
  · rw [hv1 hV]
    have hin : x q ^ 2 + y q ^ 2 < 50 ^ 2 := hV.2.1
    obtain ⟨c1, c2, c3, c4⟩ := inside_circ hin
    obtain ⟨c5, c6, c7, c8⟩ := inside_circ (X := y q) (Y := x q) (by linarith)
    have lt_fin : ∀ a b : ℝ, (Fl.fin a).lt (.fin b) ↔ a < b := fun _ _ => Iff.rfl
    simp only [lt_fin]
    constructor
    · rintro ⟨-, hx, hy⟩
      simp only [not_or] at hx hy
      rw [if_neg (fun h => hy.2.1 h.2.1), if_neg hy.1, if_neg (fun h => hx.2.2.2 h.2.1),
        if_neg hx.2.2.1, if_neg (fun h => hy.2.2.2 h.2.1), if_neg hy.2.2.1,
        if_neg (fun h => hx.2.1 h.2.1), if_neg hx.1]
    · intro h
      split_ifs with m11 m10 m9 m8 m7 m6 m5 m4
      all_goals try rfl
      exfalso
      apply h
      refine ⟨hV, ?_, ?_⟩
      · rintro (h | h | h | h)
        · exact m4 h
        · exact m5 ⟨c3, h, c1, c2⟩
        · exact m8 h
        · exact m9 ⟨c4, h, c1, c2⟩
      · rintro (h | h | h | h)
        · exact m10 h
        · exact m11 ⟨c7, h, c1, c2⟩
        · exact m6 h
        · exact m7 ⟨c8, h, c5, c6⟩
  · rw [hv0 hV]
    simp [hV]

/-- **C25** the blockage never exceeds the manual one and has the symmetries of the square. -/
theorem C25_symmetric {ι : Type} (alpha : ℝ) (h0 : 0 < alpha) (h1 : alpha < Real.pi / 2)
    (x y : ι → ℝ) :
    blockEffelsberg alpha (fun q => -x q) y = blockEffelsberg alpha x y ∧
    blockEffelsberg alpha x (fun q => -y q) = blockEffelsberg alpha x y ∧
    blockEffelsberg alpha y x = blockEffelsberg alpha x y := by
  have key : ∀ x y x' y' : ι → ℝ, (∀ q, (Spec.visible 50 3.25 1 20 (x q) (y q) ∧
      ¬ Spec.shade alpha (x q) (y q) ∧ ¬ Spec.shade alpha (y q) (x q)) ↔
      (Spec.visible 50 3.25 1 20 (x' q) (y' q) ∧
      ¬ Spec.shade alpha (x' q) (y' q) ∧ ¬ Spec.shade alpha (y' q) (x' q))) →
      blockEffelsberg alpha x y = blockEffelsberg alpha x' y' := by
    intro x y x' y' h
    obtain ⟨B, hB, e1⟩ := C25_value alpha h0 h1 x y
    obtain ⟨B', hB', e1'⟩ := C25_value alpha h0 h1 x' y'
    rw [hB, hB']
    congr 1
    funext q
    by_cases hv : (Spec.visible 50 3.25 1 20 (x q) (y q) ∧
      ¬ Spec.shade alpha (x q) (y q) ∧ ¬ Spec.shade alpha (y q) (x q))
    · rw [(e1 q).1 hv, (e1' q).1 ((h q).1 hv)]
    · rw [(e1 q).2 hv, (e1' q).2 (fun h' => hv ((h q).2 h'))]
  have sh : ∀ a b : ℝ, (Spec.shade alpha (-a) b ↔ Spec.shade alpha a b) ∧
      (Spec.shade alpha a (-b) ↔ Spec.shade alpha a b) := by
    intro a b
    unfold Spec.shade
    rw [abs_neg, abs_neg]
    exact ⟨Iff.rfl, Iff.rfl⟩
  refine ⟨key _ _ _ _ fun q => ?_, key _ _ _ _ fun q => ?_, key _ _ _ _ fun q => ?_⟩
  · rw [(C24_symmetric _ _ _ _ _ _).1, (sh _ _).1, (sh _ _).2]
  · rw [(C24_symmetric _ _ _ _ _ _).2.1, (sh _ _).1, (sh _ _).2]
  · rw [(C24_symmetric _ _ _ _ _ _).2.2]
    tauto

/-- **C25** for every angle at all, the result is 0 or 1 and 0 wherever the manual blockage is 0. -/
theorem C25_below_manual {ι : Type} (alpha : ℝ) (x y : ι → ℝ) :
    ∃ B B0, blockEffelsberg alpha x y = .ok B ∧ blockManual 50 3.25 1 20 x y = .ok B0 ∧
      ∀ q, (B q = 0 ∨ B q = 1) ∧ (B0 q = 0 → B q = 0) := by
  obtain ⟨B0, hB0, hv⟩ := C24_value 50 3.25 1 20 x y
  refine ⟨_, B0, rfl, hB0, fun q => ?_⟩
  unfold blockManual at hB0
  simp only [Except.ok.injEq] at hB0
  simp only [hB0]
  have h01 : B0 q = 0 ∨ B0 q = 1 := by
    by_cases h : Spec.visible 50 3.25 1 20 (x q) (y q)
    · exact .inr ((hv q).1 h)
    · exact .inl ((hv q).2 h)
  have step : ∀ (m : ι → Prop) (b : ι → ℝ), ((b q = 0 ∨ b q = 1) ∧ (B0 q = 0 → b q = 0)) →
      ((setWhere m 0 b q = 0 ∨ setWhere m 0 b q = 1) ∧ (B0 q = 0 → setWhere m 0 b q = 0)) := by
    intro m b h
    unfold setWhere
    split_ifs
    · exact ⟨.inl rfl, fun _ => rfl⟩
    · exact h
  iterate 8 apply step
  exact ⟨h01, id⟩

example : ∃ alpha : ℝ, 0 < alpha ∧ alpha < Real.pi / 2 ∧ ¬ Spec.shade alpha 10 10 ∧
    Spec.visible 50 3.25 1 20 10 10 := by
  refine ⟨Real.pi / 4, by linarith [Real.pi_pos], by linarith [Real.pi_pos], ?_, ?_⟩
  · obtain ⟨h1, h2, h3⟩ := C25_corner (Real.pi / 4) (by linarith [Real.pi_pos]) (by linarith [Real.pi_pos])
    have hCD : Spec.shadeC (Real.pi / 4) = Spec.shadeD (Real.pi / 4) := by
      unfold Spec.shadeC
      rw [Real.tan_pi_div_four, div_one]
    have : 10 < Spec.shadeC (Real.pi / 4) := by
      rw [← hCD] at h1
      nlinarith
    unfold Spec.shade
    rw [abs_of_pos (by norm_num : (0 : ℝ) < 10)]
    rintro (h | h)
    · norm_num at h
    · linarith
  · unfold Spec.visible
    norm_num [abs_of_pos]

/-! ## C26 -/

/-- **C26** without shade angle the result is the manual blockage. -/
theorem C26_zero_angle {ι : Type} (x y : ι → ℝ) :
    blockEffelsberg 0 x y = blockManual 50 3.25 1 20 x y := by
  have hp : Fl.pow (.fin 0) (-2) = .pinf := by
    rw [Fl.pow_fin, if_neg (by norm_num), if_pos rfl, if_neg (by norm_num)]
  have hm : Fl.mul (.fin ((1 : ℝ) ^ 2 - 50 ^ 2)) .pinf = .ninf := by
    show Fl.infSign _ = _
    unfold Fl.infSign
    norm_num
  have hd : Fl.div (Fl.add (.fin (-1)) (Fl.sqrt (Fl.sub (.fin ((1 : ℝ) ^ 2)) .ninf))) .pinf = .nan := by
    simp [Fl.sub, Fl.neg, Fl.add, Fl.sqrt, Fl.div]
  unfold blockEffelsberg blockManual
  simp only [Real.sin_zero, hp, hm, hd]
  have hn : ∀ z : Fl, Fl.div .nan z = .nan := fun z => by cases z <;> rfl
  have l1 : ∀ z : Fl, ¬ Fl.lt .nan z := fun z => by cases z <;> exact id
  have l2 : ∀ z : Fl, ¬ Fl.lt z .nan := fun z => by cases z <;> exact id
  simp only [hn, Fl.neg, l1, l2, and_false, false_and]
  have hF : ∀ b : ι → ℝ, setWhere (fun _ => False) 0 b = b := fun b => by
    funext q
    simp [setWhere]
  simp only [hF]

/-! ## C32 -/

/-- **C32** the line through two points with different abscissae: takes the two values, is affine,
is symmetric in the points, and is the only such function. -/
theorem C32_line (x1 y1 x2 y2 : ℝ) (h : x1 ≠ x2) :
    ∃ f : ℝ → ℝ, (∀ x, lineEquation (.fin x1, .fin y1) (.fin x2, .fin y2) (.fin x) = .fin (f x)) ∧
      (∀ x, lineEquation (.fin x2, .fin y2) (.fin x1, .fin y1) (.fin x) = .fin (f x)) ∧
      f x1 = y1 ∧ f x2 = y2 ∧
      (∀ a b t : ℝ, f ((1 - t) * a + t * b) = (1 - t) * f a + t * f b) ∧
      ∀ m k : ℝ, m * x1 + k = y1 → m * x2 + k = y2 → ∀ x, f x = m * x + k := by
  have h1 : x2 - x1 ≠ 0 := sub_ne_zero.2 (Ne.symm h)
  have h2 : x1 - x2 ≠ 0 := sub_ne_zero.2 h
  refine ⟨fun x => (y2 - y1) / (x2 - x1) * (x - x1) + y1, fun x => line_fin (Ne.symm h), fun x => ?_,
    by simp, ?_, fun a b t => by ring, ?_⟩
  · rw [line_fin h]
    congr 1
    field_simp
    ring
  · field_simp
    ring
  · rintro m k rfl rfl x
    field_simp
    ring

/-- **C32** with equal abscissae the slope is infinite: nan at that abscissa, no exception. -/
theorem C32_vertical (x1 y1 y2 : ℝ) :
    lineEquation (.fin x1, .fin y1) (.fin x1, .fin y2) (.fin x1) = .nan := by
  unfold lineEquation
  simp only
  rw [Fl.sub_fin, Fl.sub_fin, sub_self]
  have : Fl.mul (Fl.div (.fin (y2 - y1)) (.fin 0)) (.fin 0) = .nan := by
    have : Fl.div (.fin (y2 - y1)) (.fin 0) = Fl.infSign (y2 - y1) := by simp [Fl.div]
    rw [this]
    unfold Fl.infSign
    split_ifs
    · simp [Fl.mul, Fl.infSign]
    · simp [Fl.mul, Fl.infSign, Fl.neg]
    · rfl
  rw [this]
  rfl

end Verif.Props
