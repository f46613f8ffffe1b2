import Verif.Props.Actuator
import Mathlib.Analysis.SpecialFunctions.Trigonometric.Bounds
import Mathlib.Tactic.IntervalCases

/-!
# Actuator positions (C61) and the ellipsoidal correction (C64)
-/

namespace Verif.Props

open Verif Verif.Np Verif.Actuator

/-! ## C61 -/

/-- The radius of ring `i` in metres. -/
noncomputable def Spec.ring : Fin 4 → ℝ := ![3.25, 2.6, 1.88, 1.21]

/-- The angle of actuator `j` of a ring in radians: `7.5 + 15 j` degrees. -/
noncomputable def Spec.actAngle (j : Fin 24) : ℝ := (7.5 + 15 * (j : ℕ)) * (Real.pi / 180)

/-- Actuator `24 i + j`. -/
def Spec.actIndex (i : Fin 4) (j : Fin 24) : ℕ := 24 * i + j

theorem theta_eq (j : Fin 24) : Act.theta j * (Real.pi / 180) = Spec.actAngle j := by
  unfold Act.theta linspace Spec.actAngle
  norm_num
  ring

/-- **C61.**  There are 96 actuators; number `24 i + j` is at the radius of ring `i` and at the angle
`7.5 + 15 j` degrees. -/
theorem C61_position :
    Act.actX.length = 96 ∧ Act.actY.length = 96 ∧ ∀ i j,
      Act.actX[Spec.actIndex i j]? = some (Spec.ring i * Real.cos (Spec.actAngle j)) ∧
      Act.actY[Spec.actIndex i j]? = some (Spec.ring i * Real.sin (Spec.actAngle j)) := by
  refine ⟨by simp [Act.actX, Act.ringR], by simp [Act.actY, Act.ringR], fun i j => ?_⟩
  have key : ∀ f : Fin 24 → ℝ, (Act.ringR.flatMap fun r => List.ofFn fun j => r / 1000 * f j)[
      Spec.actIndex i j]? = some (Spec.ring i * f j) := by
    intro f
    have hl : ∀ r : ℝ, (List.ofFn fun j => r / 1000 * f j).length = 24 := fun r => List.length_ofFn
    have hg : ∀ r : ℝ, (List.ofFn fun j => r / 1000 * f j)[(j : ℕ)]? = some (r / 1000 * f j) := by
      intro r
      rw [List.getElem?_ofFn, dif_pos j.2]
    have hj := j.2
    simp only [Act.ringR, List.flatMap_cons, List.flatMap_nil, List.append_nil, Spec.actIndex]
    match i with
    | 0 =>
      rw [show 24 * ((0 : Fin 4) : ℕ) + (j : ℕ) = j by simp]
      rw [List.getElem?_append_left (by rw [hl]; exact hj), hg]; norm_num [Spec.ring]
    | 1 =>
      rw [show 24 * ((1 : Fin 4) : ℕ) + (j : ℕ) = 24 + j by simp]
      rw [List.getElem?_append_right (by rw [hl]; omega), hl, show 24 + (j : ℕ) - 24 = j by omega,
        List.getElem?_append_left (by rw [hl]; exact hj), hg]; norm_num [Spec.ring]
    | 2 =>
      rw [show 24 * ((2 : Fin 4) : ℕ) + (j : ℕ) = 48 + j by simp]
      rw [List.getElem?_append_right (by rw [hl]; omega), hl,
        List.getElem?_append_right (by rw [hl]; omega), hl,
        show 48 + (j : ℕ) - 24 - 24 = j by omega,
        List.getElem?_append_left (by rw [hl]; exact hj), hg]; norm_num [Spec.ring]; exact .inl rfl
    | 3 =>
      rw [show 24 * ((3 : Fin 4) : ℕ) + (j : ℕ) = 72 + j by simp]
      rw [List.getElem?_append_right (by rw [hl]; omega), hl,
        List.getElem?_append_right (by rw [hl]; omega), hl,
        List.getElem?_append_right (by rw [hl]; omega), hl,
        show 72 + (j : ℕ) - 24 - 24 - 24 = j by omega, hg]; norm_num [Spec.ring]; exact .inl rfl
  refine ⟨?_, ?_⟩
  · have := key fun j => Real.cos (Spec.actAngle j)
    simp only [← theta_eq] at this ⊢
    exact this
  · have := key fun j => Real.sin (Spec.actAngle j)
    simp only [← theta_eq] at this ⊢
    exact this

theorem ring_pos (i : Fin 4) : 0 < Spec.ring i := by
  fin_cases i <;> norm_num [Spec.ring]

theorem ring_inj {i i' : Fin 4} (h : Spec.ring i = Spec.ring i') : i = i' := by
  fin_cases i <;> fin_cases i' <;> first | rfl | (norm_num [Spec.ring] at h)

theorem angle_range (j : Fin 24) : 0 < Spec.actAngle j ∧ Spec.actAngle j < 2 * Real.pi := by
  have hj : ((j : ℕ) : ℝ) ≤ 23 := by exact_mod_cast Nat.le_of_lt_succ j.2
  have h0 : (0 : ℝ) ≤ (j : ℕ) := Nat.cast_nonneg _
  have hp := Real.pi_pos
  unfold Spec.actAngle
  constructor
  · positivity
  · nlinarith

/-- **C61.**  No two actuators are at the same place. -/
theorem C61_distinct (i i' : Fin 4) (j j' : Fin 24)
    (hx : Act.actX[Spec.actIndex i j]? = Act.actX[Spec.actIndex i' j']?)
    (hy : Act.actY[Spec.actIndex i j]? = Act.actY[Spec.actIndex i' j']?) : i = i' ∧ j = j' := by
  obtain ⟨-, -, h⟩ := C61_position
  rw [(h i j).1, (h i' j').1, Option.some.injEq] at hx
  rw [(h i j).2, (h i' j').2, Option.some.injEq] at hy
  have hr : Spec.ring i = Spec.ring i' := by
    have e : Spec.ring i ^ 2 = Spec.ring i' ^ 2 := by
      have e1 := Real.sin_sq_add_cos_sq (Spec.actAngle j)
      have e2 := Real.sin_sq_add_cos_sq (Spec.actAngle j')
      calc Spec.ring i ^ 2 = (Spec.ring i * Real.cos (Spec.actAngle j)) ^ 2 +
            (Spec.ring i * Real.sin (Spec.actAngle j)) ^ 2 := by
            rw [mul_pow, mul_pow, ← mul_add, add_comm, e1, mul_one]
        _ = Spec.ring i' ^ 2 := by
            rw [hx, hy, mul_pow, mul_pow, ← mul_add, add_comm, e2, mul_one]
    exact (pow_left_inj₀ (ring_pos i).le (ring_pos i').le two_ne_zero).1 e
  refine ⟨ring_inj hr, ?_⟩
  rw [hr] at hx hy
  have hc := mul_left_cancel₀ (ring_pos i').ne' hx
  have hs := mul_left_cancel₀ (ring_pos i').ne' hy
  have h1 : Real.cos (Spec.actAngle j - Spec.actAngle j') = 1 := by
    rw [Real.cos_sub, hc, hs]
    have := Real.sin_sq_add_cos_sq (Spec.actAngle j')
    linarith [this, sq (Real.cos (Spec.actAngle j')), sq (Real.sin (Spec.actAngle j'))]
  have b1 := angle_range j
  have b2 := angle_range j'
  have h2 := (Real.cos_eq_one_iff_of_lt_of_lt (by linarith) (by linarith)).1 h1
  have h3 : ((j : ℕ) : ℝ) = (j' : ℕ) := by
    unfold Spec.actAngle at h2
    have hp : (Real.pi / 180 : ℝ) ≠ 0 := by have := Real.pi_pos; positivity
    have h4 : (7.5 + 15 * ((j : ℕ) : ℝ)) = 7.5 + 15 * ((j' : ℕ) : ℝ) :=
      mul_right_cancel₀ hp (by linarith)
    linarith
  exact Fin.ext (by exact_mod_cast h3)

/-- **C61.**  Every actuator is within the sub-reflector of radius 3.25 m; those of the first ring
are on its rim. -/
theorem C61_within (i : Fin 4) (j : Fin 24) :
    ∃ x y, Act.actX[Spec.actIndex i j]? = some x ∧ Act.actY[Spec.actIndex i j]? = some y ∧
      x ^ 2 + y ^ 2 ≤ 3.25 ^ 2 ∧ (x ^ 2 + y ^ 2 = 3.25 ^ 2 ↔ i = 0) := by
  obtain ⟨-, -, h⟩ := C61_position
  refine ⟨_, _, (h i j).1, (h i j).2, ?_⟩
  have e : (Spec.ring i * Real.cos (Spec.actAngle j)) ^ 2 +
      (Spec.ring i * Real.sin (Spec.actAngle j)) ^ 2 = Spec.ring i ^ 2 := by
    rw [mul_pow, mul_pow, ← mul_add, add_comm, Real.sin_sq_add_cos_sq, mul_one]
  rw [e]
  fin_cases i <;> norm_num [Spec.ring]

/-- **C61.**  The indices `24 i + j` are all the indices. -/
theorem C61_index (k : ℕ) (hk : k < 96) : ∃ i j, Spec.actIndex i j = k :=
  ⟨⟨k / 24, by omega⟩, ⟨k % 24, by omega⟩, by simp only [Spec.actIndex]; omega⟩

example : Spec.actIndex 2 5 = 53 := rfl

/-! ## C64 -/

/-- The component along the axis of the unit vector normal to the ellipse
`r^2 / b^2 + z^2 / a^2 = 1` at the point `(r, z)`. -/
noncomputable def Spec.normalAxial (a b r z : ℝ) : ℝ :=
  (z / a ^ 2) / Real.sqrt ((r / b ^ 2) ^ 2 + (z / a ^ 2) ^ 2)

theorem sin_arctan_abs (m : ℝ) : Real.sin (Real.arctan |m|) = |m| / Real.sqrt (1 + m ^ 2) := by
  rw [Real.sin_arctan, sq_abs]

theorem correctionAt_pos {a b r : ℝ} (hr : r ≠ 0) (h : r ^ 2 ≤ b ^ 2) (hb : b ≠ 0) :
    Act.correctionAt a b r =
      .fin (Real.sin (Real.arctan |b ^ 2 / a * Real.sqrt (1 - r ^ 2 / b ^ 2) / r|)) := by
  have h1 : ¬ (1 - r ^ 2 / b ^ 2 < 0) := by
    rw [not_lt, sub_nonneg, div_le_one (by positivity)]; exact h
  simp [Act.correctionAt, Fl.sqrt, h1, Fl.mul, Fl.div, hr, Fl.abs, Act.sinArctan]

theorem correctionAt_zero {a b : ℝ} (ha : 0 < a) (hb : 0 < b) : Act.correctionAt a b 0 = .fin 1 := by
  have h : (0 : ℝ) < b ^ 2 / a := by positivity
  have h1 : Fl.sqrt (.fin (1 - 0 ^ 2 / b ^ 2)) = .fin 1 := by
    simp [Fl.sqrt, not_lt.2 (zero_le_one (α := ℝ))]
  have h2 : Fl.div (Fl.mul (.fin (b ^ 2 / a)) (.fin 1)) (.fin 0) = .pinf := by
    simp [Fl.mul, Fl.div, Fl.infSign, h]
  simp only [Act.correctionAt]
  rw [h1, h2]
  rfl

/-- **C64.**  The value at the radius `r`, `m` being the slope. -/
theorem C64_value {a b r : ℝ} (hb : 0 < b) (hr : 0 < r) (h : r ≤ b) (m : ℝ)
    (hm : m = b ^ 2 / a * Real.sqrt (1 - r ^ 2 / b ^ 2) / r) :
    Act.correctionAt a b r = .fin (|m| / Real.sqrt (1 + m ^ 2)) := by
  rw [correctionAt_pos hr.ne' (by nlinarith) hb.ne', ← hm, sin_arctan_abs]

/-- **C64.**  The correction is the cosine of the angle between the axis and the normal of the
ellipsoid, at every radius from the centre to the rim. -/
theorem C64_normal {a b r z : ℝ} (ha : 0 < a) (hb : 0 < b) (hr : 0 ≤ r) (hz : 0 ≤ z)
    (hel : r ^ 2 / b ^ 2 + z ^ 2 / a ^ 2 = 1) :
    Act.correctionAt a b r = .fin (Spec.normalAxial a b r z) := by
  have hz2 : Real.sqrt (1 - r ^ 2 / b ^ 2) = z / a := by
    rw [show 1 - r ^ 2 / b ^ 2 = (z / a) ^ 2 by rw [div_pow]; linarith]
    exact Real.sqrt_sq (by positivity)
  rcases hr.eq_or_lt with rfl | hr
  · rw [correctionAt_zero ha hb]
    have hza : z = a := by
      have : z ^ 2 = a ^ 2 := by
        have h0 : z ^ 2 / a ^ 2 = 1 := by simpa using hel
        rwa [div_eq_one_iff_eq (by positivity)] at h0
      exact (pow_left_inj₀ hz ha.le two_ne_zero).1 this
    subst hza
    unfold Spec.normalAxial
    rw [zero_div, zero_pow two_ne_zero, zero_add, Real.sqrt_sq (by positivity), div_self (by positivity)]
  · have hrb : r ≤ b := by
      have : r ^ 2 / b ^ 2 ≤ 1 := by
        have : 0 ≤ z ^ 2 / a ^ 2 := by positivity
        linarith
      rw [div_le_one (by positivity)] at this
      exact le_of_sq_le_sq this hb.le
    rw [C64_value hb hr hrb _ rfl, hz2]
    unfold Spec.normalAxial
    have hm : b ^ 2 / a * (z / a) / r = (z / a ^ 2) / (r / b ^ 2) := by field_simp
    have hd : 0 < r / b ^ 2 := by positivity
    rw [hm, abs_of_nonneg (by positivity)]
    have e : Real.sqrt ((r / b ^ 2) ^ 2 + (z / a ^ 2) ^ 2) =
        (r / b ^ 2) * Real.sqrt (1 + (z / a ^ 2 / (r / b ^ 2)) ^ 2) := by
      rw [← Real.sqrt_sq hd.le, ← Real.sqrt_mul (sq_nonneg _), Real.sqrt_sq hd.le]
      congr 1
      field_simp
    rw [e, div_div]

/-- **C64.**  One at the centre (through an infinite slope), zero at the rim, nan outside. -/
theorem C64_ends {a b : ℝ} (ha : 0 < a) (hb : 0 < b) :
    Act.correctionAt a b 0 = .fin 1 ∧ Act.correctionAt a b b = .fin 0 ∧
      ∀ r, b < r → Act.correctionAt a b r = .nan := by
  refine ⟨correctionAt_zero ha hb, ?_, fun r hr => ?_⟩
  · rw [C64_value hb hb le_rfl 0 (by rw [div_self (by positivity)]; simp)]
    simp
  · have h : 1 - r ^ 2 / b ^ 2 < 0 := by
      rw [sub_neg, one_lt_div (by positivity)]
      exact pow_lt_pow_left₀ hr hb.le two_ne_zero
    simp [Act.correctionAt, Fl.sqrt, h, Fl.mul, Fl.div, Fl.abs, Act.sinArctan]

/-- **C64.**  From the centre to the rim it decreases strictly, within `[0, 1]`. -/
theorem C64_decreasing {a b r s : ℝ} (ha : 0 < a) (hb : 0 < b) (hr : 0 ≤ r) (hrs : r < s)
    (hs : s ≤ b) :
    ∃ c d : ℝ, Act.correctionAt a b r = .fin c ∧ Act.correctionAt a b s = .fin d ∧
      0 ≤ d ∧ d < c ∧ c ≤ 1 := by
  have hs0 : 0 < s := lt_of_le_of_lt hr hrs
  have hrange : ∀ m : ℝ, Real.sin (Real.arctan |m|) < 1 := by
    intro m
    rw [sin_arctan_abs, div_lt_one (Real.sqrt_pos.2 (by positivity))]
    rw [Real.lt_sqrt (abs_nonneg m), sq_abs]; linarith
  have hnn : ∀ m : ℝ, 0 ≤ Real.sin (Real.arctan |m|) := by
    intro m; rw [sin_arctan_abs]; positivity
  refine hr.eq_or_lt.elim (fun h0 => ?_) (fun h0 => ?_)
  · subst h0
    exact ⟨1, _, correctionAt_zero ha hb, correctionAt_pos hs0.ne' (by nlinarith) hb.ne',
      hnn _, hrange _, le_rfl⟩
  · refine ⟨_, _, correctionAt_pos h0.ne' (by nlinarith) hb.ne',
      correctionAt_pos hs0.ne' (by nlinarith) hb.ne', hnn _, ?_, (hrange _).le⟩
    have hlt : |b ^ 2 / a * Real.sqrt (1 - s ^ 2 / b ^ 2) / s| <
        |b ^ 2 / a * Real.sqrt (1 - r ^ 2 / b ^ 2) / r| := by
      rw [abs_of_nonneg (by positivity), abs_of_nonneg (by positivity)]
      have h1 : Real.sqrt (1 - s ^ 2 / b ^ 2) < Real.sqrt (1 - r ^ 2 / b ^ 2) := by
        have h2 : s ^ 2 / b ^ 2 ≤ 1 := by
          rw [div_le_one (by positivity)]; nlinarith
        refine Real.sqrt_lt_sqrt (by linarith) ?_
        have : r ^ 2 / b ^ 2 < s ^ 2 / b ^ 2 :=
          div_lt_div_of_pos_right (by nlinarith) (by positivity)
        linarith
      have h3 : 0 < b ^ 2 / a := by positivity
      rw [div_lt_div_iff₀ hs0 h0]
      have h4 := mul_lt_mul_of_pos_left h1 h3
      have h5 : 0 ≤ b ^ 2 / a * Real.sqrt (1 - s ^ 2 / b ^ 2) := by positivity
      nlinarith
    have b1 : Real.arctan |b ^ 2 / a * Real.sqrt (1 - s ^ 2 / b ^ 2) / s| <
        Real.arctan |b ^ 2 / a * Real.sqrt (1 - r ^ 2 / b ^ 2) / r| := Real.arctan_strictMono hlt
    exact Real.sin_lt_sin_of_lt_of_le_pi_div_two
      (by have := Real.neg_pi_div_two_lt_arctan |b ^ 2 / a * Real.sqrt (1 - s ^ 2 / b ^ 2) / s|
          linarith) (Real.arctan_lt_pi_div_two _).le b1

/-- The default ellipsoid at the rim of the sub-reflector: about 0.9. -/
example : ∃ c d : ℝ, Act.correctionAt 14.3050 7.3872 0 = .fin c ∧
    Act.correctionAt 14.3050 7.3872 3.25 = .fin d ∧ 0 ≤ d ∧ d < c ∧ c ≤ 1 :=
  C64_decreasing (by norm_num) (by norm_num) le_rfl (by norm_num) (by norm_num)

end Verif.Props
