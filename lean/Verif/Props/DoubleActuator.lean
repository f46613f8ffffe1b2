import Verif.Model.DoubleActuator
import Verif.Props.Actuator
import Verif.Props.Lookup
import Verif.Props.DoubleIllum
import Verif.Props.DoubleShade

/-!
# C128: the commands of the active surface in the arithmetic of doubles
-/

namespace Verif.Props

open Verif Verif.Np Verif.Actuator

/-! ## Errors of products with signs -/

theorem fac_step {rnd : ℝ → Fl} (h : Spec.Rounding rnd) {x y A τ : ℝ} (hA : 0 ≤ A) (hA1 : A ≤ 1 / 1000) (hτ : 0 ≤ τ)
    (hx : |x - y| ≤ A * |y| + τ) (hb : |y| ≤ 2 ^ 890) (hτ1 : τ ≤ 1) :
    ∃ z, rnd x = .fin z ∧ Spec.IsDouble z ∧ |z - y| ≤ (A + 1.001 / 2 ^ 53) * |y| + (2 * τ + 2 ^ (-1075 : ℤ)) := by
  have hxa : |x| ≤ (1 + A) * |y| + τ := by
    have := abs_add_le (x - y) y
    rw [sub_add_cancel] at this
    linarith
  have hy0 := abs_nonneg y
  have h9 : |x| ≤ 2 ^ 900 := by
    have e : (2 : ℝ) ^ 900 = 2 ^ 10 * 2 ^ 890 := by rw [← pow_add]
    have e1 : (1 : ℝ) ≤ 2 ^ 890 := one_le_pow₀ one_le_two
    have e2 : A * |y| ≤ 1 / 1000 * |y| := mul_le_mul_of_nonneg_right hA1 hy0
    rw [e]
    generalize (2 : ℝ) ^ 890 = P at *
    clear e
    norm_num
    linarith
  obtain ⟨z, h1, h2, h3⟩ := round_rel h h9
  refine ⟨z, h1, h2, ?_⟩
  have e : z - y = (z - x) + (x - y) := by ring
  rw [e]
  refine (abs_add_le _ _).trans ?_
  have h4 : |x| / 2 ^ 53 ≤ ((1 + A) * |y| + τ) / 2 ^ 53 := by gcongr
  have h5 : A * |y| ≤ 1 / 1000 * |y| := mul_le_mul_of_nonneg_right hA1 hy0
  generalize (2 : ℝ) ^ (-1075 : ℤ) = ε at *
  clear h9 hb
  norm_num at h3 h4 ⊢
  nlinarith

theorem fac_mul {x y k K A B τ : ℝ} (hx : |x - y| ≤ A * |y| + τ) (hk : |k - K| ≤ B * |K|) :
    |x * k - y * K| ≤ (A + B + A * B) * |y * K| + τ * (1 + B) * |K| := by
  have hk1 : |k| ≤ (1 + B) * |K| := by
    have := abs_add_le (k - K) K
    rw [sub_add_cancel] at this
    linarith
  have e : x * k - y * K = (x - y) * k + y * (k - K) := by ring
  rw [e]
  refine (abs_add_le _ _).trans ?_
  rw [abs_mul, abs_mul, abs_mul]
  have hy0 := abs_nonneg y
  have hτ : 0 ≤ A * |y| + τ := (abs_nonneg _).trans hx
  have h1 : |x - y| * |k| ≤ (A * |y| + τ) * ((1 + B) * |K|) := mul_le_mul hx hk1 (abs_nonneg _) hτ
  have h2 : |y| * |k - K| ≤ |y| * (B * |K|) := mul_le_mul_of_nonneg_left hk hy0
  nlinarith

theorem fac_inv {t T B : ℝ} (hT : T ≠ 0) (hB0 : 0 ≤ B) (hB : B ≤ 1 / 1000) (ht : |t - T| ≤ B * |T|) :
    t ≠ 0 ∧ |1 / t - 1 / T| ≤ 1.01 * B * |1 / T| := by
  have hT0 : 0 < |T| := abs_pos.2 hT
  have hlo : 0.999 * |T| ≤ |t| := by
    have := abs_sub_abs_le_abs_sub T t
    rw [abs_sub_comm] at this
    nlinarith
  have ht0 : 0 < |t| := by norm_num at hlo; linarith
  have htn : t ≠ 0 := abs_pos.1 ht0
  refine ⟨htn, ?_⟩
  have e : 1 / t - 1 / T = -(t - T) * (1 / t) * (1 / T) := by
    field_simp
    ring
  rw [e, abs_mul, abs_mul, abs_neg]
  refine mul_le_mul_of_nonneg_right ?_ (abs_nonneg _)
  rw [abs_div, abs_one, mul_one_div, div_le_iff₀ ht0]
  nlinarith

/-! ## The object -/

/-- The object in doubles stands for the exact one: the same integers and limits; the unit of the frequency and the factors of astropy
are right to `2 ^ -50`. -/
structure Spec.NearAct (a : Act) (d : Dbl.Act) : Prop where
  nrot : d.nrot = a.nrot
  sign : d.sign = a.sign
  refl : d.nReflections = a.nReflections
  lo : d.minAmp = a.minAmp
  hi : d.maxAmp = a.maxAmp
  limits : a.minAmp ≤ a.maxAmp
  freq : 0 < a.frequency
  f1 : 1 / 2 ^ 60 ≤ d.frequency
  f2 : d.frequency ≤ 2 ^ 60
  k1 : 1 / 2 ^ 60 ≤ d.toMm
  k2 : d.toMm ≤ 2 ^ 60
  mm : |d.toMm - 1000 * d.frequency / a.frequency| ≤ 1 / 2 ^ 50 * |1000 * d.frequency / a.frequency|
  rad : |d.toRad - 1 / 1000| ≤ 1 / 2 ^ 50 * |1 / 1000|
  um : |d.toUm - 1000| ≤ 1 / 2 ^ 50 * |1000|
  n0 : a.sign * 2 * a.nReflections ≠ 0
  n1 : |a.sign * 2 * a.nReflections| ≤ 2 ^ 40

/-- The numerator of the factor. -/
noncomputable def Spec.turns (a : Act) : ℝ := ((a.sign * 2 * a.nReflections : ℤ) : ℝ)

/-- The wavelength in millimetres, in the unit of frequency of the object in doubles. -/
noncomputable def Spec.waveMm (a : Act) (d : Dbl.Act) : ℝ := 299792458 / d.frequency * (1000 * d.frequency / a.frequency)

theorem factor_parts {a : Act} {d : Dbl.Act} (hd : Spec.NearAct a d) :
    1000 * Spec.factor a = Spec.turns a * Real.pi * (1 / Spec.waveMm a d) := by
  have h1 := hd.freq
  have h2 : 0 < d.frequency := lt_of_lt_of_le (by positivity) hd.f1
  unfold Spec.factor Spec.turns Spec.waveMm
  push_cast
  field_simp
  ring

theorem wave_range {a : Act} {d : Dbl.Act} (hd : Spec.NearAct a d) :
    (1 / 2 ^ 130 ≤ Spec.waveMm a d ∧ Spec.waveMm a d ≤ 2 ^ 160) ∧
      (1 / 2 ^ 61 ≤ 1000 * d.frequency / a.frequency ∧ 1000 * d.frequency / a.frequency ≤ 2 ^ 61) ∧
      (1 / 2 ^ 60 ≤ 299792458 / d.frequency ∧ 299792458 / d.frequency ≤ 2 ^ 90) := by
  have h1 := hd.freq
  have h2 : 0 < d.frequency := lt_of_lt_of_le (by positivity) hd.f1
  have hk := hd.mm
  have k1 := hd.k1
  have k2 := hd.k2
  have hq1 : 1 / 2 ^ 60 ≤ 299792458 / d.frequency := by
    rw [le_div_iff₀ h2]
    have := hd.f2
    norm_num at this ⊢
    linarith
  have hq2 : 299792458 / d.frequency ≤ 2 ^ 90 := by
    rw [div_le_iff₀ h2]
    have := hd.f1
    norm_num at this ⊢
    linarith
  unfold Spec.waveMm
  have hK0 : 0 < 1000 * d.frequency / a.frequency := by positivity
  generalize 1000 * d.frequency / a.frequency = K at *
  generalize 299792458 / d.frequency = q at *
  rw [abs_of_pos hK0] at hk
  have hk' := abs_le.1 hk
  have j1 : 1 / 2 ^ 61 ≤ K := by
    norm_num at hk' k1 ⊢
    linarith [hk'.1, hk'.2]
  have j2 : K ≤ 2 ^ 61 := by
    norm_num at hk' k2 ⊢
    linarith [hk'.1, hk'.2]
  refine ⟨⟨?_, ?_⟩, ⟨j1, j2⟩, hq1, hq2⟩
  · have : 1 / 2 ^ 60 * (1 / 2 ^ 61) ≤ q * K := mul_le_mul hq1 j1 (by positivity) ((by positivity : (0 : ℝ) ≤ 1 / 2 ^ 60).trans hq1)
    exact le_trans (by norm_num) this
  · have : q * K ≤ 2 ^ 90 * 2 ^ 61 := mul_le_mul hq2 j2 hK0.le (by positivity)
    exact this.trans (by norm_num)

theorem act_range {a : Act} {d : Dbl.Act} (hd : Spec.NearAct a d) :
    1 / 2 ^ 200 ≤ |1000 * Spec.factor a| ∧ |1000 * Spec.factor a| ≤ 2 ^ 200 := by
  rw [factor_parts hd]
  obtain ⟨⟨w1, w2⟩, -, -⟩ := wave_range hd
  have hw0 : 0 < Spec.waveMm a d := lt_of_lt_of_le (by positivity) w1
  have hp3 := Real.pi_gt_three
  have hp4 := Real.pi_le_four
  have n0 : 1 ≤ |Spec.turns a| := by
    unfold Spec.turns
    rw [← Int.cast_abs]
    exact_mod_cast Int.one_le_abs hd.n0
  have n1 : |Spec.turns a| ≤ 2 ^ 40 := by
    unfold Spec.turns
    rw [← Int.cast_abs]
    exact_mod_cast hd.n1
  rw [abs_mul, abs_mul, abs_of_pos Real.pi_pos, abs_of_pos (by positivity : 0 < 1 / Spec.waveMm a d), mul_one_div]
  constructor
  · rw [le_div_iff₀ hw0]
    have : 1 * 3 ≤ |Spec.turns a| * Real.pi := mul_le_mul n0 hp3.le (by norm_num) (by positivity)
    norm_num at w2 ⊢
    linarith
  · rw [div_le_iff₀ hw0]
    have : |Spec.turns a| * Real.pi ≤ 2 ^ 40 * 4 := mul_le_mul n1 hp4 (by positivity) (by positivity)
    norm_num at w1 this ⊢
    linarith

/-- A rounding far from the smallest and the largest doubles. -/
theorem fac_rnd {rnd : ℝ → Fl} (h : Spec.Rounding rnd) {x y A : ℝ} (hA : A ≤ 1 / 1000) (hx : |x - y| ≤ A * |y|)
    (h1 : 1 / 2 ^ 240 ≤ |y|) (h2 : |y| ≤ 2 ^ 240) :
    ∃ z, rnd x = .fin z ∧ Spec.IsDouble z ∧ |z - y| ≤ (A + 1.001 / 2 ^ 53) * |y| := by
  have hy0 := abs_nonneg y
  have hAy : A * |y| ≤ 1 / 1000 * |y| := mul_le_mul_of_nonneg_right hA hy0
  have hxa : |x| ≤ (1 + A) * |y| := by
    have := abs_add_le (x - y) y
    rw [sub_add_cancel] at this
    linarith
  have hxb : 0.99 * |y| ≤ |x| := by
    have := abs_sub_abs_le_abs_sub y x
    rw [abs_sub_comm] at this
    norm_num
    linarith
  have hxc : |x| ≤ 2 ^ 250 := by
    norm_num at h2 ⊢
    linarith
  obtain ⟨z, j1, j2, -, j3⟩ := round_spec h (y := x) (hxc.trans_lt (two_pow_lt_range (by norm_num)))
  refine ⟨z, j1, j2, ?_⟩
  have j4 : |z - x| ≤ |x| / 2 ^ 53 := by
    rcases j3 with j | ⟨j, -⟩
    · exact j
    · exfalso
      have : (2 : ℝ) ^ (-1022 : ℤ) ≤ 1 / 2 ^ 250 := by
        have : (2 : ℝ) ^ (-1022 : ℤ) ≤ 2 ^ (-250 : ℤ) := zpow_le_zpow_right₀ one_le_two (by norm_num)
        refine this.trans (le_of_eq ?_)
        norm_num [zpow_neg]
      generalize (2 : ℝ) ^ (-1022 : ℤ) = ε at *
      norm_num at h1 this hxb
      linarith
  have e : z - y = (z - x) + (x - y) := by ring
  rw [e]
  refine (abs_add_le _ _).trans ?_
  clear hxc h1 h2
  norm_num at j4 ⊢
  nlinarith

/-- **C128.**  The factor between displacements and phases, in radians per millimetre. -/
theorem C128_factor {rnd : ℝ → Fl} (h : Spec.Rounding rnd) {a : Act} {d : Dbl.Act} (hd : Spec.NearAct a d) :
    ∃ t, d.tfactor rnd = .fin t ∧ Spec.IsDouble t ∧ |t - 1000 * Spec.factor a| ≤ 1 / 2 ^ 49 * |1000 * Spec.factor a| := by
  obtain ⟨⟨w1, w2⟩, ⟨k1, k2⟩, q1, q2⟩ := wave_range hd
  obtain ⟨r1, r2⟩ := act_range hd
  have hf0 : 0 < d.frequency := lt_of_lt_of_le (by positivity) hd.f1
  have hw0 : 0 < Spec.waveMm a d := lt_of_lt_of_le (by positivity) w1
  have hp3 := Real.pi_gt_three
  have hp4 := Real.pi_le_four
  have hpp := Real.pi_pos
  have n0 : 1 ≤ |Spec.turns a| := by
    unfold Spec.turns
    rw [← Int.cast_abs]
    exact_mod_cast Int.one_le_abs hd.n0
  have n1 : |Spec.turns a| ≤ 2 ^ 40 := by
    unfold Spec.turns
    rw [← Int.cast_abs]
    exact_mod_cast hd.n1
  -- the wavelength
  have hq0 : 0 < 299792458 / d.frequency := by positivity
  obtain ⟨q, e1, -, b1⟩ := fac_rnd h (x := 299792458 / d.frequency) (y := 299792458 / d.frequency) (A := 0) (by norm_num)
    (by simp) (by rw [abs_of_pos hq0]; norm_num at q1 ⊢; linarith) (by rw [abs_of_pos hq0]; norm_num at q2 ⊢; linarith)
  have b2 := fac_mul (τ := 0) (by rw [add_zero]; exact b1) hd.mm
  obtain ⟨w, e2, -, b3⟩ := fac_rnd h (x := q * d.toMm) (y := Spec.waveMm a d) (A := 9.01 / 2 ^ 53) (by norm_num) (by
      refine b2.trans ?_
      unfold Spec.waveMm
      rw [zero_mul, zero_mul, add_zero]
      refine mul_le_mul_of_nonneg_right ?_ (abs_nonneg _)
      norm_num) (by rw [abs_of_pos hw0]; norm_num at w1 ⊢; linarith) (by rw [abs_of_pos hw0]; norm_num at w2 ⊢; linarith)
  have hW : d.wavel rnd = .fin w := by
    unfold Dbl.Act.wavel
    rw [div_fin_rnd _ _ hf0.ne', e1, mul_fin_rnd, e2]
  obtain ⟨hwn, b4⟩ := fac_inv hw0.ne' (by norm_num) (by norm_num) b3
  -- the numerator
  obtain ⟨p, e3, -, b5⟩ := fac_rnd h (x := Real.pi) (y := Real.pi) (A := 0) (by norm_num) (by simp)
    (by rw [abs_of_pos hpp]; norm_num; linarith) (by rw [abs_of_pos hpp]; norm_num; linarith)
  have eN : Dbl.ofInt rnd (d.sign * 2 * d.nReflections) = .fin (Spec.turns a) := by
    unfold Dbl.ofInt Spec.turns
    rw [hd.sign, hd.refl]
    exact round_self h (isDouble_int (hd.n1.trans_lt (by norm_num)))
  have hn0 : 3 ≤ |Spec.turns a * Real.pi| := by
    rw [abs_mul, abs_of_pos hpp]
    nlinarith
  have hn1 : |Spec.turns a * Real.pi| ≤ 2 ^ 42 := by
    rw [abs_mul, abs_of_pos hpp]
    have : |Spec.turns a| * Real.pi ≤ 2 ^ 40 * 4 := mul_le_mul n1 hp4 (by positivity) (by positivity)
    exact this.trans (by norm_num)
  have b6 := fac_mul (x := Spec.turns a) (y := Spec.turns a) (A := 0) (τ := 0) (by simp) b5
  obtain ⟨m, e4, -, b7⟩ := fac_rnd h (x := Spec.turns a * p) (y := Spec.turns a * Real.pi) (A := 1.001 / 2 ^ 53)
    (by norm_num) (by
      refine b6.trans (le_of_eq ?_)
      ring) (le_trans (by norm_num) hn0) (hn1.trans (by norm_num))
  -- the quotient
  have b8 := fac_mul (τ := 0) (by rw [add_zero]; exact b7) b4
  obtain ⟨t, e5, ht, b9⟩ := fac_rnd h (x := m * (1 / w)) (y := 1000 * Spec.factor a) (A := 13 / 2 ^ 53) (by norm_num) (by
      rw [factor_parts hd]
      refine b8.trans ?_
      rw [zero_mul, zero_mul, add_zero]
      refine mul_le_mul_of_nonneg_right ?_ (abs_nonneg _)
      norm_num) (by norm_num at r1 ⊢; linarith) (by norm_num at r2 ⊢; linarith)
  refine ⟨t, ?_, ht, b9.trans (mul_le_mul_of_nonneg_right (by norm_num) (abs_nonneg _))⟩
  unfold Dbl.Act.tfactor
  rw [hW, eN, e3, mul_fin_rnd, e4, div_fin_rnd _ _ hwn, ← mul_one_div, e5]

/-! ## One entry -/

/-- One entry of `transform`. -/
theorem phase_entry {rnd : ℝ → Fl} (h : Spec.Rounding rnd) {a : Act} {d : Dbl.Act} (hd : Spec.NearAct a d) {r : ℝ}
    (hr : |r| ≤ 2 ^ 300) :
    ∃ z, d.toPhase rnd (.fin r) = .fin z ∧
      |z - Spec.factor a * r| ≤ 27 / 2 ^ 53 * |Spec.factor a * r| + 2 ^ (-1074 : ℤ) := by
  obtain ⟨t, e1, -, b1⟩ := C128_factor h hd
  obtain ⟨-, r2⟩ := act_range hd
  have hε : (2 : ℝ) ^ (-1074 : ℤ) = 2 * 2 ^ (-1075 : ℤ) := by
    rw [← zpow_one_add₀ two_ne_zero]
    norm_num
  have hε0 : (0 : ℝ) < 2 ^ (-1075 : ℤ) := by positivity
  have hε1 := tiny_le (show (-1075 : ℤ) ≤ -100 by norm_num)
  have hb : |r * (1000 * Spec.factor a)| ≤ 2 ^ 500 := by
    rw [abs_mul, show (2 : ℝ) ^ 500 = 2 ^ 300 * 2 ^ 200 by rw [← pow_add]]
    exact mul_le_mul hr r2 (abs_nonneg _) (by positivity)
  have b2 := fac_mul (x := r) (y := r) (A := 0) (τ := 0) (by simp) b1
  obtain ⟨u, e2, -, b3⟩ := fac_step h (x := r * t) (y := r * (1000 * Spec.factor a)) (A := 1 / 2 ^ 49) (τ := 0) (by norm_num)
    (by norm_num) le_rfl (by refine b2.trans (le_of_eq ?_); ring) (hb.trans (two_pow_le (by norm_num))) (by norm_num)
  have b4 := fac_mul b3 hd.rad
  have ey : r * (1000 * Spec.factor a) * (1 / 1000) = Spec.factor a * r := by ring
  rw [ey] at b4
  obtain ⟨z, e3, -, b5⟩ := fac_step h (x := u * d.toRad) (y := Spec.factor a * r) (A := 25.9 / 2 ^ 53)
    (τ := 2 ^ (-1075 : ℤ) / 500) (by norm_num) (by norm_num) (by positivity) (by
      refine b4.trans (add_le_add (mul_le_mul_of_nonneg_right (by norm_num) (abs_nonneg _)) ?_)
      rw [mul_zero, zero_add]
      generalize (2 : ℝ) ^ (-1075 : ℤ) = ε at *
      norm_num
      linarith) (by
      rw [← ey, abs_mul]
      have : |r * (1000 * Spec.factor a)| * |(1 / 1000 : ℝ)| ≤ |r * (1000 * Spec.factor a)| * 1 :=
        mul_le_mul_of_nonneg_left (by norm_num [abs_of_pos]) (abs_nonneg _)
      rw [mul_one] at this
      exact this.trans (hb.trans (two_pow_le (by norm_num)))) (by
      generalize (2 : ℝ) ^ (-1075 : ℤ) = ε at *
      norm_num at hε1
      linarith)
  refine ⟨z, ?_, b5.trans (add_le_add (mul_le_mul_of_nonneg_right (by norm_num) (abs_nonneg _)) ?_)⟩
  · unfold Dbl.Act.toPhase
    rw [e1, mul_fin_rnd, mul_comm t, e2, mul_fin_rnd, e3]
  · rw [hε]
    generalize (2 : ℝ) ^ (-1075 : ℤ) = ε at *
    linarith

/-- One entry of `itransform` before the limits. -/
theorem shift_entry {rnd : ℝ → Fl} (h : Spec.Rounding rnd) {a : Act} {d : Dbl.Act} (hd : Spec.NearAct a d) {φ : ℝ}
    (hφ : |φ| ≤ 2 ^ 300) :
    ∃ z, d.toShift rnd (.fin φ) = .fin z ∧
      |z - φ / Spec.factor a| ≤ 27 / 2 ^ 53 * |φ / Spec.factor a| + 2 ^ (-1063 : ℤ) := by
  obtain ⟨t, e1, -, b1⟩ := C128_factor h hd
  obtain ⟨r1, -⟩ := act_range hd
  have hε : (2 : ℝ) ^ (-1063 : ℤ) = 4096 * 2 ^ (-1075 : ℤ) := by
    rw [show (4096 : ℝ) = 2 ^ (12 : ℤ) by norm_num, ← zpow_add₀ two_ne_zero]
    norm_num
  have hε0 : (0 : ℝ) < 2 ^ (-1075 : ℤ) := by positivity
  have hε1 := tiny_le (show (-1075 : ℤ) ≤ -100 by norm_num)
  have hF0 : 0 < |1000 * Spec.factor a| := lt_of_lt_of_le (by positivity) r1
  have hF : 1000 * Spec.factor a ≠ 0 := abs_pos.1 hF0
  have hf : Spec.factor a ≠ 0 := fun e => hF (by rw [e, mul_zero])
  have hinv : |1 / (1000 * Spec.factor a)| ≤ 2 ^ 200 := by
    rw [abs_div, abs_one, div_le_iff₀ hF0]
    have := mul_le_mul_of_nonneg_left r1 (by positivity : (0 : ℝ) ≤ 2 ^ 200)
    rwa [mul_one_div, div_self (by positivity)] at this
  obtain ⟨htn, b1'⟩ := fac_inv hF (by norm_num) (by norm_num) b1
  have hb : |φ * (1 / (1000 * Spec.factor a))| ≤ 2 ^ 500 := by
    rw [abs_mul, show (2 : ℝ) ^ 500 = 2 ^ 300 * 2 ^ 200 by rw [← pow_add]]
    exact mul_le_mul hφ hinv (abs_nonneg _) (by positivity)
  have b2 := fac_mul (x := φ) (y := φ) (A := 0) (τ := 0) (by simp) b1'
  obtain ⟨u, e2, -, b3⟩ := fac_step h (x := φ * (1 / t)) (y := φ * (1 / (1000 * Spec.factor a))) (A := 16.2 / 2 ^ 53) (τ := 0)
    (by norm_num) (by norm_num) le_rfl (by
      refine b2.trans ?_
      rw [zero_mul, zero_mul]
      refine add_le_add (mul_le_mul_of_nonneg_right (by norm_num) (abs_nonneg _)) (by simp)) (hb.trans (two_pow_le (by norm_num))) (by norm_num)
  have b4 := fac_mul b3 hd.um
  have ey : φ * (1 / (1000 * Spec.factor a)) * 1000 = φ / Spec.factor a := by
    field_simp
  rw [ey] at b4
  obtain ⟨z, e3, -, b5⟩ := fac_step h (x := u * d.toUm) (y := φ / Spec.factor a) (A := 25.9 / 2 ^ 53)
    (τ := 2 ^ (-1075 : ℤ) * 1001) (by norm_num) (by norm_num) (by positivity) (by
      refine b4.trans (add_le_add (mul_le_mul_of_nonneg_right (by norm_num) (abs_nonneg _)) ?_)
      rw [mul_zero, zero_add]
      generalize (2 : ℝ) ^ (-1075 : ℤ) = ε at *
      norm_num
      linarith) (by
      rw [← ey, abs_mul, show (2 : ℝ) ^ 890 = 2 ^ 500 * 2 ^ 390 by rw [← pow_add]]
      refine mul_le_mul hb (le_trans ?_ (two_pow_le (show 10 ≤ 390 by norm_num))) (abs_nonneg _) (by positivity)
      norm_num [abs_of_pos]) (by
      generalize (2 : ℝ) ^ (-1075 : ℤ) = ε at *
      norm_num at hε1
      linarith)
  refine ⟨z, ?_, b5.trans (add_le_add (mul_le_mul_of_nonneg_right (by norm_num) (abs_nonneg _)) ?_)⟩
  · unfold Dbl.Act.toShift
    rw [e1, div_fin_rnd _ _ htn, ← mul_one_div, e2, mul_fin_rnd, e3]
  · rw [hε]
    generalize (2 : ℝ) ^ (-1075 : ℤ) = ε at *
    linarith

/-- What is not nan stays so. -/
theorem rop_not_nan {rnd : ℝ → Fl} (h : Spec.Rounding rnd) {x : Fl} (hx : x ≠ .nan) : Dbl.rop rnd x ≠ .nan := by
  cases x with
  | nan => exact absurd rfl hx
  | pinf => exact hx
  | ninf => exact hx
  | fin r =>
    show rnd r ≠ .nan
    by_cases h1 : |r| < 2 ^ 1024 - 2 ^ 970
    · obtain ⟨z, e, -⟩ := h.1 r h1
      rw [e]
      exact fun h => nomatch h
    · rcases le_abs.1 (not_lt.1 h1) with h2 | h2
      · rw [h.2.1 r h2]
        exact fun h => nomatch h
      · rw [h.2.2 r (by linarith)]
        exact fun h => nomatch h

theorem div_not_nan {x : Fl} {t : ℝ} (ht : t ≠ 0) (hx : x ≠ .nan) : Fl.div x (.fin t) ≠ .nan := by
  cases x with
  | nan => exact absurd rfl hx
  | pinf => simp only [Fl.div]; by_cases h : t < 0 <;> simp [h]
  | ninf => simp only [Fl.div]; by_cases h : t < 0 <;> simp [h]
  | fin r => rw [Fl.div_fin _ ht]; exact fun h => nomatch h

theorem mul_not_nan {x : Fl} {t : ℝ} (ht : 0 < t) (hx : x ≠ .nan) : Fl.mul x (.fin t) ≠ .nan := by
  cases x with
  | nan => exact absurd rfl hx
  | pinf => simp [Fl.mul, Fl.infSign, ht]
  | ninf => simp [Fl.mul, Fl.infSign, Fl.neg, ht]
  | fin r => exact fun h => nomatch h

theorem shift_not_nan {rnd : ℝ → Fl} (h : Spec.Rounding rnd) {a : Act} {d : Dbl.Act} (hd : Spec.NearAct a d) {x : Fl}
    (hx : x ≠ .nan) : d.toShift rnd x ≠ .nan := by
  obtain ⟨t, e1, -, b1⟩ := C128_factor h hd
  obtain ⟨r1, -⟩ := act_range hd
  have hF0 : 0 < |1000 * Spec.factor a| := lt_of_lt_of_le (by positivity) r1
  obtain ⟨htn, -⟩ := fac_inv (abs_pos.1 hF0) (by norm_num) (by norm_num) b1
  have hu : 0 < d.toUm := by
    have := (abs_le.1 hd.um).1
    norm_num [abs_of_pos] at this
    linarith
  unfold Dbl.Act.toShift Dbl.mul Dbl.div
  rw [e1]
  exact rop_not_nan h (mul_not_nan hu (rop_not_nan h (div_not_nan htn hx)))

theorem shift_nan {rnd : ℝ → Fl} {d : Dbl.Act} : d.toShift rnd .nan = .nan := by
  unfold Dbl.Act.toShift Dbl.mul Dbl.div
  rfl

theorem phase_nan {rnd : ℝ → Fl} (h : Spec.Rounding rnd) {a : Act} {d : Dbl.Act} (hd : Spec.NearAct a d) :
    d.toPhase rnd .nan = .nan := by
  obtain ⟨t, e1, -⟩ := C128_factor h hd
  unfold Dbl.Act.toPhase Dbl.mul
  rw [e1]
  rfl

end Verif.Props
