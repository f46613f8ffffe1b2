import Verif.Model.Illum
import Verif.Lemmas.Fl
import Mathlib.Analysis.SpecialFunctions.Pow.NNReal
import Mathlib.Analysis.SpecialFunctions.Log.Base
import Mathlib.Tactic.Positivity
import Mathlib.Tactic.Linarith

/-! # C20, C21: illumination functions -/

namespace Verif.Props

open Verif Verif.Aperture

/-! ## C20 -/

/-- The parabolic taper on a pedestal, as documented: `r` is the distance to the centre. -/
noncomputable def Spec.pedestal (iAmp C q pr r : ℝ) : ℝ :=
  iAmp * (C + (1 - C) * (1 - (r / pr) ^ 2) ^ q)

theorem taper_pos (c : QNum) : 0 < taper c := by
  cases c <;> exact Real.rpow_pos_of_pos (by norm_num) _

/-- The element of `illum_parabolic`, with the distance made explicit. -/
theorem parabolicAt_eq (iAmp : ℝ) (c : QNum) (q : ℝ) (x0 y0 : QNum) (pr x y r : ℝ) (hpr : pr ≠ 0)
    (hr : 0 ≤ r) (hr2 : r ^ 2 = (x - offset x0) ^ 2 + (y - offset y0) ^ 2) :
    parabolicAt iAmp c q x0 y0 pr x y = Fl.nanToNum (Fl.mul (.fin iAmp) (Fl.add (.fin (taper c))
      (Fl.mul (.fin (1 - taper c)) (Fl.pow (.fin (1 - (r / pr) ^ 2)) q)))) := by
  have : Real.sqrt ((x - offset x0) ^ 2 + (y - offset y0) ^ 2) = r := by
    rw [← hr2, Real.sqrt_sq hr]
  unfold parabolicAt
  simp only [this]
  rw [Fl.div_fin _ hpr, Fl.pow_fin_two, Fl.sub_fin]

theorem ratio_le {pr r : ℝ} (hpr : 0 < pr) (hr : 0 ≤ r) (h : r ≤ pr) : (r / pr) ^ 2 ≤ 1 := by
  have h1 : r / pr ≤ 1 := (div_le_one hpr).2 h
  have h2 : 0 ≤ r / pr := by positivity
  nlinarith

/-- On the closed disc of radius `pr` around `(x0, y0)` the value is the documented one. -/
theorem pedestal_value (iAmp : ℝ) (c : QNum) (q : ℝ) (x0 y0 : QNum) (pr x y r : ℝ) (hpr : 0 < pr)
    (hq : 0 < q) (hr : 0 ≤ r) (hr2 : r ^ 2 = (x - offset x0) ^ 2 + (y - offset y0) ^ 2)
    (hin : r ≤ pr) :
    parabolicAt iAmp c q x0 y0 pr x y = Spec.pedestal iAmp (taper c) q pr r := by
  rw [parabolicAt_eq iAmp c q x0 y0 pr x y r hpr.ne' hr hr2]
  have hb := ratio_le hpr hr hin
  have : Fl.pow (.fin (1 - (r / pr) ^ 2)) q = .fin ((1 - (r / pr) ^ 2) ^ q) := by
    rw [Fl.pow_fin, if_neg hq.ne']
    split_ifs with h1 h2
    · rw [h1, Real.zero_rpow hq.ne']
    · exact absurd h2.1 (by linarith)
    · rfl
  rw [this]
  rfl

/-- Value at the centre and at distance `pr`. -/
theorem pedestal_centre (iAmp : ℝ) (c : QNum) (q : ℝ) (x0 y0 : QNum) (pr : ℝ) (hpr : 0 < pr)
    (hq : 0 < q) :
    parabolicAt iAmp c q x0 y0 pr (offset x0) (offset y0) = iAmp ∧
    ∀ x y, (x - offset x0) ^ 2 + (y - offset y0) ^ 2 = pr ^ 2 →
      parabolicAt iAmp c q x0 y0 pr x y = iAmp * taper c := by
  constructor
  · rw [pedestal_value iAmp c q x0 y0 pr _ _ 0 hpr hq le_rfl (by ring) hpr.le]
    unfold Spec.pedestal
    simp
  · intro x y h
    rw [pedestal_value iAmp c q x0 y0 pr _ _ pr hpr hq hpr.le h.symm le_rfl]
    unfold Spec.pedestal
    rw [div_self hpr.ne', one_pow, sub_self, Real.zero_rpow hq.ne']
    ring

theorem pedestal_mono (iAmp C q pr : ℝ) (hi : 0 ≤ iAmp) (hC1 : C ≤ 1) (hpr : 0 < pr)
    (hq : 0 < q) {r s : ℝ} (hr : 0 ≤ r) (hrs : r ≤ s) (hs : s ≤ pr) :
    Spec.pedestal iAmp C q pr s ≤ Spec.pedestal iAmp C q pr r := by
  have h1 : (r / pr) ^ 2 ≤ (s / pr) ^ 2 := by
    apply pow_le_pow_left₀ (by positivity)
    exact div_le_div_of_nonneg_right hrs hpr.le
  have h2 := ratio_le hpr (hr.trans hrs) hs
  have h3 : (1 - (s / pr) ^ 2) ^ q ≤ (1 - (r / pr) ^ 2) ^ q :=
    Real.rpow_le_rpow (by linarith) (by linarith) hq.le
  unfold Spec.pedestal
  apply mul_le_mul_of_nonneg_left _ hi
  have : (1 - C) * (1 - (s / pr) ^ 2) ^ q ≤ (1 - C) * (1 - (r / pr) ^ 2) ^ q :=
    mul_le_mul_of_nonneg_left h3 (by linarith)
  linarith

/-- On the disc the value is between the edge value and the amplitude, and does not
increase with the distance to the centre. -/
theorem pedestal_range (iAmp : ℝ) (c : QNum) (q : ℝ) (x0 y0 : QNum) (pr : ℝ) (hpr : 0 < pr)
    (hq : 0 < q) (hi : 0 ≤ iAmp) (hC : taper c ≤ 1) (x y : ℝ)
    (hin : (x - offset x0) ^ 2 + (y - offset y0) ^ 2 ≤ pr ^ 2) :
    iAmp * taper c ≤ parabolicAt iAmp c q x0 y0 pr x y ∧
    parabolicAt iAmp c q x0 y0 pr x y ≤ iAmp ∧
    ∀ x' y', (x' - offset x0) ^ 2 + (y' - offset y0) ^ 2 ≤
        (x - offset x0) ^ 2 + (y - offset y0) ^ 2 →
      parabolicAt iAmp c q x0 y0 pr x y ≤ parabolicAt iAmp c q x0 y0 pr x' y' := by
  set r := Real.sqrt ((x - offset x0) ^ 2 + (y - offset y0) ^ 2) with hrd
  have hr0 : 0 ≤ r := Real.sqrt_nonneg _
  have hr2 : r ^ 2 = (x - offset x0) ^ 2 + (y - offset y0) ^ 2 := Real.sq_sqrt (by positivity)
  have hrp : r ≤ pr := by
    rw [← Real.sqrt_sq hpr.le]
    exact Real.sqrt_le_sqrt hin
  obtain ⟨e1, e2⟩ := pedestal_centre iAmp c q x0 y0 pr hpr hq
  rw [pedestal_value iAmp c q x0 y0 pr x y r hpr hq hr0 hr2 hrp]
  refine ⟨?_, ?_, fun x' y' h => ?_⟩
  · have : Spec.pedestal iAmp (taper c) q pr pr = iAmp * taper c := by
      unfold Spec.pedestal
      rw [div_self hpr.ne', one_pow, sub_self, Real.zero_rpow hq.ne']
      ring
    rw [← this]
    exact pedestal_mono iAmp _ q pr hi hC hpr hq hr0 hrp le_rfl
  · have : Spec.pedestal iAmp (taper c) q pr 0 = iAmp := by
      unfold Spec.pedestal
      simp
    conv_rhs => rw [← this]
    exact pedestal_mono iAmp _ q pr hi hC hpr hq le_rfl hr0 hrp
  · have hs := Real.sqrt_le_sqrt h
    rw [← hrd] at hs
    rw [pedestal_value iAmp c q x0 y0 pr x' y' _ hpr hq (Real.sqrt_nonneg _)
      (Real.sq_sqrt (by positivity)) (hs.trans hrp)]
    exact pedestal_mono iAmp _ q pr hi hC hpr hq (Real.sqrt_nonneg _) hs hrp

/-- Outside the disc, with a non integer exponent, the nan is replaced by 0. -/
theorem pedestal_outside (iAmp : ℝ) (c : QNum) (q : ℝ) (x0 y0 : QNum) (pr : ℝ) (hpr : 0 < pr)
    (hq : ∀ k : ℤ, q ≠ k) (x y : ℝ)
    (hout : pr ^ 2 < (x - offset x0) ^ 2 + (y - offset y0) ^ 2) :
    parabolicAt iAmp c q x0 y0 pr x y = 0 := by
  set r := Real.sqrt ((x - offset x0) ^ 2 + (y - offset y0) ^ 2) with hrd
  have hr0 : 0 ≤ r := Real.sqrt_nonneg _
  have hr2 : r ^ 2 = (x - offset x0) ^ 2 + (y - offset y0) ^ 2 := Real.sq_sqrt (by positivity)
  rw [parabolicAt_eq iAmp c q x0 y0 pr x y r hpr.ne' hr0 hr2]
  have hb : 1 - (r / pr) ^ 2 < 0 := by
    rw [div_pow, hr2, sub_neg, one_lt_div (by positivity)]
    exact hout
  have : Fl.pow (.fin (1 - (r / pr) ^ 2)) q = .nan := by
    rw [Fl.pow_fin, if_neg (by simpa using hq 0), if_neg hb.ne,
      if_pos ⟨hb, fun ⟨k, hk⟩ => hq k hk⟩]
  rw [this]
  simp [Fl.mul, Fl.add, Fl.nanToNum]

/-- Outside the disc with an integer exponent nothing is cut off: the formula goes on
(with `q = 1` the value is below the edge value and unbounded below). -/
theorem pedestal_outside_int (iAmp : ℝ) (c : QNum) (k : ℕ) (hk : 0 < k) (x0 y0 : QNum) (pr : ℝ)
    (hpr : 0 < pr) (x y : ℝ) :
    parabolicAt iAmp c k x0 y0 pr x y = iAmp * (taper c + (1 - taper c) *
      (1 - ((x - offset x0) ^ 2 + (y - offset y0) ^ 2) / pr ^ 2) ^ k) := by
  set r := Real.sqrt ((x - offset x0) ^ 2 + (y - offset y0) ^ 2) with hrd
  have hr0 : 0 ≤ r := Real.sqrt_nonneg _
  have hr2 : r ^ 2 = (x - offset x0) ^ 2 + (y - offset y0) ^ 2 := Real.sq_sqrt (by positivity)
  rw [parabolicAt_eq iAmp c k x0 y0 pr x y r hpr.ne' hr0 hr2]
  have hk' : (0 : ℝ) < (k : ℝ) := by exact_mod_cast hk
  have : Fl.pow (.fin (1 - (r / pr) ^ 2)) (k : ℝ) = .fin ((1 - (r / pr) ^ 2) ^ k) := by
    rw [Fl.pow_fin, if_neg hk'.ne']
    split_ifs with h1 h2
    · rw [h1, zero_pow (by omega)]
    · exact absurd ⟨(k : ℤ), by simp⟩ h2.2
    · rw [Real.rpow_natCast]
  rw [this, ← hr2, ← div_pow]
  rfl

/-- Bare numbers and Quantities: a taper of `v` units of `s` dB and offsets of `v` units of
`s` metres give the value of the bare numbers `v * s`. -/
theorem parabolicAt_units (iAmp q pr x y : ℝ) (c cs x0 xs y0 ys : ℝ) :
    parabolicAt iAmp (.quant c cs) q (.quant x0 xs) (.quant y0 ys) pr x y =
      parabolicAt iAmp (.bare (c * cs)) q (.bare (x0 * xs)) (.bare (y0 * ys)) pr x y := rfl

/-- The array function is that pointwise value, for exactly five coefficients, otherwise
`ValueError`. -/
theorem parabolic_array {ι : Type} (x y : ι → ℝ) (I : List ℝ) (pr : ℝ) :
    (∀ i c q x0 y0, I = [i, c, q, x0, y0] → illumParabolic x y I pr =
      .ok (fun p => parabolicAt i (.bare c) q (.bare x0) (.bare y0) pr (x p) (y p))) ∧
    (I.length ≠ 5 → illumParabolic x y I pr = .error .valueError) := by
  constructor
  · rintro i c q x0 y0 rfl
    rfl
  · intro h
    rcases I with _ | ⟨_, _ | ⟨_, _ | ⟨_, _ | ⟨_, _ | ⟨_, _ | ⟨_, _⟩⟩⟩⟩⟩⟩ <;>
      first | rfl | (exact absurd rfl h)

example : (0 : ℝ) < 50 ∧ taper (.bare (-14)) ≤ 1 := by
  refine ⟨by norm_num, ?_⟩
  unfold taper
  exact Real.rpow_le_one_of_one_le_of_nonpos (by norm_num) (by norm_num)

example : parabolicAt 3 (.bare (-14)) 1.5 (.bare 0) (.bare 0) 50 60 0 = 0 :=
  pedestal_outside _ _ _ _ _ _ (by norm_num) (fun k h => by
    have : (3 : ℝ) = ((2 * k : ℤ) : ℝ) := by push_cast; linarith
    have : (3 : ℤ) = 2 * k := by exact_mod_cast this
    omega) _ _ (by norm_num [offset])

/-! ## C21 -/

/-- Only the first two and the last two coefficients are used: a list
`[i_amp, c_dB] ++ middle ++ [x0, y0]` gives the same for every `middle`. -/
theorem gauss_ignores_middle {ι : Type} (x y : ι → ℝ) (i c x0 y0 pr : ℝ) (mid : List ℝ) :
    illumGauss x y (i :: c :: (mid ++ [x0, y0])) pr =
      .ok (fun p => gaussAt i (.bare c) (.bare x0) (.bare y0) pr (x p) (y p)) := by
  unfold illumGauss illumGaussQ
  have : (List.map QNum.bare (i :: c :: (mid ++ [x0, y0]))).drop
      ((List.map QNum.bare (i :: c :: (mid ++ [x0, y0]))).length - 2) = [.bare x0, .bare y0] := by
    simp only [List.map_cons, List.map_append, List.length_cons, List.length_append, List.length_map,
      List.length_nil]
    rw [show mid.length + (0 + 1 + 1) + 1 + 1 - 2 = mid.length + 1 + 1 by omega]
    simp only [List.drop_succ_cons]
    rw [List.drop_append_of_le_length (by simp)]
    simp
  rw [this]
  rfl

/-- With two or three coefficients the same number is read twice (the taper or the
amplitude as an offset): no error. -/
theorem gauss_short {ι : Type} (x y : ι → ℝ) (i c z pr : ℝ) :
    illumGauss x y [i, c] pr =
        .ok (fun p => gaussAt i (.bare c) (.bare i) (.bare c) pr (x p) (y p)) ∧
    illumGauss x y [i, c, z] pr =
        .ok (fun p => gaussAt i (.bare c) (.bare c) (.bare z) pr (x p) (y p)) ∧
    illumGauss x y [i] pr = .error .valueError ∧ illumGauss x y [] pr = .error .valueError :=
  ⟨rfl, rfl, rfl, rfl⟩

/-- Positive, with its largest value `i_amp sqrt(2π) σ` at the centre, strictly decreasing
with the distance to the centre and a function of that distance only. -/
theorem gauss_shape (i : ℝ) (c x0 y0 : QNum) (pr : ℝ) (hi : 0 < i) (hpr : pr ≠ 0) :
    (∀ x y, 0 < gaussAt i c x0 y0 pr x y) ∧
    gaussAt i c x0 y0 pr (offset x0) (offset y0) = i * Real.sqrt (2 * Real.pi) * taper c ∧
    ∀ x y x' y', gaussAt i c x0 y0 pr x y < gaussAt i c x0 y0 pr x' y' ↔
      (x' - offset x0) ^ 2 + (y' - offset y0) ^ 2 < (x - offset x0) ^ 2 + (y - offset y0) ^ 2 := by
  have hs := taper_pos c
  have hsq : 0 < Real.sqrt (2 * Real.pi * taper c ^ 2) :=
    Real.sqrt_pos.2 (by have := Real.pi_pos; positivity)
  have hden : 0 < 2 * (taper c * pr) ^ 2 := by positivity
  refine ⟨fun x y => ?_, ?_, fun x y x' y' => ?_⟩
  · unfold gaussAt
    have := Real.exp_pos (-((x - offset x0) ^ 2 + (y - offset y0) ^ 2) / (2 * (taper c * pr) ^ 2))
    positivity
  · unfold gaussAt
    simp only [sub_self]
    rw [Real.sqrt_mul (by have := Real.pi_pos; positivity), Real.sqrt_sq hs.le]
    simp
    ring
  · unfold gaussAt
    simp only
    rw [mul_lt_mul_iff_right₀ (by positivity), Real.exp_lt_exp, div_lt_div_iff_of_pos_right hden]
    constructor <;> intro h <;> linarith

/-- Radial symmetry: equal distances give equal values. -/
theorem gauss_radial (i : ℝ) (c x0 y0 : QNum) (pr x y x' y' : ℝ)
    (h : (x - offset x0) ^ 2 + (y - offset y0) ^ 2 = (x' - offset x0) ^ 2 + (y' - offset y0) ^ 2) :
    gaussAt i c x0 y0 pr x y = gaussAt i c x0 y0 pr x' y' := by
  unfold gaussAt
  rw [h]

example : illumGauss (fun _ : Fin 4 => (1 : ℝ)) (fun _ => 2) [1, -14, 1.5, 0.1, 0.2] 50 =
    illumGauss (fun _ : Fin 4 => (1 : ℝ)) (fun _ => 2) [1, -14, 0.1, 0.2] 50 :=
  (gauss_ignores_middle _ _ 1 (-14) 0.1 0.2 50 [1.5]).trans
    (gauss_ignores_middle _ _ 1 (-14) 0.1 0.2 50 []).symm

/-! ## The claims, for the functions as they are called -/

/-- The number a coefficient stands for: metres for lengths, dB for the taper. -/
def Spec.value : QNum → ℝ
  | .bare r => r
  | .quant v scale => v * scale

/-- `C` is the amplitude ratio of the taper `c`: `20 log10 C` dB. -/
def Spec.IsTaper (c : QNum) (C : ℝ) : Prop := 0 < C ∧ 20 * Real.logb 10 C = Spec.value c

/-- Squared distance to the centre. -/
def Spec.dist2 (x0 y0 : QNum) (x y : ℝ) : ℝ := (x - Spec.value x0) ^ 2 + (y - Spec.value y0) ^ 2

theorem offset_value (c : QNum) : offset c = Spec.value c := by cases c <;> rfl

theorem taper_unique {c : QNum} {C : ℝ} (h : Spec.IsTaper c C) : taper c = C := by
  have h1 : Real.logb 10 C = Spec.value c / 20 := by linarith [h.2]
  have h2 : C = (10 : ℝ) ^ (Spec.value c / 20) := by
    rw [← h1, Real.rpow_logb (by norm_num) (by norm_num) h.1]
  cases c <;> exact h2.symm

theorem parabolicQ_ok {ι : Type} {x y : ι → ℝ} {i c q x0 y0 : QNum} {pr : ℝ} {f : ι → ℝ}
    (h : illumParabolicQ x y [i, c, q, x0, y0] pr = .ok f) (p : ι) :
    f p = parabolicAt (Spec.value i) c (Spec.value q) x0 y0 pr (x p) (y p) := by
  cases h
  rw [offset_value, offset_value]

/-- **C20** on the closed disc of radius `pr` around `(x0, y0)`: the pedestal formula. -/
theorem C20_value {ι : Type} (x y : ι → ℝ) (i c q x0 y0 : QNum) (pr C : ℝ) (f : ι → ℝ) (hpr : 0 < pr)
    (hq : 0 < Spec.value q) (hC : Spec.IsTaper c C)
    (h : illumParabolicQ x y [i, c, q, x0, y0] pr = .ok f) (p : ι) (r : ℝ) (hr : 0 ≤ r)
    (hr2 : r ^ 2 = Spec.dist2 x0 y0 (x p) (y p)) (hin : r ≤ pr) :
    f p = Spec.value i * (C + (1 - C) * (1 - (r / pr) ^ 2) ^ Spec.value q) := by
  rw [parabolicQ_ok h, pedestal_value _ _ _ _ _ _ _ _ r hpr hq hr
    (by rw [offset_value, offset_value]; exact hr2) hin, taper_unique hC]
  rfl

/-- **C20** the amplitude at the centre and the amplitude times the taper at distance `pr`. -/
theorem C20_centre_and_edge {ι : Type} (x y : ι → ℝ) (i c q x0 y0 : QNum) (pr C : ℝ) (f : ι → ℝ)
    (hpr : 0 < pr) (hq : 0 < Spec.value q) (hC : Spec.IsTaper c C)
    (h : illumParabolicQ x y [i, c, q, x0, y0] pr = .ok f) (p : ι) :
    (x p = Spec.value x0 → y p = Spec.value y0 → f p = Spec.value i) ∧
    (Spec.dist2 x0 y0 (x p) (y p) = pr ^ 2 → f p = Spec.value i * C) := by
  obtain ⟨h1, h2⟩ := pedestal_centre (Spec.value i) c (Spec.value q) x0 y0 pr hpr hq
  rw [parabolicQ_ok h]
  constructor
  · intro hx hy
    rw [hx, hy, ← offset_value x0, ← offset_value y0, h1]
  · intro hd
    rw [h2 _ _ (by rw [offset_value, offset_value]; exact hd), taper_unique hC]

/-- **C20** on the disc, for a taper of at most 0 dB: between `i_amp C` and `i_amp`, and not larger than
the value at any point nearer to the centre. -/
theorem C20_range_and_monotone {ι : Type} (x y : ι → ℝ) (i c q x0 y0 : QNum) (pr C : ℝ) (f : ι → ℝ)
    (hpr : 0 < pr) (hq : 0 < Spec.value q) (hi : 0 ≤ Spec.value i) (hC : Spec.IsTaper c C)
    (hc : Spec.value c ≤ 0) (h : illumParabolicQ x y [i, c, q, x0, y0] pr = .ok f) (p : ι)
    (hin : Spec.dist2 x0 y0 (x p) (y p) ≤ pr ^ 2) :
    Spec.value i * C ≤ f p ∧ f p ≤ Spec.value i ∧
    ∀ p', Spec.dist2 x0 y0 (x p') (y p') ≤ Spec.dist2 x0 y0 (x p) (y p) → f p ≤ f p' := by
  have hC1 : C ≤ 1 := by
    have : Real.logb 10 C ≤ 0 := by linarith [hC.2]
    by_contra hgt
    exact absurd (Real.logb_pos (by norm_num : (1 : ℝ) < 10) (not_le.1 hgt)) (not_lt.2 this)
  have := pedestal_range (Spec.value i) c (Spec.value q) x0 y0 pr hpr hq hi
    (by rw [taper_unique hC]; exact hC1) (x p) (y p) (by rw [offset_value, offset_value]; exact hin)
  rw [taper_unique hC, offset_value, offset_value] at this
  refine ⟨?_, ?_, fun p' hp' => ?_⟩
  · rw [parabolicQ_ok h]; exact this.1
  · rw [parabolicQ_ok h]; exact this.2.1
  · rw [parabolicQ_ok h, parabolicQ_ok h]; exact this.2.2 _ _ hp'

/-- **C20** outside the disc, with a non integer exponent, the nan is replaced by 0. -/
theorem C20_outside {ι : Type} (x y : ι → ℝ) (i c q x0 y0 : QNum) (pr : ℝ) (f : ι → ℝ) (hpr : 0 < pr)
    (hq : ∀ k : ℤ, Spec.value q ≠ k) (h : illumParabolicQ x y [i, c, q, x0, y0] pr = .ok f) (p : ι)
    (hout : pr ^ 2 < Spec.dist2 x0 y0 (x p) (y p)) : f p = 0 := by
  rw [parabolicQ_ok h]
  exact pedestal_outside _ _ _ _ _ _ hpr hq _ _ (by rw [offset_value, offset_value]; exact hout)

/-- **C20** with a positive integer exponent nothing is cut off: the formula goes on outside. -/
theorem C20_outside_integer {ι : Type} (x y : ι → ℝ) (i c q x0 y0 : QNum) (pr C : ℝ) (f : ι → ℝ)
    (hpr : 0 < pr) (k : ℕ) (hk : 0 < k) (hq : Spec.value q = k) (hC : Spec.IsTaper c C)
    (h : illumParabolicQ x y [i, c, q, x0, y0] pr = .ok f) (p : ι) :
    f p = Spec.value i * (C + (1 - C) * (1 - Spec.dist2 x0 y0 (x p) (y p) / pr ^ 2) ^ k) := by
  rw [parabolicQ_ok h, hq, pedestal_outside_int _ _ k hk _ _ _ hpr, taper_unique hC, offset_value,
    offset_value]
  rfl

/-- **C20** only the numbers the coefficients stand for matter, not whether they are Quantities nor in
which unit; there have to be five of them. -/
theorem C20_units {ι : Type} (x y : ι → ℝ) (I I' : List QNum) (pr : ℝ)
    (h : I.map Spec.value = I'.map Spec.value) :
    illumParabolicQ x y I pr = illumParabolicQ x y I' pr ∧
    ((∃ f, illumParabolicQ x y I pr = .ok f) ↔ I.length = 5) ∧
    (I.length ≠ 5 → illumParabolicQ x y I pr = .error .valueError) := by
  have ht : ∀ c c' : QNum, Spec.value c = Spec.value c' → taper c = taper c' := by
    intro c c' hc
    cases c <;> cases c' <;> simp only [Spec.value] at hc <;> simp only [taper, hc]
  have hl : I.length = I'.length := by simpa using congrArg List.length h
  have hne : ∀ J : List QNum, J.length ≠ 5 → illumParabolicQ x y J pr = .error .valueError := by
    intro J hJ
    rcases J with _ | ⟨_, _ | ⟨_, _ | ⟨_, _ | ⟨_, _ | ⟨_, _ | ⟨_, _⟩⟩⟩⟩⟩⟩ <;>
      first | rfl | (exact absurd rfl hJ)
  have hok : ∀ J : List QNum, J.length = 5 → ∃ i c q x0 y0, J = [i, c, q, x0, y0] := by
    intro J hJ
    rcases J with _ | ⟨a, _ | ⟨b, _ | ⟨c, _ | ⟨d, _ | ⟨e, _ | ⟨g, _⟩⟩⟩⟩⟩⟩ <;>
      first | exact ⟨_, _, _, _, _, rfl⟩ | simp at hJ
  refine ⟨?_, ⟨?_, ?_⟩, hne I⟩
  · by_cases h5 : I.length = 5
    · obtain ⟨i, c, q, x0, y0, rfl⟩ := hok I h5
      obtain ⟨i', c', q', x0', y0', rfl⟩ := hok I' (hl ▸ h5)
      simp only [List.map_cons, List.map_nil, List.cons.injEq, and_true] at h
      obtain ⟨e1, e2, e3, e4, e5⟩ := h
      simp only [illumParabolicQ, parabolicAt, offset_value, ht _ _ e2, e1, e3, e4, e5]
    · rw [hne I h5, hne I' (hl ▸ h5)]
  · rintro ⟨f, hf⟩
    by_contra h5
    rw [hne I h5] at hf
    cases hf
  · intro h5
    obtain ⟨i, c, q, x0, y0, rfl⟩ := hok I h5
    exact ⟨_, rfl⟩

/-- What `illum_gauss` is for amplitude `i`, taper `C` and centre `(x0, y0)`. -/
def Spec.IsGauss {ι : Type} (x y : ι → ℝ) (i C : ℝ) (x0 y0 : QNum) (pr : ℝ) (f : ι → ℝ) : Prop :=
  ∀ p, f p = i * (Real.sqrt (2 * Real.pi) * C) *
    Real.exp (-(Spec.dist2 x0 y0 (x p) (y p) / (C * pr) ^ 2) / 2)

theorem gaussQ_is {ι : Type} (x y : ι → ℝ) (i c x0 y0 : QNum) (pr C : ℝ) (hC : Spec.IsTaper c C) :
    Spec.IsGauss x y (Spec.value i) C x0 y0 pr
      (fun p => gaussAt (offset i) c x0 y0 pr (x p) (y p)) := by
  intro p
  simp only [gaussAt, offset_value, taper_unique hC]
  rw [Real.sqrt_mul (by have := Real.pi_pos; positivity), Real.sqrt_sq hC.1.le]
  congr 2
  unfold Spec.dist2
  rw [neg_div, neg_div, div_div, mul_comm ((C * pr) ^ 2) 2]

/-- **C21** of the coefficients only the first two and the last two are used, and the value is the Gaussian
of these. -/
theorem C21_ignores_middle {ι : Type} (x y : ι → ℝ) (i c x0 y0 : QNum) (pr C : ℝ) (mid : List QNum)
    (hC : Spec.IsTaper c C) :
    ∃ f, illumGaussQ x y (i :: c :: (mid ++ [x0, y0])) pr = .ok f ∧
      Spec.IsGauss x y (Spec.value i) C x0 y0 pr f := by
  refine ⟨_, ?_, gaussQ_is x y i c x0 y0 pr C hC⟩
  unfold illumGaussQ
  have : (i :: c :: (mid ++ [x0, y0])).drop ((i :: c :: (mid ++ [x0, y0])).length - 2) = [x0, y0] := by
    simp only [List.length_cons, List.length_append, List.length_nil]
    rw [show mid.length + (0 + 1 + 1) + 1 + 1 - 2 = mid.length + 1 + 1 by omega]
    simp only [List.drop_succ_cons]
    rw [List.drop_append_of_le_length (by simp)]
    simp
  rw [this]
  rfl

/-- **C21** two or three coefficients are accepted (the taper or the amplitude is read as an offset as
well), fewer are not. -/
theorem C21_short {ι : Type} (x y : ι → ℝ) (i c z : QNum) (pr C : ℝ) (hC : Spec.IsTaper c C) :
    (∃ f, illumGaussQ x y [i, c] pr = .ok f ∧ Spec.IsGauss x y (Spec.value i) C i c pr f) ∧
    (∃ f, illumGaussQ x y [i, c, z] pr = .ok f ∧ Spec.IsGauss x y (Spec.value i) C c z pr f) ∧
    illumGaussQ x y [i] pr = .error .valueError ∧ illumGaussQ x y [] pr = .error .valueError :=
  ⟨⟨_, rfl, gaussQ_is x y i c i c pr C hC⟩, ⟨_, rfl, gaussQ_is x y i c c z pr C hC⟩, rfl, rfl⟩

/-- **C21** for a positive amplitude: positive, `i_amp sqrt(2π) C` at the centre, and larger exactly
where the distance to the centre is smaller. -/
theorem C21_shape {ι : Type} (x y : ι → ℝ) (i c x0 y0 : QNum) (pr C : ℝ) (mid : List QNum) (f : ι → ℝ)
    (hi : 0 < Spec.value i) (hpr : pr ≠ 0) (hC : Spec.IsTaper c C)
    (h : illumGaussQ x y (i :: c :: (mid ++ [x0, y0])) pr = .ok f) (p : ι) :
    0 < f p ∧
    (x p = Spec.value x0 → y p = Spec.value y0 → f p = Spec.value i * (Real.sqrt (2 * Real.pi) * C)) ∧
    ∀ p', f p < f p' ↔ Spec.dist2 x0 y0 (x p') (y p') < Spec.dist2 x0 y0 (x p) (y p) := by
  obtain ⟨f', hf', hg⟩ := C21_ignores_middle x y i c x0 y0 pr C mid hC
  rw [h] at hf'
  cases hf'
  have hs : 0 < Real.sqrt (2 * Real.pi) := Real.sqrt_pos.2 (by have := Real.pi_pos; positivity)
  have hC0 := hC.1
  have hden : 0 < (C * pr) ^ 2 := by positivity
  refine ⟨?_, fun hx hy => ?_, fun p' => ?_⟩
  · rw [hg p]
    have := Real.exp_pos (-(Spec.dist2 x0 y0 (x p) (y p) / (C * pr) ^ 2) / 2)
    positivity
  · rw [hg p, hx, hy]
    simp [Spec.dist2]
  · have key := div_lt_div_iff_of_pos_right (a := Spec.dist2 x0 y0 (x p') (y p'))
      (b := Spec.dist2 x0 y0 (x p) (y p)) hden
    rw [hg p, hg p', mul_lt_mul_iff_right₀ (by positivity), Real.exp_lt_exp, ← key]
    constructor <;> intro h <;> linarith

theorem taper_exists (v : ℝ) : Spec.IsTaper (.bare v) ((10 : ℝ) ^ (v / 20)) := by
  refine ⟨Real.rpow_pos_of_pos (by norm_num) _, ?_⟩
  rw [Real.logb_rpow (by norm_num) (by norm_num)]
  simp only [Spec.value]
  ring

/-- −20 dB are a tenth of the amplitude: an aperture of 50 m lit with 3 at the centre has 0.3 at its
rim, and 0 beyond it with exponent 1.5. -/
example : ∃ f, illumParabolicQ (fun k : Fin 2 => ![50, 60] k) (fun _ => 0)
    [.bare 3, .quant (-2) 10, .bare 1.5, .bare 0, .bare 0] 50 = .ok f ∧ f 0 = 0.3 ∧ f 1 = 0 := by
  have hT : Spec.IsTaper (.quant (-2) 10) (1 / 10) := by
    refine ⟨by norm_num, ?_⟩
    rw [one_div, Real.logb_inv, Real.logb_self_eq_one (by norm_num)]
    norm_num [Spec.value]
  obtain ⟨f, hf⟩ : ∃ f, illumParabolicQ (fun k : Fin 2 => ![50, 60] k) (fun _ => 0)
    [.bare 3, .quant (-2) 10, .bare 1.5, .bare 0, .bare 0] 50 = .ok f := ⟨_, rfl⟩
  refine ⟨f, hf, ?_, ?_⟩
  · rw [(C20_centre_and_edge _ _ _ _ _ _ _ 50 _ f (by norm_num) (by norm_num [Spec.value]) hT hf 0).2
      (by norm_num [Spec.dist2, Spec.value])]
    norm_num [Spec.value]
  · refine C20_outside _ _ _ _ _ _ _ 50 f (by norm_num) (fun k hk => ?_) hf 1
      (by norm_num [Spec.dist2, Spec.value])
    simp only [Spec.value] at hk
    have : (3 : ℝ) = ((2 * k : ℤ) : ℝ) := by push_cast; linarith
    have : (3 : ℤ) = 2 * k := by exact_mod_cast this
    omega

/-- The Gaussian of −14 dB and offsets of 0.1 m and 20 cm. -/
example : ∃ f, illumGaussQ (fun k : Fin 2 => ![0.1, 60] k) (fun k => ![0.2, 1] k)
    [.bare 1, .bare (-14), .bare 1.5, .bare 0.1, .quant 20 0.01] 50 = .ok f ∧ f 1 < f 0 ∧
    f 0 = Real.sqrt (2 * Real.pi) * (10 : ℝ) ^ ((-14 : ℝ) / 20) := by
  obtain ⟨f, hf, -⟩ := C21_ignores_middle (fun k : Fin 2 => ![0.1, 60] k) (fun k => ![0.2, 1] k) (.bare 1)
    (.bare (-14)) (.bare 0.1) (.quant 20 0.01) 50 _ [.bare 1.5] (taper_exists (-14))
  refine ⟨f, hf, ?_, ?_⟩
  · refine ((C21_shape _ _ _ _ _ _ 50 _ _ f (by norm_num [Spec.value]) (by norm_num)
      (taper_exists (-14)) hf 1).2.2 0).2 ?_
    norm_num [Spec.dist2, Spec.value]
  · rw [(C21_shape _ _ _ _ _ _ 50 _ _ f (by norm_num [Spec.value]) (by norm_num)
      (taper_exists (-14)) hf 0).2.1 (by norm_num [Spec.value]) (by norm_num [Spec.value])]
    simp [Spec.value]

end Verif.Props
