import Verif.Props.DoubleActuatorMap

/-!
# C128: the look-up table and the gravitational model in the arithmetic of doubles
-/

namespace Verif.Props

open Verif Verif.Np Verif.Actuator

/-! ## There and back -/

/-- One displacement there and back. -/
theorem trip_entry {rnd : ℝ → Fl} (h : Spec.Rounding rnd) {a : Act} {d : Dbl.Act} (hd : Spec.NearAct a d) {r : ℝ}
    (hr : |r| ≤ 2 ^ 90) :
    ∃ z, d.clip (d.toShift rnd (d.toPhase rnd (.fin r))) = .fin z ∧ |z - max a.minAmp (min a.maxAmp r)| ≤
      1 / 2 ^ 47 * |max a.minAmp (min a.maxAmp r)| + 2 ^ (-800 : ℤ) := by
  obtain ⟨r1, r2⟩ := act_range hd
  have hF := factor_nz hd
  have hF0 : 0 < |Spec.factor a| := abs_pos.2 hF
  rw [abs_mul, abs_of_pos (by norm_num : (0 : ℝ) < 1000)] at r1 r2
  obtain ⟨p, e1, b1⟩ := phase_entry h hd (hr.trans (two_pow_le (by norm_num)))
  have hε1 := tiny_le (show (-1074 : ℤ) ≤ -100 by norm_num)
  have hFr : |Spec.factor a * r| ≤ 2 ^ 290 := by
    rw [abs_mul, show (2 : ℝ) ^ 290 = 2 ^ 200 * 2 ^ 90 by rw [← pow_add]]
    exact mul_le_mul (by linarith) hr (abs_nonneg _) (by positivity)
  have hp : |p| ≤ 2 ^ 300 := by
    have := abs_add_le (p - Spec.factor a * r) (Spec.factor a * r)
    rw [sub_add_cancel] at this
    have e : (2 : ℝ) ^ 300 = 2 ^ 10 * 2 ^ 290 := by rw [← pow_add]
    have e0 : (1 : ℝ) ≤ 2 ^ 290 := one_le_pow₀ one_le_two
    rw [e]
    generalize (2 : ℝ) ^ 290 = Q at *
    generalize (2 : ℝ) ^ (-1074 : ℤ) = ε at *
    generalize |p - Spec.factor a * r| = u at *
    generalize |Spec.factor a * r| = w at *
    clear e r1 r2 hr
    norm_num at b1 hε1 ⊢
    linarith
  obtain ⟨z, e2, b2⟩ := command_entry h hd hp
  refine ⟨z, by rw [e1, e2], ?_⟩
  have b3 : |p / Spec.factor a - r| ≤ 27 / 2 ^ 53 * |r| + 2 ^ (-860 : ℤ) := by
    have e : p / Spec.factor a - r = (p - Spec.factor a * r) / Spec.factor a := by field_simp
    rw [e, abs_div, div_le_iff₀ hF0]
    refine b1.trans ?_
    rw [abs_mul, add_mul, mul_comm |Spec.factor a|, mul_assoc]
    refine add_le_add le_rfl ?_
    have e3 : (2 : ℝ) ^ (-1074 : ℤ) = 2 ^ (-860 : ℤ) * (1 / 2 ^ 214) := by
      rw [one_div, ← zpow_natCast, ← zpow_neg, ← zpow_add₀ two_ne_zero]
      norm_num
    rw [e3]
    refine mul_le_mul_of_nonneg_left ?_ (by positivity)
    norm_num at r1 ⊢
    linarith
  have b4 := clamp_near hd.limits (by norm_num) (by norm_num) (by positivity) b3
  have hτ1 : (2 : ℝ) ^ (-1063 : ℤ) ≤ 2 ^ (-860 : ℤ) := zpow_le_zpow_right₀ one_le_two (by norm_num)
  have hτ2 : (2 : ℝ) ^ (-800 : ℤ) = 2 ^ 60 * 2 ^ (-860 : ℤ) := by
    rw [← zpow_natCast, ← zpow_add₀ two_ne_zero]
    norm_num
  have hτ0 : (0 : ℝ) < 2 ^ (-860 : ℤ) := by positivity
  generalize max a.minAmp (min a.maxAmp (p / Spec.factor a)) = s at *
  generalize max a.minAmp (min a.maxAmp r) = c at *
  have hs : |s| ≤ |c| + |s - c| := by
    have := abs_add_le (s - c) c
    rw [sub_add_cancel] at this
    linarith
  have e : z - c = (z - s) + (s - c) := by ring
  rw [e, hτ2]
  refine (abs_add_le _ _).trans ?_
  have hc := abs_nonneg c
  generalize (2 : ℝ) ^ (-860 : ℤ) = τ at *
  generalize (2 : ℝ) ^ (-1063 : ℤ) = ε at *
  generalize |z - s| = u at *
  generalize |s - c| = w at *
  generalize |s| = m at *
  generalize |c| = n at *
  clear r1 r2 hp b1 b3 hr hε1 hFr
  norm_num at b2 b4 ⊢
  linarith

/-- **C128.**  `itransform(transform(A))` in doubles: every displacement comes back, within the limits, to `2 ^ -47`. -/
theorem C128_round_trip {rnd : ℝ → Fl} (h : Spec.Rounding rnd) {a : Act} {d : Dbl.Act} (hd : Spec.NearAct a d) (A D : Arr)
    (hA : Spec.Sized (2 ^ 90) A) (hD : d.transform rnd A = .ok D) :
    ∃ O, d.itransform rnd D = .ok O ∧
      Spec.Zip (Spec.Close (1 / 2 ^ 47) (2 ^ (-800 : ℤ))) O (Spec.each (Spec.clamp a.minAmp a.maxAmp) A) := by
  have key : ∀ x, Spec.Entry A x → Spec.Close (1 / 2 ^ 47) (2 ^ (-800 : ℤ)) (d.clip (d.toShift rnd (d.toPhase rnd x)))
      (Spec.clamp a.minAmp a.maxAmp x) := by
    intro x hx
    rcases hA x hx with rfl | ⟨r, rfl, hr⟩
    · refine .inl ⟨?_, rfl⟩
      rw [phase_nan h hd, shift_nan, clipD_clamp d (by rw [hd.lo, hd.hi]; exact hd.limits)]
      rfl
    · obtain ⟨z, e, b⟩ := trip_entry h hd hr
      exact .inr ⟨z, _, e, rfl, b⟩
  cases A with
  | d1 n f => exact nomatch hD
  | d2 A =>
    cases hD
    refine ⟨_, rfl, ?_⟩
    rw [turn_map2, map_rot90 A, rot90_rot90, map_map]
    exact Spec.Zip.d2 fun q => key _ ⟨q, rfl⟩
  | d3 n A =>
    cases hD
    refine ⟨_, rfl, ?_⟩
    rw [turn_map2, map_rot90 A, rot90_rot90, map_map]
    exact Spec.Zip.d3 fun q i => key _ ⟨q, i, rfl⟩

/-! ## The file -/

theorem nearest_near {x : ℝ} {z w : ℤ} (hz : Spec.Nearest x z) (hw : |x - w| < 1 / 2) : z = w := by
  have h1 : |(z : ℝ) - w| < 1 := by
    have := abs_sub_le (z : ℝ) x w
    rw [abs_sub_comm (z : ℝ) x] at this
    linarith [hz.1]
  have h2 : |z - w| < 1 := by exact_mod_cast h1
  have := abs_lt.1 h2
  omega

/-- **C128.**  A table of whole micrometres within the limits, transformed to a phase and back in doubles, is written as
it was: not one digit of the file is changed by the rounding. -/
theorem C128_file {rnd : ℝ → Fl} (h : Spec.Rounding rnd) {a : Act} {d : Dbl.Act} (hd : Spec.NearAct a d) (ha : Spec.Writable a)
    (v : Fin 11 → Fin 96 → ℤ) (hv : ∀ j k, a.minAmp ≤ v j k ∧ (v j k : ℝ) ≤ a.maxAmp ∧ |(v j k : ℝ)| ≤ 2 ^ 45) :
    ∃ D O, d.transform rnd (.d2 ⟨11, 96, fun q => .fin (v q.1 q.2)⟩) = .ok D ∧ d.itransform rnd D = .ok O ∧
      a.writeLookup O = (.ok (), some (Spec.lookupText v)) := by
  obtain ⟨O, hO, hz⟩ := C128_round_trip h hd (.d2 ⟨11, 96, fun q => .fin (v q.1 q.2)⟩) _ (by
    rintro x ⟨q, rfl⟩
    exact .inr ⟨_, rfl, (hv q.1 q.2).2.2.trans (two_pow_le (by norm_num))⟩) rfl
  refine ⟨_, O, rfl, hO, ?_⟩
  generalize hS : Spec.each (Spec.clamp a.minAmp a.maxAmp) (.d2 ⟨11, 96, fun q => .fin (v q.1 q.2)⟩) = S at hz
  cases hz with
  | d3 hz => exact nomatch hS
  | @d2 m n f g hz =>
    obtain ⟨rfl, rfl, hg⟩ : ∃ (hm : m = 11) (hn : n = 96), HEq g (fun q : Fin 11 × Fin 96 => Spec.clamp a.minAmp a.maxAmp (.fin (v q.1 q.2))) := by
      simp only [Spec.each, Arr.d2.injEq, Mat.mk.injEq] at hS
      exact ⟨hS.1.symm, hS.2.1.symm, hS.2.2.symm⟩
    cases eq_of_heq hg
    obtain ⟨w, hw, hc⟩ := C60_file a ha le_rfl fun j k => f (j, k)
    have hfw : w = v := by
      funext j k
      have hjk := hc j k
      obtain ⟨h1, h2, h3⟩ := hv j k
      rcases hz (j, k) with ⟨-, hn⟩ | ⟨r, s, e1, e2, b⟩
      · exact nomatch hn
      · have es : s = v j k := by
          have : Spec.clamp a.minAmp a.maxAmp (.fin (v j k)) = .fin s := e2
          simp only [Spec.clamp, min_eq_right h2, max_eq_right h1] at this
          cases this
          rfl
        subst es
        have e3 : f (j, Fin.castLE le_rfl k) = .fin r := e1
        rw [e3] at hjk
        have b' : |r - v j k| ≤ 1 / 2 ^ 47 * 2 ^ 45 + 1 / 2 ^ 10 := by
          refine b.trans (add_le_add (mul_le_mul_of_nonneg_left h3 (by positivity)) ?_)
          exact (tiny_le (show (-800 : ℤ) ≤ -100 by norm_num)).trans (by norm_num)
        have hb := clamp_near (e := 0) (τ := 1 / 2 ^ 47 * 2 ^ 45 + 1 / 2 ^ 10) ha.1 le_rfl zero_le_one (by positivity)
          (by rw [zero_mul, zero_add]; exact b')
        rw [min_eq_right h2, max_eq_right h1, zero_mul, zero_add] at hb
        exact nearest_near hjk (hb.trans_lt (by norm_num))
    rw [← hfw]
    exact hw

/-- What comes from `itransform` has been through the limits. -/
theorem itransform_clamped {a : Act} (hl : a.minAmp ≤ a.maxAmp) {P E : Arr} (hE : a.itransform P = .ok E) {x : Fl}
    (hx : Spec.Entry E x) : ∃ y, x = Spec.clamp a.minAmp a.maxAmp y := by
  cases P with
  | d1 n f => exact nomatch hE
  | d2 A =>
    cases hE
    obtain ⟨q, rfl⟩ := hx
    exact ⟨_, clip_clamp a hl _⟩
  | d3 n A =>
    cases hE
    obtain ⟨q, i, rfl⟩ := hx
    exact ⟨_, clip_clamp a hl _⟩

/-- Two displacements that are close and the numbers written for them. -/
theorem nearest_pair {r s : ℝ} {v w : ℤ} (hv : Spec.Nearest r v) (hw : Spec.Nearest s w) (h : |r - s| ≤ 1 / 2 ^ 25) :
    |v - w| ≤ 1 ∧ (1 / 2 ^ 24 < |s - ((⌊s⌋ : ℝ) + 1 / 2)| → v = w) := by
  obtain ⟨a1, a2⟩ := abs_le.1 h
  obtain ⟨b1, b2⟩ := abs_le.1 hv.1
  obtain ⟨c1, c2⟩ := abs_le.1 hw.1
  norm_num at a1 a2
  constructor
  · have h1 : |((v - w : ℤ) : ℝ)| < 2 := by
      rw [abs_lt]
      push_cast
      constructor <;> linarith
    have h2 : |v - w| < 2 := by exact_mod_cast h1
    omega
  · intro hm
    have f1 := Int.floor_le s
    have f2 := Int.lt_floor_add_one s
    rcases lt_abs.1 hm with hm | hm
    · norm_num at hm
      have e1 : v = ⌊s⌋ + 1 := nearest_near hv (by
        rw [abs_lt]
        push_cast
        constructor <;> linarith)
      have e2 : w = ⌊s⌋ + 1 := nearest_near hw (by
        rw [abs_lt]
        push_cast
        constructor <;> linarith)
      rw [e1, e2]
    · norm_num at hm
      have e1 : v = ⌊s⌋ := nearest_near hv (by
        rw [abs_lt]
        constructor <;> linarith)
      have e2 : w = ⌊s⌋ := nearest_near hw (by
        rw [abs_lt]
        constructor <;> linarith)
      rw [e1, e2]

/-- **C128.**  The table that is written for a map of phases: in doubles every number of the file is the one of the exact
arithmetic or a neighbour of it, and it is the same one unless the exact displacement is within `2 ^ -24` of the middle
between two whole numbers. -/
theorem C128_commands {rnd : ℝ → Fl} (h : Spec.Rounding rnd) {a : Act} {d : Dbl.Act} (hd : Spec.NearAct a d)
    (h1 : -(2 : ℝ) ^ 20 ≤ a.minAmp) (h2 : a.maxAmp ≤ 2 ^ 20) (P D E : Arr) (hP : Spec.Sized (2 ^ 300) P)
    (hD : d.itransform rnd P = .ok D) (t : Fin 11 → Fin 96 → Fl) (hE : a.itransform P = .ok E)
    (ht : E = .d2 ⟨11, 96, fun q => t q.1 q.2⟩) :
    ∃ v w : Fin 11 → Fin 96 → ℤ, a.writeLookup D = (.ok (), some (Spec.lookupText v)) ∧
      a.writeLookup E = (.ok (), some (Spec.lookupText w)) ∧
      ∀ j k, |v j k - w j k| ≤ 1 ∧
        ((∀ r, t j k = .fin r → 1 / 2 ^ 24 < |r - ((⌊r⌋ : ℝ) + 1 / 2)|) → v j k = w j k) := by
  have ha : Spec.Writable a := ⟨hd.limits, h1.trans' (by norm_num), h2.trans (by norm_num)⟩
  obtain ⟨D', hD', hz⟩ := C128_itransform h hd P E hP hE
  cases Except.ok.inj (hD'.symm.trans hD)
  generalize hS : Arr.d2 ⟨11, 96, fun q => t q.1 q.2⟩ = S at ht
  rw [ht] at hz
  cases hz with
  | d3 hz => exact nomatch hS
  | @d2 m n f g hz =>
    obtain ⟨rfl, rfl, hg⟩ : ∃ (hm : m = 11) (hn : n = 96), HEq g (fun q : Fin 11 × Fin 96 => t q.1 q.2) := by
      simp only [Arr.d2.injEq, Mat.mk.injEq] at hS
      exact ⟨hS.1.symm, hS.2.1.symm, hS.2.2.symm⟩
    cases eq_of_heq hg
    obtain ⟨v, hv, hcv⟩ := C60_file a ha le_rfl fun j k => f (j, k)
    obtain ⟨w, hw, hcw⟩ := C60_file a ha le_rfl t
    refine ⟨v, w, hv, ht ▸ hw, fun j k => ?_⟩
    have cv : Spec.Command a.minAmp a.maxAmp (f (j, k)) (v j k) := hcv j k
    have cw : Spec.Command a.minAmp a.maxAmp (t j k) (w j k) := hcw j k
    rcases hz (j, k) with ⟨n1, n2⟩ | ⟨r, s, e1, e2, b⟩
    · rw [n1] at cv
      rw [show t j k = .nan from n2] at cw
      have ev : v j k = -9223372036854775808 := cv
      have ew : w j k = -9223372036854775808 := cw
      rw [ev, ew]
      exact ⟨by norm_num, fun _ => rfl⟩
    · have e2' : t j k = .fin s := e2
      rw [e1] at cv
      rw [e2'] at cw
      have hin : a.minAmp ≤ s ∧ s ≤ a.maxAmp := by
        obtain ⟨y, hy⟩ := itransform_clamped hd.limits hE (x := .fin s) (by rw [ht]; exact ⟨(j, k), e2⟩)
        cases y with
        | nan => exact nomatch hy
        | pinf => cases hy; exact ⟨hd.limits, le_rfl⟩
        | ninf => cases hy; exact ⟨le_rfl, hd.limits⟩
        | fin y => cases hy; exact ⟨le_max_left _ _, max_le hd.limits (min_le_left _ _)⟩
      have hb := clamp_near hd.limits (by norm_num) (by norm_num) (by positivity) b
      have es : max a.minAmp (min a.maxAmp s) = s := by rw [min_eq_right hin.2, max_eq_right hin.1]
      have cw' : Spec.Nearest (max a.minAmp (min a.maxAmp s)) (w j k) := cw
      have cv' : Spec.Nearest (max a.minAmp (min a.maxAmp r)) (v j k) := cv
      rw [es] at hb cw'
      have hs : |s| ≤ 2 ^ 20 := abs_le.2 ⟨h1.trans hin.1, hin.2.trans h2⟩
      have hb' : |max a.minAmp (min a.maxAmp r) - s| ≤ 1 / 2 ^ 25 := by
        have hτ := tiny_le (show (-1063 : ℤ) ≤ -100 by norm_num)
        have : 1 / 2 ^ 48 * |s| ≤ 1 / 2 ^ 48 * 2 ^ 20 := mul_le_mul_of_nonneg_left hs (by positivity)
        refine (hb.trans (add_le_add this hτ)).trans (by norm_num)
      obtain ⟨p1, p2⟩ := nearest_pair cv' cw' hb'
      exact ⟨p1, fun hm => p2 (hm s e2')⟩

/-! ## The gravitational model -/

theorem radians_any {rnd : ℝ → Fl} (h : Spec.Rounding rnd) {α : ℝ} (hα : |α| ≤ 90) :
    ∃ x, Dbl.radians rnd (.fin α) = .fin x ∧ Spec.IsDouble x ∧ |x - α * (Real.pi / 180)| ≤ 5 / 2 ^ 53 := by
  have hp3 := Real.pi_gt_three
  have hp4 := Real.pi_lt_d2
  have hpp := Real.pi_pos
  have hε1 := tiny_le (show (-1075 : ℤ) ≤ -100 by norm_num)
  obtain ⟨p, e1, -, b1⟩ := fac_rnd h (x := Real.pi) (y := Real.pi) (A := 0) (by norm_num) (by simp)
    (by rw [abs_of_pos hpp]; norm_num; linarith) (by rw [abs_of_pos hpp]; norm_num; linarith)
  have hq : 0 < Real.pi / 180 := by positivity
  obtain ⟨k, e2, -, b2⟩ := fac_rnd h (x := p / 180) (y := Real.pi / 180) (A := 1.001 / 2 ^ 53) (by norm_num) (by
      have e : p / 180 - Real.pi / 180 = (p - Real.pi) / 180 := by ring
      rw [e, abs_div, abs_div, zero_add] at *
      rw [← mul_div_assoc]
      gcongr)
    (by rw [abs_of_pos hq]; norm_num; linarith) (by rw [abs_of_pos hq]; norm_num; linarith)
  have b3 := fac_mul (x := α) (y := α) (A := 0) (τ := 0) (by simp) b2
  have hb : |α * (Real.pi / 180)| ≤ 1.58 := by
    rw [abs_mul, abs_of_pos hq]
    have : |α| * (Real.pi / 180) ≤ 90 * (Real.pi / 180) := mul_le_mul_of_nonneg_right hα hq.le
    norm_num at hp4 this ⊢
    linarith
  obtain ⟨x, e3, dx, b4⟩ := fac_step h (x := α * k) (y := α * (Real.pi / 180)) (A := 2.002 / 2 ^ 53) (τ := 0) (by norm_num) (by norm_num)
    le_rfl (by
      refine b3.trans ?_
      rw [zero_mul, zero_mul, zero_mul, zero_add, add_zero, add_zero, add_zero]
      exact mul_le_mul_of_nonneg_right (by norm_num) (abs_nonneg _))
    (hb.trans (le_trans (by norm_num : (1.58 : ℝ) ≤ 2 ^ 1) (two_pow_le (by norm_num)))) zero_le_one
  refine ⟨x, ?_, dx, b4.trans ?_⟩
  · unfold Dbl.radians
    rw [e1, div_fin_rnd _ _ (by norm_num), e2, mul_fin_rnd, e3]
  · generalize (2 : ℝ) ^ (-1075 : ℤ) = ε at *
    generalize |α * (Real.pi / 180)| = m at *
    clear b4 b3 b2 b1
    norm_num at hε1 hb ⊢
    linarith

/-- One rounded operation on bounded numbers. -/
theorem round_bounded {rnd : ℝ → Fl} (h : Spec.Rounding rnd) {x y e B : ℝ} (hx : |x - y| ≤ e) (hy : |x| ≤ B) (hB : B ≤ 2 ^ 900) :
    ∃ z, rnd x = .fin z ∧ |z - y| ≤ e + B / 2 ^ 53 + 2 ^ (-1075 : ℤ) := by
  obtain ⟨z, e1, -, b⟩ := round_rel h (hy.trans hB)
  refine ⟨z, e1, ?_⟩
  have e' : z - y = (z - x) + (x - y) := by ring
  rw [e']
  have : |x| / 2 ^ 53 ≤ B / 2 ^ 53 := by gcongr
  have := abs_add_le (z - x) (x - y)
  linarith

/-- A coefficient times a sine or cosine. -/
theorem coeff_trig {rnd : ℝ → Fl} (h : Spec.Rounding rnd) {g s S : ℝ} (hg : |g| ≤ 2 ^ 300) (hs : |s| ≤ 1) (hS : |s - S| ≤ 9 / 2 ^ 53) :
    ∃ z, rnd (g * s) = .fin z ∧ |z - g * S| ≤ 10 / 2 ^ 53 * |g| + 2 ^ (-1075 : ℤ) := by
  have h1 : |g * s - g * S| ≤ |g| * (9 / 2 ^ 53) := by
    rw [← mul_sub, abs_mul]
    exact mul_le_mul_of_nonneg_left hS (abs_nonneg _)
  have h2 : |g * s| ≤ |g| := by
    rw [abs_mul]
    exact mul_le_of_le_one_right (abs_nonneg _) hs
  obtain ⟨z, e, b⟩ := round_bounded h h1 h2 (hg.trans (two_pow_le (by norm_num)))
  refine ⟨z, e, b.trans (le_of_eq ?_)⟩
  ring

/-- **C128.**  `grav_deformation` in doubles, for an elevation in degrees from the horizon to the zenith. -/
theorem C128_gravity {rnd : ℝ → Fl} (h : Spec.Rounding rnd) {L : Dbl.Libm} (hL : Spec.Accurate L) (g0 g1 g2 α : ℝ)
    (hg : |g0| ≤ 2 ^ 300 ∧ |g1| ≤ 2 ^ 300 ∧ |g2| ≤ 2 ^ 300) (hα : |α| ≤ 90) :
    ∃ kd k : ℝ, Dbl.gravDeformation rnd L [.fin g0, .fin g1, .fin g2] (.fin α) = .ok (.fin kd) ∧
      Act.gravDeformation [g0, g1, g2] (.quant α (Real.pi / 180)) = .ok k ∧
      |kd - k| ≤ (|g0| + |g1| + |g2|) / 2 ^ 49 + 2 ^ (-1070 : ℤ) := by
  obtain ⟨x, ex, dx, bx⟩ := radians_any h hα
  obtain ⟨s, es, -, s1, bs⟩ := hL.sin x dx
  obtain ⟨c, ec, -, c1, bc⟩ := hL.cos x dx
  have bs' : |s - Real.sin (α * (Real.pi / 180))| ≤ 9 / 2 ^ 53 := by
    have := abs_sub_le s (Real.sin x) (Real.sin (α * (Real.pi / 180)))
    have := Real.abs_sin_sub_sin_le x (α * (Real.pi / 180))
    norm_num at bs bx ⊢
    linarith
  have bc' : |c - Real.cos (α * (Real.pi / 180))| ≤ 9 / 2 ^ 53 := by
    have := abs_sub_le c (Real.cos x) (Real.cos (α * (Real.pi / 180)))
    have := Real.abs_cos_sub_cos_le x (α * (Real.pi / 180))
    norm_num at bc bx ⊢
    linarith
  obtain ⟨p, ep, bp⟩ := coeff_trig h hg.1 s1 bs'
  obtain ⟨q, eq, bq⟩ := coeff_trig h hg.2.1 c1 bc'
  have hS := Real.abs_sin_le_one (α * (Real.pi / 180))
  have hC := Real.abs_cos_le_one (α * (Real.pi / 180))
  have hk : Act.gravDeformation [g0, g1, g2] (.quant α (Real.pi / 180)) =
      .ok (g0 * Real.sin (α * (Real.pi / 180)) + g1 * Real.cos (α * (Real.pi / 180)) + g2) := rfl
  generalize Real.sin (α * (Real.pi / 180)) = S at *
  generalize Real.cos (α * (Real.pi / 180)) = C at *
  have hp : |p| ≤ 1.001 * |g0| + 2 ^ (-1075 : ℤ) := by
    have j1 : |g0 * S| ≤ |g0| := by rw [abs_mul]; exact mul_le_of_le_one_right (abs_nonneg _) hS
    have := abs_add_le (p - g0 * S) (g0 * S)
    rw [sub_add_cancel] at this
    have := abs_nonneg g0
    norm_num at bp ⊢
    linarith
  have hq : |q| ≤ 1.001 * |g1| + 2 ^ (-1075 : ℤ) := by
    have j1 : |g1 * C| ≤ |g1| := by rw [abs_mul]; exact mul_le_of_le_one_right (abs_nonneg _) hC
    have := abs_add_le (q - g1 * C) (g1 * C)
    rw [sub_add_cancel] at this
    have := abs_nonneg g1
    norm_num at bq ⊢
    linarith
  have hε0 : (0 : ℝ) < 2 ^ (-1075 : ℤ) := by positivity
  have hε1 := tiny_le (show (-1075 : ℤ) ≤ -100 by norm_num)
  have hε : (2 : ℝ) ^ (-1070 : ℤ) = 32 * 2 ^ (-1075 : ℤ) := by
    rw [show (32 : ℝ) = 2 ^ (5 : ℤ) by norm_num, ← zpow_add₀ two_ne_zero]
    norm_num
  obtain ⟨k0, k1, k2⟩ := hg
  have hbig : (2 : ℝ) ^ 900 = 2 ^ 600 * 2 ^ 300 := by rw [← pow_add]
  have hbig' : (2 : ℝ) ^ 10 ≤ 2 ^ 600 := two_pow_le (by norm_num)
  have hone : (1 : ℝ) ≤ 2 ^ 300 := one_le_pow₀ one_le_two
  have hprod : (2 : ℝ) ^ 10 * 2 ^ 300 ≤ 2 ^ 900 := by
    rw [hbig]
    exact mul_le_mul_of_nonneg_right hbig' (by positivity)
  have z0 := abs_nonneg g0
  have z1 := abs_nonneg g1
  have z2 := abs_nonneg g2
  obtain ⟨u, eu, bu⟩ := round_bounded h (x := p + q) (y := g0 * S + g1 * C)
    (e := 10 / 2 ^ 53 * (|g0| + |g1|) + 2 * 2 ^ (-1075 : ℤ)) (B := 1.001 * (|g0| + |g1|) + 2 * 2 ^ (-1075 : ℤ)) (by
      have e : p + q - (g0 * S + g1 * C) = (p - g0 * S) + (q - g1 * C) := by ring
      rw [e]
      have := abs_add_le (p - g0 * S) (q - g1 * C)
      linarith) ((abs_add_le _ _).trans (by linarith)) (by
      refine le_trans ?_ hprod
      generalize (2 : ℝ) ^ (-1075 : ℤ) = ε at *
      generalize (2 : ℝ) ^ 300 = Q at *
      clear hbig hbig' hprod bp bq hp hq
      norm_num at hε1 ⊢
      linarith)
  have hu : |u| ≤ 1.002 * (|g0| + |g1|) + 4 * 2 ^ (-1075 : ℤ) := by
    have j1 : |g0 * S| ≤ |g0| := by rw [abs_mul]; exact mul_le_of_le_one_right (abs_nonneg _) hS
    have j2 : |g1 * C| ≤ |g1| := by rw [abs_mul]; exact mul_le_of_le_one_right (abs_nonneg _) hC
    have j3 := abs_add_le (u - (g0 * S + g1 * C)) (g0 * S + g1 * C)
    rw [sub_add_cancel] at j3
    have j4 := abs_add_le (g0 * S) (g1 * C)
    generalize (2 : ℝ) ^ (-1075 : ℤ) = ε at *
    clear hbig hbig' hprod bp bq hp hq k0 k1 k2 hone
    generalize |g0| = m0 at *
    generalize |g1| = m1 at *
    norm_num at bu ⊢
    linarith
  obtain ⟨w, ew, bw⟩ := round_bounded h (x := u + g2) (y := g0 * S + g1 * C + g2) (by
      have e : u + g2 - (g0 * S + g1 * C + g2) = u - (g0 * S + g1 * C) := by ring
      exact e ▸ bu) (B := 1.002 * (|g0| + |g1|) + |g2| + 4 * 2 ^ (-1075 : ℤ)) ((abs_add_le _ _).trans (by linarith)) (by
      refine le_trans ?_ hprod
      generalize (2 : ℝ) ^ (-1075 : ℤ) = ε at *
      generalize (2 : ℝ) ^ 300 = Q at *
      clear hbig hbig' hprod bp bq hp hq bu hu
      norm_num at hε1 ⊢
      linarith)
  refine ⟨w, _, ?_, hk, bw.trans ?_⟩
  · unfold Dbl.gravDeformation
    show Except.ok _ = _
    rw [ex, es, ec, mul_fin_rnd, mul_fin_rnd, ep, eq, add_fin_rnd, eu, add_fin_rnd, ew]
  · rw [hε]
    generalize (2 : ℝ) ^ (-1075 : ℤ) = ε at *
    clear hbig hbig' hprod bp bq hp hq bu hu bw k0 k1 k2 hone
    generalize |g0| = m0 at *
    generalize |g1| = m1 at *
    generalize |g2| = m2 at *
    norm_num
    linarith

/-! ## A concrete object -/

/-- The class with its default arguments: the frequency is in GHz, and astropy's factors are the nearest doubles. -/
theorem effelsberg_near {rnd : ℝ → Fl} (h : Spec.Rounding rnd) :
    ∃ k m : ℝ, rnd (1 / 10 ^ 6) = .fin k ∧ rnd (1 / 1000) = .fin m ∧
      Spec.NearAct Spec.effelsberg
        { frequency := 34.75, nrot := 1, sign := -1, nReflections := 2, minAmp := -5000, maxAmp := 5000,
          toMm := k, toRad := m, toUm := 1000 } := by
  obtain ⟨k, e1, -, b1⟩ := fac_rnd h (x := 1 / 10 ^ 6) (y := 1 / 10 ^ 6) (A := 0) (by norm_num) (by simp) (by norm_num [abs_of_pos])
    (by norm_num [abs_of_pos])
  obtain ⟨m, e2, -, b2⟩ := fac_rnd h (x := 1 / 1000) (y := 1 / 1000) (A := 0) (by norm_num) (by simp) (by norm_num [abs_of_pos])
    (by norm_num [abs_of_pos])
  refine ⟨k, m, e1, e2, ?_⟩
  have hk := abs_le.1 b1
  rw [abs_of_pos (by norm_num)] at hk
  have he : (1000 * 34.75 / Spec.effelsberg.frequency : ℝ) = 1 / 10 ^ 6 := by norm_num [Spec.effelsberg]
  refine { nrot := rfl, sign := rfl, refl := rfl, lo := ?_, hi := ?_, limits := ?_, freq := ?_, f1 := ?_, f2 := ?_, k1 := ?_,
           k2 := ?_, mm := ?_, rad := ?_, um := ?_, n0 := ?_, n1 := ?_ }
  · norm_num [Spec.effelsberg]
  · norm_num [Spec.effelsberg]
  · norm_num [Spec.effelsberg]
  · norm_num [Spec.effelsberg]
  · norm_num
  · norm_num
  · have := hk.1
    norm_num at this ⊢
    linarith
  · have := hk.2
    norm_num at this ⊢
    linarith
  · show |k - 1000 * 34.75 / Spec.effelsberg.frequency| ≤ 1 / 2 ^ 50 * |1000 * 34.75 / Spec.effelsberg.frequency|
    rw [he]
    exact b1.trans (mul_le_mul_of_nonneg_right (by norm_num) (abs_nonneg _))
  · exact b2.trans (mul_le_mul_of_nonneg_right (by norm_num) (abs_nonneg _))
  · norm_num
  · decide
  · decide

/-- A table with displacements up to almost five millimetres comes back digit by digit. -/
example : ∃ (rnd : ℝ → Fl) (d : Dbl.Act) (D O : Arr), Spec.Rounding rnd ∧ Spec.NearAct Spec.effelsberg d ∧
    d.transform rnd (.d2 ⟨11, 96, fun q => .fin ((50 * (q.2.val : ℤ) - 400 * q.1.val : ℤ) : ℝ)⟩) = .ok D ∧
    d.itransform rnd D = .ok O ∧
    Spec.effelsberg.writeLookup O = (.ok (), some (Spec.lookupText fun (j : Fin 11) (k : Fin 96) => 50 * (k.val : ℤ) - 400 * j.val)) := by
  obtain ⟨rnd, h⟩ := rounding_exists
  obtain ⟨k, m, -, -, hd⟩ := effelsberg_near h
  obtain ⟨D, O, h1, h2, h3⟩ := C128_file h hd effelsberg_writable (fun j k => 50 * (k.val : ℤ) - 400 * j.val) (by
    intro j k
    have hz : -5000 ≤ (50 * (k.val : ℤ) - 400 * j.val) ∧ (50 * (k.val : ℤ) - 400 * j.val) ≤ 5000 := by omega
    have h1 : (-5000 : ℝ) ≤ ((50 * (k.val : ℤ) - 400 * j.val : ℤ) : ℝ) := by exact_mod_cast hz.1
    have h2 : ((50 * (k.val : ℤ) - 400 * j.val : ℤ) : ℝ) ≤ 5000 := by exact_mod_cast hz.2
    refine ⟨?_, ?_, abs_le.2 ⟨?_, ?_⟩⟩
    · show (-5000 : ℝ) ≤ _
      exact h1
    · show _ ≤ (5000 : ℝ)
      exact h2
    · exact h1.trans' (by norm_num)
    · exact h2.trans (by norm_num))
  exact ⟨rnd, _, D, O, h, hd, h1, h2, h3⟩

/-- A map of phases between -1 and 1 radian and one that is infinite: the commands are within five millimetres. -/
example : ∃ (rnd : ℝ → Fl) (d : Dbl.Act) (D : Arr), Spec.Rounding rnd ∧ Spec.NearAct Spec.effelsberg d ∧
    d.itransform rnd (.d2 ⟨1, 3, ![.fin (1 / 4), .pinf, .fin (-1)] ∘ Prod.snd⟩) = .ok D ∧
    ∀ x, Spec.Entry D x → ∃ r, x = .fin r ∧ -5000 ≤ r ∧ r ≤ 5000 := by
  obtain ⟨rnd, h⟩ := rounding_exists
  obtain ⟨k, m, -, -, hd⟩ := effelsberg_near h
  refine ⟨rnd, _, _, h, hd, rfl, fun x hx =>
    C128_stroke h hd (.d2 ⟨1, 3, ![.fin (1 / 4), .pinf, .fin (-1)] ∘ Prod.snd⟩) _ rfl ?_ x hx⟩
  rintro ⟨⟨i, j⟩, hq⟩
  fin_cases j <;> exact nomatch hq

/-- The numbers written for 96 phases at 11 elevations. -/
example : ∃ (rnd : ℝ → Fl) (d : Dbl.Act) (D E : Arr) (v w : Fin 11 → Fin 96 → ℤ), Spec.Rounding rnd ∧
    Spec.NearAct Spec.effelsberg d ∧
    d.itransform rnd (.d2 ⟨96, 11, fun q => .fin ((q.1.val : ℝ) / 96 - q.2.val / 11)⟩) = .ok D ∧
    Spec.effelsberg.itransform (.d2 ⟨96, 11, fun q => .fin ((q.1.val : ℝ) / 96 - q.2.val / 11)⟩) = .ok E ∧
    Spec.effelsberg.writeLookup D = (.ok (), some (Spec.lookupText v)) ∧
    Spec.effelsberg.writeLookup E = (.ok (), some (Spec.lookupText w)) ∧ ∀ j k, |v j k - w j k| ≤ 1 := by
  obtain ⟨rnd, h⟩ := rounding_exists
  obtain ⟨k, m, -, -, hd⟩ := effelsberg_near h
  obtain ⟨v, w, h1, h2, h3⟩ := C128_commands h hd (by norm_num [Spec.effelsberg]) (by norm_num [Spec.effelsberg])
    (.d2 ⟨96, 11, fun q => .fin ((q.1.val : ℝ) / 96 - q.2.val / 11)⟩) _ _ (by
      rintro x ⟨⟨i, j⟩, rfl⟩
      refine .inr ⟨_, rfl, le_trans ?_ (two_pow_le (show 1 ≤ 300 by norm_num))⟩
      have hi : (i.val : ℝ) ≤ 96 := by exact_mod_cast i.isLt.le
      have hj : (j.val : ℝ) ≤ 11 := by exact_mod_cast j.isLt.le
      have hi0 : (0 : ℝ) ≤ i.val := Nat.cast_nonneg _
      have hj0 : (0 : ℝ) ≤ j.val := Nat.cast_nonneg _
      show |(i.val : ℝ) / 96 - j.val / 11| ≤ 2 ^ 1
      rw [abs_le]
      constructor <;> norm_num <;> linarith) rfl
    (fun j k => Spec.effelsberg.clip (Fl.div (.fin ((k.rev.val : ℝ) / 96 - j.val / 11)) (.fin Spec.effelsberg.tfactor))) rfl (by
      rfl)
  exact ⟨rnd, _, _, _, v, w, h, hd, rfl, rfl, h1, h2, fun j k => (h3 j k).1⟩

/-- The gravitational model at an elevation of 32 degrees. -/
example : ∃ (rnd : ℝ → Fl) (L : Dbl.Libm) (kd k : ℝ), Spec.Rounding rnd ∧ Spec.Accurate L ∧
    Dbl.gravDeformation rnd L [.fin 0.5, .fin (-0.25), .fin 2] (.fin 32) = .ok (.fin kd) ∧
    Act.gravDeformation [0.5, -0.25, 2] (.quant 32 (Real.pi / 180)) = .ok k ∧ |kd - k| ≤ 1 / 2 ^ 47 := by
  obtain ⟨rnd, h⟩ := rounding_exists
  have hL := bestLibm_accurate h
  obtain ⟨kd, k, h1, h2, h3⟩ := C128_gravity h hL 0.5 (-0.25) 2 32
    ⟨le_trans (by norm_num [abs_of_pos]) (two_pow_le (show 2 ≤ 300 by norm_num)),
      le_trans (by norm_num [abs_of_pos]) (two_pow_le (show 2 ≤ 300 by norm_num)),
      le_trans (by norm_num [abs_of_pos]) (two_pow_le (show 2 ≤ 300 by norm_num))⟩ (by norm_num [abs_of_pos])
  refine ⟨rnd, _, kd, k, h, hL, h1, h2, h3.trans ?_⟩
  have hτ := tiny_le (show (-1070 : ℤ) ≤ -100 by norm_num)
  generalize (2 : ℝ) ^ (-1070 : ℤ) = τ at *
  norm_num [abs_of_pos] at hτ ⊢
  linarith

end Verif.Props
