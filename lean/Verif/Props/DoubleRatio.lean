import Verif.Model.DoubleRatio
import Verif.Props.DoublePolar
import Verif.Props.Latex

/-!
# The size of the figures in the arithmetic of doubles (C152)
-/

namespace Verif.Props

open Verif Verif.Np Verif.AuxFn

variable {m n : ℕ} {rnd : ℝ → Fl}

theorem uvRatioD_eq (rnd : ℝ → Fl) {u : Fin m → ℝ} {v : Fin n → ℝ} {u0 u1 v0 v1 : ℝ} (hu : Spec.Range u u0 u1)
    (hv : Spec.Range v v0 v1) :
    Dbl.uvRatio rnd u v =
      .ok (Dbl.mul rnd (Dbl.mul rnd (Dbl.div rnd (rnd (u1 - u0)) (rnd (v1 - v0))) (.fin 2.25)) (.fin 5), 5) := by
  have hm : 0 < m := by obtain ⟨⟨i, -⟩, -⟩ := hu; exact i.pos
  have hn : 0 < n := by obtain ⟨⟨i, -⟩, -⟩ := hv; exact i.pos
  obtain ⟨a, b, e1, e2, h1⟩ := range_spec hm u
  obtain ⟨c, d, e3, e4, h2⟩ := range_spec hn v
  obtain ⟨rfl, rfl⟩ := range_unique h1 hu
  obtain ⟨rfl, rfl⟩ := range_unique h2 hv
  unfold Dbl.uvRatio
  simp only [e1, e2, e3, e4, bind, Except.bind, pure, Except.pure, sub_fin_rnd]

/-- The rounded extent of an axis is zero only if the axis has one value. -/
theorem extent_pos (h : Spec.Rounding rnd) {a b z : ℝ} (ha : Spec.IsDouble a) (hb : Spec.IsDouble b) (hab : a < b)
    (hr : b - a < 2 ^ 1024 - 2 ^ 970) (hz : rnd (b - a) = .fin z) : 0 < z := by
  have h0 : 0 < b - a := sub_pos.2 hab
  obtain ⟨z', h1, -, h3⟩ := sub_spec h hb ha (by rwa [abs_of_pos h0])
  rw [hz] at h1
  cases h1
  rw [abs_of_pos h0] at h3
  generalize b - a = e at *
  have := (abs_le.1 h3).1
  norm_num at this
  linarith

theorem isDouble_quarters {k : ℕ} (hk : k < 2 ^ 53) : Spec.IsDouble ((k : ℝ) / 4) :=
  ⟨k, -2, by simpa using hk, by norm_num, by norm_num, by
    rw [show ((2 : ℝ) ^ (-2 : ℤ)) = 1 / 4 by norm_num]
    push_cast
    ring⟩

/-- **C152** two axes of the same extent give the width 11.25 without an error, wherever they lie. -/
theorem C152_square (h : Spec.Rounding rnd) (u : Fin m → ℝ) (v : Fin n → ℝ) (u0 u1 v0 v1 : ℝ) (hu : Spec.Range u u0 u1)
    (hv : Spec.Range v v0 v1) (d0 : Spec.IsDouble v0) (d1 : Spec.IsDouble v1) (hlt : v0 < v1)
    (hr : v1 - v0 < 2 ^ 1024 - 2 ^ 970) (hsame : u1 - u0 = v1 - v0) :
    Dbl.uvRatio rnd u v = .ok (.fin 11.25, 5) := by
  rw [uvRatioD_eq rnd hu hv, hsame]
  obtain ⟨z, h1, -, -⟩ := sub_spec h d1 d0 (by rwa [abs_of_pos (sub_pos.2 hlt)])
  have hz := extent_pos h d0 d1 hlt hr h1
  have q : ∀ k : ℕ, k < 2 ^ 53 → rnd ((k : ℝ) / 4) = .fin ((k : ℝ) / 4) := fun k hk => round_self h (isDouble_quarters hk)
  have q1 : rnd 1 = .fin 1 := by
    have := q 4 (by norm_num)
    norm_num at this
    exact this
  have q2 : rnd (1 * 2.25) = .fin 2.25 := by
    have := q 9 (by norm_num)
    norm_num at this ⊢
    exact this
  have q3 : rnd (2.25 * 5) = .fin 11.25 := by
    have := q 45 (by norm_num)
    norm_num at this ⊢
    exact this
  rw [h1, div_fin_rnd _ _ hz.ne', div_self hz.ne', q1, mul_fin_rnd, q2, mul_fin_rnd, q3]

/-- **C152** an axis `v` with one value only: no finite width; an axis `u` with one value only: the width zero. -/
theorem C152_single (h : Spec.Rounding rnd) (u : Fin m → ℝ) (v : Fin n → ℝ) (u0 u1 v0 v1 : ℝ) (hu : Spec.Range u u0 u1)
    (hv : Spec.Range v v0 v1) :
    (v0 = v1 → ∃ w, Dbl.uvRatio rnd u v = .ok (w, 5) ∧ ∀ r, w ≠ .fin r) ∧
    (u0 = u1 → Spec.IsDouble v0 → Spec.IsDouble v1 → v0 < v1 → v1 - v0 < 2 ^ 1024 - 2 ^ 970 →
      Dbl.uvRatio rnd u v = .ok (.fin 0, 5)) := by
  constructor
  · rintro rfl
    refine ⟨_, uvRatioD_eq rnd hu hv, ?_⟩
    rw [sub_self, rnd_zero h]
    have hd : ∀ f : Fl, ∀ q, Dbl.div rnd f (.fin 0) ≠ .fin q := by
      intro f q
      cases f <;> simp [Dbl.div, Fl.div, Dbl.rop, Fl.infSign]
      split_ifs <;> simp
    have hm : ∀ f g : Fl, (∀ q, f ≠ .fin q) → ∀ q, Dbl.mul rnd f g ≠ .fin q := by
      intro f g hf q
      cases f <;> cases g <;> simp_all [Dbl.mul, Fl.mul, Dbl.rop, Fl.infSign]
      all_goals (split_ifs <;> simp [Fl.neg])
    exact hm _ _ (hm _ _ (hd _))
  · rintro rfl d0 d1 hlt hr
    obtain ⟨z, h1, -, -⟩ := sub_spec h d1 d0 (by rwa [abs_of_pos (sub_pos.2 hlt)])
    have hz := extent_pos h d0 d1 hlt hr h1
    rw [uvRatioD_eq rnd hu hv, sub_self, rnd_zero h, h1, div_fin_rnd _ _ hz.ne', zero_div, rnd_zero h, mul_fin_rnd,
      zero_mul, rnd_zero h, mul_fin_rnd, zero_mul, rnd_zero h]

/-- A factor near one. -/
theorem pos_factor {z y : ℝ} (hy : 0 < y) (h : |z - y| ≤ y / 2 ^ 53) : ∃ a, |a| ≤ 1 / 2 ^ 53 ∧ z = y * (1 + a) :=
  factor_of_near (by positivity) (by rw [abs_of_pos hy]; exact h.trans_eq (div_eq_mul_one_div _ _))

/-- **C152** the width in doubles differs from 11.25 times the ratio of the extents by at most 5.01 units of rounding. -/
theorem C152_near (h : Spec.Rounding rnd) (u : Fin m → ℝ) (v : Fin n → ℝ) (u0 u1 v0 v1 : ℝ) (hu : Spec.Range u u0 u1)
    (hv : Spec.Range v v0 v1) (c0 : Spec.IsDouble u0) (c1 : Spec.IsDouble u1) (d0 : Spec.IsDouble v0)
    (d1 : Spec.IsDouble v1) (hu1 : 1 / 2 ^ 100 ≤ u1 - u0) (hu2 : u1 - u0 ≤ 2 ^ 100) (hv1 : 1 / 2 ^ 100 ≤ v1 - v0)
    (hv2 : v1 - v0 ≤ 2 ^ 100) :
    ∃ w, Dbl.uvRatio rnd u v = .ok (.fin w, 5) ∧
      |w - 11.25 * (u1 - u0) / (v1 - v0)| ≤ 11.25 * (u1 - u0) / (v1 - v0) * (5.01 / 2 ^ 53) := by
  rw [uvRatioD_eq rnd hu hv]
  have hu0 : 0 < u1 - u0 := lt_of_lt_of_le (by positivity) hu1
  have hv0 : 0 < v1 - v0 := lt_of_lt_of_le (by positivity) hv1
  have big : (2 : ℝ) ^ 100 < 2 ^ 1024 - 2 ^ 970 := two_pow_lt_top (by norm_num)
  obtain ⟨A, hA, -, eA⟩ := sub_spec h c1 c0 (by rw [abs_of_pos hu0]; exact hu2.trans_lt big)
  obtain ⟨B, hB, -, eB⟩ := sub_spec h d1 d0 (by rw [abs_of_pos hv0]; exact hv2.trans_lt big)
  rw [abs_of_pos hu0] at eA
  rw [abs_of_pos hv0] at eB
  obtain ⟨a, ha, eA⟩ := pos_factor hu0 eA
  obtain ⟨b, hb, eB⟩ := pos_factor hv0 eB
  rw [hA, hB]
  clear hA hB big
  generalize u1 - u0 = p at *
  generalize v1 - v0 = s at *
  obtain ⟨a1, a2⟩ := abs_le.1 ha
  obtain ⟨b1, b2⟩ := abs_le.1 hb
  have small : (1 : ℝ) / 2 ^ 53 ≤ 1 / 1000000 := by norm_num
  have hB0 : 0 < B := by rw [eB]; exact mul_pos hv0 (by linarith)
  have hR : 0 < p / s := div_pos hu0 hv0
  have hR1 : 1 / 2 ^ 200 ≤ p / s := by
    rw [le_div_iff₀ hv0]
    calc 1 / 2 ^ 200 * s ≤ 1 / 2 ^ 200 * 2 ^ 100 := mul_le_mul_of_nonneg_left hv2 (by positivity)
      _ = 1 / 2 ^ 100 := by norm_num
      _ ≤ p := hu1
  have hR2 : p / s ≤ 2 ^ 200 := by
    rw [div_le_iff₀ hv0]
    calc p ≤ 2 ^ 100 := hu2
      _ = 2 ^ 200 * (1 / 2 ^ 100) := by norm_num
      _ ≤ 2 ^ 200 * s := mul_le_mul_of_nonneg_left hv1 (by positivity)
  obtain ⟨f, hf, ef⟩ : ∃ f, |f| ≤ 2.001 / 2 ^ 53 ∧ A / B = p / s * (1 + f) := by
    have hb0 : 0 < 1 + b := by linarith
    refine ⟨(1 + a) / (1 + b) - 1, ?_, by rw [eA, eB]; field_simp; ring⟩
    have e : (1 + a) / (1 + b) - 1 = (a - b) / (1 + b) := by field_simp; ring
    rw [e, abs_div, abs_of_pos hb0, div_le_iff₀ hb0]
    refine (abs_sub _ _).trans ((add_le_add ha hb).trans ?_)
    norm_num at b1 ⊢
    linarith
  rw [mul_div_assoc, div_fin_rnd _ _ hB0.ne', ef]
  generalize p / s = R at *
  obtain ⟨f1, f2⟩ := abs_le.1 hf
  have near : ∀ c : ℝ, |c| ≤ 10 / 2 ^ 53 → ∀ k : ℝ, 1 ≤ k → k ≤ 12 → 1 / 2 ^ 250 ≤ k * R * (1 + c) ∧ k * R * (1 + c) ≤ 2 ^ 250 := by
    intro c hc k k1 k2
    obtain ⟨c1, c2⟩ := abs_le.1 hc
    have hc1 : (1 : ℝ) / 2 ≤ 1 + c := by norm_num at c1 ⊢; linarith
    have hc2 : 1 + c ≤ 2 := by norm_num at c2 ⊢; linarith
    have hk0 : 0 ≤ k := by linarith
    constructor
    · calc (1 : ℝ) / 2 ^ 250 ≤ 1 * (1 / 2 ^ 200) * (1 / 2) := by norm_num
        _ ≤ k * R * (1 + c) := mul_le_mul (mul_le_mul k1 hR1 (by positivity) hk0) hc1 (by positivity) (by positivity)
    · calc k * R * (1 + c) ≤ 12 * 2 ^ 200 * 2 :=
            mul_le_mul (mul_le_mul k2 hR2 hR.le (by positivity)) hc2 (by linarith) (by positivity)
        _ ≤ 2 ^ 250 := by norm_num
  have step : ∀ c : ℝ, ∀ C : ℝ, C ≤ 9 → |c| ≤ C / 2 ^ 53 → ∀ k : ℝ, 1 ≤ k → k ≤ 12 →
      ∃ c', |c'| ≤ (C + 1.002) / 2 ^ 53 ∧ rnd (k * R * (1 + c)) = .fin (k * R * (1 + c')) := by
    intro c C hC hc k k1 k2
    obtain ⟨n1, n2⟩ := near c (hc.trans (by gcongr; linarith)) k k1 k2
    have hpos : 0 < k * R * (1 + c) := lt_of_lt_of_le (by positivity) n1
    obtain ⟨z, hz, -, hze⟩ := round_pos h n1 n2
    obtain ⟨g, hg, eg⟩ := pos_factor hpos hze
    refine ⟨c + g + c * g, ?_, by rw [hz, eg]; congr 1; ring⟩
    have hcg : |c * g| ≤ 9 / 2 ^ 53 * (1 / 2 ^ 53) := by
      rw [abs_mul]
      exact mul_le_mul (hc.trans (by gcongr)) hg (abs_nonneg _) (by positivity)
    refine (abs_add_le _ _).trans ((add_le_add ((abs_add_le _ _).trans (add_le_add hc hg)) hcg).trans ?_)
    rw [add_div, add_assoc]
    gcongr
    norm_num
  obtain ⟨g1, hg1, e1⟩ := step f 2.001 (by norm_num) hf 1 le_rfl (by norm_num)
  obtain ⟨g2, hg2, e2⟩ := step g1 _ (by norm_num) hg1 2.25 (by norm_num) (by norm_num)
  obtain ⟨g3, hg3, e3⟩ := step g2 _ (by norm_num) hg2 11.25 (by norm_num) (by norm_num)
  rw [one_mul] at e1
  refine ⟨11.25 * R * (1 + g3), ?_, ?_⟩
  · rw [e1, mul_fin_rnd, show R * (1 + g1) * 2.25 = 2.25 * R * (1 + g1) by ring, e2, mul_fin_rnd,
      show 2.25 * R * (1 + g2) * 5 = 11.25 * R * (1 + g2) by ring, e3]
  · rw [show 11.25 * R * (1 + g3) - 11.25 * R = 11.25 * R * g3 by ring, abs_mul, abs_of_pos (by positivity)]
    refine mul_le_mul_of_nonneg_left (hg3.trans ?_) (by positivity)
    norm_num

/-- A rounding within a factor of two. -/
theorem round_double (h : Spec.Rounding rnd) {y : ℝ} {k : ℕ} (hk : k ≤ 248) (h1 : 1 / 2 ^ k ≤ y) (h2 : y ≤ 2 ^ k) :
    ∃ z, rnd y = .fin z ∧ 1 / 2 ^ (k + 1) ≤ z ∧ z ≤ 2 ^ (k + 1) ∧ |y| < 2 ^ 1024 - 2 ^ 970 := by
  have hy : 0 < y := lt_of_lt_of_le (by positivity) h1
  have hk2 : (2 : ℝ) ^ k ≤ 2 ^ 250 := two_pow_le (by omega)
  obtain ⟨z, hz, -, hze⟩ := round_pos h ((one_div_le_one_div_of_le (by positivity) hk2).trans h1) (h2.trans hk2)
  obtain ⟨z1, z2⟩ := abs_le.1 hze
  have e1 : (2 : ℝ) ^ (k + 1) = 2 ^ k * 2 := pow_succ _ _
  have e2 : (1 : ℝ) / 2 ^ (k + 1) = 1 / 2 ^ k / 2 := by rw [e1, div_div]
  refine ⟨z, hz, ?_, ?_, ?_⟩
  · rw [e2]
    generalize (1 : ℝ) / 2 ^ k = t at *
    norm_num at z1
    linarith
  · rw [e1]
    generalize (2 : ℝ) ^ k = t at *
    norm_num at z2
    linarith
  · rw [abs_of_pos hy]
    exact h2.trans_lt (two_pow_lt_top (by omega))

theorem uv_steps (h : Spec.Rounding rnd) {p s : ℝ} (hp1 : 1 / 2 ^ 100 ≤ p) (hp2 : p ≤ 2 ^ 100) (hs1 : 1 / 2 ^ 100 ≤ s)
    (hs2 : s ≤ 2 ^ 100) :
    ∃ A B Q S w, rnd p = .fin A ∧ rnd s = .fin B ∧ 0 < A ∧ 0 < B ∧ rnd (A / B) = .fin Q ∧ rnd (Q * 2.25) = .fin S ∧
      rnd (S * 5) = .fin w ∧ |p| < 2 ^ 1024 - 2 ^ 970 ∧ |s| < 2 ^ 1024 - 2 ^ 970 ∧ |A / B| < 2 ^ 1024 - 2 ^ 970 ∧
      |Q * 2.25| < 2 ^ 1024 - 2 ^ 970 ∧ |S * 5| < 2 ^ 1024 - 2 ^ 970 := by
  obtain ⟨A, hA, A1, A2, rA⟩ := round_double h (by norm_num) hp1 hp2
  obtain ⟨B, hB, B1, B2, rB⟩ := round_double h (by norm_num) hs1 hs2
  have hA0 : 0 < A := lt_of_lt_of_le (by positivity) A1
  have hB0 : 0 < B := lt_of_lt_of_le (by positivity) B1
  obtain ⟨Q, hQ, Q1, Q2, rQ⟩ := round_double h (k := 202) (y := A / B) (by norm_num)
    (by
      rw [le_div_iff₀ hB0]
      calc 1 / 2 ^ 202 * B ≤ 1 / 2 ^ 202 * 2 ^ (100 + 1) := mul_le_mul_of_nonneg_left B2 (by positivity)
        _ = 1 / 2 ^ (100 + 1) := by norm_num
        _ ≤ A := A1)
    (by
      rw [div_le_iff₀ hB0]
      calc A ≤ 2 ^ (100 + 1) := A2
        _ = 2 ^ 202 * (1 / 2 ^ (100 + 1)) := by norm_num
        _ ≤ 2 ^ 202 * B := mul_le_mul_of_nonneg_left B1 (by positivity))
  obtain ⟨S, hS, S1, S2, rS⟩ := round_double h (k := 206) (y := Q * 2.25) (by norm_num)
    (by
      calc (1 : ℝ) / 2 ^ 206 ≤ 1 / 2 ^ (202 + 1) * 2.25 := by norm_num
        _ ≤ Q * 2.25 := mul_le_mul_of_nonneg_right Q1 (by norm_num))
    (by
      calc Q * 2.25 ≤ 2 ^ (202 + 1) * 2.25 := mul_le_mul_of_nonneg_right Q2 (by norm_num)
        _ ≤ 2 ^ 206 := by norm_num)
  obtain ⟨w, hw, -, -, rw'⟩ := round_double h (k := 211) (y := S * 5) (by norm_num)
    (by
      calc (1 : ℝ) / 2 ^ 211 ≤ 1 / 2 ^ (206 + 1) * 5 := by norm_num
        _ ≤ S * 5 := mul_le_mul_of_nonneg_right S1 (by norm_num))
    (by
      calc S * 5 ≤ 2 ^ (206 + 1) * 5 := mul_le_mul_of_nonneg_right S2 (by norm_num)
        _ ≤ 2 ^ 211 := by norm_num)
  exact ⟨A, B, Q, S, w, hA, hB, hA0, hB0, hQ, hS, hw, rA, rB, rQ, rS, rw'⟩

/-- **C152** a wider axis `u`, or a narrower axis `v`, never gives a narrower figure. -/
theorem C152_mono (h : Spec.Rounding rnd) {m' n' : ℕ} (u : Fin m → ℝ) (v : Fin n → ℝ) (u' : Fin m' → ℝ) (v' : Fin n' → ℝ)
    (u0 u1 v0 v1 u0' u1' v0' v1' : ℝ) (hu : Spec.Range u u0 u1) (hv : Spec.Range v v0 v1) (hu' : Spec.Range u' u0' u1')
    (hv' : Spec.Range v' v0' v1')
    (hu1 : 1 / 2 ^ 100 ≤ u1 - u0) (hu2 : u1' - u0' ≤ 2 ^ 100) (hv1 : 1 / 2 ^ 100 ≤ v1' - v0')
    (hv2 : v1 - v0 ≤ 2 ^ 100) (huu : u1 - u0 ≤ u1' - u0') (hvv : v1' - v0' ≤ v1 - v0) :
    ∃ w w', Dbl.uvRatio rnd u v = .ok (.fin w, 5) ∧ Dbl.uvRatio rnd u' v' = .ok (.fin w', 5) ∧ w ≤ w' := by
  rw [uvRatioD_eq rnd hu hv, uvRatioD_eq rnd hu' hv']
  obtain ⟨A, B, Q, S, w, a1, a2, a3, a4, a5, a6, a7, a8, a9, a10, a11, a12⟩ :=
    uv_steps h hu1 (huu.trans hu2) (hv1.trans hvv) hv2
  obtain ⟨A', B', Q', S', w', b1, b2, b3, b4, b5, b6, b7, b8, b9, b10, b11, b12⟩ :=
    uv_steps h (hu1.trans huu) hu2 hv1 (hvv.trans hv2)
  refine ⟨w, w', ?_, ?_, ?_⟩
  · rw [a1, a2, div_fin_rnd _ _ a4.ne', a5, mul_fin_rnd, a6, mul_fin_rnd, a7]
  · rw [b1, b2, div_fin_rnd _ _ b4.ne', b5, mul_fin_rnd, b6, mul_fin_rnd, b7]
  · have i1 : A ≤ A' := round_mono h huu a8 b8 a1 b1
    have i2 : B' ≤ B := round_mono h hvv b9 a9 b2 a2
    have i3 : A / B ≤ A' / B' := div_le_div₀ b3.le i1 b4 i2
    have i4 : Q ≤ Q' := round_mono h i3 a10 b10 a5 b5
    have i5 : S ≤ S' := round_mono h (mul_le_mul_of_nonneg_right i4 (by norm_num)) a11 b11 a6 b6
    exact round_mono h (mul_le_mul_of_nonneg_right i5 (by norm_num)) a12 b12 a7 b7

/-! ## Cases -/

/-- An axis of three values. -/
theorem ratio_axis (k : ℕ) : Spec.Range (fun i : Fin 3 => (i : ℝ) * k) 0 (2 * k) :=
  ⟨⟨0, by simp⟩, ⟨2, by norm_num⟩, fun i => ⟨by positivity, by
    have : ((i : ℕ) : ℝ) ≤ 2 := by exact_mod_cast Nat.le_of_lt_succ i.isLt
    exact mul_le_mul_of_nonneg_right this (by positivity)⟩⟩

example (h : Spec.Rounding rnd) : ∃ w, Dbl.uvRatio rnd (fun i : Fin 3 => (i : ℝ) * 3) (fun i : Fin 3 => (i : ℝ) * 7) = .ok (.fin w, 5) ∧
    |w - 11.25 * (6 - 0) / (14 - 0)| ≤ 11.25 * (6 - 0) / (14 - 0) * (5.01 / 2 ^ 53) := by
  have r1 := ratio_axis 3
  have r2 := ratio_axis 7
  norm_num at r1 r2
  exact C152_near h _ _ 0 6 0 14 r1 r2 isDouble_zero ⟨6, 0, by norm_num, by norm_num, by norm_num, by norm_num⟩ isDouble_zero
    ⟨14, 0, by norm_num, by norm_num, by norm_num, by norm_num⟩ (by norm_num) (by norm_num) (by norm_num) (by norm_num)

example (h : Spec.Rounding rnd) : Dbl.uvRatio rnd (fun i : Fin 3 => (i : ℝ) * 7) (fun i : Fin 3 => (i : ℝ) * 7) = .ok (.fin 11.25, 5) := by
  have r2 := ratio_axis 7
  norm_num at r2
  exact C152_square h _ _ 0 14 0 14 r2 r2 isDouble_zero ⟨14, 0, by norm_num, by norm_num, by norm_num, by norm_num⟩
    (by norm_num) (lt_of_le_of_lt (by norm_num : (14 : ℝ) - 0 ≤ 2 ^ 4) (two_pow_lt_top (by norm_num))) rfl

example (h : Spec.Rounding rnd) : ∃ w w', Dbl.uvRatio rnd (fun i : Fin 3 => (i : ℝ) * 3) (fun i : Fin 3 => (i : ℝ) * 7) = .ok (.fin w, 5) ∧
    Dbl.uvRatio rnd (fun i : Fin 3 => (i : ℝ) * 7) (fun i : Fin 3 => (i : ℝ) * 3) = .ok (.fin w', 5) ∧ w ≤ w' := by
  have r1 := ratio_axis 3
  have r2 := ratio_axis 7
  norm_num at r1 r2
  exact C152_mono h _ _ _ _ 0 6 0 14 0 14 0 6 r1 r2 r2 r1 (by norm_num) (by norm_num) (by norm_num) (by norm_num)
    (by norm_num) (by norm_num)

example (h : Spec.Rounding rnd) : ∃ w, Dbl.uvRatio rnd (fun i : Fin 3 => (i : ℝ) * 3) (fun i : Fin 3 => (i : ℝ) * 0) = .ok (w, 5) ∧
    ∀ r, w ≠ .fin r := by
  have r1 := ratio_axis 3
  have r2 := ratio_axis 0
  norm_num at r1 r2
  simpa using (C152_single h _ _ 0 6 0 0 r1 r2).1 rfl

end Verif.Props
