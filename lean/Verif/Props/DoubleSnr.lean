import Verif.Model.DoubleSnr
import Verif.Props.DoubleRmsMap
import Verif.Props.Rms

/-!
# The signal-to-noise ratio in the arithmetic of doubles (C147)
-/

namespace Verif.Props

open Verif Verif.Np Verif.MathFn Finset

/-- The sum in any order, of numbers of any sign. -/
theorem eval_signed {rnd : ℝ → Fl} (h : Spec.Rounding rnd) {k : ℕ} {s : Fin k → ℝ} (hs : ∀ i, Spec.IsDouble (s i))
    (t : Dbl.Adds k) (hd : Spec.depth t ≤ 2 ^ 40) (hS : ((Spec.terms t).map fun i => |s i|).sum ≤ 2 ^ 890) :
    ∃ c, t.eval rnd (fun i => .fin (s i)) = .fin c ∧ Spec.IsDouble c ∧
      |c - ((Spec.terms t).map s).sum| ≤ ((1 + 1 / 2 ^ 53) ^ Spec.depth t - 1) * ((Spec.terms t).map fun i => |s i|).sum ∧
      |((Spec.terms t).map s).sum| ≤ ((Spec.terms t).map fun i => |s i|).sum := by
  have hnn : ∀ t : Dbl.Adds k, 0 ≤ ((Spec.terms t).map fun i => |s i|).sum := fun t =>
    List.sum_nonneg (by simp only [List.mem_map]; rintro _ ⟨i, -, rfl⟩; exact abs_nonneg _)
  induction t with
  | zero => exact ⟨0, rfl, isDouble_zero, by simp [Spec.terms], by simp [Spec.terms]⟩
  | item i => exact ⟨s i, rfl, hs i, by simp [Spec.terms, Spec.depth], by simp [Spec.terms]⟩
  | both a b iha ihb =>
    have hd1 : Spec.depth a + 1 ≤ Spec.depth (.both a b) := Nat.add_le_add_right (le_max_left _ _) 1
    have hd2 : Spec.depth b + 1 ≤ Spec.depth (.both a b) := Nat.add_le_add_right (le_max_right _ _) 1
    have hsum : ((Spec.terms (.both a b)).map s).sum = ((Spec.terms a).map s).sum + ((Spec.terms b).map s).sum := by
      simp [Spec.terms]
    have hsum' : ((Spec.terms (.both a b)).map fun i => |s i|).sum =
        ((Spec.terms a).map fun i => |s i|).sum + ((Spec.terms b).map fun i => |s i|).sum := by
      simp [Spec.terms]
    have ha0 := hnn a
    have hb0 := hnn b
    rw [hsum'] at hS
    rw [hsum, hsum']
    obtain ⟨x, hx, hxd, hx1, hx2⟩ := iha (by omega) (by linarith)
    obtain ⟨y, hy, hyd, hy1, hy2⟩ := ihb (by omega) (by linarith)
    obtain ⟨D, hDe⟩ : ∃ D, Spec.depth (.both a b) = D + 1 := ⟨max (Spec.depth a) (Spec.depth b), rfl⟩
    rw [hDe] at hd1 hd2 hd ⊢
    generalize ((Spec.terms a).map s).sum = A at *
    generalize ((Spec.terms b).map s).sum = B at *
    generalize ((Spec.terms a).map fun i => |s i|).sum = A' at *
    generalize ((Spec.terms b).map fun i => |s i|).sum = B' at *
    have hup : ∀ d ≤ D, (1 + 1 / 2 ^ 53 : ℝ) ^ d ≤ (1 + 1 / 2 ^ 53) ^ D := fun d hd =>
      pow_le_pow_right₀ (by norm_num) hd
    have hx1' : |x - A| ≤ ((1 + 1 / 2 ^ 53) ^ D - 1) * A' :=
      hx1.trans (mul_le_mul_of_nonneg_right (sub_le_sub_right (hup _ (by omega)) 1) ha0)
    have hy1' : |y - B| ≤ ((1 + 1 / 2 ^ 53) ^ D - 1) * B' :=
      hy1.trans (mul_le_mul_of_nonneg_right (sub_le_sub_right (hup _ (by omega)) 1) hb0)
    have hp2 : (1 + 1 / 2 ^ 53 : ℝ) ^ D ≤ 2 := by
      refine (ulp_pow (d := D) (by omega)).1.trans ?_
      have : (D : ℝ) ≤ 1099511627776 := by exact_mod_cast (show D ≤ 1099511627776 by omega)
      generalize (D : ℝ) = D' at *
      norm_num only
      linarith
    rw [pow_succ]
    generalize (1 + 1 / 2 ^ 53 : ℝ) ^ D = p at *
    have hxy : |x + y| ≤ p * (A' + B') := by
      have e : x + y = (x - A) + (y - B) + (A + B) := by ring
      have := abs_add_le A B
      have h3 := abs_add_le ((x - A) + (y - B)) (A + B)
      have h4 := abs_add_le (x - A) (y - B)
      rw [e]
      linarith
    have hbig : |x + y| ≤ 2 ^ 900 := by
      have h1 : p * (A' + B') ≤ 2 * (A' + B') := mul_le_mul_of_nonneg_right hp2 (by linarith)
      have h2 : (2 : ℝ) * 2 ^ 890 ≤ 2 ^ 900 := by
        rw [← pow_succ']
        exact two_pow_le (by norm_num)
      generalize (2 : ℝ) ^ 900 = u at *
      generalize (2 : ℝ) ^ 890 = v at *
      linarith
    obtain ⟨z, hz, hzd, hze⟩ := add_rel h hxd hyd hbig
    refine ⟨z, ?_, hzd, ?_, (abs_add_le A B).trans (add_le_add hx2 hy2)⟩
    · rw [Dbl.Adds.eval, hx, hy, hz]
    · have e : z - (A + B) = (z - (x + y)) + ((x - A) + (y - B)) := by ring
      have h3 := abs_add_le (z - (x + y)) ((x - A) + (y - B))
      have h4 := abs_add_le (x - A) (y - B)
      have h5 : |x + y| / 2 ^ 53 ≤ p * (A' + B') / 2 ^ 53 := by gcongr
      rw [e]
      have h6 : (p * (1 + 1 / 2 ^ 53) - 1) * (A' + B') = p * (A' + B') / 2 ^ 53 + (p - 1) * A' + (p - 1) * B' := by ring
      rw [h6]
      linarith

/-- Root mean squares of numbers that differ in proportion. -/
theorem rootMean_rel {k : ℕ} {w y : Fin k → ℝ} {e c : ℝ} (he : 0 ≤ e) (he1 : e ≤ 1) (hc : 0 < c)
    (hw : ∀ i, |w i - y i| ≤ e * |y i|) :
    |Real.sqrt ((∑ i, w i ^ 2) / c) - Real.sqrt ((∑ i, y i ^ 2) / c)| ≤ e * Real.sqrt ((∑ i, y i ^ 2) / c) := by
  have hY : 0 ≤ (∑ i, y i ^ 2) / c := div_nonneg (Finset.sum_nonneg fun i _ => sq_nonneg _) hc.le
  have up : Real.sqrt ((∑ i, w i ^ 2) / c) ≤ (1 + e) * Real.sqrt ((∑ i, y i ^ 2) / c) := by
    rw [Real.sqrt_le_left (by positivity), mul_pow, Real.sq_sqrt hY, ← mul_div_assoc, Finset.mul_sum]
    refine div_le_div_of_nonneg_right (Finset.sum_le_sum fun i _ => ?_) hc.le
    have h1 : |w i| ≤ (1 + e) * |y i| := by
      have := abs_add_le (w i - y i) (y i)
      rw [sub_add_cancel] at this
      linarith [hw i]
    rw [← sq_abs (w i), ← sq_abs (y i), ← mul_pow]
    exact pow_le_pow_left₀ (abs_nonneg _) h1 2
  have lo : (1 - e) * Real.sqrt ((∑ i, y i ^ 2) / c) ≤ Real.sqrt ((∑ i, w i ^ 2) / c) := by
    refine Real.le_sqrt_of_sq_le ?_
    rw [mul_pow, Real.sq_sqrt hY, ← mul_div_assoc, Finset.mul_sum]
    refine div_le_div_of_nonneg_right (Finset.sum_le_sum fun i _ => ?_) hc.le
    have h1 : (1 - e) * |y i| ≤ |w i| := by
      have := abs_add_le (y i - w i) (w i)
      rw [sub_add_cancel, abs_sub_comm] at this
      linarith [hw i]
    rw [← sq_abs (w i), ← sq_abs (y i), ← mul_pow]
    exact pow_le_pow_left₀ (mul_nonneg (by linarith) (abs_nonneg _)) h1 2
  rw [abs_le]
  constructor <;> linarith

/-- The root mean square about another point than the mean. -/
theorem rootMean_shift {k : ℕ} (s : Fin k → ℝ) (mu m sigma : ℝ) (hk : 0 < k) (hmu : mu * k = ∑ i, s i) (h0 : 0 ≤ sigma)
    (hsig : sigma ^ 2 * k = ∑ i, (s i - mu) ^ 2) :
    sigma ≤ Real.sqrt ((∑ i, (s i - m) ^ 2) / k) ∧ Real.sqrt ((∑ i, (s i - m) ^ 2) / k) ≤ sigma + |m - mu| := by
  have hk' : (0 : ℝ) < k := by exact_mod_cast hk
  have e : ∑ i, (s i - m) ^ 2 = (sigma ^ 2 + (m - mu) ^ 2) * k := by
    have e1 : ∀ i, (s i - m) ^ 2 = (s i - mu) ^ 2 + (2 * (mu - m) * s i + (m ^ 2 - mu ^ 2)) := fun i => by ring
    rw [Finset.sum_congr rfl fun i _ => e1 i, Finset.sum_add_distrib, Finset.sum_add_distrib, ← Finset.mul_sum, ← hmu, ← hsig,
      Finset.sum_const, Finset.card_univ, Fintype.card_fin, nsmul_eq_mul]
    ring
  rw [e, mul_div_cancel_right₀ _ hk'.ne']
  constructor
  · exact Real.le_sqrt_of_sq_le (by nlinarith [sq_nonneg (m - mu)])
  · rw [Real.sqrt_le_left (by positivity), ← sq_abs (m - mu)]
    nlinarith [mul_nonneg h0 (abs_nonneg (m - mu))]

/-- The mean. -/
theorem mean_near {rnd : ℝ → Fl} (h : Spec.Rounding rnd) {k : ℕ} (t : Dbl.Adds k) (ht : Spec.Once t)
    (hd : Spec.depth t ≤ 2 ^ 40) (s : Fin k → ℝ) (hs : ∀ i, Spec.IsDouble (s i)) {A : ℝ} (hA : A ≤ 2 ^ 200)
    (hb : ∀ i, |s i| ≤ A) (h1 : 1 ≤ k) (h2 : k ≤ 2 ^ 50) (mu : ℝ) (hmu : mu * k = ∑ i, s i) :
    ∃ z, Dbl.div rnd (t.eval rnd fun i => .fin (s i)) (Dbl.ofInt rnd (k : ℤ)) = .fin z ∧ Spec.IsDouble z ∧
      |z - mu| ≤ (1.01 * Spec.depth t + 1.01) / 2 ^ 53 * A + 2 ^ (-1075 : ℤ) := by
  have hk : (0 : ℝ) < k := by exact_mod_cast h1
  have hA0 : 0 ≤ A := (abs_nonneg _).trans (hb ⟨0, h1⟩)
  have hsumA : ∑ i, |s i| ≤ k * A := by
    have : ∑ i, |s i| ≤ ∑ _i : Fin k, A := Finset.sum_le_sum fun i _ => hb i
    rwa [Finset.sum_const, Finset.card_univ, Fintype.card_fin, nsmul_eq_mul] at this
  have hkr : (k : ℝ) ≤ 2 ^ 50 := by exact_mod_cast h2
  have hp1 : ((Spec.terms t).map s).sum = ∑ i, s i := by
    rw [(ht.map s).sum_eq, ← List.ofFn_eq_map, List.sum_ofFn]
  have hp2 : ((Spec.terms t).map fun i => |s i|).sum = ∑ i, |s i| := by
    rw [(ht.map fun i => |s i|).sum_eq, ← List.ofFn_eq_map, List.sum_ofFn]
  have hkA : (k : ℝ) * A ≤ 2 ^ 890 := by
    refine (mul_le_mul hkr hA hA0 (by positivity)).trans ?_
    rw [← pow_add]
    exact two_pow_le (by norm_num)
  obtain ⟨c, c1, c2, c3, c4⟩ := eval_signed h hs t hd (by rw [hp2]; exact hsumA.trans hkA)
  rw [hp1, hp2] at c3
  obtain ⟨hu1, -⟩ := ulp_pow hd
  have hd0 : (0 : ℝ) ≤ Spec.depth t := Nat.cast_nonneg _
  have hdr : (Spec.depth t : ℝ) ≤ 1099511627776 := by
    have : (Spec.depth t : ℝ) ≤ 2 ^ 40 := by exact_mod_cast hd
    rwa [show (2 : ℝ) ^ 40 = 1099511627776 by norm_num] at this
  have hcm : |c - mu * k| ≤ 1.001 * Spec.depth t / 2 ^ 53 * (k * A) := by
    rw [hmu]
    refine c3.trans (mul_le_mul (by linarith) hsumA (Finset.sum_nonneg fun i _ => abs_nonneg _) (by positivity))
  have hq : |c / k - mu| ≤ 1.001 * Spec.depth t / 2 ^ 53 * A := by
    have e : c / k - mu = (c - mu * k) / k := by field_simp
    rw [e, abs_div, abs_of_pos hk, div_le_iff₀ hk]
    linarith
  have hmuA : |mu| ≤ A := by
    have e : |mu| * k ≤ A * k := by
      rw [← abs_of_pos hk, ← abs_mul, abs_of_pos hk, hmu]
      exact (Finset.abs_sum_le_sum_abs _ _).trans (by linarith)
    exact le_of_mul_le_mul_right e hk
  have hqA : |c / k| ≤ 1.001 * A := by
    have e : c / k = (c / k - mu) + mu := by ring
    have h5 := abs_add_le (c / k - mu) mu
    rw [← e] at h5
    have h6 : 1.001 * (Spec.depth t : ℝ) / 2 ^ 53 * A ≤ 0.001 * A := by
      refine mul_le_mul_of_nonneg_right ?_ hA0
      rw [div_le_iff₀ (by positivity)]
      norm_num only
      linarith
    linarith
  have hbig : |c / k| ≤ 2 ^ 900 := by
    refine hqA.trans ?_
    have h7 : (2 : ℝ) * 2 ^ 200 ≤ 2 ^ 900 := by
      rw [← pow_succ']
      exact two_pow_le (by norm_num)
    generalize (2 : ℝ) ^ 900 = x at *
    linarith
  obtain ⟨z, z1, z2, z3⟩ := round_rel h hbig
  have hsz : Dbl.ofInt rnd (k : ℤ) = .fin k := by
    have := round_self h (isDouble_int (z := (k : ℤ)) (by
      rw [abs_of_nonneg (by positivity)]
      have : k < 2 ^ 53 := lt_of_le_of_lt h2 (by norm_num)
      exact_mod_cast this))
    unfold Dbl.ofInt
    rw [this]
    norm_cast
  refine ⟨z, ?_, z2, ?_⟩
  · rw [c1, hsz, Dbl.div, Fl.div_fin _ hk.ne']
    exact z1
  · have e : z - mu = (z - c / k) + (c / k - mu) := by ring
    have h5 := abs_add_le (z - c / k) (c / k - mu)
    rw [← e] at h5
    have h8 : |c / k| / 2 ^ 53 ≤ 1.001 * A / 2 ^ 53 := by gcongr
    have h9 : (1.01 * (Spec.depth t : ℝ) + 1.01) / 2 ^ 53 * A = 1.01 * Spec.depth t / 2 ^ 53 * A + 1.01 * A / 2 ^ 53 := by ring
    have h10 : 1.001 * (Spec.depth t : ℝ) / 2 ^ 53 * A ≤ 1.01 * Spec.depth t / 2 ^ 53 * A := by gcongr; norm_num
    have h11 : 1.001 * A / 2 ^ 53 ≤ 1.01 * A / 2 ^ 53 := by gcongr; norm_num
    rw [h9]
    linarith

theorem devs_near {rnd : ℝ → Fl} (h : Spec.Rounding rnd) {k : ℕ} (t : Dbl.Adds k) (ht : Spec.Once t)
    (hd : Spec.depth t ≤ 2 ^ 40) (s : Fin k → ℝ) (hs : ∀ i, Spec.IsDouble (s i)) {A : ℝ} (hA : A ≤ 2 ^ 200)
    (hb : ∀ i, |s i| ≤ A) (h1 : 1 ≤ k) (h2 : k ≤ 2 ^ 50) (mu sigma : ℝ) (hmu : mu * k = ∑ i, s i) (h0 : 0 ≤ sigma)
    (hsig : sigma ^ 2 * k = ∑ i, (s i - mu) ^ 2) (mean : Fl)
    (hm : Dbl.div rnd (t.eval rnd fun i => .fin (s i)) (Dbl.ofInt rnd (k : ℤ)) = mean) :
    ∃ z, Dbl.sqrtMean rnd (t.eval rnd fun i => Dbl.mul rnd (Dbl.sub rnd (.fin (s i)) mean)
        (Dbl.sub rnd (.fin (s i)) mean)) k = .fin z ∧ Spec.IsDouble z ∧ 0 ≤ z ∧
      |z - sigma| ≤ (1.02 * Spec.depth t + 6) / 2 ^ 53 * (sigma + A) + 2 ^ (-490 : ℤ) := by
  have hA0 : 0 ≤ A := (abs_nonneg _).trans (hb ⟨0, h1⟩)
  have hk : (0 : ℝ) < k := by exact_mod_cast h1
  obtain ⟨m, m1, m2, m3⟩ := mean_near h t ht hd s hs hA hb h1 h2 mu hmu
  rw [m1] at hm
  subst hm
  have hη0 : (0 : ℝ) < 2 ^ (-1075 : ℤ) := by positivity
  have hη1 := tiny_le (k := -1075) (by norm_num)
  have hd0 : (0 : ℝ) ≤ Spec.depth t := Nat.cast_nonneg _
  have hdr : (Spec.depth t : ℝ) ≤ 1099511627776 := by
    have : (Spec.depth t : ℝ) ≤ 2 ^ 40 := by exact_mod_cast hd
    rwa [show (2 : ℝ) ^ 40 = 1099511627776 by norm_num] at this
  have hmuA : |mu| ≤ A := by
    have e : |mu| * k ≤ A * k := by
      rw [← abs_of_pos hk, ← abs_mul, abs_of_pos hk, hmu]
      refine (Finset.abs_sum_le_sum_abs _ _).trans ?_
      have : ∑ i, |s i| ≤ ∑ _i : Fin k, A := Finset.sum_le_sum fun i _ => hb i
      rw [Finset.sum_const, Finset.card_univ, Fintype.card_fin, nsmul_eq_mul] at this
      linarith
    exact le_of_mul_le_mul_right e hk
  obtain ⟨x, hx⟩ : ∃ x, x = (Spec.depth t : ℝ) / 2 ^ 53 := ⟨_, rfl⟩
  have hx0 : 0 ≤ x := by rw [hx]; positivity
  have hx1 : x ≤ 1 / 8192 := by
    rw [hx, div_le_iff₀ (by positivity)]
    norm_num only
    linarith
  have m3' : |m - mu| ≤ (1.01 * x + 1.01 / 2 ^ 53) * A + 2 ^ (-1075 : ℤ) := by
    refine m3.trans (le_of_eq ?_)
    rw [hx]
    ring
  have hmA : |m| ≤ 2 * A + 1 := by
    have e := abs_add_le (m - mu) mu
    rw [sub_add_cancel] at e
    have e2 : (1.01 * x + 1.01 / 2 ^ 53) * A ≤ 1 * A := by
      refine mul_le_mul_of_nonneg_right ?_ hA0
      norm_num only
      linarith
    norm_num only at hη1
    linarith
  have h200 : (1 : ℝ) ≤ 2 ^ 200 := one_le_pow₀ one_le_two
  have h300 : (16 : ℝ) * 2 ^ 200 ≤ 2 ^ 300 := by
    rw [show (16 : ℝ) = 2 ^ 4 by norm_num, ← pow_add]
    exact two_pow_le (by norm_num)
  have hdev : ∀ i, |s i - m| ≤ 4 * 2 ^ 200 := fun i => by
    have e := abs_sub (s i) m
    have := hb i
    generalize (2 : ℝ) ^ 200 = y at *
    linarith
  have hw : ∀ i, ∃ w, Dbl.sub rnd (.fin (s i)) (.fin m) = .fin w ∧ Spec.IsDouble w ∧
      |w - (s i - m)| ≤ 1 / 2 ^ 53 * |s i - m| := fun i => by
    obtain ⟨w, w1, w2, w3⟩ := sub_spec h (hs i) m2 (by
      refine lt_of_le_of_lt ((hdev i).trans ?_) (two_pow_lt_range (k := 300) (by norm_num))
      generalize (2 : ℝ) ^ 200 = y at *
      generalize (2 : ℝ) ^ 300 = y' at *
      linarith)
    exact ⟨w, by rw [sub_fin_rnd, w1], w2, by rw [one_div_mul_eq_div]; exact w3⟩
  choose w w1 w2 w3 using hw
  have hwb : ∀ i, |w i| ≤ 2 ^ 300 := fun i => by
    have e := abs_add_le (w i - (s i - m)) (s i - m)
    rw [sub_add_cancel] at e
    have e2 : 1 / 2 ^ 53 * |s i - m| ≤ 1 * |s i - m| := mul_le_mul_of_nonneg_right (by norm_num) (abs_nonneg _)
    have := hdev i
    have := w3 i
    generalize (2 : ℝ) ^ 200 = y at *
    generalize (2 : ℝ) ^ 300 = y' at *
    linarith
  obtain ⟨z, z1, z2, z3, z4⟩ := rootMean_near h t ht hd (fun i => .fin (w i)) w (fun i => Or.inr rfl) hwb k h1 le_rfl h2
  have hnan : ∀ i, Dbl.nanZero (Dbl.mul rnd (.fin (w i)) (.fin (w i))) = Dbl.mul rnd (.fin (w i)) (.fin (w i)) := fun i => by
    obtain ⟨y, y1, -⟩ := round_rel h (y := w i * w i) (by
      rw [abs_mul]
      refine (mul_le_mul (hwb i) (hwb i) (abs_nonneg _) (by positivity)).trans ?_
      rw [← pow_add]
      exact two_pow_le (by norm_num))
    rw [show Dbl.mul rnd (.fin (w i)) (.fin (w i)) = rnd (w i * w i) from rfl, y1]
    rfl
  simp only [hnan] at z1
  refine ⟨z, ?_, z2, z3, ?_⟩
  · simp only [w1]
    exact z1
  have r1 := rootMean_rel (w := w) (y := fun i => s i - m) (e := 1 / 2 ^ 53) (c := k) (by positivity) (by norm_num) hk w3
  obtain ⟨r2, r3⟩ := rootMean_shift s mu m sigma h1 hmu h0 hsig
  generalize Real.sqrt ((∑ i, w i ^ 2) / (k : ℝ)) = W at *
  generalize Real.sqrt ((∑ i, (s i - m) ^ 2) / (k : ℝ)) = ρ at *
  have hρ0 : 0 ≤ ρ := h0.trans r2
  have e0 : (1.01 * (Spec.depth t : ℝ) + 4) / 2 ^ 53 = 1.01 * x + 4 / 2 ^ 53 := by rw [hx]; ring
  have e1 : (1.02 * (Spec.depth t : ℝ) + 6) / 2 ^ 53 * (sigma + A) = (1.02 * x + 6 / 2 ^ 53) * (sigma + A) := by rw [hx]; ring
  rw [e0] at z4
  rw [e1]
  have hW : W ≤ 1.0001 * ρ := by
    have := (abs_le.1 r1).2
    norm_num only at this ⊢
    linarith
  have q1 : (1.01 * x + 4 / 2 ^ 53) * W ≤ (1.01 * x + 4 / 2 ^ 53) * (1.0001 * (sigma + |m - mu|)) :=
    mul_le_mul_of_nonneg_left (by linarith) (by positivity)
  have q2 : (1.01 * x + 4 / 2 ^ 53) * |m - mu| ≤ 1 / 4000 * |m - mu| :=
    mul_le_mul_of_nonneg_right (by norm_num only; linarith) (abs_nonneg _)
  have q3 : |z - sigma| ≤ |z - W| + |W - ρ| + |ρ - sigma| := by
    have a1 := abs_add_le (z - W) ((W - ρ) + (ρ - sigma))
    have a2 := abs_add_le (W - ρ) (ρ - sigma)
    rw [show z - W + (W - ρ + (ρ - sigma)) = z - sigma by ring] at a1
    linarith
  have q4 : |ρ - sigma| ≤ |m - mu| := by
    rw [abs_of_nonneg (by linarith)]
    linarith
  have q5 : (2 : ℝ) ^ (-500 : ℤ) + 2 * 2 ^ (-1075 : ℤ) ≤ 2 ^ (-490 : ℤ) := by
    have a1 : (2 : ℝ) ^ (-490 : ℤ) = 2 ^ (10 : ℤ) * 2 ^ (-500 : ℤ) := by
      rw [← zpow_add₀ two_ne_zero]
      norm_num
    have a2 : (2 : ℝ) ^ (-1075 : ℤ) ≤ 2 ^ (-500 : ℤ) := zpow_le_zpow_right₀ one_le_two (by norm_num)
    have a3 : (0 : ℝ) < 2 ^ (-500 : ℤ) := by positivity
    rw [a1]
    generalize (2 : ℝ) ^ (-500 : ℤ) = y at *
    generalize (2 : ℝ) ^ (-1075 : ℤ) = y' at *
    norm_num only
    linarith
  have q6 : 0 ≤ x * A := mul_nonneg hx0 hA0
  have q7 : 0 ≤ x * sigma := mul_nonneg hx0 h0
  have q8 : 0 ≤ |m - mu| := abs_nonneg _
  generalize |m - mu| = δ at *
  generalize (2 : ℝ) ^ (-490 : ℤ) = y1 at *
  generalize (2 : ℝ) ^ (-500 : ℤ) = y2 at *
  generalize (2 : ℝ) ^ (-1075 : ℤ) = y3 at *
  have q9 : (1.01 * x + 4 / 2 ^ 53) * (1.0001 * (sigma + δ)) =
      1.010101 * (x * sigma) + 4.0004 / 2 ^ 53 * sigma + 1.0001 * ((1.01 * x + 4 / 2 ^ 53) * δ) := by ring
  have q10 : (1.01 * x + 1.01 / 2 ^ 53) * A = 1.01 * (x * A) + 1.01 / 2 ^ 53 * A := by ring
  have q11 : (1.02 * x + 6 / 2 ^ 53) * (sigma + A) = 1.02 * (x * sigma) + 1.02 * (x * A) + 6 / 2 ^ 53 * sigma + 6 / 2 ^ 53 * A := by
    ring
  rw [q9] at q1
  rw [q10] at m3'
  rw [q11]
  norm_num only at q1 q2 m3' r1 ⊢
  linarith

/-- The standard deviation. -/
theorem std_near {rnd : ℝ → Fl} (h : Spec.Rounding rnd) (adds : ∀ k, Dbl.Adds k) (l : List Fl)
    (ht : Spec.Once (adds l.length)) (hd : Spec.depth (adds l.length) ≤ 2 ^ 40) (s : Fin l.length → ℝ)
    (hl : ∀ i, l.get i = .fin (s i)) (hs : ∀ i, Spec.IsDouble (s i)) {A : ℝ} (hA : A ≤ 2 ^ 200) (hb : ∀ i, |s i| ≤ A)
    (h1 : 1 ≤ l.length) (h2 : l.length ≤ 2 ^ 50) (mu sigma : ℝ) (hmu : mu * l.length = ∑ i, s i) (h0 : 0 ≤ sigma)
    (hsig : sigma ^ 2 * l.length = ∑ i, (s i - mu) ^ 2) :
    ∃ z, Dbl.std rnd adds l = .fin z ∧ Spec.IsDouble z ∧ 0 ≤ z ∧
      |z - sigma| ≤ (1.02 * Spec.depth (adds l.length) + 6) / 2 ^ 53 * (sigma + A) + 2 ^ (-490 : ℤ) := by
  unfold Dbl.std
  rw [if_neg (by omega)]
  simp only [hl]
  exact devs_near h _ ht hd s hs hA hb h1 h2 mu sigma hmu h0 hsig _ rfl

/-! ## Which samples enter the noise -/

theorem dist_near {rnd : ℝ → Fl} (h : Spec.Rounding rnd) {x c : ℝ} (hx : Spec.IsDouble x) (hc : Spec.IsDouble c)
    (hxb : |x| ≤ 2 ^ 200) (hcb : |c| ≤ 2 ^ 200) :
    ∃ w, Dbl.sub rnd (.fin x) (.fin c) = .fin w ∧ |w| ≤ 2 ^ 300 ∧ |w ^ 2 - (x - c) ^ 2| ≤ 2.01 / 2 ^ 53 * (x - c) ^ 2 := by
  have h300 : (4 : ℝ) * 2 ^ 200 ≤ 2 ^ 300 := by
    rw [show (4 : ℝ) = 2 ^ 2 by norm_num, ← pow_add]
    exact two_pow_le (by norm_num)
  have e := abs_sub x c
  have hdev : |x - c| ≤ 2 * 2 ^ 200 := by linarith
  obtain ⟨w, w1, w2, w3⟩ := sub_spec h hx hc (by
    refine lt_of_le_of_lt (hdev.trans ?_) (two_pow_lt_range (k := 300) (by norm_num))
    generalize (2 : ℝ) ^ 300 = y' at *
    have : (0 : ℝ) < 2 ^ 200 := by positivity
    linarith)
  refine ⟨w, by rw [sub_fin_rnd, w1], ?_, ?_⟩
  · have e2 := abs_add_le (w - (x - c)) (x - c)
    rw [sub_add_cancel] at e2
    have e3 : |x - c| / 2 ^ 53 ≤ |x - c| := div_le_self (abs_nonneg _) (by norm_num)
    generalize (2 : ℝ) ^ 300 = y' at *
    generalize (2 : ℝ) ^ 200 = y at *
    linarith
  · have e4 : w ^ 2 - (x - c) ^ 2 = (w - (x - c)) * (w + (x - c)) := by ring
    have e5 : |w + (x - c)| ≤ 2.001 * |x - c| := by
      have := abs_add_le (w - (x - c)) (2 * (x - c))
      rw [show w - (x - c) + 2 * (x - c) = w + (x - c) by ring, abs_mul, abs_two] at this
      have e3 : |x - c| / 2 ^ 53 ≤ 0.001 * |x - c| := by
        rw [div_le_iff₀ (by positivity)]
        have := abs_nonneg (x - c)
        norm_num only
        linarith
      linarith
    rw [e4, abs_mul]
    refine (mul_le_mul w3 e5 (abs_nonneg _) (by positivity)).trans ?_
    rw [← sq_abs (x - c)]
    have : 0 ≤ |x - c| ^ 2 := by positivity
    have e6 : |x - c| / 2 ^ 53 * (2.001 * |x - c|) = 2.001 / 2 ^ 53 * |x - c| ^ 2 := by ring
    rw [e6]
    refine mul_le_mul_of_nonneg_right ?_ this
    norm_num

theorem nearCentre_iff {rnd : ℝ → Fl} (h : Spec.Rounding rnd) {m n : ℕ} (u : Fin n → ℝ) (v : Fin m → ℝ) (centre radius : ℝ)
    (hu : ∀ j, Spec.IsDouble (u j) ∧ |u j| ≤ 2 ^ 200) (hv : ∀ i, Spec.IsDouble (v i) ∧ |v i| ≤ 2 ^ 200)
    (hc : Spec.IsDouble centre ∧ |centre| ≤ 2 ^ 200) (hr : 1 / 2 ^ 100 ≤ radius) (hr' : radius ≤ 2 ^ 200)
    (q : Fin m × Fin n) (hq : ((u q.2 - centre) ^ 2 + (v q.1 - centre) ^ 2 + radius ^ 2) / 2 ^ 50 <
      |(u q.2 - centre) ^ 2 + (v q.1 - centre) ^ 2 - radius ^ 2|) :
    Dbl.nearCentre rnd (fun j => .fin (u j)) (fun i => .fin (v i)) (.fin centre) (.fin radius) q ↔
      (u q.2 - centre) ^ 2 + (v q.1 - centre) ^ 2 < radius ^ 2 := by
  obtain ⟨a, a1, a2, a3⟩ := dist_near h (hu q.2).1 hc.1 (hu q.2).2 hc.2
  obtain ⟨b, b1, b2, b3⟩ := dist_near h (hv q.1).1 hc.1 (hv q.1).2 hc.2
  obtain ⟨s, s1, -, -, s4⟩ := sumSq_near h le_rfl a2 b2
  have hr0 : 0 < radius := lt_of_lt_of_le (by positivity) hr
  obtain ⟨R, R1, -, R3⟩ := round_rel h (y := radius * radius) (by
    rw [abs_mul_self]
    refine (mul_le_mul hr' hr' hr0.le (by positivity)).trans ?_
    rw [← pow_add]
    exact two_pow_le (by norm_num))
  have e : Dbl.nearCentre rnd (fun j => .fin (u j)) (fun i => .fin (v i)) (.fin centre) (.fin radius) q ↔ s < R := by
    show Fl.lt (Dbl.sumSq rnd (Dbl.sub rnd (.fin (u q.2)) (.fin centre)) (Dbl.sub rnd (.fin (v q.1)) (.fin centre)))
      (rnd (radius * radius)) ↔ s < R
    rw [a1, b1, s1, R1]
    rfl
  rw [e]
  rw [abs_mul_self, ← sq] at R3
  have hτ : (2 : ℝ) ^ (-1075 : ℤ) ≤ 1 / 2 ^ 300 := by
    have h2 : (2 : ℝ) ^ (-1075 : ℤ) ≤ 2 ^ (-300 : ℤ) := zpow_le_zpow_right₀ one_le_two (by norm_num)
    have h3 : (2 : ℝ) ^ (-300 : ℤ) = 1 / 2 ^ 300 := by
      rw [show (-300 : ℤ) = -((300 : ℕ) : ℤ) from rfl, _root_.zpow_neg, zpow_natCast, ← one_div]
    exact h2.trans_eq h3
  have hτ0 : (0 : ℝ) < 2 ^ (-1075 : ℤ) := by positivity
  have hρ : (2 : ℝ) ^ (-1075 : ℤ) ≤ radius ^ 2 / 2 ^ 60 := by
    have h4 : (1 / 2 ^ 100 : ℝ) ^ 2 ≤ radius ^ 2 := pow_le_pow_left₀ (by positivity) hr 2
    refine hτ.trans ?_
    rw [le_div_iff₀ (by positivity)]
    refine le_trans ?_ h4
    rw [div_pow, one_pow, ← pow_mul, show (300 : ℕ) = 100 * 2 + 60 + 40 by norm_num, pow_add, pow_add]
    have p1 : (0 : ℝ) < 2 ^ (100 * 2) := by positivity
    generalize (2 : ℝ) ^ (100 * 2) = y at *
    rw [div_mul_eq_mul_div, div_le_div_iff₀ (by positivity) p1]
    norm_num only
    nlinarith
  have ha0 := sq_nonneg (u q.2 - centre)
  have hb0 := sq_nonneg (v q.1 - centre)
  have hR0 := sq_nonneg radius
  have x1 := abs_le.1 a3
  have x2 := abs_le.1 b3
  have x3 := abs_le.1 s4
  have x4 := abs_le.1 R3
  generalize (u q.2 - centre) ^ 2 = X at *
  generalize (v q.1 - centre) ^ 2 = Y at *
  generalize radius ^ 2 = Z at *
  generalize a ^ 2 = a' at *
  generalize b ^ 2 = b' at *
  generalize (2 : ℝ) ^ (-1075 : ℤ) = τ at *
  constructor
  · intro hlt
    by_contra hn
    rw [not_lt] at hn
    rw [abs_of_nonneg (by linarith)] at hq
    norm_num only at *
    linarith
  · intro hlt
    rw [abs_of_neg (by linarith)] at hq
    norm_num only at *
    linarith

/-! ## The largest sample, and the sums over the selected samples -/

/-- The entry of an array for a sample, nan for none. -/
def Spec.cell : Option ℝ → Fl
  | none => .nan
  | some x => .fin x

theorem foldl_larger (mx : ℝ) (l : List Fl) : ∀ (a : ℝ), (∀ x ∈ l, ∃ w, x = .fin w ∧ w ≤ mx) → a ≤ mx →
    (a = mx ∨ Fl.fin mx ∈ l) → l.foldl Dbl.larger (.fin a) = .fin mx := by
  induction l with
  | nil =>
    intro a _ _ h
    rcases h with h | h
    · rw [h]; rfl
    · exact absurd h (List.not_mem_nil)
  | cons x l ih =>
    intro a hx ha h
    obtain ⟨w, rfl, hw⟩ := hx x (List.mem_cons_self)
    have e : Dbl.larger (.fin a) (.fin w) = .fin (max a w) := by
      unfold Dbl.larger
      by_cases hlt : a < w
      · rw [if_pos (show Fl.lt (.fin a) (.fin w) from hlt), max_eq_right hlt.le]
      · rw [if_neg (show ¬Fl.lt (.fin a) (.fin w) from hlt), max_eq_left (not_lt.1 hlt)]
    rw [List.foldl_cons, e]
    refine ih _ (fun x hx' => hx x (List.mem_cons_of_mem _ hx')) (max_le ha hw) ?_
    rcases h with h | h
    · exact Or.inl (by rw [h, max_eq_left hw])
    · rcases List.mem_cons.1 h with h | h
      · cases h
        exact Or.inl (max_eq_right ha)
      · exact Or.inr h

theorem nanmaxD {m n : ℕ} (beam : Fin m × Fin n → Option ℝ) (mx : ℝ) (hmx : Spec.Peak beam mx) :
    Dbl.nanmax (fun q => Spec.cell (beam q)) = .ok (.fin mx) := by
  obtain ⟨⟨q, hq⟩, hle⟩ := hmx
  unfold Dbl.nanmax
  have hm : 0 < m := q.1.pos
  have hn : 0 < n := q.2.pos
  rw [if_neg (Nat.mul_pos hm hn).ne']
  have hall : ∀ x ∈ (Dbl.rows fun q => Spec.cell (beam q)).filter Dbl.notNan, ∃ w, x = .fin w ∧ w ≤ mx := by
    intro x hx
    rw [List.mem_filter] at hx
    obtain ⟨q', rfl⟩ := rows_mem hx.1
    cases hb : beam q' with
    | none => simp [hb, Spec.cell, Dbl.notNan] at hx
    | some w => exact ⟨w, rfl, hle q' w hb⟩
  have hmem : Fl.fin mx ∈ (Dbl.rows fun q => Spec.cell (beam q)).filter Dbl.notNan := by
    rw [List.mem_filter]
    refine ⟨?_, rfl⟩
    unfold Dbl.rows
    rw [List.mem_flatMap]
    refine ⟨q.1, List.mem_finRange _, ?_⟩
    rw [List.mem_ofFn]
    exact ⟨q.2, by show Spec.cell (beam q) = _; rw [hq]; rfl⟩
  cases hl : (Dbl.rows fun q => Spec.cell (beam q)).filter Dbl.notNan with
  | nil => rw [hl] at hmem; exact absurd hmem (List.not_mem_nil)
  | cons a l =>
    rw [hl] at hall hmem
    obtain ⟨w, rfl, hw⟩ := hall a (List.mem_cons_self)
    simp only
    rw [foldl_larger mx l w (fun x hx => hall x (List.mem_cons_of_mem _ hx)) hw]
    rcases List.mem_cons.1 hmem with h | h
    · cases h; exact Or.inl rfl
    · exact Or.inr h

theorem pixels_nodup (m n : ℕ) : (Dbl.pixels m n).Nodup := by
  unfold Dbl.pixels
  rw [List.nodup_flatMap]
  refine ⟨fun i _ => (List.nodup_finRange n).map fun a b hab => (Prod.mk.inj hab).2, ?_⟩
  refine (List.nodup_finRange m).imp fun {a b} hab => ?_
  intro x hx hx'
  rw [List.mem_map] at hx hx'
  obtain ⟨j, -, rfl⟩ := hx
  obtain ⟨j', -, e⟩ := hx'
  exact hab (Prod.mk.inj e).1.symm

theorem pixels_mem {m n : ℕ} (q : Fin m × Fin n) : q ∈ Dbl.pixels m n := by
  unfold Dbl.pixels
  rw [List.mem_flatMap]
  exact ⟨q.1, List.mem_finRange _, List.mem_map.2 ⟨q.2, List.mem_finRange _, rfl⟩⟩

/-- The selected samples as a list. -/
theorem selected_list {m n : ℕ} (beam : Fin m × Fin n → Option ℝ) (p : Fin m × Fin n → Prop) [DecidablePred p]
    (S : Finset (Fin m × Fin n)) (hS : ∀ q, q ∈ S ↔ p q ∧ beam q ≠ none) :
    ∃ L : List (Fin m × Fin n), L.Nodup ∧ L.length = S.card ∧ (∀ q, q ∈ L ↔ q ∈ S) ∧
      (((Dbl.pixels m n).filter fun q => p q).map fun q => Spec.cell (beam q)).filter Dbl.notNan =
        L.map fun q => .fin ((beam q).getD 0) := by
  obtain ⟨L, hL⟩ : ∃ L, L = ((Dbl.pixels m n).filter fun q => p q).filter fun q => Dbl.notNan (Spec.cell (beam q)) := ⟨_, rfl⟩
  have hnan : ∀ q, Dbl.notNan (Spec.cell (beam q)) = true ↔ beam q ≠ none := fun q => by
    cases hb : beam q <;> simp [Spec.cell, Dbl.notNan]
  have hmem : ∀ q, q ∈ L ↔ q ∈ S := fun q => by
    rw [hL, List.mem_filter, List.mem_filter, hnan, hS, decide_eq_true_iff]
    exact ⟨fun h => ⟨h.1.2, h.2⟩, fun h => ⟨⟨pixels_mem q, h.1⟩, h.2⟩⟩
  have hnd : L.Nodup := by
    rw [hL]
    exact ((pixels_nodup m n).filter _).filter _
  refine ⟨L, hnd, ?_, hmem, ?_⟩
  · rw [← List.toFinset_card_of_nodup hnd]
    congr 1
    ext q
    rw [List.mem_toFinset, hmem]
  · rw [List.filter_map, hL]
    refine List.map_congr_left fun q hq => ?_
    rw [List.mem_filter] at hq
    have := hq.2
    simp only [Function.comp] at this
    rw [hnan] at this
    cases hb : beam q with
    | none => exact absurd hb this
    | some x => rfl

/-- **C147.**  The signal-to-noise ratio of a map in doubles, in any order of the additions: the largest sample over the
standard deviation of the samples in the disc.  What is lost is a part of the size `A` of the samples in the disc, not of
their standard deviation: the sums give up as much of their mean. -/
theorem C147_snr {rnd : ℝ → Fl} (h : Spec.Rounding rnd) (adds : ∀ k, Dbl.Adds k) {m n : ℕ} (beam : Fin m × Fin n → Option ℝ)
    (u : Fin n → ℝ) (v : Fin m → ℝ) (centre radius : ℝ) (hbeam : ∀ q x, beam q = some x → Spec.IsDouble x ∧ |x| ≤ 2 ^ 200)
    (hu : ∀ j, Spec.IsDouble (u j) ∧ |u j| ≤ 2 ^ 200) (hv : ∀ i, Spec.IsDouble (v i) ∧ |v i| ≤ 2 ^ 200)
    (hc : Spec.IsDouble centre ∧ |centre| ≤ 2 ^ 200) (hr : 1 / 2 ^ 100 ≤ radius) (hr' : radius ≤ 2 ^ 200)
    (hrim : ∀ q, beam q ≠ none → ((u q.2 - centre) ^ 2 + (v q.1 - centre) ^ 2 + radius ^ 2) / 2 ^ 50 <
      |(u q.2 - centre) ^ 2 + (v q.1 - centre) ^ 2 - radius ^ 2|)
    (S : Finset (Fin m × Fin n)) (hS : Spec.Noise beam u v centre radius S) (hne : S.Nonempty) (hcard : S.card ≤ 2 ^ 50)
    (ha : Spec.Once (adds S.card)) (hD : Spec.depth (adds S.card) ≤ 2 ^ 40)
    (A : ℝ) (hA : ∀ q ∈ S, ∀ x, beam q = some x → |x| ≤ A) (hA' : A ≤ 2 ^ 200) (mx mu sigma : ℝ) (hmx : Spec.Peak beam mx)
    (hmu : mu * S.card = ∑ q ∈ S, (beam q).getD 0) (h0 : 0 ≤ sigma)
    (hsig : sigma ^ 2 * S.card = ∑ q ∈ S, ((beam q).getD 0 - mu) ^ 2) (δ : ℝ)
    (hδ : δ = (1.02 * Spec.depth (adds S.card) + 6) / 2 ^ 53 * (sigma + A) + 2 ^ (-490 : ℤ)) (hlow : δ ≤ sigma / 2) :
    ∃ z, Dbl.snr rnd adds (fun q => Spec.cell (beam q)) (fun j => .fin (u j)) (fun i => .fin (v i)) (.fin centre) (.fin radius) =
        .ok (.fin z) ∧ Spec.IsDouble z ∧
      |z - mx / sigma| ≤ 3 * (δ / sigma) * (|mx| / sigma) + 2 ^ (-1075 : ℤ) := by
  classical
  obtain ⟨L, hnd, hlen, hmem, hl⟩ := selected_list beam
    (Dbl.nearCentre rnd (fun j => .fin (u j)) (fun i => .fin (v i)) (.fin centre) (.fin radius)) S fun q => by
      rw [hS q]
      constructor
      · rintro ⟨h1, h2⟩
        exact ⟨(nearCentre_iff h u v centre radius hu hv hc hr hr' q (hrim q h2)).2 h1, h2⟩
      · rintro ⟨h1, h2⟩
        exact ⟨(nearCentre_iff h u v centre radius hu hv hc hr hr' q (hrim q h2)).1 h1, h2⟩
  have hval : ∀ q ∈ L, ∃ x, beam q = some x := fun q hq =>
    Option.ne_none_iff_exists'.1 ((hS q).1 ((hmem q).1 hq)).2
  obtain ⟨l, hle⟩ : ∃ l : List Fl, l = L.map fun q => .fin ((beam q).getD 0) := ⟨_, rfl⟩
  have hll : l.length = S.card := by rw [hle, List.length_map, hlen]
  have hLl : L.length = l.length := by rw [hll, hlen]
  have hsum : ∀ f : ℝ → ℝ, ∑ i : Fin l.length, f ((beam (L.get (i.cast hLl.symm))).getD 0) = ∑ q ∈ S, f ((beam q).getD 0) := by
    intro f
    have e : S = L.toFinset := by
      ext q
      rw [List.mem_toFinset, hmem]
    rw [e, List.sum_toFinset _ hnd, ← List.sum_ofFn]
    congr 1
    refine List.ext_get (by simp [hLl]) fun k h1 h2 => ?_
    simp
  obtain ⟨sd, d1, d2, d3, d4⟩ := std_near h adds l (by rw [hll]; exact ha) (by rw [hll]; exact hD)
    (fun i => (beam (L.get (i.cast hLl.symm))).getD 0) (fun i => by subst hle; simp)
    (fun i => by
      obtain ⟨x, hx⟩ := hval _ (List.get_mem L (i.cast hLl.symm))
      rw [hx]
      exact (hbeam _ x hx).1) hA'
    (fun i => by
      obtain ⟨x, hx⟩ := hval _ (List.get_mem L (i.cast hLl.symm))
      rw [hx]
      exact hA _ ((hmem _).1 (List.get_mem L (i.cast hLl.symm))) x hx)
    (by rw [hll]; exact hne.card_pos) (by rw [hll]; exact hcard) mu sigma (by rw [hsum fun x => x, hll]; exact hmu) h0
    (by rw [hsum fun x => (x - mu) ^ 2, hll]; exact hsig)
  rw [hll, ← hδ] at d4
  have hA0 : 0 ≤ A := by
    obtain ⟨q, hq⟩ := hne
    obtain ⟨x, hx⟩ := hval q ((hmem q).2 hq)
    exact (abs_nonneg x).trans (hA q hq x hx)
  have hκ : (0 : ℝ) < 2 ^ (-490 : ℤ) := by positivity
  have hδ1 : 2 ^ (-490 : ℤ) ≤ δ := by
    rw [hδ]
    have : 0 ≤ (1.02 * (Spec.depth (adds S.card) : ℝ) + 6) / 2 ^ 53 * (sigma + A) := by positivity
    linarith
  have hδ2 : 6 / 2 ^ 53 * sigma ≤ δ := by
    rw [hδ]
    have : 6 / 2 ^ 53 * sigma ≤ (1.02 * (Spec.depth (adds S.card) : ℝ) + 6) / 2 ^ 53 * (sigma + A) := by
      refine mul_le_mul ?_ (by linarith) h0 (by positivity)
      gcongr
      have : (0 : ℝ) ≤ Spec.depth (adds S.card) := Nat.cast_nonneg _
      linarith
    linarith
  have hσ : 0 < sigma := by linarith
  have hsd : sigma / 2 ≤ sd := by linarith [(abs_le.1 d4).1]
  have hsd0 : 0 < sd := by linarith
  have hmxb : |mx| ≤ 2 ^ 200 := by
    obtain ⟨⟨q, hq⟩, -⟩ := hmx
    exact (hbeam q mx hq).2
  have hquo : |mx / sd| ≤ 2 * (|mx| / sigma) := by
    rw [abs_div, abs_of_pos hsd0, div_le_iff₀ hsd0]
    have e : 2 * (|mx| / sigma) * (sigma / 2) = |mx| := by field_simp
    exact e.symm.le.trans (mul_le_mul_of_nonneg_left hsd (by positivity))
  have hbig : |mx / sd| ≤ 2 ^ 900 := by
    refine hquo.trans ?_
    have e1 : |mx| / sigma ≤ 2 ^ 200 / 2 ^ (-490 : ℤ) := div_le_div₀ (by positivity) hmxb hκ (by linarith)
    have e2 : (2 : ℝ) ^ 200 / 2 ^ (-490 : ℤ) = 2 ^ 690 := by
      rw [← zpow_natCast, ← zpow_natCast, ← zpow_sub₀ two_ne_zero]
      norm_num
    have e3 : (2 : ℝ) * 2 ^ 690 ≤ 2 ^ 900 := by
      rw [← pow_succ']
      exact two_pow_le (by norm_num)
    rw [e2] at e1
    exact (mul_le_mul_of_nonneg_left e1 zero_le_two).trans e3
  obtain ⟨z, z1, z2, z3⟩ := round_rel h hbig
  refine ⟨z, ?_, z2, ?_⟩
  · unfold Dbl.snr Dbl.nanstd
    simp only [nanmaxD beam mx hmx, bind, Except.bind, pure, Except.pure]
    rw [hl, ← hle, d1, Dbl.div, Fl.div_fin _ hsd0.ne']
    exact congrArg Except.ok z1
  · have e1 : |mx / sd - mx / sigma| ≤ 2 * (δ / sigma) * (|mx| / sigma) := by
      have : mx / sd - mx / sigma = mx / sigma * ((sigma - sd) / sd) := by field_simp
      rw [this, abs_mul, abs_div, abs_of_pos hσ, abs_div, abs_of_pos hsd0, abs_sub_comm, mul_comm]
      refine mul_le_mul_of_nonneg_right ?_ (by positivity)
      rw [div_le_iff₀ hsd0]
      have e2 : 2 * (δ / sigma) * (sigma / 2) = δ := by field_simp
      have e3 : 2 * (δ / sigma) * (sigma / 2) ≤ 2 * (δ / sigma) * sd := mul_le_mul_of_nonneg_left hsd
        (mul_nonneg zero_le_two (div_nonneg (by linarith) h0))
      linarith
    have e4 : |mx / sd| / 2 ^ 53 ≤ δ / sigma * (|mx| / sigma) := by
      refine (div_le_div_of_nonneg_right hquo (by positivity)).trans ?_
      rw [show 2 * (|mx| / sigma) / 2 ^ 53 = 2 / 2 ^ 53 * (|mx| / sigma) by ring]
      refine mul_le_mul_of_nonneg_right ?_ (by positivity)
      rw [le_div_iff₀ hσ]
      have : (2 / 2 ^ 53 : ℝ) * sigma ≤ 6 / 2 ^ 53 * sigma := mul_le_mul_of_nonneg_right (by norm_num) h0
      linarith
    have e5 := abs_add_le (z - mx / sd) (mx / sd - mx / sigma)
    rw [sub_add_sub_cancel] at e5
    linarith

/-! ## Equal samples -/

/-- Large doubles are multiples of powers of two. -/
theorem double_multiple {z : ℝ} (hz : Spec.IsDouble z) (e : ℕ) (h : 2 ^ (52 + e) ≤ |z|) : ∃ k : ℤ, z = k * 2 ^ e := by
  obtain ⟨k, q, hk, -, -, rfl⟩ := hz
  have hq : (e : ℤ) ≤ q := by
    by_contra hn
    push Not at hn
    rw [abs_mul, abs_of_pos (show (0 : ℝ) < 2 ^ q by positivity)] at h
    have h1 : |(k : ℝ)| < 2 ^ 53 := by
      rw [← Int.cast_abs]
      exact_mod_cast hk
    have h2 : (2 : ℝ) ^ q ≤ 2 ^ ((e : ℤ) - 1) := zpow_le_zpow_right₀ one_le_two (by omega)
    have h3 : |(k : ℝ)| * 2 ^ q < 2 ^ 53 * 2 ^ q := mul_lt_mul_of_pos_right h1 (by positivity)
    have h4 : (2 : ℝ) ^ 53 * 2 ^ ((e : ℤ) - 1) = 2 ^ (52 + e) := by
      rw [← zpow_natCast, ← zpow_natCast, ← zpow_add₀ two_ne_zero]
      congr 1
      push_cast
      ring
    have h5 : (2 : ℝ) ^ 53 * 2 ^ q ≤ 2 ^ 53 * 2 ^ ((e : ℤ) - 1) := mul_le_mul_of_nonneg_left h2 (by positivity)
    linarith
  refine ⟨k * 2 ^ (q - e).toNat, ?_⟩
  push_cast
  rw [mul_assoc, ← zpow_natCast, ← zpow_natCast, ← zpow_add₀ two_ne_zero, Int.toNat_of_nonneg (by omega)]
  congr 2
  ring

/-- The additions from left to right. -/
def Spec.leftToRight : ∀ k : ℕ, Dbl.Adds k
  | 0 => .zero
  | k + 1 => (List.finRange k).foldl (fun t i => .both t (.item i.succ)) (.item 0)

theorem rnd_int {rnd : ℝ → Fl} (h : Spec.Rounding rnd) (z : ℤ) (hz : |z| < 2 ^ 53) : rnd z = .fin z := round_self h (isDouble_int hz)

/-- The mean of three equal numbers is another number. -/
theorem mean_off {rnd : ℝ → Fl} (h : Spec.Rounding rnd) (f : Fin 3 → Fl) (hf : ∀ i, f i = .fin (2 ^ 53 - 2)) :
    ∃ d : ℝ, d ^ 2 = 1 ∧ Dbl.div rnd ((Spec.leftToRight 3).eval rnd f) (Dbl.ofInt rnd ((3 : ℕ) : ℤ)) = .fin (2 ^ 53 - 2 + d) ∧
      Dbl.sub rnd (.fin (2 ^ 53 - 2)) (.fin (2 ^ 53 - 2 + d)) = .fin (-d) := by
  have range : ∀ y : ℝ, |y| ≤ 2 ^ 60 → |y| < 2 ^ 1024 - 2 ^ 970 := fun y hy => hy.trans_lt (two_pow_lt_range (by norm_num))
  -- the sum
  have s1 : rnd ((2 ^ 53 - 2) + (2 ^ 53 - 2)) = .fin (2 ^ 54 - 4) := by
    rw [show ((2 : ℝ) ^ 53 - 2) + (2 ^ 53 - 2) = 2 ^ 54 - 4 by norm_num]
    exact round_self h ⟨2 ^ 53 - 2, 1, by norm_num, by norm_num, by norm_num, by norm_num⟩
  obtain ⟨z, z1, z2, z3⟩ := h.1 ((2 ^ 54 - 4) + (2 ^ 53 - 2)) (range _ (by norm_num))
  have z4 := z3 (3 * 2 ^ 53 - 4) ⟨3 * 2 ^ 51 - 1, 2, by norm_num, by norm_num, by norm_num, by norm_num⟩
  rw [show ((2 : ℝ) ^ 54 - 4 + (2 ^ 53 - 2)) - (3 * 2 ^ 53 - 4) = -2 by norm_num, abs_neg, abs_two, abs_le] at z4
  obtain ⟨k, rfl⟩ := double_multiple z2 2 (by
    rw [abs_of_pos (by norm_num at z4 ⊢; linarith)]
    norm_num at z4 ⊢
    linarith)
  have hk : k = 3 * 2 ^ 51 - 1 ∨ k = 3 * 2 ^ 51 - 2 := by
    have k1 : (k : ℝ) ≤ 3 * 2 ^ 51 - 1 := by norm_num at z4 ⊢; linarith
    have k2 : (3 * 2 ^ 51 - 2 : ℝ) ≤ k := by norm_num at z4 ⊢; linarith
    have k1' : k ≤ 3 * 2 ^ 51 - 1 := by exact_mod_cast k1
    have k2' : 3 * 2 ^ 51 - 2 ≤ k := by exact_mod_cast k2
    omega
  have hsum : (Spec.leftToRight 3).eval rnd f = .fin (k * 2 ^ 2) := by
    show Dbl.add rnd (Dbl.add rnd (f 0) (f 1)) (f 2) = _
    rw [hf, hf, hf]
    show Dbl.add rnd (rnd ((2 ^ 53 - 2) + (2 ^ 53 - 2))) _ = _
    rw [s1]
    exact z1
  have h3 : Dbl.ofInt rnd ((3 : ℕ) : ℤ) = .fin 3 := by
    have := rnd_int h 3 (by norm_num)
    unfold Dbl.ofInt
    norm_num at this ⊢
    exact this
  rw [hsum, h3, Dbl.div, Fl.div_fin _ (by norm_num)]
  -- the mean
  obtain ⟨d, hd, hd2⟩ : ∃ d : ℤ, (d = 1 ∨ d = -1) ∧ |(k : ℝ) * 2 ^ 2 / 3 - (2 ^ 53 - 2 + d)| ≤ 1 / 3 := by
    rcases hk with rfl | rfl
    · exact ⟨1, Or.inl rfl, by norm_num [abs_le]⟩
    · exact ⟨-1, Or.inr rfl, by norm_num [abs_le]⟩
  have hdsq : (d : ℝ) ^ 2 = 1 := by rcases hd with rfl | rfl <;> norm_num
  have hdl : (-1 : ℝ) ≤ d ∧ (d : ℝ) ≤ 1 := by rcases hd with rfl | rfl <;> norm_num
  have hdd : Spec.IsDouble ((2 : ℝ) ^ 53 - 2 + d) := by
    refine ⟨2 ^ 53 - 2 + d, 0, ?_, by norm_num, by norm_num, by push_cast; norm_num⟩
    rcases hd with rfl | rfl <;> norm_num
  have hd2' := abs_le.1 hd2
  obtain ⟨w, w1, w2, w3⟩ := h.1 ((k : ℝ) * 2 ^ 2 / 3) (range _ (by
    rw [abs_le]
    constructor <;> norm_num at hd2' ⊢ <;> linarith))
  have w4 := abs_le.1 ((w3 _ hdd).trans hd2)
  obtain ⟨j, rfl⟩ := double_multiple w2 0 (by
    rw [abs_of_pos (by norm_num at hd2' w4 ⊢; linarith)]
    norm_num at hd2' w4 ⊢
    linarith)
  have hj : j = 2 ^ 53 - 2 + d := by
    have j1 : (j : ℝ) < 2 ^ 53 - 2 + d + 1 := by norm_num at hd2' w4 ⊢; linarith
    have j2 : (2 ^ 53 - 2 + d : ℝ) < j + 1 := by norm_num at hd2' w4 ⊢; linarith
    have j1' : j < 2 ^ 53 - 2 + d + 1 := by exact_mod_cast j1
    have j2' : 2 ^ 53 - 2 + d < j + 1 := by exact_mod_cast j2
    omega
  refine ⟨d, hdsq, ?_, ?_⟩
  · show rnd _ = _
    rw [w1, hj]
    push_cast
    norm_num
  · rw [sub_fin_rnd, show (2 : ℝ) ^ 53 - 2 - (2 ^ 53 - 2 + d) = ((-d : ℤ) : ℝ) by push_cast; ring,
      rnd_int h (-d) (by rcases hd with rfl | rfl <;> norm_num)]
    push_cast
    rfl

theorem std_off {rnd : ℝ → Fl} (h : Spec.Rounding rnd) :
    Dbl.std rnd Spec.leftToRight [.fin (2 ^ 53 - 2), .fin (2 ^ 53 - 2), .fin (2 ^ 53 - 2)] = .fin 1 := by
  unfold Dbl.std
  rw [if_neg (by simp)]
  simp only [List.length_cons, List.length_nil, Nat.reduceAdd]
  have hf : ∀ i : Fin 3, [Fl.fin (2 ^ 53 - 2), Fl.fin (2 ^ 53 - 2), Fl.fin (2 ^ 53 - 2)].get i = .fin (2 ^ 53 - 2) := by
    intro i
    fin_cases i <;> rfl
  obtain ⟨d, d1, d2, d3⟩ := mean_off h (fun _ => .fin (2 ^ 53 - 2)) fun _ => rfl
  have r1 := rnd_int h 1 (by norm_num)
  have r2 := rnd_int h 2 (by norm_num)
  have r3 := rnd_int h 3 (by norm_num)
  rw [Int.cast_one] at r1
  rw [Int.cast_ofNat] at r2 r3
  have hsq : Dbl.mul rnd (.fin (-d)) (.fin (-d)) = .fin 1 := by
    show rnd (-d * -d) = _
    rw [show -d * -d = 1 by linarith [d1, sq d], r1]
  simp only [hf]
  rw [d2, d3, hsq]
  have hsum : (Spec.leftToRight 3).eval rnd (fun _ => .fin 1) = .fin 3 := by
    show Dbl.add rnd (rnd (1 + 1)) (.fin 1) = _
    rw [show (1 : ℝ) + 1 = 2 by norm_num, r2]
    show rnd (2 + 1) = _
    rw [show (2 : ℝ) + 1 = 3 by norm_num, r3]
  have h3 : Dbl.ofInt rnd ((3 : ℕ) : ℤ) = .fin 3 := by
    unfold Dbl.ofInt
    rw [Nat.cast_ofNat, Int.cast_ofNat, r3]
  rw [hsum, Dbl.sqrtMean, h3, Dbl.div, Fl.div_fin _ (by norm_num)]
  show Dbl.sqrt rnd (rnd (3 / 3)) = _
  rw [show (3 : ℝ) / 3 = 1 by norm_num, r1]
  have e : Fl.sqrt (.fin 1) = .fin 1 := by simp [Fl.sqrt]
  rw [Dbl.sqrt, e]
  exact r1

/-- **C147.**  Equal samples: in exact arithmetic they have no noise and the ratio is infinite, in doubles their mean may
be another number, and the ratio is finite. -/
theorem C147_equal {rnd : ℝ → Fl} (h : Spec.Rounding rnd) :
    snr (m := 1) (n := 3) (fun _ => some (2 ^ 53 - 2)) (fun _ => 0) (fun _ => 0) 0 1 = .ok .pinf ∧
    Dbl.snr rnd Spec.leftToRight (m := 1) (n := 3) (fun _ => Spec.cell (some (2 ^ 53 - 2))) (fun _ => .fin 0) (fun _ => .fin 0)
      (.fin 0) (.fin 1) = .ok (.fin (2 ^ 53 - 2)) := by
  classical
  have hpk : Spec.Peak (m := 1) (n := 3) (fun _ => some ((2 : ℝ) ^ 53 - 2)) (2 ^ 53 - 2) :=
    ⟨⟨(0, 0), rfl⟩, fun q x hx => (Option.some.inj hx).symm.le⟩
  constructor
  · refine (C35_value (m := 1) (n := 3) (fun _ => some (2 ^ 53 - 2)) (fun _ => 0) (fun _ => 0) 0 1 Finset.univ ?_ (2 ^ 53 - 2)
      (2 ^ 53 - 2) 0 hpk ⟨(0, 0), Finset.mem_univ _⟩ ?_ le_rfl ?_).2 rfl (by norm_num)
    · intro q
      simp
    · simp
      norm_num
    · simp
  · have r0 := rnd_zero h
    have r1 : rnd 1 = .fin 1 := round_self h isDouble_one
    have hnear : ∀ q : Fin 1 × Fin 3, Dbl.nearCentre rnd (fun _ => .fin 0) (fun _ => .fin 0) (.fin 0) (.fin 1) q := fun q => by
      show Fl.lt (Dbl.sumSq rnd (rnd (0 - 0)) (rnd (0 - 0))) (rnd (1 * 1))
      rw [sub_zero, r0, mul_one, r1]
      show Fl.lt (Dbl.add rnd (rnd (0 * 0)) (rnd (0 * 0))) _
      rw [mul_zero, r0]
      show Fl.lt (rnd (0 + 0)) _
      rw [add_zero, r0]
      exact zero_lt_one
    unfold Dbl.snr Dbl.nanstd
    simp only [nanmaxD _ _ hpk, bind, Except.bind, pure, Except.pure]
    have hl : ((Dbl.pixels 1 3).filter fun q =>
        Dbl.nearCentre rnd (fun _ => .fin 0) (fun _ => .fin 0) (.fin 0) (.fin 1) q) = [(0, 0), (0, 1), (0, 2)] := by
      rw [List.filter_eq_self.2 fun q _ => decide_eq_true (hnear q)]
      rfl
    rw [hl]
    show Except.ok (Dbl.div rnd _ (Dbl.std rnd Spec.leftToRight
      [.fin (2 ^ 53 - 2), .fin (2 ^ 53 - 2), .fin (2 ^ 53 - 2)])) = _
    rw [std_off h, Dbl.div, Fl.div_fin _ one_ne_zero, div_one]
    exact congrArg Except.ok (round_self h ⟨2 ^ 53 - 2, 0, by norm_num, by norm_num, by norm_num, by norm_num⟩)

/-- Two samples 1 and 3 in the disc, a nan sample there, and the peak 100 outside: the ratio is 100, in doubles but for
1e-11. -/
example {rnd : ℝ → Fl} (h : Spec.Rounding rnd) : ∃ z, Dbl.snr rnd Spec.leftToRight (m := 1) (n := 4)
      (fun q => Spec.cell (![some 1, some 3, none, some 100] q.2)) (fun j => .fin (![0, 1 / 2, 0, 10] j))
      (fun i => .fin (![0] i)) (.fin 0) (.fin 1) = .ok (.fin z) ∧ |z - 100| ≤ 1e-11 := by
  have d1 : ∀ n : ℕ, n < 200 → Spec.IsDouble n ∧ |(n : ℝ)| ≤ 2 ^ 200 := fun n hn => by
    have h1 := isDouble_int (z := (n : ℤ)) (by rw [abs_of_nonneg (by positivity)]; omega)
    have h2 : (n : ℝ) ≤ 200 := by exact_mod_cast hn.le
    have h3 : (0 : ℝ) ≤ n := Nat.cast_nonneg n
    refine ⟨by exact_mod_cast h1, ?_⟩
    rw [abs_of_nonneg h3]
    norm_num only
    linarith
  have d0 := d1 0 (by norm_num)
  have dh : Spec.IsDouble (1 / 2) ∧ |(1 / 2 : ℝ)| ≤ 2 ^ 200 :=
    ⟨⟨1, -1, by norm_num, by norm_num, by norm_num, by norm_num⟩, by rw [abs_of_pos (by norm_num)]; norm_num⟩
  have d3 := d1 3 (by norm_num)
  have d10 := d1 10 (by norm_num)
  have d100 := d1 100 (by norm_num)
  have d1' := d1 1 (by norm_num)
  push_cast at d0 d1' d3 d10 d100
  have hκ := tiny_le (k := -490) (by norm_num)
  have hτ := tiny_le (k := -1075) (by norm_num)
  have hdep : Spec.depth (Spec.leftToRight 2) = 1 := rfl
  obtain ⟨δ, hδ⟩ : ∃ δ : ℝ, δ = (1.02 * ((1 : ℕ) : ℝ) + 6) / 2 ^ 53 * (1 + 3) + 2 ^ (-490 : ℤ) := ⟨_, rfl⟩
  have hδb : δ ≤ 1 / 10 ^ 14 := by
    rw [hδ]
    generalize (2 : ℝ) ^ (-490 : ℤ) = y at *
    norm_num at hκ ⊢
    linarith
  have hS : ∀ q : Fin 1 × Fin 4, q ∈ ({(0, 0), (0, 1)} : Finset (Fin 1 × Fin 4)) ↔ q = (0, 0) ∨ q = (0, 1) := fun q => by simp
  have hcd : ({(0, 0), (0, 1)} : Finset (Fin 1 × Fin 4)).card = 2 := rfl
  have honce : Spec.Once (Spec.leftToRight 2) := by
    have e : Spec.terms (Spec.leftToRight 2) = [0, 1] := rfl
    have e' : List.finRange 2 = [0, 1] := rfl
    unfold Spec.Once
    rw [e, e']
  obtain ⟨z, z1, -, z3⟩ := C147_snr h Spec.leftToRight (m := 1) (n := 4) (fun q => ![some 1, some 3, none, some 100] q.2)
    ![0, 1 / 2, 0, 10] ![0] 0 1
    (by
      rintro ⟨i, j⟩ x hx
      fin_cases j <;> simp at hx <;> subst hx <;> assumption)
    (by
      intro j
      fin_cases j
      · exact d0
      · exact dh
      · exact d0
      · exact d10)
    (by intro j; fin_cases j; simpa using d0) d0 (by norm_num) (by norm_num)
    (by
      rintro ⟨i, j⟩ -
      fin_cases i
      fin_cases j <;> norm_num)
    {(0, 0), (0, 1)}
    (by
      rintro ⟨i, j⟩
      rw [hS]
      fin_cases i
      fin_cases j
      · exact ⟨fun _ => ⟨by norm_num, Option.some_ne_none _⟩, fun _ => Or.inl rfl⟩
      · exact ⟨fun _ => ⟨by norm_num, Option.some_ne_none _⟩, fun _ => Or.inr rfl⟩
      · exact ⟨fun hq => by simp at hq, fun hq => absurd rfl hq.2⟩
      · exact ⟨fun hq => by simp at hq, fun hq => absurd hq.1 (by norm_num)⟩)
    ⟨(0, 0), by simp⟩ (by rw [hcd]; norm_num) (by rw [hcd]; exact honce) (by rw [hcd, hdep]; norm_num) 3 (by
      intro q hq x hx
      rw [hS] at hq
      rcases hq with rfl | rfl <;> simp at hx <;> subst hx <;> norm_num) (by norm_num) 100 2 1
    ⟨⟨(0, 3), rfl⟩, by
      rintro ⟨i, j⟩ x hx
      fin_cases j <;> simp at hx <;> subst hx <;> norm_num⟩
    (by rw [hcd, Finset.sum_pair (by simp)]; simp; norm_num) zero_le_one
    (by rw [hcd, Finset.sum_pair (by simp)]; simp; norm_num) δ (by rw [hδ, hcd, hdep]) (by linarith)
  refine ⟨z, z1, ?_⟩
  rw [div_one, div_one, div_one, abs_of_pos (by norm_num : (0 : ℝ) < 100)] at z3
  generalize (2 : ℝ) ^ (-1075 : ℤ) = y at *
  refine z3.trans ?_
  norm_num at hτ hδb ⊢
  linarith

end Verif.Props
