import Verif.Model.DoubleRms
import Verif.Props.DoubleIllum
import Verif.Props.DoubleActuator
import Verif.Props.DoublePhase

/-!
# The rms and the efficiency in doubles: C131
-/

namespace Verif.Props

open Verif Finset

/-! ## What an order of additions is -/

/-- The numbers that are added. -/
def Spec.terms {k : ℕ} : Dbl.Adds k → List (Fin k)
  | .zero => []
  | .item i => [i]
  | .both a b => Spec.terms a ++ Spec.terms b

/-- The largest number of additions that a number goes through. -/
def Spec.depth {k : ℕ} : Dbl.Adds k → ℕ
  | .zero => 0
  | .item _ => 0
  | .both a b => max (Spec.depth a) (Spec.depth b) + 1

/-- Every number is added exactly once. -/
def Spec.Once {k : ℕ} (t : Dbl.Adds k) : Prop := (Spec.terms t).Perm (List.finRange k)

/-! ## Sums of doubles -/

/-- A small sum of two doubles is a double. -/
theorem isDouble_add_small {x y : ℝ} (hx : Spec.IsDouble x) (hy : Spec.IsDouble y) (h : |x + y| < 2 ^ (-1022 : ℤ)) :
    Spec.IsDouble (x + y) := by
  obtain ⟨m, q, -, hq, -, rfl⟩ := hx
  obtain ⟨n, s, -, hs, -, rfl⟩ := hy
  have e : ∀ (m q : ℤ), -1074 ≤ q → (m : ℝ) * 2 ^ q = ((m * 2 ^ (q + 1074).toNat : ℤ) : ℝ) * 2 ^ (-1074 : ℤ) := by
    intro m q hq
    have h1 : (q + 1074).toNat = q + 1074 := Int.toNat_of_nonneg (by omega)
    rw [Int.cast_mul, Int.cast_pow, Int.cast_ofNat, mul_assoc, ← zpow_natCast, h1, ← zpow_add₀ two_ne_zero]
    congr 2
    ring
  rw [e m q hq, e n s hs, ← add_mul, ← Int.cast_add] at h ⊢
  refine ⟨_, -1074, ?_, le_refl _, by norm_num, rfl⟩
  rw [abs_mul, abs_of_pos (show (0 : ℝ) < 2 ^ (-1074 : ℤ) by positivity), ← Int.cast_abs,
    show (-1022 : ℤ) = 52 + -1074 by norm_num, zpow_add₀ two_ne_zero] at h
  have h2 := lt_of_mul_lt_mul_right h (by positivity)
  have h3 : |m * 2 ^ (q + 1074).toNat + n * 2 ^ (s + 1074).toNat| < (2 : ℤ) ^ 52 := by
    have : ((2 : ℝ) ^ (52 : ℤ)) = (((2 : ℤ) ^ 52 : ℤ) : ℝ) := by norm_num
    rw [this] at h2
    exact_mod_cast h2
  exact h3.trans (by norm_num)

/-- The sum of two doubles has no underflow error. -/
theorem add_rel {rnd : ℝ → Fl} (h : Spec.Rounding rnd) {x y : ℝ} (hx : Spec.IsDouble x) (hy : Spec.IsDouble y)
    (hb : |x + y| ≤ 2 ^ 900) :
    ∃ z, Dbl.add rnd (.fin x) (.fin y) = .fin z ∧ Spec.IsDouble z ∧ |z - (x + y)| ≤ |x + y| / 2 ^ 53 := by
  have e : Dbl.add rnd (.fin x) (.fin y) = rnd (x + y) := rfl
  rw [e]
  by_cases hs : |x + y| < 2 ^ (-1022 : ℤ)
  · have hd := isDouble_add_small hx hy hs
    exact ⟨_, round_self h hd, hd, by rw [sub_self, abs_zero]; positivity⟩
  · obtain ⟨z, h1, h2, -, h3⟩ := round_spec h (hb.trans_lt (two_pow_lt_range (by norm_num)))
    refine ⟨z, h1, h2, ?_⟩
    rcases h3 with h3 | h3
    · exact h3
    · exact absurd h3.1 hs

/-- The powers of `1 + 2 ^ -53` and `1 - 2 ^ -53`. -/
theorem ulp_pow {d : ℕ} (hd : d ≤ 2 ^ 40) :
    (1 + 1 / 2 ^ 53 : ℝ) ^ d ≤ 1 + 1.001 * d / 2 ^ 53 ∧ 1 - 1.001 * d / 2 ^ 53 ≤ (1 - 1 / 2 ^ 53 : ℝ) ^ d := by
  have hdr : (d : ℝ) ≤ 1099511627776 := by
    have : (d : ℝ) ≤ 2 ^ 40 := by exact_mod_cast hd
    rwa [show (2 : ℝ) ^ 40 = 1099511627776 by norm_num] at this
  have hd0 : (0 : ℝ) ≤ d := Nat.cast_nonneg d
  have h1 : 1 + (d : ℝ) * (-(1 / 2 ^ 53)) ≤ (1 + -(1 / 2 ^ 53 : ℝ)) ^ d :=
    one_add_mul_le_pow (by norm_num) d
  have h2 : (1 + 1 / 2 ^ 53 : ℝ) ^ d * (1 - 1 / 2 ^ 53) ^ d ≤ 1 := by
    rw [← mul_pow]
    exact pow_le_one₀ (by norm_num) (by norm_num)
  rw [← sub_eq_add_neg] at h1
  have hp : (0 : ℝ) < (1 + 1 / 2 ^ 53) ^ d := by positivity
  generalize (1 + 1 / 2 ^ 53 : ℝ) ^ d = p at *
  generalize (1 - 1 / 2 ^ 53 : ℝ) ^ d = q at *
  have hx : (d : ℝ) / 2 ^ 53 ≤ 1 / 2 ^ 13 := by
    rw [div_le_div_iff₀ (by positivity) (by positivity)]
    norm_num only
    linarith
  have hx0 : 0 ≤ (d : ℝ) / 2 ^ 53 := by positivity
  have e1 : 1.001 * (d : ℝ) / 2 ^ 53 = 1.001 * ((d : ℝ) / 2 ^ 53) := by ring
  have e2 : (d : ℝ) * (-(1 / 2 ^ 53)) = -((d : ℝ) / 2 ^ 53) := by ring
  rw [e2] at h1
  rw [e1]
  generalize (d : ℝ) / 2 ^ 53 = x at *
  norm_num at hx
  constructor
  · have h3 : p * (1 - x) ≤ 1 := (mul_le_mul_of_nonneg_left (by linarith) hp.le).trans h2
    by_contra hc
    push Not at hc
    have h4 : (1 + 1.001 * x) * (1 - x) < 1 := lt_of_lt_of_le (mul_lt_mul_of_pos_right hc (by linarith)) h3
    nlinarith
  · linarith

/-- The sum in any order, of numbers that are not negative. -/
theorem eval_near {rnd : ℝ → Fl} (h : Spec.Rounding rnd) {k : ℕ} {s : Fin k → ℝ} (hs : ∀ i, Spec.IsDouble (s i))
    (h0 : ∀ i, 0 ≤ s i) (t : Dbl.Adds k) (hd : Spec.depth t ≤ 2 ^ 40) (hS : ((Spec.terms t).map s).sum ≤ 2 ^ 890) :
    ∃ c, t.eval rnd (fun i => .fin (s i)) = .fin c ∧ Spec.IsDouble c ∧
      (1 - 1 / 2 ^ 53) ^ Spec.depth t * ((Spec.terms t).map s).sum ≤ c ∧
      c ≤ (1 + 1 / 2 ^ 53) ^ Spec.depth t * ((Spec.terms t).map s).sum := by
  have hnn : ∀ t : Dbl.Adds k, 0 ≤ ((Spec.terms t).map s).sum := fun t =>
    List.sum_nonneg (by simp only [List.mem_map]; rintro _ ⟨i, -, rfl⟩; exact h0 i)
  induction t with
  | zero => exact ⟨0, rfl, isDouble_zero, by simp [Spec.terms], by simp [Spec.terms]⟩
  | item i => exact ⟨s i, rfl, hs i, by simp [Spec.terms, Spec.depth], by simp [Spec.terms, Spec.depth]⟩
  | both a b iha ihb =>
    have hd1 : Spec.depth a + 1 ≤ Spec.depth (.both a b) := Nat.add_le_add_right (le_max_left _ _) 1
    have hd2 : Spec.depth b + 1 ≤ Spec.depth (.both a b) := Nat.add_le_add_right (le_max_right _ _) 1
    have hsum : ((Spec.terms (.both a b)).map s).sum = ((Spec.terms a).map s).sum + ((Spec.terms b).map s).sum := by
      simp [Spec.terms]
    have ha0 := hnn a
    have hb0 := hnn b
    rw [hsum] at hS ⊢
    obtain ⟨x, hx, hxd, hx1, hx2⟩ := iha (by omega) (by linarith)
    obtain ⟨y, hy, hyd, hy1, hy2⟩ := ihb (by omega) (by linarith)
    have hD := Spec.depth (.both a b) |>.le_refl
    obtain ⟨D, hDe⟩ : ∃ D, Spec.depth (.both a b) = D + 1 := ⟨max (Spec.depth a) (Spec.depth b), rfl⟩
    rw [hDe] at hd1 hd2 hd ⊢
    generalize ((Spec.terms a).map s).sum = A at *
    generalize ((Spec.terms b).map s).sum = B at *
    have hup : ∀ d ≤ D, (1 + 1 / 2 ^ 53 : ℝ) ^ d ≤ (1 + 1 / 2 ^ 53) ^ D := fun d hd =>
      pow_le_pow_right₀ (by norm_num) hd
    have hlo : ∀ d ≤ D, (1 - 1 / 2 ^ 53 : ℝ) ^ D ≤ (1 - 1 / 2 ^ 53) ^ d := fun d hd =>
      pow_le_pow_of_le_one (by norm_num) (by norm_num) hd
    have hx2' : x ≤ (1 + 1 / 2 ^ 53) ^ D * A := hx2.trans (mul_le_mul_of_nonneg_right (hup _ (by omega)) ha0)
    have hy2' : y ≤ (1 + 1 / 2 ^ 53) ^ D * B := hy2.trans (mul_le_mul_of_nonneg_right (hup _ (by omega)) hb0)
    have hx1' : (1 - 1 / 2 ^ 53) ^ D * A ≤ x := le_trans (mul_le_mul_of_nonneg_right (hlo _ (by omega)) ha0) hx1
    have hy1' : (1 - 1 / 2 ^ 53) ^ D * B ≤ y := le_trans (mul_le_mul_of_nonneg_right (hlo _ (by omega)) hb0) hy1
    have hq0 : (0 : ℝ) ≤ (1 - 1 / 2 ^ 53) ^ D := pow_nonneg (by norm_num) D
    have hx0 : 0 ≤ x := le_trans (by positivity) hx1'
    have hy0 : 0 ≤ y := le_trans (by positivity) hy1'
    have hp2 : (1 + 1 / 2 ^ 53 : ℝ) ^ D ≤ 2 := by
      refine (ulp_pow (d := D) (by omega)).1.trans ?_
      have : (D : ℝ) ≤ 1099511627776 := by exact_mod_cast (show D ≤ 1099511627776 by omega)
      generalize (D : ℝ) = D' at *
      norm_num only
      linarith
    have hbig : |x + y| ≤ 2 ^ 900 := by
      rw [abs_of_nonneg (by linarith)]
      have h1 : x + y ≤ 2 * (A + B) := by
        have := mul_le_mul_of_nonneg_right hp2 (show 0 ≤ A + B by linarith)
        linarith
      have h2 : (2 : ℝ) * 2 ^ 890 ≤ 2 ^ 900 := by
        rw [← pow_succ']
        exact two_pow_le (by norm_num)
      generalize (2 : ℝ) ^ 900 = u at *
      generalize (2 : ℝ) ^ 890 = v at *
      linarith
    obtain ⟨z, hz, hzd, hze⟩ := add_rel h hxd hyd hbig
    refine ⟨z, ?_, hzd, ?_, ?_⟩
    · rw [Dbl.Adds.eval, hx, hy, hz]
    · rw [pow_succ]
      rw [abs_of_nonneg (show 0 ≤ x + y by linarith)] at hze
      have := (abs_le.1 hze).1
      have h3 : (1 - 1 / 2 ^ 53) ^ D * (A + B) * (1 - 1 / 2 ^ 53) ≤ (x + y) * (1 - 1 / 2 ^ 53) :=
        mul_le_mul_of_nonneg_right (by linarith) (by norm_num)
      linarith
    · rw [pow_succ]
      rw [abs_of_nonneg (show 0 ≤ x + y by linarith)] at hze
      have := (abs_le.1 hze).2
      have h3 : (x + y) * (1 + 1 / 2 ^ 53) ≤ (1 + 1 / 2 ^ 53) ^ D * (A + B) * (1 + 1 / 2 ^ 53) :=
        mul_le_mul_of_nonneg_right (by linarith) (by norm_num)
      linarith

/-- A square root forgives: `sqrt_near` for any relative error. -/
theorem sqrt_near_rel {r s A κ : ℝ} (hr : 0 ≤ r) (hκ : 0 ≤ κ) (hA : 0 ≤ A) (hA1 : A ≤ 1)
    (hs : |s - r ^ 2| ≤ A * r ^ 2 + κ ^ 2) : |Real.sqrt s - r| ≤ A * r + κ := by
  have h1 := abs_le.1 hs
  have hAr : 0 ≤ A * r := mul_nonneg hA hr
  rw [abs_le]
  constructor
  · by_cases hw : r * (1 - A) ≤ κ
    · have := Real.sqrt_nonneg s
      linarith
    · push Not at hw
      have h2 : r * (1 - A) - κ ≤ Real.sqrt s := by
        apply Real.le_sqrt_of_sq_le
        have h3 : (r * (1 - A)) ^ 2 ≤ r ^ 2 * (1 - A) := by
          have : 0 ≤ r ^ 2 * (1 - A) * A := mul_nonneg (mul_nonneg (sq_nonneg r) (by linarith)) hA
          nlinarith
        nlinarith
      linarith
  · have h2 : Real.sqrt s ≤ r * (1 + A) + κ := by
      rw [Real.sqrt_le_left (by positivity)]
      have h3 : r ^ 2 * (1 + A) ≤ (r * (1 + A)) ^ 2 := by
        have : 0 ≤ r ^ 2 * (1 + A) * A := by positivity
        nlinarith
      have h4 : 0 ≤ r * (1 + A) * κ := by positivity
      nlinarith
    linarith

/-- The root of the mean of the squares. -/
theorem rootMean_near {rnd : ℝ → Fl} (h : Spec.Rounding rnd) {k : ℕ} (t : Dbl.Adds k) (ht : Spec.Once t)
    (hd : Spec.depth t ≤ 2 ^ 40) (f : Fin k → Fl) (v : Fin k → ℝ)
    (hv : ∀ i, f i = .nan ∧ v i = 0 ∨ f i = .fin (v i)) (hb : ∀ i, |v i| ≤ 2 ^ 300) (size : ℕ) (h1 : 1 ≤ size)
    (hk : k ≤ size) (h2 : size ≤ 2 ^ 50) :
    ∃ z, Dbl.sqrtMean rnd (t.eval rnd fun i => Dbl.nanZero (Dbl.mul rnd (f i) (f i))) size = .fin z ∧ Spec.IsDouble z ∧
      0 ≤ z ∧ |z - Real.sqrt ((∑ i, v i ^ 2) / size)| ≤
        (1.01 * Spec.depth t + 4) / 2 ^ 53 * Real.sqrt ((∑ i, v i ^ 2) / size) + 2 ^ (-500 : ℤ) := by
  have hη0 : (0 : ℝ) < 2 ^ (-1075 : ℤ) := by positivity
  have hη1 := tiny_le (k := -1075) (by norm_num)
  have hη2 : (5 : ℝ) * 2 ^ (-1075 : ℤ) ≤ (2 ^ (-530 : ℤ)) ^ 2 := by
    have e1 : ((2 : ℝ) ^ (-530 : ℤ)) ^ 2 = 2 ^ (15 : ℤ) * 2 ^ (-1075 : ℤ) := by
      rw [← zpow_natCast, ← zpow_mul, ← zpow_add₀ two_ne_zero]
      norm_num
    rw [e1]
    exact mul_le_mul_of_nonneg_right (by norm_num) hη0.le
  have hη3 : (2 : ℝ) * 2 ^ (-530 : ℤ) + 2 ^ (-1075 : ℤ) ≤ 2 ^ (-500 : ℤ) := by
    have e1 : (2 : ℝ) ^ (-500 : ℤ) = 2 ^ (30 : ℤ) * 2 ^ (-530 : ℤ) := by
      rw [← zpow_add₀ two_ne_zero]
      norm_num
    have e2 : (2 : ℝ) ^ (-1075 : ℤ) ≤ 2 ^ (-530 : ℤ) := zpow_le_zpow_right₀ one_le_two (by norm_num)
    have e3 : (0 : ℝ) < 2 ^ (-530 : ℤ) := by positivity
    rw [e1]
    norm_num only
    norm_num only at e2 e3
    linarith
  have hκ0 : (0 : ℝ) < 2 ^ (-530 : ℤ) := by positivity
  have hκ1 := tiny_le (k := -530) (by norm_num)
  have hvsq : ∀ i, v i ^ 2 ≤ 2 ^ 600 := by
    intro i
    have := pow_le_pow_left₀ (abs_nonneg _) (hb i) 2
    rwa [sq_abs, ← pow_mul] at this
  -- the squares
  have hsq : ∀ i, ∃ s, Dbl.nanZero (Dbl.mul rnd (f i) (f i)) = .fin s ∧ Spec.IsDouble s ∧ 0 ≤ s ∧
      |s - v i ^ 2| ≤ v i ^ 2 / 2 ^ 53 + 2 ^ (-1075 : ℤ) := by
    intro i
    rcases hv i with ⟨e1, e2⟩ | e
    · refine ⟨0, ?_, isDouble_zero, le_refl _, ?_⟩
      · rw [e1]; rfl
      · rw [e2]; simp
    · have hm : |v i * v i| ≤ 2 ^ 900 := by
        rw [abs_of_nonneg (mul_self_nonneg _), ← sq]
        exact (hvsq i).trans (two_pow_le (by norm_num))
      obtain ⟨s, hs1, hs2, hs3⟩ := round_rel h hm
      refine ⟨s, ?_, hs2, ?_, ?_⟩
      · rw [e, show Dbl.mul rnd (.fin (v i)) (.fin (v i)) = rnd (v i * v i) from rfl, hs1]; rfl
      · have := round_mono h (mul_self_nonneg (v i)) (by simp only [abs_zero]; exact isDouble_le isDouble_zero |>.trans_le' (by simp))
          (hm.trans_lt (two_pow_lt_range (by norm_num))) (rnd_zero h) hs1
        exact this
      · rw [abs_of_nonneg (mul_self_nonneg (v i)), ← sq] at hs3
        exact hs3
  choose s hs1 hs2 hs3 hs4 using hsq
  set X := ∑ i, v i ^ 2 with hX
  have hX0 : 0 ≤ X := Finset.sum_nonneg fun i _ => sq_nonneg _
  have hperm : ((Spec.terms t).map s).sum = ∑ i, s i := by
    rw [(ht.map s).sum_eq, ← List.ofFn_eq_map, List.sum_ofFn]
  have hkr : (k : ℝ) ≤ size := by exact_mod_cast hk
  have hsr : (size : ℝ) ≤ 2 ^ 50 := by exact_mod_cast h2
  have hs1r : (1 : ℝ) ≤ size := by exact_mod_cast h1
  have hSX : |∑ i, s i - X| ≤ X / 2 ^ 53 + size * 2 ^ (-1075 : ℤ) := by
    rw [hX, ← Finset.sum_sub_distrib]
    refine (Finset.abs_sum_le_sum_abs _ _).trans ((Finset.sum_le_sum fun i _ => hs4 i).trans ?_)
    rw [Finset.sum_add_distrib, Finset.sum_div, Finset.sum_const, Finset.card_univ, Fintype.card_fin, nsmul_eq_mul]
    have := mul_le_mul_of_nonneg_right hkr hη0.le
    linarith
  have hXb : X ≤ size * 2 ^ 600 := by
    have : X ≤ ∑ _i : Fin k, (2 : ℝ) ^ 600 := Finset.sum_le_sum fun i _ => hvsq i
    rw [Finset.sum_const, Finset.card_univ, Fintype.card_fin, nsmul_eq_mul] at this
    exact this.trans (mul_le_mul_of_nonneg_right hkr (by positivity))
  have hSb : ∑ i, s i ≤ 2 ^ 890 := by
    have e1 := (abs_le.1 hSX).2
    have e2 : (size : ℝ) * 2 ^ 600 ≤ 2 ^ 650 := by
      rw [show (2 : ℝ) ^ 650 = 2 ^ 50 * 2 ^ 600 by rw [← pow_add]]
      exact mul_le_mul_of_nonneg_right hsr (by positivity)
    have e3 : (4 : ℝ) * 2 ^ 650 ≤ 2 ^ 890 := by
      rw [show (4 : ℝ) = 2 ^ 2 by norm_num, ← pow_add]
      exact two_pow_le (by norm_num)
    have e4 : (size : ℝ) * 2 ^ (-1075 : ℤ) ≤ 2 ^ 50 * (1 / 2 ^ 100) := mul_le_mul hsr hη1 hη0.le (by positivity)
    have e5 : (1 : ℝ) ≤ 2 ^ 650 := one_le_pow₀ one_le_two
    have e6 : X / 2 ^ 53 ≤ X := div_le_self hX0 (by norm_num)
    have e7 : (2 : ℝ) ^ 50 * (1 / 2 ^ 100) ≤ 1 := by norm_num
    generalize (2 : ℝ) ^ 890 = a1 at *
    generalize (2 : ℝ) ^ 650 = a2 at *
    generalize (2 : ℝ) ^ 600 = a3 at *
    generalize (2 : ℝ) ^ (-1075 : ℤ) = a4 at *
    linarith only [e1, e2, e3, e4, e5, e6, e7, hXb]
  obtain ⟨c, hc, hcd, hc1, hc2⟩ := eval_near h hs2 hs3 t hd (by rw [hperm]; exact hSb)
  rw [hperm] at hc1 hc2
  obtain ⟨hu1, hu2⟩ := ulp_pow hd
  have hdr : (Spec.depth t : ℝ) ≤ 1099511627776 := by
    have : (Spec.depth t : ℝ) ≤ 2 ^ 40 := by exact_mod_cast hd
    rwa [show (2 : ℝ) ^ 40 = 1099511627776 by norm_num] at this
  have hd0 : (0 : ℝ) ≤ Spec.depth t := Nat.cast_nonneg _
  have hS0 : 0 ≤ ∑ i, s i := Finset.sum_nonneg fun i _ => hs3 i
  set A : ℝ := 1.001 * Spec.depth t / 2 ^ 53 with hA
  have hA0 : 0 ≤ A := by positivity
  have hA1 : A ≤ 1 / 2000 := by
    rw [hA, div_le_iff₀ (by positivity)]
    norm_num only
    linarith
  have hcS : |c - ∑ i, s i| ≤ A * ∑ i, s i := by
    have e1 := mul_le_mul_of_nonneg_right hu1 hS0
    have e2 := mul_le_mul_of_nonneg_right hu2 hS0
    rw [abs_le]
    constructor <;> linarith
  have hcX : |c - X| ≤ (A + 1.001 / 2 ^ 53) * X + size * (2 * 2 ^ (-1075 : ℤ)) := by
    have e1 : c - X = (c - ∑ i, s i) + (∑ i, s i - X) := by ring
    rw [e1]
    refine (abs_add_le _ _).trans ((add_le_add hcS hSX).trans ?_)
    have e2 : A * ∑ i, s i ≤ A * (X + (X / 2 ^ 53 + size * 2 ^ (-1075 : ℤ))) :=
      mul_le_mul_of_nonneg_left (by linarith [(abs_le.1 hSX).2]) hA0
    have e3 : A * (X / 2 ^ 53 + size * 2 ^ (-1075 : ℤ)) ≤ 1 / 2000 * (X / 2 ^ 53 + size * 2 ^ (-1075 : ℤ)) :=
      mul_le_mul_of_nonneg_right hA1 (by positivity)
    have e4 : 0 ≤ (size : ℝ) * 2 ^ (-1075 : ℤ) := by positivity
    have e5 : (size : ℝ) * (2 * 2 ^ (-1075 : ℤ)) = 2 * (size * 2 ^ (-1075 : ℤ)) := by ring
    rw [e5]
    generalize (size : ℝ) * 2 ^ (-1075 : ℤ) = w at *
    linarith only [e2, e3, e4, hX0]
  have hc0 : 0 ≤ c := by
    refine le_trans (mul_nonneg (pow_nonneg (by norm_num) _) hS0) hc1
  -- the mean
  have hsz : Dbl.ofInt rnd (size : ℤ) = .fin size := by
    have := round_self h (isDouble_int (z := (size : ℤ)) (by
      rw [abs_of_nonneg (by positivity)]
      have : size < 2 ^ 53 := lt_of_le_of_lt h2 (by norm_num)
      exact_mod_cast this))
    unfold Dbl.ofInt
    rw [this]
    norm_cast
  have hsz0 : (size : ℝ) ≠ 0 := by positivity
  have hmean : |c / size - X / size| ≤ (A + 1.001 / 2 ^ 53) * |X / size| + 2 * 2 ^ (-1075 : ℤ) := by
    rw [← sub_div, abs_div, abs_of_pos (show (0 : ℝ) < size by positivity),
      abs_of_nonneg (show 0 ≤ X / size by positivity), div_le_iff₀ (by positivity)]
    refine hcX.trans (le_of_eq ?_)
    field_simp
  have hXs : |X / size| ≤ 2 ^ 600 := by
    rw [abs_of_nonneg (by positivity), div_le_iff₀ (by positivity)]
    linarith
  have hA2 : A + 1.001 / 2 ^ 53 ≤ 1 / 1000 := by
    norm_num at hA1 ⊢
    linarith
  obtain ⟨d, hd1, hd2, hd3⟩ := fac_step h (by positivity) hA2 (by positivity) hmean
    (hXs.trans (two_pow_le (by norm_num))) (by
      norm_num at hη1 ⊢
      linarith)
  have hdiv : Dbl.div rnd (.fin c) (.fin size) = .fin d := by
    rw [← hd1]
    simp only [Dbl.div, Fl.div, hsz0, if_false, Dbl.rop]
  have hd0' : 0 ≤ d := by
    have := round_mono h (show (0 : ℝ) ≤ c / size by positivity) (by simp only [abs_zero]; exact isDouble_le isDouble_zero |>.trans_le' (by simp))
      (by
        rw [abs_of_nonneg (by positivity)]
        have e1 := (abs_le.1 hmean).2
        have e2 : c / size ≤ 2 * |X / size| + 1 := by
          have e3 := le_abs_self (X / size)
          have e4 : (A + 1.001 / 2 ^ 53) * |X / size| ≤ 1 * |X / size| :=
            mul_le_mul_of_nonneg_right (hA2.trans (by norm_num)) (abs_nonneg _)
          norm_num at hη1 e1 e4 ⊢
          linarith
        refine lt_of_le_of_lt (e2.trans (?_ : _ ≤ (2 : ℝ) ^ 700)) (two_pow_lt_range (by norm_num))
        have e5 : (2 : ℝ) ^ 700 = 2 ^ 100 * 2 ^ 600 := by rw [← pow_add]
        have e6 : (1 : ℝ) ≤ 2 ^ 600 := one_le_pow₀ one_le_two
        rw [e5]
        generalize (2 : ℝ) ^ 600 = w at *
        linarith only [e6, hXs])
      (rnd_zero h) hd1
    exact this
  -- the root
  set r := Real.sqrt (X / size) with hr
  have hr0 : 0 ≤ r := Real.sqrt_nonneg _
  have hr2 : r ^ 2 = X / size := Real.sq_sqrt (by positivity)
  have hdr2 : |d - r ^ 2| ≤ (A + 1.001 / 2 ^ 53 + 1.001 / 2 ^ 53) * r ^ 2 + (2 ^ (-530 : ℤ)) ^ 2 := by
    rw [hr2]
    rw [abs_of_nonneg (show 0 ≤ X / size by positivity)] at hd3
    refine hd3.trans ?_
    linarith
  have hA3 : A + 1.001 / 2 ^ 53 + 1.001 / 2 ^ 53 ≤ 1 / 1000 := by
    norm_num at hA1 ⊢
    linarith
  have hroot := sqrt_near_rel hr0 hκ0.le (by positivity) (hA3.trans (by norm_num)) hdr2
  have hrb : |r| ≤ 2 ^ 890 := by
    rw [abs_of_nonneg hr0]
    have e1 : r ^ 2 ≤ (2 ^ 300) ^ 2 := by
      rw [hr2, ← pow_mul]
      exact (le_abs_self _).trans hXs
    exact (le_of_sq_le_sq e1 (by positivity)).trans (two_pow_le (by norm_num))
  obtain ⟨z, hz1, hz2, hz3⟩ := fac_step h (y := r) (τ := 2 ^ (-530 : ℤ)) (by positivity) hA3 hκ0.le
    (by rw [abs_of_nonneg hr0]; exact hroot) hrb (by norm_num at hκ1 ⊢; linarith)
  refine ⟨z, ?_, hz2, ?_, ?_⟩
  · unfold Dbl.sqrtMean
    rw [show (fun i => Dbl.nanZero (Dbl.mul rnd (f i) (f i))) = fun i => .fin (s i) from funext hs1, hc, hsz, hdiv]
    simp only [Dbl.sqrt, Fl.sqrt, not_lt.2 hd0', if_false, Dbl.rop]
    exact hz1
  · have := round_mono h (Real.sqrt_nonneg d) (by simp only [abs_zero]; exact isDouble_le isDouble_zero |>.trans_le' (by simp)) (by
        rw [abs_of_nonneg (Real.sqrt_nonneg d)]
        have e1 := (abs_le.1 hroot).2
        have e2 : Real.sqrt d ≤ 2 * r + 1 := by
          have e4 : (A + 1.001 / 2 ^ 53 + 1.001 / 2 ^ 53) * r ≤ 1 * r := mul_le_mul_of_nonneg_right (hA3.trans (by norm_num)) hr0
          norm_num at hκ1 e1 e4 ⊢
          linarith
        rw [abs_of_nonneg hr0] at hrb
        refine lt_of_le_of_lt (e2.trans (?_ : _ ≤ (2 : ℝ) ^ 900)) (two_pow_lt_range (by norm_num))
        have e5 : (2 : ℝ) ^ 900 = 2 ^ 10 * 2 ^ 890 := by rw [← pow_add]
        have e6 : (1 : ℝ) ≤ 2 ^ 890 := one_le_pow₀ one_le_two
        rw [e5]
        generalize (2 : ℝ) ^ 890 = w at *
        linarith only [e6, hrb]) (rnd_zero h) hz1
    exact this
  · rw [abs_of_nonneg hr0] at hz3
    refine hz3.trans ?_
    have e1 : A + 1.001 / 2 ^ 53 + 1.001 / 2 ^ 53 + 1.001 / 2 ^ 53 ≤ (1.01 * Spec.depth t + 4) / 2 ^ 53 := by
      rw [hA, ← add_div, ← add_div, ← add_div, div_le_div_iff_of_pos_right (by positivity)]
      linarith
    have e2 := mul_le_mul_of_nonneg_right e1 hr0
    linarith

end Verif.Props
