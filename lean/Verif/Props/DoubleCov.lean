import Verif.Model.DoubleCov
import Verif.Props.Jacobian
import Verif.Props.DoubleRms

/-!
# The covariance matrix in the arithmetic of doubles (C145)
-/

namespace Verif.Props

open Verif Verif.MathFn Matrix

/-! ## Specification -/

/-- The sum of the squares of all entries. -/
def Spec.sizeSq {m n : ℕ} (A : Matrix (Fin m) (Fin n) ℝ) : ℝ := ∑ k, ∑ i, A k i ^ 2

/-- The product of two vectors of doubles, in any order of the additions, with or without fused operations. -/
def Spec.DotAccurate (L : Dbl.LinAlg) : Prop :=
  ∀ {k : ℕ} (x y : Fin k → ℝ), k ≤ 2 ^ 40 → (∀ i, Spec.IsDouble (x i)) → (∀ i, Spec.IsDouble (y i)) →
    ∑ i, |x i * y i| ≤ 2 ^ 800 →
    ∃ z, L.dot (fun i => .fin (x i)) (fun i => .fin (y i)) = .fin z ∧ Spec.IsDouble z ∧
      |z - ∑ i, x i * y i| ≤ k / 2 ^ 52 * ∑ i, |x i * y i| + k * 2 ^ (-1074 : ℤ)

/-- The inverse of a matrix of doubles that is not too near to a singular one: each column is the exact column for a matrix
near by, as far away as a part `ε` of its size.  And that of a diagonal matrix. -/
def Spec.InvAccurate (ε : ℝ) (L : Dbl.LinAlg) : Prop :=
  (∀ {n : ℕ} (A : Matrix (Fin n) (Fin n) ℝ) (s : ℝ), n ≤ 2 ^ 40 → (∀ i j, Spec.IsDouble (A i j)) → 1 / 2 ^ 250 ≤ s →
    Spec.sizeSq A ≤ 2 ^ 600 → Spec.Stretches A s → 16 * ε ^ 2 * Spec.sizeSq A ≤ s ^ 2 →
    ∃ X : Matrix (Fin n) (Fin n) ℝ, L.inv (fun i j => .fin (A i j)) = .ok (fun i j => .fin (X i j)) ∧
      (∀ i j, Spec.IsDouble (X i j)) ∧
      ∀ j, ∃ A' : Matrix (Fin n) (Fin n) ℝ, Spec.farSq A A' ≤ ε ^ 2 * Spec.sizeSq A ∧
        A'.mulVec (fun i => X i j) = Pi.single j 1) ∧
  ∀ {n : ℕ} (d : Fin n → ℝ), n ≤ 2 ^ 40 → (∀ i, Spec.IsDouble (d i)) → (∀ i, 1 / 2 ^ 250 ≤ d i ∧ d i ≤ 2 ^ 250) →
    ∃ g : Fin n → ℝ, (∀ i, Spec.IsDouble (g i) ∧ |g i - 1 / d i| ≤ 1 / d i / 2 ^ 52) ∧
      L.inv (fun i j => .fin (if i = j then d i else 0)) = .ok fun i j => .fin (if i = j then g i else 0)

/-- The part of the standard errors that may be lost: the errors of the products and of the inverse, times the square of
the condition number of the Jacobian (its size over its smallest singular value). -/
noncomputable def Spec.loss (m n : ℕ) (ε size sigma : ℝ) : ℝ := (((m : ℝ) + n + 1) / 2 ^ 52 + 2 * ε) * size / sigma ^ 2

/-! ## Matrices of real numbers -/

theorem gram_form {m n : ℕ} (J : Matrix (Fin m) (Fin n) ℝ) (v w : Fin n → ℝ) :
    v ⬝ᵥ (J.transpose * J).mulVec w = J.mulVec v ⬝ᵥ J.mulVec w := by
  rw [← mulVec_mulVec, dotProduct_mulVec, vecMul_transpose]

theorem dot_le {m : ℕ} {a b : Fin m → ℝ} {p q : ℝ} (hp : 0 ≤ p) (hq : 0 ≤ q) (ha : Spec.lenSq a ≤ p ^ 2)
    (hb : Spec.lenSq b ≤ q ^ 2) : |a ⬝ᵥ b| ≤ p * q := by
  refine abs_le_of_sq_le_sq ?_ (by positivity)
  refine (cauchy_dot a b).trans ?_
  rw [mul_pow]
  exact mul_le_mul ha hb (lenSq_nonneg b) (by positivity)

theorem farSq_triangle {m n : ℕ} {A B C : Matrix (Fin m) (Fin n) ℝ} {p q : ℝ} (hp : 0 ≤ p) (hq : 0 ≤ q)
    (h1 : Spec.farSq A B ≤ p ^ 2) (h2 : Spec.farSq B C ≤ q ^ 2) : Spec.farSq A C ≤ (p + q) ^ 2 := by
  unfold Spec.farSq at *
  rw [← Finset.sum_product'] at *
  have hc := Finset.sum_mul_sq_le_sq_mul_sq (Finset.univ ×ˢ Finset.univ)
    (fun q : Fin m × Fin n => B q.1 q.2 - A q.1 q.2) (fun q => C q.1 q.2 - B q.1 q.2)
  have e : ∑ x ∈ (Finset.univ : Finset (Fin m)) ×ˢ (Finset.univ : Finset (Fin n)), (C x.1 x.2 - A x.1 x.2) ^ 2 =
      ∑ x ∈ Finset.univ ×ˢ Finset.univ, (B x.1 x.2 - A x.1 x.2) ^ 2 +
      2 * ∑ x ∈ Finset.univ ×ˢ Finset.univ, (B x.1 x.2 - A x.1 x.2) * (C x.1 x.2 - B x.1 x.2) +
      ∑ x ∈ Finset.univ ×ˢ Finset.univ, (C x.1 x.2 - B x.1 x.2) ^ 2 := by
    rw [Finset.mul_sum, ← Finset.sum_add_distrib, ← Finset.sum_add_distrib]
    exact Finset.sum_congr rfl fun x _ => by ring
  rw [e]
  have n2 : 0 ≤ ∑ x ∈ (Finset.univ : Finset (Fin m)) ×ˢ (Finset.univ : Finset (Fin n)), (C x.1 x.2 - B x.1 x.2) ^ 2 :=
    Finset.sum_nonneg fun _ _ => sq_nonneg _
  have h3 : |∑ x ∈ (Finset.univ : Finset (Fin m)) ×ˢ (Finset.univ : Finset (Fin n)),
      (B x.1 x.2 - A x.1 x.2) * (C x.1 x.2 - B x.1 x.2)| ≤ p * q := by
    refine abs_le_of_sq_le_sq (hc.trans ?_) (by positivity)
    rw [mul_pow]
    exact mul_le_mul h1 h2 n2 (by positivity)
  have := (abs_le.1 h3).2
  nlinarith

/-- The entries of a matrix whose columns are exact for matrices near `Jᵀ J`. -/
theorem backward_near {m n : ℕ} {J : Matrix (Fin m) (Fin n) ℝ} {s sigma θ : ℝ} {C : Matrix (Fin n) (Fin n) ℝ} (hs : 0 < s)
    (hσ : 0 < sigma) (h : CovOf J s C) (hpos : ∀ i, 0 < C i i) (hJ : Spec.Stretches J sigma) (h0 : 0 ≤ θ) (h1 : θ ≤ 1 / 8)
    (X : Matrix (Fin n) (Fin n) ℝ)
    (hX : ∀ j, ∃ A', Spec.farSq (J.transpose * J) A' ≤ (θ * sigma ^ 2) ^ 2 ∧ A'.mulVec (fun i => X i j) = Pi.single j 1)
    (i j : Fin n) : |s * X i j - C i j| ≤ 8 / 7 * θ * (Real.sqrt (C i i) * Real.sqrt (C j j)) := by
  obtain ⟨A', hA, hx⟩ := hX j
  have hw := mulVec_far (J.transpose * J) A' (fun i => X i j)
  obtain ⟨w, hwe⟩ : ∃ w, w = (A' - J.transpose * J).mulVec (fun i => X i j) := ⟨_, rfl⟩
  have hAx : (J.transpose * J).mulVec (fun i => X i j) = Pi.single j 1 - w := by
    rw [hwe, sub_mulVec, hx, sub_sub_cancel]
  rw [← hwe] at hw
  obtain ⟨x, hxe⟩ : ∃ x : Fin n → ℝ, x = fun i => X i j := ⟨_, rfl⟩
  rw [← hxe] at hAx hw
  have hxj : ∀ i, X i j = x i := fun i => by rw [hxe]
  have hw' : Spec.lenSq w ≤ (θ * sigma ^ 2) ^ 2 * Spec.lenSq x :=
    hw.trans (mul_le_mul_of_nonneg_right hA (lenSq_nonneg x))
  have lx := lenSq_nonneg x
  have hst := hJ x
  -- the length of the image of the column
  have hQ : (1 - θ) * Spec.lenSq (J.mulVec x) ≤ X j j := by
    have e1 := gram_form J x x
    rw [hAx, ← lenSq_dot, dotProduct_sub, dotProduct_single, mul_one] at e1
    have e2 := cauchy_dot x w
    have e3 : |x ⬝ᵥ w| ≤ θ * sigma ^ 2 * Spec.lenSq x := by
      refine abs_le_of_sq_le_sq (e2.trans ?_) (by positivity)
      calc Spec.lenSq x * Spec.lenSq w ≤ Spec.lenSq x * ((θ * sigma ^ 2) ^ 2 * Spec.lenSq x) := by gcongr
        _ = _ := by ring
    have e4 := (abs_le.1 e3).1
    have e5 := mul_le_mul_of_nonneg_left hst h0
    rw [hxj j]
    nlinarith
  have key : ∀ i, (s * X i j - C i j) ^ 2 ≤ 8 / 7 * θ ^ 2 * C i i * (s * X j j) := by
    intro i
    have u1 := h.solve (Pi.single i 1) (C.mulVec (Pi.single i 1))
    have u2 := h.solve (Pi.single i 1) x
    rw [← lenSq_dot] at u1
    rw [← gram_form, hAx, dotProduct_sub] at u2
    have ce : ∀ k, C.mulVec (Pi.single i 1) k = C k i := fun k => by simp
    have u3 : C.mulVec (Pi.single i 1) ⬝ᵥ Pi.single j 1 = C i j := by
      rw [dotProduct_single, mul_one, ce]
      exact congrFun (congrFun h.sym i) j
    rw [u3] at u2
    have u4 : Pi.single i 1 ⬝ᵥ x = X i j := by rw [single_dotProduct, one_mul, hxj]
    have u5 : Pi.single i 1 ⬝ᵥ C.mulVec (Pi.single i 1) = C i i := by rw [single_dotProduct, one_mul, ce]
    rw [u4] at u2
    rw [u5] at u1
    have u6 := hJ (C.mulVec (Pi.single i 1))
    rw [← u1] at u6
    have u7 := cauchy_dot (C.mulVec (Pi.single i 1)) w
    have u8 := lenSq_nonneg (C.mulVec (Pi.single i 1))
    have e : s * X i j - C i j = -(C.mulVec (Pi.single i 1) ⬝ᵥ w) := by linarith
    rw [e, neg_sq]
    refine u7.trans ?_
    generalize Spec.lenSq (C.mulVec (Pi.single i 1)) = U at *
    generalize Spec.lenSq x = Y at *
    generalize Spec.lenSq (J.mulVec x) = Q at *
    generalize Spec.lenSq w = W at *
    have hc := (hpos i).le
    have q0 : 0 ≤ Q := le_trans (by positivity) hst
    have q1 : Q ≤ 8 / 7 * X j j := by nlinarith
    calc U * W ≤ U * ((θ * sigma ^ 2) ^ 2 * Y) := by gcongr
      _ = θ ^ 2 * (sigma ^ 2 * U) * (sigma ^ 2 * Y) := by ring
      _ ≤ θ ^ 2 * (s * C i i) * (8 / 7 * X j j) := by
        have : sigma ^ 2 * Y ≤ 8 / 7 * X j j := hst.trans q1
        gcongr
      _ = _ := by ring
  have hy : s * X j j ≤ 8 / 7 * C j j := by
    have k := key j
    have hc := hpos j
    by_contra hcon
    push Not at hcon
    generalize s * X j j = y at *
    generalize C j j = c at *
    have t2 : θ ^ 2 ≤ 1 / 64 := by
      have := pow_le_pow_left₀ h0 h1 2
      norm_num at this ⊢
      exact this
    have hcy : 0 ≤ c * y := by nlinarith
    have k2 : (y - c) ^ 2 ≤ 1 / 56 * (c * y) := by
      refine k.trans ?_
      have := mul_le_mul_of_nonneg_right t2 hcy
      nlinarith
    nlinarith
  have k := key i
  have hci := (hpos i).le
  have hcj := (hpos j).le
  refine abs_le_of_sq_le_sq (k.trans ?_) (by positivity)
  rw [mul_pow, mul_pow, mul_pow, Real.sq_sqrt hci, Real.sq_sqrt hcj]
  calc 8 / 7 * θ ^ 2 * C i i * (s * X j j) ≤ 8 / 7 * θ ^ 2 * C i i * (8 / 7 * C j j) := by gcongr
    _ = _ := by ring

/-! ## The products -/

theorem tiny_sum {k : ℕ} (hk : k ≤ 2 ^ 40) : (k : ℝ) * 2 ^ (-1074 : ℤ) ≤ 1 / 2 ^ 1000 := by
  have h1 : (k : ℝ) ≤ 2 ^ 40 := by exact_mod_cast hk
  have h2 : (2 : ℝ) ^ 40 * 2 ^ (-1074 : ℤ) = 2 ^ (-1034 : ℤ) := by
    rw [← zpow_natCast, ← zpow_add₀ two_ne_zero]; norm_num
  have h3 : (2 : ℝ) ^ (-1034 : ℤ) ≤ 2 ^ (-1000 : ℤ) := zpow_le_zpow_right₀ one_le_two (by norm_num)
  have h4 : (2 : ℝ) ^ (-1000 : ℤ) = 1 / 2 ^ 1000 := by
    rw [show (-1000 : ℤ) = -((1000 : ℕ) : ℤ) from rfl, _root_.zpow_neg, zpow_natCast, ← one_div]
  have h5 : (k : ℝ) * 2 ^ (-1074 : ℤ) ≤ 2 ^ 40 * 2 ^ (-1074 : ℤ) := by gcongr
  linarith

theorem tiny_part {a : ℝ} {k : ℕ} (hk : k ≤ 900) (h : 1 / 2 ^ k ≤ a) : (1 : ℝ) / 2 ^ 1000 ≤ a / 2 ^ 53 := by
  have h1 : (1 : ℝ) / 2 ^ 900 ≤ 1 / 2 ^ k := one_div_le_one_div_of_le (by positivity) (two_pow_le hk)
  have h2 : (1 : ℝ) / 2 ^ 1000 ≤ 1 / 2 ^ 953 := one_div_le_one_div_of_le (by positivity) (two_pow_le (by norm_num))
  have h3 : (1 : ℝ) / 2 ^ 953 = 1 / 2 ^ 900 / 2 ^ 53 := by rw [div_div, ← pow_add]
  have h4 : (1 : ℝ) / 2 ^ 900 / 2 ^ 53 ≤ a / 2 ^ 53 := by gcongr; exact h1.trans h
  linarith

theorem stretches_col {m n : ℕ} {J : Matrix (Fin m) (Fin n) ℝ} {sigma : ℝ} (hJ : Spec.Stretches J sigma) (i : Fin n) :
    sigma ^ 2 ≤ Spec.lenSq fun k => J k i := by
  have := hJ (Pi.single i 1)
  have e1 : Spec.lenSq (Pi.single i 1 : Fin n → ℝ) = 1 := by
    rw [lenSq_dot, single_dotProduct, Pi.single_eq_same, one_mul]
  have e2 : J.mulVec (Pi.single i 1) = fun k => J k i := by
    funext k; simp
  rwa [e1, mul_one, e2] at this

theorem sizeSq_cols {m n : ℕ} (J : Matrix (Fin m) (Fin n) ℝ) : Spec.sizeSq J = ∑ i, Spec.lenSq fun k => J k i :=
  Finset.sum_comm

theorem abs_dot_le {m : ℕ} (x y : Fin m → ℝ) :
    ∑ k, |x k * y k| ≤ Real.sqrt (Spec.lenSq x) * Real.sqrt (Spec.lenSq y) := by
  have h := cauchy_dot (fun k => |x k|) (fun k => |y k|)
  have e : ∀ z : Fin m → ℝ, Spec.lenSq (fun k => |z k|) = Spec.lenSq z := fun z => by simp [Spec.lenSq]
  rw [e, e] at h
  have e2 : (fun k => |x k|) ⬝ᵥ (fun k => |y k|) = ∑ k, |x k * y k| := by simp [dotProduct, abs_mul]
  rw [e2] at h
  rw [← Real.sqrt_mul (lenSq_nonneg x)]
  exact Real.le_sqrt_of_sq_le h

theorem gram_double {L : Dbl.LinAlg} (hL : Spec.DotAccurate L) {m n : ℕ} {J : Matrix (Fin m) (Fin n) ℝ} {sigma : ℝ}
    (hm : m ≤ 2 ^ 40) (hJd : ∀ k i, Spec.IsDouble (J k i)) (hσ : 1 / 2 ^ 100 ≤ sigma) (hJ : Spec.Stretches J sigma)
    (hF : Spec.sizeSq J ≤ 2 ^ 200) :
    ∃ A' : Matrix (Fin n) (Fin n) ℝ,
      (∀ i j, L.dot (fun k => .fin (J k i)) (fun k => .fin (J k j)) = .fin (A' i j) ∧ Spec.IsDouble (A' i j)) ∧
      Spec.farSq (J.transpose * J) A' ≤ (((m : ℝ) + 1) / 2 ^ 52 * Spec.sizeSq J) ^ 2 ∧
      Spec.sizeSq A' ≤ (2 * Spec.sizeSq J) ^ 2 := by
  have hσ0 : 0 < sigma := lt_of_lt_of_le (by positivity) hσ
  obtain ⟨c, hc⟩ : ∃ c : Fin n → ℝ, ∀ i, c i = Spec.lenSq fun k => J k i := ⟨_, fun _ => rfl⟩
  have c0 : ∀ i, 0 ≤ c i := fun i => hc i ▸ lenSq_nonneg _
  have cF : ∑ i, c i = Spec.sizeSq J := by rw [sizeSq_cols]; exact Finset.sum_congr rfl fun i _ => hc i
  have cs : ∀ i, sigma ≤ Real.sqrt (c i) := fun i => Real.le_sqrt_of_sq_le (hc i ▸ stretches_col hJ i)
  have cF1 : ∀ i, c i ≤ Spec.sizeSq J := fun i => cF ▸ Finset.single_le_sum (fun j _ => c0 j) (Finset.mem_univ i)
  have hab : ∀ i j, ∑ k, |J k i * J k j| ≤ Real.sqrt (c i) * Real.sqrt (c j) := fun i j => by
    rw [hc i, hc j]; exact abs_dot_le _ _
  have hFs : ∀ i j, Real.sqrt (c i) * Real.sqrt (c j) ≤ Spec.sizeSq J := fun i j => by
    have f0 : 0 ≤ Spec.sizeSq J := (c0 i).trans (cF1 i)
    have := mul_le_mul (Real.sqrt_le_sqrt (cF1 i)) (Real.sqrt_le_sqrt (cF1 j)) (Real.sqrt_nonneg _) (Real.sqrt_nonneg _)
    rwa [Real.mul_self_sqrt f0] at this
  have hd : ∀ i j, ∃ z, L.dot (fun k => .fin (J k i)) (fun k => .fin (J k j)) = .fin z ∧ Spec.IsDouble z ∧
      |z - (J.transpose * J) i j| ≤ ((m : ℝ) + 1) / 2 ^ 52 * (Real.sqrt (c i) * Real.sqrt (c j)) := by
    intro i j
    obtain ⟨z, h1, h2, h3⟩ := hL (fun k => J k i) (fun k => J k j) hm (fun k => hJd k i) (fun k => hJd k j)
      (((hab i j).trans (hFs i j)).trans (hF.trans (two_pow_le (by norm_num))))
    refine ⟨z, h1, h2, ?_⟩
    have e : (J.transpose * J) i j = ∑ k, J k i * J k j := by simp [mul_apply]
    rw [e]
    have t1 := tiny_sum hm
    have t3 : (1 : ℝ) / 2 ^ 200 ≤ Real.sqrt (c i) * Real.sqrt (c j) := by
      calc (1 : ℝ) / 2 ^ 200 = 1 / 2 ^ 100 * (1 / 2 ^ 100) := by norm_num
        _ ≤ _ := mul_le_mul (hσ.trans (cs i)) (hσ.trans (cs j)) (by positivity) (Real.sqrt_nonneg _)
    have t4 := tiny_part (by norm_num) t3
    have t5 := mul_le_mul_of_nonneg_left (hab i j) (by positivity : (0 : ℝ) ≤ m / 2 ^ 52)
    have t6 : 0 ≤ Real.sqrt (c i) * Real.sqrt (c j) := by positivity
    generalize Real.sqrt (c i) * Real.sqrt (c j) = P at *
    have e2 : ((m : ℝ) + 1) / 2 ^ 52 * P = m / 2 ^ 52 * P + 2 * (P / 2 ^ 53) := by ring
    have : 0 ≤ P / 2 ^ 53 := by positivity
    linarith
  choose z hz1 hz2 hz3 using hd
  have hw : ((m : ℝ) + 1) / 2 ^ 52 ≤ 1 := by
    have h1 : (m : ℝ) ≤ 2 ^ 40 := by exact_mod_cast hm
    have h2 : (2 : ℝ) ^ 40 + 1 ≤ 2 ^ 52 := by norm_num
    rw [div_le_one (by positivity)]
    linarith
  have hw0 : 0 ≤ ((m : ℝ) + 1) / 2 ^ 52 := by positivity
  generalize ((m : ℝ) + 1) / 2 ^ 52 = w at *
  have hsum : ∀ t : ℝ, ∑ i, ∑ j, (t * (Real.sqrt (c i) * Real.sqrt (c j))) ^ 2 = (t * Spec.sizeSq J) ^ 2 := by
    intro t
    rw [← cF, mul_pow, sq (∑ i, c i), Finset.sum_mul_sum, Finset.mul_sum]
    refine Finset.sum_congr rfl fun i _ => ?_
    rw [Finset.mul_sum]
    refine Finset.sum_congr rfl fun j _ => ?_
    rw [mul_pow, mul_pow, Real.sq_sqrt (c0 i), Real.sq_sqrt (c0 j)]
  refine ⟨z, fun i j => ⟨hz1 i j, hz2 i j⟩, ?_, ?_⟩
  · rw [← hsum]
    refine Finset.sum_le_sum fun i _ => Finset.sum_le_sum fun j _ => ?_
    rw [← sq_abs]
    exact pow_le_pow_left₀ (abs_nonneg _) (hz3 i j) 2
  · rw [← hsum]
    refine Finset.sum_le_sum fun i _ => Finset.sum_le_sum fun j _ => ?_
    rw [← sq_abs]
    refine pow_le_pow_left₀ (abs_nonneg _) ?_ 2
    have e : |(J.transpose * J) i j| ≤ Real.sqrt (c i) * Real.sqrt (c j) := by
      have e0 : (J.transpose * J) i j = ∑ k, J k i * J k j := by simp [mul_apply]
      rw [e0]
      exact (Finset.abs_sum_le_sum_abs _ _).trans (hab i j)
    have t6 : 0 ≤ Real.sqrt (c i) * Real.sqrt (c j) := by positivity
    have h3 := hz3 i j
    have h4 : |z i j| ≤ |z i j - (J.transpose * J) i j| + |(J.transpose * J) i j| := by
      have := abs_add_le (z i j - (J.transpose * J) i j) ((J.transpose * J) i j)
      rwa [sub_add_cancel] at this
    have h5 := mul_le_mul_of_nonneg_right hw t6
    linarith

/-! ## Real bounds -/

theorem scale_bound {s s' x c c' a ω θ τ : ℝ} (hs : 0 < s) (ha : 0 ≤ a) (hθ : θ ≤ 1 / 64) (hωθ : ω ≤ θ) (h0 : 0 ≤ ω)
    (hu : (1 : ℝ) / 2 ^ 53 ≤ θ / 6) (h1 : |s' - s| ≤ ω * s) (h2 : |s * x - c| ≤ 8 / 7 * θ * a) (h3 : |c| ≤ a)
    (h4 : |c' - s' * x| ≤ |s' * x| / 2 ^ 53 + τ) (hτ : τ ≤ a / 2 ^ 53) : |c' - c| ≤ 3 * θ * a := by
  have hθ0 : 0 ≤ θ := h0.trans hωθ
  have k1 : |s * x| ≤ 103 / 100 * a := by
    have : |s * x| ≤ |s * x - c| + |c| := by
      have := abs_add_le (s * x - c) c
      rwa [sub_add_cancel] at this
    nlinarith
  have k2 : |s' * x - s * x| ≤ θ * (103 / 100 * a) := by
    rw [← sub_mul, abs_mul]
    calc |s' - s| * |x| ≤ ω * s * |x| := by gcongr
      _ = ω * |s * x| := by rw [abs_mul, abs_of_pos hs]; ring
      _ ≤ θ * (103 / 100 * a) := by gcongr
  have k3 : |s' * x| ≤ 11 / 10 * a := by
    have : |s' * x| ≤ |s' * x - s * x| + |s * x| := by
      have := abs_add_le (s' * x - s * x) (s * x)
      rwa [sub_add_cancel] at this
    nlinarith
  have k4 : |s' * x| / 2 ^ 53 ≤ 11 / 10 * a * (θ / 6) := by
    rw [div_eq_mul_one_div]
    gcongr
  have k5 : a / 2 ^ 53 ≤ a * (θ / 6) := by
    rw [div_eq_mul_one_div]
    gcongr
  have k6 : |c' - c| ≤ |c' - s' * x| + |s' * x - s * x| + |s * x - c| := by
    have e : c' - c = (c' - s' * x) + (s' * x - s * x) + (s * x - c) := by ring
    rw [e]
    exact (abs_add_le _ _).trans (add_le_add_left (abs_add_le _ _) _)
  have : 0 ≤ θ * a := by positivity
  linarith

theorem recip_bound {a d g θ : ℝ} (ha : 0 < a) (hd : 0 < d) (h0 : 0 ≤ θ) (hθ : θ ≤ 1 / 64)
    (hu : (1 : ℝ) / 2 ^ 53 ≤ θ / 6) (h1 : |d - a| ≤ 7 / 2 * θ * a) (h2 : |g - 1 / d| ≤ 1 / d / 2 ^ 52) :
    |g * a - 1| ≤ 5 * θ := by
  have hu2 : (1 : ℝ) / 2 ^ 52 ≤ θ / 3 := by
    have : (1 : ℝ) / 2 ^ 52 = 2 * (1 / 2 ^ 53) := by norm_num
    linarith
  obtain ⟨l1, l2⟩ := abs_le.1 h1
  have k1 : |g * d - 1| ≤ θ / 3 := by
    have e : g * d - 1 = (g - 1 / d) * d := by field_simp
    rw [e, abs_mul, abs_of_pos hd]
    calc |g - 1 / d| * d ≤ 1 / d / 2 ^ 52 * d := by gcongr
      _ = 1 / 2 ^ 52 := by field_simp
      _ ≤ _ := hu2
  have hdl : 15 / 16 * a ≤ d := by nlinarith
  -- g * a - 1 = (g d - 1) (a / d) + (a - d) / d
  have k2 : |g * a - 1| * d ≤ 5 * θ * d := by
    have e : (g * a - 1) * d = (g * d - 1) * a + (a - d) := by ring
    rw [← abs_of_pos hd, ← abs_mul, abs_of_pos hd, e]
    refine (abs_add_le _ _).trans ?_
    rw [abs_mul, abs_of_pos ha, abs_sub_comm a d]
    have := mul_le_mul_of_nonneg_right k1 ha.le
    have := mul_le_mul_of_nonneg_left hdl h0
    nlinarith
  exact le_of_mul_le_mul_right k2 hd

theorem corr_scaled {ρ y k z e θ K τ : ℝ} (h0 : 0 ≤ θ) (hθ : θ ≤ 1 / 64) (hK0 : 0 ≤ K) (hK : K ≤ 12) (hρ : |ρ| ≤ 1)
    (hy : |y - ρ| ≤ K * θ) (hk : |k - 1| ≤ 5 * θ) (he0 : 0 ≤ e) (he : e ≤ θ) (hz : |z - y * k| ≤ e * |y * k| + τ)
    (hτ : τ ≤ θ / 16) : |z - ρ| ≤ (K + 8) * θ := by
  have y1 : |y| ≤ 1 + K * θ := by
    have := abs_add_le (y - ρ) ρ
    rw [sub_add_cancel] at this
    linarith
  have hKθ : K * θ ≤ 3 / 16 := by nlinarith
  have y2 : |y| ≤ 19 / 16 := by linarith
  have k1 : |k| ≤ 69 / 64 := by
    have := abs_add_le (k - 1) 1
    rw [sub_add_cancel, abs_one] at this
    linarith
  have p1 : |y * k - y| ≤ 19 / 16 * (5 * θ) := by
    have e : y * k - y = y * (k - 1) := by ring
    rw [e, abs_mul]
    gcongr
  have p2 : |y * k| ≤ 21 / 16 := by
    rw [abs_mul]
    calc |y| * |k| ≤ 19 / 16 * (69 / 64) := by gcongr
      _ ≤ 21 / 16 := by norm_num
  have p3 : e * |y * k| ≤ θ * (21 / 16) := by gcongr
  have p4 : |z - ρ| ≤ |z - y * k| + |y * k - y| + |y - ρ| := by
    have e : z - ρ = (z - y * k) + (y * k - y) + (y - ρ) := by ring
    rw [e]
    exact (abs_add_le _ _).trans (add_le_add_left (abs_add_le _ _) _)
  linarith

/-! ## The matrices -/

theorem stretches_le {m n : ℕ} {J : Matrix (Fin m) (Fin n) ℝ} {sigma : ℝ} (hσ : 0 < sigma) (hJ : Spec.Stretches J sigma) :
    n ≤ m := by
  have h : Function.Injective J.mulVecLin := by
    rw [← LinearMap.ker_eq_bot, LinearMap.ker_eq_bot']
    exact fun v hv => stretches_rank hσ hJ v (by simpa using hv)
  simpa using LinearMap.finrank_le_finrank_of_injective h

theorem gram_stretches {m n : ℕ} {J : Matrix (Fin m) (Fin n) ℝ} {sigma : ℝ} (hσ : 0 < sigma) (hJ : Spec.Stretches J sigma) :
    Spec.Stretches (J.transpose * J) (sigma ^ 2) := by
  intro v
  have h1 := gram_form J v v
  rw [← lenSq_dot] at h1
  have h2 := cauchy_dot v ((J.transpose * J).mulVec v)
  rw [h1] at h2
  have h3 := hJ v
  have h4 := lenSq_nonneg v
  have h5 := lenSq_nonneg ((J.transpose * J).mulVec v)
  generalize Spec.lenSq ((J.transpose * J).mulVec v) = W at *
  generalize Spec.lenSq (J.mulVec v) = Q at *
  rcases h4.eq_or_lt with h | h
  · rw [← h]
    simpa using h5
  · refine le_of_mul_le_mul_left ?_ h
    have := pow_le_pow_left₀ (by positivity) h3 2
    calc Spec.lenSq v * ((sigma ^ 2) ^ 2 * Spec.lenSq v) = (sigma ^ 2 * Spec.lenSq v) ^ 2 := by ring
      _ ≤ _ := this.trans h2

/-- The inverse of the product, in doubles. -/
theorem inverse_double {L : Dbl.LinAlg} {ε : ℝ} (hε : 0 ≤ ε) (hL : Spec.DotAccurate L) (hI : Spec.InvAccurate ε L) {m n : ℕ}
    {J : Matrix (Fin m) (Fin n) ℝ} {sigma : ℝ} (hm : m ≤ 2 ^ 40) (hJd : ∀ k i, Spec.IsDouble (J k i))
    (hσ : 1 / 2 ^ 100 ≤ sigma) (hJ : Spec.Stretches J sigma) (hF : Spec.sizeSq J ≤ 2 ^ 200)
    (hθ : Spec.loss m n ε (Spec.sizeSq J) sigma ≤ 1 / 64) :
    ∃ X : Matrix (Fin n) (Fin n) ℝ,
      L.inv (fun i j => L.dot (fun k => .fin (J k i)) (fun k => .fin (J k j))) = .ok (fun i j => .fin (X i j)) ∧
      (∀ i j, Spec.IsDouble (X i j)) ∧
      ∀ j, ∃ A', Spec.farSq (J.transpose * J) A' ≤ (Spec.loss m n ε (Spec.sizeSq J) sigma * sigma ^ 2) ^ 2 ∧
        A'.mulVec (fun i => X i j) = Pi.single j 1 := by
  have hσ0 : 0 < sigma := lt_of_lt_of_le (by positivity) hσ
  obtain ⟨A', hA, hfar, hsize⟩ := gram_double hL hm hJd hσ hJ hF
  have hF0 : 0 ≤ Spec.sizeSq J := Finset.sum_nonneg fun _ _ => Finset.sum_nonneg fun _ _ => sq_nonneg _
  have hT : Spec.loss m n ε (Spec.sizeSq J) sigma * sigma ^ 2 =
      (((m : ℝ) + n + 1) / 2 ^ 52 + 2 * ε) * Spec.sizeSq J := by
    unfold Spec.loss
    field_simp
  have hT1 := mul_le_mul_of_nonneg_right hθ (sq_nonneg sigma)
  rw [hT] at hT1
  rw [hT]
  obtain ⟨δ, hδ⟩ : ∃ δ, δ = ((m : ℝ) + 1) / 2 ^ 52 * Spec.sizeSq J := ⟨_, rfl⟩
  rw [← hδ] at hfar
  have hδ0 : 0 ≤ δ := by rw [hδ]; positivity
  have hδ1 : δ + 2 * ε * Spec.sizeSq J ≤ (((m : ℝ) + n + 1) / 2 ^ 52 + 2 * ε) * Spec.sizeSq J := by
    rw [hδ, ← add_mul]
    gcongr
    linarith [(Nat.cast_nonneg n : (0 : ℝ) ≤ n)]
  have hεF : 0 ≤ 2 * ε * Spec.sizeSq J := by positivity
  have hs2 : 0 < sigma ^ 2 := by positivity
  have hst := stretches_moved hs2 (gram_stretches hσ0 hJ) hδ0 (by linarith) hfar
  have hs0 : 63 / 64 * sigma ^ 2 ≤ sigma ^ 2 - δ := by linarith
  have hx : A' = fun i j => A' i j := rfl
  obtain ⟨X, x1, x2, x3⟩ := hI.1 A' (sigma ^ 2 - δ) ((stretches_le hσ0 hJ).trans hm) (fun i j => (hA i j).2) (by
      have h1 : (1 / 2 ^ 100 : ℝ) ^ 2 ≤ sigma ^ 2 := pow_le_pow_left₀ (by positivity) hσ 2
      have h2 : (1 : ℝ) / 2 ^ 250 ≤ 63 / 64 * (1 / 2 ^ 100) ^ 2 := by norm_num
      linarith) (by
      have h1 : (2 * Spec.sizeSq J) ^ 2 ≤ (2 * 2 ^ 200) ^ 2 := by gcongr
      have h2 : ((2 : ℝ) * 2 ^ 200) ^ 2 = 2 ^ 402 := by
        rw [← pow_succ', ← pow_mul]
      exact (hsize.trans (h1.trans_eq h2)).trans (two_pow_le (by norm_num))) hst (by
      have h1 : 16 * ε ^ 2 * Spec.sizeSq A' ≤ 16 * ε ^ 2 * (2 * Spec.sizeSq J) ^ 2 := by gcongr
      have h2 : 16 * ε ^ 2 * (2 * Spec.sizeSq J) ^ 2 = (4 * (2 * ε * Spec.sizeSq J)) ^ 2 := by ring
      refine (h1.trans_eq h2).trans (pow_le_pow_left₀ (by positivity) ?_ 2)
      linarith)
  refine ⟨X, ?_, x2, fun j => ?_⟩
  · rw [← x1]
    congr 1
    funext i j
    exact (hA i j).1
  · obtain ⟨A'', a1, a2⟩ := x3 j
    refine ⟨A'', ?_, a2⟩
    have h1 : Spec.farSq A' A'' ≤ (2 * ε * Spec.sizeSq J) ^ 2 := by
      refine a1.trans ?_
      calc ε ^ 2 * Spec.sizeSq A' ≤ ε ^ 2 * (2 * Spec.sizeSq J) ^ 2 := by gcongr
        _ = _ := by ring
    exact (farSq_triangle hδ0 hεF hfar h1).trans (pow_le_pow_left₀ (by positivity) hδ1 2)

/-- The sizes of the variances. -/
theorem cov_range {m n : ℕ} {J : Matrix (Fin m) (Fin n) ℝ} {s sigma : ℝ} {C : Matrix (Fin n) (Fin n) ℝ} (hs : 0 < s)
    (h : CovOf J s C) (hJ : Spec.Stretches J sigma) (hpos : ∀ i, 0 < C i i) (i : Fin n) :
    sigma ^ 2 * C i i ≤ s ∧ s ≤ C i i * Spec.lenSq fun k => J k i := by
  have u1 := h.solve (Pi.single i 1) (C.mulVec (Pi.single i 1))
  have u2 := h.solve (Pi.single i 1) (Pi.single i 1)
  rw [← lenSq_dot] at u1
  have ce : ∀ k, C.mulVec (Pi.single i 1) k = C k i := fun k => by simp
  rw [single_dotProduct, one_mul, ce] at u1
  rw [single_dotProduct, one_mul, Pi.single_eq_same, mul_one] at u2
  have e2 : J.mulVec (Pi.single i 1) = fun k => J k i := by
    funext k; simp
  rw [e2] at u2
  have u3 := hJ (C.mulVec (Pi.single i 1))
  rw [← u1] at u3
  have u4 : C i i ^ 2 ≤ Spec.lenSq (C.mulVec (Pi.single i 1)) := by
    have := Finset.single_le_sum (f := fun k => C.mulVec (Pi.single i 1) k ^ 2) (fun k _ => sq_nonneg _) (Finset.mem_univ i)
    rwa [ce] at this
  have u5 := cauchy_dot (J.mulVec (C.mulVec (Pi.single i 1))) fun k => J k i
  rw [← u2, ← u1] at u5
  have hc := hpos i
  constructor
  · have : sigma ^ 2 * C i i ^ 2 ≤ s * C i i := (mul_le_mul_of_nonneg_left u4 (sq_nonneg _)).trans u3
    refine le_of_mul_le_mul_right ?_ hc
    linarith
  · refine le_of_mul_le_mul_left ?_ hs
    linarith

/-- The factor before the inverse, in doubles. -/
theorem factor_double {rnd : ℝ → Fl} (hr : Spec.Rounding rnd) {L : Dbl.LinAlg} (hL : Spec.DotAccurate L) {m nPars : ℕ}
    {res : Fin m → ℝ} (hdof : nPars < m) (hm : m ≤ 2 ^ 40) (hrd : ∀ k, Spec.IsDouble (res k))
    (hS1 : 1 / 2 ^ 200 ≤ Spec.lenSq res) (hS2 : Spec.lenSq res ≤ 2 ^ 200) :
    ∃ s', Dbl.div rnd (L.dot (fun k => .fin (res k)) (fun k => .fin (res k))) (Dbl.ofInt rnd ((m : ℤ) - nPars)) = .fin s' ∧
      |s' - Spec.lenSq res / ((m : ℝ) - nPars)| ≤ ((m : ℝ) + 2) / 2 ^ 52 * (Spec.lenSq res / ((m : ℝ) - nPars)) := by
  have hmR : (m : ℝ) ≤ 2 ^ 40 := by exact_mod_cast hm
  have e : ∀ k, |res k * res k| = res k ^ 2 := fun k => by rw [abs_mul_self, sq]
  have e' : ∑ k, |res k * res k| = Spec.lenSq res := Finset.sum_congr rfl fun k _ => e k
  have e'' : ∑ k, res k * res k = Spec.lenSq res := Finset.sum_congr rfl fun k _ => (sq _).symm
  obtain ⟨r, r1, -, r3⟩ := hL res res hm hrd hrd (by rw [e']; exact hS2.trans (two_pow_le (by norm_num)))
  rw [e', e''] at r3
  have hS0 : 0 < Spec.lenSq res := lt_of_lt_of_le (by positivity) hS1
  have t1 := tiny_sum hm
  have t2 := tiny_part (by norm_num) hS1
  generalize Spec.lenSq res = S at *
  have hr3 : |r - S| ≤ ((m : ℝ) + 1) / 2 ^ 52 * S := by
    have e2 : ((m : ℝ) + 1) / 2 ^ 52 * S = m / 2 ^ 52 * S + 2 * (S / 2 ^ 53) := by ring
    have : 0 ≤ S / 2 ^ 53 := by positivity
    linarith
  have hpd : Spec.IsDouble (((m : ℤ) - nPars : ℤ) : ℝ) := isDouble_int (by
    rw [abs_lt]
    have : (2 : ℕ) ^ 40 = 1099511627776 := by norm_num
    constructor <;> norm_num <;> omega)
  obtain ⟨p, hp⟩ : ∃ p : ℝ, p = (m : ℝ) - nPars := ⟨_, rfl⟩
  have hpi : (((m : ℤ) - nPars : ℤ) : ℝ) = p := by rw [hp]; push_cast; ring
  rw [hpi] at hpd
  have hp1 : 1 ≤ p := by
    have : (nPars : ℝ) + 1 ≤ m := by exact_mod_cast hdof
    rw [hp]; linarith
  have hp2 : p ≤ 2 ^ 40 := by
    have : (0 : ℝ) ≤ nPars := Nat.cast_nonneg _
    rw [hp]; linarith
  have hp0 : 0 < p := by linarith
  have hof : Dbl.ofInt rnd ((m : ℤ) - nPars) = .fin p := by
    rw [Dbl.ofInt, hpi, round_self hr hpd]
  rw [r1, hof, div_fin_rnd rnd r hp0.ne', ← hp]
  have hw : ((m : ℝ) + 1) / 2 ^ 52 ≤ 1 / 1024 := by
    rw [div_le_iff₀ (by positivity)]
    have : (2 : ℝ) ^ 40 + 1 ≤ 1 / 1024 * 2 ^ 52 := by norm_num
    linarith
  obtain ⟨l1, l2⟩ := abs_le.1 hr3
  have hwS := mul_le_mul_of_nonneg_right hw hS0.le
  have hr1 : S / 2 ≤ r := by linarith
  have hr2 : r ≤ 1025 / 1024 * S := by linarith
  obtain ⟨z, z1, -, z3⟩ := round_pos hr (y := r / p) (by
      rw [le_div_iff₀ hp0]
      have h1 : (1 : ℝ) / 2 ^ 250 * 2 ^ 40 ≤ 1 / 2 ^ 200 / 2 := by norm_num
      have h2 : (1 : ℝ) / 2 ^ 250 * p ≤ 1 / 2 ^ 250 * 2 ^ 40 := by gcongr
      linarith) (by
      rw [div_le_iff₀ hp0]
      have h1 : (1025 / 1024 : ℝ) * 2 ^ 200 ≤ 2 ^ 250 := by norm_num
      have h2 : (2 : ℝ) ^ 250 * 1 ≤ 2 ^ 250 * p := by gcongr
      linarith)
  refine ⟨z, z1, ?_⟩
  have k1 : |r / p - S / p| ≤ ((m : ℝ) + 1) / 2 ^ 52 * (S / p) := by
    rw [← sub_div, abs_div, abs_of_pos hp0, mul_div_assoc']
    gcongr
  have k2 : r / p / 2 ^ 53 ≤ 1 / 2 ^ 52 * (S / p) := by
    have : r / p ≤ 2 * (S / p) := by
      rw [mul_div_assoc']
      gcongr
      linarith
    have := div_le_div_of_nonneg_right this (by positivity : (0 : ℝ) ≤ 2 ^ 53)
    linarith
  have k3 : |z - S / p| ≤ |z - r / p| + |r / p - S / p| := by
    have := abs_add_le (z - r / p) (r / p - S / p)
    rwa [sub_add_sub_cancel] at this
  have k4 : ((m : ℝ) + 2) / 2 ^ 52 * (S / p) = ((m : ℝ) + 1) / 2 ^ 52 * (S / p) + 1 / 2 ^ 52 * (S / p) := by ring
  linarith

/-- A product with a single entry. -/
theorem dot_single {L : Dbl.LinAlg} (hL : Spec.DotAccurate L) {n : ℕ} (hn : n ≤ 2 ^ 40) {x y : Fin n → ℝ} (i : Fin n)
    (hx : ∀ k, Spec.IsDouble (x k)) (hy : ∀ k, Spec.IsDouble (y k)) (h0 : ∀ k, k ≠ i → x k * y k = 0)
    (hb : |x i * y i| ≤ 2 ^ 250) :
    ∃ z, L.dot (fun k => .fin (x k)) (fun k => .fin (y k)) = .fin z ∧ Spec.IsDouble z ∧
      |z - x i * y i| ≤ n / 2 ^ 52 * |x i * y i| + 1 / 2 ^ 1000 := by
  have e1 : ∑ k, x k * y k = x i * y i := Finset.sum_eq_single i (fun k _ hk => h0 k hk) (by simp)
  have e2 : ∑ k, |x k * y k| = |x i * y i| :=
    Finset.sum_eq_single i (fun k _ hk => by rw [h0 k hk, abs_zero]) (by simp)
  obtain ⟨z, z1, z2, z3⟩ := hL x y hn hx hy (by rw [e2]; exact hb.trans (two_pow_le (by norm_num)))
  rw [e1, e2] at z3
  exact ⟨z, z1, z2, z3.trans (add_le_add_right (tiny_sum hn) _)⟩

/-- The root of a variance. -/
theorem root_double {rnd : ℝ → Fl} (hr : Spec.Rounding rnd) {a c θ : ℝ} (h0 : 0 ≤ θ) (hθ : θ ≤ 1 / 64)
    (hu : (1 : ℝ) / 2 ^ 53 ≤ θ / 6) (alo : 1 / 2 ^ 220 ≤ a) (ahi : a ≤ 2 ^ 200) (hc : |c - a ^ 2| ≤ 3 * θ * a ^ 2) :
    |Real.sqrt c - a| ≤ 3 * θ * a ∧
      ∃ d, Dbl.sqrt rnd (.fin c) = .fin d ∧ Spec.IsDouble d ∧ |d - a| ≤ 7 / 2 * θ * a := by
  have ha : 0 < a := lt_of_lt_of_le (by positivity) alo
  have hs : |Real.sqrt c - a| ≤ 3 * θ * a := by
    have := sqrt_near_rel (r := a) (s := c) (A := 3 * θ) (κ := 0) ha.le le_rfl (by linarith) (by linarith) (by
      rw [zero_pow two_ne_zero, add_zero]
      exact hc)
    rwa [add_zero] at this
  refine ⟨hs, ?_⟩
  obtain ⟨l1, l2⟩ := abs_le.1 hs
  have h3 : 3 * θ * a ≤ a / 2 := by nlinarith
  have hcp : 0 ≤ c := by
    have := (abs_le.1 hc).1
    have : 0 ≤ a ^ 2 := sq_nonneg a
    nlinarith
  obtain ⟨d, d1, d2, d3⟩ := round_pos hr (y := Real.sqrt c) (by
      have h1 : (1 : ℝ) / 2 ^ 250 ≤ 1 / 2 ^ 220 / 2 := by norm_num
      linarith) (by
      have h1 : (2 : ℝ) * 2 ^ 200 ≤ 2 ^ 250 := by norm_num
      linarith)
  refine ⟨d, ?_, d2, ?_⟩
  · rw [Dbl.sqrt, Fl.sqrt, if_neg (not_lt.2 hcp)]
    exact d1
  · have h1 : Real.sqrt c / 2 ^ 53 ≤ 2 * a * (θ / 6) := by
      rw [div_eq_mul_one_div]
      have : Real.sqrt c ≤ 2 * a := by linarith
      gcongr
    have h2 : |d - a| ≤ |d - Real.sqrt c| + |Real.sqrt c - a| := by
      have := abs_add_le (d - Real.sqrt c) (Real.sqrt c - a)
      rwa [sub_add_sub_cancel] at this
    have h4 : 0 ≤ θ * a := by positivity
    linarith

/-- The correlations, from the covariances. -/
theorem corr_double {L : Dbl.LinAlg} (hL : Spec.DotAccurate L) {n : ℕ} (hn : n ≤ 2 ^ 40) {θ : ℝ} (h0 : 0 ≤ θ)
    (hθ : θ ≤ 1 / 64) (hnθ : (n : ℝ) / 2 ^ 52 ≤ θ) (hu : (1 : ℝ) / 2 ^ 53 ≤ θ / 6) {a g : Fin n → ℝ}
    {ρ c : Matrix (Fin n) (Fin n) ℝ} (alo : ∀ i, 1 / 2 ^ 220 ≤ a i) (ahi : ∀ i, a i ≤ 2 ^ 200) (hρ : ∀ i j, |ρ i j| ≤ 1)
    (hc : ∀ i j, |c i j / (a i * a j) - ρ i j| ≤ 3 * θ) (hcd : ∀ i j, Spec.IsDouble (c i j))
    (hg : ∀ i, |g i * a i - 1| ≤ 5 * θ) (hgd : ∀ i, Spec.IsDouble (g i)) (i j : Fin n) :
    ∃ z, L.dot (fun k => L.dot (fun l => .fin (if i = l then g i else 0)) (fun l => .fin (c l k)))
        (fun k => .fin (if k = j then g k else 0)) = .fin z ∧ |z - ρ i j| ≤ 19 * θ := by
  have a0 : ∀ i, 0 < a i := fun i => lt_of_lt_of_le (by positivity) (alo i)
  have hga : ∀ i, |g i * a i| ≤ 2 := fun i => by
    have := abs_add_le (g i * a i - 1) 1
    rw [sub_add_cancel, abs_one] at this
    linarith [hg i]
  have hτ : ∀ b : ℝ, 1 / 2 ^ 220 ≤ b → (1 : ℝ) / 2 ^ 1000 ≤ 1 / 2 ^ 100 * b := by
    intro b hb
    have h1 : (1 : ℝ) / 2 ^ 1000 ≤ 1 / 2 ^ 320 := one_div_le_one_div_of_le (by positivity) (two_pow_le (by norm_num))
    have h2 : (1 : ℝ) / 2 ^ 320 = 1 / 2 ^ 100 * (1 / 2 ^ 220) := by rw [div_mul_div_comm, one_mul, ← pow_add]
    have h3 : (1 : ℝ) / 2 ^ 100 * (1 / 2 ^ 220) ≤ 1 / 2 ^ 100 * b := by gcongr
    exact h1.trans (h2.le.trans h3)
  have hτθ : (1 : ℝ) / 2 ^ 100 ≤ θ / 16 := by
    have : (1 : ℝ) / 2 ^ 100 ≤ 1 / 2 ^ 53 * (6 / 16) := by norm_num
    linarith
  have first : ∀ k, ∃ e, L.dot (fun l => .fin (if i = l then g i else 0)) (fun l => .fin (c l k)) = .fin e ∧
      Spec.IsDouble e ∧ |e / a k - ρ i k| ≤ 11 * θ := by
    intro k
    have hai := a0 i
    have hak := a0 k
    have y2 : |c i k / (a i * a k)| ≤ 2 := by
      have := abs_add_le (c i k / (a i * a k) - ρ i k) (ρ i k)
      rw [sub_add_cancel] at this
      linarith [hρ i k, hc i k]
    have y3 : |g i * c i k| ≤ 4 * a k := by
      have e : g i * c i k = (g i * a i) * (c i k / (a i * a k)) * a k := by field_simp
      rw [e, abs_mul, abs_mul, abs_of_pos hak]
      have := mul_le_mul (hga i) y2 (abs_nonneg _) (by norm_num)
      nlinarith
    obtain ⟨e, f1, f2, f3⟩ := dot_single hL hn (x := fun l => if i = l then g i else 0) (y := fun l => c l k) i
      (fun l => by split_ifs; exacts [hgd i, isDouble_zero]) (fun l => hcd l k)
      (fun l hl => by rw [if_neg (Ne.symm hl), zero_mul]) (by
        rw [if_pos rfl]
        have h1 : (4 : ℝ) * 2 ^ 200 ≤ 2 ^ 250 := by norm_num
        linarith [ahi k])
    rw [if_pos rfl] at f3
    refine ⟨e, f1, f2, ?_⟩
    have := corr_scaled (ρ := ρ i k) (y := c i k / (a i * a k)) (k := g i * a i) (z := e / a k) (e := n / 2 ^ 52) (K := 3)
      (τ := 1 / 2 ^ 100) h0 hθ (by norm_num) (by norm_num) (hρ i k) (hc i k) (hg i) (by positivity) hnθ (by
        have k1 : c i k / (a i * a k) * (g i * a i) = g i * c i k / a k := by field_simp
        rw [k1, ← sub_div, abs_div, abs_div, abs_of_pos hak, div_le_iff₀ hak]
        have k2 : ((n : ℝ) / 2 ^ 52 * (|g i * c i k| / a k) + 1 / 2 ^ 100) * a k =
            n / 2 ^ 52 * |g i * c i k| + 1 / 2 ^ 100 * a k := by field_simp
        rw [k2]
        exact f3.trans (add_le_add_right (hτ _ (alo k)) _)) hτθ
    linarith
  choose e f1 f2 f3 using first
  have hdot : (fun k => L.dot (fun l => .fin (if i = l then g i else 0)) (fun l => .fin (c l k))) = fun k => .fin (e k) :=
    funext f1
  rw [hdot]
  have haj := a0 j
  have y2 : |e j / a j| ≤ 2 := by
    have := abs_add_le (e j / a j - ρ i j) (ρ i j)
    rw [sub_add_cancel] at this
    linarith [hρ i j, f3 j]
  have e1 : e j * g j = e j / a j * (g j * a j) := by field_simp
  have y3 : |e j * g j| ≤ 4 := by
    rw [e1, abs_mul]
    have := mul_le_mul y2 (hga j) (abs_nonneg _) (by norm_num)
    linarith
  obtain ⟨z, z1, -, z3⟩ := dot_single hL hn (x := e) (y := fun k => if k = j then g k else 0) j f2
    (fun l => by split_ifs; exacts [hgd l, isDouble_zero]) (fun l hl => by rw [if_neg hl, mul_zero]) (by
      rw [if_pos rfl]
      have h1 : (4 : ℝ) ≤ 2 ^ 250 := by norm_num
      linarith)
  rw [if_pos rfl, e1] at z3
  refine ⟨z, z1, ?_⟩
  have := corr_scaled (ρ := ρ i j) (y := e j / a j) (k := g j * a j) (z := z) (e := n / 2 ^ 52) (K := 11)
      (τ := 1 / 2 ^ 1000) h0 hθ (by norm_num) (by norm_num) (hρ i j) (f3 j) (hg j) (by positivity) hnθ z3
      (le_trans (one_div_le_one_div_of_le (by positivity) (two_pow_le (by norm_num))) hτθ)
  linarith

/-- The covariances, from the inverse. -/
theorem cov_double {rnd : ℝ → Fl} (hr : Spec.Rounding rnd) {s s' x c a b ω θ : ℝ} (hs : 0 < s) (hθ : θ ≤ 1 / 64)
    (hωθ : ω ≤ θ) (h0 : 0 ≤ ω) (hu : (1 : ℝ) / 2 ^ 53 ≤ θ / 6) (alo : 1 / 2 ^ 220 ≤ a) (ahi : a ≤ 2 ^ 200)
    (blo : 1 / 2 ^ 220 ≤ b) (bhi : b ≤ 2 ^ 200) (h1 : |s' - s| ≤ ω * s) (h2 : |s * x - c| ≤ 8 / 7 * θ * (a * b))
    (h3 : |c| ≤ a * b) :
    ∃ c', Dbl.mul rnd (.fin s') (.fin x) = .fin c' ∧ Spec.IsDouble c' ∧ |c' - c| ≤ 3 * θ * (a * b) := by
  have ha : 0 < a := lt_of_lt_of_le (by positivity) alo
  have hb : 0 < b := lt_of_lt_of_le (by positivity) blo
  have hab : 0 < a * b := mul_pos ha hb
  have lo : (1 : ℝ) / 2 ^ 440 ≤ a * b := by
    calc (1 : ℝ) / 2 ^ 440 = 1 / 2 ^ 220 * (1 / 2 ^ 220) := by rw [div_mul_div_comm, one_mul, ← pow_add]
      _ ≤ _ := mul_le_mul alo blo (by positivity) ha.le
  have hi : 4 * (a * b) ≤ 2 ^ 900 := by
    calc 4 * (a * b) ≤ 2 ^ 2 * (2 ^ 200 * 2 ^ 200) := by
          have : a * b ≤ 2 ^ 200 * 2 ^ 200 := mul_le_mul ahi bhi hb.le (by positivity)
          rw [show (4 : ℝ) = 2 ^ 2 by norm_num]
          exact mul_le_mul_of_nonneg_left this (by positivity)
      _ = 2 ^ 402 := by rw [← pow_add, ← pow_add]
      _ ≤ 2 ^ 900 := two_pow_le (by norm_num)
  have hθ0 : 0 ≤ θ := h0.trans hωθ
  have k1 : |s * x| ≤ 2 * (a * b) := by
    have := abs_add_le (s * x - c) c
    rw [sub_add_cancel] at this
    nlinarith
  have k2 : |s'| ≤ 2 * s := by
    have := abs_add_le (s' - s) s
    rw [sub_add_cancel, abs_of_pos hs] at this
    nlinarith
  have k3 : |s' * x| ≤ 2 * |s * x| := by
    rw [abs_mul, abs_mul, abs_of_pos hs]
    nlinarith [abs_nonneg x]
  obtain ⟨c', c1, c2, c3⟩ := round_rel hr (y := s' * x) ((k3.trans (by linarith)).trans hi)
  refine ⟨c', by rw [mul_fin_rnd, c1], c2, ?_⟩
  refine scale_bound hs hab.le hθ hωθ h0 hu h1 h2 h3 c3 ?_
  have t : (2 : ℝ) ^ (-1075 : ℤ) ≤ 1 / 2 ^ 1000 := by
    have t1 : (2 : ℝ) ^ (-1075 : ℤ) ≤ 2 ^ (-1000 : ℤ) := zpow_le_zpow_right₀ one_le_two (by norm_num)
    have t2 : (2 : ℝ) ^ (-1000 : ℤ) = 1 / 2 ^ 1000 := by
      rw [show (-1000 : ℤ) = -((1000 : ℕ) : ℤ) from rfl, _root_.zpow_neg, zpow_natCast, ← one_div]
    exact t1.trans t2.le
  exact t.trans (tiny_part (by norm_num) lo)

theorem sd_range {v s sigma c : ℝ} (hv : 0 < v) (hs1 : 1 / 2 ^ 240 ≤ s) (hs2 : s ≤ 2 ^ 200) (hσ : 1 / 2 ^ 100 ≤ sigma)
    (hc : c ≤ 2 ^ 200) (h1 : sigma ^ 2 * v ≤ s) (h2 : s ≤ v * c) :
    1 / 2 ^ 220 ≤ Real.sqrt v ∧ Real.sqrt v ≤ 2 ^ 200 := by
  constructor
  · refine Real.le_sqrt_of_sq_le ?_
    have h3 : ((1 : ℝ) / 2 ^ 220) ^ 2 * 2 ^ 200 = 1 / 2 ^ 240 := by
      rw [div_pow, one_pow, ← pow_mul, show (220 * 2 : ℕ) = 240 + 200 by norm_num, pow_add]
      field_simp
    have h4 : v * c ≤ v * 2 ^ 200 := mul_le_mul_of_nonneg_left hc hv.le
    exact le_of_mul_le_mul_right (h3.le.trans (hs1.trans (h2.trans h4))) (by positivity)
  · rw [Real.sqrt_le_left (by positivity)]
    have h3 : (1 / 2 ^ 100 : ℝ) ^ 2 ≤ sigma ^ 2 := pow_le_pow_left₀ (by positivity) hσ 2
    have h4 : ((2 : ℝ) ^ 200) ^ 2 * (1 / 2 ^ 100) ^ 2 = 2 ^ 200 := by
      rw [div_pow, one_pow, ← pow_mul, ← pow_mul, show (200 * 2 : ℕ) = 200 + 100 * 2 by norm_num, pow_add]
      field_simp
    have h5 := mul_le_mul_of_nonneg_left h3 hv.le
    refine le_of_mul_le_mul_right ?_ (by positivity : (0 : ℝ) < (1 / 2 ^ 100) ^ 2)
    rw [h4]
    refine h5.trans ?_
    rw [mul_comm]
    exact h1.trans hs2

/-- **C145.**  In the arithmetic of doubles: the covariance matrix, the standard errors and the correlations are those of exact
arithmetic, but for a loss as large as the errors of the operations times the square of the condition number of the
Jacobian. -/
theorem C145_matrices {rnd : ℝ → Fl} (hr : Spec.Rounding rnd) {L : Dbl.LinAlg} {ε : ℝ} (hε : 0 ≤ ε)
    (hL : Spec.DotAccurate L) (hI : Spec.InvAccurate ε L) {m n nPars : ℕ} (res : Fin m → ℝ) (J : Matrix (Fin m) (Fin n) ℝ)
    (sigma : ℝ) (hdof : nPars < m) (hm : m ≤ 2 ^ 40) (hrd : ∀ k, Spec.IsDouble (res k))
    (hJd : ∀ k i, Spec.IsDouble (J k i)) (hS1 : 1 / 2 ^ 200 ≤ Spec.lenSq res) (hS2 : Spec.lenSq res ≤ 2 ^ 200)
    (hσ : 1 / 2 ^ 100 ≤ sigma) (hJ : Spec.Stretches J sigma) (hF : Spec.sizeSq J ≤ 2 ^ 200)
    (hθ : Spec.loss m n ε (Spec.sizeSq J) sigma ≤ 1 / 64) :
    ∃ cov corr cov' corr' : Matrix (Fin n) (Fin n) ℝ,
      coMatrices res J nPars = .ok (some (cov, corr)) ∧
      Dbl.coMatrices rnd L (fun k => .fin (res k)) (fun k i => .fin (J k i)) nPars =
        .ok (fun i j => .fin (cov' i j), fun i j => .fin (corr' i j)) ∧
      (∀ i j, |cov' i j - cov i j| ≤
        3 * Spec.loss m n ε (Spec.sizeSq J) sigma * (Real.sqrt (cov i i) * Real.sqrt (cov j j))) ∧
      (∀ i, |Real.sqrt (cov' i i) - Real.sqrt (cov i i)| ≤
        3 * Spec.loss m n ε (Spec.sizeSq J) sigma * Real.sqrt (cov i i)) ∧
      ∀ i j, |corr' i j - corr i j| ≤ 19 * Spec.loss m n ε (Spec.sizeSq J) sigma := by
  have hσ0 : 0 < sigma := lt_of_lt_of_le (by positivity) hσ
  have hn : n ≤ 2 ^ 40 := (stretches_le hσ0 hJ).trans hm
  have hres : res ≠ 0 := by
    rintro rfl
    have : Spec.lenSq (0 : Fin m → ℝ) = 0 := by simp [Spec.lenSq]
    rw [this] at hS1
    exact absurd hS1 (by norm_num)
  obtain ⟨cov, corr, hco, hcinv, hcsym, hcpos, -, -, hcle, hcorr⟩ :=
    C30_matrices res J nPars hdof (stretches_rank hσ0 hJ) hres
  obtain ⟨X, x1, x2, x3⟩ := inverse_double hε hL hI hm hJd hσ hJ hF hθ
  obtain ⟨s', hs1, hs2⟩ := factor_double hr hL hdof hm hrd hS1 hS2
  obtain ⟨s, hs⟩ : ∃ s, s = Spec.lenSq res / ((m : ℝ) - nPars) := ⟨_, rfl⟩
  have hC : CovOf J s cov := ⟨by rw [hs]; exact hcinv, hcsym⟩
  rw [← hs] at hs2
  have hp1 : (1 : ℝ) ≤ (m : ℝ) - nPars := by
    have : (nPars : ℝ) + 1 ≤ m := by exact_mod_cast hdof
    linarith
  have hmR : (m : ℝ) ≤ 2 ^ 40 := by exact_mod_cast hm
  have hp2 : (m : ℝ) - nPars ≤ 2 ^ 40 := by linarith [(Nat.cast_nonneg nPars : (0 : ℝ) ≤ nPars)]
  have hslo : (1 : ℝ) / 2 ^ 240 ≤ s := by
    rw [hs, le_div_iff₀ (by linarith)]
    calc (1 : ℝ) / 2 ^ 240 * ((m : ℝ) - nPars) ≤ 1 / 2 ^ 240 * 2 ^ 40 := by gcongr
      _ ≤ 1 / 2 ^ 200 := by norm_num
      _ ≤ _ := hS1
  have hshi : s ≤ 2 ^ 200 := by
    rw [hs]
    exact (div_le_self (lenSq_nonneg res) hp1).trans hS2
  have hs0 : 0 < s := lt_of_lt_of_le (by positivity) hslo
  have hpos : ∀ i, 0 < cov i i := by
    intro i
    have := hcpos (Pi.single i 1) (by
      intro h
      have := congrFun h i
      simp at this)
    simpa using this
  have hF0 : 0 ≤ Spec.sizeSq J := Finset.sum_nonneg fun _ _ => Finset.sum_nonneg fun _ _ => sq_nonneg _
  have hcol : ∀ i, Spec.lenSq (fun k => J k i) ≤ Spec.sizeSq J := fun i => by
    rw [sizeSq_cols]
    exact Finset.single_le_sum (f := fun i => Spec.lenSq fun k => J k i) (fun j _ => lenSq_nonneg _) (Finset.mem_univ i)
  have hm1 : (1 : ℝ) ≤ m := by linarith [(Nat.cast_nonneg nPars : (0 : ℝ) ≤ nPars)]
  obtain ⟨θ, hθe⟩ : ∃ θ, θ = Spec.loss m n ε (Spec.sizeSq J) sigma := ⟨_, rfl⟩
  have hθ0 : 0 ≤ θ := by
    rw [hθe]
    unfold Spec.loss
    positivity
  -- the loss is not below the errors of single operations
  have hθw : ∀ _ : Fin n, ((m : ℝ) + n + 1) / 2 ^ 52 ≤ θ := by
    intro i
    have h1 : sigma ^ 2 ≤ Spec.sizeSq J := (stretches_col hJ i).trans (hcol i)
    rw [hθe]
    unfold Spec.loss
    rw [mul_div_assoc]
    have h2 : 1 ≤ Spec.sizeSq J / sigma ^ 2 := (one_le_div (by positivity)).2 h1
    have h3 : ((m : ℝ) + n + 1) / 2 ^ 52 ≤ ((m : ℝ) + n + 1) / 2 ^ 52 + 2 * ε := by linarith
    have h4 : (0 : ℝ) ≤ ((m : ℝ) + n + 1) / 2 ^ 52 + 2 * ε := by positivity
    exact h3.trans (le_mul_of_one_le_right h4 h2)
  rw [← hθe] at hθ x3 ⊢
  have hn1 : ∀ i : Fin n, (1 : ℝ) ≤ n := fun i => by exact_mod_cast (Nat.succ_le_of_lt (Fin.pos i))
  have hω : ∀ _ : Fin n, ((m : ℝ) + 2) / 2 ^ 52 ≤ θ := fun i =>
    le_trans (div_le_div_of_nonneg_right (by linarith [hn1 i]) (by positivity)) (hθw i)
  have hu : ∀ _ : Fin n, (1 : ℝ) / 2 ^ 53 ≤ θ / 6 := fun i => by
    have h1 : (3 : ℝ) / 2 ^ 52 ≤ θ :=
      le_trans (div_le_div_of_nonneg_right (by linarith [hn1 i]) (by positivity)) (hθw i)
    have h2 : (1 : ℝ) / 2 ^ 53 = 3 / 2 ^ 52 / 6 := by norm_num
    rw [h2]
    exact div_le_div_of_nonneg_right h1 (by norm_num)
  have hnθ : ∀ _ : Fin n, (n : ℝ) / 2 ^ 52 ≤ θ := fun i =>
    le_trans (div_le_div_of_nonneg_right (by linarith) (by positivity)) (hθw i)
  -- the standard errors
  obtain ⟨a, ha⟩ : ∃ a : Fin n → ℝ, ∀ i, a i = Real.sqrt (cov i i) := ⟨_, fun _ => rfl⟩
  have a0 : ∀ i, 0 < a i := fun i => by rw [ha]; exact Real.sqrt_pos.2 (hpos i)
  have asq : ∀ i, a i ^ 2 = cov i i := fun i => by rw [ha, Real.sq_sqrt (hpos i).le]
  have arng : ∀ i, 1 / 2 ^ 220 ≤ a i ∧ a i ≤ 2 ^ 200 := fun i => by
    have h1 := cov_range hs0 hC hJ hpos i
    rw [ha]
    exact sd_range (hpos i) hslo hshi hσ ((hcol i).trans hF) h1.1 h1.2
  have hle : ∀ i j, |cov i j| ≤ a i * a j := by
    intro i j
    have h1 := abs_le.2 (hcle i j)
    have h2 : 0 < a i * a j := mul_pos (a0 i) (a0 j)
    rwa [hcorr i j, ← ha, ← ha, abs_div, abs_of_pos h2, div_le_one h2] at h1
  have hback : ∀ i j, |s * X i j - cov i j| ≤ 8 / 7 * θ * (a i * a j) := by
    intro i j
    rw [ha, ha]
    exact backward_near hs0 hσ0 hC hpos hJ hθ0 (hθ.trans (by norm_num)) X x3 i j
  have hcov := fun i j => cov_double hr hs0 hθ (hω i) (by positivity) (hu i) (arng i).1 (arng i).2 (arng j).1 (arng j).2 hs2
    (hback i j) (hle i j)
  choose cov' c1 c2 c3 using hcov
  have hroot := fun i => root_double hr hθ0 hθ (hu i) (arng i).1 (arng i).2 (c := cov' i i) (by
    have := c3 i i
    rw [← asq, ← sq] at this
    exact this)
  choose d d1 d2 d3 using fun i => (hroot i).2
  have hdp : ∀ i, a i / 2 ≤ d i ∧ d i ≤ 2 * a i := fun i => by
    obtain ⟨l1, l2⟩ := abs_le.1 (d3 i)
    have h1 : 7 / 2 * θ * a i ≤ 1 / 2 * a i := mul_le_mul_of_nonneg_right (by linarith) (a0 i).le
    constructor <;> linarith
  obtain ⟨g, hg, hginv⟩ := hI.2 d hn d2 (fun i => ⟨by
      have h1 : (1 : ℝ) / 2 ^ 250 ≤ 1 / 2 ^ 220 / 2 := by norm_num
      exact h1.trans ((div_le_div_of_nonneg_right (arng i).1 (by norm_num)).trans (hdp i).1), by
      have h1 : (2 : ℝ) * 2 ^ 200 ≤ 2 ^ 250 := by norm_num
      exact (hdp i).2.trans ((mul_le_mul_of_nonneg_left (arng i).2 (by norm_num)).trans h1)⟩)
  have hga : ∀ i, |g i * a i - 1| ≤ 5 * θ := fun i =>
    recip_bound (a0 i) (lt_of_lt_of_le (half_pos (a0 i)) (hdp i).1) hθ0 hθ (hu i) (d3 i) (hg i).2
  have hroots : (fun i j => Dbl.sqrt rnd (if i = j then .fin (cov' i i) else .fin 0) : Fin n → Fin n → Fl) =
      fun i j => .fin (if i = j then d i else 0) := by
    funext i j
    by_cases hij : i = j
    · rw [if_pos hij, if_pos hij, d1]
    · rw [if_neg hij, if_neg hij, Dbl.sqrt, Fl.sqrt, if_neg (lt_irrefl _), Real.sqrt_zero]
      exact round_self hr isDouble_zero
  have hcr := fun i j => corr_double hL hn hθ0 hθ (hnθ i) (hu i) (fun k => (arng k).1) (fun k => (arng k).2)
    (ρ := corr) (c := cov') (fun k l => abs_le.2 (hcle k l)) (fun k l => by
      have h2 : 0 < a k * a l := mul_pos (a0 k) (a0 l)
      rw [hcorr k l, ← ha, ← ha, ← sub_div, abs_div, abs_of_pos h2, div_le_iff₀ h2]
      exact c3 k l) c2 hga (fun k => (hg k).1) i j
  choose corr' r1 r2 using hcr
  refine ⟨cov, corr, cov', corr', hco, ?_, fun i j => ?_, fun i => ?_, r2⟩
  · simp only [Dbl.coMatrices, x1, hs1, c1, hroots, hginv, bind, Except.bind, pure, Except.pure]
    congr 2
    funext i j
    exact r1 i j
  · rw [← ha, ← ha]
    exact c3 i j
  · rw [← ha]
    exact (hroot i).1

/-! ## There are such operations -/

/-- The number, where there is one. -/
def Spec.valueOf : Fl → ℝ
  | .fin x => x
  | _ => 0

/-- The exact results, rounded once; an exception for a singular matrix. -/
noncomputable def Spec.roundedOnce (rnd : ℝ → Fl) : Dbl.LinAlg where
  dot x y := rnd (∑ k, Spec.valueOf (x k) * Spec.valueOf (y k))
  inv {n} A :=
    let B : Matrix (Fin n) (Fin n) ℝ := Matrix.of fun i j => Spec.valueOf (A i j)
    open Classical in if B.det = 0 then .error .linAlgError else .ok fun i j => rnd (B⁻¹ i j)

open Classical in
theorem roundedOnce_eq (rnd : ℝ → Fl) {n : ℕ} (A : Matrix (Fin n) (Fin n) ℝ) :
    (Spec.roundedOnce rnd).inv (fun i j => .fin (A i j)) =
      if A.det = 0 then .error .linAlgError else .ok fun i j => rnd (A⁻¹ i j) := rfl

theorem roundedOnce_dot {rnd : ℝ → Fl} (hr : Spec.Rounding rnd) : Spec.DotAccurate (Spec.roundedOnce rnd) := by
  intro k x y _ _ _ hb
  have h1 : |∑ i, x i * y i| ≤ ∑ i, |x i * y i| := Finset.abs_sum_le_sum_abs _ _
  obtain ⟨z, z1, z2, z3⟩ := round_rel hr (y := ∑ i, x i * y i) ((h1.trans hb).trans (two_pow_le (by norm_num)))
  refine ⟨z, z1, z2, ?_⟩
  rcases Nat.eq_zero_or_pos k with rfl | hk
  · have : rnd 0 = .fin z := by simpa using z1
    rw [round_self hr isDouble_zero] at this
    have : z = 0 := (Fl.fin.inj this).symm
    simp [this]
  · have hk1 : (1 : ℝ) ≤ k := by exact_mod_cast hk
    refine z3.trans (add_le_add ?_ ?_)
    · have : |∑ i, x i * y i| / 2 ^ 53 ≤ (∑ i, |x i * y i|) / 2 ^ 52 := by
        have h0 : (0 : ℝ) ≤ ∑ i, |x i * y i| := (abs_nonneg _).trans h1
        calc |∑ i, x i * y i| / 2 ^ 53 ≤ (∑ i, |x i * y i|) / 2 ^ 53 := by gcongr
          _ ≤ _ := by gcongr <;> norm_num
      refine this.trans ?_
      rw [div_mul_eq_mul_div]
      have h0 : (0 : ℝ) ≤ ∑ i, |x i * y i| := (abs_nonneg _).trans h1
      gcongr
      exact le_mul_of_one_le_left h0 hk1
    · have h2 : (2 : ℝ) ^ (-1075 : ℤ) ≤ 2 ^ (-1074 : ℤ) := zpow_le_zpow_right₀ one_le_two (by norm_num)
      exact h2.trans (le_mul_of_one_le_left (by positivity) hk1)

/-- A column, rounded, is the exact one for a matrix near by. -/
theorem column_rounded {n : ℕ} {A : Matrix (Fin n) (Fin n) ℝ} {b x : Fin n → ℝ} {j : Fin n} (hn : n ≤ 2 ^ 40)
    (hA : Spec.sizeSq A ≤ 2 ^ 600) (hb : A.mulVec b = Pi.single j 1)
    (hx : ∀ i, |x i - b i| ≤ |b i| / 2 ^ 53 + 2 ^ (-1075 : ℤ)) :
    ∃ A' : Matrix (Fin n) (Fin n) ℝ, Spec.farSq A A' ≤ (1 / 2 ^ 50) ^ 2 * Spec.sizeSq A ∧ A'.mulVec x = Pi.single j 1 := by
  have hlen : ∀ v : Fin n → ℝ, Spec.lenSq (A.mulVec v) ≤ Spec.sizeSq A * Spec.lenSq v := by
    intro v
    have := mulVec_far 0 A v
    simpa [Spec.farSq, Spec.sizeSq] using this
  have hone : 1 ≤ Spec.sizeSq A * Spec.lenSq b := by
    have := hlen b
    rwa [hb, lenSq_dot, single_dotProduct, Pi.single_eq_same, one_mul] at this
  have hS0 : 0 ≤ Spec.sizeSq A := Finset.sum_nonneg fun _ _ => Finset.sum_nonneg fun _ _ => sq_nonneg _
  have hlo : (1 : ℝ) / 2 ^ 600 ≤ Spec.lenSq b := by
    rw [div_le_iff₀ (by positivity), mul_comm]
    exact hone.trans (mul_le_mul_of_nonneg_right hA (lenSq_nonneg b))
  have hb0 : 0 < Spec.lenSq b := lt_of_lt_of_le (by positivity) hlo
  obtain ⟨r, hr⟩ : ∃ r : Fin n → ℝ, r = x - b := ⟨_, rfl⟩
  have hxr : x = b + r := by rw [hr, add_sub_cancel]
  have hrl : Spec.lenSq r ≤ (1 / 2 ^ 52) ^ 2 * Spec.lenSq b := by
    have h1 : ∀ i, r i ^ 2 ≤ 2 / 2 ^ 106 * b i ^ 2 + 2 * (2 ^ (-1075 : ℤ)) ^ 2 := by
      intro i
      have h := pow_le_pow_left₀ (abs_nonneg _) (hx i) 2
      rw [sq_abs] at h
      have e : r i = x i - b i := by rw [hr]; rfl
      rw [e]
      generalize (2 : ℝ) ^ (-1075 : ℤ) = t at *
      have h2 : (|b i| / 2 ^ 53 + t) ^ 2 ≤ 2 * (|b i| / 2 ^ 53) ^ 2 + 2 * t ^ 2 := by
        nlinarith [sq_nonneg (|b i| / 2 ^ 53 - t)]
      have h3 : 2 * (|b i| / 2 ^ 53) ^ 2 = 2 / 2 ^ 106 * b i ^ 2 := by
        rw [div_pow, sq_abs]
        norm_num
        ring
      linarith
    have h2 : Spec.lenSq r ≤ 2 / 2 ^ 106 * Spec.lenSq b + n * (2 * (2 ^ (-1075 : ℤ)) ^ 2) := by
      unfold Spec.lenSq
      calc ∑ k, r k ^ 2 ≤ ∑ k, (2 / 2 ^ 106 * b k ^ 2 + 2 * (2 ^ (-1075 : ℤ)) ^ 2) := Finset.sum_le_sum fun k _ => h1 k
        _ = _ := by rw [Finset.sum_add_distrib, ← Finset.mul_sum]; simp
    have h3 : (n : ℝ) * (2 * (2 ^ (-1075 : ℤ)) ^ 2) ≤ 1 / 2 ^ 106 * Spec.lenSq b := by
      have t1 : (2 : ℝ) ^ (-1075 : ℤ) ≤ 1 / 2 := by
        calc (2 : ℝ) ^ (-1075 : ℤ) ≤ 2 ^ (-1 : ℤ) := zpow_le_zpow_right₀ one_le_two (by norm_num)
          _ = 1 / 2 := by norm_num
      have t2 : (2 : ℝ) ^ (-1075 : ℤ) ≤ 2 ^ (-1074 : ℤ) := zpow_le_zpow_right₀ one_le_two (by norm_num)
      have t0 : (0 : ℝ) < 2 ^ (-1075 : ℤ) := by positivity
      have t3 : (n : ℝ) * (2 * (2 ^ (-1075 : ℤ)) ^ 2) ≤ n * 2 ^ (-1074 : ℤ) := by
        gcongr
        generalize (2 : ℝ) ^ (-1075 : ℤ) = t at *
        generalize (2 : ℝ) ^ (-1074 : ℤ) = t' at *
        nlinarith
      have t4 : (1 : ℝ) / 2 ^ 1000 ≤ 1 / 2 ^ 706 := one_div_le_one_div_of_le (by positivity) (two_pow_le (by norm_num))
      have t5 : (1 : ℝ) / 2 ^ 706 = 1 / 2 ^ 106 * (1 / 2 ^ 600) := by rw [div_mul_div_comm, one_mul, ← pow_add]
      have t6 : (1 : ℝ) / 2 ^ 106 * (1 / 2 ^ 600) ≤ 1 / 2 ^ 106 * Spec.lenSq b := mul_le_mul_of_nonneg_left hlo (by positivity)
      exact t3.trans ((tiny_sum hn).trans (t4.trans (t5.le.trans t6)))
    have h4 : (2 : ℝ) / 2 ^ 106 + 1 / 2 ^ 106 ≤ (1 / 2 ^ 52) ^ 2 := by norm_num
    have h5 := mul_le_mul_of_nonneg_right h4 hb0.le
    rw [add_mul] at h5
    exact h2.trans ((add_le_add_right h3 _).trans h5)
  have hxl := (lenSq_moved b r (by norm_num : (0 : ℝ) ≤ 1 / 2 ^ 52) (by norm_num) hrl).1
  rw [← hxr] at hxl
  have hx0 : Spec.lenSq b ≤ 2 * Spec.lenSq x := by
    have : (1 : ℝ) / 2 ≤ (1 - 1 / 2 ^ 52) ^ 2 := by norm_num
    have := mul_le_mul_of_nonneg_right this hb0.le
    linarith
  have hxpos : 0 < Spec.lenSq x := by linarith
  refine ⟨Matrix.of fun k l => A k l - A.mulVec r k * x l / Spec.lenSq x, ?_, ?_⟩
  · have e : Spec.farSq A (Matrix.of fun k l => A k l - A.mulVec r k * x l / Spec.lenSq x) =
        Spec.lenSq (A.mulVec r) / Spec.lenSq x := by
      have e1 : ∀ k l, (A k l - A.mulVec r k * x l / Spec.lenSq x - A k l) ^ 2 =
          A.mulVec r k ^ 2 * (x l ^ 2 / Spec.lenSq x ^ 2) := fun k l => by
        rw [sub_sub_cancel_left, neg_sq, div_pow, mul_pow, mul_div_assoc]
      unfold Spec.farSq
      simp only [Matrix.of_apply, e1]
      rw [← Finset.sum_mul_sum, ← Finset.sum_div]
      have : ∑ l, x l ^ 2 = Spec.lenSq x := rfl
      rw [this]
      have : ∑ k, A.mulVec r k ^ 2 = Spec.lenSq (A.mulVec r) := rfl
      rw [this]
      field_simp
    rw [e, div_le_iff₀ hxpos]
    calc Spec.lenSq (A.mulVec r) ≤ Spec.sizeSq A * Spec.lenSq r := hlen r
      _ ≤ Spec.sizeSq A * ((1 / 2 ^ 52) ^ 2 * (2 * Spec.lenSq x)) := by
        gcongr
        exact hrl.trans (by gcongr)
      _ ≤ Spec.sizeSq A * ((1 / 2 ^ 50) ^ 2 * Spec.lenSq x) := by
        refine mul_le_mul_of_nonneg_left ?_ hS0
        have : (1 / 2 ^ 52 : ℝ) ^ 2 * 2 ≤ (1 / 2 ^ 50) ^ 2 := by norm_num
        have := mul_le_mul_of_nonneg_right this hxpos.le
        linarith
      _ = _ := by ring
  · have e : (Matrix.of fun k l => A k l - A.mulVec r k * x l / Spec.lenSq x).mulVec x =
        A.mulVec x - A.mulVec r := by
      funext k
      have e1 : ∀ l, (A k l - A.mulVec r k * x l / Spec.lenSq x) * x l =
          A k l * x l - A.mulVec r k / Spec.lenSq x * x l ^ 2 := fun l => by ring
      show ∑ l, (A k l - A.mulVec r k * x l / Spec.lenSq x) * x l = A.mulVec x k - A.mulVec r k
      simp only [e1]
      rw [Finset.sum_sub_distrib, ← Finset.mul_sum]
      have : ∑ l, x l ^ 2 = Spec.lenSq x := rfl
      rw [this, div_mul_cancel₀ _ hxpos.ne']
      rfl
    rw [e, hxr, mulVec_add, add_sub_cancel_right, hb]

theorem stretches_det {n : ℕ} {A : Matrix (Fin n) (Fin n) ℝ} {s : ℝ} (hs : 0 < s) (hA : Spec.Stretches A s) : A.det ≠ 0 := by
  intro h
  obtain ⟨v, hv, h0⟩ := Matrix.exists_mulVec_eq_zero_iff.2 h
  exact hv (stretches_rank hs hA v h0)

theorem roundedOnce_inv {rnd : ℝ → Fl} (hr : Spec.Rounding rnd) : Spec.InvAccurate (1 / 2 ^ 50) (Spec.roundedOnce rnd) := by
  refine ⟨fun {n} A s hn _ hs hA hst _ => ?_, fun {n} d _ _ hd => ?_⟩
  · have hs0 : 0 < s := lt_of_lt_of_le (by positivity) hs
    have hdet := stretches_det hs0 hst
    have hmul : A * A⁻¹ = 1 := Matrix.mul_nonsing_inv _ (isUnit_iff_ne_zero.2 hdet)
    have hcol : ∀ j, A.mulVec (fun i => A⁻¹ i j) = Pi.single j 1 := by
      intro j
      funext k
      have := congrFun (congrFun hmul k) j
      rw [Matrix.one_apply] at this
      rw [Pi.single_apply]
      exact this
    have hle : ∀ i j, |A⁻¹ i j| ≤ 2 ^ 250 := by
      intro i j
      have h1 := hst fun i => A⁻¹ i j
      rw [hcol, lenSq_dot (Pi.single j 1), single_dotProduct, Pi.single_eq_same, one_mul] at h1
      have h2 : A⁻¹ i j ^ 2 ≤ Spec.lenSq fun i => A⁻¹ i j :=
        Finset.single_le_sum (f := fun k => A⁻¹ k j ^ 2) (fun k _ => sq_nonneg _) (Finset.mem_univ i)
      have h3 : (s * |A⁻¹ i j|) ^ 2 ≤ 1 ^ 2 := by
        rw [mul_pow, sq_abs, one_pow]
        exact (mul_le_mul_of_nonneg_left h2 (sq_nonneg s)).trans h1
      have h4 : s * |A⁻¹ i j| ≤ 1 := le_of_sq_le_sq h3 one_pos.le
      have h5 := mul_le_mul_of_nonneg_right hs (abs_nonneg (A⁻¹ i j))
      have h6 := h5.trans h4
      rwa [one_div_mul_eq_div, div_le_one (by positivity)] at h6
    have hx := fun i j => round_rel hr (y := A⁻¹ i j) ((hle i j).trans (two_pow_le (by norm_num)))
    choose X x1 x2 x3 using hx
    refine ⟨X, ?_, x2, fun j => column_rounded hn hA (hcol j) fun i => x3 i j⟩
    rw [roundedOnce_eq, if_neg hdet]
    congr 1
    funext i j
    exact x1 i j
  · have hd0 : ∀ i, 0 < d i := fun i => lt_of_lt_of_le (by positivity) (hd i).1
    have hmul : Matrix.diagonal d * Matrix.diagonal (fun i => 1 / d i) = 1 := by
      rw [Matrix.diagonal_mul_diagonal, ← Matrix.diagonal_one]
      congr 1
      funext i
      exact mul_one_div_cancel (hd0 i).ne'
    have hdet : (Matrix.diagonal d).det ≠ 0 := by
      rw [Matrix.det_diagonal]
      exact Finset.prod_ne_zero_iff.2 fun i _ => (hd0 i).ne'
    have hg := fun i => round_pos hr (y := 1 / d i) (one_div_le_one_div_of_le (hd0 i) (hd i).2) (by
      have := one_div_le_one_div_of_le (by positivity) (hd i).1
      rwa [one_div_one_div] at this)
    choose g g1 g2 g3 using hg
    refine ⟨g, fun i => ⟨g2 i, (g3 i).trans ?_⟩, ?_⟩
    · have : 0 < 1 / d i := one_div_pos.2 (hd0 i)
      gcongr <;> norm_num
    · have h1 := roundedOnce_eq rnd (Matrix.diagonal d)
      simp only [Matrix.diagonal_apply] at h1
      rw [h1, if_neg hdet, Matrix.inv_eq_right_inv hmul]
      congr 1
      funext i j
      rw [Matrix.diagonal_apply]
      by_cases hij : i = j
      · rw [if_pos hij, if_pos hij, g1]
      · rw [if_neg hij, if_neg hij, round_self hr isDouble_zero]

/-! ## Full rank is not enough -/

/-- There is no double near above one. -/
theorem round_near_one {rnd : ℝ → Fl} (hr : Spec.Rounding rnd) : rnd (1 + 1 / 2 ^ 54) = .fin 1 := by
  obtain ⟨z, z1, ⟨k, q, hk, -, -, hz⟩, z3, -⟩ := round_spec hr (y := 1 + 1 / 2 ^ 54) (by
    refine lt_of_le_of_lt ?_ (two_pow_lt_range (k := 1) (by norm_num))
    rw [abs_of_pos (by positivity)]
    norm_num)
  have h1 := z3 1 isDouble_one
  rw [add_sub_cancel_left, abs_of_pos (by positivity : (0 : ℝ) < 1 / 2 ^ 54)] at h1
  obtain ⟨l1, l2⟩ := abs_le.1 h1
  have lo : 1 ≤ z := by linarith
  have hi : z ≤ 1 + 1 / 2 ^ 53 := by
    have : (1 : ℝ) / 2 ^ 53 = 1 / 2 ^ 54 + 1 / 2 ^ 54 := by norm_num
    linarith
  rw [z1]
  congr 1
  have hkR : (k : ℝ) < 2 ^ 53 := by exact_mod_cast (abs_lt.1 hk).2
  have hq : -52 ≤ q := by
    by_contra hc
    have hq' : q ≤ -53 := by omega
    have : (2 : ℝ) ^ q ≤ 2 ^ (-53 : ℤ) := zpow_le_zpow_right₀ one_le_two hq'
    have h0 : (0 : ℝ) < 2 ^ q := by positivity
    have e : (2 : ℝ) ^ 53 * 2 ^ (-53 : ℤ) = 1 := by norm_num
    have : z < 1 := by
      rw [hz]
      calc (k : ℝ) * 2 ^ q < 2 ^ 53 * 2 ^ q := by gcongr
        _ ≤ 2 ^ 53 * 2 ^ (-53 : ℤ) := by gcongr
        _ = 1 := e
    linarith
  obtain ⟨e, he⟩ := Int.eq_ofNat_of_zero_le (by omega : 0 ≤ q + 52)
  have hz2 : z * 2 ^ 52 = ((k * 2 ^ e : ℤ) : ℝ) := by
    rw [hz, mul_assoc, ← zpow_natCast (2 : ℝ) 52, ← zpow_add₀ two_ne_zero]
    rw [show q + ((52 : ℕ) : ℤ) = (e : ℤ) by push_cast; omega, zpow_natCast]
    push_cast
    ring
  have b1 : (2 ^ 52 : ℤ) ≤ k * 2 ^ e := by
    have : ((2 ^ 52 : ℤ) : ℝ) ≤ ((k * 2 ^ e : ℤ) : ℝ) := by
      rw [← hz2]
      push_cast
      linarith
    exact_mod_cast this
  have b2 : k * 2 ^ e < (2 ^ 52 + 1 : ℤ) := by
    have : ((k * 2 ^ e : ℤ) : ℝ) < ((2 ^ 52 + 1 : ℤ) : ℝ) := by
      rw [← hz2]
      push_cast
      have : (1 + 1 / 2 ^ 53 : ℝ) * 2 ^ 52 < 2 ^ 52 + 1 := by norm_num
      linarith
    exact_mod_cast this
  have b3 : k * 2 ^ e = (2 ^ 52 : ℤ) := by omega
  rw [b3] at hz2
  have : z * 2 ^ 52 = 1 * 2 ^ 52 := by rw [one_mul, hz2]; norm_num
  exact mul_right_cancel₀ (by positivity) this

/-- A Jacobian with columns that differ little. -/
noncomputable def Spec.nearlyEqual : Matrix (Fin 3) (Fin 2) ℝ := !![1, 1; 1 / 2 ^ 27, 0; 0, 1 / 2 ^ 27]

theorem nearlyEqual_stretches : Spec.Stretches Spec.nearlyEqual (1 / 2 ^ 27) := by
  intro v
  simp only [Spec.lenSq, Spec.nearlyEqual, Fin.sum_univ_two, Fin.sum_univ_three, mulVec, dotProduct, Matrix.of_apply,
    Matrix.cons_val', Matrix.cons_val_zero, Matrix.cons_val_one, Matrix.cons_val]
  nlinarith [sq_nonneg (v 0 + v 1)]

theorem isDouble_two_pow (k : ℕ) (hk : k ≤ 1000) : Spec.IsDouble (1 / 2 ^ k) :=
  ⟨1, -(k : ℤ), by norm_num, by omega, by omega, by rw [_root_.zpow_neg, zpow_natCast]; simp⟩

/-- **C145.**  The Jacobian has full rank, and exact arithmetic gives the matrices; with operations as exact as they can be,
the product of the Jacobian is singular in doubles: an exception. -/
theorem C145_lost {rnd : ℝ → Fl} (hr : Spec.Rounding rnd) (res : Fin 3 → ℝ) (hres : res ≠ 0) :
    (∀ k i, Spec.IsDouble (Spec.nearlyEqual k i)) ∧
      (∃ cov corr, coMatrices res Spec.nearlyEqual 2 = .ok (some (cov, corr))) ∧
      Dbl.coMatrices rnd (Spec.roundedOnce rnd) (fun k => .fin (res k)) (fun k i => .fin (Spec.nearlyEqual k i)) 2 =
        .error .linAlgError := by
  refine ⟨fun k i => ?_, ?_, ?_⟩
  · fin_cases k <;> fin_cases i <;> first | exact isDouble_one | exact isDouble_zero | exact isDouble_two_pow 27 (by norm_num)
  · obtain ⟨cov, corr, h, -⟩ := C30_matrices res Spec.nearlyEqual 2 (by norm_num)
      (stretches_rank (by positivity) nearlyEqual_stretches) hres
    exact ⟨cov, corr, h⟩
  · have hjj : (fun i j => (Spec.roundedOnce rnd).dot (fun k => .fin (Spec.nearlyEqual k i))
        (fun k => .fin (Spec.nearlyEqual k j)) : Fin 2 → Fin 2 → Fl) = fun _ _ => .fin 1 := by
      have e1 : (1 : ℝ) + 1 / 2 ^ 27 * (1 / 2 ^ 27) = 1 + 1 / 2 ^ 54 := by norm_num
      funext i j
      show rnd (∑ k, Spec.nearlyEqual k i * Spec.nearlyEqual k j) = _
      rw [Fin.sum_univ_three]
      fin_cases i <;> fin_cases j <;>
        simp only [Spec.nearlyEqual, Matrix.of_apply, Matrix.cons_val', Matrix.cons_val_zero, Matrix.cons_val_one,
          Matrix.cons_val, Fin.zero_eta, Fin.mk_one, Fin.isValue, mul_zero, zero_mul, mul_one, add_zero, e1] <;>
        first | exact round_near_one hr | exact round_self hr isDouble_one
    have hinv : (Spec.roundedOnce rnd).inv (fun _ _ => .fin 1 : Fin 2 → Fin 2 → Fl) = .error .linAlgError := by
      have h1 := roundedOnce_eq rnd (Matrix.of fun _ _ => (1 : ℝ) : Matrix (Fin 2) (Fin 2) ℝ)
      rwa [if_pos (by rw [Matrix.det_fin_two]; simp)] at h1
    simp only [Dbl.coMatrices, hjj, hinv, bind, Except.bind]

/-- Three residuals and two parameters, with operations as exact as they can be: seven digits and more of the correlation. -/
example {rnd : ℝ → Fl} (hr : Spec.Rounding rnd) :
    ∃ cov corr cov' corr' : Matrix (Fin 2) (Fin 2) ℝ,
      coMatrices ![1, 2, 3] !![1, 0; 0, 1; 1, 1] 2 = .ok (some (cov, corr)) ∧
      Dbl.coMatrices rnd (Spec.roundedOnce rnd) (fun k => .fin ((![1, 2, 3] : Fin 3 → ℝ) k))
        (fun k i => .fin ((!![1, 0; 0, 1; 1, 1] : Matrix (Fin 3) (Fin 2) ℝ) k i)) 2 =
        .ok (fun i j => .fin (cov' i j), fun i j => .fin (corr' i j)) ∧
      ∀ i j, |corr' i j - corr i j| ≤ 1 / 10 ^ 7 := by
  have hsize : Spec.sizeSq (!![1, 0; 0, 1; 1, 1] : Matrix (Fin 3) (Fin 2) ℝ) = 4 := by
    simp [Spec.sizeSq, Fin.sum_univ_three, Fin.sum_univ_two]
    norm_num
  have hloss : Spec.loss 3 2 (1 / 2 ^ 50) 4 1 ≤ 1 / 10 ^ 9 := by
    unfold Spec.loss
    norm_num
  have hlen : Spec.lenSq (![1, 2, 3] : Fin 3 → ℝ) = 14 := by
    simp [Spec.lenSq, Fin.sum_univ_three]
    norm_num
  have hint : ∀ z : ℤ, |z| < 2 ^ 53 → Spec.IsDouble (z : ℝ) := fun z => isDouble_int
  obtain ⟨cov, corr, cov', corr', h1, h2, -, -, h5⟩ := C145_matrices hr (by positivity) (roundedOnce_dot hr) (roundedOnce_inv hr)
    (nPars := 2) ![1, 2, 3] !![1, 0; 0, 1; 1, 1] 1 (by norm_num) (by norm_num)
    (fun k => by
      fin_cases k
      · exact_mod_cast hint 1 (by norm_num)
      · exact_mod_cast hint 2 (by norm_num)
      · exact_mod_cast hint 3 (by norm_num))
    (fun k i => by
      fin_cases k <;> fin_cases i <;> first | exact isDouble_one | exact isDouble_zero)
    (by rw [hlen]; norm_num) (by rw [hlen]; norm_num) (by norm_num)
    (by
      intro v
      simp [Spec.lenSq, Fin.sum_univ_two, Fin.sum_univ_three, mulVec, dotProduct]
      positivity)
    (by rw [hsize]; norm_num) (by rw [hsize]; exact hloss.trans (by norm_num))
  refine ⟨cov, corr, cov', corr', h1, h2, fun i j => (h5 i j).trans ?_⟩
  rw [hsize]
  have : (19 : ℝ) * (1 / 10 ^ 9) ≤ 1 / 10 ^ 7 := by norm_num
  linarith

end Verif.Props
