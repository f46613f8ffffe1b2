import Verif.Lemmas.Wavefront

/-! # Independence of the Zernike polynomials, on the disc and on a grid -/

namespace Verif.Aperture

open Verif Verif.Np Verif.Zernike Finset Polynomial

/-! ## Functions that are polynomials of bounded degree -/

/-- `f` is a polynomial function of degree at most `n`. -/
def PolyDeg (n : ℕ) (f : ℝ → ℝ) : Prop := ∃ p : ℝ[X], p.natDegree ≤ n ∧ ∀ x, p.eval x = f x

theorem PolyDeg.mono {n m : ℕ} {f : ℝ → ℝ} (h : PolyDeg n f) (hnm : n ≤ m) : PolyDeg m f := by
  obtain ⟨p, h1, h2⟩ := h
  exact ⟨p, h1.trans hnm, h2⟩

theorem polyDeg_const (c : ℝ) (n : ℕ) : PolyDeg n fun _ => c :=
  ⟨C c, by simp, fun x => by simp⟩

theorem polyDeg_id : PolyDeg 1 fun x => x := ⟨X, by simp, fun x => by simp⟩

theorem PolyDeg.add {n : ℕ} {f g : ℝ → ℝ} (hf : PolyDeg n f) (hg : PolyDeg n g) :
    PolyDeg n fun x => f x + g x := by
  obtain ⟨p, h1, h2⟩ := hf
  obtain ⟨q, h3, h4⟩ := hg
  exact ⟨p + q, (natDegree_add_le _ _).trans (max_le h1 h3), fun x => by rw [eval_add, h2, h4]⟩

theorem PolyDeg.mul {n m : ℕ} {f g : ℝ → ℝ} (hf : PolyDeg n f) (hg : PolyDeg m g) :
    PolyDeg (n + m) fun x => f x * g x := by
  obtain ⟨p, h1, h2⟩ := hf
  obtain ⟨q, h3, h4⟩ := hg
  exact ⟨p * q, natDegree_mul_le.trans (add_le_add h1 h3), fun x => by rw [eval_mul, h2, h4]⟩

theorem PolyDeg.smul {n : ℕ} {f : ℝ → ℝ} (hf : PolyDeg n f) (c : ℝ) : PolyDeg n fun x => c * f x := by
  have := (polyDeg_const c 0).mul hf
  rwa [Nat.zero_add] at this

theorem PolyDeg.pow {n : ℕ} {f : ℝ → ℝ} (hf : PolyDeg n f) (k : ℕ) :
    PolyDeg (n * k) fun x => f x ^ k := by
  induction k with
  | zero => simpa using polyDeg_const 1 0
  | succ k ih =>
    have := ih.mul hf
    simpa [pow_succ, Nat.mul_succ] using this

theorem PolyDeg.sum {ι : Type} {n : ℕ} (s : Finset ι) (f : ι → ℝ → ℝ) (h : ∀ i ∈ s, PolyDeg n (f i)) :
    PolyDeg n fun x => ∑ i ∈ s, f i x := by
  classical
  induction s using Finset.induction_on with
  | empty => simpa using polyDeg_const 0 n
  | @insert a s ha ih =>
    have := (h a (mem_insert_self _ _)).add (ih fun i hi => h i (mem_insert_of_mem hi))
    simpa [Finset.sum_insert ha] using this

theorem PolyDeg.zero_of_roots {n : ℕ} {f : ℝ → ℝ} (hf : PolyDeg n f) (s : Finset ℝ) (hs : n < s.card)
    (h : ∀ x ∈ s, f x = 0) (x : ℝ) : f x = 0 := by
  obtain ⟨p, h1, h2⟩ := hf
  have : p = 0 := Polynomial.eq_zero_of_natDegree_lt_card_of_eval_eq_zero' p s
    (fun x hx => by rw [h2, h x hx]) (lt_of_le_of_lt h1 hs)
  rw [← h2, this, eval_zero]

/-! ## The polynomials in Cartesian coordinates -/

mutual
/-- The real part of `(x + i y) ^ m`. -/
def cT : ℕ → ℝ → ℝ → ℝ
  | 0, _, _ => 1
  | m + 1, x, y => x * cT m x y + (-1) * (y * sT m x y)
/-- The imaginary part of `(x + i y) ^ m`. -/
def sT : ℕ → ℝ → ℝ → ℝ
  | 0, _, _ => 0
  | m + 1, x, y => x * sT m x y + y * cT m x y
end

theorem csT_polar (m : ℕ) (rho theta : ℝ) :
    cT m (rho * Real.cos theta) (rho * Real.sin theta) = rho ^ m * Real.cos (m * theta) ∧
    sT m (rho * Real.cos theta) (rho * Real.sin theta) = rho ^ m * Real.sin (m * theta) := by
  induction m with
  | zero => simp [cT, sT]
  | succ m ih =>
    obtain ⟨h1, h2⟩ := ih
    have e : ((m + 1 : ℕ) : ℝ) * theta = m * theta + theta := by push_cast; ring
    rw [cT, sT, h1, h2, e, Real.cos_add, Real.sin_add]
    constructor <;> ring

theorem csT_polyX (m : ℕ) (y : ℝ) :
    (PolyDeg m fun x => cT m x y) ∧ (PolyDeg m fun x => sT m x y) := by
  induction m with
  | zero => exact ⟨polyDeg_const 1 0, polyDeg_const 0 0⟩
  | succ m ih =>
    obtain ⟨h1, h2⟩ := ih
    have a1 := polyDeg_id.mul h1
    have a2 := polyDeg_id.mul h2
    rw [Nat.add_comm] at a1 a2
    exact ⟨a1.add (((h2.smul y).smul (-1)).mono (Nat.le_succ m)),
      a2.add ((h1.smul y).mono (Nat.le_succ m))⟩

theorem csT_polyY (m : ℕ) (x : ℝ) :
    (PolyDeg m fun y => cT m x y) ∧ (PolyDeg m fun y => sT m x y) := by
  induction m with
  | zero => exact ⟨polyDeg_const 1 0, polyDeg_const 0 0⟩
  | succ m ih =>
    obtain ⟨h1, h2⟩ := ih
    have a1 := polyDeg_id.mul h1
    have a2 := polyDeg_id.mul h2
    rw [Nat.add_comm] at a1 a2
    exact ⟨((h1.smul x).mono (Nat.le_succ m)).add (a2.smul (-1)),
      ((h2.smul x).mono (Nat.le_succ m)).add a1⟩

/-- The angular part in Cartesian coordinates. -/
noncomputable def angT (l : ℤ) (m : ℕ) (x y : ℝ) : ℝ := if l < 0 then sT m x y else cT m x y

/-- `U` in Cartesian coordinates. -/
noncomputable def cart (a b : ℕ) (l : ℤ) (x y : ℝ) : ℝ :=
  ∑ s ∈ range (b + 1), (rcoef a b s * (x ^ 2 + y ^ 2) ^ (b - s)) * angT l (a - b) x y

theorem cart_polar (a b : ℕ) (l : ℤ) (h : b ≤ a) (hl : ((a - b : ℕ) : ℤ) = |l|) (rho theta : ℝ) :
    cart a b l (rho * Real.cos theta) (rho * Real.sin theta) = Rsum a b rho * ang l theta := by
  have hang : angT l (a - b) (rho * Real.cos theta) (rho * Real.sin theta) =
      rho ^ (a - b) * ang l theta := by
    obtain ⟨h1, h2⟩ := csT_polar (a - b) rho theta
    have e : ((|l| : ℤ) : ℝ) = ((a - b : ℕ) : ℝ) := by rw [← hl]; norm_cast
    unfold angT ang
    rw [e]
    split_ifs
    · exact h2
    · exact h1
  have hr : (rho * Real.cos theta) ^ 2 + (rho * Real.sin theta) ^ 2 = rho ^ 2 := by
    rw [mul_pow, mul_pow, ← mul_add, Real.cos_sq_add_sin_sq, mul_one]
  unfold cart
  rw [Rsum_eq_rcoef a b h, Finset.sum_mul]
  refine Finset.sum_congr rfl fun s _ => ?_
  rw [hang, hr, pow_add, pow_mul]
  ring

theorem cart_polyX (a b : ℕ) (l : ℤ) (h : b ≤ a) (y : ℝ) : PolyDeg (a + b) fun x => cart a b l x y := by
  unfold cart
  refine PolyDeg.sum _ _ fun s hs => ?_
  have h1 : PolyDeg 2 fun x : ℝ => x ^ 2 + y ^ 2 := by
    have := polyDeg_id.pow 2
    exact this.add (polyDeg_const _ _)
  have h2 : PolyDeg (a - b) fun x => angT l (a - b) x y := by
    unfold angT
    split_ifs
    · exact (csT_polyX _ y).2
    · exact (csT_polyX _ y).1
  exact (((h1.pow (b - s)).smul _).mul h2).mono (by omega)

theorem cart_polyY (a b : ℕ) (l : ℤ) (h : b ≤ a) (x : ℝ) : PolyDeg (a + b) fun y => cart a b l x y := by
  unfold cart
  refine PolyDeg.sum _ _ fun s hs => ?_
  have h1 : PolyDeg 2 fun y : ℝ => x ^ 2 + y ^ 2 := by
    have := polyDeg_id.pow 2
    exact (polyDeg_const _ _).add this
  have h2 : PolyDeg (a - b) fun y => angT l (a - b) x y := by
    unfold angT
    split_ifs
    · exact (csT_polyY _ x).2
    · exact (csT_polyY _ x).1
  exact (((h1.pow (b - s)).smul _).mul h2).mono (by omega)

/-- `U` is a polynomial of degree `n` in Cartesian coordinates. -/
theorem Uv_cart (i k : ℕ) (hk : k ≤ i) : ∃ P : ℝ → ℝ → ℝ,
    (∀ y, PolyDeg i fun x => P x y) ∧ (∀ x, PolyDeg i fun y => P x y) ∧
    ∀ rho theta, Uv i (-(i : ℤ) + 2 * (k : ℤ)) rho theta =
      P (rho * Real.cos theta) (rho * Real.sin theta) := by
  obtain ⟨a, b, hba, hn, hm, hU⟩ := U_value i _ (row_allowed i k hk)
  refine ⟨cart a b (-(i : ℤ) + 2 * (k : ℤ)), fun y => hn ▸ cart_polyX a b _ hba y,
    fun x => hn ▸ cart_polyY a b _ hba x, fun rho theta => ?_⟩
  rw [Uv_of_ok (hU rho theta), cart_polar a b _ hba hm]

/-- So is the wavefront. -/
theorem wfVal_cart (n : ℕ) (K : List ℝ) : ∃ P : ℝ → ℝ → ℝ,
    (∀ y, PolyDeg n fun x => P x y) ∧ (∀ x, PolyDeg n fun y => P x y) ∧
    ∀ rho theta, wfVal n K rho theta = P (rho * Real.cos theta) (rho * Real.sin theta) := by
  have hex : ∀ i k : ℕ, ∃ P : ℝ → ℝ → ℝ, k ≤ i →
      (∀ y, PolyDeg i fun x => P x y) ∧ (∀ x, PolyDeg i fun y => P x y) ∧
      ∀ rho theta, Uv i (-(i : ℤ) + 2 * (k : ℤ)) rho theta =
        P (rho * Real.cos theta) (rho * Real.sin theta) := by
    intro i k
    by_cases h : k ≤ i
    · obtain ⟨P, hP⟩ := Uv_cart i k h
      exact ⟨P, fun _ => hP⟩
    · exact ⟨fun _ _ => 0, fun h' => absurd h' h⟩
  choose P hP using hex
  refine ⟨fun x y => ∑ i ∈ range (n + 1), ∑ k ∈ range (i + 1), K.getD (tri i + k) 0 * P i k x y,
    fun y => ?_, fun x => ?_, fun rho theta => ?_⟩
  · refine PolyDeg.sum _ _ fun i hi => PolyDeg.sum _ _ fun k hk => ?_
    have hi' := mem_range.1 hi
    have hk' := mem_range.1 hk
    exact (((hP i k (by omega)).1 y).smul _).mono (by omega)
  · refine PolyDeg.sum _ _ fun i hi => PolyDeg.sum _ _ fun k hk => ?_
    have hi' := mem_range.1 hi
    have hk' := mem_range.1 hk
    exact (((hP i k (by omega)).2.1 x).smul _).mono (by omega)
  · unfold wfVal
    refine Finset.sum_congr rfl fun i _ => Finset.sum_congr rfl fun k hk => ?_
    have hk' := mem_range.1 hk
    rw [(hP i k (by omega)).2.2]

/-- A wavefront that vanishes on a square grid of more than `n` points in either direction vanishes
everywhere. -/
theorem wfVal_zero_of_grid (n : ℕ) (K : List ℝ) (S T : Finset ℝ) (hS : n < S.card) (hT : n < T.card)
    (h : ∀ x ∈ S, ∀ y ∈ T, ∃ rho theta, x = rho * Real.cos theta ∧ y = rho * Real.sin theta ∧
      wfVal n K rho theta = 0) (rho theta : ℝ) : wfVal n K rho theta = 0 := by
  obtain ⟨P, h1, h2, h3⟩ := wfVal_cart n K
  have e1 : ∀ x, ∀ y ∈ T, P x y = 0 := fun x y hy =>
    (h1 y).zero_of_roots S hS (fun x hx => by
      obtain ⟨r, t, hx', hy', hw⟩ := h x hx y hy
      show P x y = 0
      rw [hx', hy', ← h3, hw]) x
  rw [h3]
  exact (h2 _).zero_of_roots T hT (fun y hy => e1 _ y hy) _

/-! ## Projection -/

theorem Uv_inner (i k i' k' : ℕ) (hk : k ≤ i) (hk' : k' ≤ i') :
    ∫ rho in (0:ℝ)..1, ∫ theta in (0:ℝ)..(2 * Real.pi),
      Uv i (-(i : ℤ) + 2 * (k : ℤ)) rho theta * Uv i' (-(i' : ℤ) + 2 * (k' : ℤ)) rho theta * rho =
      if i = i' ∧ k = k' then Real.pi * (if 2 * k = i then 2 else 1) / (2 * (i + 1)) else 0 := by
  obtain ⟨a, b, hba, hn, hm, hU⟩ := U_value i _ (row_allowed i k hk)
  obtain ⟨a', b', hba', hn', hm', hU'⟩ := U_value i' _ (row_allowed i' k' hk')
  have e : ∀ rho : ℝ, ∫ theta in (0:ℝ)..(2 * Real.pi),
      Uv i (-(i : ℤ) + 2 * (k : ℤ)) rho theta * Uv i' (-(i' : ℤ) + 2 * (k' : ℤ)) rho theta * rho =
      (Rsum a b rho * Rsum a' b' rho * rho) * ∫ theta in (0:ℝ)..(2 * Real.pi),
        ang (-(i : ℤ) + 2 * (k : ℤ)) theta * ang (-(i' : ℤ) + 2 * (k' : ℤ)) theta := by
    intro rho
    rw [← intervalIntegral.integral_const_mul]
    congr 1
    funext theta
    rw [Uv_of_ok (hU rho theta), Uv_of_ok (hU' rho theta)]
    ring
  simp_rw [e]
  rw [intervalIntegral.integral_mul_const, ang_orth]
  by_cases hl : -(i : ℤ) + 2 * (k : ℤ) = -(i' : ℤ) + 2 * (k' : ℤ)
  · rw [if_pos hl]
    have hmm : a - b = a' - b' := by
      have : ((a - b : ℕ) : ℤ) = ((a' - b' : ℕ) : ℤ) := by rw [hm, hm', hl]
      exact_mod_cast this
    by_cases hi : i = i'
    · subst hi
      have hkk : k = k' := by omega
      subst hkk
      have ha : a = a' := by omega
      have hb : b = b' := by omega
      subst ha; subst hb
      rw [if_pos (show i = i ∧ k = k from ⟨rfl, rfl⟩), radial_norm a b hba]
      have hz : (-(i : ℤ) + 2 * (k : ℤ) = 0) ↔ 2 * k = i := by omega
      rw [hn]
      by_cases h0 : 2 * k = i
      · rw [if_pos (hz.2 h0), if_pos h0]; field_simp
      · rw [if_neg (fun h => h0 (hz.1 h)), if_neg h0]; field_simp
    · rw [if_neg (fun h : i = i' ∧ k = k' => hi h.1), radial_orth a b a' b' hba hba' hmm (by omega), zero_mul]
  · rw [if_neg hl, if_neg (fun h : i = i' ∧ k = k' => hl (by rw [h.1, h.2])), mul_zero]

theorem Uv_continuous (i k : ℕ) (hk : k ≤ i) :
    Continuous fun p : ℝ × ℝ => Uv i (-(i : ℤ) + 2 * (k : ℤ)) p.1 p.2 := by
  obtain ⟨a, b, hba, hn, hm, hU⟩ := U_value i _ (row_allowed i k hk)
  have : (fun p : ℝ × ℝ => Uv i (-(i : ℤ) + 2 * (k : ℤ)) p.1 p.2) =
      fun p => Rsum a b p.1 * ang (-(i : ℤ) + 2 * (k : ℤ)) p.2 := by
    funext p
    exact Uv_of_ok (hU p.1 p.2)
  rw [this]
  exact ((Rsum_continuous a b).comp continuous_fst).mul ((ang_continuous _).comp continuous_snd)

/-- The polar double integral of a finite sum. -/
theorem polar_sum {ι : Type} (s : Finset ι) (f : ι → ℝ → ℝ → ℝ)
    (hf : ∀ i ∈ s, Continuous fun p : ℝ × ℝ => f i p.1 p.2) :
    ∫ rho in (0:ℝ)..1, ∫ theta in (0:ℝ)..(2 * Real.pi), ∑ i ∈ s, f i rho theta =
      ∑ i ∈ s, ∫ rho in (0:ℝ)..1, ∫ theta in (0:ℝ)..(2 * Real.pi), f i rho theta := by
  have e : ∀ rho : ℝ, ∫ theta in (0:ℝ)..(2 * Real.pi), ∑ i ∈ s, f i rho theta =
      ∑ i ∈ s, ∫ theta in (0:ℝ)..(2 * Real.pi), f i rho theta := by
    intro rho
    refine intervalIntegral.integral_finset_sum fun i hi => ?_
    exact ((hf i hi).comp (Continuous.prodMk_right rho)).intervalIntegrable _ _
  simp_rw [e]
  refine intervalIntegral.integral_finset_sum fun i hi => ?_
  have := intervalIntegral.continuous_parametric_intervalIntegral_of_continuous'
    (μ := MeasureTheory.volume) (f := fun rho theta => f i rho theta) (hf i hi) 0 (2 * Real.pi)
  exact this.intervalIntegrable _ _

/-- The projection of a wavefront on a polynomial is its coefficient times the norm. -/
theorem wfVal_inner (n : ℕ) (K : List ℝ) (i k : ℕ) (hi : i ≤ n) (hk : k ≤ i) :
    ∫ rho in (0:ℝ)..1, ∫ theta in (0:ℝ)..(2 * Real.pi),
      wfVal n K rho theta * Uv i (-(i : ℤ) + 2 * (k : ℤ)) rho theta * rho =
      K.getD (tri i + k) 0 * (Real.pi * (if 2 * k = i then 2 else 1) / (2 * (i + 1))) := by
  have hc := fun (i k : ℕ) (hk : k ≤ i) => Uv_continuous i k hk
  have e : ∀ rho theta, wfVal n K rho theta * Uv i (-(i : ℤ) + 2 * (k : ℤ)) rho theta * rho =
      ∑ p ∈ (range (n + 1)).sigma fun i' => range (i' + 1), K.getD (tri p.1 + p.2) 0 *
        (Uv p.1 (-(p.1 : ℤ) + 2 * (p.2 : ℤ)) rho theta *
          Uv i (-(i : ℤ) + 2 * (k : ℤ)) rho theta * rho) := by
    intro rho theta
    rw [Finset.sum_sigma, wfVal, Finset.sum_mul, Finset.sum_mul]
    refine Finset.sum_congr rfl fun i' _ => ?_
    rw [Finset.sum_mul, Finset.sum_mul]
    exact Finset.sum_congr rfl fun k' _ => by ring
  simp_rw [e]
  rw [polar_sum]
  · rw [Finset.sum_eq_single (⟨i, k⟩ : Σ _ : ℕ, ℕ)]
    · simp_rw [intervalIntegral.integral_const_mul]
      rw [Uv_inner i k i k hk hk, if_pos ⟨rfl, rfl⟩]
    · rintro ⟨i', k'⟩ hp hne
      have hk' : k' ≤ i' := by
        have := (mem_sigma.1 hp).2
        simpa [Nat.lt_succ_iff] using this
      simp_rw [intervalIntegral.integral_const_mul]
      rw [Uv_inner i' k' i k hk' hk, if_neg, mul_zero]
      rintro ⟨rfl, rfl⟩
      exact hne rfl
    · intro h
      refine absurd ?_ h
      rw [mem_sigma]
      exact ⟨mem_range.2 (Nat.lt_succ_of_le hi), mem_range.2 (Nat.lt_succ_of_le hk)⟩
  · rintro ⟨i', k'⟩ hp
    have hk' : k' ≤ i' := by
      have := (mem_sigma.1 hp).2
      simpa [Nat.lt_succ_iff] using this
    exact continuous_const.mul (((hc i' k' hk').mul (hc i k hk)).mul continuous_fst)

/-- A wavefront that vanishes everywhere has no coefficients. -/
theorem wfVal_coeff_zero (n : ℕ) (K : List ℝ) (h : ∀ rho theta, wfVal n K rho theta = 0) :
    ∀ m < tri (n + 1), K.getD m 0 = 0 := by
  intro m hm
  obtain ⟨i, k, hi, hk, rfl⟩ := exists_row_pos n m hm
  have := wfVal_inner n K i k hi hk
  simp only [h, zero_mul, intervalIntegral.integral_zero] at this
  have hp : 0 < Real.pi * (if 2 * k = i then (2 : ℝ) else 1) / (2 * (i + 1)) := by
    have := Real.pi_pos
    split_ifs <;> positivity
  rcases mul_eq_zero.1 this.symm with h | h
  · exact h
  · exact absurd h hp.ne'

end Verif.Aperture
