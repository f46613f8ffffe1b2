import Verif.Lemmas.ZernikeUnique
import Mathlib.LinearAlgebra.FiniteDimensional.Lemmas
import Mathlib.Algebra.Algebra.Operations
import Mathlib.LinearAlgebra.Dimension.Constructions

/-! # The Zernike polynomials up to an order span the polynomials in `x`, `y` up to this degree -/

namespace Verif.Aperture

open Verif Verif.Np Verif.Zernike Finset
open scoped Pointwise

/-- The function `x ^ a * y ^ b`. -/
def monom (a b : ℕ) (p : ℝ × ℝ) : ℝ := p.1 ^ a * p.2 ^ b

open Classical in
/-- The monomials of degree at most `n`. -/
noncomputable def monoms (n : ℕ) : Finset (ℝ × ℝ → ℝ) :=
  ((range (n + 1)).sigma fun i => range (i + 1)).image fun q => monom q.2 (q.1 - q.2)

/-- The polynomial functions of degree at most `n`. -/
noncomputable def polyBelow (n : ℕ) : Submodule ℝ (ℝ × ℝ → ℝ) := Submodule.span ℝ (monoms n : Set (ℝ × ℝ → ℝ))

theorem mem_monoms {n : ℕ} {f : ℝ × ℝ → ℝ} : f ∈ monoms n ↔ ∃ a b, a + b ≤ n ∧ f = monom a b := by
  classical
  unfold monoms
  rw [mem_image]
  constructor
  · rintro ⟨⟨i, k⟩, h, rfl⟩
    rw [mem_sigma, mem_range, mem_range] at h
    exact ⟨k, i - k, by simp only at h ⊢; omega, rfl⟩
  · rintro ⟨a, b, h, rfl⟩
    refine ⟨⟨a + b, a⟩, ?_, ?_⟩
    · rw [mem_sigma, mem_range, mem_range]
      simp only
      omega
    · simp

theorem card_monoms (n : ℕ) : (monoms n).card ≤ tri (n + 1) := by
  classical
  unfold monoms
  refine card_image_le.trans ?_
  rw [card_sigma]
  simp only [card_range]
  induction n with
  | zero => simp [tri]
  | succ n ih =>
    rw [sum_range_succ, tri_succ]
    omega

theorem monom_mem {n a b : ℕ} (h : a + b ≤ n) : monom a b ∈ polyBelow n :=
  Submodule.subset_span (mem_coe.2 (mem_monoms.2 ⟨a, b, h, rfl⟩))

theorem polyBelow_mono {n m : ℕ} (h : n ≤ m) : polyBelow n ≤ polyBelow m := by
  refine Submodule.span_le.2 fun f hf => ?_
  obtain ⟨a, b, hab, rfl⟩ := mem_monoms.1 (mem_coe.1 hf)
  exact monom_mem (hab.trans h)

theorem polyBelow_mul {n m : ℕ} {f g : ℝ × ℝ → ℝ} (hf : f ∈ polyBelow n) (hg : g ∈ polyBelow m) :
    (fun p => f p * g p) ∈ polyBelow (n + m) := by
  have h := Submodule.mul_mem_mul hf hg
  unfold polyBelow at h
  rw [Submodule.span_mul_span] at h
  refine (Submodule.span_le.2 ?_ : _ ≤ polyBelow (n + m)) h
  rintro _ ⟨u, hu, v, hv, rfl⟩
  obtain ⟨a, b, hab, rfl⟩ := mem_monoms.1 (mem_coe.1 hu)
  obtain ⟨c, d, hcd, rfl⟩ := mem_monoms.1 (mem_coe.1 hv)
  have : monom a b * monom c d = monom (a + c) (b + d) := by
    funext p
    simp only [Pi.mul_apply, monom]
    ring
  simp only [this]
  exact monom_mem (by omega)

theorem polyBelow_const (c : ℝ) (n : ℕ) : (fun _ => c) ∈ polyBelow n := by
  have h := (polyBelow n).smul_mem c (monom_mem (show 0 + 0 ≤ n by omega))
  have e : (fun _ => c) = c • monom 0 0 := by
    funext p
    simp [monom]
  rw [e]
  exact h

theorem polyBelow_x : (fun p : ℝ × ℝ => p.1) ∈ polyBelow 1 := by
  have e : (fun p : ℝ × ℝ => p.1) = monom 1 0 := by funext p; simp [monom]
  rw [e]
  exact monom_mem (by omega)

theorem polyBelow_y : (fun p : ℝ × ℝ => p.2) ∈ polyBelow 1 := by
  have e : (fun p : ℝ × ℝ => p.2) = monom 0 1 := by funext p; simp [monom]
  rw [e]
  exact monom_mem (by omega)

theorem polyBelow_pow {n : ℕ} {f : ℝ × ℝ → ℝ} (hf : f ∈ polyBelow n) (k : ℕ) :
    (fun p => f p ^ k) ∈ polyBelow (n * k) := by
  induction k with
  | zero => simpa using polyBelow_const 1 0
  | succ k ih =>
    have := polyBelow_mul ih hf
    simpa only [pow_succ, Nat.mul_succ] using this

theorem csT_mem (m : ℕ) :
    (fun p : ℝ × ℝ => cT m p.1 p.2) ∈ polyBelow m ∧ (fun p : ℝ × ℝ => sT m p.1 p.2) ∈ polyBelow m := by
  induction m with
  | zero => exact ⟨by simpa only [cT] using polyBelow_const 1 0, by simpa only [sT] using polyBelow_const 0 0⟩
  | succ m ih =>
    have h1 := polyBelow_mul polyBelow_x ih.1
    have h2 := polyBelow_mul polyBelow_x ih.2
    have h3 := polyBelow_mul polyBelow_y ih.1
    have h4 := polyBelow_mul polyBelow_y ih.2
    rw [Nat.add_comm] at h1 h2 h3 h4
    constructor
    · have := (polyBelow (m + 1)).add_mem h1 ((polyBelow (m + 1)).smul_mem (-1) h4)
      simp only [cT]
      exact this
    · have := (polyBelow (m + 1)).add_mem h2 h3
      simp only [sT]
      exact this

theorem cart_mem (a b : ℕ) (l : ℤ) (h : b ≤ a) : (fun p : ℝ × ℝ => cart a b l p.1 p.2) ∈ polyBelow (a + b) := by
  have hr : (fun p : ℝ × ℝ => p.1 ^ 2 + p.2 ^ 2) ∈ polyBelow 2 := by
    have h1 := polyBelow_pow polyBelow_x 2
    have h2 := polyBelow_pow polyBelow_y 2
    exact (polyBelow 2).add_mem h1 h2
  have ha : (fun p : ℝ × ℝ => angT l (a - b) p.1 p.2) ∈ polyBelow (a - b) := by
    unfold angT
    split_ifs
    · exact (csT_mem _).2
    · exact (csT_mem _).1
  have e : (fun p : ℝ × ℝ => cart a b l p.1 p.2) = ∑ s ∈ range (b + 1), fun p : ℝ × ℝ =>
      (rcoef a b s * (p.1 ^ 2 + p.2 ^ 2) ^ (b - s)) * angT l (a - b) p.1 p.2 := by
    funext p
    rw [Finset.sum_apply]
    rfl
  rw [e]
  refine Submodule.sum_mem _ fun s _ => ?_
  have h1 := polyBelow_mul ((polyBelow (2 * (b - s))).smul_mem (rcoef a b s) (polyBelow_pow hr (b - s))) ha
  exact polyBelow_mono (by omega) h1

/-- `U` is a polynomial of degree at most `n` in `x`, `y`. -/
theorem Uv_mem (i k : ℕ) (hk : k ≤ i) : ∃ P ∈ polyBelow i,
    ∀ rho theta, Uv i (-(i : ℤ) + 2 * (k : ℤ)) rho theta = P (rho * Real.cos theta, rho * Real.sin theta) := by
  obtain ⟨a, b, hba, hn, hm, hU⟩ := U_value i _ (row_allowed i k hk)
  refine ⟨fun p => cart a b (-(i : ℤ) + 2 * (k : ℤ)) p.1 p.2, hn ▸ cart_mem a b _ hba, fun rho theta => ?_⟩
  rw [Uv_of_ok (hU rho theta)]
  exact (cart_polar a b _ hba hm rho theta).symm

/-- The polynomial of a wavefront. -/
theorem wfVal_mem (n : ℕ) : ∃ P : (Fin (tri (n + 1)) → ℝ) →ₗ[ℝ] (ℝ × ℝ → ℝ), (∀ K, P K ∈ polyBelow n) ∧
    ∀ K rho theta, wfVal n (List.ofFn K) rho theta = P K (rho * Real.cos theta, rho * Real.sin theta) := by
  have hex : ∀ i k : ℕ, ∃ P : ℝ × ℝ → ℝ, k ≤ i → P ∈ polyBelow i ∧
      ∀ rho theta, Uv i (-(i : ℤ) + 2 * (k : ℤ)) rho theta = P (rho * Real.cos theta, rho * Real.sin theta) := by
    intro i k
    by_cases h : k ≤ i
    · obtain ⟨P, h1, h2⟩ := Uv_mem i k h
      exact ⟨P, fun _ => ⟨h1, h2⟩⟩
    · exact ⟨fun _ => 0, fun h' => absurd h' h⟩
  choose P hP using hex
  have hg : ∀ (K : Fin (tri (n + 1)) → ℝ) (m : ℕ), (List.ofFn K).getD m 0 =
      if h : m < tri (n + 1) then K ⟨m, h⟩ else 0 := by
    intro K m
    rw [List.getD_eq_getElem?_getD, List.getElem?_ofFn]
    split_ifs <;> rfl
  refine ⟨⟨⟨fun K p => ∑ i ∈ range (n + 1), ∑ k ∈ range (i + 1), (List.ofFn K).getD (tri i + k) 0 * P i k p, ?_⟩, ?_⟩,
    ?_, ?_⟩
  · intro K L
    funext p
    simp only [Pi.add_apply, ← sum_add_distrib]
    refine sum_congr rfl fun i _ => sum_congr rfl fun k _ => ?_
    rw [hg, hg, hg]
    split_ifs
    · simp only [Pi.add_apply]; ring
    · ring
  · intro c K
    funext p
    simp only [Pi.smul_apply, smul_eq_mul, RingHom.id_apply, mul_sum]
    refine sum_congr rfl fun i _ => sum_congr rfl fun k _ => ?_
    rw [hg, hg]
    split_ifs
    · simp only [Pi.smul_apply, smul_eq_mul]; ring
    · ring
  · intro K
    have e : (fun p => ∑ i ∈ range (n + 1), ∑ k ∈ range (i + 1), (List.ofFn K).getD (tri i + k) 0 * P i k p) =
        ∑ i ∈ range (n + 1), ∑ k ∈ range (i + 1), (List.ofFn K).getD (tri i + k) 0 • P i k := by
      funext p
      simp only [Finset.sum_apply, Pi.smul_apply, smul_eq_mul]
    show (fun p => ∑ i ∈ range (n + 1), ∑ k ∈ range (i + 1), (List.ofFn K).getD (tri i + k) 0 * P i k p) ∈ _
    rw [e]
    refine Submodule.sum_mem _ fun i hi => Submodule.sum_mem _ fun k hk => Submodule.smul_mem _ _ ?_
    rw [mem_range] at hi hk
    exact polyBelow_mono (by omega) (hP i k (by omega)).1
  · intro K rho theta
    unfold wfVal
    refine sum_congr rfl fun i _ => sum_congr rfl fun k hk => ?_
    rw [mem_range] at hk
    rw [(hP i k (by omega)).2]

/-- Every polynomial of degree at most `n` is a wavefront of order `n`. -/
theorem exists_wfVal {n : ℕ} {f : ℝ × ℝ → ℝ} (hf : f ∈ polyBelow n) : ∃ K : List ℝ, K.length = tri (n + 1) ∧
    ∀ rho theta, wfVal n K rho theta = f (rho * Real.cos theta, rho * Real.sin theta) := by
  obtain ⟨P, h1, h2⟩ := wfVal_mem n
  have hinj : Function.Injective P := by
    rw [injective_iff_map_eq_zero]
    intro K hK
    have h0 := wfVal_coeff_zero n (List.ofFn K) fun rho theta => by rw [h2, hK]; rfl
    funext m
    have := h0 m.1 m.2
    rw [List.getD_eq_getElem?_getD, List.getElem?_ofFn, dif_pos m.2] at this
    exact this
  have hle : LinearMap.range P ≤ polyBelow n := by
    rintro _ ⟨K, rfl⟩
    exact h1 K
  have : FiniteDimensional ℝ (polyBelow n) := FiniteDimensional.span_finset ℝ (monoms n)
  have heq : LinearMap.range P = polyBelow n := by
    refine Submodule.eq_of_le_of_finrank_le hle ?_
    rw [LinearMap.finrank_range_of_inj hinj, Module.finrank_fin_fun]
    exact (finrank_span_finset_le_card (monoms n)).trans (card_monoms n)
  rw [← heq] at hf
  obtain ⟨K, rfl⟩ := hf
  exact ⟨List.ofFn K, by simp, fun rho theta => h2 K rho theta⟩

end Verif.Aperture
