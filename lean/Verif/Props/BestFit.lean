import Verif.Props.Noise
import Verif.Props.ActFit

/-!
# C98: no model map is flat, and a best fit within the bounds exists
-/

namespace Verif.Props

open Verif Verif.Np Verif.Aperture Verif.MathFn Verif.Core Verif.Telgeometry Verif.Fourier Filter Topology Finset

/-! ## The power pattern is not flat -/

theorem fft2_sum {N : ℕ} (E : Fin N × Fin N → ℂ) (q : Fin N × Fin N) :
    fft2 E q = ∑ p : Fin N × Fin N, E p *
      ew N (((q.1 : ℕ) : ℤ) * ((p.1 : ℕ) : ℤ) + ((q.2 : ℕ) : ℤ) * ((p.2 : ℕ) : ℤ)) := by
  rw [fft2_eq, Fintype.sum_prod_type]

theorem ew_sum2 {N : ℕ} (hN : N ≠ 0) (a b : ℤ) :
    ∑ q : Fin N × Fin N, ew N (((q.1 : ℕ) : ℤ) * a + ((q.2 : ℕ) : ℤ) * b) =
      if (N : ℤ) ∣ a ∧ (N : ℤ) ∣ b then (N : ℂ) ^ 2 else 0 := by
  rw [Fintype.sum_prod_type]
  simp_rw [ew_add, ← mul_sum, ew_sum hN, ← sum_mul, ew_sum hN]
  by_cases h1 : (N : ℤ) ∣ a <;> by_cases h2 : (N : ℤ) ∣ b <;> simp [h1, h2, sq]

/-- The power pattern determines the correlation of the aperture with itself. -/
theorem power_corr {N : ℕ} (hN : N ≠ 0) (E : Fin N × Fin N → ℂ) (a b : ℤ) :
    ∑ q : Fin N × Fin N, ((‖fft2 E q‖ ^ 2 : ℝ) : ℂ) * ew N (((q.1 : ℕ) : ℤ) * a + ((q.2 : ℕ) : ℤ) * b) =
      (N : ℂ) ^ 2 * ∑ p : Fin N × Fin N, ∑ p' : Fin N × Fin N,
        if (N : ℤ) ∣ ((p.1 : ℕ) : ℤ) - ((p'.1 : ℕ) : ℤ) + a ∧ (N : ℤ) ∣ ((p.2 : ℕ) : ℤ) - ((p'.2 : ℕ) : ℤ) + b then
          E p * (starRingEnd ℂ) (E p') else 0 := by
  have key : ∀ z : ℂ, ((‖z‖ ^ 2 : ℝ) : ℂ) = z * (starRingEnd ℂ) z := fun z => by
    rw [Complex.mul_conj, Complex.normSq_eq_norm_sq]
  have h1 : ∀ q : Fin N × Fin N, ((‖fft2 E q‖ ^ 2 : ℝ) : ℂ) * ew N (((q.1 : ℕ) : ℤ) * a + ((q.2 : ℕ) : ℤ) * b) =
      ∑ p : Fin N × Fin N, ∑ p' : Fin N × Fin N, E p * (starRingEnd ℂ) (E p') *
        ew N (((q.1 : ℕ) : ℤ) * (((p.1 : ℕ) : ℤ) - ((p'.1 : ℕ) : ℤ) + a) +
          ((q.2 : ℕ) : ℤ) * (((p.2 : ℕ) : ℤ) - ((p'.2 : ℕ) : ℤ) + b)) := by
    intro q
    rw [key, fft2_sum, map_sum, sum_mul_sum, sum_mul]
    refine sum_congr rfl fun p _ => ?_
    rw [sum_mul]
    refine sum_congr rfl fun p' _ => ?_
    rw [map_mul, ew_conj]
    have : ((q.1 : ℕ) : ℤ) * (((p.1 : ℕ) : ℤ) - ((p'.1 : ℕ) : ℤ) + a) +
          ((q.2 : ℕ) : ℤ) * (((p.2 : ℕ) : ℤ) - ((p'.2 : ℕ) : ℤ) + b) =
        (((q.1 : ℕ) : ℤ) * ((p.1 : ℕ) : ℤ) + ((q.2 : ℕ) : ℤ) * ((p.2 : ℕ) : ℤ)) +
        (-(((q.1 : ℕ) : ℤ) * ((p'.1 : ℕ) : ℤ) + ((q.2 : ℕ) : ℤ) * ((p'.2 : ℕ) : ℤ)) +
          (((q.1 : ℕ) : ℤ) * a + ((q.2 : ℕ) : ℤ) * b)) := by ring
    have aux : ∀ X Y Z : ℤ, ew N (X + (-Y + Z)) = ew N X * (ew N (-Y) * ew N Z) := fun X Y Z => by
      rw [ew_add, ew_add]
    rw [this, aux]
    ring
  simp_rw [h1]
  rw [sum_comm, mul_sum]
  refine sum_congr rfl fun p _ => ?_
  rw [sum_comm, mul_sum]
  refine sum_congr rfl fun p' _ => ?_
  rw [← mul_sum, ew_sum2 hN]
  split_ifs <;> ring

/-- An aperture whose lit pixels lie within half of the grid has a flat power pattern only if at most one pixel is
lit. -/
theorem flat_lit {N : ℕ} (E : Fin N × Fin N → ℂ)
    (hw : ∀ p q, E p ≠ 0 → E q ≠ 0 → 2 * |((p.1 : ℕ) : ℤ) - ((q.1 : ℕ) : ℤ)| < N ∧
      2 * |((p.2 : ℕ) : ℤ) - ((q.2 : ℕ) : ℤ)| < N)
    (c : ℝ) (hc : ∀ q, ‖fft2 E q‖ ^ 2 = c) (p q : Fin N × Fin N) (hp : E p ≠ 0) (hq : E q ≠ 0) : p = q := by
  classical
  have hN : N ≠ 0 := p.1.pos.ne'
  set S : Finset (Fin N × Fin N) := univ.filter fun p => E p ≠ 0 with hS
  have hSp : p ∈ S := by simp [hS, hp]
  have hSq : q ∈ S := by simp [hS, hq]
  set L : Fin N × Fin N → ℤ := fun p => ((p.1 : ℕ) : ℤ) * N + ((p.2 : ℕ) : ℤ) with hL
  have Linj : ∀ p q, L p = L q → p = q := by
    intro p q h
    have h1 := p.2.2
    have h2 := q.2.2
    simp only [hL] at h
    have e : (p.1 : ℕ) * N + (p.2 : ℕ) = (q.1 : ℕ) * N + (q.2 : ℕ) := by exact_mod_cast h
    have a1 : (p.1 : ℕ) = (q.1 : ℕ) := by
      have := congrArg (· / N) e
      simpa [mul_comm _ N, Nat.mul_add_div (Nat.pos_of_ne_zero hN), Nat.div_eq_of_lt h1, Nat.div_eq_of_lt h2] using this
    have a2 : (p.2 : ℕ) = (q.2 : ℕ) := by rw [a1] at e; omega
    exact Prod.ext (Fin.ext a1) (Fin.ext a2)
  obtain ⟨a, haS, ha⟩ := S.exists_max_image L ⟨p, hSp⟩
  obtain ⟨b, hbS, hb⟩ := S.exists_min_image L ⟨p, hSp⟩
  have ha0 : E a ≠ 0 := by simpa [hS] using haS
  have hb0 : E b ≠ 0 := by simpa [hS] using hbS
  by_contra hpq
  have hab : a ≠ b := by
    rintro rfl
    have e1 := (ha p hSp).antisymm (hb p hSp)
    have e2 := (ha q hSq).antisymm (hb q hSq)
    exact hpq (Linj _ _ (e1.trans e2.symm))
  -- a multiple of `N` that is small is zero
  have small : ∀ z w : ℤ, 2 * |z| < N → 2 * |w| < N → (N : ℤ) ∣ z - w → z = w := by
    intro z w h1 h2 h3
    have : |z - w| < N := (abs_sub z w).trans_lt (by linarith)
    have := Int.eq_zero_of_abs_lt_dvd h3 this
    omega
  have corr := power_corr hN E (((b.1 : ℕ) : ℤ) - ((a.1 : ℕ) : ℤ)) (((b.2 : ℕ) : ℤ) - ((a.2 : ℕ) : ℤ))
  simp_rw [hc] at corr
  rw [← mul_sum, ew_sum2 hN, if_neg, mul_zero] at corr
  swap
  · rintro ⟨d1, d2⟩
    have w := hw b a hb0 ha0
    have e1 := small _ 0 w.1 (by simp; omega) (by simpa using d1)
    have e2 := small _ 0 w.2 (by simp; omega) (by simpa using d2)
    exact hab (Prod.ext (Fin.ext (by omega)) (Fin.ext (by omega)))
  have hsum : (∑ p : Fin N × Fin N, ∑ p' : Fin N × Fin N,
        if (N : ℤ) ∣ ((p.1 : ℕ) : ℤ) - ((p'.1 : ℕ) : ℤ) + (((b.1 : ℕ) : ℤ) - ((a.1 : ℕ) : ℤ)) ∧
          (N : ℤ) ∣ ((p.2 : ℕ) : ℤ) - ((p'.2 : ℕ) : ℤ) + (((b.2 : ℕ) : ℤ) - ((a.2 : ℕ) : ℤ)) then
          E p * (starRingEnd ℂ) (E p') else 0) = E a * (starRingEnd ℂ) (E b) := by
    rw [Finset.sum_eq_single a, Finset.sum_eq_single b, if_pos]
    · constructor <;> simp
    · intro p' _ hne
      split_ifs with h
      · by_cases h0 : E p' = 0
        · simp [h0]
        exfalso
        have w := hw a p' ha0 h0
        have w' := hw a b ha0 hb0
        have e1 := small _ _ w.1 w'.1 (by convert h.1 using 1; ring)
        have e2 := small _ _ w.2 w'.2 (by convert h.2 using 1; ring)
        exact hne (Prod.ext (Fin.ext (by omega)) (Fin.ext (by omega)))
      · rfl
    · simp
    · intro p _ hne
      refine Finset.sum_eq_zero fun p' _ => ?_
      split_ifs with h
      · by_cases h0 : E p' = 0
        · simp [h0]
        by_cases h1 : E p = 0
        · simp [h1]
        exfalso
        have w := hw p p' h1 h0
        have w' := hw a b ha0 hb0
        have e1 := small _ _ w.1 w'.1 (by convert h.1 using 1; ring)
        have e2 := small _ _ w.2 w'.2 (by convert h.2 using 1; ring)
        have l1 := ha p (by simp [hS, h1])
        have l2 := hb p' (by simp [hS, h0])
        have l3 : L p - L p' = L a - L b := by
          simp only [hL]
          linear_combination (N : ℤ) * e1 + e2
        exact hne (Linj _ _ (by omega))
      · rfl
    · simp
  rw [hsum] at corr
  have : E a * (starRingEnd ℂ) (E b) = 0 := by
    have hN' : (N : ℂ) ^ 2 ≠ 0 := by
      have : (N : ℂ) ≠ 0 := by exact_mod_cast hN
      exact pow_ne_zero 2 this
    exact (mul_eq_zero.1 corr.symm).resolve_left hN'
  rcases mul_eq_zero.1 this with h | h
  · exact ha0 h
  · exact hb0 ((map_eq_zero _).1 h)

/-- **C98** with a box of at least twice the dish, the power pattern takes the same value at all pixels exactly when at
most one pixel of the aperture is lit; whatever the phase, the defocus and the illumination. -/
theorem C98_flat (I K : List ℝ) (dz wavel : ℝ) (N : ℕ) (illum : Illum (Fin N × Fin N)) (tel : TelGeo (Fin N × Fin N))
    (bf : ℝ) (hpr : 0 < tel.pr) (hbf : 2 ≤ bf) (P : Pattern N)
    (h : radiationPattern I K dz wavel illum tel bf = .ok P) (a phi : Fin N × Fin N → ℝ)
    (hp : Spec.Parts I K dz wavel illum tel bf a phi)
    (hdark : ∀ q, tel.pr ^ 2 < Spec.gridPoint tel.pr bf N q.2 ^ 2 + Spec.gridPoint tel.pr bf N q.1 ^ 2 → a q = 0) :
    (∃ c, ∀ q, ‖P.F q‖ ^ 2 = c) ↔ ∀ p q, a p ≠ 0 → a q ≠ 0 → p = q := by
  have hF := parts_of_pattern h hp
  obtain ⟨hN, -⟩ := radiationPattern_ok h
  set E : Fin N × Fin N → ℂ := fun q => (a q : ℂ) * Complex.exp ((phi q : ℂ) * Complex.I) with hE
  have hE0 : ∀ q, E q ≠ 0 ↔ a q ≠ 0 := by
    intro q
    simp [hE, Complex.exp_ne_zero]
  constructor
  · rintro ⟨c, hc⟩ p q h1 h2
    refine flat_lit E ?_ c ?_ p q ((hE0 p).2 h1) ((hE0 q).2 h2)
    · -- the lit pixels lie within the dish
      have hN1 : (1 : ℝ) ≤ (N : ℝ) - 1 := by
        have : (2 : ℝ) ≤ N := by exact_mod_cast hN
        linarith
      have inside : ∀ q, E q ≠ 0 → |Spec.gridPoint tel.pr bf N q.1| ≤ tel.pr ∧
          |Spec.gridPoint tel.pr bf N q.2| ≤ tel.pr := by
        intro q hq
        have := not_lt.1 fun hlt => (hE0 q).1 hq (hdark q hlt)
        exact ⟨abs_le_of_sq_le_sq (by nlinarith [sq_nonneg (Spec.gridPoint tel.pr bf N q.2)]) hpr.le,
          abs_le_of_sq_le_sq (by nlinarith [sq_nonneg (Spec.gridPoint tel.pr bf N q.1)]) hpr.le⟩
      have step : ∀ i j : Fin N, |Spec.gridPoint tel.pr bf N i| ≤ tel.pr → |Spec.gridPoint tel.pr bf N j| ≤ tel.pr →
          2 * |((i : ℕ) : ℤ) - ((j : ℕ) : ℤ)| < N := by
        intro i j hi hj
        have e : Spec.gridPoint tel.pr bf N i - Spec.gridPoint tel.pr bf N j =
            (((i : ℕ) : ℝ) - ((j : ℕ) : ℝ)) * (2 * tel.pr * bf / ((N : ℝ) - 1)) := by
          rw [← sub_sub_sub_cancel_right _ _ (Spec.gridPoint tel.pr bf N ⟨0, by omega⟩),
            (C15_offsets tel.pr bf N hN i).1, (C15_offsets tel.pr bf N hN j).1]
          ring
        have h3 : |((i : ℕ) : ℝ) - ((j : ℕ) : ℝ)| * (2 * tel.pr * bf / ((N : ℝ) - 1)) ≤ 2 * tel.pr := by
          rw [← abs_of_pos (show 0 < 2 * tel.pr * bf / ((N : ℝ) - 1) by positivity), ← abs_mul, ← e]
          exact (abs_sub _ _).trans (by linarith)
        have h4 : |((i : ℕ) : ℝ) - ((j : ℕ) : ℝ)| * bf ≤ (N : ℝ) - 1 := by
          rw [mul_div_assoc', div_le_iff₀ (by linarith)] at h3
          nlinarith
        have h5 : 2 * |((i : ℕ) : ℝ) - ((j : ℕ) : ℝ)| < N := by
          nlinarith [abs_nonneg (((i : ℕ) : ℝ) - ((j : ℕ) : ℝ))]
        exact_mod_cast h5
      exact fun p q h1 h2 => ⟨step _ _ (inside p h1).1 (inside q h2).1, step _ _ (inside p h1).2 (inside q h2).2⟩
    · intro q
      obtain ⟨p, hp⟩ := (shiftIdx_bij.prodMap shiftIdx_bij).2 q
      have := hc p
      rw [hF, fftshift2] at this
      rw [← hp]
      exact this
  · intro h1
    by_cases h0 : ∃ p, a p ≠ 0
    · obtain ⟨p, hp0⟩ := h0
      refine ⟨a p ^ 2, fun q => ?_⟩
      rw [hF, fftshift2, fft2_sum, Finset.sum_eq_single p]
      · rw [norm_mul, ew_norm, mul_one, norm_mul, Complex.norm_exp_ofReal_mul_I, mul_one, Complex.norm_real,
          Real.norm_eq_abs, sq_abs]
      · intro p' _ hne
        have : a p' = 0 := by
          by_contra h2
          exact hne (h1 _ _ h2 hp0)
        simp [hE, this]
      · simp
    · push Not at h0
      refine ⟨0, fun q => ?_⟩
      rw [hF, fftshift2, fft2_sum]
      simp [hE, h0]

/-! ## The cost is continuous where no map is flat -/

/-- A complete parameter vector: five illumination coefficients and the polynomial coefficients. -/
noncomputable def Spec.vec {nK : ℕ} (p : (Fin 5 → ℝ) × (Fin nK → ℝ)) : List ℝ := List.ofFn p.1 ++ List.ofFn p.2

/-- At every pixel of the grid, the light that passes is a continuous function of the illumination coefficients. -/
def Spec.ContLight {N : ℕ} (illum : Illum (Fin N × Fin N)) (tel : TelGeo (Fin N × Fin N)) (bf : ℝ)
    (D : Set (Fin 5 → ℝ)) : Prop :=
  ∃ (B : Fin N × Fin N → ℝ) (ea : (Fin 5 → ℝ) → Fin N × Fin N → ℝ),
    tel.block (fun q => Spec.gridPoint tel.pr bf N q.2) (fun q => Spec.gridPoint tel.pr bf N q.1) = .ok B ∧
    (∀ I ∈ D, illum (fun q => Spec.gridPoint tel.pr bf N q.2) (fun q => Spec.gridPoint tel.pr bf N q.1)
      (List.ofFn I) tel.pr = .ok (ea I)) ∧
    ∀ q, ContinuousOn (fun I => B q * ea I q) D

variable {N M nK : ℕ}

theorem wfVal_cont (n : ℕ) (rho theta : ℝ) : Continuous fun K : Fin nK → ℝ => wfVal n (List.ofFn K) rho theta := by
  unfold wfVal
  refine continuous_finsetSum _ fun i _ => continuous_finsetSum _ fun k _ => Continuous.mul ?_ continuous_const
  by_cases h : tri i + k < nK
  · have : (fun K : Fin nK → ℝ => (List.ofFn K).getD (tri i + k) 0) = fun K => K ⟨tri i + k, h⟩ := by
      funext K
      simp [List.getD, h]
    rw [this]
    fun_prop
  · have : (fun K : Fin nK → ℝ => (List.ofFn K).getD (tri i + k) 0) = fun _ => 0 := by
      funext K
      simp [List.getD, h]
    rw [this]
    fun_prop

/-- The model map as a function of the parameters. -/
theorem row_cont (n : ℕ) (hK : nK = tri (n + 1)) (u v : Fin 3 × Fin M → ℝ) (dz : Fin 3 → ℝ) (wavel : ℝ)
    (illum : Illum (Fin N × Fin N)) (tel : TelGeo (Fin N × Fin N)) (bf : ℝ) (D : Set (Fin 5 → ℝ))
    (hl : Spec.ContLight illum tel bf D) (i : Fin 3) (params0 : List ℝ) (b0 : Fin M → ℝ)
    (h0 : modelRow params0 u v dz wavel illum tel bf i = .ok b0) :
    ∃ b : (Fin 5 → ℝ) × (Fin nK → ℝ) → Fin M → ℝ,
      (∀ p, p.1 ∈ D → modelRow (Spec.vec p) u v dz wavel illum tel bf i = .ok (b p)) ∧
      ∀ k, ContinuousOn (fun p => b p k) {p | p.1 ∈ D} := by
  obtain ⟨P0, e1, e2⟩ := modelRow_ok.1 h0
  obtain ⟨hN, E0, hE0, rfl⟩ := radiationPattern_ok e1
  rw [linspace_grid] at hE0
  obtain ⟨B0, W0, delta, Ea0, f1, f2, f3, f4, -⟩ := aperture_ok_iff.1 hE0
  obtain ⟨⟨m0, m1⟩, hin, -⟩ := (interpolator_ok_iff _ _ _ _ _).1 e2
  dsimp only at m0 m1 hin
  obtain ⟨B, ea, g1, g2, g3⟩ := hl
  set W : (Fin 5 → ℝ) × (Fin nK → ℝ) → Fin N × Fin N → ℝ := fun p q => wfVal n (List.ofFn p.2)
    ((cart2pol (Spec.gridPoint tel.pr bf N q.2) (Spec.gridPoint tel.pr bf N q.1)).1 / tel.pr)
    ((cart2pol (Spec.gridPoint tel.pr bf N q.2) (Spec.gridPoint tel.pr bf N q.1)).2) with hW
  set E : (Fin 5 → ℝ) × (Fin nK → ℝ) → Fin N × Fin N → ℂ := fun p q => ((B q * ea p.1 q : ℝ) : ℂ) *
    Complex.exp ((((W p q + delta q / wavel) * 2 * Real.pi : ℝ) : ℂ) * Complex.I) with hE
  have hpat : ∀ p, p.1 ∈ D → radiationPattern ((Spec.vec p).take 5) ((Spec.vec p).drop 5) (dz i) wavel illum tel bf =
      .ok ⟨fun i => (((i : ℕ) : ℝ) - ((N / 2 : ℕ) : ℝ)) / (N * (2 * (tel.pr * bf) / ((N : ℝ) - 1))) * wavel,
        fun i => (((i : ℕ) : ℝ) - ((N / 2 : ℕ) : ℝ)) / (N * (2 * (tel.pr * bf) / ((N : ℝ) - 1))) * wavel,
        fftshift2 (fft2 (E p))⟩ := by
    intro p hp
    have t1 : (Spec.vec p).take 5 = List.ofFn p.1 := by
      unfold Spec.vec
      rw [List.take_append_of_le_length (by simp), List.take_of_length_le (by simp)]
    have t2 : (Spec.vec p).drop 5 = List.ofFn p.2 := by
      unfold Spec.vec
      rw [List.drop_append_of_le_length (by simp), List.drop_of_length_le (by simp), List.nil_append]
    rw [t1, t2, radiationPattern_eq _ _ _ _ hN, linspace_grid]
    rw [(aperture_ok_iff (E := E p)).2 ⟨B, W p, delta, ea p.1, g1, wavefront_ok _ _ _ n (by simp [hK]), f3, g2 _ hp, rfl⟩]
    rfl
  refine ⟨fun p k => evalLinear
      (fun i : Fin N => (((i : ℕ) : ℝ) - ((N / 2 : ℕ) : ℝ)) / (N * (2 * (tel.pr * bf) / ((N : ℝ) - 1))) * wavel)
      (fun i : Fin N => (((i : ℕ) : ℝ) - ((N / 2 : ℕ) : ℝ)) / (N * (2 * (tel.pr * bf) / ((N : ℝ) - 1))) * wavel)
      (fun q => ‖fftshift2 (fft2 (E p)) (q.2, q.1)‖ ^ 2) (u (i, k)) (v (i, k)), fun p hp => ?_, fun k => ?_⟩
  · rw [modelRow_ok]
    refine ⟨_, hpat p hp, ?_⟩
    rw [interpolator_ok_iff]
    exact ⟨⟨m0, m1⟩, hin, rfl⟩
  · have cE : ∀ q, ContinuousOn (fun p => E p q) {p | p.1 ∈ D} := by
      intro q
      have c1 : ContinuousOn (fun p : (Fin 5 → ℝ) × (Fin nK → ℝ) => B q * ea p.1 q) {p | p.1 ∈ D} :=
        (g3 q).comp continuousOn_fst fun p hp => hp
      have c2 : Continuous fun p : (Fin 5 → ℝ) × (Fin nK → ℝ) => W p q := (wfVal_cont n _ _).comp continuous_snd
      simp only [hE]
      refine ContinuousOn.mul (Complex.continuous_ofReal.comp_continuousOn c1) ?_
      exact (by fun_prop : Continuous fun p : (Fin 5 → ℝ) × (Fin nK → ℝ) =>
        Complex.exp ((((W p q + delta q / wavel) * 2 * Real.pi : ℝ) : ℂ) * Complex.I)).continuousOn
    have cF : ∀ q, ContinuousOn (fun p => ‖fftshift2 (fft2 (E p)) q‖ ^ 2) {p | p.1 ∈ D} := by
      intro q
      unfold fftshift2 fft2
      refine ContinuousOn.pow (ContinuousOn.norm ?_) 2
      exact continuousOn_finsetSum _ fun a _ => continuousOn_finsetSum _ fun b _ =>
        (cE (a, b)).mul continuousOn_const
    have cV : ∀ i j, ContinuousOn (fun p => valAt (fun q : Fin N × Fin N => ‖fftshift2 (fft2 (E p)) (q.2, q.1)‖ ^ 2) i j)
        {p | p.1 ∈ D} := by
      intro i j
      unfold valAt
      split_ifs with h
      · exact cF _
      · exact continuousOn_const
    unfold evalLinear
    exact ((((cV _ _).mul continuousOn_const).add ((cV _ _).mul continuousOn_const)).add
      ((cV _ _).mul continuousOn_const)).add ((cV _ _).mul continuousOn_const)

/-- The normalised map is continuous at a map that is not flat. -/
theorem norm_contAt {X : Type} [TopologicalSpace X] {A : Set X} {x : X} [NeZero M] (b : X → Fin M → ℝ)
    (nm : X → Fin M → ℝ) (hn : ∀ y, MathFn.norm (fun k => Fl.fin (b y k)) = .ok (nm y))
    (hb : ∀ k, ContinuousWithinAt (fun y => b y k) A x) (hne : ∃ s t, b x s ≠ b x t) (k : Fin M) :
    ContinuousWithinAt (fun y => nm y k) A x := by
  obtain ⟨s, t, hst⟩ : ∃ s t, b x s < b x t := by
    obtain ⟨s, t, h⟩ := hne
    rcases lt_or_gt_of_ne h with h | h
    · exact ⟨s, t, h⟩
    · exact ⟨t, s, h⟩
  have hd : 0 < b x t - b x s := sub_pos.2 hst
  rw [ContinuousWithinAt, Metric.tendsto_nhds]
  intro ε hε
  have hε' : 0 < ε * (b x t - b x s) / 4 := by positivity
  have ev : ∀ᶠ y in 𝓝[A] x, ∀ k, |b y k - b x k| < ε * (b x t - b x s) / 4 := by
    rw [Filter.eventually_all]
    intro k
    have := Metric.tendsto_nhds.1 (hb k) _ hε'
    simpa [Real.dist_eq] using this
  filter_upwards [ev] with y hy
  obtain ⟨n, n', h1, h2, h3⟩ := C97_norm (b x) (b y) (ε * (b x t - b x s) / 4) fun q => by
    rw [abs_sub_comm]; exact (hy q).le
  rw [hn] at h1 h2
  cases h1
  cases h2
  rw [Real.dist_eq, abs_sub_comm]
  have := h3 k s t
  have h4 : |nm x k - nm y k| * (b x t - b x s) < ε * (b x t - b x s) := by
    refine this.trans_lt ?_
    nlinarith
  exact lt_of_mul_lt_mul_right h4 hd.le

theorem costL_flatten (f : Fin 3 × Fin M → ℝ) : Spec.costL (flatten3 f) = ∑ i : Fin 3, ∑ k : Fin M, f (i, k) ^ 2 := by
  unfold Spec.costL flatten3
  rw [List.map_flatMap, List.flatMap_def, List.sum_flatten, List.map_map]
  rw [← List.ofFn_eq_map, List.sum_ofFn]
  refine sum_congr rfl fun i _ => ?_
  simp only [Function.comp, List.map_map]
  rw [← List.ofFn_eq_map, List.sum_ofFn]
  rfl

/-! ## The best fit -/

theorem vec_cons (p : (Fin 5 → ℝ) × (Fin nK → ℝ)) :
    Spec.vec p = p.1 0 :: (List.ofFn fun j : Fin 4 => p.1 j.succ) ++ List.ofFn p.2 := by
  unfold Spec.vec
  rw [List.ofFn_succ]

/-- **C98** if the residual can be evaluated at one point of the box, the light at each pixel depends continuously on the
illumination coefficients, and no point of the box with a non-zero amplitude has a flat model map, then there is a best
fit in the box: no other point has a smaller sum of squares. -/
theorem C98_best (n : ℕ) (hK : nK = (n + 1) * (n + 2) / 2) (lb ub p0 : (Fin 5 → ℝ) × (Fin nK → ℝ))
    (hp0 : p0 ∈ Set.Icc lb ub) (beam : Fin 3 × Fin M → Fl) (u v : Fin 3 × Fin M → ℝ) (dz : Fin 3 → ℝ) (wavel : ℝ)
    (illum : Illum (Fin N × Fin N)) (tel : TelGeo (Fin N × Fin N)) (bf : ℝ) (r0 : List ℝ)
    (h0 : residualTrue (Spec.vec p0) beam u v dz wavel illum tel bf = .ok r0)
    (hl : Spec.ContLight illum tel bf (Set.Icc lb.1 ub.1))
    (hamp : ∀ I ∈ Set.Icc lb.1 ub.1, Spec.propAmp illum tel.pr (List.ofFn fun j : Fin 4 => I j.succ))
    (hflat : ∀ p ∈ Set.Icc lb ub, p.1 0 ≠ 0 → ∀ i b, Spec.Sampled (Spec.vec p) u v dz wavel illum tel bf i b →
      ∃ s t, b s ≠ b t) :
    ∃ p ∈ Set.Icc lb ub, ∃ r, residualTrue (Spec.vec p) beam u v dz wavel illum tel bf = .ok r ∧
      ∀ p' ∈ Set.Icc lb ub, ∃ r', residualTrue (Spec.vec p') beam u v dz wavel illum tel bf = .ok r' ∧
        Spec.costL r ≤ Spec.costL r' := by
  simp only [sampled_iff] at hflat
  have hM := (residual_layout _ _ _ _ _ _ _ _ _ r0 h0).1
  have : NeZero M := ⟨hM.ne'⟩
  obtain ⟨b0, hb0, nd, nm0, hd, -, -⟩ := residualTrue_ok.1 h0
  have hrow := fun i => row_cont (nK := nK) n hK u v dz wavel illum tel bf _ hl i _ _ (hb0 i)
  choose b hb hbc using hrow
  have hnm : ∀ p : (Fin 5 → ℝ) × (Fin nK → ℝ), ∃ nm, normAxis1 (fun q : Fin 3 × Fin M => Fl.fin (b q.1 p q.2)) = .ok nm ∧
      ∀ i, MathFn.norm (fun j => Fl.fin (b i p j)) = .ok (fun j => nm (i, j)) := fun p => C27_axis1 hM _
  choose nm hn1 hn2 using hnm
  have hres : ∀ p ∈ Set.Icc lb ub, residualTrue (Spec.vec p) beam u v dz wavel illum tel bf =
      .ok (flatten3 fun q => nd q - nm p q) := fun p hp =>
    residualTrue_ok.2 ⟨fun i => b i p, fun i => hb i p ⟨hp.1.1, hp.2.1⟩, nd, nm p, hd, hn1 p, rfl⟩
  set cost : (Fin 5 → ℝ) × (Fin nK → ℝ) → ℝ := fun p => ∑ i : Fin 3, ∑ k : Fin M, (nd (i, k) - nm p (i, k)) ^ 2 with hcost
  have hc : ∀ p, Spec.costL (flatten3 fun q => nd q - nm p q) = cost p := fun p => costL_flatten _
  suffices h : ∃ p ∈ Set.Icc lb ub, ∀ p' ∈ Set.Icc lb ub, cost p ≤ cost p' by
    obtain ⟨p, hp, hmin⟩ := h
    exact ⟨p, hp, _, hres p hp, fun p' hp' => ⟨_, hres p' hp', by rw [hc, hc]; exact hmin p' hp'⟩⟩
  -- points of amplitude zero have the cost of a flat map
  have hzero : ∀ p ∈ Set.Icc lb ub, p.1 0 = 0 → ∀ i, b i p = fun _ => 0 := by
    intro p hp h i
    obtain ⟨P, e1, e2⟩ := modelRow_ok.1 (hb i p ⟨hp.1.1, hp.2.1⟩)
    obtain ⟨hN, E, hE, rfl⟩ := radiationPattern_ok e1
    obtain ⟨B, W, delta, Ea, f1, f2, f3, f4, rfl⟩ := aperture_ok_iff.1 hE
    have hEa : Ea = fun _ => 0 := by
      rw [vec_cons, h, List.cons_append, List.take_succ_cons, List.take_append_of_le_length (by simp),
        List.take_of_length_le (by simp)] at f4
      have := hamp p.1 ⟨hp.1.1, hp.2.1⟩ _ _ 0 0 Ea f4
      rw [mul_zero, f4] at this
      rw [Except.ok.inj this]
      funext q
      exact zero_mul _
    obtain ⟨-, -, hbe⟩ := (interpolator_ok_iff _ _ _ _ _).1 e2
    rw [hbe]
    funext k
    have hF : (fun q : Fin N × Fin N => ‖fftshift2 (fft2 fun q => ((B q * Ea q : ℝ) : ℂ) *
        Complex.exp ((((W q + delta q / wavel) * 2 * Real.pi : ℝ) : ℂ) * Complex.I)) (q.2, q.1)‖ ^ 2) = fun _ => 0 := by
      funext q
      unfold fftshift2 fft2
      simp [hEa]
    dsimp only
    rw [hF]
    unfold evalLinear valAt
    simp
  -- other points have the cost of a point with a given amplitude
  by_cases hex : ∃ p1 ∈ Set.Icc lb ub, p1.1 0 ≠ 0
  swap
  · push Not at hex
    refine ⟨p0, hp0, fun p' hp' => le_of_eq ?_⟩
    have : nm p0 = nm p' := by
      have a1 := hn1 p0
      have a2 := hn1 p'
      simp only [hzero p0 hp0 (hex p0 hp0)] at a1
      simp only [hzero p' hp' (hex p' hp')] at a2
      exact Except.ok.inj (a1.symm.trans a2)
    simp only [hcost, this]
  obtain ⟨p1, hp1, ha1⟩ := hex
  set A : Set ((Fin 5 → ℝ) × (Fin nK → ℝ)) := Set.Icc lb ub ∩ {p | p.1 0 = p1.1 0} with hA
  have hAc : IsCompact A := isCompact_Icc.inter_right
    (isClosed_eq (by fun_prop) continuous_const)
  have hcont : ContinuousOn cost A := by
    intro p hp
    have hp0' : p.1 0 ≠ 0 := by
      have := hp.2
      simp only [Set.mem_setOf_eq] at this
      rw [this]
      exact ha1
    refine tendsto_finsetSum _ fun i _ => tendsto_finsetSum _ fun k _ => ?_
    refine Tendsto.pow (tendsto_const_nhds.sub ?_) 2
    exact norm_contAt (A := A) (x := p) (b i) (fun y j => nm y (i, j)) (fun y => hn2 y i)
      (fun k => (hbc i k p ⟨hp.1.1.1, hp.1.2.1⟩).mono fun y hy => ⟨hy.1.1.1, hy.1.2.1⟩)
      (hflat p hp.1 hp0' i _ (hb i p ⟨hp.1.1.1, hp.1.2.1⟩)) k
  obtain ⟨pm, hpm, hmin⟩ := hAc.exists_isMinOn ⟨p1, hp1, rfl⟩ hcont
  have hother : ∀ p ∈ Set.Icc lb ub, p.1 0 ≠ 0 → cost pm ≤ cost p := by
    intro p hp h
    set p' : (Fin 5 → ℝ) × (Fin nK → ℝ) := (Function.update p.1 0 (p1.1 0), p.2) with hp'
    have hin : p' ∈ Set.Icc lb ub := by
      refine ⟨⟨fun j => ?_, hp.1.2⟩, ⟨fun j => ?_, hp.2.2⟩⟩
      · by_cases hj : j = 0
        · subst hj; simpa [hp'] using hp1.1.1 0
        · simpa [hp', Function.update_of_ne hj] using hp.1.1 j
      · by_cases hj : j = 0
        · subst hj; simpa [hp'] using hp1.2.1 0
        · simpa [hp', Function.update_of_ne hj] using hp.2.1 j
    have key : cost p' = cost p := by
      have r1 := hres p hp
      rw [vec_cons] at r1
      have r2 := C18_residual (p.1 0) (p1.1 0 / p.1 0) (div_ne_zero ha1 h) _ _ (by simp) beam u v dz wavel illum tel bf
        (fun x y Ea hE => hamp p.1 ⟨hp.1.1, hp.2.1⟩ x y _ _ Ea hE) _ r1
      rw [div_mul_cancel₀ _ h] at r2
      have r3 := hres p' hin
      rw [vec_cons] at r3
      have e0 : p'.1 0 = p1.1 0 := by simp [hp']
      have e1 : (fun j : Fin 4 => p'.1 j.succ) = fun j => p.1 j.succ := by
        funext j
        simp [hp', Function.update_of_ne (Fin.succ_ne_zero j)]
      rw [e0, e1, r2] at r3
      rw [← hc, ← hc, Except.ok.inj r3]
    rw [← key]
    exact hmin ⟨hin, by simp [hp']⟩
  by_cases hz : ∃ z ∈ Set.Icc lb ub, z.1 0 = 0 ∧ cost z ≤ cost pm
  · obtain ⟨z, hz, hz0, hzm⟩ := hz
    refine ⟨z, hz, fun p hp => ?_⟩
    by_cases h : p.1 0 = 0
    · refine le_of_eq ?_
      have : nm z = nm p := by
        have a1 := hn1 z
        have a2 := hn1 p
        simp only [hzero z hz hz0] at a1
        simp only [hzero p hp h] at a2
        exact Except.ok.inj (a1.symm.trans a2)
      simp only [hcost, this]
    · exact hzm.trans (hother p hp h)
  · push Not at hz
    refine ⟨pm, hpm.1, fun p hp => ?_⟩
    by_cases h : p.1 0 = 0
    · exact (hz p hp h).le
    · exact hother p hp h

/-! ## The telescopes and the illuminations of the package, maps on the whole grid -/

/-- The telescopes that the package makes. -/
inductive Spec.OwnTel {ι : Type} : TelGeo ι → Prop
  | manual (pr sr a L Fp F : ℝ) : Spec.OwnTel (manualTel pr sr a L Fp F)
  | effelsberg (alpha : ℝ) (h0 : 0 < alpha) (h1 : alpha < Real.pi / 2) :
      Spec.OwnTel ⟨blockEffelsberg alpha, opdEffelsberg, 50⟩

/-- The illuminations of the package: Gaussian with any coefficients; parabolic on a pedestal with a positive exponent
and centred on the axis, as in the default configuration. -/
def Spec.OwnIllum {ι : Type} (illum : Illum ι) (D : Set (Fin 5 → ℝ)) : Prop :=
  illum = illumGauss ∨ illum = illumParabolic ∧ ∀ I ∈ D, 0 < I 2 ∧ I 3 = 0 ∧ I 4 = 0

theorem own_block {ι : Type} {tel : TelGeo ι} (h : Spec.OwnTel tel) :
    ∃ b, GoodBlock b tel.pr ∧ ∀ x y : ι → ℝ, tel.block x y = .ok fun q => b (x q, y q) := by
  cases h with
  | manual pr sr a L Fp F =>
    obtain ⟨b, h1, h2⟩ := good_manual pr sr a L
    exact ⟨b, h1, fun x y => h2 ι x y⟩
  | effelsberg alpha h0 h1 =>
    obtain ⟨b, h2, h3⟩ := good_effelsberg alpha h0 h1
    exact ⟨b, h2, fun x y => h3 ι x y⟩

theorem list_five (I : Fin 5 → ℝ) : List.ofFn I = [I 0, I 1, I 2, I 3, I 4] := by
  simp [List.ofFn_succ]

/-- The parabolic illumination of a point within the dish, centred on the axis. -/
theorem parabolic_inside (i c q pr x y : ℝ) (hpr : 0 < pr) (hq : 0 < q) (h : x ^ 2 + y ^ 2 < pr ^ 2) :
    parabolicAt i (.bare c) q (.bare 0) (.bare 0) pr x y =
      i * ((10 : ℝ) ^ (c / 20) + (1 - (10 : ℝ) ^ (c / 20)) * (1 - (x ^ 2 + y ^ 2) / pr ^ 2) ^ q) := by
  have hs : Real.sqrt (x ^ 2 + y ^ 2) ^ 2 = x ^ 2 + y ^ 2 := Real.sq_sqrt (by positivity)
  rw [pedestal_value i (.bare c) q (.bare 0) (.bare 0) pr x y (Real.sqrt (x ^ 2 + y ^ 2)) hpr hq (Real.sqrt_nonneg _)
    (by rw [hs]; simp [offset]) (by rw [← Real.sqrt_sq hpr.le]; exact Real.sqrt_le_sqrt h.le)]
  unfold Spec.pedestal taper
  rw [div_pow, hs]

theorem own_light {illum : Illum (Fin N × Fin N)} {tel : TelGeo (Fin N × Fin N)} {D : Set (Fin 5 → ℝ)}
    (ht : Spec.OwnTel tel) (hi : Spec.OwnIllum illum D) (hpr : 0 < tel.pr) (bf : ℝ) :
    Spec.ContLight illum tel bf D ∧
      (∀ I ∈ D, Spec.propAmp illum tel.pr (List.ofFn fun j : Fin 4 => I j.succ)) ∧
      ∀ I ∈ D, I 0 ≠ 0 → ∀ (x y : Fin N × Fin N → ℝ) B Ea, tel.block x y = .ok B →
        illum x y (List.ofFn I) tel.pr = .ok Ea → ∀ q, B q ≠ 0 → B q * Ea q ≠ 0 := by
  obtain ⟨b, ⟨-, hb, -⟩, hB⟩ := own_block ht
  have hs : ∀ c : ℝ, 0 < (10 : ℝ) ^ (c / 20) := fun c => Real.rpow_pos_of_pos (by norm_num) _
  rcases hi with rfl | ⟨rfl, hD⟩
  · have hg : ∀ (I : Fin 5 → ℝ) (x y : Fin N × Fin N → ℝ), illumGauss x y (List.ofFn I) tel.pr =
        .ok fun q => gaussAt (I 0) (.bare (I 1)) (.bare (I 3)) (.bare (I 4)) tel.pr (x q) (y q) := by
      intro I x y
      rw [list_five]
      exact gauss_ignores_middle x y (I 0) (I 1) (I 3) (I 4) tel.pr [I 2]
    refine ⟨⟨_, _, hB _ _, fun I _ => hg I _ _, fun q => ?_⟩, fun I _ => (C18_illum _ _ (by simp)).1, ?_⟩
    · refine Continuous.continuousOn (Continuous.mul continuous_const ?_)
      unfold gaussAt taper offset
      have c1 : Continuous fun I : Fin 5 → ℝ => (10 : ℝ) ^ (I 1 / 20) :=
        Continuous.rpow continuous_const (by fun_prop) fun I => Or.inl (by norm_num)
      refine Continuous.mul (by fun_prop) (Real.continuous_exp.comp ?_)
      refine Continuous.div (by fun_prop) (by fun_prop) fun I => ?_
      have := hs (I 1)
      positivity
    · intro I _ h0 x y B Ea h1 h2 q hq
      rw [hg] at h2
      cases h2
      refine mul_ne_zero hq ?_
      unfold gaussAt taper
      have := hs (I 1)
      have h3 : 0 < Real.sqrt (2 * Real.pi * ((10 : ℝ) ^ (I 1 / 20)) ^ 2) := Real.sqrt_pos.2 (by positivity)
      exact mul_ne_zero (mul_ne_zero h0 h3.ne') (Real.exp_ne_zero _)
  · have hg : ∀ I ∈ D, ∀ (x y : Fin N × Fin N → ℝ), illumParabolic x y (List.ofFn I) tel.pr =
        .ok fun q => parabolicAt (I 0) (.bare (I 1)) (I 2) (.bare 0) (.bare 0) tel.pr (x q) (y q) := by
      intro I hI x y
      rw [list_five, (hD I hI).2.1, (hD I hI).2.2]
      rfl
    refine ⟨⟨_, _, hB _ _, fun I hI => hg I hI _ _, fun q => ?_⟩, fun I hI => ?_, ?_⟩
    · by_cases h0 : b (Spec.gridPoint tel.pr bf N q.2, Spec.gridPoint tel.pr bf N q.1) = 0
      · simp only [h0, zero_mul]
        exact continuousOn_const
      · have hin := hb _ h0
        have c1 : Continuous fun I : Fin 5 → ℝ => (10 : ℝ) ^ (I 1 / 20) :=
          Continuous.rpow continuous_const (by fun_prop) fun I => Or.inl (by norm_num)
        have hpos : 0 < 1 - (Spec.gridPoint tel.pr bf N q.2 ^ 2 + Spec.gridPoint tel.pr bf N q.1 ^ 2) / tel.pr ^ 2 := by
          rw [sub_pos, div_lt_one (by positivity)]
          exact hin
        have c2 : Continuous fun I : Fin 5 → ℝ =>
            (1 - (Spec.gridPoint tel.pr bf N q.2 ^ 2 + Spec.gridPoint tel.pr bf N q.1 ^ 2) / tel.pr ^ 2) ^ (I 2) :=
          Continuous.rpow continuous_const (by fun_prop) fun I => Or.inl hpos.ne'
        have c3 : Continuous fun I : Fin 5 → ℝ => b (Spec.gridPoint tel.pr bf N q.2, Spec.gridPoint tel.pr bf N q.1) *
            (I 0 * ((10 : ℝ) ^ (I 1 / 20) + (1 - (10 : ℝ) ^ (I 1 / 20)) *
              (1 - (Spec.gridPoint tel.pr bf N q.2 ^ 2 + Spec.gridPoint tel.pr bf N q.1 ^ 2) / tel.pr ^ 2) ^ (I 2))) := by
          fun_prop
        refine c3.continuousOn.congr fun I hI => ?_
        dsimp only
        rw [parabolic_inside _ _ _ _ _ _ hpr (hD I hI).1 hin]
    · refine (C18_illum _ _ (by simp)).2 hpr.ne' ?_
      have : (List.ofFn fun j : Fin 4 => I j.succ).getD 1 0 = I 2 := by simp [List.getD]
      rw [this]
      exact (hD I hI).1.le
    · intro I hI h0 x y B Ea h1 h2 q hq
      rw [hg I hI] at h2
      rw [hB] at h1
      cases h1
      cases h2
      refine mul_ne_zero hq ?_
      dsimp only at hq ⊢
      have hin := hb _ hq
      dsimp only at hin
      rw [parabolic_inside _ _ _ _ _ _ hpr (hD I hI).1 hin]
      refine mul_ne_zero h0 (ne_of_gt ?_)
      have hpos : 0 < 1 - (x q ^ 2 + y q ^ 2) / tel.pr ^ 2 := by
        rw [sub_pos, div_lt_one (by positivity)]
        exact hin
      have hle : 1 - (x q ^ 2 + y q ^ 2) / tel.pr ^ 2 ≤ 1 := by
        have : 0 ≤ (x q ^ 2 + y q ^ 2) / tel.pr ^ 2 := by positivity
        linarith
      have hs1 := Real.rpow_pos_of_pos hpos (I 2)
      have hs2 := Real.rpow_le_one hpos.le hle (hD I hI).1.le
      have := hs (I 1)
      nlinarith

/-- No model map of the telescopes and illuminations of the package with a non-zero amplitude is flat. -/
theorem own_not_flat (lb ub p0 : (Fin 5 → ℝ) × (Fin nK → ℝ))
    (u v : Fin 3 × Fin M → ℝ) (dz : Fin 3 → ℝ) (wavel : ℝ)
    (illum : Illum (Fin N × Fin N)) (tel : TelGeo (Fin N × Fin N)) (bf : ℝ)
    (ht : Spec.OwnTel tel) (hi : Spec.OwnIllum illum (Set.Icc lb.1 ub.1)) (hpr : 0 < tel.pr) (hbf : 2 ≤ bf)
    (P : Pattern N) (hP : radiationPattern (List.ofFn p0.1) (List.ofFn p0.2) (dz 0) wavel illum tel bf = .ok P)
    (hgrid : ∀ i row col, ∃ k, u (i, k) = P.u col ∧ v (i, k) = P.v row)
    (B : Fin N × Fin N → ℝ) (hB : tel.block (fun q => Spec.gridPoint tel.pr bf N q.2)
      (fun q => Spec.gridPoint tel.pr bf N q.1) = .ok B) (s t : Fin N × Fin N) (hst : s ≠ t) (hs : B s ≠ 0) (ht0 : B t ≠ 0) :
    ∀ p ∈ Set.Icc lb ub, p.1 0 ≠ 0 → ∀ i b, Spec.Sampled (Spec.vec p) u v dz wavel illum tel bf i b →
      ∃ s t, b s ≠ b t := by
  obtain ⟨-, -, hlit⟩ := own_light ht hi hpr bf
  intro p hp hp1 i b hb
  rw [sampled_iff] at hb
  by_contra hflat
  push Not at hflat
  have hI : p.1 ∈ Set.Icc lb.1 ub.1 := ⟨hp.1.1, hp.2.1⟩
  obtain ⟨Q, e1, -⟩ := modelRow_ok.1 hb
  have t1 : (Spec.vec p).take 5 = List.ofFn p.1 := by
    unfold Spec.vec
    rw [List.take_append_of_le_length (by simp), List.take_of_length_le (by simp)]
  have hu : Q.u = P.u ∧ Q.v = P.v := by
    obtain ⟨-, E, -, rfl⟩ := radiationPattern_ok e1
    obtain ⟨-, E', -, rfl⟩ := radiationPattern_ok hP
    exact ⟨rfl, rfl⟩
  obtain ⟨a, phi, hparts⟩ := C70_parts _ _ _ _ _ _ _ _ _ e1
  obtain ⟨bl, ⟨-, hbl, -⟩, hblock⟩ := own_block ht
  have ha : ∀ q, a q ≠ 0 ↔ B q ≠ 0 := by
    intro q
    obtain ⟨B', W, delta, Ea, f1, f2, -, -, f5, -⟩ := hparts
    rw [hB] at f1
    cases f1
    rw [t1] at f2
    constructor
    · intro h h'
      rw [f5, h', zero_mul] at h
      exact h rfl
    · intro h
      rw [f5]
      exact hlit p.1 hI hp1 _ _ B Ea hB f2 q h
  have hdark : ∀ q, tel.pr ^ 2 < Spec.gridPoint tel.pr bf N q.2 ^ 2 + Spec.gridPoint tel.pr bf N q.1 ^ 2 → a q = 0 := by
    intro q hq
    by_contra h
    have h1 := (ha q).1 h
    rw [hblock] at hB
    cases hB
    exact absurd (hbl _ h1) (not_lt.2 hq.le)
  refine hst ((C98_flat _ _ _ _ _ illum tel bf hpr hbf Q e1 a phi hparts hdark).1 ?_ s t ((ha s).2 hs) ((ha t).2 ht0))
  have hnode : ∀ q, ∃ k, b k = ‖Q.F q‖ ^ 2 := by
    intro q
    obtain ⟨k, k1, k2⟩ := hgrid i q.1 q.2
    rw [← hu.1] at k1
    rw [← hu.2] at k2
    exact ⟨k, row_node _ u v dz wavel illum tel bf i Q b e1 hb k q.1 q.2 k1 k2⟩
  refine ⟨‖Q.F s‖ ^ 2, fun q => ?_⟩
  obtain ⟨k, hk⟩ := hnode q
  obtain ⟨k', hk'⟩ := hnode s
  rw [← hk, ← hk', hflat k k']

/-- **C98** the same with the telescopes and the illuminations of the package, and maps that contain every pixel of the
grid of the model, of which at least two pixels of the aperture are not blocked: there is a best fit, without any
further condition. -/
theorem C98_package (n : ℕ) (hK : nK = (n + 1) * (n + 2) / 2) (lb ub p0 : (Fin 5 → ℝ) × (Fin nK → ℝ))
    (hp0 : p0 ∈ Set.Icc lb ub) (beam : Fin 3 × Fin M → Fl) (u v : Fin 3 × Fin M → ℝ) (dz : Fin 3 → ℝ) (wavel : ℝ)
    (illum : Illum (Fin N × Fin N)) (tel : TelGeo (Fin N × Fin N)) (bf : ℝ) (r0 : List ℝ)
    (h0 : residualTrue (Spec.vec p0) beam u v dz wavel illum tel bf = .ok r0)
    (ht : Spec.OwnTel tel) (hi : Spec.OwnIllum illum (Set.Icc lb.1 ub.1)) (hpr : 0 < tel.pr) (hbf : 2 ≤ bf)
    (P : Pattern N) (hP : radiationPattern (List.ofFn p0.1) (List.ofFn p0.2) (dz 0) wavel illum tel bf = .ok P)
    (hgrid : ∀ i row col, ∃ k, u (i, k) = P.u col ∧ v (i, k) = P.v row)
    (B : Fin N × Fin N → ℝ) (hB : tel.block (fun q => Spec.gridPoint tel.pr bf N q.2)
      (fun q => Spec.gridPoint tel.pr bf N q.1) = .ok B) (s t : Fin N × Fin N) (hst : s ≠ t) (hs : B s ≠ 0) (ht0 : B t ≠ 0) :
    ∃ p ∈ Set.Icc lb ub, ∃ r, residualTrue (Spec.vec p) beam u v dz wavel illum tel bf = .ok r ∧
      ∀ p' ∈ Set.Icc lb ub, ∃ r', residualTrue (Spec.vec p') beam u v dz wavel illum tel bf = .ok r' ∧
        Spec.costL r ≤ Spec.costL r' := by
  obtain ⟨hl, hamp, -⟩ := own_light ht hi hpr bf
  exact C98_best n hK lb ub p0 hp0 beam u v dz wavel illum tel bf r0 h0 hl hamp
    (own_not_flat lb ub p0 u v dz wavel illum tel bf ht hi hpr hbf P hP hgrid B hB s t hst hs ht0)

theorem rim_jump (i c q pr x y : ℝ) (hi : i ≠ 0) (hpr : 0 < pr) (hq : 0 < q) (hq' : ∀ k : ℤ, q ≠ k) (hy : |y| < pr) :
    ¬ ContinuousAt (fun x0 => parabolicAt i (.bare c) q (.bare x0) (.bare 0) pr x y) (x - Real.sqrt (pr ^ 2 - y ^ 2)) := by
  have hy2 : 0 < pr ^ 2 - y ^ 2 := by
    rw [sub_pos, sq_lt_sq, abs_of_pos hpr]
    exact hy
  have hs0 := Real.sqrt_pos.2 hy2
  have hs := Real.sq_sqrt hy2.le
  set s := Real.sqrt (pr ^ 2 - y ^ 2) with hsd
  intro hcont
  have hval : parabolicAt i (.bare c) q (.bare (x - s)) (.bare 0) pr x y = i * (10 : ℝ) ^ (c / 20) := by
    rw [pedestal_value i (.bare c) q (.bare (x - s)) (.bare 0) pr x y pr hpr hq hpr.le (by
      simp only [offset]
      linear_combination -hs) le_rfl]
    unfold Spec.pedestal taper
    rw [div_self hpr.ne', one_pow, sub_self, Real.zero_rpow hq.ne', mul_zero, add_zero]
  have hleft : ∀ x0 < x - s, parabolicAt i (.bare c) q (.bare x0) (.bare 0) pr x y = 0 := fun x0 h =>
    pedestal_outside i (.bare c) q (.bare x0) (.bare 0) pr hpr hq' x y (by
      simp only [offset]
      nlinarith)
  have h1 : Tendsto (fun x0 => parabolicAt i (.bare c) q (.bare x0) (.bare 0) pr x y) (𝓝[<] (x - s))
      (𝓝 (i * (10 : ℝ) ^ (c / 20))) := by
    rw [← hval]
    exact hcont.tendsto.mono_left nhdsWithin_le_nhds
  have h2 : Tendsto (fun x0 => parabolicAt i (.bare c) q (.bare x0) (.bare 0) pr x y) (𝓝[<] (x - s)) (𝓝 0) :=
    tendsto_const_nhds.congr' (by
      filter_upwards [self_mem_nhdsWithin] with x0 hx0
      exact (hleft x0 hx0).symm)
  have := tendsto_nhds_unique h1 h2
  exact (mul_ne_zero hi (Real.rpow_pos_of_pos (by norm_num) _).ne') this

/-- **C98** the condition on the centre cannot be left out: with the parabolic illumination, an exponent that is not an
integer and a centre that is fitted, the light of a pixel jumps to zero when the rim of the illumination passes it. -/
theorem C98_rim {ι : Type} (i c q pr : ℝ) (x y : ι → ℝ) (hi : i ≠ 0) (hpr : 0 < pr) (hq : 0 < q)
    (hq' : ∀ k : ℤ, q ≠ k) (E : ℝ → ι → ℝ) (hE : ∀ x0, illumParabolic x y [i, c, q, x0, 0] pr = .ok (E x0))
    (t : ι) (hy : |y t| < pr) :
    ¬ ContinuousAt (fun x0 => E x0 t) (x t - Real.sqrt (pr ^ 2 - y t ^ 2)) := by
  have h : (fun x0 => E x0 t) = fun x0 => parabolicAt i (.bare c) q (.bare x0) (.bare 0) pr (x t) (y t) := by
    funext x0
    exact congrFun (Except.ok.inj (hE x0)).symm t
  rw [h]
  exact rim_jump i c q pr (x t) (y t) hi hpr hq hq' hy

/-- The default coefficients: a pixel 5 mm within the rim, the centre moved by 5 mm. -/
example (E : ℝ → Unit → ℝ)
    (hE : ∀ x0, illumParabolic (fun _ => 49.995) (fun _ => 0) [1, -14.5, 1.4, x0, 0] 50 = .ok (E x0)) :
    ¬ ContinuousAt (fun x0 => E x0 ()) (-0.005) := by
  have := C98_rim 1 (-14.5) 1.4 50 (fun _ => 49.995) (fun _ => 0) (by norm_num) (by norm_num) (by norm_num) (fun k h => by
    have h1 : (14 : ℝ) = ((10 * k : ℤ) : ℝ) := by push_cast; rw [← h]; norm_num
    have h2 : (14 : ℤ) = 10 * k := by exact_mod_cast h1
    omega) E hE () (by norm_num)
  have e : (49.995 : ℝ) - Real.sqrt (50 ^ 2 - 0 ^ 2) = -0.005 := by
    rw [show (50 : ℝ) ^ 2 - 0 ^ 2 = 50 ^ 2 by norm_num, Real.sqrt_sq (by norm_num)]
    norm_num
  rwa [e] at this

/-- Such illuminations exist. -/
example : ∃ E : ℝ → Unit → ℝ, ∀ x0,
    illumParabolic (fun _ => (49.995 : ℝ)) (fun _ => 0) [1, -14.5, 1.4, x0, 0] 50 = .ok (E x0) :=
  ⟨_, fun _ => rfl⟩

/-! ## The parameters that are fitted -/

/-- The box of the optimiser. -/
def Spec.Within (lo hi x : List ℝ) : Prop := List.Forall₂ (· ≤ ·) lo x ∧ List.Forall₂ (· ≤ ·) x hi

theorem dropAt_mono {R : ℝ → ℝ → Prop} (S : List ℕ) {p p' : List ℝ} (h : List.Forall₂ R p p') (k : ℕ) :
    List.Forall₂ R (dropAt S k p) (dropAt S k p') := by
  induction h generalizing k with
  | nil => exact .nil
  | cons h1 _ ih =>
    unfold dropAt
    split_ifs
    · exact ih _
    · exact .cons h1 (ih _)

theorem dropAt_lift {R : ℝ → ℝ → Prop} (S : List ℕ) : ∀ (p p' : List ℝ) (k : ℕ), p.length = p'.length →
    List.Forall₂ R (dropAt S k p) (dropAt S k p') →
    (∀ e x y, k + e ∈ S → p[e]? = some x → p'[e]? = some y → R x y) → List.Forall₂ R p p'
  | [], [], _, _, _, _ => .nil
  | [], _ :: _, _, h, _, _ => by simp at h
  | _ :: _, [], _, h, _, _ => by simp at h
  | x :: p, y :: p', k, hl, h, hS => by
    have hl' : p.length = p'.length := by simpa using hl
    have hS' : ∀ e x y, k + 1 + e ∈ S → p[e]? = some x → p'[e]? = some y → R x y := fun e x y he h1 h2 =>
      hS (e + 1) x y (by rwa [show k + (e + 1) = k + 1 + e by omega]) (by simpa using h1) (by simpa using h2)
    by_cases hk : k ∈ S
    · simp only [dropAt, hk, if_true] at h
      exact .cons (hS 0 x y hk rfl rfl) (dropAt_lift S p p' (k + 1) hl' h hS')
    · simp only [dropAt, hk, if_false, List.forall₂_cons] at h
      exact .cons h.1 (dropAt_lift S p p' (k + 1) hl' h.2 hS')

theorem vec_le (p p' : (Fin 5 → ℝ) × (Fin nK → ℝ)) : List.Forall₂ (· ≤ ·) (Spec.vec p) (Spec.vec p') ↔ p ≤ p' := by
  have key : ∀ {m : ℕ} (f g : Fin m → ℝ), List.Forall₂ (· ≤ ·) (List.ofFn f) (List.ofFn g) ↔ f ≤ g := by
    intro m f g
    rw [List.forall₂_iff_get]
    simp only [List.length_ofFn, true_and, List.get_eq_getElem, List.getElem_ofFn]
    exact ⟨fun h j => h j j.2 j.2, fun h j h1 _ => h ⟨j, h1⟩⟩
  unfold Spec.vec
  constructor
  · intro h
    have h1 := List.forall₂_take 5 h
    have h2 := List.forall₂_drop 5 h
    rw [List.take_append_of_le_length (by simp), List.take_of_length_le (by simp),
      List.take_append_of_le_length (by simp), List.take_of_length_le (by simp)] at h1
    rw [List.drop_append_of_le_length (by simp), List.drop_of_length_le (by simp),
      List.drop_append_of_le_length (by simp), List.drop_of_length_le (by simp), List.nil_append, List.nil_append] at h2
    exact ⟨(key _ _).1 h1, (key _ _).1 h2⟩
  · intro h
    exact List.rel_append ((key _ _).2 h.1) ((key _ _).2 h.2)

theorem exists_vec (l : List ℝ) (h : l.length = 5 + nK) : ∃ p : (Fin 5 → ℝ) × (Fin nK → ℝ), Spec.vec p = l := by
  refine ⟨(fun j => l.getD j 0, fun j => l.getD (5 + j) 0), ?_⟩
  unfold Spec.vec
  refine List.ext_getElem (by simp only [List.length_append, List.length_ofFn, h]) fun i h1 h2 => ?_
  rw [List.getElem_append]
  split_ifs with h3
  · rw [List.getElem_ofFn]
    exact (by simp [List.getD, h2] : l.getD i 0 = l[i])
  · have h4 : 5 ≤ i := by simpa only [List.length_ofFn, not_lt] using h3
    rw [List.getElem_ofFn]
    simp only [List.length_ofFn, show 5 + (i - 5) = i by omega]
    exact (by simp [List.getD, h2] : l.getD i 0 = l[i])

theorem vec_length (p : (Fin 5 → ℝ) × (Fin nK → ℝ)) : (Spec.vec p).length = 5 + nK := by
  simp only [Spec.vec, List.length_append, List.length_ofFn]

/-- The box of complete parameters that belongs to bounds of the fitted ones. -/
theorem fit_box (cfg : Config) (S : List ℕ) (hex : cfg.excluded = S.map (fun e : ℕ => (e : ℤ)))
    (hS : S.Pairwise (· < ·)) (h7 : ∀ e ∈ S, e ≤ 7) (hf : cfg.fixed.length = 8) (n : ℕ) (hn : 1 ≤ n)
    (hK : nK = (n + 1) * (n + 2) / 2) (lo hi x0 : List ℝ) (hx0 : Spec.Within lo hi x0)
    (hlen : x0.length + S.length = 5 + nK) :
    ∃ lb ub : (Fin 5 → ℝ) × (Fin nK → ℝ),
      (∀ x, Spec.Within lo hi x → ∃ p ∈ Set.Icc lb ub, paramsComplete x nK cfg = .ok (Spec.vec p) ∧
        dropAt S 0 (Spec.vec p) = x) ∧
      ∀ p ∈ Set.Icc lb ub, Spec.Within lo hi (dropAt S 0 (Spec.vec p)) ∧
        paramsComplete (dropAt S 0 (Spec.vec p)) nK cfg = .ok (Spec.vec p) := by
  have h3 : 3 ≤ nK := by
    rw [hK, Nat.le_div_iff_mul_le (by norm_num)]
    nlinarith
  have hnd : S.Nodup := hS.imp (fun h => ne_of_lt h)
  -- every vector of fitted parameters has a complete vector
  have complete : ∀ x : List ℝ, x.length + S.length = 5 + nK → ∃ p : (Fin 5 → ℝ) × (Fin nK → ℝ),
      paramsComplete x nK cfg = .ok (Spec.vec p) ∧ dropAt S 0 (Spec.vec p) = x ∧
      ∀ e ∈ S, (Spec.vec p)[e]? = some (cfg.fixed.getD e 0) := by
    intro x hx
    obtain ⟨l, hl1, hl2⟩ := dropAt_surj S (5 + nK) 0 x (by
      rw [countP_range' S hnd _ (fun e he => by have := h7 e he; omega)]
      exact hx)
    obtain ⟨p, hp⟩ := exists_vec (S.foldl (fun q e => q.set e (cfg.fixed.getD e 0)) l) (by rw [foldl_set_length, hl1])
    refine ⟨p, by rw [← hl2, complete_delete cfg S hex hS h7 hf nK h3 l hl1, hp], ?_, fun e he => ?_⟩
    · rw [hp, ← hl2]
      clear hl2 hp hl1 hex hS h7 hnd
      have : ∀ (T : List ℕ) (l : List ℝ), (∀ e ∈ T, e ∈ S) →
          dropAt S 0 (T.foldl (fun q e => q.set e (cfg.fixed.getD e 0)) l) = dropAt S 0 l := by
        intro T
        induction T with
        | nil => exact fun l _ => rfl
        | cons e T ih =>
          intro l hT
          rw [List.foldl_cons, ih _ fun e' he' => hT e' (List.mem_cons_of_mem _ he')]
          have hset : ∀ (l : List ℝ) (k e : ℕ) (c : ℝ), k + e ∈ S → dropAt S k (l.set e c) = dropAt S k l := by
            intro l
            induction l with
            | nil => intros; rfl
            | cons a l ihl =>
              intro k e c he
              cases e with
              | zero =>
                rw [List.set_cons_zero]
                have he' : k ∈ S := by simpa using he
                simp only [dropAt, he', if_true]
              | succ e =>
                rw [List.set_cons_succ]
                unfold dropAt
                rw [ihl (k + 1) e c (by rwa [show k + 1 + e = k + (e + 1) by omega])]
          exact hset l 0 e _ (by simpa using hT e List.mem_cons_self)
      exact this S l fun _ h => h
    · have := h7 e he
      rw [hp, foldl_set_get _ _ _ _ (by omega), if_pos he]
  have hlo : lo.length + S.length = 5 + nK := by rw [hx0.1.length_eq]; exact hlen
  have hhi : hi.length + S.length = 5 + nK := by rw [← hx0.2.length_eq]; exact hlen
  obtain ⟨lb, -, lb2, lb3⟩ := complete lo hlo
  obtain ⟨ub, -, ub2, ub3⟩ := complete hi hhi
  have lift : ∀ x (p : (Fin 5 → ℝ) × (Fin nK → ℝ)), Spec.Within lo hi x → dropAt S 0 (Spec.vec p) = x →
      (∀ e ∈ S, (Spec.vec p)[e]? = some (cfg.fixed.getD e 0)) → p ∈ Set.Icc lb ub := by
    intro x p hx hp1 hp2
    constructor
    · rw [← vec_le]
      refine dropAt_lift S _ _ 0 (by rw [vec_length, vec_length]) (by rw [lb2, hp1]; exact hx.1) fun e x y he h1 h2 => ?_
      rw [zero_add] at he
      rw [lb3 e he] at h1
      rw [hp2 e he] at h2
      cases h1
      cases h2
      exact le_rfl
    · rw [← vec_le]
      refine dropAt_lift S _ _ 0 (by rw [vec_length, vec_length]) (by rw [ub2, hp1]; exact hx.2) fun e x y he h1 h2 => ?_
      rw [zero_add] at he
      rw [ub3 e he] at h2
      rw [hp2 e he] at h1
      cases h1
      cases h2
      exact le_rfl
  have back : ∀ p ∈ Set.Icc lb ub, Spec.Within lo hi (dropAt S 0 (Spec.vec p)) ∧
      paramsComplete (dropAt S 0 (Spec.vec p)) nK cfg = .ok (Spec.vec p) := by
    intro p hp
    have b1 := (vec_le _ _).2 hp.1
    have b2 := (vec_le _ _).2 hp.2
    refine ⟨⟨?_, ?_⟩, ?_⟩
    · rw [← lb2]
      exact dropAt_mono S b1 0
    · rw [← ub2]
      exact dropAt_mono S b2 0
    · rw [complete_delete cfg S hex hS h7 hf nK h3 _ (vec_length p)]
      congr 1
      refine List.ext_getElem? fun e => ?_
      by_cases he : e < (Spec.vec p).length
      · rw [foldl_set_get _ _ _ _ he]
        split_ifs with heS
        · have g1 := lb3 e heS
          have g2 := ub3 e heS
          obtain ⟨l1, l2⟩ := List.getElem?_eq_some_iff.1 g1
          obtain ⟨u1, u2⟩ := List.getElem?_eq_some_iff.1 g2
          have c1 := (List.forall₂_iff_get.1 b1).2 e l1 he
          have c2 := (List.forall₂_iff_get.1 b2).2 e he u1
          simp only [List.get_eq_getElem] at c1 c2
          rw [List.getElem?_eq_getElem he, Option.some.injEq]
          rw [l2] at c1
          rw [u2] at c2
          exact le_antisymm c1 c2
        · rfl
      · rw [List.getElem?_eq_none (by rw [foldl_set_length]; omega), List.getElem?_eq_none (by omega)]
  refine ⟨lb, ub, fun x hx => ?_, back⟩
  obtain ⟨p, a1, a2, a3⟩ := complete x (by rw [← hx.1.length_eq]; exact hlo)
  exact ⟨p, lift x p hx a2 a3, a1, a2⟩

/-- The illuminations of the package in the box. -/
theorem fit_own {ι : Type} (cfg : Config) (S : List ℕ) (lo hi : List ℝ) (lb ub p0 : (Fin 5 → ℝ) × (Fin nK → ℝ))
    (hp0 : p0 ∈ Set.Icc lb ub) (back : ∀ p ∈ Set.Icc lb ub, Spec.Within lo hi (dropAt S 0 (Spec.vec p)) ∧
        paramsComplete (dropAt S 0 (Spec.vec p)) nK cfg = .ok (Spec.vec p)) (illum : Illum ι)
    (hil : illum = illumGauss ∨ illum = illumParabolic ∧ ∀ x full, Spec.Within lo hi x →
      paramsComplete x nK cfg = .ok full → 0 < full.getD 2 0 ∧ full.getD 3 0 = 0 ∧ full.getD 4 0 = 0) :
    Spec.OwnIllum illum (Set.Icc lb.1 ub.1) := by
  rcases hil with h | ⟨h, hd⟩
  · exact Or.inl h
  refine Or.inr ⟨h, fun I hI => ?_⟩
  have hp : ((I, p0.2) : (Fin 5 → ℝ) × (Fin nK → ℝ)) ∈ Set.Icc lb ub := ⟨⟨hI.1, hp0.1.2⟩, ⟨hI.2, hp0.2.2⟩⟩
  obtain ⟨w, c⟩ := back _ hp
  have := hd _ _ w c
  have hv : Spec.vec ((I, p0.2) : (Fin 5 → ℝ) × (Fin nK → ℝ)) = [I 0, I 1, I 2, I 3, I 4] ++ List.ofFn p0.2 := by
    unfold Spec.vec
    rw [list_five]
  rw [hv] at this
  exact this

/-- **C98** the same for the residual that is handed to the optimiser, with parameters taken out of the fit: within the
bounds there is a vector of fitted parameters for which the sum of squares is smallest. -/
theorem C98_fit (cfg : Config) (S : List ℕ) (hex : cfg.excluded = S.map (fun e : ℕ => (e : ℤ)))
    (hS : S.Pairwise (· < ·)) (h7 : ∀ e ∈ S, e ≤ 7) (hf : cfg.fixed.length = 8) (n : ℕ) (hn : 1 ≤ n)
    (hK : nK = (n + 1) * (n + 2) / 2) (lo hi x0 : List ℝ) (hx0 : Spec.Within lo hi x0)
    (hlen : x0.length + S.length = 5 + nK)
    (beam : Fin 3 × Fin M → Fl) (u v : Fin 3 × Fin M → ℝ) (dz : Fin 3 → ℝ) (wavel : ℝ)
    (illum : Illum (Fin N × Fin N)) (tel : TelGeo (Fin N × Fin N)) (bf : ℝ) (r0 : List ℝ)
    (h0 : Core.residual x0 nK beam u v dz wavel illum tel bf cfg = .ok r0)
    (ht : Spec.OwnTel tel) (hil : illum = illumGauss ∨ illum = illumParabolic ∧ ∀ x full, Spec.Within lo hi x →
      paramsComplete x nK cfg = .ok full → 0 < full.getD 2 0 ∧ full.getD 3 0 = 0 ∧ full.getD 4 0 = 0)
    (hpr : 0 < tel.pr) (hbf : 2 ≤ bf)
    (hgrid : ∀ I K P, radiationPattern I K (dz 0) wavel illum tel bf = .ok P →
      ∀ i row col, ∃ k, u (i, k) = P.u col ∧ v (i, k) = P.v row)
    (B : Fin N × Fin N → ℝ) (hB : tel.block (fun q => Spec.gridPoint tel.pr bf N q.2)
      (fun q => Spec.gridPoint tel.pr bf N q.1) = .ok B) (s t : Fin N × Fin N) (hst : s ≠ t) (hs : B s ≠ 0) (ht0 : B t ≠ 0) :
    ∃ x, Spec.Within lo hi x ∧ ∃ r, Core.residual x nK beam u v dz wavel illum tel bf cfg = .ok r ∧
      ∀ x', Spec.Within lo hi x' → ∃ r', Core.residual x' nK beam u v dz wavel illum tel bf cfg = .ok r' ∧
        Spec.costL r ≤ Spec.costL r' := by
  obtain ⟨lb, ub, lift, back⟩ := fit_box cfg S hex hS h7 hf n hn hK lo hi x0 hx0 hlen
  obtain ⟨p0, hp0, q1, -⟩ := lift x0 hx0
  have res : ∀ x (p : (Fin 5 → ℝ) × (Fin nK → ℝ)), paramsComplete x nK cfg = .ok (Spec.vec p) → Core.residual x nK beam u v dz wavel illum tel bf cfg =
      residualTrue (Spec.vec p) beam u v dz wavel illum tel bf := by
    intro x p h
    unfold Core.residual
    rw [h]
    rfl
  have hr0 := (res x0 p0 q1).symm.trans h0
  have hoi := fit_own cfg S lo hi lb ub p0 hp0 back illum hil
  obtain ⟨P, hP, -⟩ := modelRow_ok.1 ((residualTrue_ok.1 hr0).choose_spec.1 0)
  obtain ⟨p, hp, r, hr, hmin⟩ := C98_package n hK lb ub p0 hp0 beam u v dz wavel illum tel bf r0 hr0 ht hoi hpr hbf P (by
    have t1 : (Spec.vec p0).take 5 = List.ofFn p0.1 := by
      unfold Spec.vec
      rw [List.take_append_of_le_length (by simp), List.take_of_length_le (by simp)]
    have t2 : (Spec.vec p0).drop 5 = List.ofFn p0.2 := by
      unfold Spec.vec
      rw [List.drop_append_of_le_length (by simp), List.drop_of_length_le (by simp), List.nil_append]
    rw [← t1, ← t2]
    exact hP) (hgrid _ _ P hP) B hB s t hst hs ht0
  obtain ⟨w, c⟩ := back p hp
  refine ⟨_, w, r, (res _ p c).trans hr, fun x' hx' => ?_⟩
  obtain ⟨p', hp', a1, -⟩ := lift x' hx'
  obtain ⟨r', b1, b2⟩ := hmin p' hp'
  exact ⟨r', (res _ p' a1).trans b1, b2⟩

/-! ## Cases -/

/-- The default configuration, order 1, three maps of 6 by 6 pixels with any values. -/
example (beam : Fin 3 × Fin 36 → Fl) : ∃ (u v : Fin 3 × Fin 36 → ℝ) (x : List ℝ),
    Spec.Within [0, -5, -5] [10, 5, 5] x ∧
    ∃ r, Core.residual x 3 beam u v ![-0.022, 0, 0.022] 0.009 illumParabolic (manualTel 50 3.25 1 20 30 387.39435) 2
        defaultConfig (N := 6) = .ok r ∧
      ∀ x', Spec.Within [0, -5, -5] [10, 5, 5] x' → ∃ r', Core.residual x' 3 beam u v ![-0.022, 0, 0.022] 0.009
        illumParabolic (manualTel 50 3.25 1 20 30 387.39435) 2 defaultConfig (N := 6) = .ok r' ∧
          Spec.costL r ≤ Spec.costL r' := by
  have hpat : ∀ dz : ℝ, ∃ P : Pattern 6, radiationPattern [0.01, -14.5, 1.4, 0, 0] [0, 0.1, 0.1] dz 0.009 illumParabolic
      (manualTel 50 3.25 1 20 30 387.39435) 2 = .ok P := by
    intro dz
    obtain ⟨A, P, -, hP, -⟩ := C96_package [0.01, -14.5, 1.4, 0, 0] [0, 0.1, 0.1] dz 0.009 50 2
      (fun _ => illumParabolic) (fun _ => manualTel 50 3.25 1 20 30 387.39435)
      (.manualParabolic _ _ _ _ _ _ _ _ _ _ _ (by norm_num)) (by norm_num) (by norm_num) (by norm_num) 1 rfl
    exact ⟨P 4, hP 4⟩
  obtain ⟨P, hP⟩ := hpat ((![-0.022, 0, 0.022] : Fin 3 → ℝ) 0)
  have same : ∀ I K dz (Q : Pattern 6), radiationPattern I K dz 0.009 illumParabolic
      (manualTel 50 3.25 1 20 30 387.39435) 2 = .ok Q → Q.u = P.u ∧ Q.v = P.v := by
    intro I K dz Q hQ
    obtain ⟨-, E, -, rfl⟩ := radiationPattern_ok hQ
    obtain ⟨-, E', -, rfl⟩ := radiationPattern_ok hP
    exact ⟨rfl, rfl⟩
  have hax := C14_axes _ _ _ _ _ _ _ _ P (by norm_num [manualTel]) (by norm_num) (by norm_num) hP
  let col : Fin 36 → Fin 6 := fun k => ⟨(k : ℕ) % 6, Nat.mod_lt _ (by norm_num)⟩
  let row : Fin 36 → Fin 6 := fun k => ⟨(k : ℕ) / 6, by omega⟩
  refine ⟨fun q => P.u (col q.2), fun q => P.v (row q.2), ?_⟩
  have hc : paramsComplete [0.01, 0.1, 0.1] 3 defaultConfig = .ok [0.01, -14.5, 1.4, 0, 0, 0, 0.1, 0.1] :=
    complete_delete defaultConfig [1, 2, 3, 4, 5] rfl (by decide) (by decide) rfl 3 le_rfl
      [0.01, 0, 0, 0, 0, 0, 0.1, 0.1] rfl
  have hrow : ∀ i, ∃ b, modelRow [0.01, -14.5, 1.4, 0, 0, 0, 0.1, 0.1] (fun q : Fin 3 × Fin 36 => P.u (col q.2))
      (fun q => P.v (row q.2)) ![-0.022, 0, 0.022] 0.009 illumParabolic (manualTel 50 3.25 1 20 30 387.39435) 2 i
        (N := 6) = .ok b := by
    intro i
    obtain ⟨Q, hQ⟩ := hpat ((![-0.022, 0, 0.022] : Fin 3 → ℝ) i)
    refine ⟨_, modelRow_ok.2 ⟨Q, hQ, (interpolator_ok_iff _ _ _ _ _).2 ⟨?_, fun k => ?_, rfl⟩⟩⟩
    · rw [(same _ _ _ Q hQ).1, (same _ _ _ Q hQ).2, ← hax.1]
      exact ⟨hax.2.1, hax.2.1⟩
    · rw [(same _ _ _ Q hQ).1, (same _ _ _ Q hQ).2]
      exact ⟨⟨⟨_, le_rfl⟩, _, le_rfl⟩, ⟨_, le_rfl⟩, _, le_rfl⟩
  choose b hb using hrow
  obtain ⟨nd, hd, -⟩ := C27_axis1 (by norm_num : 0 < 36) beam
  obtain ⟨nm, hm, -⟩ := C27_axis1 (by norm_num : 0 < 36) (fun q : Fin 3 × Fin 36 => Fl.fin (b q.1 q.2))
  obtain ⟨B, hB, hv⟩ := C24_value 50 3.25 1 20 (fun q : Fin 6 × Fin 6 => Spec.gridPoint 50 2 6 q.2)
    (fun q => Spec.gridPoint 50 2 6 q.1)
  have g2 : Spec.gridPoint 50 2 6 2 = -20 := by norm_num [Spec.gridPoint]
  have g3 : Spec.gridPoint 50 2 6 3 = 20 := by norm_num [Spec.gridPoint]
  refine C98_fit defaultConfig [1, 2, 3, 4, 5] rfl (by decide) (by decide) rfl 1 le_rfl rfl [0, -5, -5] [10, 5, 5]
    [0.01, 0.1, 0.1] ?_ rfl beam _ _ _ 0.009 illumParabolic _ 2 (flatten3 fun q => nd q - nm q) ?_ (.manual _ _ _ _ _ _)
    (Or.inr ⟨rfl, ?_⟩) (by norm_num [manualTel]) le_rfl ?_ B hB (2, 2) (3, 3) (by decide) ?_ ?_
  · refine ⟨.cons ?_ (.cons ?_ (.cons ?_ .nil)), .cons ?_ (.cons ?_ (.cons ?_ .nil))⟩ <;> norm_num
  · unfold Core.residual
    rw [hc]
    exact residualTrue_ok.2 ⟨b, hb, nd, nm, hd, hm, rfl⟩
  · intro x full hx hfull
    have hl : x.length = 3 := hx.1.length_eq.symm
    match x, hl with
    | [a, c, d], _ =>
      have := complete_delete defaultConfig [1, 2, 3, 4, 5] rfl (by decide) (by decide) rfl 3 le_rfl
        [a, 0, 0, 0, 0, 0, c, d] rfl
      have e : paramsComplete [a, c, d] 3 defaultConfig = .ok [a, -14.5, 1.4, 0, 0, 0, c, d] := this
      rw [e] at hfull
      cases hfull
      exact ⟨by norm_num, rfl, rfl⟩
  · intro I K Q hQ i r c
    rw [(same _ _ _ Q hQ).1, (same _ _ _ Q hQ).2]
    refine ⟨⟨(r : ℕ) * 6 + c, by omega⟩, ?_, ?_⟩
    · dsimp only [col]
      congr 1
      apply Fin.ext
      dsimp only
      omega
    · dsimp only [row]
      congr 1
      apply Fin.ext
      dsimp only
      omega
  · rw [(hv (2, 2)).1]
    · norm_num
    · simp only [g2]
      norm_num [Spec.visible]
  · rw [(hv (3, 3)).1]
    · norm_num
    · simp only [g3]
      norm_num [Spec.visible]

end Verif.Props
