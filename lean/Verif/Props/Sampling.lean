import Verif.Props.BestFit
import Verif.Props.Converge

/-!
# C134: the pixels of the power pattern determine the beam in every direction
-/

namespace Verif.Props

open Verif Verif.Np Verif.Aperture Verif.MathFn Verif.Core Verif.Telgeometry Verif.Fourier Finset

/-! ## Specification -/

/-- The power that the samples `E` of an aperture send in the direction `(s, t)`, whether or not this is a pixel of
the far field. -/
noncomputable def Spec.gridBeam {N : ℕ} (E : Fin N × Fin N → ℂ) (pr bf wavel s t : ℝ) : ℝ :=
  ‖∑ p : Fin N × Fin N, E p * Complex.exp (-(2 * Real.pi * Complex.I) *
    (((Spec.gridPoint pr bf N p.2 * s + Spec.gridPoint pr bf N p.1 * t) / wavel : ℝ) : ℂ))‖ ^ 2

/-- `1 + 2 cos x + ... + 2 cos (h x)` -/
noncomputable def Spec.dirichlet (h : ℕ) (x : ℝ) : ℝ := 1 + 2 * ∑ k ∈ range h, Real.cos (((k : ℝ) + 1) * x)

/-- The power in the direction `(s, t)` from the power at the pixels: a sum over the pixels of their power times a kernel
of the distance, which knows only the grid. -/
noncomputable def Spec.between {N : ℕ} (P : Pattern N) (pr bf wavel s t : ℝ) : ℝ :=
  (∑ i : Fin N, ∑ j : Fin N, ‖P.F (i, j)‖ ^ 2 *
    (Spec.dirichlet ((N - 1) / 2) (2 * Real.pi * (2 * pr * bf / ((N : ℝ) - 1)) * (s - P.u j) / wavel) *
     Spec.dirichlet ((N - 1) / 2) (2 * Real.pi * (2 * pr * bf / ((N : ℝ) - 1)) * (t - P.v i) / wavel))) / (N : ℝ) ^ 2

/-! ## Proof -/

theorem dirichlet_exp (h : ℕ) (x : ℝ) :
    ((Spec.dirichlet h x : ℝ) : ℂ) = ∑ a ∈ Icc (-(h : ℤ)) h, Complex.exp (((a : ℝ) * x : ℝ) * Complex.I) := by
  induction h with
  | zero => simp [Spec.dirichlet]
  | succ h ih =>
    have hI : Icc (-((h + 1 : ℕ) : ℤ)) ((h + 1 : ℕ) : ℤ) =
        insert (-((h + 1 : ℕ) : ℤ)) (insert ((h + 1 : ℕ) : ℤ) (Icc (-(h : ℤ)) h)) := by
      ext z
      simp only [mem_Icc, mem_insert]
      omega
    rw [hI, sum_insert (by simp; omega), sum_insert (by simp), ← ih]
    unfold Spec.dirichlet
    rw [sum_range_succ]
    push_cast
    have := Complex.two_cos (((h : ℂ) + 1) * x)
    rw [show (-(h + 1 : ℂ)) * x * Complex.I = -(((h : ℂ) + 1) * x) * Complex.I by ring]
    linear_combination this

theorem corr_swap {A P : Type*} [Fintype P] (S : Finset A) (c : A → ℂ) (g : A → P → P → ℂ) (M : ℂ) :
    ∑ x ∈ S, c x * (M * ∑ p, ∑ p', g x p p') = (∑ p, ∑ p', ∑ x ∈ S, c x * g x p p') * M := by
  have h1 : ∀ x, c x * (M * ∑ p, ∑ p', g x p p') = (∑ p, ∑ p', c x * g x p p') * M := by
    intro x
    simp_rw [← mul_sum]
    ring
  simp_rw [h1]
  rw [← sum_mul, sum_comm]
  congr 1
  exact sum_congr rfl fun p _ => sum_comm

/-- The lit pixels lie within half of the grid, so that the correlation of the aperture with itself fits on it: the
power in any direction from the power at the pixels. -/
theorem beam_of_power {N : ℕ} (hN : N ≠ 0) (E : Fin N × Fin N → ℂ)
    (hw : ∀ p q, E p ≠ 0 → E q ≠ 0 → 2 * |((p.1 : ℕ) : ℤ) - ((q.1 : ℕ) : ℤ)| < N ∧
      2 * |((p.2 : ℕ) : ℤ) - ((q.2 : ℕ) : ℤ)| < N) (α β : ℝ) :
    ((‖∑ p : Fin N × Fin N, E p * Complex.exp (((-((p.2 : ℕ) * α + (p.1 : ℕ) * β) : ℝ) : ℂ) * Complex.I)‖ ^ 2 : ℝ) : ℂ) *
        (N : ℂ) ^ 2 =
      ∑ q : Fin N × Fin N, ((‖fft2 E q‖ ^ 2 : ℝ) : ℂ) *
        ∑ x ∈ Icc (-(((N - 1) / 2 : ℕ) : ℤ)) (((N - 1) / 2 : ℕ) : ℤ) ×ˢ
            Icc (-(((N - 1) / 2 : ℕ) : ℤ)) (((N - 1) / 2 : ℕ) : ℤ),
          Complex.exp ((((x.1 : ℝ) * β + (x.2 : ℝ) * α : ℝ) : ℂ) * Complex.I) *
              ew N (((q.1 : ℕ) : ℤ) * x.1 + ((q.2 : ℕ) : ℤ) * x.2) := by
  generalize hJ : Icc (-(((N - 1) / 2 : ℕ) : ℤ)) (((N - 1) / 2 : ℕ) : ℤ) = J
  have small : ∀ z w : ℤ, 2 * |z| < N → 2 * |w| < N → (N : ℤ) ∣ z - w → z = w := by
    intro z w h1 h2 h3
    have : |z - w| < N := (abs_sub z w).trans_lt (by linarith)
    have := Int.eq_zero_of_abs_lt_dvd h3 this
    omega
  have memJ : ∀ z : ℤ, z ∈ J ↔ 2 * |z| < N := by
    intro z
    rw [← hJ, mem_Icc]
    rcases abs_cases z with h | h <;> omega
  have hr : ∑ q : Fin N × Fin N, ((‖fft2 E q‖ ^ 2 : ℝ) : ℂ) * ∑ x ∈ J ×ˢ J,
        Complex.exp ((((x.1 : ℝ) * β + (x.2 : ℝ) * α : ℝ) : ℂ) * Complex.I) *
          ew N (((q.1 : ℕ) : ℤ) * x.1 + ((q.2 : ℕ) : ℤ) * x.2) =
      ∑ x ∈ J ×ˢ J, Complex.exp ((((x.1 : ℝ) * β + (x.2 : ℝ) * α : ℝ) : ℂ) * Complex.I) *
        ∑ q : Fin N × Fin N, ((‖fft2 E q‖ ^ 2 : ℝ) : ℂ) * ew N (((q.1 : ℕ) : ℤ) * x.1 + ((q.2 : ℕ) : ℤ) * x.2) := by
    simp_rw [mul_sum]
    rw [sum_comm]
    exact sum_congr rfl fun a _ => sum_congr rfl fun q _ => by ring
  rw [hr]
  simp_rw [power_corr hN]
  rw [corr_swap]
  congr 1
  have key : ∀ z : ℂ, ((‖z‖ ^ 2 : ℝ) : ℂ) = z * (starRingEnd ℂ) z := fun z => by
    rw [Complex.mul_conj, Complex.normSq_eq_norm_sq]
  rw [key, map_sum, sum_mul_sum]
  refine sum_congr rfl fun p _ => sum_congr rfl fun p' _ => ?_
  by_cases h1 : E p = 0
  · simp [h1]
  by_cases h2 : E p' = 0
  · simp [h2]
  obtain ⟨w1, w2⟩ := hw p' p h2 h1
  rw [sum_eq_single (((p'.1 : ℕ) : ℤ) - ((p.1 : ℕ) : ℤ), ((p'.2 : ℕ) : ℤ) - ((p.2 : ℕ) : ℤ))]
  · rw [if_pos ⟨by simp, by simp⟩, map_mul, ← Complex.exp_conj]
    have e : ∀ a b c d : ℂ, a * b * (c * d) = b * d * (a * c) := fun a b c d => by ring
    rw [e, ← Complex.exp_add]
    congr 2
    simp only [map_mul, Complex.conj_ofReal, Complex.conj_I]
    push_cast
    ring
  · rintro ⟨a, b⟩ hx hne
    rw [mem_product, memJ, memJ] at hx
    dsimp only at hx ⊢
    rw [if_neg, mul_zero]
    rintro ⟨d1, d2⟩
    have e1 := small a (((p'.1 : ℕ) : ℤ) - ((p.1 : ℕ) : ℤ)) hx.1 w1 (by
      rw [show a - (((p'.1 : ℕ) : ℤ) - ((p.1 : ℕ) : ℤ)) = ((p.1 : ℕ) : ℤ) - ((p'.1 : ℕ) : ℤ) + a by ring]; exact d1)
    have e2 := small b (((p'.2 : ℕ) : ℤ) - ((p.2 : ℕ) : ℤ)) hx.2 w2 (by
      rw [show b - (((p'.2 : ℕ) : ℤ) - ((p.2 : ℕ) : ℤ)) = ((p.2 : ℕ) : ℤ) - ((p'.2 : ℕ) : ℤ) + b by ring]; exact d2)
    exact hne (Prod.ext e1 e2)
  · intro hx
    refine (hx ?_).elim
    rw [mem_product, memJ, memJ]
    exact ⟨w1, w2⟩

/-- The lit pixels of a dish on a box of at least twice its size lie within half of the grid. -/
theorem lit_half {N : ℕ} (hN : 2 ≤ N) {pr bf : ℝ} (hpr : 0 < pr) (hbf : 2 ≤ bf) (E : Fin N × Fin N → ℂ)
    (hdark : ∀ q, pr < |Spec.gridPoint pr bf N q.2| ∨ pr < |Spec.gridPoint pr bf N q.1| → E q = 0)
    (p q : Fin N × Fin N) (hp : E p ≠ 0) (hq : E q ≠ 0) :
    2 * |((p.1 : ℕ) : ℤ) - ((q.1 : ℕ) : ℤ)| < N ∧ 2 * |((p.2 : ℕ) : ℤ) - ((q.2 : ℕ) : ℤ)| < N := by
  have hN1 : (1 : ℝ) ≤ (N : ℝ) - 1 := by
    have : (2 : ℝ) ≤ N := by exact_mod_cast hN
    linarith
  have inside : ∀ q, E q ≠ 0 → |Spec.gridPoint pr bf N q.1| ≤ pr ∧ |Spec.gridPoint pr bf N q.2| ≤ pr := by
    intro q hq
    exact ⟨not_lt.1 fun hlt => hq (hdark q (.inr hlt)), not_lt.1 fun hlt => hq (hdark q (.inl hlt))⟩
  have step : ∀ i j : Fin N, |Spec.gridPoint pr bf N i| ≤ pr → |Spec.gridPoint pr bf N j| ≤ pr →
      2 * |((i : ℕ) : ℤ) - ((j : ℕ) : ℤ)| < N := by
    intro i j hi hj
    have e : Spec.gridPoint pr bf N i - Spec.gridPoint pr bf N j =
        (((i : ℕ) : ℝ) - ((j : ℕ) : ℝ)) * (2 * pr * bf / ((N : ℝ) - 1)) := by
      unfold Spec.gridPoint
      ring
    have h3 : |((i : ℕ) : ℝ) - ((j : ℕ) : ℝ)| * (2 * pr * bf / ((N : ℝ) - 1)) ≤ 2 * pr := by
      rw [← abs_of_pos (show 0 < 2 * pr * bf / ((N : ℝ) - 1) by positivity), ← abs_mul, ← e]
      exact (abs_sub _ _).trans (by linarith)
    have h4 : |((i : ℕ) : ℝ) - ((j : ℕ) : ℝ)| * bf ≤ (N : ℝ) - 1 := by
      rw [mul_div_assoc', div_le_iff₀ (by linarith)] at h3
      nlinarith
    have h5 : 2 * |((i : ℕ) : ℝ) - ((j : ℕ) : ℝ)| < N := by
      nlinarith [abs_nonneg (((i : ℕ) : ℝ) - ((j : ℕ) : ℝ))]
    exact_mod_cast h5
  exact ⟨step _ _ (inside p hp).1 (inside q hq).1, step _ _ (inside p hp).2 (inside q hq).2⟩

theorem gridBeam_eq {N : ℕ} (E : Fin N × Fin N → ℂ) (pr bf wavel s t : ℝ) :
    Spec.gridBeam E pr bf wavel s t = ‖∑ p : Fin N × Fin N, E p *
      Complex.exp (((-((p.2 : ℕ) * (2 * Real.pi * (2 * pr * bf / ((N : ℝ) - 1)) * s / wavel) +
        (p.1 : ℕ) * (2 * Real.pi * (2 * pr * bf / ((N : ℝ) - 1)) * t / wavel)) : ℝ) : ℂ) * Complex.I)‖ ^ 2 := by
  unfold Spec.gridBeam
  congr 1
  rw [← one_mul (norm (∑ p : Fin N × Fin N, E p * Complex.exp (((-((p.2 : ℕ) * _ + _) : ℝ) : ℂ) * Complex.I)))]
  have h1 := Complex.norm_exp_ofReal_mul_I (2 * Real.pi * (pr * bf) * (s + t) / wavel)
  generalize hc : Complex.exp (((2 * Real.pi * (pr * bf) * (s + t) / wavel : ℝ) : ℂ) * Complex.I) = c at h1
  conv_rhs => rw [show ∀ x : ℝ, 1 * x = ‖c‖ * x from fun x => by rw [h1]]
  rw [← norm_mul, mul_sum]
  subst hc
  congr 1
  refine sum_congr rfl fun p _ => ?_
  rw [mul_left_comm, ← Complex.exp_add]
  congr 2
  unfold Spec.gridPoint
  push_cast
  ring

/-- **C134** with a box of at least twice the dish, the power at the pixels that `radiation_pattern` returns determines
the power in every other direction. -/
theorem C134_formula (I K : List ℝ) (dz wavel : ℝ) (N : ℕ) (illum : Illum (Fin N × Fin N)) (tel : TelGeo (Fin N × Fin N))
    (bf : ℝ) (hpr : 0 < tel.pr) (hbf : 2 ≤ bf) (hw : wavel ≠ 0) (P : Pattern N)
    (h : radiationPattern I K dz wavel illum tel bf = .ok P) (E : Fin N × Fin N → ℂ)
    (hE : aperture (fun q => Spec.gridPoint tel.pr bf N q.2) (fun q => Spec.gridPoint tel.pr bf N q.1) I K dz wavel
      illum tel = .ok E)
    (hdark : ∀ q, tel.pr < |Spec.gridPoint tel.pr bf N q.2| ∨ tel.pr < |Spec.gridPoint tel.pr bf N q.1| → E q = 0)
    (s t : ℝ) :
    Spec.gridBeam E tel.pr bf wavel s t = Spec.between P tel.pr bf wavel s t := by
  unfold Spec.between
  obtain ⟨hN, E', hE', rfl⟩ := radiationPattern_ok h
  rw [linspace_grid, hE, Except.ok.injEq] at hE'
  subst hE'
  have hN0 : (N : ℝ) ≠ 0 := by
    have : (2 : ℝ) ≤ N := by exact_mod_cast hN
    linarith
  have hN1 : (N : ℝ) - 1 ≠ 0 := by
    have : (2 : ℝ) ≤ N := by exact_mod_cast hN
    linarith
  have hbf0 : bf ≠ 0 := by linarith
  rw [eq_div_iff (pow_ne_zero 2 hN0), gridBeam_eq]
  have B := beam_of_power (by omega) E (lit_half hN hpr hbf E hdark)
    (2 * Real.pi * (2 * tel.pr * bf / ((N : ℝ) - 1)) * s / wavel)
    (2 * Real.pi * (2 * tel.pr * bf / ((N : ℝ) - 1)) * t / wavel)
  rw [← Complex.ofReal_inj]
  push_cast at B ⊢
  rw [B, ← Fintype.sum_prod_type']
  symm
  refine Fintype.sum_bijective (fun q : Fin N × Fin N => (shiftIdx q.1, shiftIdx q.2))
    (shiftIdx_bij.prodMap shiftIdx_bij) _ _ fun q => ?_
  dsimp only [fftshift2]
  congr 1
  rw [dirichlet_exp, dirichlet_exp, mul_comm, sum_mul_sum, sum_product]
  refine sum_congr rfl fun a _ => sum_congr rfl fun b _ => ?_
  have e : ∀ (c : Fin N) (a : ℤ) (z : ℝ),
      Complex.exp (((a : ℝ) * (2 * Real.pi * (2 * tel.pr * bf / ((N : ℝ) - 1)) * (z -
        (((c : ℕ) : ℝ) - ((N / 2 : ℕ) : ℝ)) / (N * (2 * (tel.pr * bf) / ((N : ℝ) - 1))) * wavel) / wavel) : ℝ) *
          Complex.I) =
      Complex.exp (((a : ℝ) * (2 * Real.pi * (2 * tel.pr * bf / ((N : ℝ) - 1)) * z / wavel) : ℝ) * Complex.I) *
        ew N (((shiftIdx c : ℕ) : ℤ) * a) := by
    intro c a z
    rw [ew_congr (by omega) ((shiftIdx_congr c).mul_right a), ew, ← Complex.exp_add]
    generalize N / 2 = m
    congr 1
    have : (a : ℝ) * (2 * Real.pi * (2 * tel.pr * bf / ((N : ℝ) - 1)) * (z -
        (((c : ℕ) : ℝ) - ((m : ℕ) : ℝ)) / (N * (2 * (tel.pr * bf) / ((N : ℝ) - 1))) * wavel) / wavel) =
        (a : ℝ) * (2 * Real.pi * (2 * tel.pr * bf / ((N : ℝ) - 1)) * z / wavel) -
          2 * Real.pi * ((((c : ℕ) : ℝ) - ((m : ℕ) : ℝ)) * a / N) := by
      have := hpr.ne'
      field_simp
    rw [this]
    push_cast
    ring
  rw [e, e, ew_add]
  have : ∀ x y z w : ℂ, x * y * (z * w) = x * z * (y * w) := fun x y z w => by ring
  rw [this, ← Complex.exp_add]
  congr 2
  push_cast
  ring

/-- **C134** at the pixels the power in a direction is what `radiation_pattern` returns. -/
theorem C134_pixels (I K : List ℝ) (dz wavel : ℝ) (N : ℕ) (illum : Illum (Fin N × Fin N)) (tel : TelGeo (Fin N × Fin N))
    (bf : ℝ) (hpr : tel.pr ≠ 0) (hbf : bf ≠ 0) (hw : wavel ≠ 0) (P : Pattern N)
    (h : radiationPattern I K dz wavel illum tel bf = .ok P) (E : Fin N × Fin N → ℂ)
    (hE : aperture (fun q => Spec.gridPoint tel.pr bf N q.2) (fun q => Spec.gridPoint tel.pr bf N q.1) I K dz wavel
      illum tel = .ok E) (i j : Fin N) :
    ‖P.F (i, j)‖ ^ 2 = Spec.gridBeam E tel.pr bf wavel (P.u j) (P.v i) := by
  obtain ⟨E', hE', hF⟩ := C15_fourier_sum I K dz wavel N illum tel bf P hpr hbf hw h
  rw [hE, Except.ok.injEq] at hE'
  subst hE'
  rw [hF, gridBeam_eq, Fintype.sum_prod_type]
  congr 2
  refine sum_congr rfl fun a _ => sum_congr rfl fun b _ => ?_
  congr 2
  push_cast
  ring

/-- **C134** two telescopes with dishes of the same size, whatever their blockage, illumination, aberrations and defocus,
whose power patterns agree at all pixels radiate the same power in every direction. -/
theorem C134_determined (I I' K K' : List ℝ) (dz dz' wavel : ℝ) (N : ℕ) (illum illum' : Illum (Fin N × Fin N))
    (tel tel' : TelGeo (Fin N × Fin N)) (bf : ℝ) (hpr : 0 < tel.pr) (hsame : tel'.pr = tel.pr) (hbf : 2 ≤ bf)
    (hw : wavel ≠ 0) (P P' : Pattern N) (h : radiationPattern I K dz wavel illum tel bf = .ok P)
    (h' : radiationPattern I' K' dz' wavel illum' tel' bf = .ok P') (E E' : Fin N × Fin N → ℂ)
    (hE : aperture (fun q => Spec.gridPoint tel.pr bf N q.2) (fun q => Spec.gridPoint tel.pr bf N q.1) I K dz wavel
      illum tel = .ok E)
    (hE' : aperture (fun q => Spec.gridPoint tel.pr bf N q.2) (fun q => Spec.gridPoint tel.pr bf N q.1) I' K' dz' wavel
      illum' tel' = .ok E')
    (hdark : ∀ q, tel.pr < |Spec.gridPoint tel.pr bf N q.2| ∨ tel.pr < |Spec.gridPoint tel.pr bf N q.1| →
      E q = 0 ∧ E' q = 0) :
    (∀ q, ‖P.F q‖ = ‖P'.F q‖) ↔ ∀ s t, Spec.gridBeam E tel.pr bf wavel s t = Spec.gridBeam E' tel.pr bf wavel s t := by
  have hu : P'.u = P.u ∧ P'.v = P.v := by
    obtain ⟨-, _, -, rfl⟩ := radiationPattern_ok h
    obtain ⟨-, _, -, rfl⟩ := radiationPattern_ok h'
    simp only [hsame, and_self]
  constructor
  · intro hF s t
    have e1 := C134_formula I K dz wavel N illum tel bf hpr hbf hw P h E hE (fun q hq => (hdark q hq).1) s t
    have e2 := C134_formula I' K' dz' wavel N illum' tel' bf (by rw [hsame]; exact hpr) hbf hw P' h' E'
      (by rw [hsame]; exact hE') (fun q hq => (hdark q (by rwa [hsame] at hq)).2) s t
    rw [hsame] at e2
    rw [e1, e2]
    unfold Spec.between
    simp_rw [hF, hu.1, hu.2]
  · rintro hb ⟨i, j⟩
    have e1 := C134_pixels I K dz wavel N illum tel bf hpr.ne' (by linarith) hw P h E hE i j
    have e2 := C134_pixels I' K' dz' wavel N illum' tel' bf (by rw [hsame]; exact hpr.ne') (by linarith) hw P' h' E'
      (by rw [hsame]; exact hE') i j
    rw [hsame, hu.1, hu.2, ← hb, ← e1] at e2
    exact (sq_eq_sq₀ (norm_nonneg _) (norm_nonneg _)).1 e2.symm

/-- The grid of a larger box with the same step holds the smaller one. -/
theorem grid_pad (pr bf : ℝ) (N k : ℕ) (hN : 2 ≤ N) (i : Fin N) :
    Spec.gridPoint pr (bf * (((N + 2 * k : ℕ) : ℝ) - 1) / ((N : ℝ) - 1)) (N + 2 * k) ⟨k + i, by omega⟩ =
      Spec.gridPoint pr bf N i := by
  have hN1 : (N : ℝ) - 1 ≠ 0 := by
    have : (2 : ℝ) ≤ N := by exact_mod_cast hN
    linarith
  have hN2 : ((N : ℝ) + 2 * k) - 1 ≠ 0 := by
    have : (2 : ℝ) ≤ N := by exact_mod_cast hN
    have : (0 : ℝ) ≤ k := by positivity
    linarith
  unfold Spec.gridPoint
  push_cast
  field_simp
  ring

/-- What lies outside of the smaller box is dark. -/
theorem grid_pad_out {pr bf : ℝ} (hpr : 0 < pr) (hbf : 1 ≤ bf) {N k : ℕ} (hN : 2 ≤ N) (i : Fin (N + 2 * k))
    (h : (i : ℕ) < k ∨ k + N ≤ i) :
    pr < |Spec.gridPoint pr (bf * (((N + 2 * k : ℕ) : ℝ) - 1) / ((N : ℝ) - 1)) (N + 2 * k) i| := by
  have hN1 : (0 : ℝ) < (N : ℝ) - 1 := by
    have : (2 : ℝ) ≤ N := by exact_mod_cast hN
    linarith
  have hN2 : (0 : ℝ) < ((N : ℝ) + 2 * k) - 1 := by
    have : (0 : ℝ) ≤ k := by positivity
    linarith
  have e : Spec.gridPoint pr (bf * (((N + 2 * k : ℕ) : ℝ) - 1) / ((N : ℝ) - 1)) (N + 2 * k) i =
      pr * bf * ((2 * ((i : ℕ) : ℝ) - (N + 2 * k - 1)) / ((N : ℝ) - 1)) := by
    unfold Spec.gridPoint
    push_cast
    field_simp
    ring
  rw [e, abs_mul, abs_of_pos (show 0 < pr * bf by positivity)]
  have h1 : 1 < |(2 * ((i : ℕ) : ℝ) - (N + 2 * k - 1)) / ((N : ℝ) - 1)| := by
    rw [abs_div, abs_of_pos hN1, one_lt_div hN1, lt_abs]
    rcases h with h | h
    · right
      have : ((i : ℕ) : ℝ) + 1 ≤ k := by exact_mod_cast h
      linarith
    · left
      have : (k : ℝ) + N ≤ (i : ℕ) := by exact_mod_cast h
      linarith
  nlinarith [mul_pos hpr (show 0 < bf by linarith)]

theorem sum_pad {N k : ℕ} (f : Fin (N + 2 * k) → ℂ) (h : ∀ i : Fin (N + 2 * k), (i : ℕ) < k ∨ k + N ≤ i → f i = 0) :
    ∑ i, f i = ∑ i : Fin N, f ⟨k + i, by omega⟩ := by
  symm
  refine sum_of_injOn (fun i : Fin N => (⟨k + i, by omega⟩ : Fin (N + 2 * k))) ?_ (fun _ _ => mem_coe.2 (mem_univ _)) ?_
    fun _ _ => rfl
  · intro i _ j _ hij
    simp only [Fin.mk.injEq] at hij
    exact Fin.ext (by omega)
  · intro i _ hi
    refine h i ?_
    by_contra hc
    push Not at hc
    refine hi ⟨⟨(i : ℕ) - k, by omega⟩, by simp, Fin.ext ?_⟩
    simp only
    omega

/-- **C134** a larger box at the same step, that is a finer map of the far field, has nothing that the smaller one does
not have: each of its pixels follows from the pixels of the map with the smaller box. -/
theorem C134_padding (I K : List ℝ) (dz wavel pr bf : ℝ) (illum : ∀ ι : Type, Illum ι) (tel : ∀ ι : Type, TelGeo ι)
    (A : ℝ × ℝ → ℂ) (hpr : 0 < pr) (hbf : 2 ≤ bf) (hw : wavel ≠ 0) (hp : ∀ ι, (tel ι).pr = pr)
    (hA : Spec.IsAperture A I K dz wavel illum tel) (hdark : ∀ p : ℝ × ℝ, pr < |p.1| ∨ pr < |p.2| → A p = 0)
    (N k : ℕ) (P : Pattern N) (hP : radiationPattern I K dz wavel (illum _) (tel _) bf = .ok P) (P' : Pattern (N + 2 * k))
    (hP' : radiationPattern I K dz wavel (illum _) (tel _) (bf * (((N + 2 * k : ℕ) : ℝ) - 1) / ((N : ℝ) - 1)) = .ok P')
    (i j : Fin (N + 2 * k)) :
    ‖P'.F (i, j)‖ ^ 2 = Spec.between P pr bf wavel (P'.u j) (P'.v i) := by
  have hb1 : 1 ≤ bf := by linarith
  obtain ⟨hN, -⟩ := radiationPattern_ok hP
  have hN1 : (0 : ℝ) < (N : ℝ) - 1 := by
    have : (2 : ℝ) ≤ N := by exact_mod_cast hN
    linarith
  have hN2 : (0 : ℝ) < ((N + 2 * k : ℕ) : ℝ) - 1 := by
    have : (0 : ℝ) ≤ k := by positivity
    push_cast
    linarith
  have e1 := C134_formula I K dz wavel N (illum _) (tel _) bf (by rw [hp]; exact hpr) hbf hw P hP _ (hA _ _ _)
    (fun q hq => hdark _ (by rw [hp] at hq; rw [hp]; exact hq)) (P'.u j) (P'.v i)
  have e2 := C134_pixels I K dz wavel _ (illum _) (tel _) _ (by rw [hp]; exact hpr.ne') (by positivity) hw P' hP' _
    (hA _ _ _) i j
  rw [hp] at e1
  rw [hp] at e2
  rw [← e1, e2]
  unfold Spec.gridBeam
  congr 2
  rw [Fintype.sum_prod_type, Fintype.sum_prod_type, sum_pad]
  · refine sum_congr rfl fun a _ => ?_
    rw [sum_pad]
    · refine sum_congr rfl fun b _ => ?_
      dsimp only
      rw [grid_pad _ _ _ _ hN, grid_pad _ _ _ _ hN]
    · intro b hb
      dsimp only
      rw [hdark _ (.inl (grid_pad_out hpr hb1 hN b hb)), zero_mul]
  · intro a ha
    refine sum_eq_zero fun b _ => ?_
    dsimp only
    rw [hdark _ (.inr (grid_pad_out hpr hb1 hN a ha)), zero_mul]

/-- **C134** for the telescopes and illuminations of the package, all resolutions and all larger boxes. -/
theorem C134_package (I K : List ℝ) (dz wavel pr bf : ℝ) (illum : ∀ ι : Type, Illum ι) (tel : ∀ ι : Type, TelGeo ι)
    (h : Spec.Shipped pr I illum tel) (h0 : 0 < pr) (hbf : 2 ≤ bf) (hw : wavel ≠ 0) (o : ℕ)
    (hK : K.length = (o + 1) * (o + 2) / 2) :
    ∃ A : ℝ × ℝ → ℂ, Spec.IsAperture A I K dz wavel illum tel ∧ ∀ N, 2 ≤ N →
      ∃ P : Pattern N, radiationPattern I K dz wavel (illum _) (tel _) bf = .ok P ∧
        (∀ s t, Spec.gridBeam (fun q => A (Spec.gridPoint pr bf N q.2, Spec.gridPoint pr bf N q.1)) pr bf wavel s t =
          Spec.between P pr bf wavel s t) ∧
        ∀ k, ∃ P' : Pattern (N + 2 * k),
          radiationPattern I K dz wavel (illum _) (tel _) (bf * (((N + 2 * k : ℕ) : ℝ) - 1) / ((N : ℝ) - 1)) = .ok P' ∧
          ∀ i j, ‖P'.F (i, j)‖ ^ 2 = Spec.between P pr bf wavel (P'.u j) (P'.v i) := by
  obtain ⟨hp, A, hA, hR⟩ := C96_shipped I K dz wavel pr 1 illum tel h h0 le_rfl o hK
  have hdark : ∀ p : ℝ × ℝ, pr < |p.1| ∨ pr < |p.2| → A p = 0 := by
    have := hR.2.1
    rwa [mul_one] at this
  refine ⟨A, hA, fun N hN => ?_⟩
  obtain ⟨P, hP⟩ := (C14_ok_iff I K dz wavel N hN (illum _) (tel _) bf).2 ⟨_, hA _ _ _⟩
  refine ⟨P, hP, fun s t => ?_, fun k => ?_⟩
  · have e1 := C134_formula I K dz wavel N (illum _) (tel _) bf (by rw [hp]; exact h0) hbf hw P hP _ (hA _ _ _)
      (fun q hq => hdark _ (by rw [hp] at hq; rw [hp]; exact hq)) s t
    rw [hp] at e1
    exact e1
  · obtain ⟨P', hP'⟩ := (C14_ok_iff I K dz wavel (N + 2 * k) (by omega) (illum _) (tel _)
      (bf * (((N + 2 * k : ℕ) : ℝ) - 1) / ((N : ℝ) - 1))).2 ⟨_, hA _ _ _⟩
    exact ⟨P', hP', C134_padding I K dz wavel pr bf illum tel A h0 hbf hw hp hA hdark N k P hP P' hP'⟩

/-- The Effelsberg telescope with a box of five times the dish (the value of the scripts) and 128 pixels across; the
pixels of a box of fifteen times the dish with about three times as many. -/
example : ∃ P : Pattern 128, radiationPattern [1, -14.5, 1.4, 0, 0] [0, 0.1, 0.2] 0.022 0.009 illumParabolic
    ⟨blockEffelsberg 0.17, opdEffelsberg, 50⟩ 5 = .ok P ∧
    ∃ P' : Pattern (128 + 2 * 127), radiationPattern [1, -14.5, 1.4, 0, 0] [0, 0.1, 0.2] 0.022 0.009 illumParabolic
      ⟨blockEffelsberg 0.17, opdEffelsberg, 50⟩ (5 * (((128 + 2 * 127 : ℕ) : ℝ) - 1) / (((128 : ℕ) : ℝ) - 1)) = .ok P' ∧
      (5 : ℝ) * (((128 + 2 * 127 : ℕ) : ℝ) - 1) / (((128 : ℕ) : ℝ) - 1) = 15 ∧
      ∀ i j, ‖P'.F (i, j)‖ ^ 2 = Spec.between P 50 5 0.009 (P'.u j) (P'.v i) := by
  obtain ⟨A, -, h⟩ := C134_package [1, -14.5, 1.4, 0, 0] [0, 0.1, 0.2] 0.022 0.009 50 5 (fun _ => illumParabolic)
    (fun _ => ⟨blockEffelsberg 0.17, opdEffelsberg, 50⟩)
    (.effelsbergParabolic 0.17 1 (-14.5) 1.4 0 0 (by norm_num) (by linarith [Real.two_le_pi]) (by norm_num))
    (by norm_num) (by norm_num) (by norm_num) 1 rfl
  obtain ⟨P, hP, -, h'⟩ := h 128 (by norm_num)
  obtain ⟨P', hP', he⟩ := h' 127
  exact ⟨P, hP, P', hP', by norm_num, he⟩

/-! ## A box of the size of the dish is too small -/

/-- A dish of radius one that is dark but for two of the three points of the grid along the `x` axis. -/
noncomputable def Spec.twoHoles (a b : ℝ) : TelGeo (Fin 3 × Fin 3) :=
  ⟨fun x y => open Classical in .ok fun q => if y q = 0 ∧ (x q = a ∨ x q = b) then 1 else 0, fun _ _ _ => .ok fun _ => 0, 1⟩

/-- **C134** with a box of the size of the dish two apertures can have the same power at all pixels and not at all
between them: holes at -1 and 0, and holes at -1 and 1. -/
theorem C134_alias : ∃ (P P' : Pattern 3) (E E' : Fin 3 × Fin 3 → ℂ),
    radiationPattern [] [0] 0 2 (fun _ _ _ _ => .ok fun _ => 1) (Spec.twoHoles (-1) 0) 1 = .ok P ∧
    radiationPattern [] [0] 0 2 (fun _ _ _ _ => .ok fun _ => 1) (Spec.twoHoles (-1) 1) 1 = .ok P' ∧
    aperture (fun q => Spec.gridPoint 1 1 3 q.2) (fun q => Spec.gridPoint 1 1 3 q.1) [] [0] 0 2
      (fun _ _ _ _ => .ok fun _ => 1) (Spec.twoHoles (-1) 0) = .ok E ∧
    aperture (fun q => Spec.gridPoint 1 1 3 q.2) (fun q => Spec.gridPoint 1 1 3 q.1) [] [0] 0 2
      (fun _ _ _ _ => .ok fun _ => 1) (Spec.twoHoles (-1) 1) = .ok E' ∧
    (∀ q, ‖P.F q‖ = ‖P'.F q‖) ∧ Spec.gridBeam E 1 1 2 1 0 = 0 ∧ Spec.gridBeam E' 1 1 2 1 0 = 4 := by
  classical
  have g : ∀ i : Fin 3, Spec.gridPoint 1 1 3 i = ((i : ℕ) : ℝ) - 1 := by
    intro i
    unfold Spec.gridPoint
    norm_num
    ring
  have ap : ∀ a b : ℝ, aperture (fun q => Spec.gridPoint 1 1 3 q.2) (fun q => Spec.gridPoint 1 1 3 q.1) [] [0] 0 2
      (fun _ _ _ _ => .ok fun _ => 1) (Spec.twoHoles a b) = .ok fun q => if ((q.1 : ℕ) : ℝ) = 1 ∧
        (((q.2 : ℕ) : ℝ) - 1 = a ∨ ((q.2 : ℕ) : ℝ) - 1 = b) then 1 else 0 := by
    intro a b
    refine aperture_ok_iff.2 ⟨_, _, _, _, rfl, wavefront_ok _ _ _ 0 rfl, rfl, rfl, ?_⟩
    funext q
    have hw : ∀ r t, wfVal 0 [0] r t = 0 := by
      intro r t
      simp [wfVal, tri]
    simp only [hw, g, sub_eq_zero]
    split_ifs <;> simp
  have pat : ∀ a b : ℝ, ∃ P : Pattern 3, radiationPattern [] [0] 0 2 (fun _ _ _ _ => .ok fun _ => 1)
      (Spec.twoHoles a b) 1 = .ok P ∧ P.F = fftshift2 (fft2 fun q => if ((q.1 : ℕ) : ℝ) = 1 ∧
        (((q.2 : ℕ) : ℝ) - 1 = a ∨ ((q.2 : ℕ) : ℝ) - 1 = b) then 1 else 0) := by
    intro a b
    rw [radiationPattern_eq _ _ _ _ (by norm_num), linspace_grid]
    rw [show (Spec.twoHoles a b).pr = 1 from rfl, ap]
    exact ⟨_, rfl, rfl⟩
  obtain ⟨P, hP, hF⟩ := pat (-1) 0
  obtain ⟨P', hP', hF'⟩ := pat (-1) 1
  refine ⟨P, P', _, _, hP, hP', ap _ _, ap _ _, ?_, ?_, ?_⟩
  · intro q
    rw [hF, hF']
    dsimp only [fftshift2]
    generalize (shiftIdx q.1, shiftIdx q.2) = r
    rw [fft2_sum, fft2_sum, Fintype.sum_prod_type, Fintype.sum_prod_type]
    simp only [Fin.sum_univ_three]
    norm_num
    generalize ((r.1 : ℕ) : ℤ) = x
    generalize ((r.2 : ℕ) : ℤ) = y
    have h3 : ew 3 (x + y * 2) = ew 3 (y * 2) * ew 3 x := by rw [add_comm, ew_add]
    have h4 : ew 3 x = ew 3 (y * 2) * ew 3 (x + y) := by
      rw [← ew_add]
      exact ew_congr (by norm_num) (Int.modEq_iff_dvd.2 ⟨y, by push_cast; ring⟩)
    rw [h3]
    nth_rewrite 2 [h4]
    rw [← mul_add, norm_mul, ew_norm, one_mul, add_comm]
  · unfold Spec.gridBeam
    rw [Fintype.sum_prod_type]
    simp only [Fin.sum_univ_three, g]
    norm_num
    rw [show 2 * (Real.pi : ℂ) * Complex.I * (1 / 2) = Real.pi * Complex.I by ring, Complex.exp_pi_mul_I]
    norm_num
  · unfold Spec.gridBeam
    rw [Fintype.sum_prod_type]
    simp only [Fin.sum_univ_three, g]
    norm_num
    rw [show 2 * (Real.pi : ℂ) * Complex.I * (1 / 2) = Real.pi * Complex.I by ring, Complex.exp_neg, Complex.exp_pi_mul_I]
    norm_num

end Verif.Props
