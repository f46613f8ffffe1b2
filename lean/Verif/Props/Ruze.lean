import Verif.Props.Optics
import Verif.Props.Rms
import Verif.Props.Illumination
import Mathlib.Analysis.SpecialFunctions.Trigonometric.Bounds

/-! # C100: Ruze's efficiency and the on-axis gain of the computed beam -/

namespace Verif.Props

open Verif Verif.Np Verif.Zernike Verif.Aperture Verif.MathFn Finset

/-! ## Specification -/

/-- The mean of `f` with the weights `a`. -/
noncomputable def Spec.wmean {ι : Type} [Fintype ι] (a f : ι → ℝ) : ℝ := (∑ q, a q * f q) / ∑ q, a q

/-! ## Elementary bounds -/

theorem cos_le_quartic (d : ℝ) : Real.cos d ≤ 1 - d ^ 2 / 2 + d ^ 4 / 24 := by
  have key : ∀ y : ℝ, 0 ≤ y → Real.cos (2 * y) ≤ 1 - 2 * y ^ 2 + 2 / 3 * y ^ 4 := by
    intro y hy
    rcases le_or_gt (y ^ 2) 6 with h | h
    · have h1 := Real.sin_ge_sub_cube hy
      have h2 : 0 ≤ y - y ^ 3 / 6 := by nlinarith
      have h3 : (y - y ^ 3 / 6) ^ 2 ≤ Real.sin y ^ 2 := by gcongr
      rw [Real.cos_two_mul, Real.cos_sq']
      nlinarith [sq_nonneg (y ^ 3)]
    · have := Real.cos_le_one (2 * y)
      nlinarith [sq_nonneg y]
  have h := key (|d| / 2) (by positivity)
  rw [show 2 * (|d| / 2) = |d| by ring, Real.cos_abs] at h
  have h2 : |d| ^ 2 = d ^ 2 := sq_abs d
  have h4 : |d| ^ 4 = d ^ 4 := by
    rw [show 4 = 2 * 2 by norm_num, pow_mul, pow_mul, h2]
  calc Real.cos d ≤ 1 - 2 * (|d| / 2) ^ 2 + 2 / 3 * (|d| / 2) ^ 4 := h
    _ = 1 - |d| ^ 2 / 2 + |d| ^ 4 / 24 := by ring
    _ = _ := by rw [h2, h4]

theorem exp_neg_le_quad {t : ℝ} (ht : 0 ≤ t) : Real.exp (-t) ≤ 1 - t + t ^ 2 / 2 := by
  -- `1 ≤ (1 - t + t²/2) (1 + t + t²/2) ≤ (1 - t + t²/2) exp t`
  have h1 := Real.quadratic_le_exp_of_nonneg ht
  have h2 : 0 < 1 - t + t ^ 2 / 2 := by nlinarith [sq_nonneg (t - 1)]
  rw [Real.exp_neg, inv_le_iff_one_le_mul₀ (Real.exp_pos t)]
  nlinarith [sq_nonneg (t ^ 2)]

theorem normSq_phasors {ι : Type} [Fintype ι] (a phi : ι → ℝ) :
    ‖∑ q, (a q : ℂ) * Complex.exp ((phi q : ℂ) * Complex.I)‖ ^ 2 =
      (∑ q, a q * Real.cos (phi q)) ^ 2 + (∑ q, a q * Real.sin (phi q)) ^ 2 := by
  rw [← Complex.normSq_eq_norm_sq, Complex.normSq_apply, Complex.re_sum, Complex.im_sum, ← sq, ← sq]
  congr 2 <;> refine sum_congr rfl fun q _ => ?_
  · rw [Complex.re_ofReal_mul, Complex.exp_ofReal_mul_I_re]
  · rw [Complex.im_ofReal_mul, Complex.exp_ofReal_mul_I_im]

theorem normSq_pairs {ι : Type} [Fintype ι] (a phi : ι → ℝ) :
    ‖∑ q, (a q : ℂ) * Complex.exp ((phi q : ℂ) * Complex.I)‖ ^ 2 =
      ∑ p, ∑ q, a p * a q * Real.cos (phi p - phi q) := by
  rw [normSq_phasors, sq, sq, Finset.sum_mul_sum, Finset.sum_mul_sum, ← Finset.sum_add_distrib]
  refine sum_congr rfl fun p _ => ?_
  rw [← Finset.sum_add_distrib]
  refine sum_congr rfl fun q _ => ?_
  rw [Real.cos_sub]
  ring

/-- The sum of weighted phasors. -/
theorem ruze_core {ι : Type} [Fintype ι] (a phi : ι → ℝ) (ha : ∀ q, 0 ≤ a q) (hs : 0 < ∑ q, a q) (M : ℝ)
    (hM : ∀ q, a q ≠ 0 → |phi q| ≤ M) :
    Real.exp (-Spec.wmean a fun q => phi q ^ 2) - (Spec.wmean a fun q => phi q ^ 2) ^ 2 / 4 ≤
      (‖∑ q, (a q : ℂ) * Complex.exp ((phi q : ℂ) * Complex.I)‖ / ∑ q, a q) ^ 2 ∧
    (‖∑ q, (a q : ℂ) * Complex.exp ((phi q : ℂ) * Complex.I)‖ / ∑ q, a q) ^ 2 ≤
      Real.exp (-Spec.wmean a fun q => phi q ^ 2) + Spec.wmean a phi ^ 2 +
        M ^ 2 / 3 * Spec.wmean a fun q => phi q ^ 2 := by
  set S := ∑ q, a q with hS
  set t := Spec.wmean a fun q => phi q ^ 2 with ht
  set μ := Spec.wmean a phi with hμ
  have htS : ∑ q, a q * phi q ^ 2 = t * S := by
    rw [ht, Spec.wmean, div_mul_cancel₀ _ hs.ne']
  have hμS : ∑ q, a q * phi q = μ * S := by
    rw [hμ, Spec.wmean, div_mul_cancel₀ _ hs.ne']
  have ht0 : 0 ≤ t := div_nonneg (sum_nonneg fun q _ => mul_nonneg (ha q) (sq_nonneg _)) hs.le
  have hexp := exp_neg_le_quad ht0
  have hexp' := Real.one_sub_le_exp_neg t
  rw [div_pow]
  have hS2 : 0 < S ^ 2 := by positivity
  constructor
  · rw [le_div_iff₀ hS2]
    have hre : (1 - t / 2) * S ≤ ∑ q, a q * Real.cos (phi q) := by
      have : ∑ q, a q * (1 - phi q ^ 2 / 2) ≤ ∑ q, a q * Real.cos (phi q) :=
        sum_le_sum fun q _ => mul_le_mul_of_nonneg_left (Real.one_sub_sq_div_two_le_cos) (ha q)
      have e : ∑ q, a q * (1 - phi q ^ 2 / 2) = S - (∑ q, a q * phi q ^ 2) / 2 := by
        rw [hS, Finset.sum_div, ← Finset.sum_sub_distrib]
        exact sum_congr rfl fun q _ => by ring
      rw [e, htS] at this
      linarith
    rcases le_or_gt t 2 with h2 | h2
    · have h3 : ((1 - t / 2) * S) ^ 2 ≤ (∑ q, a q * Real.cos (phi q)) ^ 2 := by
        have : 0 ≤ (1 - t / 2) * S := mul_nonneg (by linarith) hs.le
        gcongr
      rw [normSq_phasors]
      have h4 : (Real.exp (-t) - t ^ 2 / 4) * S ^ 2 ≤ (1 - t / 2) ^ 2 * S ^ 2 :=
        mul_le_mul_of_nonneg_right (by nlinarith) hS2.le
      nlinarith [sq_nonneg (∑ q, a q * Real.sin (phi q))]
    · have h1 : Real.exp (-t) ≤ 1 := Real.exp_le_one_iff.2 (by linarith)
      have h3 : Real.exp (-t) - t ^ 2 / 4 ≤ 0 := by nlinarith
      exact (mul_nonpos_of_nonpos_of_nonneg h3 hS2.le).trans (by positivity)
  · rw [div_le_iff₀ hS2, normSq_pairs]
    have hpair : ∀ p q, a p * a q * Real.cos (phi p - phi q) ≤
        a p * a q * (1 - (phi p - phi q) ^ 2 / 2 * (1 - M ^ 2 / 3)) := by
      intro p q
      by_cases hp : a p = 0
      · rw [hp, zero_mul, zero_mul, zero_mul]
      by_cases hq : a q = 0
      · rw [hq, mul_zero, zero_mul, zero_mul]
      refine mul_le_mul_of_nonneg_left ?_ (mul_nonneg (ha p) (ha q))
      have hd : (phi p - phi q) ^ 2 ≤ 4 * M ^ 2 := by
        have h1 := abs_le.1 (hM p hp)
        have h2 := abs_le.1 (hM q hq)
        nlinarith
      have := cos_le_quartic (phi p - phi q)
      nlinarith [sq_nonneg (phi p - phi q)]
    refine (sum_le_sum fun p _ => sum_le_sum fun q _ => hpair p q).trans ?_
    have e : ∑ p, ∑ q, a p * a q * (1 - (phi p - phi q) ^ 2 / 2 * (1 - M ^ 2 / 3)) =
        S ^ 2 - (1 - M ^ 2 / 3) * (t - μ ^ 2) * S ^ 2 := by
      have e1 : ∀ p q, a p * a q * (1 - (phi p - phi q) ^ 2 / 2 * (1 - M ^ 2 / 3)) =
          a p * a q - (1 - M ^ 2 / 3) / 2 * (a p * phi p ^ 2 * a q) -
            (1 - M ^ 2 / 3) / 2 * (a p * (a q * phi q ^ 2)) + (1 - M ^ 2 / 3) * (a p * phi p * (a q * phi q)) :=
        fun p q => by ring
      simp only [e1, Finset.sum_add_distrib, Finset.sum_sub_distrib, ← Finset.mul_sum, ← Finset.sum_mul]
      rw [htS, hμS, ← hS]
      ring
    rw [e]
    have hv : 0 ≤ μ ^ 2 := sq_nonneg μ
    have hm2 : 0 ≤ M ^ 2 := sq_nonneg M
    have : 1 - (1 - M ^ 2 / 3) * (t - μ ^ 2) ≤ Real.exp (-t) + μ ^ 2 + M ^ 2 / 3 * t := by nlinarith
    nlinarith

/-! ## The beam -/

theorem sum_grid {N : ℕ} {β : Type} [AddCommMonoid β] (f : Fin N × Fin N → β) : ∑ i, ∑ j, f (i, j) = ∑ q, f q :=
  (Fintype.sum_prod_type f).symm

/-- **C100.**  Whatever the illumination: with the phase counted from any reference `phi0` and means over the aperture
with the amplitudes as weights, the gain on the axis is not more than a quarter of the fourth power of the root mean square
phase below Ruze's value, and above it by at most the square of the mean and a third of the mean square times the square
of the largest phase. -/
theorem C100_weighted (I K : List ℝ) (dz wavel : ℝ) (N : ℕ) (illum : Illum (Fin N × Fin N))
    (tel : TelGeo (Fin N × Fin N)) (bf : ℝ) (P : Pattern N) (a phi : Fin N × Fin N → ℝ)
    (h : radiationPattern I K dz wavel illum tel bf = .ok P)
    (hp : Spec.Parts I K dz wavel illum tel bf a phi) (ha : ∀ q, 0 ≤ a q) (hl : ∃ q, a q ≠ 0)
    (phi0 M : ℝ) (hM : ∀ q, a q ≠ 0 → |phi q - phi0| ≤ M) (c : Fin N) (hc : (c : ℕ) = N / 2) :
    Real.exp (-Spec.wmean a fun q => (phi q - phi0) ^ 2) - (Spec.wmean a fun q => (phi q - phi0) ^ 2) ^ 2 / 4 ≤
      (‖P.F (c, c)‖ / ∑ q, a q) ^ 2 ∧
    (‖P.F (c, c)‖ / ∑ q, a q) ^ 2 ≤
      Real.exp (-Spec.wmean a fun q => (phi q - phi0) ^ 2) + (Spec.wmean a fun q => phi q - phi0) ^ 2 +
        M ^ 2 / 3 * Spec.wmean a fun q => (phi q - phi0) ^ 2 := by
  have hs : 0 < ∑ q, a q := by
    obtain ⟨q, hq⟩ := hl
    exact Finset.sum_pos' (fun q _ => ha q) ⟨q, mem_univ q, lt_of_le_of_ne (ha q) hq.symm⟩
  have e : ‖P.F (c, c)‖ = ‖∑ q, (a q : ℂ) * Complex.exp (((phi q - phi0 : ℝ) : ℂ) * Complex.I)‖ := by
    rw [centre_value h hp c hc, sum_grid fun q => (a q : ℂ) * Complex.exp ((phi q : ℂ) * Complex.I)]
    have : ∑ q, (a q : ℂ) * Complex.exp ((phi q : ℂ) * Complex.I) =
        Complex.exp ((phi0 : ℂ) * Complex.I) * ∑ q, (a q : ℂ) * Complex.exp (((phi q - phi0 : ℝ) : ℂ) * Complex.I) := by
      rw [Finset.mul_sum]
      refine sum_congr rfl fun q _ => ?_
      rw [mul_left_comm, ← Complex.exp_add]
      congr 2
      push_cast
      ring
    rw [this, norm_mul, Complex.norm_exp_ofReal_mul_I, one_mul]
  rw [e]
  exact ruze_core a (fun q => phi q - phi0) ha hs M hM

theorem inDisc_iff {N : ℕ} {pr : ℝ} (hpr : 0 < pr) (q : Fin N × Fin N) :
    Spec.inDisc N q ↔ Spec.gridPoint pr 1 N q.2 ^ 2 + Spec.gridPoint pr 1 N q.1 ^ 2 ≤ pr ^ 2 := by
  have e : ∀ i : Fin N, Spec.gridPoint pr 1 N i = pr * (-1 + 2 * ((i : ℕ) : ℝ) / ((N : ℝ) - 1)) := by
    intro i
    unfold Spec.gridPoint
    ring
  rw [e, e, mul_pow, mul_pow, ← mul_add, mul_le_iff_le_one_right (by positivity)]
  rfl

theorem inDisc_mid {N : ℕ} (hN : 3 ≤ N) (c : Fin N) (hc : (c : ℕ) = N / 2) : Spec.inDisc N (c, c) := by
  unfold Spec.inDisc
  have hN' : (3 : ℝ) ≤ N := by exact_mod_cast hN
  have h1 : |-1 + 2 * ((c : ℕ) : ℝ) / ((N : ℝ) - 1)| ≤ 1 / 2 := by
    have hd : (0 : ℝ) < (N : ℝ) - 1 := by linarith
    have e : -1 + 2 * ((c : ℕ) : ℝ) / ((N : ℝ) - 1) = (2 * ((c : ℕ) : ℝ) - ((N : ℝ) - 1)) / ((N : ℝ) - 1) := by
      field_simp
      ring
    rw [e, abs_div, abs_of_pos hd, div_le_iff₀ hd]
    have h2 : 2 * (c : ℕ) ≤ N := by omega
    have h3 : N ≤ 2 * (c : ℕ) + 1 := by omega
    have h2' : 2 * ((c : ℕ) : ℝ) ≤ N := by exact_mod_cast h2
    have h3' : (N : ℝ) ≤ 2 * ((c : ℕ) : ℝ) + 1 := by exact_mod_cast h3
    rw [abs_of_nonneg (by linarith)]
    linarith
  have h2 := abs_le.1 h1
  nlinarith

/-- **C100.**  Ruze's efficiency of the returned phase map and the gain of the computed beam.  For an evenly lit dish in
focus, on the grid of the phase map: `e_rs` of the map (with or without the piston term) is at most `rms⁴/4` above the
power on the axis relative to that of the dish without errors, and below it by at most the square of the mean phase plus
`M² rms² / 3` for phases up to `M`. -/
theorem C100_ruze (I K : List ℝ) (n : ℕ) (hK : K.length = (n + 1) * (n + 2) / 2) (wavel : ℝ) {N : ℕ} (hN : 3 ≤ N)
    (illum : Illum (Fin N × Fin N)) (tel : TelGeo (Fin N × Fin N)) (hpr : 0 < tel.pr) (B Ea : Fin N × Fin N → ℝ)
    (hB : tel.block (fun q => Spec.gridPoint tel.pr 1 N q.2) (fun q => Spec.gridPoint tel.pr 1 N q.1) = .ok B)
    (hI : illum (fun q => Spec.gridPoint tel.pr 1 N q.2) (fun q => Spec.gridPoint tel.pr 1 N q.1) I tel.pr = .ok Ea)
    (hopd : tel.opd (fun q => Spec.gridPoint tel.pr 1 N q.2) (fun q => Spec.gridPoint tel.pr 1 N q.1) 0 =
      .ok fun _ => 0)
    (A : ℝ) (hA : 0 < A) (hin : ∀ q, Spec.inDisc N q → B q * Ea q = A) (hout : ∀ q, ¬ Spec.inDisc N q → B q * Ea q = 0)
    (P P0 : Pattern N) (h : radiationPattern I K 0 wavel illum tel 1 = .ok P)
    (h0 : radiationPattern I (List.replicate ((n + 1) * (n + 2) / 2) 0) 0 wavel illum tel 1 = .ok P0)
    (piston : Bool) (Φ : PhaseMap N) (hΦ : phase K tel.pr piston true N = .ok Φ) (M : ℝ) (hM : ∀ q, |Φ.phi q| ≤ M)
    (c : Fin N) (hc : (c : ℕ) = N / 2) :
    ∃ e r μ, (eRs (.d2 N N fun q => some (Φ.phi q)) true).1 = .ok (some e) ∧
      (rms (.d2 N N fun q => some (Φ.phi q)) true).1 = .ok (some r) ∧
      (open Classical in μ * (univ.filter (Spec.inDisc N)).card = ∑ q ∈ univ.filter (Spec.inDisc N), Φ.phi q) ∧
      e - r ^ 4 / 4 ≤ (‖P.F (c, c)‖ / ‖P0.F (c, c)‖) ^ 2 ∧
      (‖P.F (c, c)‖ / ‖P0.F (c, c)‖) ^ 2 ≤ e + μ ^ 2 + M ^ 2 * r ^ 2 / 3 := by
  classical
  have hdisc : Spec.discEntries (fun q => some (Φ.phi q)) = univ.filter (Spec.inDisc N) := by
    unfold Spec.discEntries
    ext q
    simp
  set D := univ.filter (Spec.inDisc N) with hD
  have hne : D.Nonempty := ⟨(c, c), by simpa [hD] using inDisc_mid hN c hc⟩
  have hcard : (0 : ℝ) < D.card := by exact_mod_cast hne.card_pos
  obtain ⟨r, hr, hr0, hr2⟩ := C33_circ (fun q => some (Φ.phi q)) (by rw [hdisc]; exact hne)
  rw [hdisc] at hr2
  simp only [Option.getD_some] at hr2
  -- the light and the phase
  obtain ⟨a, phi, hp⟩ := C70_parts I K 0 wavel N illum tel 1 P h
  obtain ⟨B', W, delta, Ea', hB', hI', ho', hW, ha, hphi⟩ := hp
  have hp : Spec.Parts I K 0 wavel illum tel 1 a phi := ⟨B', W, delta, Ea', hB', hI', ho', hW, ha, hphi⟩
  obtain rfl : B = B' := by rw [hB] at hB'; exact Except.ok.inj hB'
  obtain rfl : Ea = Ea' := by rw [hI] at hI'; exact Except.ok.inj hI'
  obtain rfl : (fun _ => 0) = delta := by rw [hopd] at ho'; exact Except.ok.inj ho'
  have ha' : ∀ q, a q = if q ∈ D then A else 0 := by
    intro q
    rw [ha q]
    by_cases hq : Spec.inDisc N q
    · rw [if_pos (by simpa [hD] using hq), hin q hq]
    · rw [if_neg (by simpa [hD] using hq), hout q hq]
  have hsum : ∀ f : Fin N × Fin N → ℝ, ∑ q, a q * f q = A * ∑ q ∈ D, f q := by
    intro f
    simp only [ha', ite_mul, zero_mul]
    rw [Finset.sum_ite_mem, Finset.univ_inter, Finset.mul_sum]
  have hS : ∑ q, a q = A * D.card := by
    have := hsum fun _ => 1
    simpa using this
  have hwm : ∀ f : Fin N × Fin N → ℝ, Spec.wmean a f = (∑ q ∈ D, f q) / D.card := by
    intro f
    rw [Spec.wmean, hsum, hS, mul_div_mul_left _ _ hA.ne']
  -- the reference beam
  have hP0 : ‖P0.F (c, c)‖ = ∑ q, a q := by
    rw [(C70_perfect I n 0 wavel N illum tel 1 P0 B Ea h0 hB hI hopd (fun q => by
      by_cases hq : Spec.inDisc N q
      · rw [hin q hq]; exact hA.le
      · rw [hout q hq]) c hc).1, sum_grid fun q => B q * Ea q]
    exact sum_congr rfl fun q _ => (ha q).symm
  -- the phase map
  have hKt : K.length = tri (n + 1) := hK
  obtain ⟨K', hK'l, hK', hph⟩ := phase_ok K tel.pr piston true N n hKt (by simp)
  rw [hΦ] at hph
  have hphΦ := congrArg PhaseMap.phi (Except.ok.inj hph)
  simp only at hphΦ
  have hlin : linspace (-tel.pr) tel.pr N = Spec.gridPoint tel.pr 1 N := by
    rw [← linspace_grid, mul_one]
  have hWq : ∀ q, W q = wfVal n K (Real.sqrt (Spec.gridPoint tel.pr 1 N q.2 ^ 2 +
        Spec.gridPoint tel.pr 1 N q.1 ^ 2) / tel.pr)
      (arctan2 (Spec.gridPoint tel.pr 1 N q.1) (Spec.gridPoint tel.pr 1 N q.2)) := by
    rw [wavefront_ok _ _ K n hKt] at hW
    exact fun q => congrFun (Except.ok.inj hW).symm q
  have hpist : ∃ d, ∀ rho theta, wfVal n K rho theta = wfVal n K' rho theta + d := by
    have hl : 0 < K.length := by rw [hKt, tri_succ]; omega
    obtain ⟨k, Ks, rfl⟩ := List.exists_cons_of_length_pos hl
    obtain ⟨k', Ks', rfl⟩ := List.exists_cons_of_length_pos (hK'l ▸ hl)
    have hKs : Ks' = Ks := by
      apply List.ext_getElem
      · simpa using hK'l
      · intro i h1 h2
        have := hK' (i + 1)
        simpa [Spec.usedCoeff, h1, h2] using this
    rw [hKs]
    refine ⟨k - k', fun rho theta => ?_⟩
    rw [← wfVal_piston]
    congr 2
    ring
  obtain ⟨d, hd⟩ := hpist
  have hphiq : ∀ q ∈ D, phi q - 2 * Real.pi * d = Φ.phi q := by
    intro q hq
    have hq' : Spec.inDisc N q := by simpa [hD] using hq
    rw [hphΦ, hlin, hphi q, hWq, hd]
    simp only
    rw [if_neg (not_lt.2 ((inDisc_iff hpr q).1 hq'))]
    ring
  have hmem : ∀ q, a q ≠ 0 → q ∈ D := by
    intro q hq
    by_contra hq'
    exact hq (by rw [ha', if_neg hq'])
  obtain ⟨h1, h2⟩ := C100_weighted I K 0 wavel N illum tel 1 P a phi h hp
    (fun q => by rw [ha']; split_ifs; exacts [hA.le, le_rfl])
    ⟨(c, c), by rw [ha', if_pos (by simpa [hD] using inDisc_mid hN c hc)]; exact hA.ne'⟩ (2 * Real.pi * d) M
    (fun q hq => by rw [hphiq q (hmem q hq)]; exact hM q) c hc
  have e1 : Spec.wmean a (fun q => (phi q - 2 * Real.pi * d) ^ 2) = r ^ 2 := by
    rw [hwm, sum_congr rfl fun q hq => by rw [hphiq q hq], ← hr2, mul_div_cancel_right₀ _ hcard.ne']
  have e2 : Spec.wmean a (fun q => phi q - 2 * Real.pi * d) = (∑ q ∈ D, Φ.phi q) / D.card := by
    rw [hwm, sum_congr rfl fun q hq => hphiq q hq]
  rw [e1, ← hP0] at h1
  rw [e1, e2, ← hP0] at h2
  refine ⟨Real.exp (-r ^ 2), r, (∑ q ∈ D, Φ.phi q) / D.card, ?_, hr, div_mul_cancel₀ _ hcard.ne', ?_, ?_⟩
  · unfold eRs
    simp only [hr]
    rfl
  · convert h1 using 2
    ring
  · convert h2 using 2
    ring

/-- A dish of radius 50 m, lit evenly by a parabolic illumination without taper, with any coefficients of order 5. -/
example (K : List ℝ) (hK : K.length = 21) : ∃ (P P0 : Pattern 256) (e r : ℝ),
    radiationPattern [1, 0, 2, 0, 0] K 0 0.009 illumParabolic
      ⟨fun x y => .ok fun q => open Classical in if x q ^ 2 + y q ^ 2 ≤ 50 ^ 2 then 1 else 0,
        fun _ _ dz => .ok fun _ => dz, 50⟩ 1 = .ok P ∧
    ∃ Φ : PhaseMap 256, phase K 50 false true 256 = .ok Φ ∧
      (eRs (.d2 256 256 fun q => some (Φ.phi q)) true).1 = .ok (some e) ∧
      e - r ^ 4 / 4 ≤ (‖P.F (128, 128)‖ / ‖P0.F (128, 128)‖) ^ 2 := by
  classical
  set tel : TelGeo (Fin 256 × Fin 256) := ⟨fun x y => .ok fun q => if x q ^ 2 + y q ^ 2 ≤ 50 ^ 2 then 1 else 0,
        fun _ _ dz => .ok fun _ => dz, 50⟩ with htel
  have hI : ∃ Ea, illumParabolic (fun q : Fin 256 × Fin 256 => Spec.gridPoint tel.pr 1 256 q.2)
      (fun q => Spec.gridPoint tel.pr 1 256 q.1) [1, 0, 2, 0, 0] tel.pr = .ok Ea ∧ ∀ q, Ea q = 1 := by
    refine ⟨_, rfl, fun q => ?_⟩
    have := pedestal_outside_int 1 (.bare 0) 2 (by norm_num) (.bare 0) (.bare 0) tel.pr (by norm_num [htel])
      (Spec.gridPoint tel.pr 1 256 q.2) (Spec.gridPoint tel.pr 1 256 q.1)
    simp only [taper, zero_div, Real.rpow_zero, sub_self, zero_mul, add_zero, one_mul] at this
    exact_mod_cast this
  obtain ⟨Ea, hI, hEa⟩ := hI
  have hex : ∀ L : List ℝ, L.length = 21 → ∃ P, radiationPattern [1, 0, 2, 0, 0] L 0 0.009 illumParabolic tel 1 = .ok P := by
    intro L hL
    rw [C14_ok_iff _ _ _ _ _ (by norm_num)]
    exact ⟨_, aperture_ok_iff.2 ⟨_, _, _, _, rfl, wavefront_ok _ _ _ 5 (by rw [hL]; rfl), rfl, rfl, rfl⟩⟩
  obtain ⟨P, hP⟩ := hex K hK
  obtain ⟨P0, hP0⟩ := hex (List.replicate 21 0) (by simp)
  obtain ⟨K', -, -, hΦ⟩ := phase_ok K 50 false true 256 5 (by rw [hK]; rfl) (by simp)
  obtain ⟨M, hM⟩ := Finite.exists_le fun q => |(PhaseMap.mk (N := 256) _ _ _).phi q|
  obtain ⟨e, r, -, h1, -, -, h2, -⟩ := C100_ruze [1, 0, 2, 0, 0] K 5 (by rw [hK]) 0.009 (by norm_num) illumParabolic tel
    (by norm_num [htel]) _ Ea rfl hI rfl 1 one_pos
    (fun q hq => by
      rw [hEa, mul_one]
      exact if_pos ((inDisc_iff (pr := 50) (by norm_num) q).1 hq))
    (fun q hq => by
      rw [hEa, mul_one]
      exact if_neg fun h => hq ((inDisc_iff (pr := 50) (by norm_num) q).2 h))
    P P0 hP hP0 false _ hΦ M hM 128 (by norm_num)
  exact ⟨P, P0, e, r, hP, _, hΦ, h1, h2⟩

end Verif.Props
