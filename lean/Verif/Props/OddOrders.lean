import Verif.Props.EvenOrders
import Verif.Props.Sampling

/-!
# C136: the in-focus map alone settles the odd orders
-/

namespace Verif.Props

open Verif Verif.Np Verif.Aperture Verif.MathFn Verif.Core Verif.Telgeometry Verif.Fourier Finset

/-! ## Two apertures whose transforms have a zero product at each pixel -/

theorem prod_fft {N : ℕ} (hN : N ≠ 0) (A B : Fin N × Fin N → ℂ) (s t : ℤ) :
    ∑ q : Fin N × Fin N, fft2 A q * fft2 B q * ew N (((q.1 : ℕ) : ℤ) * -s + ((q.2 : ℕ) : ℤ) * -t) =
      ∑ p : Fin N × Fin N, ∑ p' : Fin N × Fin N, A p * B p' *
        if (N : ℤ) ∣ ((p.1 : ℕ) : ℤ) + ((p'.1 : ℕ) : ℤ) - s ∧ (N : ℤ) ∣ ((p.2 : ℕ) : ℤ) + ((p'.2 : ℕ) : ℤ) - t then
          (N : ℂ) ^ 2 else 0 := by
  have h1 : ∀ q : Fin N × Fin N, fft2 A q * fft2 B q * ew N (((q.1 : ℕ) : ℤ) * -s + ((q.2 : ℕ) : ℤ) * -t) =
      ∑ p : Fin N × Fin N, ∑ p' : Fin N × Fin N, A p * B p' *
        ew N (((q.1 : ℕ) : ℤ) * (((p.1 : ℕ) : ℤ) + ((p'.1 : ℕ) : ℤ) - s) +
          ((q.2 : ℕ) : ℤ) * (((p.2 : ℕ) : ℤ) + ((p'.2 : ℕ) : ℤ) - t)) := by
    intro q
    rw [fft2_sum, fft2_sum, sum_mul_sum, sum_mul]
    refine sum_congr rfl fun p _ => ?_
    rw [sum_mul]
    refine sum_congr rfl fun p' _ => ?_
    rw [show ((q.1 : ℕ) : ℤ) * (((p.1 : ℕ) : ℤ) + ((p'.1 : ℕ) : ℤ) - s) +
          ((q.2 : ℕ) : ℤ) * (((p.2 : ℕ) : ℤ) + ((p'.2 : ℕ) : ℤ) - t) =
        (((q.1 : ℕ) : ℤ) * ((p.1 : ℕ) : ℤ) + ((q.2 : ℕ) : ℤ) * ((p.2 : ℕ) : ℤ)) +
        ((((q.1 : ℕ) : ℤ) * ((p'.1 : ℕ) : ℤ) + ((q.2 : ℕ) : ℤ) * ((p'.2 : ℕ) : ℤ)) +
          (((q.1 : ℕ) : ℤ) * -s + ((q.2 : ℕ) : ℤ) * -t)) by ring,
      show ∀ X Y Z : ℤ, ew N (X + (Y + Z)) = ew N X * (ew N Y * ew N Z) from fun X Y Z => by rw [ew_add, ew_add]]
    ring
  simp_rw [h1]
  rw [sum_comm]
  refine sum_congr rfl fun p _ => ?_
  rw [sum_comm]
  refine sum_congr rfl fun p' _ => ?_
  rw [← mul_sum, ew_sum2 hN]

/-- Two apertures within half of the grid: if the product of their far fields is zero at each pixel, one of them is
dark. -/
theorem fft_domain {N : ℕ} (hN : N ≠ 0) (A B : Fin N × Fin N → ℂ) (L : Fin N × Fin N → Prop)
    (hA : ∀ p, ¬ L p → A p = 0) (hB : ∀ p, ¬ L p → B p = 0)
    (hL : ∀ p q, L p → L q → 2 * |((p.1 : ℕ) : ℤ) - ((q.1 : ℕ) : ℤ)| < N ∧ 2 * |((p.2 : ℕ) : ℤ) - ((q.2 : ℕ) : ℤ)| < N)
    (h : ∀ q, fft2 A q * fft2 B q = 0) : (∀ p, A p = 0) ∨ ∀ p, B p = 0 := by
  classical
  by_contra hc
  push Not at hc
  obtain ⟨⟨a0, ha0⟩, b0, hb0⟩ := hc
  let key : Fin N × Fin N → ℕ := fun p => (p.1 : ℕ) * N + p.2
  have key_inj : ∀ p q, key p = key q → p = q := by
    intro p q hk
    have h1 : (p.1 : ℕ) = q.1 := by
      have e : ∀ r : Fin N × Fin N, key r / N = r.1 := fun r => by
        show ((r.1 : ℕ) * N + r.2) / N = r.1
        rw [mul_comm, Nat.mul_add_div (Nat.pos_of_ne_zero hN), Nat.div_eq_of_lt r.2.isLt, add_zero]
      rw [← e, ← e, hk]
    have h2 : (p.2 : ℕ) = q.2 := by
      have : (p.1 : ℕ) * N + p.2 = q.1 * N + q.2 := hk
      rw [h1] at this
      omega
    exact Prod.ext (Fin.ext h1) (Fin.ext h2)
  obtain ⟨a, ha, ma⟩ := exists_max_image (univ.filter fun p => A p ≠ 0) key ⟨a0, by simpa using ha0⟩
  obtain ⟨b, hb, mb⟩ := exists_max_image (univ.filter fun p => B p ≠ 0) key ⟨b0, by simpa using hb0⟩
  simp only [mem_filter, mem_univ, true_and] at ha ma hb mb
  have lit : ∀ p, A p ≠ 0 → L p := fun p hp => by_contra fun hn => hp (hA p hn)
  have lit' : ∀ p, B p ≠ 0 → L p := fun p hp => by_contra fun hn => hp (hB p hn)
  have e := prod_fft hN A B (((a.1 : ℕ) : ℤ) + ((b.1 : ℕ) : ℤ)) (((a.2 : ℕ) : ℤ) + ((b.2 : ℕ) : ℤ))
  simp only [h, zero_mul, sum_const_zero] at e
  rw [sum_eq_single a, sum_eq_single b] at e
  · rw [sub_self, sub_self, if_pos ⟨dvd_zero _, dvd_zero _⟩] at e
    exact mul_ne_zero (mul_ne_zero ha hb) (pow_ne_zero 2 (Nat.cast_ne_zero.2 hN)) e.symm
  · intro b' _ hb'
    by_cases h0 : B b' = 0
    · rw [h0, mul_zero, zero_mul]
    rw [if_neg, mul_zero]
    rintro ⟨d1, d2⟩
    obtain ⟨l1, l2⟩ := hL _ _ (lit' _ h0) (lit' _ hb)
    rw [add_sub_add_left_eq_sub] at d1 d2
    have n1 := abs_nonneg (((b'.1 : ℕ) : ℤ) - ((b.1 : ℕ) : ℤ))
    have n2 := abs_nonneg (((b'.2 : ℕ) : ℤ) - ((b.2 : ℕ) : ℤ))
    have z1 := Int.eq_zero_of_abs_lt_dvd d1 (by linarith)
    have z2 := Int.eq_zero_of_abs_lt_dvd d2 (by linarith)
    exact hb' (Prod.ext (Fin.ext (by omega)) (Fin.ext (by omega)))
  · exact fun hn => absurd (mem_univ _) hn
  · intro a' _ ha'
    refine sum_eq_zero fun b' _ => ?_
    by_cases h0 : A a' = 0
    · rw [h0, zero_mul, zero_mul]
    by_cases h1 : B b' = 0
    · rw [h1, mul_zero, zero_mul]
    rw [if_neg, mul_zero]
    rintro ⟨d1, d2⟩
    obtain ⟨l1, l2⟩ := hL _ _ (lit _ h0) (lit _ ha)
    obtain ⟨l3, l4⟩ := hL _ _ (lit' _ h1) (lit' _ hb)
    have z1 := Int.eq_zero_of_abs_lt_dvd d1 (by
      rw [show ((a'.1 : ℕ) : ℤ) + ((b'.1 : ℕ) : ℤ) - (((a.1 : ℕ) : ℤ) + ((b.1 : ℕ) : ℤ)) =
        (((a'.1 : ℕ) : ℤ) - ((a.1 : ℕ) : ℤ)) + (((b'.1 : ℕ) : ℤ) - ((b.1 : ℕ) : ℤ)) by ring]
      exact (abs_add_le _ _).trans_lt (by linarith))
    have z2 := Int.eq_zero_of_abs_lt_dvd d2 (by
      rw [show ((a'.2 : ℕ) : ℤ) + ((b'.2 : ℕ) : ℤ) - (((a.2 : ℕ) : ℤ) + ((b.2 : ℕ) : ℤ)) =
        (((a'.2 : ℕ) : ℤ) - ((a.2 : ℕ) : ℤ)) + (((b'.2 : ℕ) : ℤ) - ((b.2 : ℕ) : ℤ)) by ring]
      exact (abs_add_le _ _).trans_lt (by linarith))
    have k1 := ma a' h0
    have k2 := mb b' h1
    have k3 : key a' + key b' = key a + key b := by
      show (a'.1 : ℕ) * N + a'.2 + ((b'.1 : ℕ) * N + b'.2) = (a.1 : ℕ) * N + a.2 + ((b.1 : ℕ) * N + b.2)
      have e1 : (a'.1 : ℕ) + b'.1 = a.1 + b.1 := by omega
      have e2 : (a'.2 : ℕ) + b'.2 = a.2 + b.2 := by omega
      calc (a'.1 : ℕ) * N + a'.2 + ((b'.1 : ℕ) * N + b'.2) = ((a'.1 : ℕ) + b'.1) * N + (a'.2 + b'.2) := by ring
        _ = _ := by rw [e1, e2]; ring
    exact ha' (key_inj _ _ (by omega))
  · exact fun hn => absurd (mem_univ _) hn

/-! ## Apertures that are conjugate at opposite points -/

theorem fft_hermitian {N : ℕ} (A : Fin N × Fin N → ℂ) (h : ∀ q, A (Spec.opposite q) = (starRingEnd ℂ) (A q))
    (q : Fin N × Fin N) :
    fft2 A q = ew N ((((q.1 : ℕ) : ℤ) + ((q.2 : ℕ) : ℤ)) * ((N : ℤ) - 1)) * (starRingEnd ℂ) (fft2 A q) := by
  have hb : Function.Bijective (Spec.opposite (N := N)) :=
    Function.Involutive.bijective fun q => by simp [Spec.opposite]
  rw [fft2_sum, map_sum, mul_sum]
  refine (Fintype.sum_bijective _ hb _ _ fun p => ?_).symm
  rw [h, map_mul, ew_conj, mul_left_comm, ← ew_add]
  congr 2
  have e : ∀ i : Fin N, (((i.rev : Fin N) : ℕ) : ℤ) = (N : ℤ) - 1 - ((i : ℕ) : ℤ) := fun i => by
    rw [Fin.val_rev]
    omega
  simp only [Spec.opposite, e]
  ring

theorem fft_mul_real {N : ℕ} (A B : Fin N × Fin N → ℂ) (hA : ∀ q, A (Spec.opposite q) = (starRingEnd ℂ) (A q))
    (hB : ∀ q, B (Spec.opposite q) = (starRingEnd ℂ) (B q)) (q : Fin N × Fin N) :
    fft2 A q * fft2 B q = ew N ((((q.1 : ℕ) : ℤ) + ((q.2 : ℕ) : ℤ)) * ((N : ℤ) - 1)) *
      ((((starRingEnd ℂ) (fft2 A q) * fft2 B q).re : ℝ) : ℂ) := by
  have h1 := fft_hermitian A hA q
  have h2 := fft_hermitian B hB q
  set z := ew N ((((q.1 : ℕ) : ℤ) + ((q.2 : ℕ) : ℤ)) * ((N : ℤ) - 1)) with hz
  have hzz : z * (starRingEnd ℂ) z = 1 := by
    rw [Complex.mul_conj, Complex.normSq_eq_norm_sq, hz, ew_norm]
    norm_num
  have hreal : (starRingEnd ℂ) ((starRingEnd ℂ) (fft2 A q) * fft2 B q) = (starRingEnd ℂ) (fft2 A q) * fft2 B q := by
    rw [map_mul, Complex.conj_conj]
    have h3 : (starRingEnd ℂ) (fft2 B q) = (starRingEnd ℂ) z * fft2 B q := by
      conv_rhs => rw [h2]
      rw [← mul_assoc, mul_comm _ z, hzz, one_mul]
    rw [h3]
    conv_lhs => rw [h1]
    linear_combination (starRingEnd ℂ) (fft2 A q) * fft2 B q * hzz
  rw [Complex.conj_eq_iff_re.1 hreal]
  conv_lhs => rw [h1]
  ring

theorem parts_aperture {I K : List ℝ} {dz wavel : ℝ} {N : ℕ} {illum : Illum (Fin N × Fin N)}
    {tel : TelGeo (Fin N × Fin N)} {bf : ℝ} {a phi : Fin N × Fin N → ℝ}
    (hp : Spec.Parts I K dz wavel illum tel bf a phi) :
    aperture (fun q => Spec.gridPoint tel.pr bf N q.2) (fun q => Spec.gridPoint tel.pr bf N q.1) I K dz wavel illum tel =
      .ok fun q => (a q : ℂ) * Complex.exp ((phi q : ℂ) * Complex.I) := by
  obtain ⟨B, W, delta, Ea, h1, h2, h3, h4, ha, hphi⟩ := hp
  refine aperture_ok_iff.2 ⟨B, W, delta, Ea, h1, h4, h3, h2, ?_⟩
  funext q
  rw [ha, hphi, show 2 * Real.pi * (W q + delta q / wavel) = (W q + delta q / wavel) * 2 * Real.pi by ring]

theorem odd_hermitian {I K : List ℝ} {wavel : ℝ} {N : ℕ} (hN : 2 ≤ N) {illum : Illum (Fin N × Fin N)}
    {tel : TelGeo (Fin N × Fin N)} {bf : ℝ} (hc : Spec.Central I illum tel bf) (hK : Spec.OddOnly K)
    {a phi : Fin N × Fin N → ℝ} (hp : Spec.Parts I K 0 wavel illum tel bf a phi) (q : Fin N × Fin N) :
    (a (Spec.opposite q) : ℂ) * Complex.exp ((phi (Spec.opposite q) : ℂ) * Complex.I) =
      (starRingEnd ℂ) ((a q : ℂ) * Complex.exp ((phi q : ℂ) * Complex.I)) := by
  have hflip : Spec.EvenFlipped K K := ⟨rfl, fun n k hk hn => by
    by_cases he : n % 2 = 0
    · rw [hK n k hk hn he, mul_zero]
    · rw [if_neg he, one_mul]⟩
  have h := parts_aperture hp
  have h' := aperture_even hN I K K 0 wavel illum tel bf hc hflip _ h
  rw [neg_zero, h, Except.ok.injEq] at h'
  have := congrFun h' (Spec.opposite q)
  rw [show Spec.opposite (Spec.opposite q) = q by simp [Spec.opposite]] at this
  exact this

/-- **C136** in focus, the power patterns of two dishes without even orders are the same at all pixels if and only if the
fields in the two apertures are the same, or opposite, where there is light. -/
theorem C136_aperture (I K K' : List ℝ) (wavel : ℝ) (N : ℕ) (illum : Illum (Fin N × Fin N)) (tel : TelGeo (Fin N × Fin N))
    (bf : ℝ) (hpr : 0 < tel.pr) (hbf : 2 ≤ bf) (hc : Spec.Central I illum tel bf) (hK : Spec.OddOnly K)
    (hK' : Spec.OddOnly K') (P P' : Pattern N) (h : radiationPattern I K 0 wavel illum tel bf = .ok P)
    (h' : radiationPattern I K' 0 wavel illum tel bf = .ok P') (a phi phi' : Fin N × Fin N → ℝ)
    (hp : Spec.Parts I K 0 wavel illum tel bf a phi) (hp' : Spec.Parts I K' 0 wavel illum tel bf a phi')
    (hdark : ∀ q, tel.pr < |Spec.gridPoint tel.pr bf N q.2| ∨ tel.pr < |Spec.gridPoint tel.pr bf N q.1| → a q = 0) :
    (∀ q, ‖P.F q‖ = ‖P'.F q‖) ↔
      (∀ q, a q ≠ 0 → Complex.exp ((phi q : ℂ) * Complex.I) = Complex.exp ((phi' q : ℂ) * Complex.I)) ∨
      (∀ q, a q ≠ 0 → Complex.exp ((phi q : ℂ) * Complex.I) = -Complex.exp ((phi' q : ℂ) * Complex.I)) := by
  obtain ⟨hN, -⟩ := radiationPattern_ok h
  have hN0 : N ≠ 0 := by omega
  rw [parts_of_pattern h hp, parts_of_pattern h' hp']
  set E : Fin N × Fin N → ℂ := fun q => (a q : ℂ) * Complex.exp ((phi q : ℂ) * Complex.I) with hE
  set E' : Fin N × Fin N → ℂ := fun q => (a q : ℂ) * Complex.exp ((phi' q : ℂ) * Complex.I) with hE'
  constructor
  · intro hF
    have hF' : ∀ q, ‖fft2 E q‖ = ‖fft2 E' q‖ := by
      intro q
      obtain ⟨r, hr⟩ := (shiftIdx_bij.prodMap shiftIdx_bij).2 q
      rw [← hr]
      exact hF r
    have herm := odd_hermitian hN hc hK hp
    have herm' := odd_hermitian hN hc hK' hp'
    have sq : ∀ q, fft2 E q * fft2 E q = fft2 E' q * fft2 E' q := by
      intro q
      have key : ∀ z : ℂ, ((starRingEnd ℂ) z * z).re = ‖z‖ ^ 2 := fun z => by
        rw [mul_comm, Complex.mul_conj, Complex.normSq_eq_norm_sq, Complex.ofReal_re]
      rw [fft_mul_real E E herm herm q, fft_mul_real E' E' herm' herm' q, key, key, hF']
    have add : ∀ q, fft2 (fun p => E p + E' p) q = fft2 E q + fft2 E' q := by
      intro q
      rw [fft2_sum, fft2_sum, fft2_sum, ← sum_add_distrib]
      exact sum_congr rfl fun p _ => by ring
    have sub : ∀ q, fft2 (fun p => E p - E' p) q = fft2 E q - fft2 E' q := by
      intro q
      rw [fft2_sum, fft2_sum, fft2_sum, ← sum_sub_distrib]
      exact sum_congr rfl fun p _ => by ring
    have zero : ∀ p, ¬ a p ≠ 0 → E p = 0 ∧ E' p = 0 := by
      intro p hz
      rw [not_not] at hz
      simp [hE, hE', hz]
    have half : ∀ p q, a p ≠ 0 → a q ≠ 0 → 2 * |((p.1 : ℕ) : ℤ) - ((q.1 : ℕ) : ℤ)| < N ∧
        2 * |((p.2 : ℕ) : ℤ) - ((q.2 : ℕ) : ℤ)| < N := fun p q h1 h2 =>
      lit_half hN hpr hbf (fun q => (a q : ℂ)) (fun q hq => by rw [hdark q hq, Complex.ofReal_zero]) p q
        (Complex.ofReal_ne_zero.2 h1) (Complex.ofReal_ne_zero.2 h2)
    rcases fft_domain hN0 (fun p => E p - E' p) (fun p => E p + E' p) (fun p => a p ≠ 0)
      (fun p hz => by rw [(zero p hz).1, (zero p hz).2, sub_self]) (fun p hz => by rw [(zero p hz).1, (zero p hz).2, add_zero])
      half (fun q => by rw [add, sub]; linear_combination sq q) with h0 | h0
    · refine .inl fun q hq => ?_
      exact mul_left_cancel₀ (Complex.ofReal_ne_zero.2 hq) (sub_eq_zero.1 (h0 q))
    · refine .inr fun q hq => ?_
      refine mul_left_cancel₀ (Complex.ofReal_ne_zero.2 hq) ?_
      rw [mul_neg]
      exact eq_neg_of_add_eq_zero_left (h0 q)
  · rintro (h0 | h0) q
    · have : E = E' := by
        funext q
        by_cases hq : a q = 0
        · simp [hE, hE', hq]
        · simp only [hE, hE', h0 q hq]
      rw [this]
    · have : E = fun q => -E' q := by
        funext q
        by_cases hq : a q = 0
        · simp [hE, hE', hq]
        · simp only [hE, hE', h0 q hq, mul_neg]
      have neg : ∀ q, fft2 (fun p => -E' p) q = -fft2 E' q := by
        intro q
        rw [fft2_sum, fft2_sum, ← sum_neg_distrib]
        exact sum_congr rfl fun p _ => by ring
      rw [this]
      unfold fftshift2
      rw [neg, norm_neg]

/-! ## The coefficients -/

/-- There is light at all crossings of `n + 1` rows with `n + 1` columns of the grid. -/
def Spec.LitBlock {N : ℕ} (a : Fin N × Fin N → ℝ) (n : ℕ) : Prop :=
  ∃ S T : Finset (Fin N), S.card = n + 1 ∧ T.card = n + 1 ∧ ∀ i ∈ S, ∀ j ∈ T, a (i, j) ≠ 0

theorem gridPoint_inj {N : ℕ} (hN : 2 ≤ N) {pr bf : ℝ} (hpr : pr ≠ 0) (hbf : bf ≠ 0) :
    Function.Injective fun i : Fin N => Spec.gridPoint pr bf N i / pr := by
  intro i j h
  have hN1 : (N : ℝ) - 1 ≠ 0 := by
    have : (2 : ℝ) ≤ N := by exact_mod_cast hN
    linarith
  have h1 := (div_left_inj' hpr).1 h
  unfold Spec.gridPoint at h1
  have h2 : ((i : ℕ) : ℝ) = ((j : ℕ) : ℝ) := by
    field_simp at h1
    linarith
  exact Fin.ext (by exact_mod_cast h2)

theorem block_zero {N : ℕ} (hN : 2 ≤ N) {pr bf : ℝ} (hpr : 0 < pr) (hbf : bf ≠ 0) (n : ℕ) (D : List ℝ)
    (hD : D.length = tri (n + 1)) (a : Fin N × Fin N → ℝ) (hb : Spec.LitBlock a n)
    (h : ∀ q, a q ≠ 0 → wfVal n D (Real.sqrt (Spec.gridPoint pr bf N q.2 ^ 2 + Spec.gridPoint pr bf N q.1 ^ 2) / pr)
      (arctan2 (Spec.gridPoint pr bf N q.1) (Spec.gridPoint pr bf N q.2)) = 0) : ∀ d ∈ D, d = 0 := by
  classical
  obtain ⟨S, T, hS, hT, hl⟩ := hb
  have inj := gridPoint_inj hN hpr.ne' hbf
  have hz : ∀ rho theta, wfVal n D rho theta = 0 := by
    refine wfVal_zero_of_grid n D (T.image fun i => Spec.gridPoint pr bf N i / pr)
      (S.image fun i => Spec.gridPoint pr bf N i / pr)
      (by rw [card_image_of_injective _ inj]; omega) (by rw [card_image_of_injective _ inj]; omega) ?_
    intro x hx y hy
    obtain ⟨j, hj, rfl⟩ := mem_image.1 hx
    obtain ⟨i, hi, rfl⟩ := mem_image.1 hy
    have hq := h (i, j) (hl i hi j hj)
    set z : ℂ := ⟨Spec.gridPoint pr bf N j, Spec.gridPoint pr bf N i⟩ with hz
    have hnorm : Real.sqrt (Spec.gridPoint pr bf N j ^ 2 + Spec.gridPoint pr bf N i ^ 2) = ‖z‖ := by
      rw [Complex.norm_eq_sqrt_sq_add_sq]
    refine ⟨‖z‖ / pr, Complex.arg z, ?_, ?_, ?_⟩
    · rw [div_mul_eq_mul_div, Complex.norm_mul_cos_arg]
    · rw [div_mul_eq_mul_div, Complex.norm_mul_sin_arg]
    · rw [← hnorm]
      exact hq
  have hco := wfVal_coeff_zero n D hz
  intro d hd
  obtain ⟨m, hm, rfl⟩ := List.mem_iff_getElem.1 hd
  rw [← List.getD_eq_getElem D 0 hm]
  exact hco m (hD ▸ hm)

theorem square_disc {pr x y : ℝ} (hpr : 0 < pr) (h : pr < |x| ∨ pr < |y|) : pr ^ 2 < x ^ 2 + y ^ 2 := by
  have e : ∀ x : ℝ, pr < |x| → pr ^ 2 < x ^ 2 := fun x hx => by
    rw [← sq_abs x]
    exact pow_lt_pow_left₀ hx hpr.le two_ne_zero
  rcases h with h | h
  · nlinarith [e _ h, sq_nonneg y]
  · nlinarith [e _ h, sq_nonneg x]

/-- **C136** so the coefficients: of two sets without even orders that differ by less than half a wavelength in all, no
two have the same power in focus at all pixels. -/
theorem C136_unique (I K K' : List ℝ) (n : ℕ) (hn : K.length = (n + 1) * (n + 2) / 2) (hn' : K'.length = K.length)
    (wavel : ℝ) (N : ℕ) (illum : Illum (Fin N × Fin N)) (tel : TelGeo (Fin N × Fin N))
    (bf : ℝ) (hpr : 0 < tel.pr) (hbf : 2 ≤ bf) (hc : Spec.Central I illum tel bf) (hK : Spec.OddOnly K)
    (hK' : Spec.OddOnly K') (P P' : Pattern N) (h : radiationPattern I K 0 wavel illum tel bf = .ok P)
    (h' : radiationPattern I K' 0 wavel illum tel bf = .ok P') (a phi : Fin N × Fin N → ℝ)
    (hp : Spec.Parts I K 0 wavel illum tel bf a phi)
    (hdark : ∀ q, tel.pr ^ 2 < Spec.gridPoint tel.pr bf N q.2 ^ 2 + Spec.gridPoint tel.pr bf N q.1 ^ 2 → a q = 0)
    (hlit : Spec.LitBlock a n) (hsmall : (List.zipWith (fun x y => |x - y|) K K').sum < 1 / 2)
    (hF : ∀ q, ‖P.F q‖ = ‖P'.F q‖) : K = K' := by
  obtain ⟨hN, -⟩ := radiationPattern_ok h
  obtain ⟨a', phi', hp'⟩ := C70_parts _ _ _ _ _ _ _ _ _ h'
  obtain rfl := (parts_unique hp hp').symm
  have hsq : ∀ q, tel.pr < |Spec.gridPoint tel.pr bf N q.2| ∨ tel.pr < |Spec.gridPoint tel.pr bf N q.1| → a q = 0 :=
    fun q hq => hdark q (square_disc hpr hq)
  have hE := (C136_aperture I K K' wavel N illum tel bf hpr hbf hc hK hK' P P' h h' a phi phi' hp hp' hsq).1 hF
  obtain ⟨B, W, d, Ea, h1, h2, h3, h4, h5, h6⟩ := hp
  obtain ⟨B', W', d', Ea', g1, g2, g3, g4, g5, g6⟩ := hp'
  have htri : K.length = tri (n + 1) := hn
  rw [wavefront_ok _ _ K n htri] at h4
  rw [wavefront_ok _ _ K' n (hn'.trans htri)] at g4
  cases h4
  cases g4
  rw [h3] at g3
  cases g3
  set D := List.zipWith (· + ·) K (K'.map (-1 * ·)) with hD
  have hDl : D.length = tri (n + 1) := by
    rw [hD, List.length_zipWith, List.length_map, hn', min_self, htri]
  have hDs : (D.map (|·|)).sum = (List.zipWith (fun x y => |x - y|) K K').sum := by
    congr 1
    rw [hD, List.map_zipWith, List.zipWith_map_right]
    congr 1
    funext x y
    congr 1
    ring
  have hzero : ∀ q, a q ≠ 0 → wfVal n D (Real.sqrt (Spec.gridPoint tel.pr bf N q.2 ^ 2 +
      Spec.gridPoint tel.pr bf N q.1 ^ 2) / tel.pr)
      (arctan2 (Spec.gridPoint tel.pr bf N q.1) (Spec.gridPoint tel.pr bf N q.2)) = 0 := by
    intro q hq
    have hin : ¬ tel.pr ^ 2 < Spec.gridPoint tel.pr bf N q.2 ^ 2 + Spec.gridPoint tel.pr bf N q.1 ^ 2 :=
      fun hlt => hq (hdark q hlt)
    have hr : |Real.sqrt (Spec.gridPoint tel.pr bf N q.2 ^ 2 + Spec.gridPoint tel.pr bf N q.1 ^ 2) / tel.pr| ≤ 1 := by
      rw [abs_of_nonneg (by positivity), div_le_one hpr]
      exact Real.sqrt_le_iff.2 ⟨hpr.le, not_lt.1 hin⟩
    have hle := wfVal_abs_le n D hDl _ (arctan2 (Spec.gridPoint tel.pr bf N q.1) (Spec.gridPoint tel.pr bf N q.2)) hr
    rw [hDs] at hle
    have hlt := hle.trans_lt hsmall
    have hdiff : phi q - phi' q = 2 * Real.pi * wfVal n D (Real.sqrt (Spec.gridPoint tel.pr bf N q.2 ^ 2 +
        Spec.gridPoint tel.pr bf N q.1 ^ 2) / tel.pr)
        (arctan2 (Spec.gridPoint tel.pr bf N q.1) (Spec.gridPoint tel.pr bf N q.2)) := by
      rw [h6, g6, hD, wfVal_sub n K K' hn'.symm]
      ring
    generalize wfVal n D (Real.sqrt (Spec.gridPoint tel.pr bf N q.2 ^ 2 + Spec.gridPoint tel.pr bf N q.1 ^ 2) / tel.pr)
      (arctan2 (Spec.gridPoint tel.pr bf N q.1) (Spec.gridPoint tel.pr bf N q.2)) = w at hlt hdiff ⊢
    have hpi := Real.pi_pos
    have real : ∀ x y : ℝ, Complex.exp ((x : ℂ) * Complex.I) = Complex.exp ((y : ℂ) * Complex.I) →
        ∃ m : ℤ, x = y + m * (2 * Real.pi) := by
      intro x y hxy
      obtain ⟨m, hm⟩ := Complex.exp_eq_exp_iff_exists_int.1 hxy
      refine ⟨m, ?_⟩
      have : (x : ℂ) * Complex.I = ((y + m * (2 * Real.pi) : ℝ) : ℂ) * Complex.I := by
        rw [hm]
        push_cast
        ring
      exact_mod_cast mul_right_cancel₀ Complex.I_ne_zero this
    rw [abs_lt] at hlt
    rcases hE with hE | hE
    · obtain ⟨m, hm⟩ := real _ _ (hE q hq)
      have hwm : w = m := by
        have : 2 * Real.pi * w = 2 * Real.pi * m := by linarith
        exact mul_left_cancel₀ (by positivity) this
      rw [hwm] at hlt ⊢
      have l1 : (-1 : ℝ) < m := by linarith [hlt.1]
      have l2 : (m : ℝ) < 1 := by linarith [hlt.2]
      have l1' : (-1 : ℤ) < m := by exact_mod_cast l1
      have l2' : m < (1 : ℤ) := by exact_mod_cast l2
      have : m = 0 := by omega
      rw [this, Int.cast_zero]
    · exfalso
      have hneg : Complex.exp ((phi q : ℂ) * Complex.I) = Complex.exp (((phi' q + Real.pi : ℝ) : ℂ) * Complex.I) := by
        rw [hE q hq]
        push_cast
        rw [add_mul, Complex.exp_add, Complex.exp_pi_mul_I]
        ring
      obtain ⟨m, hm⟩ := real _ _ hneg
      have hwm : 2 * w = 1 + 2 * m := by
        have : Real.pi * (2 * w) = Real.pi * (1 + 2 * m) := by linarith
        exact mul_left_cancel₀ hpi.ne' this
      have l1 : (-1 : ℝ) < m := by linarith [hlt.1]
      have l2 : (m : ℝ) < 0 := by linarith [hlt.2]
      have l1' : (-1 : ℤ) < m := by exact_mod_cast l1
      have l2' : m < (0 : ℤ) := by exact_mod_cast l2
      omega
  have hall := block_zero hN hpr (by linarith) n D hDl a hlit hzero
  refine List.ext_getElem hn'.symm fun m m1 m2 => ?_
  have := hall (K[m] + -1 * K'[m]) (by
    rw [hD]
    exact List.mem_iff_getElem.2 ⟨m, by simpa using ⟨m1, m2⟩, by simp⟩)
  linarith

/-- **C136** and to first order: from a state without even orders, every change of odd orders has a first order effect on
the power in focus at some pixel. -/
theorem C136_slope (I K D : List ℝ) (n : ℕ) (hn : K.length = (n + 1) * (n + 2) / 2) (hKD : K.length = D.length)
    (wavel : ℝ) (hw : 0 < wavel) (N : ℕ) (illum : Illum (Fin N × Fin N)) (tel : TelGeo (Fin N × Fin N)) (bf : ℝ)
    (hpr : 0 < tel.pr) (hbf : 2 ≤ bf) (hc : Spec.Central I illum tel bf) (hK : Spec.OddOnly K) (hD : Spec.OddOnly D)
    (P : ℝ → Pattern N) (h : ∀ t, radiationPattern I (Spec.moved K D t) 0 wavel illum tel bf = .ok (P t))
    (a phi : Fin N × Fin N → ℝ) (hp : Spec.Parts I K 0 wavel illum tel bf a phi)
    (hdark : ∀ q, tel.pr ^ 2 < Spec.gridPoint tel.pr bf N q.2 ^ 2 + Spec.gridPoint tel.pr bf N q.1 ^ 2 → a q = 0)
    (hlit : Spec.LitBlock a n) (hflat : ∀ q, HasDerivAt (fun t => ‖(P t).F q‖ ^ 2) 0 0) : ∀ d ∈ D, d = 0 := by
  obtain ⟨hN, -⟩ := radiationPattern_ok (h 0)
  have hN0 : N ≠ 0 := by omega
  have htri : K.length = tri (n + 1) := hn
  have h0 : radiationPattern I K 0 wavel illum tel bf = .ok (P 0) := by
    have := h 0
    rwa [show Spec.moved K D 0 = K by
      apply List.ext_getElem
      · rw [Spec.moved, List.length_zipWith]; omega
      · intro i _ _
        simp [Spec.moved]] at this
  set V : Fin N × Fin N → ℝ := fun q => wfVal n D (Real.sqrt (Spec.gridPoint tel.pr bf N q.2 ^ 2 +
      Spec.gridPoint tel.pr bf N q.1 ^ 2) / tel.pr)
      (arctan2 (Spec.gridPoint tel.pr bf N q.1) (Spec.gridPoint tel.pr bf N q.2)) with hVdef
  have hV := wavefront_ok (fun q : Fin N × Fin N => Real.sqrt (Spec.gridPoint tel.pr bf N q.2 ^ 2 +
      Spec.gridPoint tel.pr bf N q.1 ^ 2) / tel.pr)
      (fun q => arctan2 (Spec.gridPoint tel.pr bf N q.1) (Spec.gridPoint tel.pr bf N q.2)) D n (hKD ▸ htri)
  have hder : ∀ q, ((starRingEnd ℂ) ((P 0).F q) * Spec.slope a phi V q).re = 0 := by
    intro q
    obtain ⟨h1, -⟩ := C121_power I K D 0 wavel N illum tel bf hpr hw P a phi V hKD h hp hV hdark q
    have := h1.unique (hflat q)
    linarith
  have hVodd : ∀ q, V (Spec.opposite q) = -V q := by
    intro q
    have hflip : Spec.EvenFlipped D D := ⟨rfl, fun n k hk hn => by
      by_cases he : n % 2 = 0
      · rw [hD n k hk hn he, mul_zero]
      · rw [if_neg he, one_mul]⟩
    have := wfVal_even n D D (hKD ▸ htri) hflip tel.pr (Spec.gridPoint tel.pr bf N q.2) (Spec.gridPoint tel.pr bf N q.1)
    simp only [hVdef, Spec.opposite, gridPoint_rev _ _ hN]
    exact this
  set E : Fin N × Fin N → ℂ := fun q => (a q : ℂ) * Complex.exp ((phi q : ℂ) * Complex.I) with hE
  set S : Fin N × Fin N → ℂ := fun q => (a q : ℂ) * Complex.exp ((phi q : ℂ) * Complex.I) *
    (2 * Real.pi * V q * Complex.I) with hS
  have herm := odd_hermitian hN hc hK hp
  have herm' : ∀ q, S (Spec.opposite q) = (starRingEnd ℂ) (S q) := by
    intro q
    simp only [hS]
    rw [herm, hVodd]
    simp only [map_mul, Complex.conj_I, Complex.conj_ofReal, map_ofNat]
    push_cast
    ring
  have hprod : ∀ q, fft2 E q * fft2 S q = 0 := by
    intro q
    obtain ⟨r, hr⟩ := (shiftIdx_bij.prodMap shiftIdx_bij).2 q
    have e1 : (P 0).F r = fft2 E q := by
      rw [parts_of_pattern h0 hp, ← hr]
      rfl
    have e2 : Spec.slope a phi V r = fft2 S q := by
      rw [← hr]
      exact (shifted_eq S r).symm
    have := hder r
    rw [e1, e2] at this
    rw [fft_mul_real E S herm herm' q, this, Complex.ofReal_zero, mul_zero]
  have hsq : ∀ q, tel.pr < |Spec.gridPoint tel.pr bf N q.2| ∨ tel.pr < |Spec.gridPoint tel.pr bf N q.1| → a q = 0 :=
    fun q hq => hdark q (square_disc hpr hq)
  have half : ∀ p q, a p ≠ 0 → a q ≠ 0 → 2 * |((p.1 : ℕ) : ℤ) - ((q.1 : ℕ) : ℤ)| < N ∧
      2 * |((p.2 : ℕ) : ℤ) - ((q.2 : ℕ) : ℤ)| < N := fun p q h1 h2 =>
    lit_half hN hpr hbf (fun q => (a q : ℂ)) (fun q hq => by rw [hsq q hq, Complex.ofReal_zero]) p q
      (Complex.ofReal_ne_zero.2 h1) (Complex.ofReal_ne_zero.2 h2)
  have zero : ∀ p, ¬ a p ≠ 0 → E p = 0 ∧ S p = 0 := by
    intro p hz
    rw [not_not] at hz
    simp [hE, hS, hz]
  refine block_zero hN hpr (by linarith) n D (hKD ▸ htri) a hlit fun q hq => ?_
  rcases fft_domain hN0 E S (fun p => a p ≠ 0) (fun p hz => (zero p hz).1) (fun p hz => (zero p hz).2) half hprod with
    h1 | h1
  · exact absurd (h1 q) (mul_ne_zero (Complex.ofReal_ne_zero.2 hq) (Complex.exp_ne_zero _))
  · have h2 := h1 q
    simp only [hS] at h2
    have h3 := (mul_eq_zero.1 h2).resolve_left (mul_ne_zero (Complex.ofReal_ne_zero.2 hq) (Complex.exp_ne_zero _))
    have h4 := (mul_eq_zero.1 h3).resolve_right Complex.I_ne_zero
    have h5 := (mul_eq_zero.1 h4).resolve_left (by
      exact_mod_cast mul_ne_zero two_ne_zero Real.pi_ne_zero)
    exact Complex.ofReal_eq_zero.1 h5

/-! ## An instance -/

theorem order_le_three {n : ℕ} (h : Spec.place n n < 10) : n ≤ 3 := by
  unfold Spec.place at h
  by_contra hn
  have h4 : 4 ≤ n := by omega
  have : 10 ≤ n * (n + 1) / 2 := by
    rw [Nat.le_div_iff_mul_le (by norm_num)]
    nlinarith
  omega

theorem odd_three (k1 k2 k6 k7 k8 k9 : ℝ) : Spec.OddOnly [0, k1, k2, 0, 0, 0, k6, k7, k8, k9] := by
  intro n k hk hp h2
  have := order_le_three hp
  have h : (n = 0 ∧ k = 0) ∨ (n = 2 ∧ k = 0) ∨ (n = 2 ∧ k = 1) ∨ (n = 2 ∧ k = 2) := by omega
  rcases h with ⟨rfl, rfl⟩ | ⟨rfl, rfl⟩ | ⟨rfl, rfl⟩ | ⟨rfl, rfl⟩ <;> simp [Spec.place]

theorem gauss_lit {ι : Type} (x y : ι → ℝ) :
    ∃ f, illumGauss x y [1, -14, 2, 0, 0] 50 = .ok f ∧ ∀ q, 0 < f q := by
  exact ⟨_, gauss_ignores_middle x y 1 (-14) 0 0 50 [2], fun q => (gauss_shape 1 _ _ _ 50 one_pos (by norm_num)).1 _ _⟩

/-- The light on the dish of the manual telescope: sixteen points between two of the legs. -/
theorem lit_manual (K : List ℝ) (dz : ℝ) (a phi : Fin 256 × Fin 256 → ℝ)
    (hp : Spec.Parts [1, -14, 2, 0, 0] K dz 0.009 illumGauss (manualTel 50 3.25 1 20 30 387.39435) 5 a phi) :
    Spec.LitBlock a 3 := by
  refine ⟨{140, 141, 142, 143}, {140, 141, 142, 143}, by decide, by decide, fun i hi j hj => ?_⟩
  have hg : ∀ k ∈ ({140, 141, 142, 143} : Finset (Fin 256)), 24 < Spec.gridPoint 50 5 256 k ∧
      Spec.gridPoint 50 5 256 k < 31 := by
    intro k hk
    simp only [mem_insert, mem_singleton] at hk
    unfold Spec.gridPoint
    rcases hk with rfl | rfl | rfl | rfl <;> norm_num
  obtain ⟨B, W, d, Ea, h1, h2, -, -, h3, -⟩ := hp
  obtain ⟨B', hB, hv⟩ := C24_value 50 3.25 1 20 (fun q : Fin 256 × Fin 256 => Spec.gridPoint 50 5 256 q.2)
    (fun q => Spec.gridPoint 50 5 256 q.1)
  have hBB : B = B' := Except.ok.inj (h1.symm.trans hB)
  obtain ⟨f, hf, hpos⟩ := gauss_lit (fun q : Fin 256 × Fin 256 => Spec.gridPoint 50 5 256 q.2)
    (fun q => Spec.gridPoint 50 5 256 q.1)
  have hEf : Ea = f := Except.ok.inj (h2.symm.trans hf)
  obtain ⟨i1, i2⟩ := hg i hi
  obtain ⟨j1, j2⟩ := hg j hj
  rw [h3, hBB, hEf, (hv (i, j)).1, one_mul]
  · exact (hpos (i, j)).ne'
  · dsimp only
    refine ⟨by nlinarith, by nlinarith, fun h => ?_, fun h => ?_⟩
    · have := (abs_lt.1 h.2).2
      linarith
    · have := (abs_lt.1 h.2).2
      linarith

/-- Tilts and comas of a dish of 100 m: no other set of them, nearer than half a wavelength in all, has the same power in
focus. -/
example (k1 k2 k6 k7 k8 k9 l1 l2 l6 l7 l8 l9 : ℝ)
    (hs : |k1 - l1| + |k2 - l2| + |k6 - l6| + |k7 - l7| + |k8 - l8| + |k9 - l9| < 1 / 2) (P P' : Pattern 256)
    (h : radiationPattern [1, -14, 2, 0, 0] [0, k1, k2, 0, 0, 0, k6, k7, k8, k9] 0 0.009 illumGauss
      (manualTel 50 3.25 1 20 30 387.39435) 5 = .ok P)
    (h' : radiationPattern [1, -14, 2, 0, 0] [0, l1, l2, 0, 0, 0, l6, l7, l8, l9] 0 0.009 illumGauss
      (manualTel 50 3.25 1 20 30 387.39435) 5 = .ok P') (hF : ∀ q, ‖P.F q‖ = ‖P'.F q‖) :
    k1 = l1 ∧ k2 = l2 ∧ k6 = l6 ∧ k7 = l7 ∧ k8 = l8 ∧ k9 = l9 := by
  obtain ⟨a, phi, hp⟩ := C70_parts _ _ _ _ _ _ _ _ _ h
  have hd := (C80_manual _ _ _ _ _ _ _ _ _ _ 0 _ _ a phi hp).1
  have := C136_unique [1, -14, 2, 0, 0] [0, k1, k2, 0, 0, 0, k6, k7, k8, k9] [0, l1, l2, 0, 0, 0, l6, l7, l8, l9] 3 rfl rfl
    0.009 256 illumGauss (manualTel 50 3.25 1 20 30 387.39435) 5 (by norm_num [manualTel]) (by norm_num)
    (C77_manual (N := 256) (by norm_num) 50 3.25 1 20 30 387.39435 5 1 (-14) 2 illumGauss (Or.inl rfl))
    (odd_three _ _ _ _ _ _) (odd_three _ _ _ _ _ _) P P' h h' a phi hp hd (lit_manual _ _ _ _ hp) (by
      simp
      linarith) hF
  simpa using this

/-- The same dish without errors: a change `d` of tilts and comas has a first order effect in focus unless it is zero. -/
example (d1 d2 d6 d7 d8 d9 : ℝ) (P : ℝ → Pattern 256)
    (h : ∀ t, radiationPattern [1, -14, 2, 0, 0] [0, t * d1, t * d2, 0, 0, 0, t * d6, t * d7, t * d8, t * d9] 0 0.009
      illumGauss (manualTel 50 3.25 1 20 30 387.39435) 5 = .ok (P t))
    (hd : ¬ (d1 = 0 ∧ d2 = 0 ∧ d6 = 0 ∧ d7 = 0 ∧ d8 = 0 ∧ d9 = 0)) :
    ∃ q, ¬ HasDerivAt (fun t => ‖(P t).F q‖ ^ 2) 0 0 := by
  by_contra hc
  push Not at hc
  have hm : ∀ t, Spec.moved [0, 0, 0, 0, 0, 0, 0, 0, 0, 0] [0, d1, d2, 0, 0, 0, d6, d7, d8, d9] t =
      [0, t * d1, t * d2, 0, 0, 0, t * d6, t * d7, t * d8, t * d9] := by
    intro t
    simp [Spec.moved]
  have h0 := h 0
  simp only [zero_mul] at h0
  obtain ⟨a, phi, hp⟩ := C70_parts _ _ _ _ _ _ _ _ _ h0
  have := C136_slope _ [0, 0, 0, 0, 0, 0, 0, 0, 0, 0] [0, d1, d2, 0, 0, 0, d6, d7, d8, d9] 3 rfl rfl _ (by norm_num) _ _ _ _
    (by norm_num [manualTel]) (by norm_num)
    (C77_manual (N := 256) (by norm_num) 50 3.25 1 20 30 387.39435 5 1 (-14) 2 illumGauss (Or.inl rfl))
    (odd_three _ _ _ _ _ _) (odd_three _ _ _ _ _ _) P (fun t => by rw [hm]; exact h t) a phi hp
    (C80_manual _ _ _ _ _ _ _ _ _ _ 0 _ _ a phi hp).1 (lit_manual _ _ _ _ hp) hc
  exact hd (by simpa using this)

end Verif.Props
