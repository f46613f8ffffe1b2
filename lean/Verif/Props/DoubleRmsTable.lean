import Verif.Props.DoubleRmsMap
import Verif.Props.DoubleOwnCase
import Verif.Props.Wavefront
import Mathlib.Algebra.Order.Chebyshev

/-!
# The columns of the phase rms and of the efficiency in doubles: C131
-/

namespace Verif.Props

open Verif Finset

/-! ## The efficiency -/

theorem expSq_lip (a b : ℝ) : |Real.exp (-a ^ 2) - Real.exp (-b ^ 2)| ≤ Real.sqrt 2 * |a - b| := by
  have h := bell_lip (Real.sqrt 2 * a) (Real.sqrt 2 * b)
  have e : ∀ a, -((Real.sqrt 2 * a) ^ 2 / 2) = -a ^ 2 := fun a => by
    rw [mul_pow, Real.sq_sqrt (by norm_num)]
    ring
  rw [e, e, ← mul_sub, abs_mul, abs_of_nonneg (Real.sqrt_nonneg 2)] at h
  exact h

/-- **C131.**  `e_rs` in doubles: if the rms is known to the accuracy of the theorems above, so is the efficiency. -/
theorem C131_efficiency {rnd : ℝ → Fl} {L : Dbl.LibmP} (hL : Spec.AccurateP L)
    (hL0 : L.powr (.fin 0) (.fin 2) = .fin 0) (adds : ∀ k, Dbl.Adds k)
    (a b : Dbl.Arr) (circ : Bool) (z r : ℝ) (hz : Dbl.rms rnd adds a circ = (.ok (.fin z), b)) (hzd : Spec.IsDouble z)
    (hz0 : 0 ≤ z) (hr0 : 0 ≤ r) (hr : r ≤ 2 ^ 300) (D : ℕ) (hD : D ≤ 2 ^ 40)
    (hzr : |z - r| ≤ (1.01 * D + 4) / 2 ^ 53 * r + 2 ^ (-500 : ℤ)) :
    ∃ e, Dbl.eRs rnd L adds a circ = (.ok (.fin e), b) ∧ Spec.IsDouble e ∧ 0 ≤ e ∧
      |e - Real.exp (-r ^ 2)| ≤ (9 * D + 80) / 2 ^ 53 := by
  have hDr : (D : ℝ) ≤ 1099511627776 := by exact_mod_cast (show D ≤ 1099511627776 from hD.trans (by norm_num))
  have hD0 : (0 : ℝ) ≤ D := Nat.cast_nonneg D
  set A : ℝ := (1.01 * D + 4) / 2 ^ 53 with hA
  have hA0 : 0 ≤ A := by positivity
  have hA1 : A ≤ 1 / 5000 := by
    rw [hA, div_le_iff₀ (by positivity)]
    norm_num only
    linarith
  have hτ0 : (0 : ℝ) < 2 ^ (-500 : ℤ) := by positivity
  have hτr : (2 : ℝ) ^ (-500 : ℤ) * r ≤ 1 / 2 ^ 200 := by
    calc (2 : ℝ) ^ (-500 : ℤ) * r ≤ 2 ^ (-500 : ℤ) * 2 ^ 300 := mul_le_mul_of_nonneg_left hr hτ0.le
      _ = 2 ^ (-200 : ℤ) := by
        rw [← zpow_natCast, ← zpow_add₀ two_ne_zero]
        norm_num
      _ = _ := by norm_num
  have hτ1 : (2 : ℝ) ^ (-500 : ℤ) ≤ 1 / 2 ^ 200 := by
    have : (2 : ℝ) ^ (-500 : ℤ) ≤ 2 ^ (-200 : ℤ) := zpow_le_zpow_right₀ one_le_two (by norm_num)
    refine this.trans (le_of_eq ?_)
    norm_num
  have hσ : (2 : ℝ) ^ (-1072 : ℤ) ≤ 1 / 2 ^ 200 := by
    have : (2 : ℝ) ^ (-1072 : ℤ) ≤ 2 ^ (-200 : ℤ) := zpow_le_zpow_right₀ one_le_two (by norm_num)
    refine this.trans (le_of_eq ?_)
    norm_num
  have hσ0 : (0 : ℝ) < 2 ^ (-1072 : ℤ) := by positivity
  -- the square
  have hsq : |z ^ 2 - r ^ 2| ≤ 2.001 * A * r ^ 2 + 4 / 2 ^ 200 := by
    have e1 : z ^ 2 - r ^ 2 = (z - r) * ((z - r) + 2 * r) := by ring
    rw [e1, abs_mul]
    set t : ℝ := A * r + 2 ^ (-500 : ℤ) with ht
    have ht0 : 0 ≤ t := by positivity
    have e2 : |(z - r) + 2 * r| ≤ t + 2 * r := by
      refine (abs_add_le _ _).trans ?_
      rw [abs_of_nonneg (show 0 ≤ 2 * r by linarith)]
      linarith
    refine (mul_le_mul hzr e2 (abs_nonneg _) ht0).trans ?_
    rw [ht]
    generalize (2 : ℝ) ^ (-500 : ℤ) = τ at *
    have e3 : (A * r + τ) * (A * r + τ + 2 * r) = A * (A + 2) * r ^ 2 + (2 * A + 2) * (τ * r) + τ * τ := by ring
    rw [e3]
    have e4 : A * (A + 2) * r ^ 2 ≤ A * 2.001 * r ^ 2 := by
      gcongr
      linarith
    have e5 : (2 * A + 2) * (τ * r) ≤ 3 * (1 / 2 ^ 200) := by
      refine mul_le_mul (by linarith) hτr (by positivity) (by norm_num)
    have e6 : τ * τ ≤ 1 / 2 ^ 200 * 1 := by
      refine mul_le_mul hτ1 (hτ1.trans (by norm_num)) hτ0.le (by positivity)
    linarith
  have hzb : z ^ 2 ≤ 2 ^ 900 := by
    have e1 := (abs_le.1 hsq).2
    have e2 : 2.001 * A * r ^ 2 ≤ 1 * r ^ 2 := mul_le_mul_of_nonneg_right (by linarith) (sq_nonneg r)
    have e3 : r ^ 2 ≤ 2 ^ 600 := by
      have := pow_le_pow_left₀ hr0 hr 2
      rwa [← pow_mul] at this
    have e4 : (2 : ℝ) ^ 900 = 2 ^ 300 * 2 ^ 600 := by rw [← pow_add]
    have e5 : (1 : ℝ) ≤ 2 ^ 600 := one_le_pow₀ one_le_two
    have e6 : (3 : ℝ) ≤ 2 ^ 300 := (show (3 : ℝ) ≤ 2 ^ 2 by norm_num).trans (two_pow_le (by norm_num))
    have e7 : 3 * (2 : ℝ) ^ 600 ≤ 2 ^ 300 * 2 ^ 600 := mul_le_mul_of_nonneg_right e6 (by positivity)
    rw [e4]
    generalize (2 : ℝ) ^ 300 * 2 ^ 600 = v at *
    generalize (2 : ℝ) ^ 600 = w at *
    linarith only [e1, e2, e3, e5, e7]
  have hp : ∃ p, L.powr (.fin z) (.fin 2) = .fin p ∧ Spec.IsDouble p ∧ 0 ≤ p ∧
      |p - z ^ 2| ≤ z ^ 2 / 2 ^ 50 + 2 ^ (-1072 : ℤ) := by
    rcases hz0.eq_or_lt with h0 | h0
    · refine ⟨0, by rw [← h0]; exact hL0, isDouble_zero, le_refl _, ?_⟩
      rw [← h0]
      simp
    · have e : z ^ (2 : ℝ) = z ^ 2 := by
        rw [← Real.rpow_natCast]
        norm_num
      obtain ⟨p, h1, h2, h3, h4⟩ := hL.powr z 2 hzd (by simpa using isDouble_int (z := 2) (by norm_num)) h0 (by
        rw [e]
        exact hzb)
      rw [e] at h4
      exact ⟨p, h1, h2, h3, h4⟩
  obtain ⟨p, hp1, hp2, hp3, hp4⟩ := hp
  have hpr : |p - r ^ 2| ≤ (2.002 * A + 8.1 / 2 ^ 53) * r ^ 2 + 10 / 2 ^ 200 := by
    have e1 : p - r ^ 2 = (p - z ^ 2) + (z ^ 2 - r ^ 2) := by ring
    rw [e1]
    refine (abs_add_le _ _).trans ((add_le_add hp4 hsq).trans ?_)
    have e2 := (abs_le.1 hsq).2
    have e3 : A * r ^ 2 ≤ 1 / 5000 * r ^ 2 := mul_le_mul_of_nonneg_right hA1 (sq_nonneg r)
    have e4 : 0 ≤ A * r ^ 2 := by positivity
    have e5 : 0 ≤ r ^ 2 := sq_nonneg r
    generalize (2 : ℝ) ^ (-1072 : ℤ) = σ at *
    generalize z ^ 2 = Z at *
    generalize r ^ 2 = R at *
    linarith only [e2, e3, e4, e5, hσ]
  obtain ⟨e, he1, he2, he3, he4⟩ := hL.exp (-p) (isDouble_neg hp2) (by linarith)
  refine ⟨e, ?_, he2, he3, ?_⟩
  · unfold Dbl.eRs
    rw [hz]
    simp only [Except.map, hp1]
    rw [show Dbl.neg (.fin p) = .fin (-p) from rfl, he1]
  · have h1 := exp_near (sq_nonneg r) (show 0 ≤ 2.002 * A + 8.1 / 2 ^ 53 by positivity) (by
      have : 8.1 / 2 ^ 53 ≤ (1 / 100 : ℝ) := by norm_num
      linarith) (show (0 : ℝ) ≤ 10 / 2 ^ 200 by positivity) (by norm_num) hpr
    have h2 : Real.exp (-p) ≤ 1 := Real.exp_le_one_iff.2 (by linarith)
    have h3 : e - Real.exp (-r ^ 2) = (e - Real.exp (-p)) + (Real.exp (-p) - Real.exp (-r ^ 2)) := by ring
    rw [h3]
    refine (abs_add_le _ _).trans ((add_le_add he4 h1).trans ?_)
    rw [hA]
    generalize Real.exp (-p) = E at *
    generalize (2 : ℝ) ^ (-1072 : ℤ) = σ at *
    generalize (D : ℝ) = d at *
    linarith only [h2, hσ, hD0]

/-! ## Two maps that differ little -/

/-- The root mean square moves by at most the largest change of an entry. -/
theorem rootMeanSq_near {ι : Type} (S : Finset ι) (f g : ι → Fl) {ε : ℝ} (hε : 0 ≤ ε)
    (h : ∀ q ∈ S, |Spec.numberOf (f q) - Spec.numberOf (g q)| ≤ ε) :
    |Spec.rootMeanSq S f - Spec.rootMeanSq S g| ≤ ε := by
  have key : ∀ f g : ι → Fl, (∀ q ∈ S, |Spec.numberOf (f q) - Spec.numberOf (g q)| ≤ ε) →
      Spec.rootMeanSq S f ≤ Spec.rootMeanSq S g + ε := by
    intro f g h
    rcases S.eq_empty_or_nonempty with rfl | hS
    · simpa [Spec.rootMeanSq] using hε
    have hk : (0 : ℝ) < S.card := by exact_mod_cast hS.card_pos
    have hB0 : 0 ≤ Spec.rootMeanSq S g := Real.sqrt_nonneg _
    have hB2 : Spec.rootMeanSq S g ^ 2 * S.card = ∑ q ∈ S, Spec.numberOf (g q) ^ 2 := by
      unfold Spec.rootMeanSq
      rw [Real.sq_sqrt (div_nonneg (Finset.sum_nonneg fun q _ => sq_nonneg _) hk.le)]
      field_simp
    have hcs : (∑ q ∈ S, |Spec.numberOf (g q)|) ≤ S.card * Spec.rootMeanSq S g := by
      refine le_of_sq_le_sq ?_ (by positivity)
      have := sq_sum_le_card_mul_sum_sq (s := S) (f := fun q => |Spec.numberOf (g q)|)
      simp only [sq_abs] at this
      rw [← hB2] at this
      linarith
    have h1 : ∑ q ∈ S, Spec.numberOf (f q) ^ 2 ≤ (Spec.rootMeanSq S g + ε) ^ 2 * S.card := by
      have h2 : ∀ q ∈ S, Spec.numberOf (f q) ^ 2 ≤
          Spec.numberOf (g q) ^ 2 + 2 * ε * |Spec.numberOf (g q)| + ε ^ 2 := by
        intro q hq
        have e1 : |Spec.numberOf (f q)| ≤ |Spec.numberOf (g q)| + ε := by
          have := abs_add_le (Spec.numberOf (f q) - Spec.numberOf (g q)) (Spec.numberOf (g q))
          rw [sub_add_cancel] at this
          linarith [h q hq]
        have e2 := pow_le_pow_left₀ (abs_nonneg _) e1 2
        rw [sq_abs] at e2
        have e3 := sq_abs (Spec.numberOf (g q))
        nlinarith
      refine (Finset.sum_le_sum h2).trans ?_
      rw [Finset.sum_add_distrib, Finset.sum_add_distrib, ← Finset.mul_sum, Finset.sum_const, nsmul_eq_mul, ← hB2]
      have := mul_le_mul_of_nonneg_left hcs (show 0 ≤ 2 * ε by linarith)
      linarith
    unfold Spec.rootMeanSq at h1 ⊢
    rw [Real.sqrt_le_left (add_nonneg (Real.sqrt_nonneg _) hε), div_le_iff₀ hk]
    exact h1
  rw [abs_le]
  have h1 := key f g h
  have h2 := key g f fun q hq => by rw [abs_sub_comm]; exact h q hq
  constructor <;> linarith

/-! ## A second call on the same array -/

/-- **C131.**  A second call with `circ=True` on the array that the first one left finds the same rms and leaves the
array as it is. -/
theorem C131_again (rnd : ℝ → Fl) (adds : ∀ k, Dbl.Adds k) (m n : ℕ) (f g : Fin m × Fin n → Fl) (res : Fl)
    (h : Dbl.rms rnd adds (.d2 m n f) true = (.ok res, .d2 m n g)) :
    Dbl.rms rnd adds (.d2 m n g) true = (.ok res, .d2 m n g) := by
  by_cases hmn : m = n
  · subst hmn
    unfold Dbl.rms Dbl.maskNan at h ⊢
    simp only [dif_pos, Fin.cast_eq_self, Prod.mk.injEq, Except.ok.injEq, Dbl.Arr.d2.injEq, heq_eq_eq, true_and,
      Prod.mk.eta] at h ⊢
    obtain ⟨h1, h2⟩ := h
    have hg : (fun q => open Classical in if Dbl.circMask rnd m m q then Fl.nan else g q) = g := by
      funext q
      rw [← h2]
      by_cases hq : Dbl.circMask rnd m m q <;> simp [hq]
    refine ⟨?_, hg⟩
    rw [← h1, hg, h2]
  · unfold Dbl.rms Dbl.maskNan at h
    simp [hmn] at h

/-! ## The columns of the table -/

/-- In exact numbers. -/
theorem rms_exact {N : ℕ} (hN : 2 ≤ N) (phi : Fin N × Fin N → ℝ) (S : Finset (Fin N × Fin N))
    (hS : ∀ q, q ∈ S ↔ Spec.ringSq q ≤ ((N : ℤ) - 1) ^ 2) (hne : S.Nonempty) :
    ∃ G, MathFn.rms (.d2 N N fun q => some (phi q)) true =
        (.ok (some (Spec.rootMeanSq S fun q => .fin (phi q))), .d2 N N G) ∧
      MathFn.rms (.d2 N N G) true = (.ok (some (Spec.rootMeanSq S fun q => .fin (phi q))), .d2 N N G) := by
  classical
  have hc1 : (1 : ℝ) ≤ (N : ℝ) - 1 := by
    have : (2 : ℝ) ≤ N := by exact_mod_cast hN
    linarith
  have hmask : ∀ q, MathFn.circMask N N q ↔ q ∉ S := by
    intro q
    have hr := linspace_ring hN q
    rw [hS, not_le]
    have e : ((N : ℤ) - 1) ^ 2 < Spec.ringSq q ↔ ((N : ℝ) - 1) ^ 2 < (Spec.ringSq q : ℝ) := by
      rw [← Int.cast_lt (R := ℝ)]
      push_cast
      rfl
    rw [e, ← hr]
    unfold MathFn.circMask Np.meshX Np.meshY
    show (1 : ℝ) ^ 2 < _ ↔ _
    rw [add_comm, lt_mul_iff_one_lt_left (by positivity), one_pow]
  set G : Fin N × Fin N → Option ℝ := fun q => if MathFn.circMask N N q then none else some (phi q) with hG
  have hval : MathFn.sqrtMean (MathFn.nansumSq G) (MathFn.numReal G) =
      some (Spec.rootMeanSq S fun q => .fin (phi q)) := by
    have h1 : MathFn.nansumSq G = ∑ q ∈ S, phi q ^ 2 := by
      unfold MathFn.nansumSq
      rw [← Finset.sum_filter_add_sum_filter_not univ (fun q => q ∈ S)]
      have h2 : ∑ q ∈ univ.filter (fun q => ¬ q ∈ S), (G q).getD 0 ^ 2 = 0 := by
        refine Finset.sum_eq_zero fun q hq => ?_
        have : MathFn.circMask N N q := (hmask q).2 (Finset.mem_filter.1 hq).2
        simp [hG, this]
      rw [h2, add_zero, Finset.filter_mem_eq_inter, Finset.univ_inter]
      refine Finset.sum_congr rfl fun q hq => ?_
      have : ¬ MathFn.circMask N N q := fun hc => (hmask q).1 hc hq
      simp [hG, this]
    have h2 : MathFn.numReal G = S.card := by
      unfold MathFn.numReal
      congr 1
      ext q
      rw [Finset.mem_filter]
      by_cases hq : MathFn.circMask N N q
      · simp [hG, hq, (hmask q).1 hq]
      · have : q ∈ S := by
          by_contra hc
          exact hq ((hmask q).2 hc)
        simp [hG, hq, this]
    unfold MathFn.sqrtMean
    rw [h1, h2, if_neg hne.card_pos.ne']
    rfl
  have hGG : (fun q => if MathFn.circMask N N q then none else G q) = G := by
    funext q
    by_cases hq : MathFn.circMask N N q <;> simp [hG, hq]
  refine ⟨G, ?_, ?_⟩
  · unfold MathFn.rms MathFn.maskNan
    simp only [dif_pos, Fin.cast_eq_self, Prod.mk.eta]
    rw [← hval]
  · unfold MathFn.rms MathFn.maskNan
    simp only [dif_pos, Fin.cast_eq_self, Prod.mk.eta]
    rw [hGG, hval]

/-- **C131.**  The columns `phase-rms` and `e_rs` of the table, from the coefficients to the numbers, all in doubles, for
maps with an even number of pixels on a side, as the default 1000: the map of `phase`, `rms(phase, circ=True)`, then
`e_rs(phase, circ=True)` on the map that `rms` has left.  Both are as near to the exact ones as the phase map is to the
exact map, and `D`, the depth of the sum, adds a few units of the last place each. -/
theorem C131_table {rnd : ℝ → Fl} (h : Spec.Rounding rnd) {L : Dbl.LibmP} (hL : Spec.AccurateP L)
    (hL0 : L.powr (.fin 0) (.fin 2) = .fin 0) (adds : ∀ k, Dbl.Adds k) (ha : ∀ k, Spec.Once (adds k)) (n : ℕ)
    (hn1 : 1 ≤ n) (hn : n ≤ 20) (K : List ℝ) (hK : K.length = (n + 1) * (n + 2) / 2) (hKd : ∀ k ∈ K, Spec.IsDouble k)
    (hKs : (K.map fun k => |k|).sum ≤ 2 ^ 200) (pr : ℝ) (hp : Spec.IsDouble pr) (h1 : 1 / 2 ^ 100 ≤ pr) (h2 : pr ≤ 2 ^ 100)
    (piston tilt : Bool) (N : ℕ) (hN4 : 4 ≤ N) (hN' : N ≤ 2 ^ 22) (he : Even N)
    (D : ℕ) (hd : ∀ k ≤ N * N, Spec.depth (adds k) ≤ D) (hD : D ≤ 2 ^ 40) (ε : ℝ)
    (hε : ε = (1 + Real.sqrt 2) ^ n / 2 ^ 38 * (K.map fun k => |k|).sum + 2 ^ (-1060 : ℤ)) :
    ∃ P Q z r e g G, Dbl.phase rnd L.toLibmA K pr piston tilt N = .ok P ∧ Aperture.phase K pr piston tilt N = .ok Q ∧
      Dbl.rms rnd adds (.d2 N N P.phi) true = (.ok (.fin z), .d2 N N g) ∧
      MathFn.rms (.d2 N N fun q => some (Q.phi q)) true = (.ok (some r), G) ∧
      Dbl.eRs rnd L adds (.d2 N N g) true = (.ok (.fin e), .d2 N N g) ∧
      MathFn.eRs G true = (.ok (some (Real.exp (-r ^ 2))), G) ∧
      |z - r| ≤ ε + (1.01 * D + 4) / 2 ^ 53 * (r + ε) + 2 ^ (-500 : ℤ) ∧
      |e - Real.exp (-r ^ 2)| ≤ Real.sqrt 2 * ε + (9 * D + 80) / 2 ^ 53 := by
  classical
  have hN : 2 ≤ N := by omega
  have hp0 : 0 < pr := lt_of_lt_of_le (by positivity) h1
  obtain ⟨P, Q, K', W, hP, hQ, -, -, hgrid, hpix⟩ := C120_phase h hL.base.base n hn1 hn K hK hKd hKs pr hp h1 h2 piston tilt N hN
    (hN'.trans (by norm_num))
  rw [← hε] at hpix
  have hQx : Q.x = Np.linspace (-pr) pr N ∧ Q.y = Np.linspace (-pr) pr N := by
    unfold Aperture.phase at hQ
    simp only [bind, Except.bind] at hQ
    split at hQ
    · cases hQ
    · split at hQ
      · cases hQ
      · cases hQ
        exact ⟨rfl, rfl⟩
  have hS0 : 0 ≤ (K.map fun k => |k|).sum := List.sum_nonneg (by simp)
  have hε0 : 0 ≤ ε := by rw [hε]; positivity
  obtain ⟨hX1, hX2⟩ := sqrt_two_pow hn
  have hK3 : 3 ≤ K.length := by
    rw [hK]
    calc 3 = (1 + 1) * (1 + 2) / 2 := by norm_num
      _ ≤ _ := by gcongr
  obtain ⟨Q', hQ', hQb⟩ := C11_bound K pr hp0 piston tilt N n hK (fun _ => hK3)
  rw [hQ] at hQ'
  cases hQ'
  -- a pixel is clearly inside or clearly outside
  have hc1 : (1 : ℝ) ≤ (N : ℝ) - 1 := by
    have : (2 : ℝ) ≤ N := by exact_mod_cast hN
    linarith
  have hc2 : (N : ℝ) - 1 ≤ 4194304 := by
    have : (N : ℝ) ≤ 4194304 := by exact_mod_cast (show N ≤ 4194304 from hN'.trans (by norm_num))
    linarith
  have hcc : ((N : ℝ) - 1) ^ 2 ≤ 17592186044416 := by nlinarith
  have hcc0 : 0 < ((N : ℝ) - 1) ^ 2 := by positivity
  have hscale : ∀ q : Fin N × Fin N, (Q.x q.2 ^ 2 + Q.y q.1 ^ 2) * ((N : ℝ) - 1) ^ 2 = pr ^ 2 * (Spec.ringSq q : ℝ) := by
    intro q
    rw [hQx.1, hQx.2, ← linspace_ring hN q]
    unfold Np.linspace
    ring
  have hpp : 0 < pr ^ 2 := by positivity
  have hin : ∀ q, Spec.ringSq q < ((N : ℤ) - 1) ^ 2 → Q.x q.2 ^ 2 + Q.y q.1 ^ 2 ≤ pr ^ 2 * (1 - 1 / 2 ^ 47) := by
    intro q hq
    have e1 : Spec.ringSq q + 1 ≤ ((N : ℤ) - 1) ^ 2 := hq
    have e2 : (Spec.ringSq q : ℝ) + 1 ≤ ((N : ℝ) - 1) ^ 2 := by exact_mod_cast e1
    have e3 := hscale q
    refine le_of_mul_le_mul_right ?_ hcc0
    rw [e3, mul_assoc]
    refine mul_le_mul_of_nonneg_left ?_ hpp.le
    norm_num only
    linarith
  have hout : ∀ q, ((N : ℤ) - 1) ^ 2 < Spec.ringSq q → pr ^ 2 * (1 + 1 / 2 ^ 47) < Q.x q.2 ^ 2 + Q.y q.1 ^ 2 := by
    intro q hq
    have e1 : ((N : ℤ) - 1) ^ 2 + 1 ≤ Spec.ringSq q := hq
    have e2 : ((N : ℝ) - 1) ^ 2 + 1 ≤ (Spec.ringSq q : ℝ) := by exact_mod_cast e1
    have e3 := hscale q
    refine lt_of_mul_lt_mul_right ?_ hcc0.le
    rw [e3, mul_assoc]
    refine mul_lt_mul_of_pos_left ?_ hpp
    norm_num only
    linarith
  choose f hf hfd hf1 hf2 _ using hpix
  have hεb : ε ≤ 2 ^ 250 := by
    rw [hε]
    have e1 : (1 + Real.sqrt 2) ^ n / 2 ^ 38 ≤ 2 ^ 20 := by
      rw [div_le_iff₀ (by positivity)]
      refine hX2.trans ?_
      norm_num
    have e2 := mul_le_mul e1 hKs hS0 (by positivity)
    have e3 := tiny_le (k := -1060) (by norm_num)
    generalize (2 : ℝ) ^ (-1060 : ℤ) = τ at *
    norm_num at e2 e3 ⊢
    linarith
  have hQ250 : ∀ q, |Q.phi q| ≤ 2 ^ 250 := by
    intro q
    refine (hQb q).trans ?_
    have e1 : 2 * Real.pi * (K.map fun k => |k|).sum ≤ 2 * 4 * 2 ^ 200 := by
      refine mul_le_mul ?_ hKs hS0 (by norm_num)
      linarith [Real.pi_le_four]
    refine e1.trans ?_
    norm_num
  have hnear : ∀ q, Spec.ringSq q < ((N : ℤ) - 1) ^ 2 → |f q - Q.phi q| ≤ ε := fun q hq => hf1 q (hin q hq)
  have hmod : ∀ q, Spec.Moderate (P.phi q) := by
    intro q
    refine Or.inr ⟨f q, hf q, ?_⟩
    refine le_trans (?_ : |f q| ≤ 2 ^ 251) (two_pow_le (by norm_num))
    rcases lt_trichotomy (Spec.ringSq q) (((N : ℤ) - 1) ^ 2) with hq | hq | hq
    · have e1 := abs_add_le (f q - Q.phi q) (Q.phi q)
      rw [sub_add_cancel] at e1
      have e2 := hnear q hq
      have e3 := hQ250 q
      have e4 : (2 : ℝ) ^ 251 = 2 * 2 ^ 250 := by rw [← pow_succ']
      rw [e4]
      linarith
    · exact absurd hq (C131_even he q)
    · rw [(hf2 q (hout q hq)).1, abs_zero]
      positivity
  obtain ⟨res, g, S, hres, -, hSg, hSin, hSout, -, -, hSne⟩ := C131_circle h adds ha N hN hN' P.phi hmod D hd hD
  have hnn : ∀ q, P.phi q ≠ .nan := fun q => by rw [hf q]; simp
  have hS : ∀ q, q ∈ S ↔ Spec.ringSq q ≤ ((N : ℤ) - 1) ^ 2 := by
    intro q
    constructor
    · intro hq
      by_contra hc
      push Not at hc
      exact hSout q hc hq
    · intro hq
      exact hSin q (hnn q) (lt_of_le_of_ne hq (C131_even he q))
  have hne : S.Nonempty := by
    obtain ⟨k, hk⟩ := he
    refine ⟨(⟨k, by omega⟩, ⟨k, by omega⟩), ?_⟩
    rw [hS]
    have e : (N : ℤ) = 2 * k := by omega
    have hk2 : (2 : ℤ) ≤ k := by omega
    unfold Spec.ringSq
    simp only
    rw [e]
    nlinarith
  obtain ⟨z, rfl, hzd, hz0, hz⟩ := hSne hne
  obtain ⟨G, hG1, hG2⟩ := rms_exact hN Q.phi S hS hne
  set r := Spec.rootMeanSq S fun q => .fin (Q.phi q) with hr
  set r' := Spec.rootMeanSq S P.phi with hr'
  have hrr : |r' - r| ≤ ε := by
    refine rootMeanSq_near S _ _ hε0 fun q hq => ?_
    rw [hf q]
    exact hnear q (lt_of_le_of_ne ((hS q).1 hq) (C131_even he q))
  have hr0 : 0 ≤ r' := Real.sqrt_nonneg _
  have hrb : r' ≤ 2 ^ 300 := by
    have hk : (0 : ℝ) < S.card := by exact_mod_cast hne.card_pos
    rw [hr']
    unfold Spec.rootMeanSq
    rw [Real.sqrt_le_left (by positivity), div_le_iff₀ hk]
    have : ∑ q ∈ S, Spec.numberOf (P.phi q) ^ 2 ≤ ∑ _q ∈ S, ((2 : ℝ) ^ 300) ^ 2 := by
      refine Finset.sum_le_sum fun q _ => ?_
      rw [← sq_abs (Spec.numberOf _)]
      exact pow_le_pow_left₀ (abs_nonneg _) (moderate_cases (hmod q)).2 2
    rw [Finset.sum_const, nsmul_eq_mul] at this
    linarith
  obtain ⟨e, he1, -, -, he2⟩ := C131_efficiency hL hL0 adds (.d2 N N g) (.d2 N N g) true z r'
    (C131_again rnd adds N N P.phi g _ hres) hzd hz0 hr0 hrb D hD hz
  refine ⟨P, Q, z, r, e, g, .d2 N N G, hP, hQ, hres, hG1, he1, ?_, ?_, ?_⟩
  · unfold MathFn.eRs
    rw [hG2]
    rfl
  · have e1 : z - r = (z - r') + (r' - r) := by ring
    rw [e1]
    refine (abs_add_le _ _).trans ((add_le_add hz hrr).trans ?_)
    have e2 : (1.01 * (D : ℝ) + 4) / 2 ^ 53 * r' ≤ (1.01 * D + 4) / 2 ^ 53 * (r + ε) :=
      mul_le_mul_of_nonneg_left (by linarith [(abs_le.1 hrr).2]) (by positivity)
    linarith
  · have e1 : e - Real.exp (-r ^ 2) = (Real.exp (-r' ^ 2) - Real.exp (-r ^ 2)) + (e - Real.exp (-r' ^ 2)) := by ring
    rw [e1]
    refine (abs_add_le _ _).trans (add_le_add ((expSq_lip r' r).trans ?_) he2)
    exact mul_le_mul_of_nonneg_left hrr (Real.sqrt_nonneg 2)

/-! ## Cases -/

/-- One number after the other. -/
def Spec.inOrder (k : ℕ) : Dbl.Adds k := (List.finRange k).foldl (fun t i => .both t (.item i)) .zero

theorem inOrder_fold {k : ℕ} (l : List (Fin k)) (t : Dbl.Adds k) :
    Spec.terms (l.foldl (fun t i => .both t (.item i)) t) = Spec.terms t ++ l ∧
      Spec.depth (l.foldl (fun t i => .both t (.item i)) t) = Spec.depth t + l.length := by
  induction l generalizing t with
  | nil => simp
  | cons a l ih =>
    rw [List.foldl_cons]
    refine ⟨(ih _).1.trans (by simp [Spec.terms]), (ih _).2.trans ?_⟩
    simp [Spec.depth]
    omega

theorem inOrder_once (k : ℕ) : Spec.Once (Spec.inOrder k) := by
  unfold Spec.Once Spec.inOrder
  rw [(inOrder_fold _ _).1]
  exact List.Perm.refl _

theorem inOrder_depth (k : ℕ) : Spec.depth (Spec.inOrder k) = k := by
  unfold Spec.inOrder
  rw [(inOrder_fold _ _).2]
  simp [Spec.depth]

/-- A row with a gap: the rms of 3, nan, 4, 0 is 5 / 2, as if the gap were a zero, right to 14 digits. -/
example : ∃ rnd z, Spec.Rounding rnd ∧
    Dbl.rms rnd Spec.inOrder (.d1 4 ![.fin 3, .nan, .fin 4, .fin 0]) false =
      (.ok (.fin z), .d1 4 ![.fin 3, .nan, .fin 4, .fin 0]) ∧ |z - 5 / 2| ≤ 1 / 10 ^ 14 := by
  obtain ⟨rnd, h⟩ := rounding_exists
  have hmod : ∀ q : Fin 4, Spec.Moderate ((![.fin 3, .nan, .fin 4, .fin 0] : Fin 4 → Fl) q) := by
    have h4 : (4 : ℝ) ≤ 2 ^ 300 := (show (4 : ℝ) ≤ 2 ^ 2 by norm_num).trans (two_pow_le (by norm_num))
    intro q
    fin_cases q
    · exact Or.inr ⟨3, rfl, by rw [abs_of_pos (by norm_num)]; exact le_trans (by norm_num) h4⟩
    · exact Or.inl rfl
    · exact Or.inr ⟨4, rfl, by rw [abs_of_pos (by norm_num)]; exact h4⟩
    · exact Or.inr ⟨0, rfl, by simp⟩
  obtain ⟨⟨z, hz, -, -, he⟩, -⟩ := C131_line h Spec.inOrder inOrder_once 4 _ hmod (by norm_num) (by norm_num)
    (by rw [inOrder_depth]; norm_num)
  refine ⟨rnd, z, h, hz, ?_⟩
  have e : Real.sqrt ((∑ q : Fin 4, Spec.numberOf ((![.fin 3, .nan, .fin 4, .fin 0] : Fin 4 → Fl) q) ^ 2) / (4 : ℕ)) = 5 / 2 := by
    rw [Real.sqrt_eq_iff_mul_self_eq (by positivity) (by norm_num)]
    rw [Fin.sum_univ_four]
    simp [Spec.numberOf]
    norm_num
  rw [e, inOrder_depth] at he
  have hτ := tiny_le (k := -500) (by norm_num)
  generalize (2 : ℝ) ^ (-500 : ℤ) = τ at *
  norm_num at he hτ ⊢
  linarith

/-- A defocus of a quarter on the default map of 1000 by 1000 pixels, added pixel by pixel: the computed rms and the
computed efficiency are right to nine digits. -/
example : ∃ rnd L, Spec.Rounding rnd ∧ Spec.AccurateP L ∧ ∃ P Q z r e g G,
    Dbl.phase rnd L.toLibmA [0, 0, 0, 0, 1 / 4, 0] 50 true true 1000 = .ok P ∧
      Aperture.phase [0, 0, 0, 0, 1 / 4, 0] 50 true true 1000 = .ok Q ∧
      Dbl.rms rnd Spec.inOrder (.d2 1000 1000 P.phi) true = (.ok (.fin z), .d2 1000 1000 g) ∧
      MathFn.rms (.d2 1000 1000 fun q => some (Q.phi q)) true = (.ok (some r), G) ∧
      Dbl.eRs rnd L Spec.inOrder (.d2 1000 1000 g) true = (.ok (.fin e), .d2 1000 1000 g) ∧
      |z - r| ≤ (1 + r) / 10 ^ 9 ∧ |e - Real.exp (-r ^ 2)| ≤ 2 / 10 ^ 9 := by
  obtain ⟨rnd, h⟩ := rounding_exists
  have hdq : Spec.IsDouble (1 / 4) := ⟨1, -2, by norm_num, by norm_num, by norm_num, by norm_num⟩
  have hd50 : Spec.IsDouble 50 := by simpa using isDouble_int (z := 50) (by norm_num)
  have hsum : (([0, 0, 0, 0, 1 / 4, 0] : List ℝ).map fun k => |k|).sum = 1 / 4 := by norm_num [abs_of_pos]
  have hpow : (Spec.bestLibmP rnd).powr (.fin 0) (.fin 2) = .fin 0 := by
    simp [Spec.bestLibmP, Fl.pow, Dbl.rop, rnd_zero h]
  obtain ⟨P, Q, z, r, e, g, G, hP, hQ, hz, hr, he, -, h1, h2⟩ := C131_table h (bestLibmP_accurate h) hpow Spec.inOrder
    inOrder_once 2 (by norm_num) (by norm_num)
    [0, 0, 0, 0, 1 / 4, 0] (by simp) (by
      intro k hk
      simp only [List.mem_cons, List.not_mem_nil, or_false] at hk
      rcases hk with rfl | rfl | rfl | rfl | rfl | rfl
      all_goals first | exact isDouble_zero | exact hdq) (by rw [hsum]; norm_num) 50 hd50 (by norm_num) (by norm_num)
    true true 1000 (by norm_num) (by norm_num) (by decide) (1000 * 1000) (fun k hk => by rw [inOrder_depth]; exact hk)
    (by norm_num) _ rfl
  have hr0 : 0 ≤ r := by
    have := congrArg Prod.fst hr
    unfold MathFn.rms at this
    simp only at this
    split at this
    · cases this
    · simp only [Except.ok.injEq] at this
      unfold MathFn.sqrtMean at this
      split at this
      · cases this
      · injection this with this
        rw [← this]
        exact Real.sqrt_nonneg _
  refine ⟨rnd, _, h, bestLibmP_accurate h, P, Q, z, r, e, g, G, hP, hQ, hz, hr, he, ?_, ?_⟩
  · refine h1.trans ?_
    rw [hsum]
    have h14 : Real.sqrt 2 ≤ 1.4143 := by
      rw [Real.sqrt_le_left (by norm_num)]
      norm_num
    have hs0 := Real.sqrt_nonneg 2
    have hp : (1 + Real.sqrt 2) ^ 2 ≤ 6 := by nlinarith
    have hτ := tiny_le (k := -1060) (by norm_num)
    have hσ := tiny_le (k := -500) (by norm_num)
    generalize (1 + Real.sqrt 2) ^ 2 = X at *
    generalize (2 : ℝ) ^ (-1060 : ℤ) = τ at *
    generalize (2 : ℝ) ^ (-500 : ℤ) = σ at *
    norm_num at hτ hσ ⊢
    linarith
  · refine h2.trans ?_
    rw [hsum]
    have h14 : Real.sqrt 2 ≤ 1.4143 := by
      rw [Real.sqrt_le_left (by norm_num)]
      norm_num
    have hs0 := Real.sqrt_nonneg 2
    have hp : (1 + Real.sqrt 2) ^ 2 ≤ 6 := by nlinarith
    have hτ := tiny_le (k := -1060) (by norm_num)
    have hτ0 : (0 : ℝ) < 2 ^ (-1060 : ℤ) := by positivity
    have hX0 : 0 ≤ (1 + Real.sqrt 2) ^ 2 := by positivity
    generalize (1 + Real.sqrt 2) ^ 2 = X at *
    generalize (2 : ℝ) ^ (-1060 : ℤ) = τ at *
    have e1 : Real.sqrt 2 * (X / 2 ^ 38 * (1 / 4) + τ) ≤ 1.4143 * (6 / 2 ^ 38 * (1 / 4) + 1 / 2 ^ 100) := by
      gcongr
    refine (add_le_add_left e1 _).trans ?_
    norm_num

end Verif.Props
