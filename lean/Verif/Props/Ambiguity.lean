import Verif.Props.Symmetry
import Verif.Props.Optics
import Verif.Props.Residual

/-!
# The sign of the even orders and the direction of the defocus (C77)
-/

namespace Verif.Props

open Verif Verif.Np Verif.Zernike Verif.Aperture Verif.Telgeometry Verif.Core Finset

/-- The point of the grid on the other side of the centre. -/
def Spec.opposite {N : ℕ} (q : Fin N × Fin N) : Fin N × Fin N := (q.1.rev, q.2.rev)

/-- On the grid of `radiation_pattern` the blockage times the illumination is the same at opposite
points, and the optical path difference at opposite points is opposite for opposite radial offsets. -/
def Spec.Central {N : ℕ} (I : List ℝ) (illum : Illum (Fin N × Fin N)) (tel : TelGeo (Fin N × Fin N))
    (bf : ℝ) : Prop :=
  (∃ B Ea, tel.block (fun q => Spec.gridPoint tel.pr bf N q.2)
      (fun q => Spec.gridPoint tel.pr bf N q.1) = .ok B ∧
    illum (fun q => Spec.gridPoint tel.pr bf N q.2)
      (fun q => Spec.gridPoint tel.pr bf N q.1) I tel.pr = .ok Ea ∧
    ∀ q, B (Spec.opposite q) * Ea (Spec.opposite q) = B q * Ea q) ∧
  ∀ dz, ∃ d d', tel.opd (fun q => Spec.gridPoint tel.pr bf N q.2)
      (fun q => Spec.gridPoint tel.pr bf N q.1) dz = .ok d ∧
    tel.opd (fun q => Spec.gridPoint tel.pr bf N q.2)
      (fun q => Spec.gridPoint tel.pr bf N q.1) (-dz) = .ok d' ∧
    ∀ q, d' (Spec.opposite q) = -d q

/-- `K'` is `K` with the sign of the even orders changed. -/
def Spec.EvenFlipped (K K' : List ℝ) : Prop :=
  K'.length = K.length ∧ ∀ n k, k ≤ n → Spec.place n n < K.length →
    K'.getD (Spec.place n k) 0 = (if n % 2 = 0 then -1 else 1) * K.getD (Spec.place n k) 0

theorem gridPoint_rev (pr bf : ℝ) {N : ℕ} (hN : 2 ≤ N) (i : Fin N) :
    Spec.gridPoint pr bf N i.rev = -Spec.gridPoint pr bf N i := by
  unfold Spec.gridPoint
  have hn' : (N : ℝ) - 1 ≠ 0 := by
    have : (2 : ℝ) ≤ N := by exact_mod_cast hN
    linarith
  have := i.isLt
  rw [Fin.val_rev, Nat.cast_sub (by omega)]
  push_cast
  field_simp
  ring

theorem wfVal_even (n : ℕ) (K K' : List ℝ) (hK : K.length = tri (n + 1))
    (h : Spec.EvenFlipped K K') (pr x y : ℝ) :
    wfVal n K' ((cart2pol (-x) (-y)).1 / pr) (cart2pol (-x) (-y)).2 =
      -wfVal n K ((cart2pol x y).1 / pr) (cart2pol x y).2 := by
  unfold wfVal
  rw [← Finset.sum_neg_distrib]
  refine Finset.sum_congr rfl fun i hi => ?_
  rw [← Finset.sum_neg_distrib]
  refine Finset.sum_congr rfl fun k hk => ?_
  have hi' : i ≤ n := by simpa [Nat.lt_succ_iff] using hi
  have hk' : k ≤ i := by simpa [Nat.lt_succ_iff] using hk
  have e := h.2 i k hk' (by rw [hK]; exact place_lt n i hi')
  have hU := Uv_turn i k hk' pr x y Real.pi
  have e0 : (2 * k - i : ℝ) * Real.pi = k * (2 * Real.pi) - i * Real.pi := by ring
  rw [e0, Real.cos_nat_mul_two_pi_sub, Real.sin_nat_mul_two_pi_sub, Real.cos_nat_mul_pi,
    Real.sin_nat_mul_pi] at hU
  simp only [Real.cos_pi, Real.sin_pi, mul_neg, mul_one, mul_zero, sub_zero, zero_add, neg_zero] at hU
  rw [hU]
  simp only [Spec.place] at e
  show K'.getD (i * (i + 1) / 2 + k) 0 * _ = -(K.getD (i * (i + 1) / 2 + k) 0 * _)
  rw [e]
  rcases Nat.even_or_odd i with h2 | h2
  · rw [h2.neg_one_pow, if_pos (Nat.even_iff.1 h2)]; ring
  · rw [h2.neg_one_pow, if_neg (by have := Nat.odd_iff.1 h2; omega)]; ring

/-- Changing the sign of the even orders and of the offset conjugates the aperture at the opposite
point. -/
theorem aperture_even {N : ℕ} (hN : 2 ≤ N) (I K K' : List ℝ) (dz wavel : ℝ)
    (illum : Illum (Fin N × Fin N)) (tel : TelGeo (Fin N × Fin N)) (bf : ℝ)
    (hc : Spec.Central I illum tel bf) (h : Spec.EvenFlipped K K') (E : Fin N × Fin N → ℂ)
    (hE : aperture (fun q => Spec.gridPoint tel.pr bf N q.2)
        (fun q => Spec.gridPoint tel.pr bf N q.1) I K dz wavel illum tel = .ok E) :
    aperture (fun q => Spec.gridPoint tel.pr bf N q.2)
        (fun q => Spec.gridPoint tel.pr bf N q.1) I K' (-dz) wavel illum tel =
      .ok (fun q => (starRingEnd ℂ) (E (Spec.opposite q))) := by
  obtain ⟨B, W, dl, Ea, h1, h2, h3, h4, rfl⟩ := aperture_ok_iff.1 hE
  obtain ⟨n, hn, rfl⟩ := wavefront_ok_inv h2
  obtain ⟨⟨B', Ea', b1, b2, b3⟩, ho⟩ := hc
  rw [h1] at b1
  cases b1
  rw [h4] at b2
  cases b2
  obtain ⟨d, d', o1, o2, o3⟩ := ho dz
  rw [h3] at o1
  cases o1
  have h2' := wavefront_ok (fun q : Fin N × Fin N => (cart2pol (Spec.gridPoint tel.pr bf N q.2)
      (Spec.gridPoint tel.pr bf N q.1)).1 / tel.pr)
    (fun q => (cart2pol (Spec.gridPoint tel.pr bf N q.2) (Spec.gridPoint tel.pr bf N q.1)).2) K' n
    (h.1.trans hn)
  refine aperture_ok_iff.2 ⟨B, _, d', Ea, h1, h2', o2, h4, ?_⟩
  funext q
  have hw := wfVal_even n K K' hn h tel.pr (Spec.gridPoint tel.pr bf N q.2.rev)
    (Spec.gridPoint tel.pr bf N q.1.rev)
  rw [gridPoint_rev _ _ hN, gridPoint_rev _ _ hN, neg_neg, neg_neg] at hw
  have hd := o3 (Spec.opposite q)
  have hoo : Spec.opposite (Spec.opposite q) = q := by simp [Spec.opposite]
  rw [hoo] at hd
  simp only [Spec.opposite, gridPoint_rev _ _ hN] at hw hd b3 ⊢
  rw [hw, hd, map_mul, Complex.conj_ofReal, b3, ← Complex.exp_conj, map_mul, Complex.conj_ofReal,
    Complex.conj_I]
  congr 2
  push_cast
  ring

/-- **C77.**  Changing the sign of all even order coefficients and of the radial offset leaves the beam
map as it is. -/
theorem C77_pattern (I K K' : List ℝ) (dz wavel : ℝ) (N : ℕ)
    (illum : Illum (Fin N × Fin N)) (tel : TelGeo (Fin N × Fin N)) (bf : ℝ) (P : Pattern N)
    (hpr : tel.pr ≠ 0) (hbf : bf ≠ 0) (hw : wavel ≠ 0)
    (hc : Spec.Central I illum tel bf) (hK : Spec.EvenFlipped K K')
    (h : radiationPattern I K dz wavel illum tel bf = .ok P) :
    ∃ P', radiationPattern I K' (-dz) wavel illum tel bf = .ok P' ∧ P'.u = P.u ∧ P'.v = P.v ∧
      ∀ q, ‖P'.F q‖ = ‖P.F q‖ := by
  have hN : 2 ≤ N := (radiationPattern_ok h).1
  obtain ⟨E, hE, hF⟩ := C69_far_field _ _ dz wavel N illum tel bf P hpr hbf hw h
  have hE' := aperture_even hN I K K' dz wavel illum tel bf hc hK E hE
  have hP' : ∃ P', radiationPattern I K' (-dz) wavel illum tel bf = .ok P' := by
    rw [C14_ok_iff _ _ _ _ _ hN, linspace_grid]
    exact ⟨_, hE'⟩
  obtain ⟨P', hP'⟩ := hP'
  obtain ⟨E', hE'', hF'⟩ := C69_far_field _ _ (-dz) wavel N illum tel bf P' hpr hbf hw hP'
  rw [hE'] at hE''
  cases hE''
  have huv : P'.u = P.u ∧ P'.v = P.v := by
    obtain ⟨-, -, -, rfl⟩ := radiationPattern_ok h
    obtain ⟨-, -, -, rfl⟩ := radiationPattern_ok hP'
    exact ⟨rfl, rfl⟩
  refine ⟨P', hP', huv.1, huv.2, fun q => ?_⟩
  obtain ⟨i, j⟩ := q
  rw [hF', hF, huv.1, huv.2]
  have : Spec.farField tel.pr bf wavel (fun q => (starRingEnd ℂ) (E (Spec.opposite q))) (P.u j) (P.v i) =
      (starRingEnd ℂ) (Spec.farField tel.pr bf wavel E (P.u j) (P.v i)) := by
    unfold Spec.farField
    rw [map_sum]
    rw [← Equiv.sum_comp Fin.revPerm]
    refine sum_congr rfl fun a _ => ?_
    rw [map_sum, ← Equiv.sum_comp Fin.revPerm]
    refine sum_congr rfl fun b _ => ?_
    rw [map_mul, ← Complex.exp_conj]
    simp only [Fin.revPerm_apply, Spec.opposite, Fin.rev_rev, gridPoint_rev _ _ hN, map_mul, map_neg,
      Complex.conj_ofReal, Complex.conj_I, map_ofNat]
    congr 2
    push_cast
    ring
  rw [this, Complex.norm_conj]

/-- **C77.**  So for maps in focus the two sets of coefficients cannot be told apart. -/
theorem C77_in_focus (I K K' : List ℝ) (wavel : ℝ) (N : ℕ)
    (illum : Illum (Fin N × Fin N)) (tel : TelGeo (Fin N × Fin N)) (bf : ℝ) (P : Pattern N)
    (hpr : tel.pr ≠ 0) (hbf : bf ≠ 0) (hw : wavel ≠ 0)
    (hc : Spec.Central I illum tel bf) (hK : Spec.EvenFlipped K K')
    (h : radiationPattern I K 0 wavel illum tel bf = .ok P) :
    ∃ P', radiationPattern I K' 0 wavel illum tel bf = .ok P' ∧ P'.u = P.u ∧ P'.v = P.v ∧
      ∀ q, ‖P'.F q‖ = ‖P.F q‖ := by
  simpa using C77_pattern I K K' 0 wavel N illum tel bf P hpr hbf hw hc hK h

theorem modelRow_even {N M : ℕ} (I K K' : List ℝ) (hI : I.length = 5) (u v : Fin 3 × Fin M → ℝ)
    (dz : Fin 3 → ℝ) (wavel : ℝ) (illum : Illum (Fin N × Fin N)) (tel : TelGeo (Fin N × Fin N)) (bf : ℝ)
    (hpr : tel.pr ≠ 0) (hbf : bf ≠ 0) (hw : wavel ≠ 0)
    (hc : Spec.Central I illum tel bf) (hK : Spec.EvenFlipped K K') (i : Fin 3) (b : Fin M → ℝ)
    (h : modelRow (I ++ K) u v dz wavel illum tel bf i = .ok b) :
    modelRow (I ++ K') u v (fun i => -dz i) wavel illum tel bf i = .ok b := by
  obtain ⟨P, h1, h2⟩ := modelRow_ok.1 h
  rw [← hI, List.take_left, List.drop_left] at h1
  obtain ⟨P', h3, h4, h5, h6⟩ := C77_pattern I K K' (dz i) wavel N illum tel bf P hpr hbf hw hc hK h1
  refine modelRow_ok.2 ⟨P', ?_, ?_⟩
  · rw [← hI, List.take_left, List.drop_left]
    exact h3
  · rw [h4, h5]
    simp only [h6]
    exact h2

/-- **C77.**  The objective of the fit: exchanging the sign of the radial offsets of the observations is
the same as exchanging the sign of the even order coefficients. -/
theorem C77_residual {N M : ℕ} (I K K' : List ℝ) (hI : I.length = 5) (beam : Fin 3 × Fin M → Fl)
    (u v : Fin 3 × Fin M → ℝ) (dz : Fin 3 → ℝ) (wavel : ℝ) (illum : Illum (Fin N × Fin N))
    (tel : TelGeo (Fin N × Fin N)) (bf : ℝ)
    (hpr : tel.pr ≠ 0) (hbf : bf ≠ 0) (hw : wavel ≠ 0)
    (hc : Spec.Central I illum tel bf) (hK : Spec.EvenFlipped K K') (r : List ℝ)
    (h : residualTrue (I ++ K) beam u v dz wavel illum tel bf = .ok r) :
    residualTrue (I ++ K') beam u v (fun i => -dz i) wavel illum tel bf = .ok r := by
  obtain ⟨b, hb, h2⟩ := residualTrue_ok.1 h
  exact residualTrue_ok.2 ⟨b, fun i => modelRow_even I K K' hI u v dz wavel illum tel bf hpr hbf hw hc hK
    i (b i) (hb i), h2⟩

/-- **C77.**  With all three maps in focus the objective has the same value for both. -/
theorem C77_no_defocus {N M : ℕ} (I K K' : List ℝ) (hI : I.length = 5) (beam : Fin 3 × Fin M → Fl)
    (u v : Fin 3 × Fin M → ℝ) (wavel : ℝ) (illum : Illum (Fin N × Fin N))
    (tel : TelGeo (Fin N × Fin N)) (bf : ℝ)
    (hpr : tel.pr ≠ 0) (hbf : bf ≠ 0) (hw : wavel ≠ 0)
    (hc : Spec.Central I illum tel bf) (hK : Spec.EvenFlipped K K') (r : List ℝ)
    (h : residualTrue (I ++ K) beam u v (fun _ => 0) wavel illum tel bf = .ok r) :
    residualTrue (I ++ K') beam u v (fun _ => 0) wavel illum tel bf = .ok r := by
  have := C77_residual I K K' hI beam u v (fun _ => 0) wavel illum tel bf hpr hbf hw hc hK r h
  simpa using this

/-! ### The telescopes and illuminations of the package -/

theorem opdAt_opposite (Fp F dz x y : ℝ) :
    opdAt Fp F (-x) (-y) (-dz) = -opdAt Fp F x y dz := by
  unfold opdAt
  rw [neg_sq, neg_sq]
  ring

/-- **C77.**  Centred illuminations: both functions, without offset. -/
theorem C77_illumination {N : ℕ} (hN : 2 ≤ N) (i c q pr bf : ℝ) (illum : Illum (Fin N × Fin N))
    (hi : illum = illumGauss ∨ illum = illumParabolic) :
    ∃ Ea, illum (fun q => Spec.gridPoint pr bf N q.2)
        (fun q => Spec.gridPoint pr bf N q.1) [i, c, q, 0, 0] pr = .ok Ea ∧
      ∀ p, Ea (Spec.opposite p) = Ea p := by
  rcases hi with rfl | rfl
  · refine ⟨_, rfl, fun p => ?_⟩
    simp only [Spec.opposite, gridPoint_rev _ _ hN]
    simp [gaussAt, offset]
  · refine ⟨_, rfl, fun p => ?_⟩
    simp only [Spec.opposite, gridPoint_rev _ _ hN]
    simp [parabolicAt, offset]

/-- **C77.**  The blockages and path differences of the package. -/
theorem C77_manual {N : ℕ} (hN : 2 ≤ N) (pr sr a L Fp F bf i c q : ℝ) (illum : Illum (Fin N × Fin N))
    (hi : illum = illumGauss ∨ illum = illumParabolic) :
    Spec.Central [i, c, q, 0, 0] illum (manualTel pr sr a L Fp F) bf := by
  obtain ⟨Ea, h1, h2⟩ := C77_illumination hN i c q pr bf illum hi
  obtain ⟨B, h3, h4⟩ := C24_value pr sr a L (fun q : Fin N × Fin N => Spec.gridPoint pr bf N q.2)
    (fun q => Spec.gridPoint pr bf N q.1)
  refine ⟨⟨B, Ea, h3, h1, fun p => ?_⟩, fun dz => ⟨_, _, rfl, rfl, fun p => ?_⟩⟩
  · rw [h2]
    congr 1
    have hv : Spec.visible pr sr a L (Spec.gridPoint pr bf N (Spec.opposite p).2)
        (Spec.gridPoint pr bf N (Spec.opposite p).1) ↔
        Spec.visible pr sr a L (Spec.gridPoint pr bf N p.2) (Spec.gridPoint pr bf N p.1) := by
      simp only [Spec.opposite, gridPoint_rev _ _ hN]
      rw [(C24_symmetric _ _ _ _ _ _).1, (C24_symmetric _ _ _ _ _ _).2.1]
    by_cases h : Spec.visible pr sr a L (Spec.gridPoint pr bf N p.2) (Spec.gridPoint pr bf N p.1)
    · rw [(h4 p).1 h, (h4 _).1 (hv.2 h)]
    · rw [(h4 p).2 h, (h4 _).2 (fun h' => h (hv.1 h'))]
  · simp only [Spec.opposite, gridPoint_rev _ _ hN]
    exact opdAt_opposite Fp F dz _ _

theorem C77_effelsberg {N : ℕ} (hN : 2 ≤ N) (alpha : ℝ) (h0 : 0 < alpha) (h1 : alpha < Real.pi / 2)
    (bf i c q : ℝ) (illum : Illum (Fin N × Fin N))
    (hi : illum = illumGauss ∨ illum = illumParabolic) :
    Spec.Central [i, c, q, 0, 0] illum ⟨blockEffelsberg alpha, opdEffelsberg, 50⟩ bf := by
  obtain ⟨Ea, h2, h3⟩ := C77_illumination hN i c q 50 bf illum hi
  obtain ⟨B, h4, h5⟩ := C25_value alpha h0 h1 (fun q : Fin N × Fin N => Spec.gridPoint 50 bf N q.2)
    (fun q => Spec.gridPoint 50 bf N q.1)
  refine ⟨⟨B, Ea, h4, h2, fun p => ?_⟩, fun dz => ⟨_, _, rfl, rfl, fun p => ?_⟩⟩
  · rw [h3]
    congr 1
    have sh : ∀ a b : ℝ, Spec.shade alpha (-a) (-b) ↔ Spec.shade alpha a b := by
      intro a b
      unfold Spec.shade
      rw [abs_neg, abs_neg]
    have hv : ∀ x y, (Spec.visible 50 3.25 1 20 (-x) (-y) ∧ ¬ Spec.shade alpha (-x) (-y) ∧
        ¬ Spec.shade alpha (-y) (-x)) ↔
        (Spec.visible 50 3.25 1 20 x y ∧ ¬ Spec.shade alpha x y ∧ ¬ Spec.shade alpha y x) := by
      intro x y
      rw [(C24_symmetric _ _ _ _ _ _).1, (C24_symmetric _ _ _ _ _ _).2.1, sh, sh]
    have e1 := h5 p
    have e2 := h5 (Spec.opposite p)
    simp only [Spec.opposite, gridPoint_rev _ _ hN, hv] at e1 e2 ⊢
    by_cases h : (Spec.visible 50 3.25 1 20 (Spec.gridPoint 50 bf N p.2) (Spec.gridPoint 50 bf N p.1) ∧
        ¬ Spec.shade alpha (Spec.gridPoint 50 bf N p.2) (Spec.gridPoint 50 bf N p.1) ∧
        ¬ Spec.shade alpha (Spec.gridPoint 50 bf N p.1) (Spec.gridPoint 50 bf N p.2))
    · rw [e1.1 h, e2.1 h]
    · rw [e1.2 h, e2.2 h]
  · simp only [Spec.opposite, gridPoint_rev _ _ hN, neg_sq]
    ring

/-- **C77.**  Maps made by the model with `K`, given to the fit with the offsets of the wrong sign, are
fitted perfectly by the coefficients with the sign of the even orders changed. -/
theorem C77_wrong_sign {N M : ℕ} (hM : 0 < M) (I K K' : List ℝ) (hI : I.length = 5)
    (u v : Fin 3 × Fin M → ℝ) (dz : Fin 3 → ℝ) (wavel : ℝ) (illum : Illum (Fin N × Fin N))
    (tel : TelGeo (Fin N × Fin N)) (bf : ℝ)
    (hpr : tel.pr ≠ 0) (hbf : bf ≠ 0) (hw : wavel ≠ 0)
    (hc : Spec.Central I illum tel bf) (hK : Spec.EvenFlipped K K') (b : Fin 3 → Fin M → ℝ)
    (hb : ∀ i, Spec.Sampled (I ++ K) u v dz wavel illum tel bf i (b i)) :
    residualTrue (I ++ K') (fun q => .fin (b q.1 q.2)) u v (fun i => -dz i) wavel illum tel bf =
      .ok (List.replicate (3 * M) 0) := by
  refine C77_residual I K K' hI _ u v dz wavel illum tel bf hpr hbf hw hc hK _ ?_
  have := C41_affine hM (I ++ K) u v dz wavel illum tel bf b hb (fun _ => 1) (fun _ => 0)
    (fun _ => one_pos)
  simpa using this

/-- Up to order 2. -/
theorem even_example (k0 k1 k2 k3 k4 k5 : ℝ) :
    Spec.EvenFlipped [k0, k1, k2, k3, k4, k5] [-k0, k1, k2, -k3, -k4, -k5] := by
  refine ⟨rfl, fun n k hk hp => ?_⟩
  have := order_le_two hp
  have h : (n = 0 ∧ k = 0) ∨ (n = 1 ∧ k = 0) ∨ (n = 1 ∧ k = 1) ∨ (n = 2 ∧ k = 0) ∨
      (n = 2 ∧ k = 1) ∨ (n = 2 ∧ k = 2) := by omega
  rcases h with ⟨rfl, rfl⟩ | ⟨rfl, rfl⟩ | ⟨rfl, rfl⟩ | ⟨rfl, rfl⟩ | ⟨rfl, rfl⟩ | ⟨rfl, rfl⟩ <;>
    simp [Spec.place]

example : ∃ P P' : Pattern 256,
    radiationPattern [1, -14, 2, 0, 0] [0.1, 0.2, 0.3, 0.4, 0.5, 0.6] 0.022 0.009 illumParabolic
      (manualTel 50 3.25 1 20 30 387.39435) 5 = .ok P ∧
    radiationPattern [1, -14, 2, 0, 0] [-0.1, 0.2, 0.3, -0.4, -0.5, -0.6] (-0.022) 0.009 illumParabolic
      (manualTel 50 3.25 1 20 30 387.39435) 5 = .ok P' ∧ ∀ q, ‖P'.F q‖ = ‖P.F q‖ := by
  have hP : ∃ P : Pattern 256, radiationPattern [1, -14, 2, 0, 0] [0.1, 0.2, 0.3, 0.4, 0.5, 0.6] 0.022
      0.009 illumParabolic (manualTel 50 3.25 1 20 30 387.39435) 5 = .ok P := by
    rw [C14_ok_iff _ _ _ _ _ (by norm_num)]
    exact ⟨_, aperture_ok_iff.2 ⟨_, _, _, _, rfl, wavefront_ok _ _ _ 2 rfl, rfl, rfl, rfl⟩⟩
  obtain ⟨P, hP⟩ := hP
  obtain ⟨P', h1, -, -, h2⟩ := C77_pattern _ _ _ 0.022 0.009 256 illumParabolic
    (manualTel 50 3.25 1 20 30 387.39435) 5 P (by norm_num [manualTel]) (by norm_num) (by norm_num)
    (C77_manual (by norm_num) _ _ _ _ _ _ _ _ _ _ _ (Or.inr rfl))
    (even_example 0.1 0.2 0.3 0.4 0.5 0.6) hP
  exact ⟨P, P', hP, h1, h2⟩

end Verif.Props
