import Verif.Props.SampleOrder
import Verif.Props.DoubleResidualCase

/-!
# Samples left out of the maps, and single samples that stick out (C144)
-/

namespace Verif.Props

open Verif Verif.Np Verif.Aperture Verif.MathFn Verif.Core Verif.Telgeometry Finset

/-! ## Specification -/

/-- The kept samples reach down to the least and up to the greatest of all numbers, but for a part `δ` of their range. -/
def Spec.ReachesOver {ι κ : Type} (δ : ℝ) (p : κ → ℝ) (t : ι → κ) : Prop :=
  ∃ (lo hi : ι) (a b : κ), (∀ q, p a ≤ p q ∧ p q ≤ p b) ∧ p a < p b ∧ p (t lo) - p a ≤ δ * (p b - p a) ∧
    p b - p (t hi) ≤ δ * (p b - p a)

/-! ## The normalisation of a part -/

theorem norm_part {ι κ : Type} [Fintype ι] [Fintype κ] (p : κ → ℝ) (t : ι → κ) {δ : ℝ} (hδ : δ < 1 / 2)
    (h : Spec.ReachesOver δ p t) (r : κ → ℝ) (hr : MathFn.norm (fun q => Fl.fin (p q)) = .ok r) (r' : ι → ℝ)
    (hr' : MathFn.norm (fun q => Fl.fin (p (t q))) = .ok r') (q : ι) : |r' q - r (t q)| ≤ δ := by
  obtain ⟨lo, hi, a, b, hab, hlt, hlo, hhi⟩ := h
  have : Nonempty ι := ⟨lo⟩
  rw [C27_value p a b (fun q => (hab q).1) (fun q => (hab q).2) hlt] at hr
  cases hr
  obtain ⟨a', b', hab', he⟩ := norm_fin fun q => p (t q)
  rw [he] at hr'
  cases hr'
  have h1 := hab' q
  have h2 := (hab' lo).1
  have h3 := (hab' hi).2
  have h4 := (hab (t a')).1
  have h5 := (hab (t b')).2
  dsimp only
  generalize p (t q) = x at *
  generalize p (t a') = α at *
  generalize p (t b') = β at *
  generalize p a = A at *
  generalize p b = B at *
  generalize p (t lo) = l at *
  generalize p (t hi) = g at *
  have hW : 0 < B - A := sub_pos.2 hlt
  have hL : 0 < β - α := by nlinarith
  have e : (x - α) / (β - α) - (x - A) / (B - A) =
      ((x - α) * ((B - A) - (β - α)) - (α - A) * (β - α)) / ((β - α) * (B - A)) := by
    field_simp
    ring
  rw [e, abs_div, abs_of_pos (mul_pos hL hW), div_le_iff₀ (mul_pos hL hW), abs_le]
  have x0 : 0 ≤ x - α := by linarith [h1.1]
  have x1 : x - α ≤ β - α := by linarith [h1.2]
  have y0 : 0 ≤ (B - A) - (β - α) := by linarith
  have z0 : 0 ≤ α - A := by linarith
  have z1 : α - A ≤ δ * (B - A) := by linarith
  have z2 : B - β ≤ δ * (B - A) := by linarith
  constructor
  · nlinarith [mul_nonneg x0 y0, mul_le_mul_of_nonneg_right z1 hL.le]
  · nlinarith [mul_le_mul_of_nonneg_right x1 y0, mul_le_mul_of_nonneg_right z2 hL.le, mul_nonneg z0 hL.le]

variable {N M M' : ℕ}

theorem modelRow_part (params : List ℝ) (u v : Fin 3 × Fin M → ℝ) (dz : Fin 3 → ℝ) (wavel : ℝ)
    (illum : Illum (Fin N × Fin N)) (tel : TelGeo (Fin N × Fin N)) (bf : ℝ) (t : Fin 3 → Fin M' → Fin M) (i : Fin 3)
    (b : Fin M → ℝ) (h : modelRow params u v dz wavel illum tel bf i = .ok b) :
    modelRow params (fun q : Fin 3 × Fin M' => u (q.1, t q.1 q.2)) (fun q => v (q.1, t q.1 q.2)) dz wavel illum tel bf i =
      .ok fun k => b (t i k) := by
  obtain ⟨P, hP, hi⟩ := modelRow_ok.1 h
  obtain ⟨h1, h2, h3⟩ := (interpolator_ok_iff _ _ _ _ _).1 hi
  refine modelRow_ok.2 ⟨P, hP, (interpolator_ok_iff _ _ _ _ _).2 ⟨h1, fun k => h2 (t i k), ?_⟩⟩
  rw [h3]

/-! ## The claims -/

/-- **C144**. Samples are left out of the maps. If what is kept of each observed and each model map reaches over the range
of the whole map, but for a part `δ` at either end, then the residual of each kept sample changes by at most `2 δ`. -/
theorem C144_cut (params : List ℝ) (d : Fin 3 × Fin M → ℝ) (u v : Fin 3 × Fin M → ℝ) (dz : Fin 3 → ℝ)
    (wavel : ℝ) (illum : Illum (Fin N × Fin N)) (tel : TelGeo (Fin N × Fin N)) (bf : ℝ) (t : Fin 3 → Fin M' → Fin M)
    {δ : ℝ} (hδ : δ < 1 / 2) (hd : ∀ i, Spec.ReachesOver δ (fun k => d (i, k)) (t i))
    (hb : ∀ i b, Spec.Sampled params u v dz wavel illum tel bf i b → Spec.ReachesOver δ b (t i)) (r : List ℝ)
    (h : residualTrue params (fun q => .fin (d q)) u v dz wavel illum tel bf = .ok r) :
    ∃ r', residualTrue params (fun q : Fin 3 × Fin M' => .fin (d (q.1, t q.1 q.2))) (fun q => u (q.1, t q.1 q.2))
        (fun q => v (q.1, t q.1 q.2)) dz wavel illum tel bf = .ok r' ∧
      ∀ (i : Fin 3) (k : Fin M'), ∃ x y, r[(i : ℕ) * M + t i k]? = some x ∧ r'[(i : ℕ) * M' + k]? = some y ∧ |y - x| ≤ 2 * δ := by
  obtain ⟨b, hbo, nd, nm, e1, e2, rfl⟩ := residualTrue_ok.1 h
  obtain ⟨lo, -⟩ := hd 0
  have hM' : 0 < M' := lo.pos
  have hM : 0 < M := (t 0 lo).pos
  obtain ⟨nd', f1, f1'⟩ := C27_axis1 hM' fun q : Fin 3 × Fin M' => Fl.fin (d (q.1, t q.1 q.2))
  obtain ⟨nm', f2, f2'⟩ := C27_axis1 hM' fun q : Fin 3 × Fin M' => Fl.fin (b q.1 (t q.1 q.2))
  obtain ⟨nd0, g1, g1'⟩ := C27_axis1 hM fun q : Fin 3 × Fin M => Fl.fin (d q)
  obtain ⟨nm0, g2, g2'⟩ := C27_axis1 hM fun q : Fin 3 × Fin M => Fl.fin (b q.1 q.2)
  rw [e1] at g1
  rw [e2] at g2
  cases g1
  cases g2
  refine ⟨_, residualTrue_ok.2 ⟨fun i k => b i (t i k), fun i => modelRow_part params u v dz wavel illum tel bf t i _ (hbo i),
    nd', nm', f1, f2, rfl⟩, fun i k => ⟨_, _, flatten3_getElem _ i (t i k), flatten3_getElem _ i k, ?_⟩⟩
  have a1 := norm_part (fun k => d (i, k)) (t i) hδ (hd i) _ (g1' i) _ (f1' i) k
  have a2 := norm_part (b i) (t i) hδ (hb i _ (sampled_iff.2 (hbo i))) _ (g2' i) _ (f2' i) k
  rw [abs_le] at *
  constructor <;> linarith [a1.1, a1.2, a2.1, a2.2]

/-- **C144**. If the greatest and the least samples of each map and model map are kept, the residual of each kept sample is
what it was. -/
theorem C144_kept (params : List ℝ) (d : Fin 3 × Fin M → ℝ) (u v : Fin 3 × Fin M → ℝ) (dz : Fin 3 → ℝ)
    (wavel : ℝ) (illum : Illum (Fin N × Fin N)) (tel : TelGeo (Fin N × Fin N)) (bf : ℝ) (t : Fin 3 → Fin M' → Fin M)
    (hd : ∀ i, Spec.ReachesOver 0 (fun k => d (i, k)) (t i))
    (hb : ∀ i b, Spec.Sampled params u v dz wavel illum tel bf i b → Spec.ReachesOver 0 b (t i)) (r : List ℝ)
    (h : residualTrue params (fun q => .fin (d q)) u v dz wavel illum tel bf = .ok r) :
    ∃ r', residualTrue params (fun q : Fin 3 × Fin M' => .fin (d (q.1, t q.1 q.2))) (fun q => u (q.1, t q.1 q.2))
        (fun q => v (q.1, t q.1 q.2)) dz wavel illum tel bf = .ok r' ∧
      ∀ (i : Fin 3) (k : Fin M'), r'[(i : ℕ) * M' + k]? = r[(i : ℕ) * M + t i k]? := by
  obtain ⟨r', h1, h2⟩ := C144_cut params d u v dz wavel illum tel bf t (by norm_num) hd hb r h
  refine ⟨r', h1, fun i k => ?_⟩
  obtain ⟨x, y, hx, hy, hxy⟩ := h2 i k
  rw [mul_zero, abs_nonpos_iff, sub_eq_zero] at hxy
  rw [hx, hy, hxy]

/-- **C144**. One sample `z` of a map is above all others: the normalised map of the others, which without `z` would be
`(d k - d lo) / (d hi - d lo)`, is scaled down by `ρ = (d hi - d lo) / (d z - d lo)`, while the model is as before. The
more `z` sticks out, the more the map is ignored: the residual of the others is within `ρ` of minus the model. -/
theorem C144_spike (params : List ℝ) (d : Fin 3 × Fin M → ℝ) (u v : Fin 3 × Fin M → ℝ) (dz : Fin 3 → ℝ)
    (wavel : ℝ) (illum : Illum (Fin N × Fin N)) (tel : TelGeo (Fin N × Fin N)) (bf : ℝ) (r : List ℝ)
    (h : residualTrue params (fun q => .fin (d q)) u v dz wavel illum tel bf = .ok r) (i : Fin 3) (z lo hi : Fin M)
    (hlo : ∀ k, k ≠ z → d (i, lo) ≤ d (i, k)) (hhi : ∀ k, k ≠ z → d (i, k) ≤ d (i, hi)) (hlt : d (i, lo) < d (i, hi))
    (hz : d (i, hi) ≤ d (i, z)) :
    ∃ b nm, Spec.Sampled params u v dz wavel illum tel bf i b ∧ MathFn.norm (fun k => Fl.fin (b k)) = .ok nm ∧
      r[(i : ℕ) * M + z]? = some (1 - nm z) ∧
      ∀ k, k ≠ z → ∃ x, r[(i : ℕ) * M + k]? = some x ∧
        x = (d (i, hi) - d (i, lo)) / (d (i, z) - d (i, lo)) * ((d (i, k) - d (i, lo)) / (d (i, hi) - d (i, lo))) - nm k ∧
        |x - -nm k| ≤ (d (i, hi) - d (i, lo)) / (d (i, z) - d (i, lo)) := by
  obtain ⟨-, -, -, h4⟩ := residual_layout params _ u v dz wavel illum tel bf r h
  obtain ⟨b, nd, nm, h1, h2, h3, h5⟩ := h4 i
  have hzl : d (i, lo) < d (i, z) := hlt.trans_le hz
  rw [C27_value (fun k => d (i, k)) lo z (fun q => by
      by_cases hq : q = z
      · rw [hq]; exact hzl.le
      · exact hlo q hq) (fun q => by
      by_cases hq : q = z
      · rw [hq]
      · exact (hhi q hq).trans hz) hzl] at h2
  cases h2
  have p1 : 0 < d (i, z) - d (i, lo) := sub_pos.2 hzl
  have p2 : 0 < d (i, hi) - d (i, lo) := sub_pos.2 hlt
  refine ⟨b, nm, sampled_iff.2 h1, h3, ?_, fun k hk => ⟨_, h5 k, ?_, ?_⟩⟩
  · rw [h5 z]
    dsimp only
    rw [div_self p1.ne']
  · rw [div_mul_div_comm, mul_comm (d (i, hi) - d (i, lo)), mul_div_mul_right _ _ p2.ne']
  · have k1 := hlo k hk
    have k2 := hhi k hk
    rw [sub_neg_eq_add, sub_add_cancel, abs_of_nonneg (div_nonneg (by linarith) p1.le)]
    gcongr

/-- **C144**. One sample `z` of a map is below all others: what the others lack to one is scaled down. -/
theorem C144_dip (params : List ℝ) (d : Fin 3 × Fin M → ℝ) (u v : Fin 3 × Fin M → ℝ) (dz : Fin 3 → ℝ)
    (wavel : ℝ) (illum : Illum (Fin N × Fin N)) (tel : TelGeo (Fin N × Fin N)) (bf : ℝ) (r : List ℝ)
    (h : residualTrue params (fun q => .fin (d q)) u v dz wavel illum tel bf = .ok r) (i : Fin 3) (z lo hi : Fin M)
    (hlo : ∀ k, k ≠ z → d (i, lo) ≤ d (i, k)) (hhi : ∀ k, k ≠ z → d (i, k) ≤ d (i, hi)) (hlt : d (i, lo) < d (i, hi))
    (hz : d (i, z) ≤ d (i, lo)) :
    ∃ b nm, Spec.Sampled params u v dz wavel illum tel bf i b ∧ MathFn.norm (fun k => Fl.fin (b k)) = .ok nm ∧
      r[(i : ℕ) * M + z]? = some (-nm z) ∧
      ∀ k, k ≠ z → ∃ x, r[(i : ℕ) * M + k]? = some x ∧
        x = 1 - (d (i, hi) - d (i, lo)) / (d (i, hi) - d (i, z)) * (1 - (d (i, k) - d (i, lo)) / (d (i, hi) - d (i, lo))) -
          nm k ∧
        |x - (1 - nm k)| ≤ (d (i, hi) - d (i, lo)) / (d (i, hi) - d (i, z)) := by
  obtain ⟨-, -, -, h4⟩ := residual_layout params _ u v dz wavel illum tel bf r h
  obtain ⟨b, nd, nm, h1, h2, h3, h5⟩ := h4 i
  have hzl : d (i, z) < d (i, hi) := hz.trans_lt hlt
  rw [C27_value (fun k => d (i, k)) z hi (fun q => by
      by_cases hq : q = z
      · rw [hq]
      · exact hz.trans (hlo q hq)) (fun q => by
      by_cases hq : q = z
      · rw [hq]; exact hzl.le
      · exact hhi q hq) hzl] at h2
  cases h2
  have p1 : 0 < d (i, hi) - d (i, z) := sub_pos.2 hzl
  have p2 : 0 < d (i, hi) - d (i, lo) := sub_pos.2 hlt
  have key : ∀ k, (d (i, k) - d (i, z)) / (d (i, hi) - d (i, z)) =
      1 - (d (i, hi) - d (i, lo)) / (d (i, hi) - d (i, z)) * (1 - (d (i, k) - d (i, lo)) / (d (i, hi) - d (i, lo))) := by
    intro k
    field_simp
    ring
  refine ⟨b, nm, sampled_iff.2 h1, h3, ?_, fun k hk => ⟨_, h5 k, ?_, ?_⟩⟩
  · rw [h5 z]
    dsimp only
    rw [sub_self, zero_div, zero_sub]
  · dsimp only
    rw [key]
  · have k1 := hlo k hk
    have k2 := hhi k hk
    have e : (d (i, k) - d (i, z)) / (d (i, hi) - d (i, z)) - nm k - (1 - nm k) =
        -((d (i, hi) - d (i, k)) / (d (i, hi) - d (i, z))) := by
      field_simp
      ring
    dsimp only
    rw [e, abs_neg, abs_of_nonneg (div_nonneg (by linarith) p1.le)]
    gcongr

/-! ## A case -/

theorem ew_four_one : Fourier.ew 4 1 = -Complex.I := by
  have h : Fourier.ew 4 1 * Fourier.ew 4 3 = 1 := by
    rw [← Fourier.ew_add]
    unfold Fourier.ew
    rw [show -(2 * (Real.pi : ℂ) * Complex.I) * (((1 + 3 : ℤ) : ℂ) / ((4 : ℕ) : ℂ)) = -(2 * Real.pi * Complex.I) by
      push_cast
      ring, Complex.exp_neg, Complex.exp_two_pi_mul_I, inv_one]
  rw [ew_four_three] at h
  rw [← mul_one (Fourier.ew 4 1), ← neg_neg (1 : ℂ), ← Complex.I_mul_I, mul_neg, ← mul_assoc, h, one_mul]

/-- The third node of the axis. -/
theorem four_pattern_third (I : List ℝ) (dz : ℝ) (P : Pattern 4)
    (h : radiationPattern I [0] dz (1 / 64) (fun _ _ _ _ => .ok fun _ => 1)
      (⟨Spec.smallBlock, fun _ _ _ => .ok fun _ => 0, 96⟩ : TelGeo (Fin 4 × Fin 4)) 1 = .ok P) : ‖P.F (2, 3)‖ ^ 2 = 8 := by
  obtain ⟨E, hE, hE'⟩ : ∃ E, aperture (fun q : Fin 4 × Fin 4 => linspace (-(96 * 1)) (96 * 1) 4 q.2)
        (fun q => linspace (-(96 * 1)) (96 * 1) 4 q.1) I [0] dz (1 / 64) (fun _ _ _ _ => .ok fun _ => 1)
        ⟨Spec.smallBlock, fun _ _ _ => .ok fun _ => 0, 96⟩ = .ok E ∧
      ∀ q, E q = if Spec.inner q.2 ∧ Spec.inner q.1 then 1 else 0 := by
    refine ⟨_, aperture_ok_iff.2 ⟨_, _, _, _, rfl, wavefront_ok _ _ [0] 0 (by simp [tri]), rfl, rfl, rfl⟩, fun q => ?_⟩
    have h0 : ∀ i : Fin 4, |Np.linspace (-(96 * 1)) (96 * 1) 4 i| ≤ 64 ↔ Spec.inner i := fun i =>
      (four_lit (t := Np.linspace (-(96 * 1)) (96 * 1) 4 i) (by rw [sub_self, abs_zero]; positivity)).2
    have hw : ∀ a b, wfVal 0 [0] a b = 0 := by
      intro a b
      simp [wfVal, tri]
    simp only [h0, hw]
    split_ifs <;> simp
  have hP := radiationPattern_eq I [0] dz (1 / 64) (by norm_num) (fun _ _ _ _ => .ok fun _ => 1)
    (⟨Spec.smallBlock, fun _ _ _ => .ok fun _ => 0, 96⟩ : TelGeo (Fin 4 × Fin 4)) 1
  simp only [hE, Except.map] at hP
  rw [h] at hP
  cases hP
  have key : ‖Np.fft2 E (0, 1)‖ ^ 2 = 8 := by
    have n0 : ¬ Spec.inner 0 := by decide
    have n1 : Spec.inner 1 := by decide
    have n2 : Spec.inner 2 := by decide
    have n3 : ¬ Spec.inner 3 := by decide
    rw [Fourier.fft2_eq]
    simp only [Fin.sum_univ_four, hE', n0, n1, n2, n3, and_true, and_false, if_true, if_false, zero_mul, zero_add, add_zero,
      Fin.val_zero, Fin.val_one, Fin.val_two, show ((3 : Fin 4) : ℕ) = 3 from rfl, Nat.cast_zero, one_mul]
    norm_num only [Nat.cast_one, Nat.cast_ofNat, mul_one, Int.reduceMul]
    rw [show (2 : ℤ) = 1 + 1 by norm_num, Fourier.ew_add, ew_four_one, ← Complex.normSq_eq_norm_sq, Complex.normSq_apply]
    simp
    norm_num
  rwa [show (0 : Fin 4) = Np.shiftIdx 2 by decide, show (1 : Fin 4) = Np.shiftIdx 3 by decide] at key

/-- The places of three samples. -/
noncomputable def Spec.threePlaces (q : Fin 3 × Fin 3) : ℝ := ![0, -1 / 2 ^ 14, 1 / 2 ^ 14] q.2

theorem three_row (i : Fin 3) : Core.modelRow [1, -10, 2, 0, 0, 0] Spec.threePlaces (fun _ => 0) (fun _ => 0)
      (1 / 64) (fun _ _ _ _ => .ok fun _ => 1)
      (⟨Spec.smallBlock, fun _ _ _ => .ok fun _ => 0, 96⟩ : TelGeo (Fin 4 × Fin 4)) 1 i = .ok ![16, 8, 8] := by
  obtain ⟨P, hP, hax, hP2, hP1⟩ := four_pattern [1, -10, 2, 0, 0] 0
  have hP3 := four_pattern_third [1, -10, 2, 0, 0] 0 P hP
  have u1 : P.u 1 = -1 / 2 ^ 14 := by rw [(hax 1).1]; norm_num
  have u2 : P.u 2 = 0 := by rw [(hax 2).1]; simp
  have u3 : P.u 3 = 1 / 2 ^ 14 := by rw [(hax 3).1, show ((3 : Fin 4) : ℕ) = 3 from rfl]; norm_num
  have v2 : P.v 2 = 0 := by rw [(hax 2).2]; simp
  have hex : ∃ b, Core.modelRow [1, -10, 2, 0, 0, 0] Spec.threePlaces (fun _ => 0) (fun _ => 0) (1 / 64)
      (fun _ _ _ _ => .ok fun _ => 1) (⟨Spec.smallBlock, fun _ _ _ => .ok fun _ => 0, 96⟩ : TelGeo (Fin 4 × Fin 4)) 1 i =
      .ok b := by
    refine ⟨_, modelRow_ok.2 ⟨P, hP, (interpolator_ok_iff _ _ _ _ _).2 ⟨?_, fun k => ?_, rfl⟩⟩⟩
    · constructor <;>
      · intro x y hxy
        simp only [hax]
        have : ((x : ℕ) : ℝ) < ((y : ℕ) : ℝ) := by exact_mod_cast hxy
        gcongr
    · refine ⟨⟨⟨1, ?_⟩, ⟨3, ?_⟩⟩, ⟨⟨2, v2.le⟩, ⟨2, v2.ge⟩⟩⟩
      · rw [u1]; unfold Spec.threePlaces; fin_cases k <;> norm_num
      · rw [u3]; unfold Spec.threePlaces; fin_cases k <;> norm_num
  obtain ⟨b, hb⟩ := hex
  have e0 : b 0 = 16 := by
    rw [← hP2]
    exact row_node (N := 4) (M := 3) [1, -10, 2, 0, 0, 0] Spec.threePlaces (fun _ => 0) (fun _ => 0) (1 / 64) _ _ 1 i P b hP hb
      0 2 2 u2.symm v2.symm
  have e1 : b 1 = 8 := by
    rw [← hP1]
    exact row_node (N := 4) (M := 3) [1, -10, 2, 0, 0, 0] Spec.threePlaces (fun _ => 0) (fun _ => 0) (1 / 64) _ _ 1 i P b hP hb
      1 2 1 u1.symm v2.symm
  have e2 : b 2 = 8 := by
    rw [← hP3]
    exact row_node (N := 4) (M := 3) [1, -10, 2, 0, 0, 0] Spec.threePlaces (fun _ => 0) (fun _ => 0) (1 / 64) _ _ 1 i P b hP hb
      2 2 3 u3.symm v2.symm
  rw [hb]
  congr 1
  funext k
  fin_cases k
  · exact e0
  · exact e1
  · exact e2

/-- Three samples of each map; the third one, 0.3 in the data and 8 in the model, is left out. -/
example : ∃ r r' : List ℝ,
    residualTrue [1, -10, 2, 0, 0, 0] (fun q => .fin (![1, 0, 0.3] q.2)) Spec.threePlaces (fun _ => 0) (fun _ => 0) (1 / 64)
      (fun _ _ _ _ => .ok fun _ => 1) (⟨Spec.smallBlock, fun _ _ _ => .ok fun _ => 0, 96⟩ : TelGeo (Fin 4 × Fin 4)) 1 =
      .ok r ∧
    residualTrue [1, -10, 2, 0, 0, 0] (fun q : Fin 3 × Fin 2 => .fin (![1, 0, 0.3] (Fin.castSucc q.2)))
      (fun q => Spec.threePlaces (q.1, Fin.castSucc q.2)) (fun _ => 0) (fun _ => 0) (1 / 64)
      (fun _ _ _ _ => .ok fun _ => 1) (⟨Spec.smallBlock, fun _ _ _ => .ok fun _ => 0, 96⟩ : TelGeo (Fin 4 × Fin 4)) 1 =
      .ok r' ∧
    ∀ (i : Fin 3) (k : Fin 2), r'[(i : ℕ) * 2 + k]? = r[(i : ℕ) * 3 + Fin.castSucc k]? := by
  obtain ⟨nd, f1, -⟩ := C27_axis1 (by norm_num) fun q : Fin 3 × Fin 3 => Fl.fin (![1, 0, 0.3] q.2)
  obtain ⟨nm, f2, -⟩ := C27_axis1 (by norm_num) fun q : Fin 3 × Fin 3 => Fl.fin (![16, 8, 8] q.2)
  have h := residualTrue_ok.2 ⟨fun _ => ![16, 8, 8], three_row, nd, nm, f1, f2, rfl⟩
  obtain ⟨r', h1, h2⟩ := C144_kept [1, -10, 2, 0, 0, 0] (fun q => ![1, 0, 0.3] q.2) Spec.threePlaces (fun _ => 0) (fun _ => 0)
    (1 / 64) _ _ 1 (fun _ k => Fin.castSucc k) (fun i => ⟨1, 0, 1, 0, fun q => by fin_cases q <;> norm_num, by norm_num,
      by norm_num, by norm_num⟩) (fun i b hb => by
        have := sampled_iff.1 hb
        rw [three_row] at this
        cases this
        exact ⟨1, 0, 1, 0, fun q => by fin_cases q <;> norm_num, by norm_num, by norm_num, by norm_num⟩) _ h
  exact ⟨_, r', h, h1, h2⟩

/-- The second sample of the first map is 100 where the others are 1 and 0. -/
example : ∃ r : List ℝ, residualTrue [1, -10, 2, 0, 0, 0] (fun q => .fin (![1, 100, 0] q.2)) Spec.threePlaces (fun _ => 0)
      (fun _ => 0) (1 / 64) (fun _ _ _ _ => .ok fun _ => 1)
      (⟨Spec.smallBlock, fun _ _ _ => .ok fun _ => 0, 96⟩ : TelGeo (Fin 4 × Fin 4)) 1 = .ok r ∧
    ∃ x : ℝ, r[0]? = some x ∧ |x - -1| ≤ 1 / 100 := by
  obtain ⟨nd, f1, -⟩ := C27_axis1 (by norm_num) fun q : Fin 3 × Fin 3 => Fl.fin (![1, 100, 0] q.2)
  obtain ⟨nm, f2, -⟩ := C27_axis1 (by norm_num) fun q : Fin 3 × Fin 3 => Fl.fin (![16, 8, 8] q.2)
  have h := residualTrue_ok.2 ⟨fun _ => ![16, 8, 8], three_row, nd, nm, f1, f2, rfl⟩
  obtain ⟨b, nm', h1, h2, -, h3⟩ := C144_spike [1, -10, 2, 0, 0, 0] (fun q => ![1, 100, 0] q.2) Spec.threePlaces (fun _ => 0)
    (fun _ => 0) (1 / 64) _ _ 1 _ h 0 1 2 0 (fun k hk => by
      fin_cases k
      · exact zero_le_one
      · exact absurd rfl hk
      · exact le_rfl) (fun k hk => by
      fin_cases k
      · exact le_rfl
      · exact absurd rfl hk
      · exact zero_le_one) zero_lt_one (by norm_num)
  have h4 := sampled_iff.1 h1
  rw [three_row] at h4
  cases h4
  rw [C27_value ![16, 8, 8] 1 0 (fun q => by fin_cases q <;> norm_num) (fun q => by fin_cases q <;> norm_num) (by norm_num)]
    at h2
  cases h2
  obtain ⟨x, hx, -, hx'⟩ := h3 0 (by decide)
  refine ⟨_, h, x, hx, ?_⟩
  have e2 : (![1, 100, 0] : Fin 3 → ℝ) 2 = 0 := rfl
  simp only [e2] at hx'
  norm_num at hx' ⊢
  exact hx'

end Verif.Props
