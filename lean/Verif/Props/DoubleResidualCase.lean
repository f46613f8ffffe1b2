import Verif.Props.DoubleResidual
import Verif.Props.DoublePatternCase

/-!
# The assumptions of C125 can be met

Two samples of each map, on the grid of four by four pixels, the inner four of which are lit.
-/

namespace Verif.Props

open Verif Verif.Np Verif.Aperture

/-- An opening of 128 m by 128 m. -/
noncomputable def Spec.smallBlock {ι : Type} (x y : ι → ℝ) : Py (ι → ℝ) :=
  .ok fun q => if |x q| ≤ 64 ∧ |y q| ≤ 64 then 1 else 0

/-- The same on doubles. -/
noncomputable def Spec.smallBlockD {ι : Type} (x y : ι → Fl) : Py (ι → Fl) :=
  .ok fun q => .fin (if |Spec.finPart (x q)| ≤ 64 ∧ |Spec.finPart (y q)| ≤ 64 then 1 else 0)

/-- The inner pixels of an axis. -/
def Spec.inner (i : Fin 4) : Prop := i = 1 ∨ i = 2

instance (i : Fin 4) : Decidable (Spec.inner i) := by unfold Spec.inner; infer_instance

theorem four_grid (i : Fin 4) : Np.linspace (-(96 * 1)) (96 * 1) 4 i = 64 * ((i : ℕ) : ℝ) - 96 := by
  unfold Np.linspace
  push_cast
  norm_num
  ring

theorem four_lit {i : Fin 4} {t : ℝ} (ht : |t - Np.linspace (-(96 * 1)) (96 * 1) 4 i| ≤ 448 * 96 / 2 ^ 53) :
    (|t| ≤ 64 ↔ Spec.inner i) ∧ (|Np.linspace (-(96 * 1)) (96 * 1) 4 i| ≤ 64 ↔ Spec.inner i) := by
  rw [four_grid] at ht ⊢
  rw [abs_le] at ht ⊢
  rw [abs_le]
  have hi : i = 0 ∨ i = 1 ∨ i = 2 ∨ i = 3 := by fin_cases i <;> decide
  have n0 : ¬ Spec.inner 0 := by decide
  have n1 : Spec.inner 1 := by decide
  have n2 : Spec.inner 2 := by decide
  have n3 : ¬ Spec.inner 3 := by decide
  rcases hi with rfl | rfl | rfl | rfl
  all_goals
    simp only [n0, n1, n2, n3, iff_true, iff_false, Fin.val_zero, Fin.val_one, Fin.val_two,
      show ((3 : Fin 4) : ℕ) = 3 from rfl] at ht ⊢
    norm_num at ht ⊢
    first
    | (intro; linarith)
    | (constructor <;> linarith)

theorem ew_four_three : Fourier.ew 4 3 = Complex.I := by
  unfold Fourier.ew
  have : -(2 * (Real.pi : ℂ) * Complex.I) * (((3 : ℤ) : ℂ) / ((4 : ℕ) : ℂ)) =
      Real.pi / 2 * Complex.I - 2 * Real.pi * Complex.I := by
    push_cast
    ring
  rw [this, Complex.exp_sub, Complex.exp_two_pi_mul_I, div_one, Complex.exp_mul_I, Complex.cos_pi_div_two,
    Complex.sin_pi_div_two, zero_add, one_mul]

theorem ew_four_six : Fourier.ew 4 6 = -1 := by
  rw [show (6 : ℤ) = 3 + 3 by norm_num, Fourier.ew_add, ew_four_three, Complex.I_mul_I]

theorem four_fft {E : Fin 4 × Fin 4 → ℂ} (hE : ∀ q, E q = if Spec.inner q.2 ∧ Spec.inner q.1 then 1 else 0) :
    ‖Np.fft2 E (0, 0)‖ ^ 2 = 16 ∧ ‖Np.fft2 E (0, 3)‖ ^ 2 = 8 := by
  have n0 : ¬ Spec.inner 0 := by decide
  have n1 : Spec.inner 1 := by decide
  have n2 : Spec.inner 2 := by decide
  have n3 : ¬ Spec.inner 3 := by decide
  constructor
  · rw [Fourier.fft2_eq]
    simp only [Fin.sum_univ_four, hE, n0, n1, n2, n3, and_true, and_false, if_true, if_false, zero_mul, zero_add, add_zero,
      Fin.val_zero, Nat.cast_zero, Fourier.ew_zero, one_mul]
    norm_num
  · rw [Fourier.fft2_eq]
    simp only [Fin.sum_univ_four, hE, n0, n1, n2, n3, and_true, and_false, if_true, if_false, zero_mul, zero_add, add_zero,
      Fin.val_zero, Fin.val_one, Fin.val_two, show ((3 : Fin 4) : ℕ) = 3 from rfl, Nat.cast_zero, one_mul]
    norm_num only [Nat.cast_one, Nat.cast_ofNat, mul_one, Int.reduceMul]
    rw [ew_four_three, ew_four_six, ← Complex.normSq_eq_norm_sq, Complex.normSq_apply]
    simp
    norm_num

/-- The uniformly lit opening. -/
theorem four_pattern (I : List ℝ) (dz : ℝ) : ∃ P, radiationPattern I [0] dz (1 / 64) (fun _ _ _ _ => .ok fun _ => 1)
      (⟨Spec.smallBlock, fun _ _ _ => .ok fun _ => 0, 96⟩ : TelGeo (Fin 4 × Fin 4)) 1 = .ok P ∧
    (∀ i, P.u i = (((i : ℕ) : ℝ) - 2) / 2 ^ 14 ∧ P.v i = (((i : ℕ) : ℝ) - 2) / 2 ^ 14) ∧
    ‖P.F (2, 2)‖ ^ 2 = 16 ∧ ‖P.F (2, 1)‖ ^ 2 = 8 := by
  obtain ⟨E, hE, hE'⟩ : ∃ E, aperture (fun q : Fin 4 × Fin 4 => linspace (-(96 * 1)) (96 * 1) 4 q.2)
        (fun q => linspace (-(96 * 1)) (96 * 1) 4 q.1) I [0] dz (1 / 64) (fun _ _ _ _ => .ok fun _ => 1)
        ⟨Spec.smallBlock, fun _ _ _ => .ok fun _ => 0, 96⟩ = .ok E ∧
      ∀ q, E q = if Spec.inner q.2 ∧ Spec.inner q.1 then 1 else 0 := by
    refine ⟨_, aperture_ok_iff.2 ⟨_, _, _, _, rfl, wavefront_ok _ _ [0] 0 (by simp [tri]), rfl, rfl, rfl⟩, fun q => ?_⟩
    have h0 : ∀ i : Fin 4, |Np.linspace (-(96 * 1)) (96 * 1) 4 i| ≤ 64 ↔ Spec.inner i := fun i =>
      (four_lit (t := Np.linspace (-(96 * 1)) (96 * 1) 4 i) (by rw [sub_self, abs_zero]; positivity)).2
    have hw : ∀ a b, wfVal 0 [0] a b = 0 := by
      intro a b
      simp [wfVal, tri]
    simp only [h0, hw]
    split_ifs <;> simp
  have hP := radiationPattern_eq I [0] dz (1 / 64) (by norm_num) (fun _ _ _ _ => .ok fun _ => 1)
    (⟨Spec.smallBlock, fun _ _ _ => .ok fun _ => 0, 96⟩ : TelGeo (Fin 4 × Fin 4)) 1
  simp only [hE, Except.map] at hP
  refine ⟨_, hP, fun i => ?_, ?_, ?_⟩
  · constructor <;> · push_cast; norm_num; ring
  · have := (four_fft hE').1
    rwa [show (0 : Fin 4) = Np.shiftIdx 2 by decide] at this
  · have := (four_fft hE').2
    rwa [show (0 : Fin 4) = Np.shiftIdx 2 by decide, show (3 : Fin 4) = Np.shiftIdx 1 by decide] at this

/-- The places of the two samples: the axis and one node to its side. -/
noncomputable def Spec.twoPlaces (q : Fin 3 × Fin 2) : ℝ := if q.2 = 0 then 0 else -1 / 2 ^ 14

/-- The observed powers. -/
noncomputable def Spec.twoPowers (q : Fin 3 × Fin 2) : ℝ := if q.2 = 0 then 1 else 0

theorem two_double (q : Fin 3 × Fin 2) : Spec.IsDouble (Spec.twoPlaces q) ∧ Spec.IsDouble ((fun _ : Fin 3 × Fin 2 => (0 : ℝ)) q) := by
  have hd14 : Spec.IsDouble (-1 / 2 ^ 14) := ⟨-1, -14, by norm_num, by norm_num, by norm_num, by norm_num⟩
  unfold Spec.twoPlaces
  refine ⟨?_, isDouble_zero⟩
  split_ifs
  · exact isDouble_zero
  · exact hd14

theorem two_inBeam (q : Fin 3 × Fin 2) : Spec.InBeam 4 96 1 (1 / 64) (Spec.twoPlaces q) ∧
    Spec.InBeam 4 96 1 (1 / 64) ((fun _ : Fin 3 × Fin 2 => (0 : ℝ)) q) := by
  unfold Spec.InBeam Spec.axisStep Spec.twoPlaces
  constructor
  · split_ifs <;> norm_num
  · norm_num

theorem two_powers (q : Fin 3 × Fin 2) : Spec.IsDouble (Spec.twoPowers q) ∧ |Spec.twoPowers q| ≤ 2 ^ 900 := by
  unfold Spec.twoPowers
  split_ifs
  · exact ⟨isDouble_one, by rw [abs_one]; exact one_le_pow₀ one_le_two⟩
  · exact ⟨isDouble_zero, by rw [abs_zero]; positivity⟩

theorem four_beamError : Spec.beamError (fun q : Fin 4 × Fin 4 => (if Spec.inner q.2 ∧ Spec.inner q.1 then 1 else 0) * 1)
    (Spec.fieldError 0 [0] 0 0) 0 (1 / 2 ^ 52) ≤ 1 / 10 ^ 11 := by
  have n0 : ¬ Spec.inner 0 := by decide
  have n1 : Spec.inner 1 := by decide
  have n2 : Spec.inner 2 := by decide
  have n3 : ¬ Spec.inner 3 := by decide
  set a : Fin 4 × Fin 4 → ℝ := fun q => (if Spec.inner q.2 ∧ Spec.inner q.1 then 1 else 0) * 1 with ha
  have hS : ∑ q, |a q| = 4 := by
    rw [Fintype.sum_prod_type]
    simp only [Fin.sum_univ_four, ha, n0, n1, n2, n3, and_true, and_false, if_true, if_false, mul_one, abs_zero, abs_one, add_zero,
      zero_add]
    norm_num
  have hS2 : ∑ q, ‖((a q : ℝ) : ℂ)‖ = 4 := by
    rw [← hS]
    exact Finset.sum_congr rfl fun q _ => by rw [Complex.norm_real, Real.norm_eq_abs]
  have hS3 : ∑ q, ‖((a q : ℝ) : ℂ)‖ ^ 2 = 4 := by
    rw [← hS]
    refine Finset.sum_congr rfl fun q _ => ?_
    rw [Complex.norm_real, Real.norm_eq_abs]
    simp only [ha]
    split_ifs <;> simp
  have hF : Spec.fieldError 0 [0] 0 0 = 1 / 2 ^ 48 := by
    unfold Spec.fieldError
    simp
  have h2 : Real.sqrt 4 = 2 := by
    rw [show (4 : ℝ) = 2 ^ 2 by norm_num]
    exact Real.sqrt_sq (by norm_num)
  have hτ1 := tiny_le (k := -1074) (by norm_num)
  have hτ2 := tiny_le (k := -1000) (by norm_num)
  have hτ3 := tiny_le (k := -600) (by norm_num)
  have hT : Spec.totalError (fun q => ((a q : ℝ) : ℂ)) (1 / 2 ^ 48) 0 ≤ 1 / 2 ^ 45 := by
    unfold Spec.totalError
    rw [hS2, Fintype.card_prod, Fintype.card_fin]
    generalize (2 : ℝ) ^ (-1074 : ℤ) = τ at *
    norm_num at hτ1 ⊢
    linarith
  have hFar : Spec.farError (fun q => ((a q : ℝ) : ℂ)) (1 / 2 ^ 48) 0 (1 / 2 ^ 52) ≤ 1 / 2 ^ 44 := by
    unfold Spec.farError
    rw [hS3, h2]
    generalize Spec.totalError (fun q => ((a q : ℝ) : ℂ)) (1 / 2 ^ 48) 0 = T at *
    generalize (2 : ℝ) ^ (-1000 : ℤ) = τ at *
    norm_num at hτ2 hT ⊢
    linarith
  have hFar0 : 0 ≤ Spec.farError (fun q => ((a q : ℝ) : ℂ)) (1 / 2 ^ 48) 0 (1 / 2 ^ 52) := by
    unfold Spec.farError Spec.totalError
    positivity
  unfold Spec.beamError Spec.powerError
  rw [hF, hS]
  generalize Spec.farError (fun q => ((a q : ℝ) : ℂ)) (1 / 2 ^ 48) 0 (1 / 2 ^ 52) = f at *
  generalize (2 : ℝ) ^ (-600 : ℤ) = τ at *
  have h3 : f * (2 * 4 + f) ≤ 1 / 2 ^ 44 * (2 * 4 + 1 / 2 ^ 44) := by gcongr
  have h4 : (4 + f) ^ 2 ≤ (4 + 1 / 2 ^ 44) ^ 2 := by gcongr
  norm_num at hτ3 h3 h4 ⊢
  linarith

theorem two_row (i : Fin 3) (b : Fin 2 → ℝ) (hb : Core.modelRow [1, -10, 2, 0, 0, 0] Spec.twoPlaces (fun _ => 0) (fun _ => 0)
      (1 / 64) (fun _ _ _ _ => .ok fun _ => 1)
      (⟨Spec.smallBlock, fun _ _ _ => .ok fun _ => 0, 96⟩ : TelGeo (Fin 4 × Fin 4)) 1 i = .ok b) : b 0 = 16 ∧ b 1 = 8 := by
  obtain ⟨P, hP, hax, hP2, hP1⟩ := four_pattern [1, -10, 2, 0, 0] 0
  have e0 : Spec.twoPlaces (i, 0) = 0 := by simp [Spec.twoPlaces]
  have e1 : Spec.twoPlaces (i, 1) = -1 / 2 ^ 14 := by simp [Spec.twoPlaces]
  have u2 : P.u 2 = 0 := by
    rw [(hax 2).1]
    simp
  have v2 : P.v 2 = 0 := by
    rw [(hax 2).2]
    simp
  have u1 : P.u 1 = -1 / 2 ^ 14 := by
    rw [(hax 1).1]
    norm_num
  constructor
  · rw [← hP2]
    exact row_node (N := 4) (M := 2) [1, -10, 2, 0, 0, 0] Spec.twoPlaces (fun _ => 0) (fun _ => 0) (1 / 64) _ _ 1 i P b hP hb 0 2 2 (e0.trans u2.symm) v2.symm
  · rw [← hP1]
    exact row_node (N := 4) (M := 2) [1, -10, 2, 0, 0, 0] Spec.twoPlaces (fun _ => 0) (fun _ => 0) (1 / 64) _ _ 1 i P b hP hb 1 2 1 (e1.trans u1.symm) v2.symm

/-- Three maps of two samples each; the residual in doubles is right to `1 / 10 ^ 10`. -/
example : ∃ rnd L, ∃ fft : (Fin 4 × Fin 4 → Dbl.Cx) → Fin 4 × Fin 4 → Dbl.Cx, Spec.Rounding rnd ∧ Spec.AccurateC L ∧
    Spec.FourierAccurate (1 / 2 ^ 52) fft ∧ ∃ r rd : List ℝ,
      Core.residualTrue [1, -10, 2, 0, 0, 0] (fun q => .fin (Spec.twoPowers q)) Spec.twoPlaces (fun _ => 0) (fun _ => 0) (1 / 64)
        (fun _ _ _ _ => .ok fun _ => 1)
        (⟨Spec.smallBlock, fun _ _ _ => .ok fun _ => 0, 96⟩ : TelGeo (Fin 4 × Fin 4)) 1 = .ok r ∧
      Dbl.residualTrue rnd L fft ([1, -10, 2, 0, 0, 0].map .fin) (fun q => .fin (Spec.twoPowers q))
        (fun q => .fin (Spec.twoPlaces q)) (fun _ => .fin 0) (fun _ => .fin 0) (.fin (1 / 64)) (fun _ _ _ _ => .ok fun _ => .fin 1)
        ⟨Spec.smallBlockD, fun _ _ _ => .ok fun _ => .fin 0, .fin 96⟩ (.fin 1) = .ok (rd.map .fin) ∧
      ∀ i : Fin 3, ∀ k : Fin 2, ∃ x y, r[(i : ℕ) * 2 + k]? = some x ∧ rd[(i : ℕ) * 2 + k]? = some y ∧ |y - x| ≤ 1 / 10 ^ 10 := by
  obtain ⟨rnd, h⟩ := rounding_exists
  have hd96 : Spec.IsDouble 96 := by simpa using isDouble_int (z := 96) (by norm_num)
  obtain ⟨c, hc, hcd, hce, hc1, hc2⟩ := box_near (p := 96) (b := 1) h (by norm_num) (by norm_num) (by norm_num) (by norm_num)
  choose g hg hgd hge hg0 hge' hgb using fun i : Fin 4 =>
    boxGrid_near (p := 96) (b := 1) h (by norm_num) (by norm_num) (by norm_num) hcd hce hc1 hc2 (by norm_num) (by norm_num) i
  have hgrid : ∀ i : Fin 4, Spec.gridD rnd 96 1 4 i = .fin (g i) := by
    intro i
    unfold Spec.gridD
    rw [hc]
    exact hg i
  have hg2 := fun i => four_lit (hge' i)
  set X : Fin 4 → ℝ := Np.linspace (-(96 * 1)) (96 * 1) 4 with hX
  have hO : Spec.SameOptics (⟨Spec.smallBlock, fun _ _ _ => .ok fun _ => 0, 96⟩ : TelGeo (Fin 4 × Fin 4))
      (fun _ _ _ _ => .ok fun _ => 1) ⟨Spec.smallBlockD, fun _ _ _ => .ok fun _ => .fin 0, .fin 96⟩
      (fun _ _ _ _ => .ok fun _ => .fin 1) (fun q => X q.2) (fun q => X q.1) (fun q => Spec.gridD rnd 96 1 4 q.2)
      (fun q => Spec.gridD rnd 96 1 4 q.1) [1, -10, 2, 0, 0] 0 (1 / 64) 0 0 0
      (fun q => if Spec.inner q.2 ∧ Spec.inner q.1 then 1 else 0) (fun _ => 1) (fun _ => 0) := by
    refine ⟨rfl, ?_, ?_, fun q => ?_, rfl, ⟨fun _ => 1, rfl, fun q => ⟨isDouble_one, ?_, fun _ => by simp⟩⟩, rfl,
      ⟨fun _ => 0, rfl, fun q => ⟨isDouble_zero, ?_, fun _ => by simp⟩⟩⟩
    · show Except.ok _ = Except.ok _
      congr 1
      funext q
      simp only [(hg2 q.1).2, (hg2 q.2).2]
    · show Except.ok _ = Except.ok _
      congr 1
      funext q
      simp only [hgrid, Spec.finPart, (hg2 q.1).1, (hg2 q.2).1]
    · by_cases hq : Spec.inner q.2 ∧ Spec.inner q.1
      · right
        refine ⟨if_pos hq, ?_⟩
        have h1 := abs_le.1 ((hg2 q.2).2.2 hq.1)
        have h2 := abs_le.1 ((hg2 q.1).2.2 hq.2)
        norm_num
        nlinarith
      · exact Or.inl (if_neg hq)
    · rw [abs_one]
      exact one_le_pow₀ one_le_two
    · rw [abs_zero]
      positivity
  obtain ⟨r, rd, hr, hrd, -, -, -, hacc⟩ := C125_residual h (bestLibmC_accurate h) 0 (by norm_num) [1, -10, 2, 0, 0, 0]
    (by simp) (by simpa using isDouble_zero) (by simp) (M := 2) (by norm_num) (N := 4) (by norm_num) (by norm_num)
    (Spec.bestFft rnd) (1 / 2 ^ 52) (by positivity) (by norm_num) (bestFft_accurate h (by norm_num))
    ⟨Spec.smallBlock, fun _ _ _ => .ok fun _ => 0, 96⟩ (fun _ _ _ _ => .ok fun _ => 1)
    ⟨Spec.smallBlockD, fun _ _ _ => .ok fun _ => .fin 0, .fin 96⟩ (fun _ _ _ _ => .ok fun _ => .fin 1) hd96 (by norm_num)
    (by norm_num) (fun _ => 0) 1 (1 / 64) 0 0 0 le_rfl (by norm_num) (by norm_num) (by norm_num) le_rfl (by positivity) le_rfl
    (by norm_num) le_rfl _ _ _ (fun _ => hO) Spec.twoPlaces (fun _ => 0) Spec.twoPowers
    two_double two_inBeam two_powers
  refine ⟨rnd, _, _, h, bestLibmC_accurate h, bestFft_accurate h (by norm_num), r, rd, hr, hrd, fun i k => ?_⟩
  obtain ⟨b, hb, hbd⟩ := hacc i
  obtain ⟨hb0, hb1⟩ := two_row i b hb
  have hbeam := four_beamError
  have hdrop : ([1, -10, 2, 0, 0, 0] : List ℝ).drop 5 = [0] := rfl
  simp only [hdrop] at hbd
  generalize Spec.beamError (fun q : Fin 4 × Fin 4 => (if Spec.inner q.2 ∧ Spec.inner q.1 then 1 else 0) * 1)
      (Spec.fieldError 0 [0] 0 0) 0 (1 / 2 ^ 52) = e at *
  obtain ⟨x, y, hx, hy, hxy⟩ := hbd 1 0 (by simp [Spec.twoPowers]) 1 0 (by rw [hb0, hb1]; norm_num at hbeam ⊢; linarith) k
  refine ⟨x, y, hx, hy, hxy.trans ?_⟩
  rw [hb0, hb1]
  norm_num at hbeam ⊢
  linarith

end Verif.Props
