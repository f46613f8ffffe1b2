import Verif.Model.DoubleResidual
import Verif.Props.DoublePattern
import Verif.Props.Residual
import Verif.Props.Noise

/-!
# The residual in the arithmetic of doubles (C125)
-/

namespace Verif.Props

open Verif Verif.Np Verif.Aperture Verif.Core

/-! ## Linear interpolation at nearly the same place -/

/-- Linear interpolation along a polygon changes by at most its steepest step times the way. -/
theorem lin_path {f : ℕ → ℝ} {D : ℝ} (hf : ∀ k, |f (k + 1) - f k| ≤ D) {i j : ℕ} {s t : ℝ} (hs : 0 ≤ s ∧ s ≤ 1)
    (ht : 0 ≤ t ∧ t ≤ 1) : |lin f i s - lin f j t| ≤ D * |((i : ℝ) + s) - (j + t)| := by
  have hD : 0 ≤ D := (abs_nonneg _).trans (hf 0)
  have hstep : ∀ (a d : ℕ), |f (a + d) - f a| ≤ D * d := by
    intro a d
    induction d with
    | zero => simp
    | succ d ih =>
      have e : f (a + (d + 1)) - f a = (f (a + d + 1) - f (a + d)) + (f (a + d) - f a) := by
        rw [← add_assoc]
        ring
      rw [e]
      refine (abs_add_le _ _).trans ((add_le_add (hf _) ih).trans (le_of_eq ?_))
      push_cast
      ring
  have key : ∀ (i j : ℕ) (s t : ℝ), 0 ≤ s ∧ s ≤ 1 → 0 ≤ t ∧ t ≤ 1 → i < j →
      |lin f i s - lin f j t| ≤ D * |((i : ℝ) + s) - (j + t)| := by
    intro i j s t hs ht hij
    obtain ⟨d, rfl⟩ := Nat.exists_eq_add_of_lt hij
    have e : lin f i s - lin f (i + d + 1) t =
        -((f (i + 1) - f i) * (1 - s)) - (f (i + 1 + d) - f (i + 1)) - (f (i + d + 1 + 1) - f (i + d + 1)) * t := by
      unfold lin
      rw [show i + 1 + d = i + d + 1 by omega]
      ring
    have h1 : |(f (i + 1) - f i) * (1 - s)| ≤ D * (1 - s) := by
      rw [abs_mul, abs_of_nonneg (by linarith : 0 ≤ 1 - s)]
      exact mul_le_mul_of_nonneg_right (hf i) (by linarith)
    have h2 := hstep (i + 1) d
    have h3 : |(f (i + d + 1 + 1) - f (i + d + 1)) * t| ≤ D * t := by
      rw [abs_mul, abs_of_nonneg ht.1]
      exact mul_le_mul_of_nonneg_right (hf _) ht.1
    have h4 : |((i : ℝ) + s) - (((i + d + 1 : ℕ) : ℝ) + t)| = (1 - s) + d + t := by
      push_cast
      rw [abs_of_nonpos (by linarith [(Nat.cast_nonneg d : (0 : ℝ) ≤ d)])]
      ring
    rw [e, h4]
    have := abs_sub (-((f (i + 1) - f i) * (1 - s)) - (f (i + 1 + d) - f (i + 1))) ((f (i + d + 1 + 1) - f (i + d + 1)) * t)
    have := abs_sub (-((f (i + 1) - f i) * (1 - s))) (f (i + 1 + d) - f (i + 1))
    rw [abs_neg] at this
    nlinarith
  rcases lt_trichotomy i j with h | h | h
  · exact key i j s t hs ht h
  · subst h
    have e : lin f i s - lin f i t = (f (i + 1) - f i) * (s - t) := by
      unfold lin
      ring
    rw [e, abs_mul, add_sub_add_left_eq_sub]
    exact mul_le_mul_of_nonneg_right (hf i) (abs_nonneg _)
  · rw [abs_sub_comm, abs_sub_comm ((i : ℝ) + s)]
    exact key j i t s ht hs h

/-- Linear interpolation in the cell `(i, j)`. -/
noncomputable def bilin (V : ℕ → ℕ → ℝ) (i j : ℕ) (s t : ℝ) : ℝ := lin (fun a => lin (fun b => V a b) j t) i s

theorem lin_mem {f : ℕ → ℝ} {a b : ℝ} (hf : ∀ k, a ≤ f k ∧ f k ≤ b) {i : ℕ} {s : ℝ} (hs : 0 ≤ s ∧ s ≤ 1) :
    a ≤ lin f i s ∧ lin f i s ≤ b := by
  unfold lin
  have h1 := hf i
  have h2 := hf (i + 1)
  constructor <;> nlinarith

theorem bilin_path {V : ℕ → ℕ → ℝ} {A : ℝ} (hV : ∀ a b, 0 ≤ V a b ∧ V a b ≤ A) {i j i' j' : ℕ} {s t s' t' : ℝ}
    (hs : 0 ≤ s ∧ s ≤ 1) (ht : 0 ≤ t ∧ t ≤ 1) (hs' : 0 ≤ s' ∧ s' ≤ 1) (ht' : 0 ≤ t' ∧ t' ≤ 1) :
    |bilin V i j s t - bilin V i' j' s' t'| ≤
      A * (|((i : ℝ) + s) - (i' + s')| + |((j : ℝ) + t) - (j' + t')|) := by
  have hd : ∀ {a b : ℝ}, 0 ≤ a ∧ a ≤ A → 0 ≤ b ∧ b ≤ A → |a - b| ≤ A := fun ha hb => by
    rw [abs_le]
    constructor <;> linarith [ha.1, ha.2, hb.1, hb.2]
  have h1 : |bilin V i j s t - bilin V i' j s' t| ≤ A * |((i : ℝ) + s) - (i' + s')| :=
    lin_path (fun k => hd (lin_mem (hV (k + 1)) ht) (lin_mem (hV k) ht)) hs hs'
  have h2 : |bilin V i' j s' t - bilin V i' j' s' t'| ≤ A * |((j : ℝ) + t) - (j' + t')| := by
    have e : bilin V i' j s' t - bilin V i' j' s' t' =
        lin (fun a => lin (fun b => V a b) j t - lin (fun b => V a b) j' t') i' s' := by
      unfold bilin lin
      ring
    rw [e, abs_le]
    exact lin_mem (fun a => abs_le.1 (lin_path (fun k => hd (hV a _) (hV a _)) ht ht')) hs'
  refine (abs_sub_le _ (bilin V i' j s' t) _).trans ?_
  rw [mul_add]
  exact add_le_add h1 h2

theorem bilin_values {V V' : ℕ → ℕ → ℝ} {e : ℝ} {i j : ℕ} {s t : ℝ}
    (hV : ∀ a b, a ≤ i + 1 → b ≤ j + 1 → |V a b - V' a b| ≤ e) (hs : 0 ≤ s ∧ s ≤ 1) (ht : 0 ≤ t ∧ t ≤ 1) :
    |bilin V i j s t - bilin V' i j s t| ≤ e := by
  have e1 : bilin V i j s t - bilin V' i j s t = (V i j - V' i j) * ((1 - s) * (1 - t)) +
      (V i (j + 1) - V' i (j + 1)) * ((1 - s) * t) + (V (i + 1) j - V' (i + 1) j) * (s * (1 - t)) +
      (V (i + 1) (j + 1) - V' (i + 1) (j + 1)) * (s * t) := by
    unfold bilin lin
    ring
  have h1 : 0 ≤ (1 - s) * (1 - t) := mul_nonneg (by linarith) (by linarith)
  have h2 : 0 ≤ (1 - s) * t := mul_nonneg (by linarith) ht.1
  have h3 : 0 ≤ s * (1 - t) := mul_nonneg hs.1 (by linarith)
  have h4 : 0 ≤ s * t := mul_nonneg hs.1 ht.1
  have g1 := abs_le.1 (hV i j (by omega) (by omega))
  have g2 := abs_le.1 (hV i (j + 1) (by omega) (by omega))
  have g3 := abs_le.1 (hV (i + 1) j (by omega) (by omega))
  have g4 := abs_le.1 (hV (i + 1) (j + 1) (by omega) (by omega))
  have hsum : (1 - s) * (1 - t) + (1 - s) * t + s * (1 - t) + s * t = 1 := by ring
  rw [e1, abs_le]
  generalize (1 - s) * (1 - t) = w1 at *
  generalize (1 - s) * t = w2 at *
  generalize s * (1 - t) = w3 at *
  generalize s * t = w4 at *
  have hw : w1 = 1 - w2 - w3 - w4 := by linarith
  constructor
  · have k1 := mul_le_mul_of_nonneg_right g1.1 h1
    have k2 := mul_le_mul_of_nonneg_right g2.1 h2
    have k3 := mul_le_mul_of_nonneg_right g3.1 h3
    have k4 := mul_le_mul_of_nonneg_right g4.1 h4
    have : -e = -e * w1 + -e * w2 + -e * w3 + -e * w4 := by rw [hw]; ring
    linarith
  · have k1 := mul_le_mul_of_nonneg_right g1.2 h1
    have k2 := mul_le_mul_of_nonneg_right g2.2 h2
    have k3 := mul_le_mul_of_nonneg_right g3.2 h3
    have k4 := mul_le_mul_of_nonneg_right g4.2 h4
    have : e = e * w1 + e * w2 + e * w3 + e * w4 := by rw [hw]; ring
    linarith

/-! ## The cell in doubles -/

theorem cellIdxD_eq {n : ℕ} (g : Fin n → ℝ) (x : ℝ) : Dbl.cellIdx (fun k => Fl.fin (g k)) (.fin x) = Core.cellIdx g x := by
  unfold Dbl.cellIdx Core.cellIdx Dbl.searchsorted Core.searchsorted
  rfl

/-- The distance in the cell. -/
theorem cellDistD_near {rnd : ℝ → Fl} (h : Spec.Rounding rnd) {n : ℕ} (hn : 2 ≤ n) {g : Fin n → ℝ} (hg : StrictMono g)
    (hgd : ∀ k, Spec.IsDouble (g k)) (hgb : ∀ k, |g k| ≤ 2 ^ 900) {x : ℝ} (hx : Spec.IsDouble x) (hin : Core.inGrid g x) :
    ∃ s, Dbl.cellDist rnd (fun k => Fl.fin (g k)) (.fin x) = .fin s ∧ Spec.IsDouble s ∧ 0 ≤ s ∧ s ≤ 1 ∧
      |s - Core.cellDist g x| ≤ 1 / 2 ^ 51 := by
  obtain ⟨hi, h1, h2⟩ := cell_spec hn g hg x hin
  have hD : Dbl.cellDist rnd (fun k => Fl.fin (g k)) (.fin x) =
      Dbl.div rnd (Dbl.sub rnd (.fin x) (.fin (g ⟨Core.cellIdx g x, by omega⟩)))
        (Dbl.sub rnd (.fin (g ⟨Core.cellIdx g x + 1, hi⟩)) (.fin (g ⟨Core.cellIdx g x, by omega⟩))) := by
    unfold Dbl.cellDist
    rw [cellIdxD_eq]
    unfold Dbl.gridAt
    rw [dif_pos (by omega : Core.cellIdx g x < n), dif_pos hi]
  have hE : Core.cellDist g x = (x - g ⟨Core.cellIdx g x, by omega⟩) /
      (g ⟨Core.cellIdx g x + 1, hi⟩ - g ⟨Core.cellIdx g x, by omega⟩) := by
    unfold Core.cellDist
    rw [gridAt_lt g (by omega : Core.cellIdx g x < n), gridAt_lt g hi]
  rw [gridAt_lt g (by omega : Core.cellIdx g x < n)] at h1
  rw [gridAt_lt g hi] at h2
  rw [hD, hE]
  have hlt : g ⟨Core.cellIdx g x, by omega⟩ < g ⟨Core.cellIdx g x + 1, hi⟩ := hg (Fin.lt_def.2 (Nat.lt_succ_self _))
  have hr : g ⟨Core.cellIdx g x + 1, hi⟩ - g ⟨Core.cellIdx g x, by omega⟩ < 2 ^ 1024 - 2 ^ 970 := by
    have a1 := abs_le.1 (hgb ⟨Core.cellIdx g x, by omega⟩)
    have a2 := abs_le.1 (hgb ⟨Core.cellIdx g x + 1, hi⟩)
    refine lt_of_le_of_lt ?_ (two_pow_lt_range (k := 901) (by norm_num))
    rw [show (2 : ℝ) ^ 901 = 2 * 2 ^ 900 by rw [pow_succ, mul_comm]]
    generalize (2 : ℝ) ^ 900 = A at *
    linarith [a1.1, a2.2]
  have hlo := hgd ⟨Core.cellIdx g x, by omega⟩
  have hhi := hgd ⟨Core.cellIdx g x + 1, hi⟩
  generalize g ⟨Core.cellIdx g x, _⟩ = lo at *
  generalize g ⟨Core.cellIdx g x + 1, _⟩ = hi' at *
  obtain ⟨A, B, hA, hB, hA0, hAB, hB0, -, -, hz, hzd, -⟩ := normPtD_fin h hx hlo hhi h1 h2 hlt hr
  refine ⟨normPtD rnd (.fin x) (.fin lo) (.fin hi'), ?_, hzd, ?_, ?_, ?_⟩
  · have e1 : Dbl.sub rnd (.fin x) (.fin lo) = .fin A := by
      rw [← hA, sub_eq_add_neg]
      rfl
    have e2 : Dbl.sub rnd (.fin hi') (.fin lo) = .fin B := by
      rw [← hB, sub_eq_add_neg]
      rfl
    rw [e1, e2, ← hz]
    show Dbl.rop rnd (if B = 0 then _ else _) = _
    rw [if_neg hB0.ne']
    rfl
  · have q0 : 0 ≤ A / B := div_nonneg hA0 hB0.le
    have q1 : A / B ≤ 1 := div_le_one_of_le₀ hAB hB0.le
    exact round_mono h q0 (isDouble_le isDouble_zero) (by rw [abs_of_nonneg q0]; exact q1.trans_lt one_lt_range)
      (rnd_zero h) hz
  · have q0 : 0 ≤ A / B := div_nonneg hA0 hB0.le
    have q1 : A / B ≤ 1 := div_le_one_of_le₀ hAB hB0.le
    exact round_mono h q1 (by rw [abs_of_nonneg q0]; exact q1.trans_lt one_lt_range) (isDouble_le isDouble_one) hz
      (round_self h isDouble_one)
  · obtain ⟨n', hn', -, -, -, hv⟩ := C94_values h ![lo, x, hi'] (by
      intro q
      fin_cases q
      · exact hlo
      · exact hx
      · exact hhi) 0 2 (by
      intro q
      fin_cases q
      · exact le_rfl
      · exact h1
      · exact hlt.le) (by
      intro q
      fin_cases q
      · exact hlt.le
      · exact h2
      · exact le_rfl) hlt hr
    rw [normD_fin rnd ![lo, x, hi'] 0 2 (by
      intro q
      fin_cases q
      · exact le_rfl
      · exact h1
      · exact hlt.le) (by
      intro q
      fin_cases q
      · exact hlt.le
      · exact h2
      · exact le_rfl)] at hn'
    have := hv 1
    rw [← Except.ok.inj hn'] at this
    exact this

/-! ## The four corners -/

theorem subD_one {rnd : ℝ → Fl} (h : Spec.Rounding rnd) {s : ℝ} (hs : 0 ≤ s ∧ s ≤ 1) :
    ∃ c, Dbl.sub rnd (.fin 1) (.fin s) = .fin c ∧ Spec.IsDouble c ∧ 0 ≤ c ∧ c ≤ 1 ∧ |c - (1 - s)| ≤ 1 / 2 ^ 51 := by
  have h1 : |1 - s| ≤ 1 := by
    rw [abs_le]
    constructor <;> linarith [hs.1, hs.2]
  obtain ⟨c, hc, hcd, hc1, hce⟩ := round_unit h h1
  refine ⟨c, ?_, hcd, ?_, (abs_le.1 hc1).2, hce⟩
  · rw [← hc, sub_eq_add_neg]
    rfl
  · exact round_mono h (by linarith [hs.2] : 0 ≤ 1 - s) (isDouble_le isDouble_zero) (h1.trans_lt one_lt_range) (rnd_zero h) hc

theorem corner_near {rnd : ℝ → Fl} (h : Spec.Rounding rnd) {V A a b x y : ℝ} (hV : 0 ≤ V ∧ V ≤ A) (hA : A ≤ 2 ^ 810)
    (had : Spec.IsDouble a) (ha : 0 ≤ a ∧ a ≤ 1) (hb : 0 ≤ b ∧ b ≤ 1) (hx : 0 ≤ x ∧ x ≤ 1) (hax : |a - x| ≤ 1 / 2 ^ 51)
    (hby : |b - y| ≤ 1 / 2 ^ 51) :
    ∃ t, Dbl.corner rnd (.fin V) (.fin a) (.fin b) = .fin t ∧ Spec.IsDouble t ∧ |t| ≤ 2 * A + 2 ^ (-1075 : ℤ) ∧
      |t - V * (x * y)| ≤ 4 * A / 2 ^ 51 + 2 ^ (-1075 : ℤ) := by
  have hab : 0 ≤ a * b ∧ a * b ≤ 1 := ⟨mul_nonneg ha.1 hb.1, mul_le_one₀ ha.2 hb.1 hb.2⟩
  have hab' : |a * b| ≤ 1 := by rw [abs_of_nonneg hab.1]; exact hab.2
  obtain ⟨w, hw, hwd, hw1, hwe⟩ := round_unit h hab'
  have hw0 : 0 ≤ w := round_mono h hab.1 (isDouble_le isDouble_zero) (hab'.trans_lt one_lt_range) (rnd_zero h) hw
  have hw1' := (abs_le.1 hw1).2
  have hVw : |V * w| ≤ A := by
    rw [abs_of_nonneg (mul_nonneg hV.1 hw0)]
    nlinarith [hV.1, hV.2]
  obtain ⟨t, ht, htd, hte⟩ := round_rel h (hVw.trans (hA.trans (two_pow_le (by norm_num))))
  have hA0 : 0 ≤ A := hV.1.trans hV.2
  have hτ : (0 : ℝ) < 2 ^ (-1075 : ℤ) := by positivity
  have h1 : |w - x * y| ≤ 3 / 2 ^ 51 := by
    have e : w - x * y = (w - a * b) + (a - x) * b + x * (b - y) := by ring
    rw [e]
    have h2 : |(a - x) * b| ≤ 1 / 2 ^ 51 := by
      rw [abs_mul, abs_of_nonneg hb.1]
      exact (mul_le_of_le_one_right (abs_nonneg _) hb.2).trans hax
    have h3 : |x * (b - y)| ≤ 1 / 2 ^ 51 := by
      rw [abs_mul, abs_of_nonneg hx.1]
      exact (mul_le_of_le_one_left (abs_nonneg _) hx.2).trans hby
    refine (abs_add_le _ _).trans ((add_le_add (abs_add_le _ _) le_rfl).trans ?_)
    linarith
  have h2 : |V * w - V * (x * y)| ≤ A * (3 / 2 ^ 51) := by
    rw [← mul_sub, abs_mul, abs_of_nonneg hV.1]
    exact mul_le_mul hV.2 h1 (abs_nonneg _) hA0
  have h3 : |t - V * w| ≤ A / 2 ^ 53 + 2 ^ (-1075 : ℤ) := hte.trans (add_le_add (div_le_div_of_nonneg_right hVw (by positivity)) le_rfl)
  refine ⟨t, ?_, htd, ?_, ?_⟩
  · unfold Dbl.corner
    have e1 : Dbl.mul rnd (.fin 1) (.fin a) = .fin a := by
      show rnd (1 * a) = _
      rw [one_mul]
      exact round_self h had
    rw [e1]
    show Dbl.mul rnd (.fin V) (rnd (a * b)) = _
    rw [hw]
    exact ht
  · have := abs_sub_abs_le_abs_sub t (V * w)
    generalize (2 : ℝ) ^ (-1075 : ℤ) = τ at *
    norm_num at h3
    linarith
  · have := abs_sub_le t (V * w) (V * (x * y))
    generalize (2 : ℝ) ^ (-1075 : ℤ) = τ at *
    norm_num at h2 h3 ⊢
    linarith

/-- A rounded sum. -/
theorem addD_near {rnd : ℝ → Fl} (h : Spec.Rounding rnd) {a b X : ℝ} (hab : |a + b| ≤ X) (hX : X ≤ 2 ^ 900) :
    ∃ t, Dbl.add rnd (.fin a) (.fin b) = .fin t ∧ Spec.IsDouble t ∧ |t - (a + b)| ≤ X / 2 ^ 53 + 2 ^ (-1075 : ℤ) := by
  obtain ⟨t, ht, htd, hte⟩ := round_rel h (hab.trans hX)
  exact ⟨t, ht, htd, hte.trans (add_le_add (div_le_div_of_nonneg_right hab (by positivity)) le_rfl)⟩

theorem sum4_near {rnd : ℝ → Fl} (h : Spec.Rounding rnd) {A a b c d : ℝ} (hA0 : 0 ≤ A) (hA : A ≤ 2 ^ 810)
    (had : Spec.IsDouble a) (ha : |a| ≤ 2 * A + 2 ^ (-1075 : ℤ)) (hb : |b| ≤ 2 * A + 2 ^ (-1075 : ℤ))
    (hc : |c| ≤ 2 * A + 2 ^ (-1075 : ℤ)) (hd : |d| ≤ 2 * A + 2 ^ (-1075 : ℤ)) :
    ∃ t, Dbl.add rnd (Dbl.add rnd (Dbl.add rnd (Dbl.add rnd (.fin 0) (.fin a)) (.fin b)) (.fin c)) (.fin d) = .fin t ∧
      Spec.IsDouble t ∧ |t - (a + b + c + d)| ≤ 8 * A / 2 ^ 51 + 4 * 2 ^ (-1075 : ℤ) := by
  have e0 : Dbl.add rnd (.fin 0) (.fin a) = .fin a := by
    show rnd (0 + a) = _
    rw [zero_add]
    exact round_self h had
  have hτ : (0 : ℝ) < 2 ^ (-1075 : ℤ) := by positivity
  have hτ1 := tiny_le (k := -1075) (by norm_num)
  have hbig : 10 * A + 10 * 2 ^ (-1075 : ℤ) ≤ 2 ^ 900 := by
    rw [show (2 : ℝ) ^ 900 = 2 ^ 90 * 2 ^ 810 by rw [← pow_add]]
    have : (1 : ℝ) ≤ 2 ^ 810 := one_le_pow₀ one_le_two
    generalize (2 : ℝ) ^ 810 = B at *
    generalize (2 : ℝ) ^ (-1075 : ℤ) = τ at *
    norm_num at hτ1 ⊢
    linarith
  generalize hτ' : (2 : ℝ) ^ (-1075 : ℤ) = τ at *
  have h1 := abs_add_le a b
  obtain ⟨t1, ht1, -, he1⟩ := addD_near h (a := a) (b := b) (X := 4 * A + 2 * τ) (by linarith) (le_trans (by linarith) hbig)
  rw [hτ'] at he1
  have h2 := abs_add_le t1 c
  have h3 := abs_sub_abs_le_abs_sub t1 (a + b)
  obtain ⟨t2, ht2, -, he2⟩ := addD_near h (a := t1) (b := c) (X := 7 * A + 7 * τ) (by
    norm_num at he1
    linarith) (le_trans (by linarith) hbig)
  rw [hτ'] at he2
  have h4 := abs_add_le t2 d
  have h5 := abs_sub_abs_le_abs_sub t2 (t1 + c)
  obtain ⟨t3, ht3, hd3, he3⟩ := addD_near h (a := t2) (b := d) (X := 10 * A + 10 * τ) (by
    norm_num at he1 he2
    linarith) hbig
  rw [hτ'] at he3
  refine ⟨t3, ?_, hd3, ?_⟩
  · rw [e0, ht1, ht2, ht3]
  · have e : t3 - (a + b + c + d) = (t3 - (t2 + d)) + (t2 - (t1 + c)) + (t1 - (a + b)) := by ring
    rw [e]
    refine (abs_add_le _ _).trans ((add_le_add (abs_add_le _ _) le_rfl).trans ?_)
    norm_num at he1 he2 he3 ⊢
    linarith

/-- The interpolation in doubles, at a point of the grid: the rounding of the operations. -/
theorem evalLinearD_near {rnd : ℝ → Fl} (h : Spec.Rounding rnd) {n : ℕ} (hn : 2 ≤ n) {g k : Fin n → ℝ} (hg : StrictMono g)
    (hk : StrictMono k) (hgd : ∀ i, Spec.IsDouble (g i)) (hkd : ∀ i, Spec.IsDouble (k i)) (hgb : ∀ i, |g i| ≤ 2 ^ 900)
    (hkb : ∀ i, |k i| ≤ 2 ^ 900) {x y : ℝ} (hx : Spec.IsDouble x) (hy : Spec.IsDouble y) (hix : Core.inGrid g x)
    (hiy : Core.inGrid k y) {V : Fin n × Fin n → ℝ} {A : ℝ} (hV : ∀ q, 0 ≤ V q ∧ V q ≤ A) (hA : A ≤ 2 ^ 810) :
    ∃ z s t, Dbl.evalLinear rnd (fun i => Fl.fin (g i)) (fun i => Fl.fin (k i)) (fun q => Fl.fin (V q)) (.fin x) (.fin y) =
        .fin z ∧ Spec.IsDouble z ∧ (0 ≤ s ∧ s ≤ 1) ∧ (0 ≤ t ∧ t ≤ 1) ∧ |s - Core.cellDist g x| ≤ 1 / 2 ^ 51 ∧
      |t - Core.cellDist k y| ≤ 1 / 2 ^ 51 ∧
      |z - bilin (fun a b => Core.valAt V a b) (Core.cellIdx g x) (Core.cellIdx k y) s t| ≤ A / 2 ^ 46 + 8 * 2 ^ (-1075 : ℤ) := by
  obtain ⟨hi, -, -⟩ := cell_spec hn g hg x hix
  obtain ⟨hj, -, -⟩ := cell_spec hn k hk y hiy
  obtain ⟨s, hs, hsd, hs0, hs1, hse⟩ := cellDistD_near h hn hg hgd hgb hx hix
  obtain ⟨t, ht, htd, ht0, ht1, hte⟩ := cellDistD_near h hn hk hkd hkb hy hiy
  obtain ⟨s', hs', hsd', hs0', hs1', hse'⟩ := subD_one h ⟨hs0, hs1⟩
  obtain ⟨t', ht', htd', ht0', ht1', hte'⟩ := subD_one h ⟨ht0, ht1⟩
  set i := Core.cellIdx g x with hi'
  set j := Core.cellIdx k y with hj'
  have hA0 : 0 ≤ A := (hV (⟨i, by omega⟩, ⟨j, by omega⟩)).1.trans (hV _).2
  have z0 : ∀ {x : ℝ}, |x - x| ≤ 1 / 2 ^ 51 := fun {x} => by rw [sub_self, abs_zero]; positivity
  have n1 : 0 ≤ 1 - s ∧ 1 - s ≤ 1 := ⟨by linarith, by linarith⟩
  obtain ⟨c1, h1, hd1, hb1, he1⟩ := corner_near h (hV (⟨i, by omega⟩, ⟨j, by omega⟩)) hA hsd' ⟨hs0', hs1'⟩ ⟨ht0', ht1'⟩ n1
    hse' hte'
  obtain ⟨c2, h2, hd2, hb2, he2⟩ := corner_near h (hV (⟨i, by omega⟩, ⟨j + 1, hj⟩)) hA hsd' ⟨hs0', hs1'⟩ ⟨ht0, ht1⟩ n1
    hse' (z0 (x := t))
  obtain ⟨c3, h3, hd3, hb3, he3⟩ := corner_near h (hV (⟨i + 1, hi⟩, ⟨j, by omega⟩)) hA hsd ⟨hs0, hs1⟩ ⟨ht0', ht1'⟩ ⟨hs0, hs1⟩
    (z0 (x := s)) hte'
  obtain ⟨c4, h4, hd4, hb4, he4⟩ := corner_near h (hV (⟨i + 1, hi⟩, ⟨j + 1, hj⟩)) hA hsd ⟨hs0, hs1⟩ ⟨ht0, ht1⟩ ⟨hs0, hs1⟩
    (z0 (x := s)) (z0 (x := t))
  obtain ⟨z, hz, hzd, hze⟩ := sum4_near h hA0 hA hd1 hb1 hb2 hb3 hb4
  refine ⟨z, s, t, ?_, hzd, ⟨hs0, hs1⟩, ⟨ht0, ht1⟩, hse, hte, ?_⟩
  · unfold Dbl.evalLinear
    simp only [cellIdxD_eq, hs, ht, hs', ht', ← hi', ← hj']
    unfold Dbl.valAt
    rw [dif_pos ⟨by omega, by omega⟩, dif_pos ⟨by omega, hj⟩, dif_pos ⟨hi, by omega⟩, dif_pos ⟨hi, hj⟩, h1, h2, h3, h4, hz]
  · have e : bilin (fun a b => Core.valAt V a b) i j s t =
        V (⟨i, by omega⟩, ⟨j, by omega⟩) * ((1 - s) * (1 - t)) + V (⟨i, by omega⟩, ⟨j + 1, hj⟩) * ((1 - s) * t) +
          V (⟨i + 1, hi⟩, ⟨j, by omega⟩) * (s * (1 - t)) + V (⟨i + 1, hi⟩, ⟨j + 1, hj⟩) * (s * t) := by
      unfold bilin lin
      simp only [valAt_lt V (by omega : i < n) (by omega : j < n), valAt_lt V (by omega : i < n) hj,
        valAt_lt V hi (by omega : j < n), valAt_lt V hi hj]
      ring
    rw [e]
    generalize V (⟨i, _⟩, ⟨j, _⟩) * ((1 - s) * (1 - t)) = v1 at *
    generalize V (⟨i, _⟩, ⟨j + 1, hj⟩) * ((1 - s) * t) = v2 at *
    generalize V (⟨i + 1, hi⟩, ⟨j, _⟩) * (s * (1 - t)) = v3 at *
    generalize V (⟨i + 1, hi⟩, ⟨j + 1, hj⟩) * (s * t) = v4 at *
    have e2 : z - (v1 + v2 + v3 + v4) = (z - (c1 + c2 + c3 + c4)) + ((c1 - v1) + (c2 - v2) + (c3 - v3) + (c4 - v4)) := by ring
    rw [e2]
    refine (abs_add_le _ _).trans ?_
    have a1 := abs_add_le ((c1 - v1) + (c2 - v2) + (c3 - v3)) (c4 - v4)
    have a2 := abs_add_le ((c1 - v1) + (c2 - v2)) (c3 - v3)
    have a3 := abs_add_le (c1 - v1) (c2 - v2)
    generalize (2 : ℝ) ^ (-1075 : ℤ) = τ at *
    norm_num at hze he1 he2 he3 he4 ⊢
    linarith

/-! ## The axes -/

/-- A regular axis and one that differs from it by rounding: the latter ascends, holds what lies in the former without a
narrow margin, and there the place in the grid is nearly the same. -/
theorem axes_near {N : ℕ} (hN : 2 ≤ N) (hN' : N ≤ 2 ^ 20) {g a : Fin N → ℝ} {δ : ℝ} (hδ : 0 < δ)
    (hg : ∀ i, g i = (((i : ℕ) : ℝ) - ((N / 2 : ℕ) : ℝ)) * δ) (ha : ∀ i, |a i - g i| ≤ N / 2 ^ 49 * |g i|) :
    StrictMono g ∧ StrictMono a ∧ ∀ x, g ⟨0, by omega⟩ * (1 - N / 2 ^ 48) ≤ x → x ≤ g ⟨N - 1, by omega⟩ * (1 - N / 2 ^ 48) →
      Core.inGrid g x ∧ Core.inGrid a x ∧ |((Core.cellIdx a x : ℝ) + Core.cellDist a x) -
        (Core.cellIdx g x + Core.cellDist g x)| ≤ (N : ℝ) ^ 2 / 2 ^ 50 := by
  have hNr : (2 : ℝ) ≤ N := by exact_mod_cast hN
  have hNr' : (N : ℝ) ≤ 1048576 := by exact_mod_cast hN'
  have hm : (((N / 2 : ℕ) : ℝ)) ≤ N / 2 := by
    have : (N / 2) * 2 ≤ N := Nat.div_mul_le_self N 2
    have : (((N / 2 : ℕ) : ℝ)) * 2 ≤ N := by exact_mod_cast this
    linarith
  have hm' : (N : ℝ) / 2 - 1 / 2 ≤ ((N / 2 : ℕ) : ℝ) := by
    have : N ≤ (N / 2) * 2 + 1 := by omega
    have : (N : ℝ) ≤ ((N / 2 : ℕ) : ℝ) * 2 + 1 := by exact_mod_cast this
    linarith
  have hsq : (N : ℝ) ^ 2 ≤ 1048576 * N := by nlinarith
  have hsq' : (N : ℝ) ^ 2 ≤ 1048576 * 1048576 := by nlinarith
  have hgm : StrictMono g := by
    intro i j hij
    rw [hg, hg]
    have : ((i : ℕ) : ℝ) < ((j : ℕ) : ℝ) := by exact_mod_cast hij
    nlinarith
  -- the error of an axis in steps
  have hab : ∀ i, |a i - g i| ≤ (N : ℝ) ^ 2 / 2 ^ 50 * δ := by
    intro i
    refine (ha i).trans ?_
    have h1 : |g i| ≤ N / 2 * δ := by
      rw [hg, abs_mul, abs_of_pos hδ]
      refine mul_le_mul_of_nonneg_right ?_ hδ.le
      have h2 : ((i : ℕ) : ℝ) ≤ N - 1 := by
        have : (i : ℕ) + 1 ≤ N := i.isLt
        have : ((i : ℕ) : ℝ) + 1 ≤ N := by exact_mod_cast this
        linarith
      have h3 : (0 : ℝ) ≤ ((i : ℕ) : ℝ) := Nat.cast_nonneg _
      rw [abs_le]
      constructor <;> linarith
    calc (N : ℝ) / 2 ^ 49 * |g i| ≤ N / 2 ^ 49 * (N / 2 * δ) := by gcongr
      _ = _ := by ring
  have hε : (N : ℝ) ^ 2 / 2 ^ 50 ≤ 1 / 4 := by
    norm_num
    linarith
  have ham : StrictMono a := by
    intro i j hij
    have h1 : ((i : ℕ) : ℝ) + 1 ≤ ((j : ℕ) : ℝ) := by exact_mod_cast hij
    have h2 := abs_le.1 (hab i)
    have h3 := abs_le.1 (hab j)
    have h4 : g i + δ ≤ g j := by
      rw [hg, hg]
      nlinarith
    have h5 : (N : ℝ) ^ 2 / 2 ^ 50 * δ ≤ 1 / 4 * δ := mul_le_mul_of_nonneg_right hε hδ.le
    linarith [h2.2, h3.1]
  refine ⟨hgm, ham, fun x h1 h2 => ?_⟩
  have g0 : g ⟨0, by omega⟩ ≤ 0 := by
    rw [hg]
    have : (0 : ℝ) ≤ ((N / 2 : ℕ) : ℝ) := Nat.cast_nonneg _
    simp only [Nat.cast_zero, zero_sub]
    nlinarith
  have g1 : 0 ≤ g ⟨N - 1, by omega⟩ := by
    rw [hg]
    refine mul_nonneg ?_ hδ.le
    have : N / 2 ≤ N - 1 := by omega
    have : ((N / 2 : ℕ) : ℝ) ≤ ((N - 1 : ℕ) : ℝ) := by exact_mod_cast this
    simpa using this
  have a0 := abs_le.1 (ha ⟨0, by omega⟩)
  have a1 := abs_le.1 (ha ⟨N - 1, by omega⟩)
  rw [abs_of_nonpos g0] at a0
  rw [abs_of_nonneg g1] at a1
  have hNs : (N : ℝ) / 2 ^ 48 = 2 * (N / 2 ^ 49) := by ring
  have hN0 : 0 ≤ (N : ℝ) / 2 ^ 49 := by positivity
  rw [hNs] at h1 h2
  have m0 := mul_nonneg hN0 (neg_nonneg.2 g0)
  have m1 := mul_nonneg hN0 g1
  have hig : Core.inGrid g x := ⟨⟨⟨0, by omega⟩, by linarith⟩, ⟨N - 1, by omega⟩, by linarith⟩
  have hia : Core.inGrid a x := ⟨⟨⟨0, by omega⟩, by linarith [a0.2]⟩, ⟨N - 1, by omega⟩, by linarith [a1.1]⟩
  refine ⟨hig, hia, ?_⟩
  obtain ⟨hi, -, -⟩ := cell_spec hN g hgm x hig
  obtain ⟨hj, -, -⟩ := cell_spec hN a ham x hia
  have hd := cellDist_mem hN a ham x hia
  have e1 : (Core.cellIdx g x : ℝ) + Core.cellDist g x = x / δ + ((N / 2 : ℕ) : ℝ) := by
    unfold Core.cellDist
    rw [gridAt_lt g (by omega : Core.cellIdx g x < N), gridAt_lt g hi, hg, hg]
    push_cast
    rw [show ((Core.cellIdx g x : ℝ) + 1 - ((N / 2 : ℕ) : ℝ)) * δ - ((Core.cellIdx g x : ℝ) - ((N / 2 : ℕ) : ℝ)) * δ = δ by ring]
    field_simp
    ring
  rw [e1]
  unfold Core.cellDist at hd ⊢
  rw [gridAt_lt a (by omega : Core.cellIdx a x < N), gridAt_lt a hj] at hd ⊢
  have b1 := hab ⟨Core.cellIdx a x, by omega⟩
  have b2 := hab ⟨Core.cellIdx a x + 1, hj⟩
  have hlt : a ⟨Core.cellIdx a x, by omega⟩ < a ⟨Core.cellIdx a x + 1, hj⟩ := ham (Fin.lt_def.2 (Nat.lt_succ_self _))
  rw [hg] at b1 b2
  push_cast at b1 b2
  generalize a ⟨Core.cellIdx a x, _⟩ = p at *
  generalize a ⟨Core.cellIdx a x + 1, _⟩ = q at *
  generalize (Core.cellIdx a x : ℝ) = i at *
  generalize ((N / 2 : ℕ) : ℝ) = m at *
  generalize (N : ℝ) ^ 2 / 2 ^ 50 = ε at *
  generalize hs : (x - p) / (q - p) = s at *
  have hx : x = p + s * (q - p) := by
    rw [← hs, div_mul_cancel₀ _ (by linarith)]
    ring
  have e2 : i + s - (x / δ + m) = -(((p - (i - m) * δ) * (1 - s) + (q - (i + 1 - m) * δ) * s) / δ) := by
    rw [hx]
    field_simp
    ring
  rw [e2, abs_neg, abs_div, abs_of_pos hδ, div_le_iff₀ hδ]
  refine (abs_add_le _ _).trans ?_
  rw [abs_mul, abs_mul, abs_of_nonneg hd.1, abs_of_nonneg (by linarith [hd.2] : 0 ≤ 1 - s)]
  have c1 := mul_le_mul_of_nonneg_right b1 (by linarith [hd.2] : 0 ≤ 1 - s)
  have c2 := mul_le_mul_of_nonneg_right b2 hd.1
  linarith

/-- The interpolator in doubles next to the exact one. -/
theorem interpolator_near {rnd : ℝ → Fl} (h : Spec.Rounding rnd) {N M : ℕ} (hN : 2 ≤ N) (hN' : N ≤ 2 ^ 20)
    {g0 g1 a0 a1 : Fin N → ℝ} {δ0 δ1 : ℝ} (hδ0 : 0 < δ0) (hδ1 : 0 < δ1)
    (hg0 : ∀ i, g0 i = (((i : ℕ) : ℝ) - ((N / 2 : ℕ) : ℝ)) * δ0) (hg1 : ∀ i, g1 i = (((i : ℕ) : ℝ) - ((N / 2 : ℕ) : ℝ)) * δ1)
    (ha0 : ∀ i, |a0 i - g0 i| ≤ N / 2 ^ 49 * |g0 i|) (ha1 : ∀ i, |a1 i - g1 i| ≤ N / 2 ^ 49 * |g1 i|)
    (hd0 : ∀ i, Spec.IsDouble (a0 i)) (hd1 : ∀ i, Spec.IsDouble (a1 i)) (hb0 : ∀ i, |a0 i| ≤ 2 ^ 900)
    (hb1 : ∀ i, |a1 i| ≤ 2 ^ 900) {V V' : Fin N × Fin N → ℝ} {A e : ℝ} (hV : ∀ q, 0 ≤ V q ∧ V q ≤ A)
    (hV0 : ∀ q, 0 ≤ V' q ∧ V' q ≤ 2 ^ 810) (hVe : ∀ q, |V' q - V q| ≤ e) (he : 2 ^ (-600 : ℤ) ≤ e)
    (xi : Fin M → ℝ × ℝ) (hxd : ∀ k, Spec.IsDouble (xi k).1 ∧ Spec.IsDouble (xi k).2)
    (hx0 : ∀ k, g0 ⟨0, by omega⟩ * (1 - N / 2 ^ 48) ≤ (xi k).1 ∧ (xi k).1 ≤ g0 ⟨N - 1, by omega⟩ * (1 - N / 2 ^ 48))
    (hx1 : ∀ k, g1 ⟨0, by omega⟩ * (1 - N / 2 ^ 48) ≤ (xi k).2 ∧ (xi k).2 ≤ g1 ⟨N - 1, by omega⟩ * (1 - N / 2 ^ 48)) :
    ∃ b bd : Fin M → ℝ, Core.interpolator g0 g1 V xi = .ok b ∧
      Dbl.interpolator rnd (fun i => .fin (a0 i)) (fun i => .fin (a1 i)) (fun q => .fin (V' q))
        (fun k => (.fin (xi k).1, .fin (xi k).2)) = .ok (fun k => .fin (bd k)) ∧
      ∀ k, Spec.IsDouble (bd k) ∧ |bd k| ≤ 2 ^ 900 ∧ |bd k - b k| ≤ 2 * e + A * ((N : ℝ) ^ 2 / 2 ^ 46) := by
  obtain ⟨m0, n0, p0⟩ := axes_near hN hN' hδ0 hg0 ha0
  obtain ⟨m1, n1, p1⟩ := axes_near hN hN' hδ1 hg1 ha1
  have q0 := fun k => p0 _ (hx0 k).1 (hx0 k).2
  have q1 := fun k => p1 _ (hx1 k).1 (hx1 k).2
  have hA0 : 0 ≤ A := (hV (⟨0, by omega⟩, ⟨0, by omega⟩)).1.trans (hV _).2
  have he0 : 0 < e := lt_of_lt_of_le (by positivity) he
  set A' := min (A + e) (2 ^ 810) with hA'
  have hVA : ∀ q, 0 ≤ V' q ∧ V' q ≤ A' := fun q => ⟨(hV0 q).1, le_min (by linarith [(abs_le.1 (hVe q)).2, (hV q).2]) (hV0 q).2⟩
  have hA1 : A' ≤ 2 ^ 810 := min_le_right _ _
  have hA2 : A' ≤ A + e := min_le_left _ _
  choose z s t hz hzd hs ht hse hte hze using fun k => evalLinearD_near h hN n0 n1 hd0 hd1 hb0 hb1 (hxd k).1 (hxd k).2
    (q0 k).2.1 (q1 k).2.1 hVA hA1
  have hNr : (2 : ℝ) ≤ N := by exact_mod_cast hN
  have hA0' : 0 ≤ A' := (hVA (⟨0, by omega⟩, ⟨0, by omega⟩)).1.trans (hVA _).2
  have hval : ∀ {W : Fin N × Fin N → ℝ} {X : ℝ}, 0 ≤ X → (∀ q, 0 ≤ W q ∧ W q ≤ X) → ∀ a b, 0 ≤ Core.valAt W a b ∧ Core.valAt W a b ≤ X := by
    intro W X hX hW a b
    unfold Core.valAt
    split_ifs
    · exact hW _
    · exact ⟨le_rfl, hX⟩
  refine ⟨fun k => evalLinear g0 g1 V (xi k).1 (xi k).2, z, ?_, ?_, fun k => ⟨hzd k, ?_, ?_⟩⟩
  · unfold Core.interpolator
    rw [if_neg (by simpa using ⟨m0, m1⟩), if_neg]
    rintro ⟨k, hk⟩
    exact hk ⟨(q0 k).1, (q1 k).1⟩
  · have hasc : ∀ {a : Fin N → ℝ}, StrictMono a → (∀ i, Spec.IsDouble (a i)) → (∀ i, |a i| ≤ 2 ^ 900) →
        Dbl.ascending rnd fun i => Fl.fin (a i) := by
      intro a hm hd hb i hi
      unfold Dbl.gridAt
      rw [dif_pos hi, dif_pos (by omega : i < N)]
      have hlt : a ⟨i, by omega⟩ < a ⟨i + 1, hi⟩ := hm (Fin.lt_def.2 (Nat.lt_succ_self _))
      have hr : a ⟨i + 1, hi⟩ - a ⟨i, by omega⟩ < 2 ^ 1024 - 2 ^ 970 := by
        have a1 := abs_le.1 (hb ⟨i, by omega⟩)
        have a2 := abs_le.1 (hb ⟨i + 1, hi⟩)
        refine lt_of_le_of_lt ?_ (two_pow_lt_range (k := 901) (by norm_num))
        rw [show (2 : ℝ) ^ 901 = 2 * 2 ^ 900 by rw [pow_succ, mul_comm]]
        generalize (2 : ℝ) ^ 900 = A at *
        linarith [a1.1, a2.2]
      obtain ⟨X, B, -, hB, -, -, hB0, -⟩ := normPtD_fin h (hd ⟨i, by omega⟩) (hd ⟨i, by omega⟩) (hd ⟨i + 1, hi⟩) le_rfl hlt.le hlt hr
      have e2 : Dbl.sub rnd (.fin (a ⟨i + 1, hi⟩)) (.fin (a ⟨i, by omega⟩)) = .fin B := by
        rw [← hB, sub_eq_add_neg]
        rfl
      rw [e2]
      exact hB0
    have hinD : ∀ {a : Fin N → ℝ} {x : ℝ}, StrictMono a → Core.inGrid a x → Dbl.inGrid (fun i => Fl.fin (a i)) (.fin x) := by
      rintro a x hm ⟨⟨i, hi⟩, j, hj⟩
      have hle : ∀ x y : ℝ, x ≤ y → Dbl.le (.fin x) (.fin y) := by
        intro x y hxy
        rcases hxy.lt_or_eq with hxy | rfl
        · exact Or.inl hxy
        · exact Or.inr ⟨rfl, by simp⟩
      unfold Dbl.inGrid Dbl.gridAt
      rw [dif_pos (by omega : 0 < N), dif_pos (by omega : N - 1 < N)]
      refine ⟨hle _ _ (le_trans (hm.monotone (Fin.le_def.2 (Nat.zero_le _))) hi), hle _ _ (hj.trans (hm.monotone (Fin.le_def.2 ?_)))⟩
      have := j.isLt
      show (j : ℕ) ≤ N - 1
      omega
    unfold Dbl.interpolator
    rw [if_neg (by simpa using ⟨hasc n0 hd0 hb0, hasc n1 hd1 hb1⟩), if_neg]
    · congr 1
      funext k
      exact hz k
    · rintro ⟨k, hk⟩
      exact hk ⟨hinD n0 (q0 k).2.1, hinD n1 (q1 k).2.1⟩
  · have h1 := hze k
    have h2 : 0 ≤ bilin (fun a b => Core.valAt V' a b) (Core.cellIdx a0 (xi k).1) (Core.cellIdx a1 (xi k).2) (s k) (t k) ∧
        bilin (fun a b => Core.valAt V' a b) (Core.cellIdx a0 (xi k).1) (Core.cellIdx a1 (xi k).2) (s k) (t k) ≤ A' :=
      lin_mem (fun a => lin_mem (hval hA0' hVA a) (ht k)) (hs k)
    have hτ1 := tiny_le (k := -1075) (by norm_num)
    have hB : (1 : ℝ) ≤ 2 ^ 810 := one_le_pow₀ one_le_two
    rw [show (2 : ℝ) ^ 900 = 2 ^ 90 * 2 ^ 810 by rw [← pow_add]]
    generalize bilin (fun a b => Core.valAt V' a b) (Core.cellIdx a0 (xi k).1) (Core.cellIdx a1 (xi k).2) (s k) (t k) = w at *
    clear_value A'
    clear hV0 hA' hb0 hb1 he
    generalize (2 : ℝ) ^ 810 = B at *
    generalize (2 : ℝ) ^ (-1075 : ℤ) = τ at *
    rw [abs_le] at h1 ⊢
    norm_num at h1 hτ1 ⊢
    constructor <;> linarith [h1.1, h1.2, h2.1, h2.2]
  · have h1 := hze k
    have h2 : |bilin (fun a b => Core.valAt V' a b) (Core.cellIdx a0 (xi k).1) (Core.cellIdx a1 (xi k).2) (s k) (t k) -
        bilin (fun a b => Core.valAt V a b) (Core.cellIdx a0 (xi k).1) (Core.cellIdx a1 (xi k).2) (s k) (t k)| ≤ e := by
      refine bilin_values (fun a b _ _ => ?_) (hs k) (ht k)
      unfold Core.valAt
      split_ifs
      · exact hVe _
      · rw [sub_self, abs_zero]
        exact he0.le
    have h3 := bilin_path (V := fun a b => Core.valAt V a b) (hval hA0 hV) (i := Core.cellIdx a0 (xi k).1)
      (j := Core.cellIdx a1 (xi k).2) (i' := Core.cellIdx g0 (xi k).1) (j' := Core.cellIdx g1 (xi k).2) (hs k) (ht k)
      (cellDist_mem hN g0 m0 _ (q0 k).1) (cellDist_mem hN g1 m1 _ (q1 k).1)
    have d0 : |((Core.cellIdx a0 (xi k).1 : ℝ) + s k) - (Core.cellIdx g0 (xi k).1 + Core.cellDist g0 (xi k).1)| ≤
        (N : ℝ) ^ 2 / 2 ^ 50 + 1 / 2 ^ 51 := by
      have e1 : ((Core.cellIdx a0 (xi k).1 : ℝ) + s k) - (Core.cellIdx g0 (xi k).1 + Core.cellDist g0 (xi k).1) =
          (((Core.cellIdx a0 (xi k).1 : ℝ) + Core.cellDist a0 (xi k).1) - (Core.cellIdx g0 (xi k).1 + Core.cellDist g0 (xi k).1)) +
            (s k - Core.cellDist a0 (xi k).1) := by ring
      rw [e1]
      exact (abs_add_le _ _).trans (add_le_add (q0 k).2.2 (hse k))
    have d1 : |((Core.cellIdx a1 (xi k).2 : ℝ) + t k) - (Core.cellIdx g1 (xi k).2 + Core.cellDist g1 (xi k).2)| ≤
        (N : ℝ) ^ 2 / 2 ^ 50 + 1 / 2 ^ 51 := by
      have e1 : ((Core.cellIdx a1 (xi k).2 : ℝ) + t k) - (Core.cellIdx g1 (xi k).2 + Core.cellDist g1 (xi k).2) =
          (((Core.cellIdx a1 (xi k).2 : ℝ) + Core.cellDist a1 (xi k).2) - (Core.cellIdx g1 (xi k).2 + Core.cellDist g1 (xi k).2)) +
            (t k - Core.cellDist a1 (xi k).2) := by ring
      rw [e1]
      exact (abs_add_le _ _).trans (add_le_add (q1 k).2.2 (hte k))
    have h4 := h3.trans (mul_le_mul_of_nonneg_left (add_le_add d0 d1) hA0)
    have e2 : evalLinear g0 g1 V (xi k).1 (xi k).2 = bilin (fun a b => Core.valAt V a b) (Core.cellIdx g0 (xi k).1)
        (Core.cellIdx g1 (xi k).2) (Core.cellDist g0 (xi k).1) (Core.cellDist g1 (xi k).2) := evalLinear_lin _ _ _ _ _
    beta_reduce
    rw [e2]
    have hsum := abs_sub_le (z k) (bilin (fun a b => Core.valAt V' a b) (Core.cellIdx a0 (xi k).1) (Core.cellIdx a1 (xi k).2) (s k) (t k))
      (bilin (fun a b => Core.valAt V a b) (Core.cellIdx g0 (xi k).1)
        (Core.cellIdx g1 (xi k).2) (Core.cellDist g0 (xi k).1) (Core.cellDist g1 (xi k).2))
    have hsum2 := abs_sub_le (bilin (fun a b => Core.valAt V' a b) (Core.cellIdx a0 (xi k).1) (Core.cellIdx a1 (xi k).2) (s k) (t k))
      (bilin (fun a b => Core.valAt V a b) (Core.cellIdx a0 (xi k).1) (Core.cellIdx a1 (xi k).2) (s k) (t k))
      (bilin (fun a b => Core.valAt V a b) (Core.cellIdx g0 (xi k).1)
        (Core.cellIdx g1 (xi k).2) (Core.cellDist g0 (xi k).1) (Core.cellDist g1 (xi k).2))
    refine (hsum.trans (add_le_add h1 (hsum2.trans (add_le_add h2 h4)))).trans ?_
    have hτ : (2 : ℝ) ^ (-1075 : ℤ) ≤ 2 ^ (-600 : ℤ) / 16 := by
      have : (2 : ℝ) ^ (-1075 : ℤ) ≤ 2 ^ (-604 : ℤ) := zpow_le_zpow_right₀ one_le_two (by norm_num)
      rwa [show (-604 : ℤ) = -600 + -4 by norm_num, zpow_add₀ two_ne_zero, show (2 : ℝ) ^ (-4 : ℤ) = 1 / 16 by norm_num,
        mul_one_div] at this
    have h5 : (4 : ℝ) ≤ (N : ℝ) ^ 2 := by
      calc (4 : ℝ) = 2 ^ 2 := by norm_num
        _ ≤ _ := pow_le_pow_left₀ (by norm_num) hNr 2
    have hN4 : 4 * A ≤ A * (N : ℝ) ^ 2 := by
      rw [mul_comm 4 A]
      exact mul_le_mul_of_nonneg_left h5 hA0
    clear_value A'
    clear hV0 hA' hb0 hb1 h1 h2 h3 h4 hsum hsum2 d0 d1 e2 hA1 hVA hze hval
    generalize (2 : ℝ) ^ (-1075 : ℤ) = τ at *
    generalize (2 : ℝ) ^ (-600 : ℤ) = ω at *
    norm_num
    rw [show A * ((N : ℝ) ^ 2 / 1125899906842624 + 1 / 2251799813685248 + ((N : ℝ) ^ 2 / 1125899906842624 + 1 / 2251799813685248)) =
      A * (N : ℝ) ^ 2 / 562949953421312 + A / 1125899906842624 by ring, ← mul_div_assoc]
    generalize A * (N : ℝ) ^ 2 = X at *
    linarith

/-! ## The residual -/

/-- The error of the power. -/
noncomputable def Spec.powerError (A f : ℝ) : ℝ := f * (2 * A + f) + (A + f) ^ 2 / 2 ^ 48 + 2 ^ (-600 : ℤ)

/-- The error of the model beam, interpolated at the places of the samples: `a` are the amplitudes in the aperture. -/
noncomputable def Spec.beamError {N : ℕ} (a : Fin N × Fin N → ℝ) (ε εa η : ℝ) : ℝ :=
  2 * Spec.powerError (∑ q, |a q|) (Spec.farError (fun q => (a q : ℂ)) ε εa η) + (∑ q, |a q|) ^ 2 * ((N : ℝ) ^ 2 / 2 ^ 46)

theorem farError_congr {N : ℕ} {E E' : Fin N × Fin N → ℂ} (h : ∀ q, ‖E q‖ = ‖E' q‖) (ε εa η : ℝ) :
    Spec.farError E ε εa η = Spec.farError E' ε εa η := by
  unfold Spec.farError Spec.totalError
  simp only [h]

theorem fft2_le {N : ℕ} (E : Fin N × Fin N → ℂ) (q : Fin N × Fin N) : ‖Np.fft2 E q‖ ≤ ∑ p, ‖E p‖ := by
  rw [Fourier.fft2_eq, Fintype.sum_prod_type]
  refine (norm_sum_le _ _).trans (Finset.sum_le_sum fun a _ => ?_)
  refine (norm_sum_le _ _).trans (Finset.sum_le_sum fun b _ => ?_)
  rw [norm_mul, Fourier.ew_norm, mul_one]

/-- Where `residual_true` samples the model beam: the ends of the axis of `radiation_pattern`, which `-lo` and `hi` steps
of `wavel / (N dx)` make. -/
noncomputable def Spec.axisStep (N : ℕ) (pr bf wavel : ℝ) : ℝ := wavel / (N * (2 * (pr * bf) / ((N : ℝ) - 1)))

/-- A sample within the model beam, but for a margin of `2 ^ -48` times the resolution. -/
def Spec.InBeam (N : ℕ) (pr bf wavel x : ℝ) : Prop :=
  -(((N / 2 : ℕ) : ℝ) * Spec.axisStep N pr bf wavel) * (1 - N / 2 ^ 48) ≤ x ∧
    x ≤ (((N - 1 - N / 2 : ℕ) : ℝ) * Spec.axisStep N pr bf wavel) * (1 - N / 2 ^ 48)

/-- One map of the model. -/
theorem modelRow_near {rnd : ℝ → Fl} (h : Spec.Rounding rnd) {L : Dbl.LibmC} (hL : Spec.AccurateC L) (n : ℕ)
    (hn : n ≤ 20) (params : List ℝ) (hK : (params.drop 5).length = (n + 1) * (n + 2) / 2)
    (hKd : ∀ k ∈ params.drop 5, Spec.IsDouble k)
    (hKs : ((params.drop 5).map fun k => |k|).sum ≤ 2 ^ 200) {N M : ℕ} (hN : 2 ≤ N) (hN' : N ≤ 2 ^ 20)
    (fft : (Fin N × Fin N → Dbl.Cx) → Fin N × Fin N → Dbl.Cx) (η : ℝ) (hη : 0 ≤ η) (hη1 : η ≤ 1)
    (hF : Spec.FourierAccurate η fft)
    (tel : TelGeo (Fin N × Fin N)) (illum : Illum (Fin N × Fin N)) (telD : Dbl.TelGeo (Fin N × Fin N))
    (illumD : Dbl.Illum (Fin N × Fin N)) (hp : Spec.IsDouble tel.pr) (h1 : 1 / 2 ^ 90 ≤ tel.pr) (h2 : tel.pr ≤ 2 ^ 90)
    (dz : Fin 3 → ℝ) (bf wavel εa εd D : ℝ) (hb1 : 1 ≤ bf) (hb2 : bf ≤ 50)
    (hl : 1 / 2 ^ 100 ≤ wavel) (hl2 : wavel ≤ 2 ^ 100) (hD0 : 0 ≤ D) (hD : D ≤ 2 ^ 200) (hε0 : 0 ≤ εd) (hε : εd ≤ 1)
    (hεa : 0 ≤ εa) (B Ea : Fin N × Fin N → ℝ) (delta : Fin N × Fin N → ℝ) (i : Fin 3)
    (hO : Spec.SameOptics tel illum telD illumD (fun q => Np.linspace (-(tel.pr * bf)) (tel.pr * bf) N q.2)
      (fun q => Np.linspace (-(tel.pr * bf)) (tel.pr * bf) N q.1) (fun q => Spec.gridD rnd tel.pr bf N q.2)
      (fun q => Spec.gridD rnd tel.pr bf N q.1) (params.take 5) (dz i) wavel εa εd D B Ea delta)
    (u v : Fin 3 × Fin M → ℝ) (hud : ∀ q, Spec.IsDouble (u q) ∧ Spec.IsDouble (v q))
    (hus : ∀ q, Spec.InBeam N tel.pr bf wavel (u q) ∧ Spec.InBeam N tel.pr bf wavel (v q)) :
    ∃ b bd : Fin M → ℝ, Core.modelRow params u v dz wavel illum tel bf i = .ok b ∧
      Dbl.modelRow rnd L fft (params.map .fin) (fun q => .fin (u q)) (fun q => .fin (v q)) (fun j => .fin (dz j)) (.fin wavel)
        illumD telD (.fin bf) i = .ok (fun k => .fin (bd k)) ∧
      ∀ k, Spec.IsDouble (bd k) ∧ |bd k| ≤ 2 ^ 900 ∧
        |bd k - b k| ≤ Spec.beamError (fun q => B q * Ea q) (Spec.fieldError n (params.drop 5) D εd) εa η := by
  obtain ⟨P, Q, E, hP, hQ, hE, hEn, hax, hfar⟩ := C124_pattern h hL n hn (params.drop 5) hK hKd hKs N hN
    (hN'.trans (by norm_num)) fft η hη hη1 hF tel illum telD illumD hp h1 h2 (params.take 5) bf (dz i) wavel εa εd D hb1 hb2 hl hl2
    hD0 hD hε0 hε hεa B Ea delta hO
  have hp0 : 0 < tel.pr := lt_of_lt_of_le (by positivity) h1
  have hl0 : 0 < wavel := lt_of_lt_of_le (by positivity) hl
  have hNr : (2 : ℝ) ≤ N := by exact_mod_cast hN
  set f := Spec.farError (fun q => ((B q * Ea q : ℝ) : ℂ)) (Spec.fieldError n (params.drop 5) D εd) εa η with hf
  set A := ∑ q, |B q * Ea q| with hA
  have hff : Spec.farError E (Spec.fieldError n (params.drop 5) D εd) εa η = f := by
    refine farError_congr (fun q => ?_) _ _ _
    rw [hEn q, Complex.norm_real, Real.norm_eq_abs]
  have hAE : ∑ q, ‖E q‖ = A := Finset.sum_congr rfl fun q _ => hEn q
  -- the exact pattern
  have hQ' := radiationPattern_eq (params.take 5) (params.drop 5) (dz i) wavel hN illum tel bf
  rw [hQ, hE] at hQ'
  have hQ2 := Except.ok.inj hQ'
  have hQF : ∀ q, ‖Q.F q‖ ≤ A := by
    intro q
    rw [hQ2, ← hAE]
    exact fft2_le E _
  have hA0 : 0 ≤ A := Finset.sum_nonneg fun q _ => abs_nonneg _
  choose a b ha hb had hbd hae hbe using hax
  choose F hF1 hF2 hF3 hF4 using hfar
  rw [hff] at hF4
  have hf0 : 0 ≤ f := (norm_nonneg _).trans (hF4 (⟨0, by omega⟩, ⟨0, by omega⟩))
  choose p hp1 hp2 hp3 hp4 using fun q => C124_power h hL (F q) (Q.F q) f (hF2 q) (hF3 q) (hF4 q)
  have hpA : ∀ q, |p q - ‖Q.F q‖ ^ 2| ≤ Spec.powerError A f := by
    intro q
    refine (hp4 q).trans ?_
    unfold Spec.powerError
    have := hQF q
    have := norm_nonneg (Q.F q)
    gcongr
  have hpb : ∀ q, p q ≤ 2 ^ 810 := by
    intro q
    obtain ⟨p', hp1', -, -, hp4'⟩ := C124_power h hL (F q) (F q) 0 (hF2 q) (hF3 q) (by simp)
    rw [hp1 q] at hp1'
    cases hp1'
    have h3 := (abs_le.1 hp4').2
    have h4 : ‖F q‖ ^ 2 ≤ (2 ^ 400) ^ 2 := pow_le_pow_left₀ (norm_nonneg _) (hF3 q) 2
    rw [← pow_mul] at h4
    have hτ := tiny_le (k := -600) (by norm_num)
    have h5 : (1 : ℝ) ≤ 2 ^ 800 := one_le_pow₀ one_le_two
    rw [show (2 : ℝ) ^ 810 = 2 ^ 10 * 2 ^ 800 by rw [← pow_add]]
    norm_num at h3 hτ h4 ⊢
    generalize ((2 : ℝ) ^ 600)⁻¹ = τ at *
    generalize (2 : ℝ) ^ 800 = X at *
    linarith [sq_nonneg ‖F q‖]
  set δ := Spec.axisStep N tel.pr bf wavel with hδ
  have hδ0 : 0 < δ := by
    rw [hδ]
    unfold Spec.axisStep
    have : (0 : ℝ) < N - 1 := by linarith
    positivity
  have hu : ∀ j : Fin N, Q.u j = (((j : ℕ) : ℝ) - ((N / 2 : ℕ) : ℝ)) * δ := by
    intro j
    rw [hQ2]
    show _ / _ * wavel = _ * (wavel / _)
    ring
  have hv : ∀ j : Fin N, Q.v j = (((j : ℕ) : ℝ) - ((N / 2 : ℕ) : ℝ)) * δ := by
    intro j
    rw [hQ2]
    show _ / _ * wavel = _ * (wavel / _)
    ring
  have hNs : ((N - 1 - N / 2 : ℕ) : ℝ) = ((N - 1 : ℕ) : ℝ) - ((N / 2 : ℕ) : ℝ) := by
    rw [Nat.cast_sub (by omega)]
  have hlo : ∀ {g : Fin N → ℝ}, (∀ j : Fin N, g j = (((j : ℕ) : ℝ) - ((N / 2 : ℕ) : ℝ)) * δ) → ∀ x, Spec.InBeam N tel.pr bf wavel x →
      g ⟨0, by omega⟩ * (1 - N / 2 ^ 48) ≤ x ∧ x ≤ g ⟨N - 1, by omega⟩ * (1 - N / 2 ^ 48) := by
    intro g hg x hx
    unfold Spec.InBeam at hx
    rw [hNs, ← hδ] at hx
    rw [hg, hg]
    simpa using hx
  have hab : ∀ {g : Fin N → ℝ} {a : ℝ} {j : Fin N}, (∀ j : Fin N, g j = (((j : ℕ) : ℝ) - ((N / 2 : ℕ) : ℝ)) * δ) →
      |a - g j| ≤ N / 2 ^ 49 * |g j| → |a| ≤ 2 ^ 900 := by
    intro g a j hg ha
    have hNr' : (N : ℝ) ≤ 1048576 := by exact_mod_cast hN'
    have hN1 : (0 : ℝ) < N - 1 := by linarith
    have h3 : |g j| ≤ 2 ^ 250 := by
      have h4 : |((j : ℕ) : ℝ) - ((N / 2 : ℕ) : ℝ)| ≤ N := by
        have h5 : ((j : ℕ) : ℝ) ≤ N := by exact_mod_cast j.isLt.le
        have h6 : ((N / 2 : ℕ) : ℝ) ≤ N := by exact_mod_cast Nat.div_le_self N 2
        have h7 : (0 : ℝ) ≤ ((j : ℕ) : ℝ) := Nat.cast_nonneg _
        have h8 : (0 : ℝ) ≤ ((N / 2 : ℕ) : ℝ) := Nat.cast_nonneg _
        rw [abs_le]
        constructor <;> linarith
      have h5 : δ * N = wavel * (N - 1) / (2 * (tel.pr * bf)) := by
        rw [hδ]
        unfold Spec.axisStep
        have : (N : ℝ) - 1 ≠ 0 := hN1.ne'
        field_simp
      rw [hg, abs_mul, abs_of_pos hδ0]
      calc |((j : ℕ) : ℝ) - ((N / 2 : ℕ) : ℝ)| * δ ≤ N * δ := mul_le_mul_of_nonneg_right h4 hδ0.le
        _ = wavel * (N - 1) / (2 * (tel.pr * bf)) := by rw [mul_comm, h5]
        _ ≤ 2 ^ 250 := by
          rw [div_le_iff₀ (by positivity)]
          have h6 : wavel * (N - 1) ≤ 2 ^ 100 * 2 ^ 20 :=
            mul_le_mul hl2 (by norm_num; linarith) hN1.le (by positivity)
          have h7 : (1 : ℝ) / 2 ^ 90 ≤ 2 * (tel.pr * bf) := by nlinarith
          refine h6.trans (le_trans ?_ (mul_le_mul_of_nonneg_left h7 (by positivity)))
          norm_num
    have h4 := abs_sub_abs_le_abs_sub a (g j)
    have h5 : (N : ℝ) / 2 ^ 49 * |g j| ≤ 1 * |g j| := by
      refine mul_le_mul_of_nonneg_right ?_ (abs_nonneg _)
      norm_num
      linarith
    have h6 : |a| ≤ 2 * 2 ^ 250 := by linarith
    refine h6.trans ?_
    rw [← pow_succ']
    exact two_pow_le (by norm_num)
  obtain ⟨r, rd, hr, hrd, hre⟩ := interpolator_near (M := M) h hN hN' hδ0 hδ0 hu hv hae hbe had hbd (fun j => hab hu (hae j))
    (fun j => hab hv (hbe j)) (V := fun q => ‖Q.F (q.2, q.1)‖ ^ 2) (V' := fun q => p (q.2, q.1)) (A := A ^ 2)
    (e := Spec.powerError A f)
    (fun q => ⟨by positivity, pow_le_pow_left₀ (norm_nonneg _) (hQF _) 2⟩) (fun q => ⟨hp3 _, hpb _⟩) (fun q => hpA _) (by
      unfold Spec.powerError
      have : 0 ≤ f * (2 * A + f) + (A + f) ^ 2 / 2 ^ 48 := by positivity
      linarith) (fun k => (u (i, k), v (i, k))) (fun k => hud _) (fun k => hlo hu _ (hus _).1) (fun k => hlo hv _ (hus _).2)
  refine ⟨r, rd, ?_, ?_, hre⟩
  · unfold Core.modelRow
    simp only [hQ, bind, Except.bind]
    exact hr
  · unfold Dbl.modelRow
    have hu' : P.u = fun j => Fl.fin (a j) := funext ha
    have hv' : P.v = fun j => Fl.fin (b j) := funext hb
    have hpw : (fun q : Fin N × Fin N => Dbl.power rnd L (P.F (q.2, q.1))) = fun q => Fl.fin (p (q.2, q.1)) := by
      funext q
      rw [hF1, hp1]
    simp only [← List.map_take, ← List.map_drop, hP, bind, Except.bind, hu', hv', hpw]
    exact hrd

theorem flatten3D_fin {M : ℕ} (f : Fin 3 × Fin M → ℝ) :
    Dbl.flatten3 (fun q => Fl.fin (f q)) = (Core.flatten3 f).map Fl.fin := by
  unfold Dbl.flatten3 Core.flatten3
  rw [List.map_flatMap]
  simp only [List.map_map, Function.comp_def]

/-- **C125.**  The residual in doubles.  Neither program raises; every value in doubles is finite and between -1 and 1.  Where the
data are not constant and the model beam rises by more than twice `Spec.beamError`, its distance to the exact residual is at
most twice this error over the rise, plus `2 ^ -49`. -/
theorem C125_residual {rnd : ℝ → Fl} (h : Spec.Rounding rnd) {L : Dbl.LibmC} (hL : Spec.AccurateC L) (n : ℕ)
    (hn : n ≤ 20) (params : List ℝ) (hK : (params.drop 5).length = (n + 1) * (n + 2) / 2)
    (hKd : ∀ k ∈ params.drop 5, Spec.IsDouble k)
    (hKs : ((params.drop 5).map fun k => |k|).sum ≤ 2 ^ 200) {N M : ℕ} (hM : 0 < M) (hN : 2 ≤ N) (hN' : N ≤ 2 ^ 20)
    (fft : (Fin N × Fin N → Dbl.Cx) → Fin N × Fin N → Dbl.Cx) (η : ℝ) (hη : 0 ≤ η) (hη1 : η ≤ 1)
    (hF : Spec.FourierAccurate η fft)
    (tel : TelGeo (Fin N × Fin N)) (illum : Illum (Fin N × Fin N)) (telD : Dbl.TelGeo (Fin N × Fin N))
    (illumD : Dbl.Illum (Fin N × Fin N)) (hp : Spec.IsDouble tel.pr) (h1 : 1 / 2 ^ 90 ≤ tel.pr) (h2 : tel.pr ≤ 2 ^ 90)
    (dz : Fin 3 → ℝ) (bf wavel εa εd D : ℝ) (hb1 : 1 ≤ bf) (hb2 : bf ≤ 50)
    (hl : 1 / 2 ^ 100 ≤ wavel) (hl2 : wavel ≤ 2 ^ 100) (hD0 : 0 ≤ D) (hD : D ≤ 2 ^ 200) (hε0 : 0 ≤ εd) (hε : εd ≤ 1)
    (hεa : 0 ≤ εa) (B Ea : Fin N × Fin N → ℝ) (delta : Fin 3 → Fin N × Fin N → ℝ)
    (hO : ∀ i, Spec.SameOptics tel illum telD illumD (fun q => Np.linspace (-(tel.pr * bf)) (tel.pr * bf) N q.2)
      (fun q => Np.linspace (-(tel.pr * bf)) (tel.pr * bf) N q.1) (fun q => Spec.gridD rnd tel.pr bf N q.2)
      (fun q => Spec.gridD rnd tel.pr bf N q.1) (params.take 5) (dz i) wavel εa εd D B Ea (delta i))
    (u v data : Fin 3 × Fin M → ℝ) (hud : ∀ q, Spec.IsDouble (u q) ∧ Spec.IsDouble (v q))
    (hus : ∀ q, Spec.InBeam N tel.pr bf wavel (u q) ∧ Spec.InBeam N tel.pr bf wavel (v q))
    (hdd : ∀ q, Spec.IsDouble (data q) ∧ |data q| ≤ 2 ^ 900) :
    ∃ r rd : List ℝ, Core.residualTrue params (fun q => .fin (data q)) u v dz wavel illum tel bf = .ok r ∧
      Dbl.residualTrue rnd L fft (params.map .fin) (fun q => .fin (data q)) (fun q => .fin (u q)) (fun q => .fin (v q))
        (fun j => .fin (dz j)) (.fin wavel) illumD telD (.fin bf) = .ok (rd.map .fin) ∧
      r.length = 3 * M ∧ rd.length = 3 * M ∧ (∀ x ∈ rd, Spec.IsDouble x ∧ -1 ≤ x ∧ x ≤ 1) ∧
      ∀ i : Fin 3, ∃ b : Fin M → ℝ, Core.modelRow params u v dz wavel illum tel bf i = .ok b ∧
        ∀ s t, data (i, s) < data (i, t) → ∀ s' t',
          2 * Spec.beamError (fun q => B q * Ea q) (Spec.fieldError n (params.drop 5) D εd) εa η < b t' - b s' →
          ∀ k : Fin M, ∃ x y, r[(i : ℕ) * M + k]? = some x ∧ rd[(i : ℕ) * M + k]? = some y ∧
            |y - x| ≤ 2 * Spec.beamError (fun q => B q * Ea q) (Spec.fieldError n (params.drop 5) D εd) εa η / (b t' - b s') +
              1 / 2 ^ 49 := by
  have : Nonempty (Fin M) := ⟨⟨0, hM⟩⟩
  set e := Spec.beamError (fun q => B q * Ea q) (Spec.fieldError n (params.drop 5) D εd) εa η with he
  choose b bd hb hbd hbe using fun i => modelRow_near h hL n hn params hK hKd hKs hN hN' fft η hη hη1 hF tel illum telD illumD
    hp h1 h2 dz bf wavel εa εd D hb1 hb2 hl hl2 hD0 hD hε0 hε hεa B Ea (delta i) i (hO i) u v hud hus
  -- the exact residual
  obtain ⟨nd, hnd, hnd'⟩ := C27_axis1 hM (fun q => Fl.fin (data q))
  obtain ⟨nm, hnm, hnm'⟩ := C27_axis1 hM (fun q : Fin 3 × Fin M => Fl.fin (b q.1 q.2))
  have hr : Core.residualTrue params (fun q => .fin (data q)) u v dz wavel illum tel bf = .ok (flatten3 fun q => nd q - nm q) :=
    residualTrue_ok.2 ⟨b, hb, nd, nm, hnd, hnm, rfl⟩
  -- the residual in doubles
  obtain ⟨rd, nd2, nm2, hrd, -, -, hrange, hacc⟩ := C94_residual h hM (fun q => Fl.fin (data q))
    (fun q : Fin 3 × Fin M => Fl.fin (bd q.1 q.2)) (fun q => (hdd q).1) (fun q => (hbe q.1 q.2).1)
  have hD2 : Dbl.residualTrue rnd L fft (params.map .fin) (fun q => .fin (data q)) (fun q => .fin (u q)) (fun q => .fin (v q))
      (fun j => .fin (dz j)) (.fin wavel) illumD telD (.fin bf) = .ok ((flatten3 rd).map .fin) := by
    unfold Dbl.residualTrue
    simp only [hbd, bind, Except.bind]
    have hm : (fun q : Fin 3 × Fin M => (![fun k => Fl.fin (bd 0 k), fun k => Fl.fin (bd 1 k), fun k => Fl.fin (bd 2 k)] q.1) q.2) =
        fun q => Fl.fin (bd q.1 q.2) := by
      funext q
      obtain ⟨i, k⟩ := q
      match i with
      | 0 => rfl
      | 1 => rfl
      | 2 => rfl
    rw [hm, hrd, ← flatten3D_fin]
    rfl
  refine ⟨_, _, hr, hD2, flatten3_length _, flatten3_length _, ?_, fun i => ⟨b i, hb i, fun s t hst s' t' hst' k => ?_⟩⟩
  · intro x hx
    unfold flatten3 at hx
    simp only [List.mem_flatMap, List.mem_map] at hx
    obtain ⟨i, -, k, -, rfl⟩ := hx
    exact ⟨(hrange (i, k)).1, (hrange (i, k)).2.1, (hrange (i, k)).2.2.1⟩
  · refine ⟨_, _, flatten3_getElem _ i k, flatten3_getElem _ i k, ?_⟩
    -- extremes of the data and of the two beams
    obtain ⟨dl, dh, hdle, hdn⟩ := MathFn.norm_fin (fun j => data (i, j))
    obtain ⟨c, c', hc, hc', hcc⟩ := C97_norm (b i) (bd i) e (fun j => by
      rw [abs_sub_comm]
      exact (hbe i j).2.2)
    obtain ⟨bl, bh, hble, hbn⟩ := MathFn.norm_fin (bd i)
    have e1 : c = fun k => nm (i, k) := Except.ok.inj (hc.symm.trans (hnm' i))
    have e2 : c' = fun q => (bd i q - bd i bl) / (bd i bh - bd i bl) := Except.ok.inj (hc'.symm.trans hbn)
    have e3 : (fun k => nd (i, k)) = fun q => (data (i, q) - data (i, dl)) / (data (i, dh) - data (i, dl)) :=
      Except.ok.inj ((hnd' i).symm.trans hdn)
    have hpos : 0 < b i t' - b i s' := by
      have : 0 ≤ e := (abs_nonneg _).trans (hbe i k).2.2
      linarith
    have hdlt : data (i, dl) < data (i, dh) := by linarith [(hdle s).1, (hdle t).2]
    have hblt : bd i bl < bd i bh := by
      have g1 := (abs_le.1 (hbe i s').2.2).2
      have g2 := (abs_le.1 (hbe i t').2.2).1
      linarith [(hble s').1, (hble t').2]
    have hrg : ∀ {x y : ℝ}, |x| ≤ 2 ^ 900 → |y| ≤ 2 ^ 900 → x - y < 2 ^ 1024 - 2 ^ 970 := by
      intro x y hx hy
      refine lt_of_le_of_lt ?_ (two_pow_lt_range (k := 901) (by norm_num))
      rw [show (2 : ℝ) ^ 901 = 2 * 2 ^ 900 by rw [pow_succ, mul_comm]]
      generalize (2 : ℝ) ^ 900 = A at *
      linarith [(abs_le.1 hx).2, (abs_le.1 hy).1]
    have h3 := hacc i (fun j => data (i, j)) (bd i) (fun j => rfl) (fun j => rfl) dl dh bl bh hdle hble hdlt hblt
      (hrg (hdd _).2 (hdd _).2) (hrg (hbe i bh).2.1 (hbe i bl).2.1) k
    have h4 := hcc k s' t'
    rw [e1, e2] at h4
    have h5 : nd (i, k) = (data (i, k) - data (i, dl)) / (data (i, dh) - data (i, dl)) := congrFun e3 k
    rw [← h5] at h3
    beta_reduce at h4
    generalize (bd i k - bd i bl) / (bd i bh - bd i bl) = w at *
    have h6 : |nm (i, k) - w| ≤ 2 * e / (b i t' - b i s') := by
      rw [le_div_iff₀ hpos]
      exact h4
    have e4 : rd (i, k) - (nd (i, k) - nm (i, k)) = (rd (i, k) - (nd (i, k) - w)) + (nm (i, k) - w) := by ring
    rw [e4, add_comm (2 * e / _)]
    exact (abs_add_le _ _).trans (add_le_add h3 h6)

end Verif.Props
