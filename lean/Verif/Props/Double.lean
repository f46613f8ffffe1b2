import Verif.Model.Double
import Verif.Props.MathFn
import Verif.Props.Csv

/-!
# C94: the normalisation in the arithmetic of doubles
-/

namespace Verif.Props

open Verif Verif.MathFn Finset

/-! ## Specification -/

/-- The rounding of IEEE 754 arithmetic: to a nearest double (ties as one likes), to infinity from the place on
where a number is nearer to `2 ^ 1024` than to the largest double. -/
def Spec.Rounding (rnd : ℝ → Fl) : Prop :=
  Spec.Reader rnd ∧ (∀ y, 2 ^ 1024 - 2 ^ 970 ≤ y → rnd y = .pinf) ∧
    ∀ y, y ≤ -(2 ^ 1024 - 2 ^ 970) → rnd y = .ninf

/-! ## Rounding -/

theorem isDouble_zero : Spec.IsDouble 0 := ⟨0, 0, by norm_num, by norm_num, by norm_num, by simp⟩

theorem isDouble_one : Spec.IsDouble 1 := ⟨1, 0, by norm_num, by norm_num, by norm_num, by simp⟩

theorem isDouble_tiny : Spec.IsDouble (2 ^ (-1074 : ℤ)) := ⟨1, -1074, by norm_num, by norm_num, by norm_num, by simp⟩

theorem isDouble_le {x : ℝ} (hx : Spec.IsDouble x) : |x| < 2 ^ 1024 - 2 ^ 970 := by
  obtain ⟨m, q, hm, -, hq, rfl⟩ := hx
  have hm' : |(m : ℝ)| ≤ 2 ^ 53 - 1 := by
    rw [← Int.cast_abs]
    have : |m| ≤ 2 ^ 53 - 1 := by omega
    exact_mod_cast this
  have hp : (0 : ℝ) < 2 ^ q := zpow_pos two_pos q
  have hq' : (2 : ℝ) ^ q ≤ 2 ^ (971 : ℤ) := zpow_le_zpow_right₀ one_le_two hq
  rw [abs_mul, abs_of_pos hp]
  have h1 : |(m : ℝ)| * 2 ^ q ≤ (2 ^ 53 - 1) * 2 ^ (971 : ℤ) := mul_le_mul hm' hq' hp.le (by norm_num)
  have h2 : ((2 : ℝ) ^ 53 - 1) * 2 ^ (971 : ℤ) = 2 ^ 1024 - 2 * 2 ^ 970 := by
    rw [show (971 : ℤ) = ((971 : ℕ) : ℤ) from rfl, zpow_natCast, sub_mul, ← pow_add, one_mul, ← pow_succ']
  rw [h2] at h1
  have h3 : (0 : ℝ) < 2 ^ 970 := by positivity
  generalize (2 : ℝ) ^ 1024 = A at *
  generalize (2 : ℝ) ^ 970 = B at *
  linarith

/-- Near every number of the range there is a double. -/
theorem double_near {y : ℝ} (hy : |y| < 2 ^ 1024 - 2 ^ 970) :
    ∃ w, Spec.IsDouble w ∧ (|y - w| ≤ |y| / 2 ^ 53 ∨ |y| < 2 ^ (-1022 : ℤ) ∧ |y - w| ≤ 2 ^ (-1075 : ℤ)) := by
  by_cases h0 : y = 0
  · exact ⟨0, isDouble_zero, .inl (by simp [h0])⟩
  have hp : 0 < |y| := abs_pos.2 h0
  set e := Int.log 2 |y| with he
  have h1 : (2 : ℝ) ^ e ≤ |y| := by
    have := Int.zpow_log_le_self (b := 2) (by norm_num) hp
    exact_mod_cast this
  have h2 : |y| < (2 : ℝ) ^ (e + 1) := by
    have := Int.lt_zpow_succ_log_self (b := 2) (by norm_num) |y|
    exact_mod_cast this
  have he' : e ≤ 1023 := by
    by_contra hc
    push Not at hc
    have : (2 : ℝ) ^ (1024 : ℤ) ≤ 2 ^ e := zpow_le_zpow_right₀ one_le_two (by omega)
    rw [show (1024 : ℤ) = ((1024 : ℕ) : ℤ) from rfl, zpow_natCast] at this
    have h3 : (0 : ℝ) < 2 ^ 970 := by positivity
    generalize (2 : ℝ) ^ 1024 = A at *
    generalize (2 : ℝ) ^ 970 = B at *
    linarith
  -- the last place
  obtain ⟨q, hq, hqe⟩ : ∃ q : ℤ, q = max (e - 52) (-1074) ∧ e + 1 ≤ q + 53 := ⟨_, rfl, by omega⟩
  have hq1 : -1074 ≤ q := by omega
  have hq2 : q ≤ 971 := by omega
  have hQ : (0 : ℝ) < 2 ^ q := zpow_pos two_pos q
  set m := round (y / 2 ^ q) with hm
  have hr : |y / 2 ^ q - m| ≤ 1 / 2 := abs_sub_round _
  have herr : |y - m * 2 ^ q| ≤ 2 ^ q / 2 := by
    have : y - m * 2 ^ q = (y / 2 ^ q - m) * 2 ^ q := by field_simp
    rw [this, abs_mul, abs_of_pos hQ]
    nlinarith
  have hyq : |y / 2 ^ q| < 2 ^ 53 := by
    rw [abs_div, abs_of_pos hQ, div_lt_iff₀ hQ]
    refine h2.trans_le ?_
    have : (2 : ℝ) ^ 53 * 2 ^ q = 2 ^ (q + 53) := by
      rw [zpow_add₀ two_ne_zero, mul_comm]; norm_num
    rw [this]
    exact zpow_le_zpow_right₀ one_le_two hqe
  have hma : |(m : ℝ)| ≤ |y / 2 ^ q| + 1 / 2 := by
    have := abs_sub_abs_le_abs_sub (m : ℝ) (y / 2 ^ q)
    rw [abs_sub_comm] at this
    linarith
  have hm53 : |m| ≤ 2 ^ 53 := by
    have : (|m| : ℝ) < 2 ^ 53 + 1 := by linarith
    have h' : ((|m| : ℤ) : ℝ) < ((2 ^ 53 + 1 : ℤ) : ℝ) := by push_cast; norm_num at this ⊢; exact this
    have := Int.cast_lt.1 h'
    omega
  refine ⟨m * 2 ^ q, ?_, ?_⟩
  · rcases lt_or_eq_of_le hm53 with hlt | heq
    · exact ⟨m, q, hlt, hq1, hq2, rfl⟩
    · have hq3 : q ≤ 970 := by
        by_contra hc
        have hq' : q = 971 := by omega
        have : |y / 2 ^ q| < 2 ^ 53 - 1 / 2 := by
          rw [abs_div, abs_of_pos hQ, div_lt_iff₀ hQ, hq', show (971 : ℤ) = ((971 : ℕ) : ℤ) from rfl, zpow_natCast]
          refine hy.trans_eq ?_
          rw [sub_mul, ← pow_add, pow_succ (2 : ℝ) 970]; ring
        have hm' : |(m : ℝ)| = 2 ^ 53 := by rw [← Int.cast_abs, heq]; norm_num
        linarith
      rcases abs_choice m with hs | hs
      · refine ⟨2 ^ 52, q + 1, by norm_num, by omega, by omega, ?_⟩
        have : m = 2 ^ 53 := by omega
        rw [this, zpow_add_one₀ two_ne_zero]; push_cast; ring
      · refine ⟨-2 ^ 52, q + 1, by norm_num, by omega, by omega, ?_⟩
        have : m = -2 ^ 53 := by omega
        rw [this, zpow_add_one₀ two_ne_zero]; push_cast; ring
  · rcases le_or_gt (-1022) e with hc | hc
    · left
      have : q = e - 52 := by omega
      rw [this] at herr ⊢
      refine herr.trans ?_
      rw [zpow_sub₀ two_ne_zero]
      have : (2 : ℝ) ^ (52 : ℤ) = 2 ^ 52 := by norm_num
      rw [this, div_div, show (2 : ℝ) ^ 52 * 2 = 2 ^ 53 by norm_num]
      exact div_le_div_of_nonneg_right h1 (by positivity)
    · right
      refine ⟨h2.trans_le (zpow_le_zpow_right₀ one_le_two (by omega)), ?_⟩
      have : q = -1074 := by omega
      rw [this] at herr ⊢
      refine herr.trans_eq ?_
      rw [show (-1075 : ℤ) = -1074 - 1 by norm_num, zpow_sub_one₀ two_ne_zero]; ring

/-- What rounding gives. -/
theorem round_spec {rnd : ℝ → Fl} (h : Spec.Rounding rnd) {y : ℝ} (hy : |y| < 2 ^ 1024 - 2 ^ 970) :
    ∃ z, rnd y = .fin z ∧ Spec.IsDouble z ∧ (∀ w, Spec.IsDouble w → |y - z| ≤ |y - w|) ∧
      (|z - y| ≤ |y| / 2 ^ 53 ∨ |y| < 2 ^ (-1022 : ℤ) ∧ |z - y| ≤ 2 ^ (-1075 : ℤ)) := by
  obtain ⟨z, h1, h2, h3⟩ := h.1 y hy
  obtain ⟨w, hw, hn⟩ := double_near hy
  refine ⟨z, h1, h2, h3, ?_⟩
  have := h3 w hw
  rw [abs_sub_comm z y]
  exact hn.imp this.trans (And.imp_right this.trans)

/-- A double is not changed. -/
theorem round_self {rnd : ℝ → Fl} (h : Spec.Rounding rnd) {x : ℝ} (hx : Spec.IsDouble x) :
    rnd x = .fin x := by
  obtain ⟨z, h1, -, h3⟩ := h.1 x (isDouble_le hx)
  have := h3 x hx
  rw [sub_self, abs_zero] at this
  rw [h1, sub_eq_zero.1 (abs_nonpos_iff.1 this)]

/-- Rounding keeps the order. -/
theorem round_mono {rnd : ℝ → Fl} (h : Spec.Rounding rnd) {x y a b : ℝ} (hxy : x ≤ y)
    (hx : |x| < 2 ^ 1024 - 2 ^ 970) (hy : |y| < 2 ^ 1024 - 2 ^ 970)
    (ha : rnd x = .fin a) (hb : rnd y = .fin b) : a ≤ b := by
  obtain ⟨a', h1, h2, h3⟩ := h.1 x hx
  obtain ⟨b', h4, h5, h6⟩ := h.1 y hy
  rw [ha] at h1; rw [hb] at h4
  cases h1; cases h4
  rcases hxy.lt_or_eq with hlt | heq
  · by_contra hc
    push Not at hc
    have e1 := h3 b h5
    have e2 := h6 a h2
    rw [← sq_le_sq] at e1 e2
    nlinarith
  · rw [heq, hb] at ha
    cases ha
    exact le_rfl

/-- Doubles are multiples of the smallest one. -/
theorem double_grid {x : ℝ} (hx : Spec.IsDouble x) : ∃ k : ℤ, x = k * 2 ^ (-1074 : ℤ) := by
  obtain ⟨m, q, -, hq, -, rfl⟩ := hx
  refine ⟨m * 2 ^ (q + 1074).toNat, ?_⟩
  have : q = ((q + 1074).toNat : ℤ) + (-1074) := by omega
  conv_lhs => rw [this]
  rw [zpow_add₀ two_ne_zero, zpow_natCast]; push_cast; ring

theorem grid_sub {x y : ℝ} (hx : Spec.IsDouble x) (hy : Spec.IsDouble y) :
    ∃ k : ℤ, x - y = k * 2 ^ (-1074 : ℤ) := by
  obtain ⟨k, rfl⟩ := double_grid hx
  obtain ⟨l, rfl⟩ := double_grid hy
  exact ⟨k - l, by push_cast; ring⟩

/-- The difference of two doubles has a small relative error, however small it is. -/
theorem sub_spec {rnd : ℝ → Fl} (h : Spec.Rounding rnd) {x y : ℝ} (hx : Spec.IsDouble x)
    (hy : Spec.IsDouble y) (hr : |x - y| < 2 ^ 1024 - 2 ^ 970) :
    ∃ z, rnd (x - y) = .fin z ∧ Spec.IsDouble z ∧ |z - (x - y)| ≤ |x - y| / 2 ^ 53 := by
  obtain ⟨z, h1, h2, -, h4 | ⟨h4, -⟩⟩ := round_spec h hr
  · exact ⟨z, h1, h2, h4⟩
  · obtain ⟨k, hk⟩ := grid_sub hx hy
    have hT : (0 : ℝ) < 2 ^ (-1074 : ℤ) := zpow_pos two_pos _
    have hd : Spec.IsDouble (x - y) := by
      refine ⟨k, -1074, ?_, le_rfl, by norm_num, hk⟩
      rw [hk, abs_mul, abs_of_pos hT, ← lt_div_iff₀ hT, ← zpow_sub₀ two_ne_zero] at h4
      have h5 : |(k : ℝ)| < 2 ^ 53 := by
        refine h4.trans_le ?_
        norm_num
      rw [← Int.cast_abs] at h5
      exact_mod_cast h5
    exact ⟨x - y, round_self h hd, hd, by rw [sub_self, abs_zero]; positivity⟩

/-! ## One pixel -/

noncomputable def normPtD (rnd : ℝ → Fl) (x mn mx : Fl) : ℝ :=
  Fl.nanToNum (Dbl.div rnd (Dbl.sub rnd x mn) (Dbl.sub rnd mx mn))

theorem rnd_zero {rnd : ℝ → Fl} (h : Spec.Rounding rnd) : rnd 0 = .fin 0 := round_self h isDouble_zero

theorem div_pinf {rnd : ℝ → Fl} (h : Spec.Rounding rnd) (x : Fl) :
    Fl.nanToNum (Dbl.div rnd x .pinf) = 0 := by
  cases x <;> simp [Dbl.div, Fl.div, Dbl.rop, Fl.nanToNum, rnd_zero h]

theorem normPtD_bad {rnd : ℝ → Fl} (h : Spec.Rounding rnd) (x mn mx : Fl)
    (hb : mn = .nan ∨ mn = .ninf ∨ mx = .pinf) : normPtD rnd x mn mx = 0 := by
  unfold normPtD
  rcases hb with rfl | rfl | rfl
  · cases x <;> cases mx <;> simp [Dbl.div, Dbl.sub, Dbl.rop, Fl.sub, Fl.neg, Fl.add, Fl.div, Fl.nanToNum]
  · cases x <;> cases mx <;> simp [Dbl.div, Dbl.sub, Dbl.rop, Fl.sub, Fl.neg, Fl.add, Fl.div, Fl.nanToNum]
  · cases mn with
    | pinf =>
      cases x <;> simp [Dbl.div, Dbl.sub, Dbl.rop, Fl.sub, Fl.neg, Fl.add, Fl.div, Fl.nanToNum]
    | nan => cases x <;> simp [Dbl.div, Dbl.sub, Dbl.rop, Fl.sub, Fl.neg, Fl.add, Fl.div, Fl.nanToNum]
    | _ => exact div_pinf h _

theorem sub_fin_rnd (rnd : ℝ → Fl) (x y : ℝ) : Dbl.sub rnd (.fin x) (.fin y) = rnd (x - y) := by
  rw [Dbl.sub, Fl.sub_fin, Dbl.rop]

/-- The three cases of a finite map: all entries equal, a range without overflow, overflow. -/
theorem normPtD_const {rnd : ℝ → Fl} (h : Spec.Rounding rnd) (x : ℝ) :
    normPtD rnd (.fin x) (.fin x) (.fin x) = 0 := by
  unfold normPtD
  rw [sub_fin_rnd, sub_self, rnd_zero h]
  simp [Dbl.div, Fl.div, Dbl.rop, Fl.infSign, Fl.nanToNum]

theorem normPtD_over {rnd : ℝ → Fl} (h : Spec.Rounding rnd) (x lo hi : ℝ)
    (hr : 2 ^ 1024 - 2 ^ 970 ≤ hi - lo) : normPtD rnd (.fin x) (.fin lo) (.fin hi) = 0 := by
  unfold normPtD
  rw [sub_fin_rnd rnd hi, h.2.1 _ hr]
  exact div_pinf h _

theorem one_lt_range : (1 : ℝ) < 2 ^ 1024 - 2 ^ 970 := by
  have := isDouble_le isDouble_one
  rwa [abs_one] at this

/-- A pixel of a map whose range does not overflow: with `A`, `B` the two differences. -/
theorem normPtD_fin {rnd : ℝ → Fl} (h : Spec.Rounding rnd) {x lo hi : ℝ} (hx : Spec.IsDouble x)
    (hlo : Spec.IsDouble lo) (hhi : Spec.IsDouble hi) (h1 : lo ≤ x) (h2 : x ≤ hi) (hne : lo < hi)
    (hr : hi - lo < 2 ^ 1024 - 2 ^ 970) :
    ∃ A B, rnd (x - lo) = .fin A ∧ rnd (hi - lo) = .fin B ∧ 0 ≤ A ∧ A ≤ B ∧ 0 < B ∧
      abs (A - (x - lo)) ≤ (x - lo) / 2 ^ 53 ∧ abs (B - (hi - lo)) ≤ (hi - lo) / 2 ^ 53 ∧
      rnd (A / B) = .fin (normPtD rnd (.fin x) (.fin lo) (.fin hi)) ∧
      Spec.IsDouble (normPtD rnd (.fin x) (.fin lo) (.fin hi)) ∧
      |normPtD rnd (.fin x) (.fin lo) (.fin hi) - A / B| ≤ 1 / 2 ^ 53 := by
  have n1 : |x - lo| = x - lo := abs_of_nonneg (by linarith)
  have n2 : |hi - lo| = hi - lo := abs_of_nonneg (by linarith)
  have r1 : |x - lo| < 2 ^ 1024 - 2 ^ 970 := by
    rw [n1]; exact lt_of_le_of_lt (sub_le_sub_right h2 lo) hr
  have r2 : |hi - lo| < 2 ^ 1024 - 2 ^ 970 := by rwa [n2]
  have r0 : |(0 : ℝ)| < 2 ^ 1024 - 2 ^ 970 := isDouble_le isDouble_zero
  obtain ⟨A, hA, dA, eA⟩ := sub_spec h hx hlo r1
  obtain ⟨B, hB, dB, eB⟩ := sub_spec h hhi hlo r2
  rw [n1] at eA
  rw [n2] at eB
  have hA0 : 0 ≤ A := round_mono h (by linarith) r0 r1 (rnd_zero h) hA
  have hAB : A ≤ B := round_mono h (by linarith) r1 r2 hA hB
  have hB0 : 0 < B := by
    have h5 : (hi - lo) / 2 ^ 53 < hi - lo := by
      rw [div_lt_iff₀ (by positivity)]
      nlinarith
    have := (abs_le.1 eB).1
    linarith
  have q0 : 0 ≤ A / B := div_nonneg hA0 hB0.le
  have q1 : A / B ≤ 1 := div_le_one_of_le₀ hAB hB0.le
  have qa : |A / B| = A / B := abs_of_nonneg q0
  obtain ⟨z, hz, dz, -, ez⟩ := round_spec h (y := A / B) (by rw [qa]; exact q1.trans_lt one_lt_range)
  have hval : normPtD rnd (.fin x) (.fin lo) (.fin hi) = z := by
    unfold normPtD
    rw [sub_fin_rnd, sub_fin_rnd, hA, hB, Dbl.div, Fl.div_fin _ hB0.ne', Dbl.rop, hz]
    rfl
  rw [hval]
  refine ⟨A, B, hA, hB, hA0, hAB, hB0, eA, eB, hz, dz, ?_⟩
  rcases ez with ez | ⟨-, ez⟩
  · refine ez.trans (div_le_div_of_nonneg_right (qa.trans_le q1) (by positivity))
  · refine ez.trans ?_
    rw [one_div, ← zpow_natCast, ← zpow_neg]
    exact zpow_le_zpow_right₀ one_le_two (by norm_num)

/-! ## The array -/

theorem normD_ok (rnd : ℝ → Fl) {ι : Type} [Fintype ι] [Nonempty ι] (P : ι → Fl) :
    ∃ mn mx, IsMin (fun x => ∃ q, P q = x) mn ∧ IsMax (fun x => ∃ q, P q = x) mx ∧
      Dbl.norm rnd P = .ok (fun q => normPtD rnd (P q) mn mx) := by
  have hne : univ.toList.map P ≠ [] := by
    obtain ⟨q⟩ := ‹Nonempty ι›
    intro h
    have : P q ∈ univ.toList.map P := (mem_family P _).2 ⟨q, rfl⟩
    rw [h] at this
    exact absurd this List.not_mem_nil
  obtain ⟨mn, h1, h2⟩ := arrMin_ok hne
  obtain ⟨mx, h3, h4⟩ := arrMax_ok hne
  refine ⟨mn, mx, ?_, ?_, ?_⟩
  · simpa only [mem_family] using h2
  · simpa only [mem_family] using h4
  · unfold Dbl.norm
    rw [h1]
    show (do let mx ← arrMax (univ.toList.map P); _) = _
    rw [h3]
    rfl

/-- A map with an entry that is not a number, or a finite map with its extremes. -/
theorem normD_cases {rnd : ℝ → Fl} (h : Spec.Rounding rnd) {ι : Type} (P : ι → Fl) {mn mx : Fl}
    (hmn : IsMin (fun x => ∃ q, P q = x) mn) (hmx : IsMax (fun x => ∃ q, P q = x) mx) :
    (∃ (p : ι → ℝ) (a b : ι), (∀ q, P q = .fin (p q)) ∧ (∀ q, p a ≤ p q ∧ p q ≤ p b) ∧
      mn = .fin (p a) ∧ mx = .fin (p b)) ∨
    ((∃ q, ∀ r, P q ≠ .fin r) ∧ ∀ q, normPtD rnd (P q) mn mx = 0) := by
  by_cases hbad : ∃ q, ∀ r, P q ≠ .fin r
  · right
    refine ⟨hbad, fun q => normPtD_bad h _ _ _ ?_⟩
    obtain ⟨z, hz⟩ := hbad
    by_cases hn : ∃ q, P q = .nan
    · exact .inl (hmn.1 hn)
    · obtain ⟨⟨a, ha⟩, h2⟩ := hmn.2 hn
      obtain ⟨⟨b, hb⟩, h4⟩ := hmx.2 hn
      have hmn0 : mn ≠ .nan := fun e => hn ⟨a, ha.trans e⟩
      have hmx0 : mx ≠ .nan := fun e => hn ⟨b, hb.trans e⟩
      cases hPz : P z with
      | nan => exact absurd ⟨z, hPz⟩ hn
      | fin r => exact absurd hPz (hz r)
      | pinf =>
        right; right
        have := h4 .pinf ⟨z, hPz⟩
        cases mx with
        | nan => exact absurd rfl hmx0
        | pinf => rfl
        | ninf => exact absurd trivial this
        | fin r => exact absurd trivial this
      | ninf =>
        right; left
        have := h2 .ninf ⟨z, hPz⟩
        cases mn with
        | nan => exact absurd rfl hmn0
        | ninf => rfl
        | pinf => exact absurd trivial this
        | fin r => exact absurd trivial this
  · left
    push Not at hbad
    choose p hp using hbad
    have hn : ¬ ∃ q, P q = .nan := by
      rintro ⟨q, hq⟩
      rw [hp] at hq
      cases hq
    obtain ⟨⟨a, ha⟩, h2⟩ := hmn.2 hn
    obtain ⟨⟨b, hb⟩, h4⟩ := hmx.2 hn
    rw [hp] at ha hb
    subst ha hb
    exact ⟨p, a, b, hp, fun q => ⟨not_lt.1 (h2 _ ⟨q, hp q⟩), not_lt.1 (h4 _ ⟨q, hp q⟩)⟩, rfl, rfl⟩

theorem normD_fin (rnd : ℝ → Fl) {ι : Type} [Fintype ι] (p : ι → ℝ) (a b : ι) (ha : ∀ q, p a ≤ p q)
    (hb : ∀ q, p q ≤ p b) :
    Dbl.norm rnd (fun q => Fl.fin (p q)) = .ok fun q => normPtD rnd (.fin (p q)) (.fin (p a)) (.fin (p b)) := by
  have : Nonempty ι := ⟨a⟩
  obtain ⟨mn, mx, h1, h2, h3⟩ := normD_ok rnd (fun q => Fl.fin (p q))
  have hn : ¬ ∃ q, Fl.fin (p q) = .nan := by rintro ⟨q, hq⟩; cases hq
  obtain ⟨⟨a', rfl⟩, h5⟩ := h1.2 hn
  obtain ⟨⟨b', rfl⟩, h6⟩ := h2.2 hn
  have e1 : p a' = p a := le_antisymm (not_lt.1 (h5 _ ⟨a, rfl⟩)) (ha a')
  have e2 : p b' = p b := le_antisymm (hb b') (not_lt.1 (h6 _ ⟨b, rfl⟩))
  rw [h3, e1, e2]

/-! ## C94 -/

/-- **C94** whatever the entries of a map of doubles (nan and infinities included): the normalised values are
doubles in `[0, 1]`. -/
theorem C94_range {rnd : ℝ → Fl} (h : Spec.Rounding rnd) {ι : Type} [Fintype ι] [Nonempty ι] (P : ι → Fl)
    (hP : ∀ q, Spec.Double (P q)) :
    ∃ n, Dbl.norm rnd P = .ok n ∧ ∀ q, Spec.IsDouble (n q) ∧ 0 ≤ n q ∧ n q ≤ 1 := by
  obtain ⟨mn, mx, h1, h2, h3⟩ := normD_ok rnd P
  refine ⟨_, h3, fun q => ?_⟩
  rcases normD_cases h P h1 h2 with ⟨p, a, b, hp, hle, rfl, rfl⟩ | ⟨-, hv⟩
  · have hd : ∀ q, Spec.IsDouble (p q) := fun q => by have := hP q; rw [hp] at this; exact this
    rw [hp]
    rcases (hle b).1.lt_or_eq with hab | hab
    · rcases lt_or_ge (p b - p a) (2 ^ 1024 - 2 ^ 970) with hr | hr
      · obtain ⟨A, B, -, -, hA, hAB, hB, -, -, hz, dz, -⟩ :=
          normPtD_fin h (hd q) (hd a) (hd b) (hle q).1 (hle q).2 hab hr
        have q0 : 0 ≤ A / B := div_nonneg hA hB.le
        have q1 : A / B ≤ 1 := div_le_one_of_le₀ hAB hB.le
        have hq : |A / B| < 2 ^ 1024 - 2 ^ 970 := by
          rw [abs_of_nonneg q0]; exact q1.trans_lt one_lt_range
        exact ⟨dz, round_mono h q0 (isDouble_le isDouble_zero) hq (rnd_zero h) hz,
          round_mono h q1 hq (isDouble_le isDouble_one) hz (round_self h isDouble_one)⟩
      · rw [normPtD_over h _ _ _ hr]
        exact ⟨isDouble_zero, le_rfl, zero_le_one⟩
    · have hq : p q = p a := le_antisymm (hab ▸ (hle q).2) (hle q).1
      rw [hq, ← hab, normPtD_const h]
      exact ⟨isDouble_zero, le_rfl, zero_le_one⟩
  · rw [hv]
    exact ⟨isDouble_zero, le_rfl, zero_le_one⟩

/-- **C94** a map of doubles that is not constant and whose range does not overflow: the smallest entries give
exactly 0, the largest exactly 1, the order is kept, and every value is within `2 ^ -51` of the exact one. -/
theorem C94_values {rnd : ℝ → Fl} (h : Spec.Rounding rnd) {ι : Type} [Fintype ι] (p : ι → ℝ)
    (hp : ∀ q, Spec.IsDouble (p q)) (a b : ι) (ha : ∀ q, p a ≤ p q) (hb : ∀ q, p q ≤ p b) (hab : p a < p b)
    (hr : p b - p a < 2 ^ 1024 - 2 ^ 970) :
    ∃ n, Dbl.norm rnd (fun q => .fin (p q)) = .ok n ∧ (∀ q, p q = p a → n q = 0) ∧
      (∀ q, p q = p b → n q = 1) ∧ (∀ q q', p q ≤ p q' → n q ≤ n q') ∧
      ∀ q, |n q - (p q - p a) / (p b - p a)| ≤ 1 / 2 ^ 51 := by
  refine ⟨_, normD_fin rnd p a b ha hb, fun q hq => ?_, fun q hq => ?_, fun q q' hqq => ?_, fun q => ?_⟩
  · obtain ⟨A, B, hA, hB, -, -, hB0, -, -, hz, -⟩ := normPtD_fin h (hp q) (hp a) (hp b) (ha q) (hb q) hab hr
    rw [hq, sub_self, rnd_zero h] at hA
    cases hA
    rw [zero_div, rnd_zero h] at hz
    exact (Fl.fin.inj hz).symm
  · obtain ⟨A, B, hA, hB, -, -, hB0, -, -, hz, -⟩ := normPtD_fin h (hp q) (hp a) (hp b) (ha q) (hb q) hab hr
    rw [hq, hB] at hA
    cases hA
    rw [div_self hB0.ne', round_self h isDouble_one] at hz
    exact (Fl.fin.inj hz).symm
  · obtain ⟨A, B, hA, hB, A0, AB, hB0, -, -, hz, -⟩ := normPtD_fin h (hp q) (hp a) (hp b) (ha q) (hb q) hab hr
    obtain ⟨A', B', hA', hB', A0', AB', hB0', -, -, hz', -⟩ :=
      normPtD_fin h (hp q') (hp a) (hp b) (ha q') (hb q') hab hr
    rw [hB] at hB'
    cases hB'
    have rg : ∀ q, |p q - p a| < 2 ^ 1024 - 2 ^ 970 := fun q => by
      rw [abs_of_nonneg (sub_nonneg.2 (ha q))]
      exact lt_of_le_of_lt (sub_le_sub_right (hb q) _) hr
    have hAA : A ≤ A' := round_mono h (by linarith) (rg q) (rg q') hA hA'
    have un : ∀ C, 0 ≤ C → C ≤ B → |C / B| < 2 ^ 1024 - 2 ^ 970 := fun C c0 c1 => by
      rw [abs_of_nonneg (div_nonneg c0 hB0.le)]
      exact (div_le_one_of_le₀ c1 hB0.le).trans_lt one_lt_range
    exact round_mono h (div_le_div_of_nonneg_right hAA hB0.le) (un A A0 AB) (un A' A0' AB') hz hz'
  · obtain ⟨A, B, hA, hB, A0, AB, hB0, eA, eB, -, -, e⟩ :=
      normPtD_fin h (hp q) (hp a) (hp b) (ha q) (hb q) hab hr
    have hs : 0 ≤ p q - p a := sub_nonneg.2 (ha q)
    have ht : p q - p a ≤ p b - p a := by linarith [hb q]
    have hT : 0 < p b - p a := by linarith
    generalize normPtD rnd (.fin (p q)) (.fin (p a)) (.fin (p b)) = z at *
    generalize p q - p a = s at *
    generalize p b - p a = t at *
    -- the quotient of the rounded differences
    have key : |A / B - s / t| ≤ 3 / 2 ^ 53 := by
      have e1 : A / B - s / t = ((A - s) * t - (B - t) * s) / (B * t) := by
        field_simp; ring
      rw [e1, abs_div, abs_of_pos (mul_pos hB0 hT), div_le_iff₀ (mul_pos hB0 hT)]
      have e2 : |(A - s) * t - (B - t) * s| ≤ s / 2 ^ 53 * t + t / 2 ^ 53 * s := by
        refine (abs_sub _ _).trans ?_
        rw [abs_mul, abs_mul, abs_of_pos hT, abs_of_nonneg hs]
        exact add_le_add (mul_le_mul_of_nonneg_right eA hT.le) (mul_le_mul_of_nonneg_right eB hs)
      refine e2.trans ?_
      have e3 : (2 / 3) * t ≤ B := by
        have := (abs_le.1 eB).1
        have : t / 2 ^ 53 ≤ t / 3 := div_le_div_of_nonneg_left hT.le (by norm_num) (by norm_num)
        linarith
      have e4 : s / 2 ^ 53 * t + t / 2 ^ 53 * s = 2 * (s * t) / 2 ^ 53 := by ring
      rw [e4, div_mul_eq_mul_div]
      refine div_le_div_of_nonneg_right ?_ (by positivity)
      nlinarith [mul_le_mul_of_nonneg_right ht hT.le, mul_le_mul_of_nonneg_right e3 hT.le]
    have : |z - s / t| ≤ |z - A / B| + |A / B - s / t| := abs_sub_le _ _ _
    have : (1 : ℝ) / 2 ^ 53 + 3 / 2 ^ 53 = 1 / 2 ^ 51 := by norm_num
    linarith

/-- **C94** normalising twice changes no bit. -/
theorem C94_idempotent {rnd : ℝ → Fl} (h : Spec.Rounding rnd) {ι : Type} [Fintype ι] [Nonempty ι] (P : ι → Fl)
    (hP : ∀ q, Spec.Double (P q)) (n : ι → ℝ) (hn : Dbl.norm rnd P = .ok n) :
    Dbl.norm rnd (fun q => .fin (n q)) = .ok n := by
  obtain ⟨n', hn', hrange⟩ := C94_range h P hP
  rw [hn] at hn'
  cases hn'
  -- all zero
  have hzero : (∀ q, n q = 0) → Dbl.norm rnd (fun q => .fin (n q)) = .ok n := by
    intro h0
    obtain ⟨z⟩ := ‹Nonempty ι›
    rw [normD_fin rnd n z z (fun q => by rw [h0, h0]) (fun q => by rw [h0, h0])]
    congr 1
    funext q
    rw [h0 q, h0 z, normPtD_const h]
  -- zero and one attained
  have hone : ∀ a b, n a = 0 → n b = 1 → Dbl.norm rnd (fun q => .fin (n q)) = .ok n := by
    intro a b ha hb
    rw [normD_fin rnd n a b (fun q => by rw [ha]; exact (hrange q).2.1)
      (fun q => by rw [hb]; exact (hrange q).2.2)]
    congr 1
    funext q
    rw [ha, hb]
    unfold normPtD
    rw [sub_fin_rnd, sub_fin_rnd, sub_zero, sub_zero, round_self h (hrange q).1, round_self h isDouble_one,
      Dbl.div, Fl.div_fin _ one_ne_zero, div_one, Dbl.rop, round_self h (hrange q).1]
    rfl
  obtain ⟨mn, mx, h1, h2, h3⟩ := normD_ok rnd P
  rw [hn] at h3
  rcases normD_cases h P h1 h2 with ⟨p, a, b, hp, hle, rfl, rfl⟩ | ⟨-, hv⟩
  · have hd : ∀ q, Spec.IsDouble (p q) := fun q => by have := hP q; rw [hp] at this; exact this
    have hpf : P = fun q => .fin (p q) := funext hp
    rcases (hle b).1.lt_or_eq with hab | hab
    · rcases lt_or_ge (p b - p a) (2 ^ 1024 - 2 ^ 970) with hr | hr
      · obtain ⟨n', e1, e2, e3, -⟩ := C94_values h p hd a b (fun q => (hle q).1) (fun q => (hle q).2) hab hr
        rw [← hpf, hn] at e1
        cases e1
        exact hone a b (e2 a rfl) (e3 b rfl)
      · refine hzero fun q => ?_
        have := congrFun (Except.ok.inj h3) q
        rw [this, hp, normPtD_over h _ _ _ hr]
    · refine hzero fun q => ?_
      have hq : p q = p a := le_antisymm (hab ▸ (hle q).2) (hle q).1
      have := congrFun (Except.ok.inj h3) q
      rw [this, hp, hq, ← hab, normPtD_const h]
  · refine hzero fun q => ?_
    have := congrFun (Except.ok.inj h3) q
    rw [this, hv]

theorem normAxis1D_row (rnd : ℝ → Fl) {m k : ℕ} (hk : 0 < k) (P : Fin m × Fin k → Fl) :
    ∃ r, Dbl.normAxis1 rnd P = .ok r ∧ ∀ i, Dbl.norm rnd (fun j => P (i, j)) = .ok (fun j => r (i, j)) := by
  have hl : ∀ Q : Fin k → Fl, ∃ mn mx, arrMin (List.ofFn Q) = .ok mn ∧ arrMax (List.ofFn Q) = .ok mx ∧
      Dbl.norm rnd Q = .ok (fun q => normPtD rnd (Q q) mn mx) := by
    intro Q
    have : Nonempty (Fin k) := ⟨⟨0, hk⟩⟩
    have hne : List.ofFn Q ≠ [] := by
      intro h
      have := congrArg List.length h
      simp at this
      omega
    obtain ⟨mn, h1, h2⟩ := arrMin_ok hne
    obtain ⟨mx, h3, h4⟩ := arrMax_ok hne
    simp only [mem_line] at h2 h4
    obtain ⟨mn', mx', h5, h6, h7⟩ := normD_ok rnd Q
    rw [h5.unique h2, h6.unique h4] at h7
    exact ⟨mn, mx, h1, h3, h7⟩
  choose mn mx h1 h2 h3 using fun i : Fin m => hl (fun j => P (i, j))
  refine ⟨fun q => normPtD rnd (P q) (mn q.1) (mx q.1), ?_, fun i => h3 i⟩
  unfold Dbl.normAxis1
  rw [Aperture.seqArr_ok _ mn h1, Aperture.seqArr_ok _ mx h2]
  rfl

/-- **C94** the residual of a data map and a model map: every entry is a double in `[-1, 1]`; it is 0 exactly
where the two normalised maps agree; and for maps of finite numbers without overflow it is within `2 ^ -49` of
the exact one. -/
theorem C94_residual {rnd : ℝ → Fl} (h : Spec.Rounding rnd) {m k : ℕ} (hk : 0 < k)
    (data model : Fin m × Fin k → Fl) (hd : ∀ q, Spec.Double (data q)) (hm : ∀ q, Spec.Double (model q)) :
    ∃ r nd nm : Fin m × Fin k → ℝ, Dbl.difference rnd data model = .ok (fun q => .fin (r q)) ∧
      (∀ i, Dbl.norm rnd (fun j => data (i, j)) = .ok fun j => nd (i, j)) ∧
      (∀ i, Dbl.norm rnd (fun j => model (i, j)) = .ok fun j => nm (i, j)) ∧
      (∀ q, Spec.IsDouble (r q) ∧ -1 ≤ r q ∧ r q ≤ 1 ∧ (r q = 0 ↔ nd q = nm q)) ∧
      ∀ (i : Fin m) (d b : Fin k → ℝ), (∀ j, data (i, j) = .fin (d j)) → (∀ j, model (i, j) = .fin (b j)) →
        ∀ dl dh bl bh, (∀ j, d dl ≤ d j ∧ d j ≤ d dh) → (∀ j, b bl ≤ b j ∧ b j ≤ b bh) →
          d dl < d dh → b bl < b bh → d dh - d dl < 2 ^ 1024 - 2 ^ 970 → b bh - b bl < 2 ^ 1024 - 2 ^ 970 →
          ∀ j, |r (i, j) - ((d j - d dl) / (d dh - d dl) - (b j - b bl) / (b bh - b bl))| ≤ 1 / 2 ^ 49 := by
  have : Nonempty (Fin k) := ⟨⟨0, hk⟩⟩
  obtain ⟨nd, hnd, rd⟩ := normAxis1D_row rnd hk data
  obtain ⟨nm, hnm, rm⟩ := normAxis1D_row rnd hk model
  have Rd : ∀ q, Spec.IsDouble (nd q) ∧ 0 ≤ nd q ∧ nd q ≤ 1 := fun q => by
    obtain ⟨n, e, he⟩ := C94_range h (fun j => data (q.1, j)) (fun j => hd _)
    rw [rd q.1] at e
    cases e
    exact he q.2
  have Rm : ∀ q, Spec.IsDouble (nm q) ∧ 0 ≤ nm q ∧ nm q ≤ 1 := fun q => by
    obtain ⟨n, e, he⟩ := C94_range h (fun j => model (q.1, j)) (fun j => hm _)
    rw [rm q.1] at e
    cases e
    exact he q.2
  have ab1 : ∀ q, |nd q - nm q| ≤ 1 := fun q => by
    rw [abs_le]; constructor <;> linarith [(Rd q).2.1, (Rd q).2.2, (Rm q).2.1, (Rm q).2.2]
  have rg : ∀ q, |nd q - nm q| < 2 ^ 1024 - 2 ^ 970 := fun q => (ab1 q).trans_lt one_lt_range
  choose r hr1 hr2 hr3 using fun q => sub_spec h (Rd q).1 (Rm q).1 (rg q)
  have dneg : Spec.IsDouble (-1) := ⟨-1, 0, by norm_num, by norm_num, by norm_num, by simp⟩
  refine ⟨r, nd, nm, ?_, rd, rm, fun q => ⟨hr2 q, ?_, ?_, ?_⟩, ?_⟩
  · unfold Dbl.difference
    rw [hnd, hnm]
    simp only [bind, Except.bind, pure, Except.pure]
    congr 1
    funext q
    rw [sub_fin_rnd, hr1]
  · exact round_mono h (abs_le.1 (ab1 q)).1 (isDouble_le dneg) (rg q) (round_self h dneg) (hr1 q)
  · exact round_mono h (abs_le.1 (ab1 q)).2 (rg q) (isDouble_le isDouble_one) (hr1 q) (round_self h isDouble_one)
  · constructor
    · intro h0
      have e := hr3 q
      rw [h0, zero_sub, abs_neg, le_div_iff₀ (by positivity)] at e
      have : |nd q - nm q| = 0 := by nlinarith [abs_nonneg (nd q - nm q)]
      exact sub_eq_zero.1 (abs_eq_zero.1 this)
    · intro h0
      have e := hr1 q
      rw [h0, sub_self, rnd_zero h] at e
      exact (Fl.fin.inj e).symm
  · intro i d b hd' hb' dl dh bl bh hdl hbl hd0 hb0 hdr hbr j
    obtain ⟨n1, e1, -, -, -, c1⟩ := C94_values h d
      (fun j => by have := hd (i, j); rw [hd'] at this; exact this) dl dh
      (fun j => (hdl j).1) (fun j => (hdl j).2) hd0 hdr
    obtain ⟨n2, e2, -, -, -, c2⟩ := C94_values h b
      (fun j => by have := hm (i, j); rw [hb'] at this; exact this) bl bh
      (fun j => (hbl j).1) (fun j => (hbl j).2) hb0 hbr
    have r1 := rd i
    have r2 := rm i
    simp only [hd'] at r1
    simp only [hb'] at r2
    rw [e1] at r1
    rw [e2] at r2
    cases r1
    cases r2
    have s1 := c1 j
    have s2 := c2 j
    have s3 := (hr3 (i, j)).trans (div_le_div_of_nonneg_right (ab1 (i, j)) (by positivity))
    generalize (d j - d dl) / (d dh - d dl) = x at *
    generalize (b j - b bl) / (b bh - b bl) = y at *
    dsimp only at s1 s2
    have e3 : r (i, j) - (x - y) =
        (r (i, j) - (nd (i, j) - nm (i, j))) + (nd (i, j) - x) - (nm (i, j) - y) := by ring
    rw [e3]
    refine (abs_sub _ _).trans ((add_le_add (abs_add_le _ _) le_rfl).trans ?_)
    have : (1 : ℝ) / 2 ^ 53 + 1 / 2 ^ 51 + 1 / 2 ^ 51 ≤ 1 / 2 ^ 49 := by norm_num
    linarith

/-- Without rounding it is the model of `norm` used elsewhere. -/
theorem normD_exact {ι : Type} [Fintype ι] (P : ι → Fl) : Dbl.norm Fl.fin P = MathFn.norm P := by
  have : ∀ x, Dbl.rop Fl.fin x = x := fun x => by cases x <;> rfl
  unfold Dbl.norm MathFn.norm Dbl.div Dbl.sub
  simp only [this]

theorem normAxis1D_exact {m n : ℕ} (P : Fin m × Fin n → Fl) : Dbl.normAxis1 Fl.fin P = MathFn.normAxis1 P := by
  have : ∀ x, Dbl.rop Fl.fin x = x := fun x => by cases x <;> rfl
  unfold Dbl.normAxis1 MathFn.normAxis1 Dbl.div Dbl.sub
  simp only [this]

/-- There is such a rounding. -/
theorem rounding_exists : ∃ rnd, Spec.Rounding rnd := by
  obtain ⟨rd, hrd⟩ := reader_exists
  classical
  have hpos : (0 : ℝ) < 2 ^ 1024 - 2 ^ 970 := lt_trans one_pos one_lt_range
  refine ⟨fun y => if 2 ^ 1024 - 2 ^ 970 ≤ y then .pinf else if y ≤ -(2 ^ 1024 - 2 ^ 970) then .ninf else rd y,
    fun y hy => ?_, fun y hy => ?_, fun y hy => ?_⟩
  · have := abs_lt.1 hy
    dsimp only
    rw [if_neg (not_le.2 this.2), if_neg (not_le.2 this.1)]
    exact hrd y hy
  · dsimp only
    rw [if_pos hy]
  · dsimp only
    rw [if_neg (not_le.2 (lt_of_le_of_lt hy (lt_trans (neg_lt_zero.2 hpos) hpos))), if_pos hy]

/-- A map of three pixels whose value in the middle cannot be held: the normalised value is near 1 / 3. -/
example : ∃ rnd n, Spec.Rounding rnd ∧
    Dbl.norm rnd (fun q : Fin 3 => .fin (![0, 1, 3] q)) = .ok n ∧ n 0 = 0 ∧ n 2 = 1 ∧
    |n 1 - 1 / 3| ≤ 1 / 2 ^ 51 := by
  obtain ⟨rnd, h⟩ := rounding_exists
  have hd : ∀ q : Fin 3, Spec.IsDouble ((![0, 1, 3] : Fin 3 → ℝ) q) := by
    intro q
    fin_cases q
    · exact isDouble_zero
    · exact isDouble_one
    · have := isDouble_nat (n := 3) (by norm_num)
      exact_mod_cast this
  have hmin : ∀ q : Fin 3, (![0, 1, 3] : Fin 3 → ℝ) 0 ≤ (![0, 1, 3] : Fin 3 → ℝ) q := by
    intro q; fin_cases q <;> norm_num
  have e2 : (![0, 1, 3] : Fin 3 → ℝ) 2 = 3 := rfl
  have hmax : ∀ q : Fin 3, (![0, 1, 3] : Fin 3 → ℝ) q ≤ (![0, 1, 3] : Fin 3 → ℝ) 2 := by
    intro q; rw [e2]; fin_cases q <;> norm_num [Matrix.cons_val]
  obtain ⟨n, h1, h2, h3, -, h5⟩ := C94_values h ![0, 1, 3] hd 0 2 hmin hmax
    (by rw [e2]; norm_num) (by
      have := isDouble_le (x := 3) (hd 2)
      rw [abs_of_pos (by norm_num)] at this
      simpa using this)
  refine ⟨rnd, n, h, h1, h2 0 rfl, h3 2 rfl, ?_⟩
  have := h5 1
  simpa using this

/-- Three maps of two pixels, one of them with a nan: the residual is finite. -/
example : ∃ (rnd : ℝ → Fl) (r : Fin 3 × Fin 2 → ℝ), Spec.Rounding rnd ∧
    Dbl.difference rnd (fun q : Fin 3 × Fin 2 => if q = (1, 0) then .nan else if q.2 = 0 then .fin 0 else .fin 1)
      (fun q => if q.2 = 0 then .fin 1 else .fin 0) = .ok (fun q => .fin (r q)) ∧ ∀ q, -1 ≤ r q ∧ r q ≤ 1 := by
  obtain ⟨rnd, h⟩ := rounding_exists
  obtain ⟨r, nd, nm, h1, e1, e2, h2, e3⟩ := C94_residual h (m := 3) (k := 2) two_pos
    (fun q => if q = (1, 0) then .nan else if q.2 = 0 then .fin 0 else .fin 1)
    (fun q => if q.2 = 0 then .fin 1 else .fin 0)
    (fun q => by split_ifs <;> first | trivial | exact isDouble_zero | exact isDouble_one)
    (fun q => by split_ifs <;> first | exact isDouble_zero | exact isDouble_one)
  exact ⟨rnd, r, h, h1, fun q => ⟨(h2 q).2.1, (h2 q).2.2.1⟩⟩

end Verif.Props
