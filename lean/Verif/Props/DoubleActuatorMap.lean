import Verif.Props.DoubleActuator

/-!
# C128: the maps and the look-up table in the arithmetic of doubles
-/

namespace Verif.Props

open Verif Verif.Np Verif.Actuator

/-! ## Specification -/

/-- Two arrays with the same shape whose entries are related one by one. -/
inductive Spec.Zip (R : Fl → Fl → Prop) : Arr → Arr → Prop
  | d2 {m n : ℕ} {f g : Fin m × Fin n → Fl} (h : ∀ q, R (f q) (g q)) : Spec.Zip R (.d2 ⟨m, n, f⟩) (.d2 ⟨m, n, g⟩)
  | d3 {k m n : ℕ} {f g : Fin m × Fin n → Fin k → Fl} (h : ∀ q i, R (f q i) (g q i)) :
    Spec.Zip R (.d3 k ⟨m, n, f⟩) (.d3 k ⟨m, n, g⟩)

/-- Two values that are both nan, or both numbers that differ by at most `e` relative to the second plus `τ`. -/
def Spec.Close (e τ : ℝ) (x y : Fl) : Prop :=
  x = .nan ∧ y = .nan ∨ ∃ r s : ℝ, x = .fin r ∧ y = .fin s ∧ |r - s| ≤ e * |s| + τ

/-- Every entry is nan or a number up to `B`. -/
def Spec.Sized (B : ℝ) (A : Arr) : Prop := ∀ x, Spec.Entry A x → x = .nan ∨ ∃ r, x = .fin r ∧ |r| ≤ B

/-! ## Lemmas -/

theorem zip_turn2 {R : Fl → Fl → Prop} {A : Mat Fl} {k : ℤ} {f g : Fl → Fl}
    (h : ∀ x, Spec.Entry (.d2 A) x → R (f x) (g x)) :
    Spec.Zip R (.d2 ((A.rot90 k).map f)) (.d2 ((A.rot90 k).map g)) := by
  refine Spec.Zip.d2 fun q => h _ ?_
  obtain ⟨q', e⟩ := rot90_entry A k q
  exact ⟨q', e.symm⟩

theorem zip_turn3 {R : Fl → Fl → Prop} {n : ℕ} {A : Mat (Fin n → Fl)} {k : ℤ} {f g : Fl → Fl}
    (h : ∀ x, Spec.Entry (.d3 n A) x → R (f x) (g x)) :
    Spec.Zip R (.d3 n ((A.rot90 k).map fun x i => f (x i))) (.d3 n ((A.rot90 k).map fun x i => g (x i))) := by
  refine Spec.Zip.d3 fun q i => h _ ?_
  obtain ⟨q', e⟩ := rot90_entry A k q
  exact ⟨q', i, congrFun e.symm i⟩

theorem turn_map2 {α β γ : Type} (A : Mat α) (g : α → β) (c : β → γ) (k : ℤ) :
    ((A.map g).rot90 k).map c = (A.rot90 k).map fun x => c (g x) := by
  rw [← map_rot90, map_map]

theorem clipD_clamp (d : Dbl.Act) (h : d.minAmp ≤ d.maxAmp) (x : Fl) : d.clip x = Spec.clamp d.minAmp d.maxAmp x := by
  unfold Dbl.Act.clip Spec.clamp
  cases x with
  | nan => simp [Fl.lt]
  | pinf => simp [Fl.lt, not_lt.2 h]
  | ninf => simp [Fl.lt]
  | fin r =>
    simp only [Fl.lt]
    by_cases h1 : d.maxAmp < r
    · simp only [h1, if_true, not_lt.2 h, Fl.lt, if_false, min_eq_left h1.le, max_eq_right h]
    · simp only [h1, if_false, Fl.lt, min_eq_right (not_lt.1 h1)]
      by_cases h2 : r < d.minAmp
      · simp only [h2, if_true, max_eq_left h2.le]
      · simp only [h2, if_false, max_eq_right (not_lt.1 h2)]

/-- The limits do not enlarge a relative error. -/
theorem clamp_near {lo hi e τ z y : ℝ} (hl : lo ≤ hi) (he0 : 0 ≤ e) (he : e ≤ 1) (hτ : 0 ≤ τ) (h : |z - y| ≤ e * |y| + τ) :
    |max lo (min hi z) - max lo (min hi y)| ≤ e * |max lo (min hi y)| + τ := by
  have mono1 : ∀ {p q : ℝ}, p ≤ q → p - e * |p| ≤ q - e * |q| := by
    intro p q hpq
    have := abs_sub_abs_le_abs_sub q p
    rw [abs_of_nonneg (by linarith : 0 ≤ q - p)] at this
    nlinarith
  have mono2 : ∀ {p q : ℝ}, p ≤ q → p + e * |p| ≤ q + e * |q| := by
    intro p q hpq
    have := abs_sub_abs_le_abs_sub p q
    rw [abs_sub_comm, abs_of_nonneg (by linarith : 0 ≤ q - p)] at this
    nlinarith
  obtain ⟨h1, h2⟩ := abs_le.1 h
  have hs1 : lo ≤ max lo (min hi y) := le_max_left _ _
  have hs2 : max lo (min hi y) ≤ hi := max_le hl (min_le_left _ _)
  have hlow : max lo (min hi y) = lo ∨ max lo (min hi y) ≤ y := by
    rcases le_total lo (min hi y) with j | j
    · right; rw [max_eq_right j]; exact min_le_right _ _
    · left; exact max_eq_left j
  have hupp : max lo (min hi y) = hi ∨ y ≤ max lo (min hi y) := by
    rcases le_total hi y with j | j
    · left; rw [min_eq_left j, max_eq_right hl]
    · right; rw [min_eq_right j]; exact le_max_right _ _
  generalize max lo (min hi y) = s at *
  have hes : 0 ≤ e * |s| := by positivity
  rw [abs_le]
  constructor
  · rcases hlow with j | j
    · have := le_max_left lo (min hi z)
      linarith
    · have m := mono1 j
      have : s - e * |s| - τ ≤ min hi z := le_min (by linarith) (by linarith)
      have := this.trans (le_max_right lo _)
      linarith
  · rcases hupp with j | j
    · have : max lo (min hi z) ≤ hi := max_le hl (min_le_left _ _)
      linarith
    · have m := mono2 j
      have : max lo (min hi z) ≤ s + e * |s| + τ := max_le (by linarith) ((min_le_right _ _).trans (by linarith))
      linarith

/-! ## The maps -/

/-- **C128.**  `transform` in doubles: the phase of every entry is that of the exact transformation to `2 ^ -48`, a nan is
a nan. -/
theorem C128_transform {rnd : ℝ → Fl} (h : Spec.Rounding rnd) {a : Act} {d : Dbl.Act} (hd : Spec.NearAct a d) (A E : Arr)
    (hA : Spec.Sized (2 ^ 300) A) (hE : a.transform A = .ok E) :
    ∃ D, d.transform rnd A = .ok D ∧ Spec.Zip (Spec.Close (1 / 2 ^ 48) (2 ^ (-1074 : ℤ))) D E := by
  have key : ∀ x, Spec.Entry A x → Spec.Close (1 / 2 ^ 48) (2 ^ (-1074 : ℤ)) (d.toPhase rnd x) (Fl.mul (.fin a.tfactor) x) := by
    intro x hx
    rcases hA x hx with rfl | ⟨r, rfl, hr⟩
    · exact .inl ⟨phase_nan h hd, rfl⟩
    · obtain ⟨z, e, b⟩ := phase_entry h hd hr
      refine .inr ⟨z, _, e, rfl, ?_⟩
      rw [tfactor_eq]
      exact b.trans (add_le_add (mul_le_mul_of_nonneg_right (by norm_num) (abs_nonneg _)) le_rfl)
  cases A with
  | d1 n f => exact nomatch hE
  | d2 A =>
    cases hE
    refine ⟨_, rfl, ?_⟩
    rw [hd.nrot]
    exact zip_turn2 key
  | d3 n A =>
    cases hE
    refine ⟨_, rfl, ?_⟩
    rw [hd.nrot]
    exact zip_turn3 key

/-- The command of a phase up to `2 ^ 300`. -/
theorem command_entry {rnd : ℝ → Fl} (h : Spec.Rounding rnd) {a : Act} {d : Dbl.Act} (hd : Spec.NearAct a d) {φ : ℝ}
    (hφ : |φ| ≤ 2 ^ 300) :
    ∃ z, d.clip (d.toShift rnd (.fin φ)) = .fin z ∧ |z - max a.minAmp (min a.maxAmp (φ / Spec.factor a))| ≤
      27 / 2 ^ 53 * |max a.minAmp (min a.maxAmp (φ / Spec.factor a))| + 2 ^ (-1063 : ℤ) := by
  obtain ⟨z, e, b⟩ := shift_entry h hd hφ
  refine ⟨_, ?_, clamp_near hd.limits (by norm_num) (by norm_num) (by positivity) b⟩
  rw [e, clipD_clamp d (by rw [hd.lo, hd.hi]; exact hd.limits), hd.lo, hd.hi]
  rfl

theorem factor_nz {a : Act} {d : Dbl.Act} (hd : Spec.NearAct a d) : Spec.factor a ≠ 0 := by
  obtain ⟨r1, -⟩ := act_range hd
  have hF0 : 0 < |1000 * Spec.factor a| := lt_of_lt_of_le (by positivity) r1
  exact fun e => abs_pos.1 hF0 (by rw [e, mul_zero])

/-- **C128.**  `itransform` in doubles: the displacement of every entry, after the limits, is that of the exact
transformation to `2 ^ -48`. -/
theorem C128_itransform {rnd : ℝ → Fl} (h : Spec.Rounding rnd) {a : Act} {d : Dbl.Act} (hd : Spec.NearAct a d) (P E : Arr)
    (hP : Spec.Sized (2 ^ 300) P) (hE : a.itransform P = .ok E) :
    ∃ D, d.itransform rnd P = .ok D ∧ Spec.Zip (Spec.Close (1 / 2 ^ 48) (2 ^ (-1063 : ℤ))) D E := by
  have key : ∀ x, Spec.Entry P x → Spec.Close (1 / 2 ^ 48) (2 ^ (-1063 : ℤ)) (d.clip (d.toShift rnd x))
      (a.clip (Fl.div x (.fin a.tfactor))) := by
    intro x hx
    rw [clip_clamp a hd.limits]
    rcases hP x hx with rfl | ⟨r, rfl, hr⟩
    · refine .inl ⟨?_, rfl⟩
      rw [shift_nan, clipD_clamp d (by rw [hd.lo, hd.hi]; exact hd.limits)]
      rfl
    · obtain ⟨z, e, b⟩ := command_entry h hd hr
      refine .inr ⟨z, _, e, ?_, b.trans (add_le_add (mul_le_mul_of_nonneg_right (by norm_num) (abs_nonneg _)) le_rfl)⟩
      rw [tfactor_eq, Fl.div_fin _ (factor_nz hd)]
      rfl
  cases P with
  | d1 n f => exact nomatch hE
  | d2 A =>
    cases hE
    refine ⟨_, rfl, ?_⟩
    rw [hd.nrot, turn_map2, turn_map2]
    exact zip_turn2 key
  | d3 n A =>
    cases hE
    refine ⟨_, rfl, ?_⟩
    rw [hd.nrot, turn_map2, turn_map2]
    exact zip_turn3 key

/-- **C128.**  Whatever the phases are, infinite or beyond the range included, no displacement from `itransform` in
doubles is beyond the limits, not by one unit in the last place; only a nan is not a displacement. -/
theorem C128_stroke {rnd : ℝ → Fl} (h : Spec.Rounding rnd) {a : Act} {d : Dbl.Act} (hd : Spec.NearAct a d) (P D : Arr)
    (hD : d.itransform rnd P = .ok D) (hnan : ¬ Spec.Entry P .nan) (x : Fl) (hx : Spec.Entry D x) :
    ∃ r : ℝ, x = .fin r ∧ a.minAmp ≤ r ∧ r ≤ a.maxAmp := by
  have hl := hd.limits
  have key : ∀ y : Fl, y ≠ .nan → ∃ r : ℝ, d.clip (d.toShift rnd y) = .fin r ∧ a.minAmp ≤ r ∧ r ≤ a.maxAmp := by
    intro y hy
    rw [clipD_clamp d (by rw [hd.lo, hd.hi]; exact hl), hd.lo, hd.hi]
    have hn := shift_not_nan h hd hy
    cases hy' : d.toShift rnd y with
    | nan => exact absurd hy' hn
    | pinf => exact ⟨_, rfl, hl, le_rfl⟩
    | ninf => exact ⟨_, rfl, le_rfl, hl⟩
    | fin r => exact ⟨_, rfl, le_max_left _ _, max_le hl (min_le_left _ _)⟩
  cases P with
  | d1 n f => exact nomatch hD
  | d2 A =>
    cases hD
    rw [turn_map2] at hx
    obtain ⟨q, rfl⟩ := hx
    obtain ⟨q', e⟩ := rot90_entry A (-d.nrot) q
    exact key _ fun j => hnan ⟨q', e.symm.trans j⟩
  | d3 n A =>
    cases hD
    rw [turn_map2] at hx
    obtain ⟨q, i, rfl⟩ := hx
    obtain ⟨q', e⟩ := rot90_entry A (-d.nrot) q
    exact key _ fun j => hnan ⟨q', i, (congrFun e.symm i).trans j⟩

end Verif.Props
