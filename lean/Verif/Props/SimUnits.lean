import Verif.Model.SimUnits
import Verif.Props.ActUnits

/-!
# C110: the blockage of Effelsberg and the simulated observation in any unit
-/

namespace Verif.Props

open Verif Verif.Np Verif.Fs Verif.Aperture Verif.Units Verif.Units.Val Verif.Sim Verif.SimUnits
open Verif.ActUnits

/-! ### floats with units -/

theorem fl_add_conv (x y : Fl) {k : ℝ} (hk : 0 < k) :
    Fl.mul (Fl.add x y) (.fin k) = Fl.add (Fl.mul x (.fin k)) (Fl.mul y (.fin k)) := by
  cases x <;> cases y <;> simp [Fl.add, Fl.mul, Fl.infSign, hk, Fl.neg, add_mul]

theorem fl_neg_conv (x : Fl) (k : ℝ) : Fl.mul x.neg (.fin k) = (Fl.mul x (.fin k)).neg := by
  cases x with
  | ninf =>
    show Fl.infSign k = (Fl.infSign k).neg.neg
    cases Fl.infSign k <;> simp [Fl.neg]
  | _ => simp [Fl.neg, Fl.mul]

theorem fl_sub_conv (x y : Fl) {k : ℝ} (hk : 0 < k) :
    Fl.mul (Fl.sub x y) (.fin k) = Fl.sub (Fl.mul x (.fin k)) (Fl.mul y (.fin k)) := by
  rw [Fl.sub, fl_add_conv _ _ hk, fl_neg_conv, Fl.sub]

theorem fl_mul_conv (x y : Fl) {k l : ℝ} (hk : 0 < k) (hl : 0 < l) :
    Fl.mul (Fl.mul x y) (.fin (k * l)) = Fl.mul (Fl.mul x (.fin k)) (Fl.mul y (.fin l)) := by
  have hkl : 0 < k * l := mul_pos hk hl
  cases x with
  | nan => simp [Fl.mul]
  | pinf =>
    cases y with
    | fin r =>
      have e : Fl.mul (.fin r) (.fin l) = .fin (r * l) := rfl
      have e2 : Fl.mul .pinf (.fin k) = .pinf := by simp [Fl.mul, Fl.infSign, hk]
      rw [e, e2]
      show Fl.mul (Fl.infSign r) _ = Fl.infSign (r * l)
      rw [infSign_mul_fin _ hkl, infSign_mul _ hl]
    | _ => simp [Fl.mul, Fl.infSign, hk, hl, hkl, Fl.neg]
  | ninf =>
    cases y with
    | fin r =>
      have e : Fl.mul (.fin r) (.fin l) = .fin (r * l) := rfl
      have e2 : Fl.mul .ninf (.fin k) = .ninf := by simp [Fl.mul, Fl.infSign, hk, Fl.neg]
      rw [e, e2]
      show Fl.mul (Fl.infSign r).neg _ = (Fl.infSign (r * l)).neg
      rw [fl_neg_conv, infSign_mul_fin _ hkl, infSign_mul _ hl]
    | _ => simp [Fl.mul, Fl.infSign, hk, hl, hkl, Fl.neg]
  | fin s =>
    have e : Fl.mul (.fin s) (.fin k) = .fin (s * k) := rfl
    rw [e]
    cases y with
    | fin r => simp only [Fl.mul]; congr 1; ring
    | nan => simp [Fl.mul]
    | pinf =>
      have e2 : Fl.mul .pinf (.fin l) = .pinf := by simp [Fl.mul, Fl.infSign, hl]
      rw [e2]
      show Fl.mul (Fl.infSign s) _ = Fl.infSign (s * k)
      rw [infSign_mul_fin _ hkl, infSign_mul _ hk]
    | ninf =>
      have e2 : Fl.mul .ninf (.fin l) = .ninf := by simp [Fl.mul, Fl.infSign, hl, Fl.neg]
      rw [e2]
      show Fl.mul (Fl.infSign s).neg _ = (Fl.infSign (s * k)).neg
      rw [fl_neg_conv, infSign_mul_fin _ hkl, infSign_mul _ hk]

theorem fl_quot_conv (x y : Fl) {k l : ℝ} (hk : 0 < k) (hl : 0 < l) :
    Fl.mul (Fl.div x y) (.fin (k * l⁻¹)) = Fl.div (Fl.mul x (.fin k)) (Fl.mul y (.fin l)) := by
  have hkl : 0 < k * l⁻¹ := by positivity
  cases y with
  | fin t =>
    rw [fl_div_conv x t hkl hk]
    show _ = Fl.div _ (.fin (t * l))
    congr 2
    field_simp
  | nan => cases x <;> simp [Fl.div, Fl.mul, Fl.infSign, hk, Fl.neg]
  | pinf => cases x <;> simp [Fl.div, Fl.mul, Fl.infSign, hk, hl, Fl.neg]
  | ninf => cases x <;> simp [Fl.div, Fl.mul, Fl.infSign, hk, hl, Fl.neg]

theorem fl_sqrt_conv (x : Fl) {k : ℝ} (hk : 0 < k) :
    Fl.mul (Fl.sqrt x) (.fin (Real.sqrt k)) = Fl.sqrt (Fl.mul x (.fin k)) := by
  have hs := Real.sqrt_pos.2 hk
  cases x with
  | nan => simp [Fl.sqrt, Fl.mul]
  | pinf => simp [Fl.sqrt, Fl.mul, Fl.infSign, hk]
  | ninf => simp [Fl.sqrt, Fl.mul, Fl.infSign, hk, Fl.neg]
  | fin r =>
    have e : Fl.mul (.fin r) (.fin k) = .fin (r * k) := rfl
    rw [e]
    simp only [Fl.sqrt]
    have hneg : r * k < 0 ↔ r < 0 := by
      constructor
      · intro h
        by_contra h'
        exact absurd (mul_nonneg (not_lt.1 h') hk.le) (not_le.2 h)
      · exact fun h => mul_neg_of_neg_of_pos h hk
    by_cases h : r < 0
    · rw [if_pos h, if_pos (hneg.2 h)]; rfl
    · rw [if_neg h, if_neg (fun h' => h (hneg.1 h'))]
      simp only [Fl.mul]
      rw [Real.sqrt_mul (not_lt.1 h)]

theorem fl_lt_conv (x y : Fl) {k : ℝ} (hk : 0 < k) :
    Fl.lt (Fl.mul x (.fin k)) (Fl.mul y (.fin k)) ↔ Fl.lt x y := by
  cases x <;> cases y <;> simp [Fl.mul, Fl.infSign, hk, Fl.neg, Fl.lt]

section
variable {ι : Type}

/-- `v` is a Quantity of dimension `d`, in reference units `F`. -/
def FIsQ (v : FVal ι) (d : Dim) (F : ι → Fl) : Prop :=
  ∃ g u, v = .qty g u ∧ 0 < u.scale ∧ u.dim = d ∧ ∀ q, Fl.mul (g q) (.fin u.scale) = F q

/-- The same, or a plain array for the dimension 0. -/
def FIs (v : FVal ι) (d : Dim) (F : ι → Fl) : Prop := FIsQ v d F ∨ (d = 0 ∧ v = .num F)

theorem FIsQ.congr {v : FVal ι} {d e : Dim} {F G : ι → Fl} (h : FIsQ v d F) (hd : d = e)
    (hF : ∀ q, F q = G q) : FIsQ v e G := by
  obtain rfl : F = G := funext hF
  exact hd ▸ h

theorem FIsQ.of {v : Val ι} {d : Dim} {f : ι → ℝ} (h : IsQ v d f) :
    FIsQ (FVal.ofVal v) d fun q => .fin (f q) := by
  obtain ⟨g, u, rfl, hu, hd, hf⟩ := h
  exact ⟨_, u, rfl, hu, hd, fun q => by
    show Fl.fin (g q * u.scale) = Fl.fin (f q)
    rw [hf q]⟩

theorem FIs.of {v : Val ι} {d : Dim} {f : ι → ℝ} (h : Is v d f) :
    FIs (FVal.ofVal v) d fun q => .fin (f q) := by
  rcases h with h | ⟨h, rfl⟩
  · exact Or.inl (FIsQ.of h)
  · exact Or.inr ⟨h, rfl⟩

theorem FIsQ.neg {v : FVal ι} {d : Dim} {F : ι → Fl} (h : FIsQ v d F) :
    FIsQ v.neg d fun q => (F q).neg := by
  obtain ⟨g, u, rfl, hu, hd, hF⟩ := h
  exact ⟨_, u, rfl, hu, hd, fun q => by rw [fl_neg_conv, hF]⟩

theorem FIsQ.sqrt {v : FVal ι} {d : Dim} {F : ι → Fl} (h : FIsQ v d F) :
    FIsQ v.sqrt (fun b => d b / 2) fun q => (F q).sqrt := by
  obtain ⟨g, u, rfl, hu, hd, hF⟩ := h
  refine ⟨_, u.sqrt, rfl, Real.sqrt_pos.2 hu, by simp [AUnit.sqrt, hd], fun q => ?_⟩
  show Fl.mul (Fl.sqrt _) (.fin (Real.sqrt u.scale)) = _
  rw [fl_sqrt_conv _ hu, hF]

theorem FIsQ.mul {v w : FVal ι} {d e : Dim} {F G : ι → Fl} (h : FIsQ v d F) (h' : FIs w e G) :
    FIsQ (v.mul w) (d + e) fun q => Fl.mul (F q) (G q) := by
  obtain ⟨g, u, rfl, hu, hd, hF⟩ := h
  rcases h' with ⟨g', u', rfl, hu', hd', hG⟩ | ⟨rfl, rfl⟩
  · refine ⟨_, u.mul u', rfl, mul_pos hu hu', by simp [AUnit.mul, hd, hd'], fun q => ?_⟩
    show Fl.mul (Fl.mul _ _) (.fin (u.scale * u'.scale)) = _
    rw [fl_mul_conv _ _ hu hu', hF, hG]
  · refine ⟨_, u, rfl, hu, by simp [hd], fun q => ?_⟩
    have := fl_mul_conv (g q) (G q) hu one_pos
    rw [mul_one, mul_one_fl] at this
    rw [this, hF]

theorem FIsQ.div {v w : FVal ι} {d e : Dim} {F G : ι → Fl} (h : FIsQ v d F) (h' : FIs w e G) :
    FIsQ (v.div w) (d - e) fun q => Fl.div (F q) (G q) := by
  obtain ⟨g, u, rfl, hu, hd, hF⟩ := h
  rcases h' with ⟨g', u', rfl, hu', hd', hG⟩ | ⟨rfl, rfl⟩
  · refine ⟨_, u.mul u'.inv, rfl, mul_pos hu (inv_pos.2 hu'), by
      simp [AUnit.mul, AUnit.inv, hd, hd', sub_eq_add_neg], fun q => ?_⟩
    show Fl.mul (Fl.div _ _) (.fin (u.scale * u'.scale⁻¹)) = _
    rw [fl_quot_conv _ _ hu hu', hF, hG]
  · refine ⟨_, u, rfl, hu, by simp [hd], fun q => ?_⟩
    have := fl_quot_conv (g q) (G q) hu one_pos
    rw [inv_one, mul_one, mul_one_fl] at this
    rw [this, hF]

theorem falign {v w : FVal ι} {d : Dim} {F G : ι → Fl} (h : FIsQ v d F) (h' : FIsQ w d G) :
    ∃ f g u, FVal.align v w = .ok (f, g, some u) ∧ 0 < u.scale ∧ u.dim = d ∧
      (∀ q, Fl.mul (f q) (.fin u.scale) = F q) ∧ ∀ q, Fl.mul (g q) (.fin u.scale) = G q := by
  obtain ⟨f, u, rfl, hu, hd, hF⟩ := h
  obtain ⟨g, w, rfl, hw, hd', hG⟩ := h'
  refine ⟨f, fun q => Fl.mul (g q) (.fin (w.scale / u.scale)), u, ?_, hu, hd, hF, fun q => ?_⟩
  · simp only [FVal.align, hd, hd', if_true]
  · rw [fl_mul_pos _ _ hu, div_mul_cancel₀ _ hu.ne', hG]

theorem fadd {v w : FVal ι} {d : Dim} {F G : ι → Fl} (h : FIsQ v d F) (h' : FIsQ w d G) :
    ∃ x, FVal.add v w = .ok x ∧ FIsQ x d fun q => Fl.add (F q) (G q) := by
  obtain ⟨f, g, u, e, hu, hd, hF, hG⟩ := falign h h'
  refine ⟨_, by simp only [FVal.add, e, bind, Except.bind]; rfl, ⟨_, u, rfl, hu, hd, fun q => ?_⟩⟩
  rw [fl_add_conv _ _ hu, hF, hG]

theorem fsub {v w : FVal ι} {d : Dim} {F G : ι → Fl} (h : FIsQ v d F) (h' : FIsQ w d G) :
    ∃ x, FVal.sub v w = .ok x ∧ FIsQ x d fun q => Fl.sub (F q) (G q) := by
  obtain ⟨f, g, u, e, hu, hd, hF, hG⟩ := falign h h'
  refine ⟨_, by simp only [FVal.sub, e, bind, Except.bind]; rfl, ⟨_, u, rfl, hu, hd, fun q => ?_⟩⟩
  rw [fl_sub_conv _ _ hu, hF, hG]

theorem flt {v w : FVal ι} {d : Dim} {F G : ι → Fl} (h : FIsQ v d F) (h' : FIsQ w d G) :
    FVal.lt v w = .ok fun q => Fl.lt (F q) (G q) := by
  obtain ⟨f, g, u, e, hu, hd, hF, hG⟩ := falign h h'
  simp only [FVal.lt, e, bind, Except.bind, pure, Except.pure]
  congr 1
  funext q
  rw [← hF, ← hG, fl_lt_conv _ _ hu]

theorem line_is {x1 y1 x2 y2 x : FVal ι} {d : Dim} {X1 Y1 X2 Y2 X : ι → Fl} (h1 : FIsQ x1 d X1)
    (h2 : FIsQ y1 d Y1) (h3 : FIsQ x2 d X2) (h4 : FIsQ y2 d Y2) (h5 : FIsQ x d X) :
    ∃ y, lineEquationU (x1, y1) (x2, y2) x = .ok y ∧
      FIsQ y d fun q => Telgeometry.lineEquation (X1 q, Y1 q) (X2 q, Y2 q) (X q) := by
  obtain ⟨a, e1, ha⟩ := fsub h4 h2
  obtain ⟨b, e2, hb⟩ := fsub h3 h1
  obtain ⟨c, e3, hc⟩ := fsub h5 h1
  obtain ⟨y, e4, hy⟩ := fadd (((ha.div (Or.inl hb)).mul (Or.inl hc)).congr (e := d) (by simp)
    fun _ => rfl) h2
  exact ⟨y, by simp only [lineEquationU, e1, e2, e3, e4, bind, Except.bind], hy⟩

theorem circ_is {pr : Sc} {x : Val ι} {r : ℝ} {f : ι → ℝ} (hp : IsQ pr AUnit.m.dim fun _ => r)
    (hx : IsQ x AUnit.m.dim f) :
    ∃ y, circU pr x = .ok y ∧ IsQ y AUnit.m.dim fun q => Real.sqrt |r ^ 2 - f q ^ 2| := by
  obtain ⟨w, e, hw⟩ := sub_isQ (IsQ.bc (hp.zpow 2)) (hx.zpow 2)
  obtain ⟨g, u, rfl, hu, hd, hg⟩ := hw
  refine ⟨.qty (fun q => Real.sqrt |g q|) u.sqrt,
    by simp only [circU, e, bind, Except.bind, pure, Except.pure], _, u.sqrt, rfl,
    Real.sqrt_pos.2 hu, by funext b; simp [AUnit.sqrt, hd], fun q => ?_⟩
  have := hg q
  have e2 : (r ^ 2 - f q ^ 2) = g q * u.scale := by rw [this]; norm_cast
  show Real.sqrt |g q| * Real.sqrt u.scale = Real.sqrt |r ^ 2 - f q ^ 2|
  rw [e2, abs_mul, abs_of_pos hu, Real.sqrt_mul (abs_nonneg _)]

theorem trig_angle {s : Sc} {r : ℝ} (fn : ℝ → ℝ)
    (h : Spec.Radians s (fun _ => r) ∨ s = .num fun _ => r) :
    ∃ v, trig fn s = .ok v ∧ (v = .num (fun _ => fn r) ∨ v = .qty (fun _ => fn r) .one) := by
  rcases h with h | rfl
  · exact ⟨_, trig_is fn (radians_iff.1 h), Or.inr rfl⟩
  · exact ⟨_, rfl, Or.inl rfl⟩

theorem invSq_is {v : Sc} {r : ℝ} (h : v = .num (fun _ => r) ∨ v = .qty (fun _ => r) .one) :
    FIs (FVal.ofVal (bc v : Val ι)).invSq 0 fun _ => Fl.pow (.fin r) (-2) := by
  rcases h with rfl | rfl
  · exact Or.inr ⟨rfl, rfl⟩
  · refine Or.inl ⟨_, _, rfl, by simp [AUnit.zpow, AUnit.one], ?_, fun q => ?_⟩
    · funext b; simp [AUnit.zpow, AUnit.one]
    · simp only [AUnit.zpow, AUnit.one, one_zpow, mul_one_fl]

theorem ofSc_is {v : Sc} {r : ℝ} (h : v = .num (fun _ => r) ∨ v = .qty (fun _ => r) .one) :
    FIs (FVal.ofVal (bc v : Val ι)) 0 fun _ => .fin r := by
  rcases h with rfl | rfl
  · exact Or.inr ⟨rfl, rfl⟩
  · refine Or.inl ⟨_, _, rfl, by simp [AUnit.one], rfl, fun q => ?_⟩
    simp only [AUnit.one, mul_one_fl]

/-- **C110.**  `block_effelsberg` blocks the same points for lengths in any unit and an inclination of
the shade in any unit of angle, or a plain number of radians. -/
theorem C110_block (alpha : Sc) (r : ℝ) (ha : Spec.Radians alpha (fun _ => r) ∨ alpha = .num fun _ => r)
    (x y : Val ι) (f g : ι → ℝ) (hx : Spec.Metres x f) (hy : Spec.Metres y g) :
    blockEffelsbergU alpha x y = Telgeometry.blockEffelsberg r f g := by
  have hX := FIsQ.of (metres_iff.1 hx)
  have hY := FIsQ.of (metres_iff.1 hy)
  have hpr : IsQ (.qty (fun _ => 50) .m : Sc) AUnit.m.dim fun _ => (50 : ℝ) := isQ_m _
  have hsr : IsQ (.qty (fun _ => 3.25) .m : Sc) AUnit.m.dim fun _ => (3.25 : ℝ) := isQ_m _
  have hL : IsQ (.qty (fun _ => 20) .m : Sc) AUnit.m.dim fun _ => (20 : ℝ) := isQ_m _
  have h1 : IsQ (.qty (fun _ => 1) .m : Sc) AUnit.m.dim fun _ => (1 : ℝ) := isQ_m _
  have hb3 := blockManual_eq (metres_iff.2 hpr) (Or.inl (metres_iff.2 hsr)) (Or.inl (metres_iff.2 h1))
    (Or.inl (metres_iff.2 hL)) hx hy
  obtain ⟨sv, es, hs⟩ := trig_angle Real.sin ha
  obtain ⟨tv, et, ht⟩ := trig_angle Real.tan ha
  have hcsc := invSq_is (ι := ι) hs
  have htan := ofSc_is (ι := ι) ht
  have haF : FIsQ (FVal.ofVal (bc (.qty (fun _ => 1) .m : Sc) : Val ι)) AUnit.m.dim fun _ => .fin 1 :=
    FIsQ.of (IsQ.bc h1)
  have ha2 : FIsQ (FVal.ofVal (bc ((.qty (fun _ => 1) .m : Sc).zpow 2) : Val ι))
      (fun b => 2 * AUnit.m.dim b) fun _ => .fin (1 ^ 2) :=
    (FIsQ.of (IsQ.bc (h1.zpow 2))).congr (by funext b; simp) fun _ => by norm_cast
  obtain ⟨k, ek, hk⟩ := sub_isQ (h1.zpow 2) (hpr.zpow 2)
  have hkF : FIsQ (FVal.ofVal (bc k : Val ι)) (fun b => 2 * AUnit.m.dim b) fun _ => .fin (1 ^ 2 - 50 ^ 2) :=
    (FIsQ.of (IsQ.bc hk)).congr (by funext b; simp) fun _ => by norm_cast
  obtain ⟨w, ew, hw⟩ := fsub ha2 ((hkF.mul hcsc).congr (add_zero _) fun _ => rfl)
  obtain ⟨d0, ed0, hd0⟩ := fadd haF.neg (hw.sqrt.congr (e := AUnit.m.dim) (by funext b; simp) fun _ => rfl)
  have hd := (hd0.div hcsc).congr (sub_zero _) fun _ => rfl
  obtain ⟨sA, eA, hA⟩ := add_isQ hsr hL
  have hAF : FIsQ (FVal.ofVal (bc sA : Val ι)) AUnit.m.dim fun _ => .fin (3.25 + 20) := FIsQ.of (IsQ.bc hA)
  have hC := (hd.div htan).congr (sub_zero _) fun _ => rfl
  obtain ⟨D, eD, hD⟩ := fadd haF hd
  obtain ⟨y1, ey1, hy1⟩ := line_is hAF haF hC hD hX
  obtain ⟨y2, ey2, hy2⟩ := line_is hAF haF.neg hC hD.neg hX
  obtain ⟨x3, ex3, hx3⟩ := line_is hAF.neg haF hC.neg hD hY
  obtain ⟨x4, ex4, hx4⟩ := line_is hAF.neg haF.neg hC.neg hD.neg hY
  obtain ⟨y5, ey5, hy5⟩ := line_is hAF.neg haF.neg hC.neg hD.neg hX
  obtain ⟨y6, ey6, hy6⟩ := line_is hAF.neg haF hC.neg hD hX
  obtain ⟨x7, ex7, hx7⟩ := line_is hAF haF.neg hC hD.neg hY
  obtain ⟨x8, ex8, hx8⟩ := line_is hAF haF hC hD hY
  obtain ⟨cx, ecx, hcx⟩ := circ_is hpr (metres_iff.1 hx)
  obtain ⟨cy, ecy, hcy⟩ := circ_is hpr (metres_iff.1 hy)
  have hxq := metres_iff.1 hx
  have hyq := metres_iff.1 hy
  simp only [blockEffelsbergU, hb3, Telgeometry.blockManual, bind, Except.bind]
  simp only [es, et, ek, ew, ed0, eA, eD, ey1, ey2, ex3, ex4, ey5, ey6, ex7, ex8, ecx, ecy]
  simp only [flt hAF hX, flt hX hC, flt hY hy1, flt hy2 hY, lt_is hxq.is (IsQ.bc hpr).is, flt hC hX,
    lt_is hyq.is hcx.is, lt_is hcx.neg.is hyq.is, flt hY hAF.neg, flt hC.neg hY, flt hx4 hX, flt hX hx3,
    lt_is (IsQ.bc hpr.neg).is hyq.is, flt hY hC.neg, lt_is hxq.is hcy.is, lt_is hcy.neg.is hxq.is,
    flt hX hAF.neg, flt hC.neg hX, flt hy5 hY, flt hY hy6, lt_is (IsQ.bc hpr.neg).is hxq.is,
    flt hX hC.neg, flt hAF hY, flt hY hC, flt hx7 hX, flt hX hx8, lt_is hyq.is (IsQ.bc hpr).is,
    flt hC hY, pure, Except.pure]
  rfl

/-- **C110.**  So the telescope geometry of Effelsberg gives the same field for lengths in any unit
(C87). -/
theorem C110_effelsberg (alpha : Sc) (r : ℝ)
    (ha : Spec.Radians alpha (fun _ => r) ∨ alpha = .num fun _ => r) :
    Spec.SameTel (effelsbergTelU alpha : TelGeoU ι)
      ⟨Telgeometry.blockEffelsberg r, Telgeometry.opdEffelsberg, 50⟩ :=
  ⟨metres_iff.2 (isQ_m _), fun _ _ _ _ hx hy => C110_block alpha r ha _ _ _ _ hx hy,
    fun _ _ _ _ _ _ hx hy hdz => C87_effelsberg _ _ _ _ _ _ hx hy hdz⟩

end

/-! ### the simulation -/

namespace Spec

/-- The arguments with units and the numbers in metres say the same. -/
structure SameInput {N : ℕ} (a : InputU N) (b : Sim.Input N) : Prop where
  K : a.K = b.K
  wavel : Metres a.wavel fun _ => b.wavel
  dz : Metres a.dz b.dz
  tel : SameTel a.tel b.tel
  illum : SameIllum a.illum a.I b.illum b.I b.tel.pr
  noise : a.noise = b.noise
  boxFactor : a.boxFactor = b.boxFactor
  workDir : a.workDir = b.workDir
  draws : a.draws = b.draws
  now : a.now = b.now
  f32 : a.f32 = b.f32

end Spec

theorem chunks_map (f : ℝ → ℝ) (m n : ℕ) (l : List ℝ) :
    chunks m n (l.map f) = (chunks m n l).map (List.map f) := by
  induction n generalizing l with
  | zero => rfl
  | succ n ih => simp only [chunks, List.map_cons, ← List.map_take, ← List.map_drop, ih]

theorem reshape_map (f : ℝ → ℝ) (l : List ℝ) (n m : ℕ) :
    reshape (l.map f) n m = (reshape l n m).map (List.map (List.map f)) := by
  unfold reshape
  rw [List.length_map]
  by_cases h : l.length = n * m
  · rw [if_pos h, if_pos h, chunks_map]; rfl
  · rw [if_neg h, if_neg h]; rfl

theorem select_map {N : ℕ} (f : ℝ → ℝ) (g : Fin N × Fin N → ℝ) (box : Fin N × Fin N → Prop) :
    select (fun q => f (g q)) box = (select g box).map f := by
  simp [select, List.map_map, Function.comp_def]

/-- The trimmed maps are the same, apart from the unit of the axes, which is undone for the file. -/
theorem trimU_rel {N : ℕ} {P : PatternU N} {Q : Pattern N} (hu : IsQ P.u AUnit.rad.dim Q.u)
    (hv : IsQ P.v AUnit.rad.dim Q.v) (hF : P.F = Q.F) (lim : ℝ) :
    PyRel (fun s t => s.p = t.p ∧ toSave s.u s.uu = .ok t.u.flatten ∧
      toSave s.v s.vu = .ok t.v.flatten) (trimU P lim) (trim Q lim) := by
  have hU := hu.comap fun q : Fin N × Fin N => q.2
  have hV := hv.comap fun q : Fin N × Fin N => q.1
  have hhi : IsQ (.qty (fun _ => lim) .rad : Val (Fin N × Fin N)) AUnit.rad.dim fun _ => lim := isQ_rad _
  have hlo : IsQ (.qty (fun _ => -lim) .rad : Val (Fin N × Fin N)) AUnit.rad.dim fun _ => -lim :=
    isQ_rad _
  have mx : meshX Q.u Q.v = fun q => Q.u q.2 := rfl
  have my : meshY Q.u Q.v = fun q => Q.v q.1 := rfl
  simp only [trimU, lt_is hU.is hhi.is, lt_is hhi.is hU.is, lt_is hU.is hlo.is, lt_is hlo.is hU.is,
    lt_is hV.is hhi.is, lt_is hhi.is hV.is, lt_is hV.is hlo.is, lt_is hlo.is hV.is, hF, bind, Except.bind,
    trim, gt_iff_lt, mx, my]
  obtain ⟨g, w, e, hw, hwd, hg⟩ := hU
  obtain ⟨g', w', e', hw', hwd', hg'⟩ := hV
  rw [e, e']
  simp only [parts]
  generalize hbox : (fun q : Fin N × Fin N => -lim < Q.u q.2 ∧ Q.u q.2 < lim ∧ -lim < Q.v q.1 ∧
    Q.v q.1 < lim) = box
  have eu : select (fun q => Q.u q.2) box = (select g box).map (· * w.scale) := by
    rw [← select_map]; simp only [hg]
  have ev : select (fun q => Q.v q.1) box = (select g' box).map (· * w'.scale) := by
    rw [← select_map]; simp only [hg']
  rw [eu, ev]
  simp only [reshape_map]
  generalize (pyInt _).toNat = n
  generalize (List.filterMap _ (cOrder N)) = l
  cases reshape l n n with
  | error e => rfl
  | ok p =>
    dsimp only
    cases reshape (select g box) n n with
    | error e => rfl
    | ok x =>
      dsimp only [Except.map]
      cases reshape (select g' box) n n with
      | error e => rfl
      | ok y =>
        refine ⟨rfl, ?_, ?_⟩
        · simp only [toSave, hwd, if_true, List.map_flatten, AUnit.rad, div_one]
        · simp only [toSave, hwd', if_true, List.map_flatten, AUnit.rad, div_one]

theorem limit_eq {N : ℕ} {a : InputU N} {b : Sim.Input N} (h : Spec.SameInput a b) :
    limit a = .ok (sizeInBw b) := by
  have h1 : IsQ ((nm 1.22 : Sc).mul (.qty (fun _ => 1) .rad)) AUnit.rad.dim fun _ => (1.22 : ℝ) :=
    ((is_nm 1.22).mulQ (isQ_rad fun _ : Unit => (1 : ℝ))).congr (by simp) fun _ => by simp
  have h2 : IsQ ((nm 2 : Sc).mul a.tel.pr) AUnit.m.dim fun _ => 2 * b.tel.pr :=
    ((is_nm 2).mulQ (metres_iff.1 h.tel.pr)).congr (by simp) fun _ => rfl
  have h3 := (h1.mulQ (metres_iff.1 h.wavel).is).divQ h2.is
  have h4 := ((is_nm 8).mulQ h3).congr (e := AUnit.rad.dim) (by simp) fun _ => rfl
  simp only [limit, toValue_rad h4, bind, Except.bind, pure, Except.pure]
  rfl

theorem simMapU_rel {N : ℕ} {a : InputU N} {b : Sim.Input N} (h : Spec.SameInput a b) (i : Fin 3) :
    PyRel (fun s t => s.p = t.p ∧ toSave s.u s.uu = .ok t.u.flatten ∧
      toSave s.v s.vu = .ok t.v.flatten) (simMapU a (sizeInBw b) i) (simMap b i) := by
  have hP := radiationPatternU_rel b.K (metres_iff.2 ((metres_iff.1 h.dz).comap fun _ => i)) h.wavel
    h.tel h.illum b.boxFactor
  simp only [simMapU, simMap, h.K, h.boxFactor]
  exact PyRel.bind hP fun P Q hPQ => trimU_rel hPQ.1 hPQ.2.1 hPQ.2.2 _

theorem addNoiseU_eq {N : ℕ} {a : InputU N} {b : Sim.Input N} (h : Spec.SameInput a b) (i : ℕ)
    (p : List (List ℝ)) : addNoiseU a i p = addNoise b i p := by
  simp only [addNoiseU, addNoise, h.noise, h.draws]

theorem tablesU_eq {N : ℕ} {a : InputU N} {b : Sim.Input N} (h : Spec.SameInput a b) :
    tablesU a = tables b := by
  simp only [tablesU, limit_eq h, tables, addNoiseU_eq h]
  rw [show ∀ {α β : Type} (x : α) (f : α → Py β), ((Except.ok x : Py α) >>= f) = f x from
    fun _ _ => rfl]
  refine PyRel.eq ?_
  refine PyRel.bind (simMapU_rel h 0) fun s0 t0 h0 => ?_
  refine PyRel.bind (simMapU_rel h 1) fun s1 t1 h1 => ?_
  refine PyRel.bind (simMapU_rel h 2) fun s2 t2 h2 => ?_
  rw [h0.1, h1.1, h2.1]
  refine PyRel.bind (PyRel.refl _) fun p0 _ e0 => ?_
  refine PyRel.bind (PyRel.refl _) fun p1 _ e1 => ?_
  refine PyRel.bind (PyRel.refl _) fun p2 _ e2 => ?_
  subst e0 e1 e2
  simp only [tableHduU, h0.2.1, h0.2.2, h1.2.1, h1.2.2, h2.2.1, h2.2.2, tableHdu, h.f32]
  exact PyRel.refl _

theorem hduListU_eq {N : ℕ} {a : InputU N} {b : Sim.Input N} (h : Spec.SameInput a b)
    (tabs : List (List (Str × List ℝ))) (i : ℕ) : hduListU a tabs i = .ok (hduList b tabs i) := by
  have hl : IsQ light (Pi.single .length 1 + Pi.single .time (-1)) fun _ => AuxFn.lightSpeed :=
    ⟨_, _, rfl, one_pos, rfl, fun _ => mul_one _⟩
  have hf := (hl.divQ (metres_iff.1 h.wavel).is).congr (e := AUnit.Hz.dim)
    (by simp [AUnit.m, AUnit.Hz]) fun _ => rfl
  have e1 : (light.div a.wavel).toValue .Hz = .ok fun _ => AuxFn.lightSpeed / b.wavel := by
    rw [toValue_is _ hf]; simp [AUnit.Hz]
  have e2 : a.wavel.toValue .m = .ok fun _ => b.wavel := by
    rw [toValue_is _ (metres_iff.1 h.wavel)]; simp [AUnit.m]
  have e3 : a.dz.toValue .m = .ok b.dz := by
    rw [toValue_is _ (metres_iff.1 h.dz)]; simp [AUnit.m]
  simp only [hduListU, e1, e2, e3, bind, Except.bind, pure, Except.pure, hduList, h.now]

theorem saveLoopU_eq {N : ℕ} {a : InputU N} {b : Sim.Input N} (h : Spec.SameInput a b)
    (tabs : List (List (Str × List ℝ))) (dir : Path) (l : List ℕ) :
    saveLoopU a tabs dir l = saveLoop b tabs dir l := by
  induction l with
  | nil => rfl
  | cons i l ih =>
    simp only [saveLoopU, saveLoop, ih, hduListU_eq h]
    rfl

theorem badOffsets_eq {v : Val (Fin 3)} {d : Fin 3 → ℝ} (h : Spec.Metres v d) :
    badOffsets v = .ok (d 0 > 0 ∨ d 1 ≠ 0 ∨ d 2 < 0) := by
  obtain ⟨x, c, hc, rfl, hx⟩ := h
  have e0 : x 0 > 0 ↔ d 0 > 0 := by rw [← hx]; exact (mul_pos_iff_of_pos_right hc).symm
  have e1 : x 1 ≠ 0 ↔ d 1 ≠ 0 := by rw [← hx]; simp [hc.ne']
  have e2 : x 2 < 0 ↔ d 2 < 0 := by
    rw [← hx]
    constructor
    · exact fun h => mul_neg_of_neg_of_pos h hc
    · exact fun h => by_contra fun h' => absurd (mul_nonneg (not_lt.1 h') hc.le) (not_le.2 h)
  have hne : (Pi.single Base.length 1 : Dim) ≠ 0 := fun h => by
    have := congrFun h Base.length
    simp at this
  rw [← e0, ← e1, ← e2]
  simp [badOffsets, offsetAt, Val.comap, Val.lt, Val.align, nm, hne, bind, Except.bind, pure,
    Except.pure]

theorem lift_ok_bind {C α β : Type} (x : α) (f : α → Prog C β) :
    ((Prog.lift (.ok x) : Prog C α) >>= f) = f x := rfl

/-- **C110.**  `simulate_data_pyoof` with wavelength, offsets, primary radius and telescope in any length
unit is, as a program on the file system, the one for the same lengths in metres: it makes the same
calls, writes the same file and raises the same exceptions. -/
theorem C110_simulate {N : ℕ} (a : InputU N) (b : Sim.Input N) (h : Spec.SameInput a b) :
    simulateU a = simulate b := by
  simp only [simulateU, simulate, badOffsets_eq h.dz, tablesU_eq h, saveLoopU_eq h, h.workDir]
  rw [lift_ok_bind]
  by_cases hb : b.dz 0 > 0 ∨ b.dz 1 ≠ 0 ∨ b.dz 2 < 0
  · rw [if_pos hb, if_pos hb]
  · rw [if_neg hb, if_neg hb]

/-- **C110.**  A wavelength that is a plain number, or a Quantity that is not a length (a frequency), is
refused before anything is written. -/
theorem C110_wavelength_refused {N : ℕ} (a : InputU N) (d : Fin 3 → ℝ) (r : ℝ)
    (hd : Spec.Metres a.dz d) (h0 : d 0 ≤ 0) (h1 : d 1 = 0) (h2 : 0 ≤ d 2)
    (hpr : Spec.Metres a.tel.pr fun _ => r)
    (hw : ∀ x c, a.wavel ≠ .qty x ⟨c, Pi.single .length 1⟩) :
    simulateU a = .raise .typeError := by
  have hb : ¬ (d 0 > 0 ∨ d 1 ≠ 0 ∨ d 2 < 0) := by
    rintro (h | h | h)
    · exact absurd h (not_lt.2 h0)
    · exact h h1
    · exact absurd h (not_lt.2 h2)
  have hl : limit a = .error .typeError := by
    obtain ⟨p, c, hc, hp, -⟩ := hpr
    cases ew : a.wavel with
    | num w =>
      simp only [limit, ew, hp, nm, Val.mul, Val.div, Val.toValue, bind, Except.bind]
      rw [if_neg]
      intro h
      have := congrFun h Base.length
      simp [AUnit.mul, AUnit.inv, AUnit.rad] at this
    | qty w u =>
      simp only [limit, ew, hp, nm, Val.mul, Val.div, Val.toValue, bind, Except.bind]
      rw [if_neg]
      intro h
      refine hw w u.scale ?_
      rw [ew]
      congr 1
      cases u with
      | mk s D =>
        congr 1
        funext b
        have := congrFun h b
        simp [AUnit.mul, AUnit.inv, AUnit.rad] at this
        linarith
  simp only [simulateU, badOffsets_eq hd, tablesU, hl]
  rw [lift_ok_bind, if_neg hb]
  rfl

/-! ### instances -/

/-- Effelsberg at 9 mm with the shade at 10 degrees: the wavelength in millimetres, the offsets in
centimetres. -/
noncomputable def sampleSimU (N : ℕ) : InputU N where
  I := [1, -14, 0, 0, 0].map fun r => .num fun _ => r
  K := [0, 1 / 10, -1 / 10]
  wavel := .qty (fun _ => 9) .mm
  dz := .qty ![-2, 0, 2] .cm
  illum := illumParabolicU
  tel := effelsbergTelU (.qty (fun _ => 10) .deg)
  noise := 1
  boxFactor := 5
  workDir := ["home".toList]
  draws := fun i j k => i + j - k
  now := "2020-01-01".toList
  f32 := fun x => x

/-- The same in metres and radians. -/
noncomputable def sampleSimM (N : ℕ) : Sim.Input N where
  I := [1, -14, 0, 0, 0]
  K := [0, 1 / 10, -1 / 10]
  wavel := 9 / 1000
  dz := ![-2 / 100, 0, 2 / 100]
  illum := illumParabolic
  tel := ⟨Telgeometry.blockEffelsberg (10 * (Real.pi / 180)), Telgeometry.opdEffelsberg, 50⟩
  noise := 1
  boxFactor := 5
  workDir := ["home".toList]
  draws := fun i j k => i + j - k
  now := "2020-01-01".toList
  f32 := fun x => x

theorem sampleSim_same (N : ℕ) : Spec.SameInput (sampleSimU N) (sampleSimM N) where
  K := rfl
  wavel := ⟨_, 1 / 1000, by norm_num, rfl, fun _ => by norm_num [sampleSimM]⟩
  dz := ⟨_, 1 / 100, by norm_num, rfl, fun i => by fin_cases i <;> norm_num [sampleSimM]⟩
  tel := C110_effelsberg _ _ (Or.inl ⟨_, Real.pi / 180, by positivity, rfl, fun _ => rfl⟩)
  illum := (C87_illum _ _ (show (50 : ℝ) ≠ 0 by norm_num)).1
  noise := rfl
  boxFactor := rfl
  workDir := rfl
  draws := rfl
  now := rfl
  f32 := rfl

example (N : ℕ) : simulateU (sampleSimU N) = simulate (sampleSimM N) :=
  C110_simulate _ _ (sampleSim_same N)

/-- A frequency for the wavelength. -/
example (N : ℕ) : simulateU { sampleSimU N with wavel := .qty (fun _ => 32) .Hz } = .raise .typeError :=
  C110_wavelength_refused _ _ 50 (sampleSim_same N).dz (by norm_num [sampleSimM])
    (by norm_num [sampleSimM]) (show (0 : ℝ) ≤ 2 / 100 by norm_num) (metres_iff.2 (isQ_m _)) (by
      intro x c h
      simp only [AUnit.Hz, Val.qty.injEq, AUnit.mk.injEq] at h
      have := congrFun h.2.2 Base.length
      simp at this)

/-- The shade of Effelsberg in degrees. -/
example : blockEffelsbergU (.qty (fun _ => 10) .deg) (.qty (fun _ : Unit => 1000) .cm)
      (.qty (fun _ => 4000000) .mm) =
    Telgeometry.blockEffelsberg (10 * (Real.pi / 180)) (fun _ : Unit => 10) fun _ => 4000 :=
  C110_block _ _ (Or.inl ⟨_, Real.pi / 180, by positivity, rfl, fun _ => rfl⟩) _ _ _ _
    ⟨_, 1 / 100, by norm_num, rfl, by norm_num⟩ ⟨_, 1 / 1000, by norm_num, rfl, by norm_num⟩

end Verif.Props
