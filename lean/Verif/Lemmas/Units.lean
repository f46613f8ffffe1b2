import Verif.Model.Units
import Verif.Lemmas.Wavefront
import Verif.Lemmas.Radiation
import Mathlib.Tactic.FieldSimp
import Mathlib.Tactic.Ring

/-! # Helper lemmas for the units -/

namespace Verif.Units

open Verif Verif.Np Verif.Aperture Val

/-- Two computations agree: both raise the same exception or both give a result, with `R` between
them. -/
def PyRel {α β : Type} (R : α → β → Prop) : Py α → Py β → Prop
  | .ok a, .ok b => R a b
  | .error e, .error f => e = f
  | _, _ => False

theorem PyRel.bind {α β γ δ : Type} {R : α → β → Prop} {S : γ → δ → Prop} {x : Py α} {y : Py β}
    {f : α → Py γ} {g : β → Py δ} (h : PyRel R x y) (hf : ∀ a b, R a b → PyRel S (f a) (g b)) :
    PyRel S (x >>= f) (y >>= g) := by
  cases x <;> cases y <;> simp only [PyRel] at h
  · exact h
  · exact hf _ _ h

theorem PyRel.eq {α : Type} {x y : Py α} (h : PyRel (· = ·) x y) : x = y := by
  cases x <;> cases y <;> simp only [PyRel] at h <;> rw [h]

theorem PyRel.refl {α : Type} (x : Py α) : PyRel (· = ·) x x := by cases x <;> simp [PyRel]

theorem PyRel.mapM {α β γ : Type} {R : β → γ → Prop} {f : α → Py β} {g : α → Py γ} (l : List α)
    (h : ∀ a ∈ l, PyRel R (f a) (g a)) : PyRel (List.Forall₂ R) (l.mapM f) (l.mapM g) := by
  induction l with
  | nil => exact List.Forall₂.nil
  | cons a l ih =>
    rw [List.mapM_cons, List.mapM_cons]
    refine PyRel.bind (h a (by simp)) fun b c hb => ?_
    refine PyRel.bind (ih fun a ha => h a (by simp [ha])) fun bs cs hs => ?_
    exact List.Forall₂.cons hb hs

section
variable {ι κ : Type}

/-- `v` is a Quantity of dimension `d`, in reference units `f`. -/
def IsQ (v : Val ι) (d : Dim) (f : ι → ℝ) : Prop :=
  ∃ g u, v = .qty g u ∧ 0 < u.scale ∧ u.dim = d ∧ ∀ q, g q * u.scale = f q

/-- The same, or a plain array for the dimension 0. -/
def Is (v : Val ι) (d : Dim) (f : ι → ℝ) : Prop := IsQ v d f ∨ (d = 0 ∧ v = .num f)

theorem IsQ.is {v : Val ι} {d : Dim} {f : ι → ℝ} (h : IsQ v d f) : Is v d f := Or.inl h

theorem IsQ.congr {v : Val ι} {d e : Dim} {f g : ι → ℝ} (h : IsQ v d f) (hd : d = e)
    (hf : ∀ q, f q = g q) : IsQ v e g := by
  obtain rfl : f = g := funext hf
  exact hd ▸ h

theorem Is.congr {v : Val ι} {d e : Dim} {f g : ι → ℝ} (h : Is v d f) (hd : d = e)
    (hf : ∀ q, f q = g q) : Is v e g := by
  obtain rfl : f = g := funext hf
  exact hd ▸ h

theorem is_num (f : ι → ℝ) : Is (.num f) 0 f := Or.inr ⟨rfl, rfl⟩
theorem is_nm (r : ℝ) : Is (nm r : Val ι) 0 fun _ => r := Or.inr ⟨rfl, rfl⟩

theorem isQ_qty (f : ι → ℝ) {u : AUnit} (h : 0 < u.scale) :
    IsQ (.qty f u) u.dim fun q => f q * u.scale := ⟨f, u, rfl, h, rfl, fun _ => rfl⟩

theorem IsQ.comap {v : Val ι} {d : Dim} {f : ι → ℝ} (h : IsQ v d f) (e : κ → ι) :
    IsQ (v.comap e) d fun q => f (e q) := by
  obtain ⟨g, u, rfl, hu, hd, hf⟩ := h
  exact ⟨_, u, rfl, hu, hd, fun q => hf _⟩

theorem Is.comap {v : Val ι} {d : Dim} {f : ι → ℝ} (h : Is v d f) (e : κ → ι) :
    Is (v.comap e) d fun q => f (e q) := by
  rcases h with h | ⟨rfl, rfl⟩
  · exact (h.comap e).is
  · exact Or.inr ⟨rfl, rfl⟩

theorem IsQ.bc {s : Sc} {d : Dim} {f : Unit → ℝ} (h : IsQ s d f) :
    IsQ (Val.bc s : Val ι) d fun _ => f () := h.comap _

theorem Is.bc {s : Sc} {d : Dim} {f : Unit → ℝ} (h : Is s d f) :
    Is (Val.bc s : Val ι) d fun _ => f () := h.comap _

theorem IsQ.neg {v : Val ι} {d : Dim} {f : ι → ℝ} (h : IsQ v d f) :
    IsQ v.neg d fun q => -f q := by
  obtain ⟨g, u, rfl, hu, hd, hf⟩ := h
  exact ⟨_, u, rfl, hu, hd, fun q => by beta_reduce; rw [neg_mul, hf]⟩

theorem Is.neg {v : Val ι} {d : Dim} {f : ι → ℝ} (h : Is v d f) : Is v.neg d fun q => -f q := by
  rcases h with h | ⟨rfl, rfl⟩
  · exact h.neg.is
  · exact Or.inr ⟨rfl, rfl⟩

theorem IsQ.mulQ {v w : Val ι} {d e : Dim} {f g : ι → ℝ} (h : IsQ v d f) (h' : Is w e g) :
    IsQ (v.mul w) (d + e) fun q => f q * g q := by
  obtain ⟨f', u, rfl, hu, rfl, hf⟩ := h
  rcases h' with ⟨g', u', rfl, hu', rfl, hg⟩ | ⟨rfl, rfl⟩
  · exact ⟨_, _, rfl, mul_pos hu hu', rfl, fun q => by
      beta_reduce; rw [← hf, ← hg]; simp only [AUnit.mul]; ring⟩
  · exact ⟨_, _, rfl, hu, by simp, fun q => by beta_reduce; rw [← hf]; ring⟩

theorem Is.mulQ {v w : Val ι} {d e : Dim} {f g : ι → ℝ} (h : Is v d f) (h' : IsQ w e g) :
    IsQ (v.mul w) (d + e) fun q => f q * g q := by
  rcases h with h | ⟨rfl, rfl⟩
  · exact h.mulQ h'.is
  · obtain ⟨g', u', rfl, hu', rfl, hg⟩ := h'
    exact ⟨_, _, rfl, hu', by simp, fun q => by beta_reduce; rw [← hg]; ring⟩

theorem Is.mul {v w : Val ι} {d e : Dim} {f g : ι → ℝ} (h : Is v d f) (h' : Is w e g) :
    Is (v.mul w) (d + e) fun q => f q * g q := by
  rcases h with h | ⟨rfl, rfl⟩
  · exact (h.mulQ h').is
  · rcases h' with h' | ⟨rfl, rfl⟩
    · exact (Is.mulQ (is_num _) h').is
    · exact Or.inr ⟨by simp, rfl⟩

theorem IsQ.divQ {v w : Val ι} {d e : Dim} {f g : ι → ℝ} (h : IsQ v d f) (h' : Is w e g) :
    IsQ (v.div w) (d - e) fun q => f q / g q := by
  obtain ⟨f', u, rfl, hu, rfl, hf⟩ := h
  rcases h' with ⟨g', u', rfl, hu', rfl, hg⟩ | ⟨rfl, rfl⟩
  · exact ⟨_, _, rfl, mul_pos hu (inv_pos.2 hu'), by simp [AUnit.mul, AUnit.inv, sub_eq_add_neg],
      fun q => by
        beta_reduce; rw [← hf, ← hg]; simp only [AUnit.mul, AUnit.inv, div_eq_mul_inv, mul_inv]; ring⟩
  · exact ⟨_, _, rfl, hu, by simp, fun q => by beta_reduce; rw [← hf]; ring⟩

theorem Is.divQ {v w : Val ι} {d e : Dim} {f g : ι → ℝ} (h : Is v d f) (h' : IsQ w e g) :
    IsQ (v.div w) (d - e) fun q => f q / g q := by
  rcases h with h | ⟨rfl, rfl⟩
  · exact h.divQ h'.is
  · obtain ⟨g', u', rfl, hu', rfl, hg⟩ := h'
    exact ⟨_, _, rfl, inv_pos.2 hu', by simp [AUnit.inv], fun q => by
      beta_reduce; rw [← hg]; simp only [AUnit.inv, div_eq_mul_inv, mul_inv]; ring⟩

theorem Is.div {v w : Val ι} {d e : Dim} {f g : ι → ℝ} (h : Is v d f) (h' : Is w e g) :
    Is (v.div w) (d - e) fun q => f q / g q := by
  rcases h with h | ⟨rfl, rfl⟩
  · exact (h.divQ h').is
  · rcases h' with h' | ⟨rfl, rfl⟩
    · exact (Is.divQ (is_num _) h').is
    · exact Or.inr ⟨by simp, rfl⟩

theorem IsQ.zpow {v : Val ι} {d : Dim} {f : ι → ℝ} (h : IsQ v d f) (k : ℤ) :
    IsQ (v.zpow k) (fun b => k * d b) fun q => f q ^ k := by
  obtain ⟨g, u, rfl, hu, rfl, hf⟩ := h
  exact ⟨_, _, rfl, zpow_pos hu k, rfl, fun q => by beta_reduce; rw [← hf, mul_zpow]; rfl⟩

theorem Is.zpow {v : Val ι} {d : Dim} {f : ι → ℝ} (h : Is v d f) (k : ℤ) :
    Is (v.zpow k) (fun b => k * d b) fun q => f q ^ k := by
  rcases h with h | ⟨rfl, rfl⟩
  · exact (h.zpow k).is
  · exact Or.inr ⟨by ext; simp, rfl⟩

theorem IsQ.sqrt {v : Val ι} {d : Dim} {f : ι → ℝ} (h : IsQ v d f) :
    IsQ v.sqrt (fun b => d b / 2) fun q => Real.sqrt (f q) := by
  obtain ⟨g, u, rfl, hu, rfl, hf⟩ := h
  exact ⟨_, _, rfl, Real.sqrt_pos.2 hu, rfl, fun q => by
    beta_reduce; rw [← hf, Real.sqrt_mul' _ hu.le]; rfl⟩

theorem Is.sqrt {v : Val ι} {d : Dim} {f : ι → ℝ} (h : Is v d f) :
    Is v.sqrt (fun b => d b / 2) fun q => Real.sqrt (f q) := by
  rcases h with h | ⟨rfl, rfl⟩
  · exact h.sqrt.is
  · exact Or.inr ⟨by ext; simp, rfl⟩

/-- Operands of one dimension in a common unit: the values times one positive scale. -/
theorem align_is {v w : Val ι} {d : Dim} {f g : ι → ℝ} (h : Is v d f) (h' : Is w d g) :
    ∃ a b o, align v w = .ok (a, b, o) ∧
      ((∃ u, o = some u ∧ 0 < u.scale ∧ u.dim = d ∧ (∀ q, a q * u.scale = f q) ∧
          ∀ q, b q * u.scale = g q) ∨
        (o = none ∧ d = 0 ∧ a = f ∧ b = g)) := by
  rcases h with ⟨f', u, rfl, hu, rfl, hf⟩ | ⟨rfl, rfl⟩
  · rcases h' with ⟨g', u', rfl, hu', hd, hg⟩ | ⟨hd, rfl⟩
    · refine ⟨f', fun q => g' q * (u'.scale / u.scale), some u, ?_, Or.inl ⟨u, rfl, hu, rfl, hf, ?_⟩⟩
      · simp only [align]; rw [if_pos hd]
      · intro q; beta_reduce; rw [← hg]; field_simp
    · refine ⟨fun q => f' q * u.scale, g, some .one, ?_, Or.inl ⟨.one, rfl, ?_, ?_, ?_, ?_⟩⟩
      · simp only [align]; rw [if_pos hd]
      · exact one_pos
      · exact hd.symm
      · intro q; beta_reduce; rw [← hf]; simp [AUnit.one]
      · intro q; simp [AUnit.one]
  · rcases h' with ⟨g', u', rfl, hu', hd, hg⟩ | ⟨-, rfl⟩
    · refine ⟨f, fun q => g' q * u'.scale, some .one, ?_, Or.inl ⟨.one, rfl, ?_, ?_, ?_, ?_⟩⟩
      · simp only [align]; rw [if_pos hd]
      · exact one_pos
      · rfl
      · intro q; simp [AUnit.one]
      · intro q; beta_reduce; rw [← hg]; simp [AUnit.one]
    · exact ⟨f, g, none, rfl, Or.inr ⟨rfl, rfl, rfl, rfl⟩⟩

theorem alignQ {v w : Val ι} {d : Dim} {f g : ι → ℝ} (h : IsQ v d f) (h' : IsQ w d g) :
    ∃ a b u, align v w = .ok (a, b, some u) ∧ 0 < u.scale ∧ u.dim = d ∧
      (∀ q, a q * u.scale = f q) ∧ ∀ q, b q * u.scale = g q := by
  obtain ⟨f', u, rfl, hu, rfl, hf⟩ := h
  obtain ⟨g', u', rfl, hu', hd, hg⟩ := h'
  refine ⟨f', fun q => g' q * (u'.scale / u.scale), u, ?_, hu, rfl, hf, ?_⟩
  · simp only [align]; rw [if_pos hd]
  · intro q; beta_reduce; rw [← hg]; field_simp

theorem add_is {v w : Val ι} {d : Dim} {f g : ι → ℝ} (h : Is v d f) (h' : Is w d g) :
    ∃ r, add v w = .ok r ∧ Is r d fun q => f q + g q := by
  obtain ⟨a, b, o, hal, ⟨u, rfl, hu, hd, hf, hg⟩ | ⟨rfl, rfl, rfl, rfl⟩⟩ := align_is h h'
  · refine ⟨_, by simp only [add, hal, bind, Except.bind, pure, Except.pure]; rfl,
      Or.inl ⟨_, u, rfl, hu, hd, fun q => ?_⟩⟩
    beta_reduce; rw [add_mul, hf, hg]
  · exact ⟨_, by simp only [add, hal, bind, Except.bind, pure, Except.pure]; rfl, Or.inr ⟨rfl, rfl⟩⟩

theorem sub_is {v w : Val ι} {d : Dim} {f g : ι → ℝ} (h : Is v d f) (h' : Is w d g) :
    ∃ r, sub v w = .ok r ∧ Is r d fun q => f q - g q := by
  obtain ⟨a, b, o, hal, ⟨u, rfl, hu, hd, hf, hg⟩ | ⟨rfl, rfl, rfl, rfl⟩⟩ := align_is h h'
  · refine ⟨_, by simp only [sub, hal, bind, Except.bind, pure, Except.pure]; rfl,
      Or.inl ⟨_, u, rfl, hu, hd, fun q => ?_⟩⟩
    beta_reduce; rw [sub_mul, hf, hg]
  · exact ⟨_, by simp only [sub, hal, bind, Except.bind, pure, Except.pure]; rfl, Or.inr ⟨rfl, rfl⟩⟩

theorem add_isQ {v w : Val ι} {d : Dim} {f g : ι → ℝ} (h : IsQ v d f) (h' : IsQ w d g) :
    ∃ r, add v w = .ok r ∧ IsQ r d fun q => f q + g q := by
  obtain ⟨a, b, u, hal, hu, hd, hf, hg⟩ := alignQ h h'
  refine ⟨_, by simp only [add, hal, bind, Except.bind, pure, Except.pure]; rfl,
    ⟨_, u, rfl, hu, hd, fun q => ?_⟩⟩
  beta_reduce; rw [add_mul, hf, hg]

theorem sub_isQ {v w : Val ι} {d : Dim} {f g : ι → ℝ} (h : IsQ v d f) (h' : IsQ w d g) :
    ∃ r, sub v w = .ok r ∧ IsQ r d fun q => f q - g q := by
  obtain ⟨a, b, u, hal, hu, hd, hf, hg⟩ := alignQ h h'
  refine ⟨_, by simp only [sub, hal, bind, Except.bind, pure, Except.pure]; rfl,
    ⟨_, u, rfl, hu, hd, fun q => ?_⟩⟩
  beta_reduce; rw [sub_mul, hf, hg]

/-- A number plus (minus) a Quantity without dimension is in the unit 1. -/
theorem num_add {w : Val ι} {f g : ι → ℝ} (h' : IsQ w 0 g) :
    add (.num f) w = .ok (.qty (fun q => f q + g q) .one) := by
  obtain ⟨g', u', rfl, hu', hd, hg⟩ := h'
  simp only [add, align, hd, if_true, bind, Except.bind, pure, Except.pure, Val.mk, hg]

theorem num_sub {w : Val ι} {f g : ι → ℝ} (h' : IsQ w 0 g) :
    sub (.num f) w = .ok (.qty (fun q => f q - g q) .one) := by
  obtain ⟨g', u', rfl, hu', hd, hg⟩ := h'
  simp only [sub, align, hd, if_true, bind, Except.bind, pure, Except.pure, Val.mk, hg]

theorem one_add {w : Val ι} {f g : ι → ℝ} (h' : IsQ w 0 g) :
    add (.qty f .one) w = .ok (.qty (fun q => f q + g q) .one) := by
  obtain ⟨g', u', rfl, hu', hd, hg⟩ := h'
  have : u'.dim = AUnit.one.dim := hd
  simp only [add, align, this, if_true, bind, Except.bind, pure, Except.pure, Val.mk]
  simp [AUnit.one, hg]

theorem lt_is {v w : Val ι} {d : Dim} {f g : ι → ℝ} (h : Is v d f) (h' : Is w d g) :
    lt v w = .ok fun q => f q < g q := by
  obtain ⟨a, b, o, hal, ⟨u, rfl, hu, hd, hf, hg⟩ | ⟨rfl, rfl, rfl, rfl⟩⟩ := align_is h h'
  · simp only [lt, hal, bind, Except.bind, pure, Except.pure]
    congr 1
    funext q
    rw [← hf, ← hg, mul_lt_mul_iff_left₀ hu]
  · simp only [lt, hal, bind, Except.bind, pure, Except.pure]

theorem arctan2_scale {s : ℝ} (hs : 0 < s) (y x : ℝ) : arctan2 (y * s) (x * s) = arctan2 y x := by
  have : (⟨x * s, y * s⟩ : ℂ) = (s : ℂ) * ⟨x, y⟩ := by
    apply Complex.ext <;> simp [mul_comm]
  rw [arctan2, this, Complex.arg_real_mul _ hs, arctan2]

theorem atan2_is {v w : Val ι} {d : Dim} {f g : ι → ℝ} (h : IsQ v d f) (h' : IsQ w d g) :
    atan2 v w = .ok (.qty (fun q => arctan2 (f q) (g q)) .rad) := by
  obtain ⟨a, b, u, hal, hu, hd, hf, hg⟩ := alignQ h h'
  simp only [atan2, hal, bind, Except.bind, pure, Except.pure, Option.map, Val.mk]
  congr 2
  funext q
  rw [← hf, ← hg, arctan2_scale hu]

theorem trig_is {v : Val ι} {f : ι → ℝ} (fn : ℝ → ℝ) (h : IsQ v AUnit.rad.dim f) :
    trig fn v = .ok (.qty (fun q => fn (f q)) .one) := by
  obtain ⟨g, u, rfl, hu, hd, hf⟩ := h
  simp only [trig, hd, if_true, hf]

theorem fn1_is {v : Val ι} {f : ι → ℝ} (fn : ℝ → ℝ) (h : IsQ v 0 f) :
    fn1 fn v = .ok (.qty (fun q => fn (f q)) .one) := by
  obtain ⟨g, u, rfl, hu, hd, hf⟩ := h
  simp only [fn1, hd, if_true, hf]

theorem isQ_one (f : ι → ℝ) : IsQ (.qty f .one) 0 f :=
  ⟨f, .one, rfl, one_pos, rfl, fun q => by simp [AUnit.one]⟩

theorem isQ_rad (f : ι → ℝ) : IsQ (.qty f .rad) AUnit.rad.dim f :=
  ⟨f, .rad, rfl, one_pos, rfl, fun q => by simp [AUnit.rad]⟩

theorem isQ_m (f : ι → ℝ) : IsQ (.qty f .m) AUnit.m.dim f :=
  ⟨f, .m, rfl, one_pos, rfl, fun q => by simp [AUnit.m]⟩

theorem toValue_is {v : Val ι} {f : ι → ℝ} (w : AUnit) (h : IsQ v w.dim f) :
    toValue w v = .ok fun q => f q / w.scale := by
  obtain ⟨g, u, rfl, hu, hd, hf⟩ := h
  simp only [toValue, hd, if_true]
  congr 1
  funext q
  rw [← hf]; ring

theorem toValue_rad {v : Val ι} {f : ι → ℝ} (h : IsQ v AUnit.rad.dim f) :
    toValue .rad v = .ok f := by
  rw [toValue_is _ h]; simp [AUnit.rad]

/-! ### sums -/

theorem sum_go {vs : List (Val ι)} {fs : List (ι → ℝ)} (h : List.Forall₂ (fun v f => IsQ v 0 f) vs fs)
    (a : ι → ℝ) : vs.foldlM add (.qty a .one) =
      .ok (.qty (fun q => a q + (fs.map fun t => t q).sum) .one) := by
  induction h generalizing a with
  | nil => simp [pure, Except.pure]
  | cons hv _ ih =>
    rw [List.foldlM_cons, one_add hv]
    simp only [bind, Except.bind]
    rw [ih]
    simp [add_assoc]

/-- The sum of Quantities without dimension is in the unit 1. -/
theorem sum_is {vs : List (Val ι)} {fs : List (ι → ℝ)} (h : List.Forall₂ (fun v f => IsQ v 0 f) vs fs)
    (hne : vs ≠ []) : Val.sum vs = .ok (.qty (fun q => (fs.map fun t => t q).sum) .one) := by
  cases h with
  | nil => exact absurd rfl hne
  | cons hv ht =>
    rw [Val.sum, List.foldlM_cons, nm, num_add hv]
    simp only [bind, Except.bind]
    rw [sum_go ht]
    simp

theorem sum_nil : Val.sum ([] : List (Val ι)) = .ok (nm 0) := rfl

/-! ### the functions -/

theorem cart2pol_is {x y : Val ι} {d : Dim} {f g : ι → ℝ} (hx : IsQ x d f) (hy : IsQ y d g) :
    ∃ r, cart2polU x y = .ok (r, .qty (fun q => (cart2pol (f q) (g q)).2) .rad) ∧
      IsQ r d fun q => (cart2pol (f q) (g q)).1 := by
  obtain ⟨r2, h1, h2⟩ := add_isQ (hx.zpow 2) (hy.zpow 2)
  refine ⟨r2.sqrt, ?_, h2.sqrt.congr ?_ fun q => ?_⟩
  · simp only [cart2polU, h1, atan2_is hy hx, bind, Except.bind, pure, Except.pure, cart2pol]
  · funext b; push_cast; ring
  · simp only [cart2pol]; norm_cast

/-- One summand of the radial polynomial. -/
noncomputable def rv (n a b : ℤ) (s : ℕ) (r : ℝ) : ℝ :=
  (-1) ^ s * ((n - s).toNat.factorial : ℝ) * r ^ (n - 2 * s) /
    (((s : ℤ).toNat.factorial : ℝ) * (a - s).toNat.factorial * (b - s).toNat.factorial)

theorem rTerm_rv {n a b : ℤ} {s : ℕ} (h1 : (s : ℤ) ≤ n) (h2 : (s : ℤ) ≤ a) (h3 : (s : ℤ) ≤ b) (r : ℝ) :
    Zernike.rTerm n a b r s = .ok (rv n a b s r) := by
  have e1 : ¬ n - (s : ℤ) < 0 := by omega
  have e2 : ¬ (s : ℤ) < 0 := by omega
  have e3 : ¬ a - (s : ℤ) < 0 := by omega
  have e4 : ¬ b - (s : ℤ) < 0 := by omega
  simp only [Zernike.rTerm, Zernike.factorial, e1, e2, e3, e4, if_false, bind, Except.bind, pure,
    Except.pure, rv]

theorem rTermU_rv {n a b : ℤ} {s : ℕ} (h1 : (s : ℤ) ≤ n) (h2 : (s : ℤ) ≤ a) (h3 : (s : ℤ) ≤ b)
    {rho : Val ι} {f : ι → ℝ} (h : IsQ rho 0 f) :
    ∃ v, rTermU n a b rho s = .ok v ∧ IsQ v 0 fun q => rv n a b s (f q) := by
  have e1 : ¬ n - (s : ℤ) < 0 := by omega
  have e2 : ¬ (s : ℤ) < 0 := by omega
  have e3 : ¬ a - (s : ℤ) < 0 := by omega
  have e4 : ¬ b - (s : ℤ) < 0 := by omega
  refine ⟨_, by simp only [rTermU, Zernike.factorial, e1, e2, e3, e4, if_false, bind, Except.bind,
    pure, Except.pure]; rfl, ?_⟩
  refine (((is_nm _).mulQ (h.zpow _)).divQ (is_nm _)).congr ?_ fun q => rfl
  funext b
  simp

theorem R_rv {n m : ℤ} (h0 : 0 ≤ m) (h1 : m ≤ n) (r : ℝ) :
    Zernike.R n m r = .ok (((List.range ((n - m) / 2 + 1).toNat).map fun s =>
      rv n ((n + m) / 2) ((n - m) / 2) s r).sum) := by
  have : (List.range ((n - m) / 2 + 1).toNat).mapM (Zernike.rTerm n ((n + m) / 2) ((n - m) / 2) r) =
      .ok ((List.range ((n - m) / 2 + 1).toNat).map fun s => rv n ((n + m) / 2) ((n - m) / 2) s r) :=
    Zernike.mapM_ok _ _ _ fun s hs => by
      rw [List.mem_range] at hs
      exact rTerm_rv (by omega) (by omega) (by omega) r
  simp only [Zernike.R, this, bind, Except.bind, pure, Except.pure]

theorem RU_rv {n m : ℤ} (h0 : 0 ≤ m) (h1 : m ≤ n) {rho : Val ι} {f : ι → ℝ} (h : IsQ rho 0 f) :
    RU n m rho = .ok (.qty (fun q => ((List.range ((n - m) / 2 + 1).toNat).map fun s =>
      rv n ((n + m) / 2) ((n - m) / 2) s (f q)).sum) .one) := by
  have hr := PyRel.mapM (R := fun v g => IsQ v 0 g) (f := rTermU n ((n + m) / 2) ((n - m) / 2) rho)
    (g := fun s => .ok fun q => rv n ((n + m) / 2) ((n - m) / 2) s (f q))
    (List.range ((n - m) / 2 + 1).toNat) fun s hs => by
      rw [List.mem_range] at hs
      obtain ⟨v, h1, h2⟩ := rTermU_rv (n := n) (a := (n + m) / 2) (b := (n - m) / 2) (s := s)
        (by omega) (by omega) (by omega) h
      rw [h1]
      exact h2
  rw [Zernike.mapM_ok (List.range ((n - m) / 2 + 1).toNat) _
    (fun s q => rv n ((n + m) / 2) ((n - m) / 2) s (f q)) fun _ _ => rfl] at hr
  cases ht : (List.range ((n - m) / 2 + 1).toNat).mapM
    (rTermU n ((n + m) / 2) ((n - m) / 2) rho) with
  | error e => rw [ht] at hr; exact hr.elim
  | ok ts =>
    rw [ht] at hr
    have hr' : List.Forall₂ (fun v g => IsQ v 0 g) ts _ := hr
    have hne : ts ≠ [] := by
      intro hnil
      have hl := hr'.length_eq
      rw [hnil, List.length_map, List.length_range] at hl
      simp only [List.length_nil] at hl
      omega
    simp only [RU, ht, bind, Except.bind]
    rw [sum_is hr' hne]
    simp [List.map_map, Function.comp_def]

theorem UU_is {n l : ℤ} (hl : |l| ≤ n) {rho theta : Val ι} {f g : ι → ℝ} (h : IsQ rho 0 f)
    (ht : IsQ theta AUnit.rad.dim g) :
    ∃ v w, UU n l rho theta = .ok v ∧ IsQ v 0 w ∧
      ∀ q, Zernike.U (.int n) (.int l) (f q) (g q) = .ok (w q) := by
  have hn : ¬ n < 0 := by have := abs_nonneg l; omega
  have hm : IsQ ((nm (|l| : ℤ) : Val ι).mul theta) AUnit.rad.dim fun q => ((|l| : ℤ) : ℝ) * g q :=
    ((is_nm _).mulQ ht).congr (by simp) fun _ => rfl
  have hR := RU_rv (abs_nonneg l) hl h
  have hR' := fun q => R_rv (abs_nonneg l) hl (f q)
  by_cases h0 : l < 0
  · refine ⟨_, _, by simp only [UU, hn, if_false, hR, h0, if_true, trig_is _ hm, bind, Except.bind,
      pure, Except.pure]; rfl, ((isQ_one _).mulQ (isQ_one _).is).congr (by simp) fun _ => rfl, fun q => ?_⟩
    simp only [Zernike.U, hn, if_false, hR', h0, if_true, bind, Except.bind, pure, Except.pure]
  · refine ⟨_, _, by simp only [UU, hn, if_false, hR, h0, trig_is _ hm, bind, Except.bind,
      pure, Except.pure]; rfl, ((isQ_one _).mulQ (isQ_one _).is).congr (by simp) fun _ => rfl, fun q => ?_⟩
    simp only [Zernike.U, hn, if_false, hR', h0, bind, Except.bind, pure, Except.pure]

theorem mem_pyRange {a b c z : ℤ} (hc : 0 < c) (h : z ∈ pyRange a b c) : a ≤ z ∧ z < b := by
  simp only [pyRange, List.mem_map, List.mem_range] at h
  obtain ⟨k, hk, rfl⟩ := h
  have h1 : (k : ℤ) < (b - a + c - 1) / c := by omega
  have h2 : (k : ℤ) + 1 ≤ (b - a + c - 1) / c := h1
  have h3 := (Int.le_ediv_iff_mul_le hc).1 h2
  constructor
  · have : 0 ≤ c * (k : ℤ) := by positivity
    omega
  · have : ((k : ℤ) + 1) * c = c * k + c := by ring
    omega

theorem mem_nlList {n : ℤ} {p : ℤ × ℤ} (h : p ∈ nlList n) : |p.2| ≤ p.1 := by
  simp only [nlList, List.mem_flatMap, List.mem_map] at h
  obtain ⟨i, -, j, hj, rfl⟩ := h
  have := mem_pyRange (by norm_num) hj
  rw [abs_le]
  constructor <;> simp only <;> omega

theorem wfTermU_rel {rho theta : Val ι} {f g : ι → ℝ} (h : IsQ rho 0 f)
    (ht : IsQ theta AUnit.rad.dim g) (K : List ℝ) (n : ℤ) (i : ℕ) :
    PyRel (fun v w => IsQ v 0 w) (wfTermU rho theta K (nlList n) i) (wfTerm f g K (nlList n) i) := by
  refine PyRel.bind (PyRel.refl (pyIdx K i)) fun k k' hk => ?_
  subst hk
  cases hp : pyIdx (nlList n) i with
  | error e => rfl
  | ok p =>
    have hmem : p ∈ nlList n := by
      simp only [pyIdx] at hp
      split at hp
      · rename_i v hv
        injection hp with hp
        subst hp
        exact List.mem_of_getElem? hv
      · cases hp
    obtain ⟨v, w, h1, h2, h3⟩ := UU_is (mem_nlList hmem) h ht
    simp only [bind, Except.bind, h1, seqArr_ok _ _ h3, pure, Except.pure]
    exact ((is_nm k).mulQ h2).congr (by simp) fun _ => rfl

/-- `wavefront` does not depend on the units. -/
theorem wavefrontU_eq {rho theta : Val ι} {f g : ι → ℝ} (h : IsQ rho 0 f)
    (ht : IsQ theta AUnit.rad.dim g) (K : List ℝ) : wavefrontU rho theta K = wavefront f g K := by
  refine PyRel.eq (PyRel.bind (PyRel.mapM _ fun i _ => wfTermU_rel h ht K _ i) fun vs ws hvw => ?_)
  by_cases hne : vs = []
  · subst hne
    cases hvw
    rfl
  · have hne' : ws ≠ [] := by rintro rfl; cases hvw; exact hne rfl
    have : ws.isEmpty = false := by simp [hne']
    simp only [sum_is hvw hne, bind, Except.bind, Val.value, this, Bool.false_eq_true, if_false]
    exact PyRel.refl _

/-! ### the plain number 0 goes with every unit -/

/-- As `Is`, or the plain number 0. -/
def Is0 (v : Val ι) (d : Dim) (f : ι → ℝ) : Prop :=
  Is v d f ∨ ((v = .num fun _ => 0) ∧ ∀ q, f q = 0)

theorem Is0.neg {v : Val ι} {d : Dim} {f : ι → ℝ} (h : Is0 v d f) : Is0 v.neg d fun q => -f q := by
  rcases h with h | ⟨rfl, h⟩
  · exact Or.inl h.neg
  · exact Or.inr ⟨by simp [Val.neg], fun q => by simp [h]⟩

theorem Is0.bc {s : Sc} {d : Dim} {f : Unit → ℝ} (h : Is0 s d f) :
    Is0 (Val.bc s : Val ι) d fun _ => f () := by
  rcases h with h | ⟨rfl, h⟩
  · exact Or.inl h.bc
  · exact Or.inr ⟨rfl, fun _ => h ()⟩

theorem Is0.sq {v : Val ι} {d : Dim} {f : ι → ℝ} (h : Is0 v d f) :
    Is0 (v.zpow 2) (fun b => (2 : ℤ) * d b) fun q => f q ^ (2 : ℤ) := by
  rcases h with h | ⟨rfl, h⟩
  · exact Or.inl (h.zpow 2)
  · exact Or.inr ⟨by simp [Val.zpow], fun q => by simp [h]⟩

theorem align0 {v w : Val ι} {d : Dim} {f g : ι → ℝ} (h : Is0 v d f) (h' : Is0 w d g) :
    ∃ a b o s, align v w = .ok (a, b, o) ∧ 0 < s ∧ (∀ q, a q * s = f q) ∧ (∀ q, b q * s = g q) ∧
      Is0 (Val.mk (fun q => a q + b q) o) d fun q => f q + g q := by
  have key : ∀ (f g : ι → ℝ) (v w : Val ι), Is v d f → Is w d g →
      ∃ a b o s, align v w = .ok (a, b, o) ∧ 0 < s ∧ (∀ q, a q * s = f q) ∧ (∀ q, b q * s = g q) ∧
      Is0 (Val.mk (fun q => a q + b q) o) d fun q => f q + g q := by
    intro f g v w h h'
    obtain ⟨a, b, o, hal, ⟨u, rfl, hu, hd, hf, hg⟩ | ⟨rfl, rfl, rfl, rfl⟩⟩ := align_is h h'
    · exact ⟨a, b, _, u.scale, hal, hu, hf, hg, Or.inl (Or.inl ⟨_, u, rfl, hu, hd, fun q => by
        beta_reduce; rw [add_mul, hf, hg]⟩)⟩
    · exact ⟨_, _, _, 1, hal, one_pos, by simp, by simp, Or.inl (Or.inr ⟨rfl, rfl⟩)⟩
  rcases h with h | ⟨rfl, h⟩
  · rcases h' with h' | ⟨rfl, h'⟩
    · exact key f g v w h h'
    · by_cases hd : d = 0
      · obtain rfl : g = fun _ => 0 := funext h'
        exact key _ _ _ _ h (hd ▸ is_num _)
      · rcases h with ⟨f', u, rfl, hu, rfl, hf⟩ | ⟨h0, -⟩
        · refine ⟨f', fun _ => 0, some u, u.scale, ?_, hu, hf, fun q => by simp [h'],
            Or.inl (Or.inl ⟨_, u, rfl, hu, rfl, fun q => by simp [h', hf]⟩)⟩
          simp [align, hd]
        · exact absurd h0 hd
  · rcases h' with h' | ⟨rfl, h'⟩
    · by_cases hd : d = 0
      · obtain rfl : f = fun _ => 0 := funext h
        exact key _ _ _ _ (hd ▸ is_num _) h'
      · rcases h' with ⟨g', u, rfl, hu, rfl, hg⟩ | ⟨h0, -⟩
        · refine ⟨fun _ => 0, g', some u, u.scale, ?_, hu, fun q => by simp [h], hg,
            Or.inl (Or.inl ⟨_, u, rfl, hu, rfl, fun q => by simp [h, hg]⟩)⟩
          simp [align, hd]
        · exact absurd h0 hd
    · exact ⟨_, _, none, 1, rfl, one_pos, fun q => by simp [h], fun q => by simp [h'],
        Or.inr ⟨by simp [Val.mk], fun q => by simp [h, h']⟩⟩

theorem lt0 {v w : Val ι} {d : Dim} {f g : ι → ℝ} (h : Is0 v d f) (h' : Is0 w d g) :
    lt v w = .ok fun q => f q < g q := by
  obtain ⟨a, b, o, s, hal, hs, hf, hg, -⟩ := align0 h h'
  simp only [lt, hal, bind, Except.bind, pure, Except.pure]
  congr 1
  funext q
  rw [← hf, ← hg, mul_lt_mul_iff_left₀ hs]

theorem add0 {v w : Val ι} {d : Dim} {f g : ι → ℝ} (h : Is0 v d f) (h' : Is0 w d g) :
    ∃ r, add v w = .ok r ∧ Is0 r d fun q => f q + g q := by
  obtain ⟨a, b, o, s, hal, hs, hf, hg, hr⟩ := align0 h h'
  exact ⟨_, by simp only [add, hal, bind, Except.bind, pure, Except.pure], hr⟩

end

end Verif.Units
