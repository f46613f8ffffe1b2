import Verif.Model.ActUnits
import Verif.Props.Units

/-!
# C109: the active surface in any unit

The properties of the actuators are stated for displacements in micrometres, radii in metres and phases
in radians.  Here it is shown that the results do not depend on the units in which frequency, radii,
stroke limits, displacements, phases and elevations are handed over, and that arrays without a unit or
with a wrong one are refused.
-/

namespace Verif.Props

open Verif Verif.Np Verif.Aperture Verif.Units Verif.Units.Val Verif.Actuator Verif.ActUnits

namespace Spec

/-- `y` is `k` times `x`; nan and the infinities stay what they are. -/
def Times (k : ℝ) : Fl → Fl → Prop
  | .nan, .nan => True
  | .pinf, .pinf => True
  | .ninf, .ninf => True
  | .fin r, .fin s => r * k = s
  | _, _ => False

/-- Two arrays of the same shape with entries in the relation `R`. -/
inductive Entries (R : Fl → Fl → Prop) : Arr → Arr → Prop
  | one {n : ℕ} {f g : Fin n → Fl} : (∀ i, R (f i) (g i)) → Entries R (.d1 n f) (.d1 n g)
  | two {m n : ℕ} {f g : Fin m × Fin n → Fl} :
      (∀ q, R (f q) (g q)) → Entries R (.d2 ⟨m, n, f⟩) (.d2 ⟨m, n, g⟩)
  | three {d m n : ℕ} {f g : Fin m × Fin n → Fin d → Fl} :
      (∀ q i, R (f q i) (g q i)) → Entries R (.d3 d ⟨m, n, f⟩) (.d3 d ⟨m, n, g⟩)

/-- The array is a Quantity of the dimension of a length and holds `A` micrometres. -/
def Micrometres (v : QArr) (A : Arr) : Prop :=
  ∃ B c, 0 < c ∧ v = .qty B ⟨c, Pi.single .length 1⟩ ∧ Entries (Times (c * 1000000)) B A

/-- The array is a Quantity of the dimension of an angle and holds `A` radians. -/
def RadianArr (v : QArr) (A : Arr) : Prop :=
  ∃ B c, 0 < c ∧ v = .qty B ⟨c, Pi.single .angle 1⟩ ∧ Entries (Times c) B A

/-- A Quantity of the dimension of a frequency that is `r` hertz. -/
def Hertz (s : Sc) (r : ℝ) : Prop :=
  ∃ x c, 0 < c ∧ s = .qty x ⟨c, Pi.single .time (-1)⟩ ∧ x () * c = r

/-- The object `a` with the frequency, the radii and the stroke limits given as Quantities. -/
abbrev inUnits (a : Act) (f s p lo hi : Sc) : ActU where
  frequency := f
  nrot := a.nrot
  sign := a.sign
  order := a.order
  sr := s
  pr := p
  resolution := a.resolution
  minAmp := lo
  maxAmp := hi
  nReflections := a.nReflections
  spline := a.spline
  griddata := a.griddata

/-- They are the same lengths and the same frequency as those of `a`. -/
structure SameAct (a : Act) (f s p lo hi : Sc) : Prop where
  frequency : Hertz f a.frequency
  sr : Metres s fun _ => a.sr
  pr : Metres p fun _ => a.pr
  lo : Metres0 lo (a.minAmp / 1000000)
  hi : Metres0 hi (a.maxAmp / 1000000)

/-- An elevation, a Quantity in any unit of angle or a plain number of radians. -/
def SameAngle (s : Sc) (α : Act.Angle) : Prop :=
  Radians s (fun _ => α.rad) ∨ s = .num fun _ => α.rad

end Spec

/-! ### numbers -/

theorem fl_mul_comm (x y : Fl) : Fl.mul x y = Fl.mul y x := by
  cases x <;> cases y <;> simp [Fl.mul, mul_comm]

theorem fl_mul_pos (x : Fl) (t : ℝ) {k : ℝ} (hk : 0 < k) :
    Fl.mul (Fl.mul x (.fin t)) (.fin k) = Fl.mul x (.fin (t * k)) := by
  cases x <;> simp only [Fl.mul]
  · rcases lt_trichotomy t 0 with h | rfl | h
    · simp [Fl.infSign, h, h.not_gt, Fl.mul, Fl.neg, hk, mul_neg_of_neg_of_pos h hk,
        (mul_neg_of_neg_of_pos h hk).not_gt]
    · simp [Fl.infSign, Fl.mul]
    · simp [Fl.infSign, h, Fl.mul, hk]
  · rcases lt_trichotomy t 0 with h | rfl | h
    · simp [Fl.infSign, h, h.not_gt, Fl.mul, Fl.neg, hk, mul_neg_of_neg_of_pos h hk,
        (mul_neg_of_neg_of_pos h hk).not_gt]
    · simp [Fl.infSign, Fl.mul, Fl.neg]
    · simp [Fl.infSign, h, Fl.mul, hk, Fl.neg]
  · ring_nf

theorem fl_pos_mul (x : Fl) (t : ℝ) {k : ℝ} (hk : 0 < k) :
    Fl.mul (Fl.mul x (.fin k)) (.fin t) = Fl.mul x (.fin (t * k)) := by
  cases x <;> simp only [Fl.mul, Fl.infSign, hk, if_true, Fl.neg]
  · rcases lt_trichotomy t 0 with h | rfl | h
    · simp [h, h.not_gt, mul_neg_of_neg_of_pos h hk, (mul_neg_of_neg_of_pos h hk).not_gt]
    · simp
    · simp [h, hk]
  · rcases lt_trichotomy t 0 with h | rfl | h
    · simp [h, h.not_gt, mul_neg_of_neg_of_pos h hk, (mul_neg_of_neg_of_pos h hk).not_gt]
    · simp
    · simp [h, hk]
  · ring_nf

theorem infSign_mul (r : ℝ) {k : ℝ} (hk : 0 < k) : Fl.infSign (r * k) = Fl.infSign r := by
  rcases lt_trichotomy r 0 with h | rfl | h
  · simp [Fl.infSign, h, h.not_gt, mul_neg_of_neg_of_pos h hk, (mul_neg_of_neg_of_pos h hk).not_gt]
  · simp [Fl.infSign]
  · simp [Fl.infSign, h, hk]

theorem infSign_mul_fin (r : ℝ) {k : ℝ} (hk : 0 < k) :
    Fl.mul (Fl.infSign r) (.fin k) = Fl.infSign r := by
  rcases lt_trichotomy r 0 with h | rfl | h
  · simp [Fl.infSign, h, h.not_gt, Fl.mul, hk, Fl.neg]
  · simp [Fl.infSign, Fl.mul]
  · simp [Fl.infSign, h, Fl.mul, hk]

/-- Quotient in one unit and in another. -/
theorem fl_div_conv (x : Fl) (t : ℝ) {k l : ℝ} (hk : 0 < k) (hl : 0 < l) :
    Fl.mul (Fl.div x (.fin t)) (.fin k) = Fl.div (Fl.mul x (.fin l)) (.fin (t * l / k)) := by
  have hs : t * l / k = t * (l / k) := by ring
  have hp : 0 < l / k := div_pos hl hk
  rw [hs]
  have hneg : t * (l / k) < 0 ↔ t < 0 := by
    constructor
    · intro h
      by_contra h'
      exact absurd (mul_nonneg (not_lt.1 h') hp.le) (not_le.2 h)
    · exact fun h => mul_neg_of_neg_of_pos h hp
  cases x with
  | nan => simp [Fl.div, Fl.mul]
  | pinf =>
    simp only [Fl.mul, Fl.infSign, hl, if_true, Fl.div, hneg]
    by_cases h : t < 0 <;> simp [h, Fl.mul, Fl.infSign, hk, Fl.neg]
  | ninf =>
    simp only [Fl.mul, Fl.infSign, hl, if_true, Fl.div, Fl.neg, hneg]
    by_cases h : t < 0 <;> simp [h, Fl.mul, Fl.infSign, hk, Fl.neg]
  | fin r =>
    have e : Fl.mul (.fin r) (.fin l) = .fin (r * l) := rfl
    rw [e]
    simp only [Fl.div]
    by_cases h : t = 0
    · subst h
      simp only [zero_mul, if_true]
      rw [infSign_mul _ hl, infSign_mul_fin _ hk]
    · rw [if_neg h, if_neg (mul_ne_zero h hp.ne')]
      simp only [Fl.mul]
      congr 1
      field_simp

theorem times_iff {k : ℝ} (hk : 0 < k) (x y : Fl) : Spec.Times k x y ↔ y = Fl.mul x (.fin k) := by
  cases x <;> cases y <;> simp [Spec.Times, Fl.mul, Fl.infSign, hk, Fl.neg, eq_comm]

theorem entries_iff {k : ℝ} (hk : 0 < k) (B A : Arr) :
    Spec.Entries (Spec.Times k) B A ↔ A = each (fun x => Fl.mul x (.fin k)) B := by
  constructor
  · rintro (⟨h⟩ | ⟨h⟩ | ⟨h⟩)
    · simp only [each]
      congr 1; funext i; exact (times_iff hk _ _).1 (h i)
    · simp only [each, Mat.map]
      congr 2; funext i; exact (times_iff hk _ _).1 (h i)
    · simp only [each, Mat.map]
      congr 2; funext i j; exact (times_iff hk _ _).1 (h i j)
  · rintro rfl
    cases B with
    | d1 n f => exact .one fun i => (times_iff hk _ _).2 rfl
    | d2 M => exact .two fun i => (times_iff hk _ _).2 rfl
    | d3 d M => exact .three fun i j => (times_iff hk _ _).2 rfl

theorem each_each (g h : Fl → Fl) (A : Arr) : each g (each h A) = each (fun x => g (h x)) A := by
  cases A <;> rfl

theorem each_congr {g h : Fl → Fl} (e : ∀ x, g x = h x) (A : Arr) : each g A = each h A := by
  rw [funext e]

theorem mat_rot90_map {α β : Type} (g : α → β) (A : Mat α) (k : ℤ) :
    (A.map g).rot90 k = (A.rot90 k).map g := by
  unfold Mat.rot90
  split_ifs <;> rfl

theorem rotate_each (g : Fl → Fl) (k : ℤ) (A : Arr) :
    rotate k (each g A) = (rotate k A).map (each g) := by
  cases A with
  | d1 n f => rfl
  | d2 M => simp only [rotate, each, mat_rot90_map, Except.map]
  | d3 d M => simp only [rotate, each, mat_rot90_map, Except.map]

/-- The model in micrometres in terms of `each` and `rotate`. -/
theorem transform_each (a : Act) (A : Arr) :
    a.transform A = (rotate a.nrot A).map (each fun x => Fl.mul (.fin a.tfactor) x) := by
  cases A <;> rfl

theorem itransform_each (a : Act) (A : Arr) :
    a.itransform A = (rotate (-a.nrot) (each (fun x => Fl.div x (.fin a.tfactor)) A)).map
      (each a.clip) := by
  cases A <;> rfl

section
variable {a : Act} {f s p lo hi : Sc}

theorem wavel_is (h : Spec.SameAct a f s p lo hi) :
    ∃ w, (Spec.inUnits a f s p lo hi).wavel = .ok w ∧
      IsQ w AUnit.m.dim fun _ => a.wavel / 1000000 := by
  obtain ⟨x, c, hc, hf, hx⟩ := h.frequency
  have hF : IsQ f (Pi.single .time (-1)) fun _ => a.frequency :=
    ⟨x, _, hf, hc, rfl, fun _ => hx⟩
  have hL : IsQ light (Pi.single .length 1 + Pi.single .time (-1)) fun _ => 299792458 :=
    ⟨_, _, rfl, one_pos, rfl, fun _ => by simp⟩
  have hq : IsQ (light.div f) AUnit.mm.dim fun _ => 299792458 / a.frequency :=
    (hL.divQ hF.is).congr (by simp [AUnit.mm]) fun _ => rfl
  refine ⟨_, by
    simp only [ActU.wavel, Spec.inUnits, toValue_is _ hq, bind, Except.bind, pure, Except.pure]; rfl, ?_⟩
  refine ⟨_, .mm, rfl, by simp [AUnit.mm], rfl, fun _ => ?_⟩
  simp only [AUnit.mm, Act.wavel]
  ring

theorem tfactor_is (h : Spec.SameAct a f s p lo hi) :
    ∃ τ u, (Spec.inUnits a f s p lo hi).tfactor = .ok (.qty (fun _ => τ) u) ∧ 0 < u.scale ∧
      u.dim = AUnit.rad.dim - AUnit.m.dim ∧ τ * u.scale = a.tfactor * 1000000 := by
  obtain ⟨w, hw, hwq⟩ := wavel_is h
  have hn : IsQ ((nm (a.sign * 2 * a.nReflections * Real.pi) : Sc).mul (.qty (fun _ => 1) .rad))
      AUnit.rad.dim fun _ => a.sign * 2 * a.nReflections * Real.pi :=
    ((is_nm _).mulQ (isQ_rad _)).congr (by simp) fun _ => by simp
  obtain ⟨g, u, hg, hu, hd, hv⟩ := hn.divQ hwq.is
  refine ⟨g (), u, ?_, hu, hd, ?_⟩
  · simp only [ActU.tfactor, hw, bind, Except.bind, pure, Except.pure]
    rw [hg]
  · rw [hv]
    simp only [Act.tfactor]
    rw [div_div_eq_mul_div, mul_div_right_comm]

/-- **C109.**  `transform` of displacements in any length unit, for an object made with any units:
the phases are those of the same displacements in micrometres, in radians. -/
theorem C109_transform (h : Spec.SameAct a f s p lo hi) (v : QArr) (A : Arr)
    (hv : Spec.Micrometres v A) :
    Spec.Agree (fun w P => w = .qty P .rad) ((Spec.inUnits a f s p lo hi).transform v)
      (a.transform A) := by
  obtain ⟨B, c, hc, rfl, hA⟩ := hv
  rw [entries_iff (by positivity)] at hA
  subst hA
  obtain ⟨τ, u, ht, hu, hd, hτ⟩ := tfactor_is h
  rw [agree_iff, transform_each, rotate_each]
  simp only [ActU.transform, ht, bind, Except.bind, QArr.rot90]
  cases hr : rotate a.nrot B with
  | error e => rfl
  | ok R =>
    have hdim : (u.mul ⟨c, Pi.single .length 1⟩).dim = AUnit.rad.dim := by
      simp [AUnit.mul, hd, AUnit.m]
    simp only [pure, Except.pure, QArr.scale, QArr.toUnit, QArr.toValue, hdim, if_true, bind,
      Except.bind, Except.map, PyRel, each_each]
    congr 1
    refine each_congr (fun x => ?_) R
    have hk : 0 < (u.mul ⟨c, Pi.single .length 1⟩).scale / AUnit.rad.scale := by
      simp only [AUnit.mul, AUnit.rad]; positivity
    rw [fl_mul_comm (.fin τ), fl_mul_pos _ _ hk, fl_mul_comm (.fin a.tfactor),
      fl_pos_mul _ _ (by positivity)]
    congr 2
    simp only [AUnit.mul, AUnit.rad]
    linear_combination c * hτ

/-! ### the stroke -/

theorem own_is {lim : Sc} {r c : ℝ} (hc : 0 < c) (h : Spec.Metres0 lim r) :
    QArr.own ⟨c, Pi.single .length 1⟩ lim = .ok (r / c) := by
  rcases h with ⟨x, k, hk, rfl, hx⟩ | ⟨rfl, rfl⟩
  · simp only [QArr.own, if_true]
    have := hx ()
    simp only at this
    rw [← this]
    congr 1
    ring
  · have : (Pi.single Base.length 1 : Dim) ≠ 0 := by
      intro h
      have := congrFun h .length
      simp at this
    simp [QArr.own, this]

theorem lt_scale {k : ℝ} (hk : 0 < k) (r : ℝ) (x : Fl) :
    (Fl.lt (.fin (r * k)) (Fl.mul x (.fin k)) ↔ Fl.lt (.fin r) x) ∧
      (Fl.lt (Fl.mul x (.fin k)) (.fin (r * k)) ↔ Fl.lt x (.fin r)) := by
  cases x <;> simp [Fl.mul, Fl.infSign, hk, Fl.neg, Fl.lt]

/-- Limiting in one unit and in another. -/
theorem clip_is (h : Spec.SameAct a f s p lo hi) {c : ℝ} (hc : 0 < c) (B : Arr) :
    ∃ C, (Spec.inUnits a f s p lo hi).clip (.qty B ⟨c, Pi.single .length 1⟩) =
        .ok (.qty C ⟨c, Pi.single .length 1⟩) ∧
      each (fun x => Fl.mul x (.fin (c * 1000000))) C =
        each (fun x => a.clip (Fl.mul x (.fin (c * 1000000)))) B := by
  have h1 := own_is hc h.hi
  have h2 := own_is hc h.lo
  refine ⟨_, by
    simp only [ActU.clip, QArr.limit, h1, h2, bind, Except.bind, pure, Except.pure, each_each]; rfl, ?_⟩
  rw [each_each]
  refine each_congr (fun x => ?_) B
  classical
  have hk : 0 < c * 1000000 := by positivity
  have k1 : a.maxAmp / 1000000 / c * (c * 1000000) = a.maxAmp := by field_simp
  have k2 : a.minAmp / 1000000 / c * (c * 1000000) = a.minAmp := by field_simp
  have g1 := fun x => (lt_scale hk (a.maxAmp / 1000000 / c) x).1
  have g2 := fun x => (lt_scale hk (a.minAmp / 1000000 / c) x).2
  simp only [k1, k2] at g1 g2
  simp only [Act.clip]
  have key : Fl.mul (if Fl.lt (.fin (a.maxAmp / 1000000 / c)) x then
      .fin (a.maxAmp / 1000000 / c) else x) (.fin (c * 1000000)) =
      if Fl.lt (.fin a.maxAmp) (Fl.mul x (.fin (c * 1000000))) then .fin a.maxAmp
        else Fl.mul x (.fin (c * 1000000)) := by
    simp only [g1]
    split_ifs
    · simp only [Fl.mul, k1]
    · rfl
  rw [← key]
  generalize (if Fl.lt (.fin (a.maxAmp / 1000000 / c)) x then
      Fl.fin (a.maxAmp / 1000000 / c) else x) = y
  simp only [g2]
  split_ifs
  · simp only [Fl.mul, k2]
  · rfl

theorem mul_one_fl (x : Fl) : Fl.mul x (.fin 1) = x := by
  cases x <;> simp [Fl.mul, Fl.infSign, Fl.neg]

theorem each_id (A : Arr) : each (fun x => Fl.mul x (.fin 1)) A = A := by
  simp only [mul_one_fl]
  cases A <;> rfl

/-- **C109.**  `itransform` of phases in any unit of angle, with stroke limits in any unit of length:
the displacements are those of the same phases in radians and limits in micrometres, in micrometres. -/
theorem C109_itransform (h : Spec.SameAct a f s p lo hi) (v : QArr) (A : Arr)
    (hv : Spec.RadianArr v A) :
    Spec.Agree (fun w P => w = .qty P um) ((Spec.inUnits a f s p lo hi).itransform v)
      (a.itransform A) := by
  obtain ⟨B, c, hc, rfl, hA⟩ := hv
  rw [entries_iff hc] at hA
  subst hA
  obtain ⟨τ, u, ht, hu, hd, hτ⟩ := tfactor_is h
  rw [agree_iff, itransform_each]
  have hdim : ((⟨c, Pi.single .angle 1⟩ : AUnit).mul u.inv).dim = um.dim := by
    simp [AUnit.mul, AUnit.inv, hd, AUnit.m, um, AUnit.rad]
  simp only [ActU.itransform, ht, bind, Except.bind, QArr.over, QArr.toUnit, QArr.toValue, hdim,
    if_true, pure, Except.pure, QArr.rot90, each_each]
  have hconv : ∀ x : Fl, Fl.mul (Fl.div x (.fin τ))
      (.fin (((⟨c, Pi.single .angle 1⟩ : AUnit).mul u.inv).scale / um.scale)) =
      Fl.div (Fl.mul x (.fin c)) (.fin a.tfactor) := by
    intro x
    have hk : 0 < ((⟨c, Pi.single .angle 1⟩ : AUnit).mul u.inv).scale / um.scale := by
      simp only [AUnit.mul, AUnit.inv, um]; positivity
    rw [fl_div_conv x τ hk hc]
    congr 2
    simp only [AUnit.mul, AUnit.inv, um]
    field_simp
    linear_combination hτ
  rw [each_congr hconv]
  cases hr : rotate (-a.nrot) (each (fun x => Fl.div (Fl.mul x (.fin c)) (.fin a.tfactor)) B) with
  | error e => rfl
  | ok R =>
    obtain ⟨C, h1, h2⟩ := clip_is h (c := 1 / 1000000) (by norm_num) R
    have e : (1 : ℝ) / 1000000 * 1000000 = 1 := by norm_num
    rw [e, each_id] at h2
    simp only [mul_one_fl] at h2
    simp only [um] at h1 ⊢
    rw [h1, h2]
    simp [PyRel, Except.map]

/-! ### the look-up table -/

theorem toValue_um {v : QArr} {A : Arr} (hv : Spec.Micrometres v A) : v.toValue um = .ok A := by
  obtain ⟨B, c, hc, rfl, hA⟩ := hv
  rw [entries_iff (by positivity)] at hA
  subst hA
  simp only [QArr.toValue, um, if_true]
  congr 1
  refine each_congr (fun x => ?_) B
  congr 2
  simp

theorem grid_is (h : Spec.SameAct a f s p lo hi) :
    ∃ x, linspaceU (Spec.inUnits a f s p lo hi).sr.neg (Spec.inUnits a f s p lo hi).sr
        (Spec.inUnits a f s p lo hi).resolution = .ok x ∧
      IsQ x AUnit.m.dim (linspace (-a.sr) a.sr a.resolution) :=
  linspaceU_is (metres_iff.1 h.sr) a.resolution

/-- **C109.**  `interp_surface2rings`: the same 11 × 96 numbers of micrometres. -/
theorem C109_interp (h : Spec.SameAct a f s p lo hi) (v : QArr) (d : ℕ) (A : Mat (Fin d → Fl))
    (hv : Spec.Micrometres v (.d3 d A)) :
    (Spec.inUnits a f s p lo hi).interp v = a.interp d A := by
  obtain ⟨x, hx, hxq⟩ := grid_is h
  have hm : x.toValue .mm = .ok fun i => linspace (-a.sr) a.sr a.resolution i * 1000 := by
    rw [toValue_is .mm hxq]
    simp [AUnit.mm]
  simp only [ActU.interp, Act.interp, hx, hm, toValue_um hv, bind, Except.bind]
  rfl

theorem table_is (h : Spec.SameAct a f s p lo hi) {v : QArr} {A : Arr} (hv : Spec.Micrometres v A) :
    ∃ w, (Spec.inUnits a f s p lo hi).clip v = .ok w ∧ w.toValue um = .ok (each a.clip A) := by
  obtain ⟨B, c, hc, rfl, hA⟩ := hv
  rw [entries_iff (by positivity)] at hA
  subst hA
  obtain ⟨C, h1, h2⟩ := clip_is h hc B
  refine ⟨_, h1, ?_⟩
  rw [each_each, ← h2]
  exact toValue_um ⟨C, c, hc, rfl, (entries_iff (by positivity) _ _).2 rfl⟩

theorem isStack_iff {v : QArr} {A : Arr} (hv : Spec.Micrometres v A) :
    ActU.isStack v = match A with | .d3 _ _ => true | _ => false := by
  obtain ⟨B, c, hc, rfl, hA⟩ := hv
  cases hA <;> rfl

/-- **C109.**  `write_lookup` writes the same text and ends in the same way, whatever the unit of the
displacements and of the stroke limits. -/
theorem C109_write (h : Spec.SameAct a f s p lo hi) (v : QArr) (A : Arr)
    (hv : Spec.Micrometres v A) :
    (Spec.inUnits a f s p lo hi).writeLookup v = a.writeLookup A := by
  have hst := isStack_iff hv
  cases A with
  | d1 n g =>
    obtain ⟨w, h1, h2⟩ := table_is h hv
    simp only [ActU.writeLookup, ActU.lookupTable, hst, h1, h2, bind, Except.bind, pure, Except.pure,
      Bool.false_eq_true, if_false, each, ActU.writeText, Act.writeLookup]
  | d2 M =>
    obtain ⟨w, h1, h2⟩ := table_is h hv
    simp only [ActU.writeLookup, ActU.lookupTable, hst, h1, h2, bind, Except.bind, pure, Except.pure,
      Bool.false_eq_true, if_false, each, ActU.writeText, Act.writeLookup]
    rfl
  | d3 d M =>
    simp only [ActU.writeLookup, ActU.lookupTable, hst, C109_interp h v d M hv, bind, Except.bind,
      pure, Except.pure, if_true, Act.writeLookup]
    cases hi' : a.interp d M with
    | error e => rfl
    | ok t =>
      have ht : Spec.Micrometres (.qty (.d2 ⟨11, 96, t⟩) um) (.d2 ⟨11, 96, t⟩) := by
        refine ⟨_, 1 / 1000000, by norm_num, rfl, (entries_iff (by norm_num) _ _).2 ?_⟩
        have e : (1 : ℝ) / 1000000 * 1000000 = 1 := by norm_num
        rw [e, each_id]
      obtain ⟨w, h1, h2⟩ := table_is h ht
      simp only [h1, h2, each, ActU.writeText]
      rfl

/-- **C109.**  `read_lookup`: the same maps from the same file. -/
theorem C109_read (h : Spec.SameAct a f s p lo hi) (text : Str) :
    (Spec.inUnits a f s p lo hi).readSurface text = a.readSurface text := by
  have key : ∀ v, (Spec.inUnits a f s p lo hi).surfaceMap v = a.surfaceMap v := by
    intro v
    obtain ⟨x, hx, hxq⟩ := grid_is h
    have hm : x.toValue .m = .ok (linspace (-a.sr) a.sr a.resolution) := by
      rw [toValue_is .m hxq]
      simp [AUnit.m]
    obtain ⟨r2, h1, h2⟩ := add_isQ
      ((hxq.comap fun q : Fin a.resolution × Fin a.resolution => q.2).zpow 2)
      ((hxq.comap fun q : Fin a.resolution × Fin a.resolution => q.1).zpow 2)
    have hl := lt_is h2.is (IsQ.bc ((metres_iff.1 h.sr).zpow 2)).is
    simp only at hx
    simp only [ActU.surfaceMap, Act.surfaceMap, hx, hm, h1, hl, bind, Except.bind]
    split_ifs with hlen
    · rfl
    · simp only [pure, Except.pure]
      cases a.griddata a.resolution Act.actX Act.actY v fun q =>
        (meshX (linspace (-a.sr) a.sr a.resolution) (linspace (-a.sr) a.sr a.resolution) q,
          meshY (linspace (-a.sr) a.sr a.resolution) (linspace (-a.sr) a.sr a.resolution) q) with
      | error e => rfl
      | ok g =>
        simp only
        congr 1
        funext q
        simp only [meshX, meshY]
        norm_cast
        split_ifs with g1 g2 g2
        · exact absurd g1 (not_lt.2 g2)
        · rfl
        · rfl
        · exact absurd (not_lt.1 g1) g2
  simp only [ActU.readSurface, Act.readSurface]
  have : (Spec.inUnits a f s p lo hi).surfaceMap = a.surfaceMap := funext key
  rw [this]

/-- **C109.**  The phases of the present look-up table that the object holds after it has been made. -/
theorem C109_lookup (h : Spec.SameAct a f s p lo hi) (text : Str) :
    Spec.Agree (fun w P => w = .qty P .rad) ((Spec.inUnits a f s p lo hi).phaseLookup text)
      (a.phaseLookup text) := by
  simp only [ActU.phaseLookup, Act.phaseLookup, C109_read h]
  cases a.readSurface text with
  | error e => exact Or.inr ⟨e, rfl, rfl⟩
  | ok l =>
    refine C109_transform h ((Spec.inUnits a f s p lo hi).stackOf um l) (a.stackOf l)
      ⟨_, 1 / 1000000, by norm_num, rfl, (entries_iff (by norm_num) _ _).2 ?_⟩
    have e : (1 : ℝ) / 1000000 * 1000000 = 1 := by norm_num
    rw [e, each_id]
    rfl

/-! ### the correction -/

theorem abs_mul_pos (x : Fl) {k : ℝ} (hk : 0 < k) :
    Fl.mul (Fl.abs x) (.fin k) = Fl.abs (Fl.mul x (.fin k)) := by
  cases x <;> simp [Fl.abs, Fl.mul, Fl.infSign, hk, Fl.neg, _root_.abs_mul, abs_of_pos hk]

/-- **C109.**  `ellipsoidal_actuator_correction` for radius and axes in any units of length. -/
theorem C109_correction {ι : Type} (ea eb : Sc) (r : Val ι) (A B : ℝ) (g : ι → ℝ)
    (ha : Spec.Metres ea fun _ => A) (hb : Spec.Metres eb fun _ => B) (hr : Spec.Metres r g) :
    ActU.correctionOf ea eb r = .ok fun q => Act.correctionAt A B (g q) := by
  have hw : IsQ ((r.zpow 2).div (bc (eb.zpow 2))) 0 fun q => g q ^ 2 / B ^ 2 :=
    (((metres_iff.1 hr).zpow 2).divQ (IsQ.bc ((metres_iff.1 hb).zpow 2)).is).congr
      (by funext b; simp) fun q => by norm_cast
  have h1 := num_sub (f := fun _ => 1) hw
  have hq : IsQ ((eb.zpow 2).div ea) AUnit.m.dim fun _ => B ^ 2 / A :=
    (((metres_iff.1 hb).zpow 2).divQ (metres_iff.1 ha).is).congr
      (by funext b; simp; ring) fun q => by norm_cast
  obtain ⟨x, u, e, hu, hd, hx⟩ := hq
  obtain ⟨y, c, hc, rfl, hy⟩ := hr
  have hdim : ((u.mul AUnit.one.sqrt).mul (AUnit.inv ⟨c, Pi.single .length 1⟩)).dim = 0 := by
    funext b
    simp [AUnit.mul, AUnit.inv, AUnit.sqrt, AUnit.one, hd, AUnit.m]
  simp only [ActU.correctionOf, nm, h1, bind, Except.bind, e]
  simp only [bc, Val.comap, FVal.ofVal, FVal.sqrt,
    FVal.mul, FVal.div, FVal.sinArctanAbs, hdim, if_true, FVal.value]
  congr 1
  funext q
  have hs : ((u.mul AUnit.one.sqrt).mul (AUnit.inv ⟨c, Pi.single .length 1⟩)).scale = u.scale / c := by
    simp only [AUnit.mul, AUnit.inv, AUnit.sqrt, AUnit.one, Real.sqrt_one]
    ring
  have hk : 0 < u.scale / c := div_pos hu hc
  rw [hs, abs_mul_pos _ hk, fl_div_conv _ _ hk hu, fl_mul_comm (.fin (x ())), fl_mul_pos _ _ hu]
  simp only [Act.correctionAt]
  have e1 : x () * u.scale = B ^ 2 / A := hx ()
  have e2 : y q * u.scale / (u.scale / c) = g q := by
    rw [← hy q]; field_simp
  rw [e1, e2, fl_mul_comm]

/-- The default correction on the grid. -/
theorem correction_is (h : Spec.SameAct a f s p lo hi) :
    (Spec.inUnits a f s p lo hi).correction = .ok a.correction := by
  obtain ⟨x, hx, hxq⟩ := grid_is h
  obtain ⟨r2, h1, h2⟩ := add_isQ
    ((hxq.comap fun q : Fin a.resolution × Fin a.resolution => q.2).zpow 2)
    ((hxq.comap fun q : Fin a.resolution × Fin a.resolution => q.1).zpow 2)
  simp only at hx
  simp only [ActU.correction, hx, h1, bind, Except.bind]
  have hr : Spec.Metres r2.sqrt fun q : Fin a.resolution × Fin a.resolution =>
      Real.sqrt (linspace (-a.sr) a.sr a.resolution q.2 ^ 2 +
        linspace (-a.sr) a.sr a.resolution q.1 ^ 2) :=
    metres_iff.2 (h2.sqrt.congr (by funext b; push_cast; ring) fun q => by norm_cast)
  rw [C109_correction _ _ _ 14.3050 7.3872 _ (metres_iff.2 (isQ_m _)) (metres_iff.2 (isQ_m _)) hr]
  rfl

/-! ### the gravitational model -/

theorem grav_is {g : List ℝ} {α : Sc} {β : Act.Angle} (h : Spec.SameAngle α β) :
    ActU.gravDeformation g α = Act.gravDeformation g β := by
  rcases h with h | rfl
  · have h' := toValue_rad (radians_iff.1 h)
    obtain ⟨x, c, hc, rfl, hx⟩ := h
    simp only [ActU.gravDeformation, Act.gravDeformation, h', bind, Except.bind, pure, Except.pure]
  · simp only [ActU.gravDeformation, Act.gravDeformation, bind, Except.bind]

theorem gravCoeffs_is {g : List (List ℝ)} {α : Sc} {β : Act.Angle} (h : Spec.SameAngle α β) :
    (Spec.inUnits a f s p lo hi).gravCoeffs g α = a.gravCoeffs g β := by
  simp only [ActU.gravCoeffs, Act.gravCoeffs, grav_is h]
  rfl

theorem genLoop_is (h : Spec.SameAct a f s p lo hi) (g : List (List ℝ)) (eac : Bool)
    {αs : List Sc} {βs : List Act.Angle} (hα : List.Forall₂ Spec.SameAngle αs βs) :
    ∀ i (phases : List (Act.Map a)), (Spec.inUnits a f s p lo hi).genLoop g eac i αs phases =
      a.genLoop g eac i βs phases := by
  induction hα with
  | nil => intro i phases; rfl
  | @cons α β αs βs h1 h2 ih =>
    intro i phases
    simp only [ActU.genLoop, Act.genLoop, gravCoeffs_is h1]
    cases a.gravCoeffs g β with
    | error e => rfl
    | ok K =>
      simp only [bind, Except.bind]
      rcases C87_phase K p a.pr h.pr false false a.resolution with ⟨P, Q, e1, e2, -, -, e5⟩ | ⟨e, e1, e2⟩
      · simp only [e1, e2, toValue_rad (radians_iff.1 e5), correction_is h]
        cases eac
        · simp only [Bool.false_eq_true, if_false]
          exact ih _ _
        · simp only [if_true]
          exact ih _ _
      · simp only [e1, e2]

/-- **C109.**  `generate_phase_pr` for elevations in any unit of angle (or plain numbers of radians)
and radii in any unit of length: the same maps. -/
theorem C109_generate (h : Spec.SameAct a f s p lo hi) (g : List (List ℝ)) (αs : List Sc)
    (βs : List Act.Angle) (hα : List.Forall₂ Spec.SameAngle αs βs) (eac : Bool) :
    (Spec.inUnits a f s p lo hi).generatePhasePr g αs eac = a.generatePhasePr g βs eac := by
  simp only [ActU.generatePhasePr, Act.generatePhasePr, hα.length_eq]
  exact genLoop_is h g eac hα 0 _

/-! ### the fits -/

theorem residualPhase_is (h : Spec.SameAct a f s p lo hi) (fem : Bool) (K : List ℝ)
    (data : Fin a.resolution × Fin a.resolution → ℝ) :
    (Spec.inUnits a f s p lo hi).residualPhase fem K data = a.residualPhase fem K data := by
  have key : ∀ K t, (phaseU K p false t a.resolution >>= fun P =>
      P.phi.toValue .rad >>= fun phi => pure fun q => data q - phi q) =
      (phase K a.pr false t a.resolution >>= fun Q => (pure fun q => data q - Q.phi q : Py _)) := by
    intro K t
    rcases C87_phase K p a.pr h.pr false t a.resolution with ⟨P, Q, e1, e2, -, -, e5⟩ | ⟨e, e1, e2⟩
    · simp only [e1, e2, toValue_rad (radians_iff.1 e5), bind, Except.bind]
    · simp only [e1, e2, bind, Except.bind]
  cases fem
  · exact key K true
  · exact key ([0, 0, 0] ++ K) false

theorem pyIdx_maps {d N : ℕ} (φ : Fin d × Fin N × Fin N → ℝ) (i : ℕ) (hi' : i < d) :
    pyIdx (List.ofFn fun j q => φ (j, q)) i = .ok fun q => φ (⟨i, hi'⟩, q) := by
  exact pyIdx_ofFn _ i hi'

theorem pyIdx_maps_out {d N : ℕ} (φ : Fin d × Fin N × Fin N → ℝ) (i : ℕ) (hi' : ¬ i < d) :
    pyIdx (List.ofFn fun j q => φ (j, q)) i = .error .indexError := by
  simp [pyIdx, hi']

/-- **C109.**  `fit_zpoly` hands the optimiser the same problem for phases in any unit of angle and
radii in any unit of length, and returns the same coefficients. -/
theorem C109_fit (h : Spec.SameAct a f s p lo hi)
    (solver : Act.Solver (Fin a.resolution × Fin a.resolution → ℝ)) {d : ℕ}
    (v : Val (Fin d × Fin a.resolution × Fin a.resolution))
    (φ : Fin d × Fin a.resolution × Fin a.resolution → ℝ) (hv : Spec.Radians v φ) (count : ℕ)
    (fem : Bool) :
    (Spec.inUnits a f s p lo hi).fitZpoly solver v count fem =
      a.fitZpoly solver (List.ofFn fun i q => φ (i, q)) count fem := by
  have hdata : ∀ i, (ActU.mapAt v i >>= fun m => m.toValue .rad) =
      pyIdx (List.ofFn fun i q => φ (i, q)) i := by
    intro i
    by_cases hi' : i < d
    · rw [pyIdx_maps φ i hi']
      simp only [ActU.mapAt, hi', dif_pos, bind, Except.bind]
      exact toValue_rad ((radians_iff.1 hv).comap _)
    · rw [pyIdx_maps_out φ i hi']
      simp only [ActU.mapAt, hi', dif_neg, not_false_eq_true, bind, Except.bind]
  have hrow : ∀ (i : ℕ) (x0 : List ℝ), (do
        let data ← (← ActU.mapAt v i).toValue .rad
        let x ← solver (fun K => (Spec.inUnits a f s p lo hi).residualPhase fem K data) x0
        return List.ofFn x : Py (List ℝ)) = (do
        let data ← pyIdx (List.ofFn fun i q => φ (i, q)) i
        let x ← solver (fun K => a.residualPhase fem K data) x0
        return List.ofFn x) := by
    intro i x0
    rw [← hdata i]
    simp only [bind_assoc, residualPhase_is h]
  simp only [ActU.fitZpoly, Act.fitZpoly]
  simp only [hrow]
  rfl

/-- **C109.**  `fit_grav_deformation` for elevations in any unit of angle. -/
theorem C109_fit_grav (solver : Act.Solver (List ℝ)) (K : List (List ℝ)) (αs : List Sc)
    (βs : List Act.Angle) (hα : List.Forall₂ Spec.SameAngle αs βs) :
    (Spec.inUnits a f s p lo hi).fitGrav solver K αs = a.fitGrav solver K βs := by
  have hm : ∀ g, αs.mapM (ActU.gravDeformation g) = βs.mapM (Act.gravDeformation g) := by
    intro g
    induction hα with
    | nil => rfl
    | cons h1 h2 ih => rw [List.mapM_cons, List.mapM_cons, grav_is h1, ih]
  have hr : ∀ g col, ActU.residualGrav g col αs = Act.residualGrav g col βs := by
    intro g col
    simp only [ActU.residualGrav, Act.residualGrav, hm]
  simp only [ActU.fitGrav, Act.fitGrav, hr]
  rfl

/-- **C109.**  `fit_all`: the same coefficients. -/
theorem C109_fit_all (h : Spec.SameAct a f s p lo hi)
    (s1 : Act.Solver (Fin a.resolution × Fin a.resolution → ℝ)) (s2 : Act.Solver (List ℝ)) {d : ℕ}
    (v : Val (Fin d × Fin a.resolution × Fin a.resolution))
    (φ : Fin d × Fin a.resolution × Fin a.resolution → ℝ) (hv : Spec.Radians v φ) (αs : List Sc)
    (βs : List Act.Angle) (hα : List.Forall₂ Spec.SameAngle αs βs) :
    (Spec.inUnits a f s p lo hi).fitAll s1 s2 v αs =
      a.fitAll s1 s2 (List.ofFn fun i q => φ (i, q)) βs := by
  simp only [ActU.fitAll, Act.fitAll, hα.length_eq, C109_fit h s1 v φ hv,
    C109_fit_grav s2 _ αs βs hα]

/-! ### what is refused -/

/-- **C109.**  Displacements without a unit, or with one that is no length, are refused. -/
theorem C109_transform_refused (h : Spec.SameAct a f s p lo hi) (v : QArr) (R : QArr)
    (hR : v.rot90 a.nrot = .ok R)
    (hv : (∃ B, v = .plain B) ∨ ∃ B u, v = .qty B u ∧ u.dim ≠ Pi.single .length 1) :
    (Spec.inUnits a f s p lo hi).transform v = .error .typeError := by
  obtain ⟨τ, u, ht, hu, hd, hτ⟩ := tfactor_is h
  simp only [ActU.transform, ht, hR, bind, Except.bind]
  rcases hv with ⟨B, rfl⟩ | ⟨B, w, rfl, hw⟩
  · simp only [QArr.rot90, bind, Except.bind, pure, Except.pure] at hR
    cases hB : rotate a.nrot B with
    | error e => rw [hB] at hR; cases hR
    | ok C =>
      rw [hB] at hR
      cases hR
      have : u.dim ≠ AUnit.rad.dim := by
        rw [hd]
        intro e
        have := congrFun e .length
        simp [AUnit.m, AUnit.rad] at this
      simp only [QArr.toUnit, QArr.scale, QArr.toValue, this, if_false, bind, Except.bind]
  · simp only [QArr.rot90, bind, Except.bind, pure, Except.pure] at hR
    cases hB : rotate a.nrot B with
    | error e => rw [hB] at hR; cases hR
    | ok C =>
      rw [hB] at hR
      cases hR
      have : (u.mul w).dim ≠ AUnit.rad.dim := by
        simp only [AUnit.mul, hd]
        intro e
        refine hw ?_
        have : w.dim = AUnit.m.dim := by
          rw [← sub_eq_zero]
          have : AUnit.rad.dim - AUnit.m.dim + w.dim - AUnit.rad.dim = 0 := by rw [e, sub_self]
          rw [← this]; abel
        rw [this]; rfl
      simp only [QArr.toUnit, QArr.scale, QArr.toValue, this, if_false, bind, Except.bind]

/-- **C109.**  Phases without a unit, or with one that is no angle, are refused. -/
theorem C109_itransform_refused (h : Spec.SameAct a f s p lo hi) (v : QArr)
    (hv : (∃ B, v = .plain B) ∨ ∃ B u, v = .qty B u ∧ u.dim ≠ Pi.single .angle 1) :
    (Spec.inUnits a f s p lo hi).itransform v = .error .typeError := by
  obtain ⟨τ, u, ht, hu, hd, hτ⟩ := tfactor_is h
  simp only [ActU.itransform, ht, bind, Except.bind]
  rcases hv with ⟨B, rfl⟩ | ⟨B, w, rfl, hw⟩
  · have : u.inv.dim ≠ um.dim := by
      simp only [AUnit.inv, hd]
      intro e
      have := congrFun e .angle
      simp [AUnit.m, AUnit.rad, um] at this
    simp only [QArr.toUnit, QArr.over, QArr.toValue, this, if_false, bind, Except.bind]
  · have : (w.mul u.inv).dim ≠ um.dim := by
      simp only [AUnit.mul, AUnit.inv, hd]
      intro e
      refine hw ?_
      have e' : um.dim = AUnit.m.dim := rfl
      rw [e'] at e
      have : w.dim = AUnit.rad.dim := by
        rw [← sub_eq_zero]
        have : w.dim + -(AUnit.rad.dim - AUnit.m.dim) - AUnit.m.dim = 0 := by rw [e, sub_self]
        rw [← this]; abel
      rw [this]; rfl
    simp only [QArr.toUnit, QArr.over, QArr.toValue, this, if_false, bind, Except.bind]

theorem limit_plain (cmp : Fl → Fl → Prop) (lim : Sc) (B : Arr) :
    (∃ C, QArr.limit cmp lim (.plain B) = .ok (.plain C)) ∨
      QArr.limit cmp lim (.plain B) = .error .typeError := by
  cases lim with
  | num r => exact Or.inl ⟨_, rfl⟩
  | qty r v =>
    simp only [QArr.limit]
    split_ifs
    · exact Or.inl ⟨_, rfl⟩
    · exact Or.inr rfl

theorem limit_qty (cmp : Fl → Fl → Prop) (lim : Sc) (B : Arr) (u : AUnit) :
    (∃ C, QArr.limit cmp lim (.qty B u) = .ok (.qty C u)) ∨
      QArr.limit cmp lim (.qty B u) = .error .typeError := by
  cases lim with
  | num r =>
    simp only [QArr.limit, QArr.own, bind, Except.bind]
    by_cases h1 : u.dim = 0
    · exact Or.inl ⟨_, by simp only [h1, if_true]; rfl⟩
    · by_cases h2 : r () = 0
      · exact Or.inl ⟨_, by simp only [h1, h2, if_true, if_false]; rfl⟩
      · exact Or.inr (by simp only [h1, h2, if_false])
  | qty r v =>
    simp only [QArr.limit, QArr.own, bind, Except.bind]
    by_cases h1 : v.dim = u.dim
    · exact Or.inl ⟨_, by simp only [h1, if_true]; rfl⟩
    · exact Or.inr (by simp only [h1, if_false])

/-- **C109.**  A table without a unit, or with one that is no length, is not written: `write_lookup`
raises before it opens the file. -/
theorem C109_write_refused (h : Spec.SameAct a f s p lo hi) (v : QArr)
    (hv : (∃ B, v = .plain B) ∨ ∃ B u, v = .qty B u ∧ u.dim ≠ Pi.single .length 1) :
    ∃ e, (e = .typeError ∨ e = .attributeError) ∧
      (Spec.inUnits a f s p lo hi).writeLookup v = (.error e, none) := by
  suffices hs : ∃ e, (e = .typeError ∨ e = .attributeError) ∧
      (Spec.inUnits a f s p lo hi).lookupTable v = .error e by
    obtain ⟨e, h1, h2⟩ := hs
    exact ⟨e, h1, by simp only [ActU.writeLookup, h2]⟩
  have hval : ∃ e, (e = PyErr.typeError ∨ e = .attributeError) ∧ v.toValue um = .error e := by
    rcases hv with ⟨B, rfl⟩ | ⟨B, u, rfl, hu⟩
    · exact ⟨_, Or.inr rfl, rfl⟩
    · refine ⟨_, Or.inl rfl, ?_⟩
      have : u.dim ≠ um.dim := hu
      simp only [QArr.toValue, this, if_false]
  cases hst : ActU.isStack v with
  | true =>
    obtain ⟨x, hx, hxq⟩ := grid_is h
    have hm : x.toValue .mm = .ok fun i => linspace (-a.sr) a.sr a.resolution i * 1000 := by
      rw [toValue_is .mm hxq]
      simp [AUnit.mm]
    obtain ⟨e, he, hv'⟩ := hval
    refine ⟨e, he, ?_⟩
    have hint : (Spec.inUnits a f s p lo hi).interp v = .error e := by
      simp only at hx
      simp only [ActU.interp, hx, hm, hv', bind, Except.bind]
      have : List.range 11 = 0 :: (List.range 10).map Nat.succ := by
        rw [← List.range_succ_eq_map]
      rw [this, List.mapM_cons]
      rfl
    simp only [ActU.lookupTable, hst, if_true, hint, bind, Except.bind]
  | false =>
    simp only [ActU.lookupTable, hst, Bool.false_eq_true, if_false, bind, Except.bind, pure,
      Except.pure, ActU.clip]
    rcases hv with ⟨B, rfl⟩ | ⟨B, u, rfl, hu⟩
    · rcases limit_plain (fun x l => Fl.lt l x) hi B with ⟨C, h1⟩ | h1
      · rcases limit_plain (fun x l => Fl.lt x l) lo C with ⟨D, h2⟩ | h2
        · exact ⟨_, Or.inr rfl, by simp only [h1, h2, QArr.toValue]⟩
        · exact ⟨_, Or.inl rfl, by simp only [h1, h2]⟩
      · exact ⟨_, Or.inl rfl, by simp only [h1]⟩
    · have hd : u.dim ≠ um.dim := hu
      rcases limit_qty (fun x l => Fl.lt l x) hi B u with ⟨C, h1⟩ | h1
      · rcases limit_qty (fun x l => Fl.lt x l) lo C u with ⟨D, h2⟩ | h2
        · exact ⟨_, Or.inl rfl, by simp only [h1, h2, QArr.toValue, hd, if_false]⟩
        · exact ⟨_, Or.inl rfl, by simp only [h1, h2]⟩
      · exact ⟨_, Or.inl rfl, by simp only [h1]⟩

/-- **C109.**  `fit_zpoly` refuses phases without a unit or with one that is no angle. -/
theorem C109_fit_refused (solver : Act.Solver (Fin a.resolution × Fin a.resolution → ℝ)) {d : ℕ}
    (hd : 0 < d) (v : Val (Fin d × Fin a.resolution × Fin a.resolution))
    (hv : (∃ g, v = .num g) ∨ ∃ g u, v = .qty g u ∧ u.dim ≠ Pi.single .angle 1) (count : ℕ)
    (hc : 0 < count) (fem : Bool) (hK : 3 ≤ a.nK) :
    ∃ e, (e = .typeError ∨ e = .attributeError) ∧
      (Spec.inUnits a f s p lo hi).fitZpoly solver v count fem = .error e := by
  have hval : ∃ e, (e = PyErr.typeError ∨ e = .attributeError) ∧
      (v.comap fun q : Fin a.resolution × Fin a.resolution => ((⟨0, hd⟩ : Fin d), q)).toValue .rad =
        .error e := by
    rcases hv with ⟨B, rfl⟩ | ⟨B, u, rfl, hu⟩
    · exact ⟨_, Or.inr rfl, rfl⟩
    · refine ⟨_, Or.inl rfl, ?_⟩
      have : u.dim ≠ AUnit.rad.dim := hu
      simp only [Val.comap, Val.toValue, this, if_false]
  obtain ⟨e, he, hv'⟩ := hval
  refine ⟨e, he, ?_⟩
  have hnK : (Spec.inUnits a f s p lo hi).nK = a.nK := rfl
  have h3 : ¬ a.nK < 3 := by omega
  obtain ⟨n, rfl⟩ : ∃ n, count = n + 1 := ⟨count - 1, by omega⟩
  simp only [ActU.fitZpoly, hnK, h3, and_false, if_false, List.range_succ_eq_map, List.mapM_cons,
    ActU.mapAt, hd, dif_pos, bind, Except.bind, pure, Except.pure]
  rw [hv']

/-- **C109.**  A frequency that is none (no unit, or for instance a length): the object is not made. -/
theorem C109_frequency_refused (hfr : (∃ r, f = .num r) ∨ ∃ r u, f = .qty r u ∧
    u.dim ≠ Pi.single .time (-1)) :
    (Spec.inUnits a f s p lo hi).tfactor = .error .typeError := by
  have key : (Spec.inUnits a f s p lo hi).wavel = .error .typeError := by
    rcases hfr with ⟨r, rfl⟩ | ⟨r, u, rfl, hu⟩
    · have : (Pi.single .length 1 + Pi.single .time (-1) : Dim) ≠ AUnit.mm.dim := by
        intro e
        have := congrFun e .time
        simp [AUnit.mm] at this
      simp only [ActU.wavel, light, Val.div, Val.toValue, this, if_false, bind, Except.bind]
    · have : ((⟨1, Pi.single .length 1 + Pi.single .time (-1)⟩ : AUnit).mul u.inv).dim ≠
          AUnit.mm.dim := by
        simp only [AUnit.mul, AUnit.inv, AUnit.mm]
        intro e
        refine hu ?_
        rw [add_assoc, add_eq_left, add_neg_eq_zero] at e
        exact e.symm
      simp only [ActU.wavel, light, Val.div, Val.toValue, this, if_false, bind, Except.bind]
  simp only [ActU.tfactor, key, bind, Except.bind]

end

/-! ### the hypotheses can be met -/

/-- The object of the telescope with the frequency in gigahertz, the radii in centimetres and metres,
the limits in millimetres. -/
example (a : Act) (h1 : a.frequency = 34750000000) (h2 : a.sr = 3.25) (h3 : a.pr = 50)
    (h4 : a.minAmp = -5000) (h5 : a.maxAmp = 5000) :
    Spec.SameAct a (.qty (fun _ => 34.75) ⟨1000000000, Pi.single .time (-1)⟩)
      (.qty (fun _ => 325) .cm) (.qty (fun _ => 50) .m) (.qty (fun _ => -5) .mm)
      (.qty (fun _ => 5) .mm) where
  frequency := ⟨_, _, by norm_num, rfl, by rw [h1]; norm_num⟩
  sr := ⟨_, _, by norm_num, rfl, fun _ => by rw [h2]; norm_num⟩
  pr := ⟨_, _, by norm_num, rfl, fun _ => by rw [h3]; norm_num⟩
  lo := Or.inl ⟨_, _, by norm_num, rfl, fun _ => by rw [h4]; norm_num⟩
  hi := Or.inl ⟨_, _, by norm_num, rfl, fun _ => by rw [h5]; norm_num⟩

/-- A map of two values, 0.25 mm and nan. -/
example : Spec.Micrometres (.qty (.d2 ⟨1, 2, fun q => if q.2 = 0 then .fin 0.25 else .nan⟩) .mm)
    (.d2 ⟨1, 2, fun q => if q.2 = 0 then .fin 250 else .nan⟩) := by
  refine ⟨_, _, by norm_num, rfl, .two fun q => ?_⟩
  by_cases h : q.2 = 0
  · simp only [h, if_true, Spec.Times]; norm_num
  · simp only [h, if_false, Spec.Times]

/-- Ninety degrees. -/
example : Spec.SameAngle (.qty (fun _ => 90) .deg) (.bare (Real.pi / 2)) :=
  Or.inl ⟨_, _, by positivity, rfl, fun _ => by simp only [Act.Angle.rad]; ring⟩

end Verif.Props
