import Verif.Model.MathUnits
import Verif.Props.Rms
import Verif.Props.Units

/-!
# C153: the rms, the efficiency, the signal-to-noise ratio and the figure size in any unit
-/

namespace Verif.Props

open Verif Verif.Np Verif.MathFn Verif.AuxFn Verif.Units Verif.Units.Val Finset

/-! ## Specification -/

/-- The array with all entries multiplied by `c`; nan stays nan. -/
noncomputable def Spec.scaledArr (c : ℝ) : Arr → Arr
  | .d1 n f => .d1 n fun i => (f i).map (c * ·)
  | .d2 m n f => .d2 m n fun q => (f q).map (c * ·)

/-- The array is a Quantity and holds `f` in the reference units (metres, radians, ...) of the dimension `d`. -/
def Spec.Holds {ι : Type} (d : Dim) (v : Val ι) (f : ι → ℝ) : Prop :=
  ∃ x c, 0 < c ∧ v = .qty x ⟨c, d⟩ ∧ ∀ q, x q * c = f q

/-! ## `rms` and `e_rs` -/

theorem nansumSq_scaled {ι : Type} [Fintype ι] (c : ℝ) (g : ι → Option ℝ) :
    nansumSq (fun q => (g q).map (c * ·)) = c ^ 2 * nansumSq g := by
  unfold nansumSq
  rw [mul_sum]
  refine sum_congr rfl fun q _ => ?_
  cases hg : g q with
  | none => simp [hg]
  | some v => simp only [hg, Option.map_some, Option.getD_some]; ring

theorem rms_scaled (c : ℝ) (hc : 0 < c) (a : Arr) (circ : Bool) :
    (rms (Spec.scaledArr c a) circ).1 = (rms a circ).1.map (fun o => o.map (c * ·)) ∧
      (rms (Spec.scaledArr c a) circ).2 = Spec.scaledArr c (rms a circ).2 := by
  match circ, a with
  | true, .d1 n f => exact ⟨rfl, rfl⟩
  | false, .d1 n f =>
    refine ⟨?_, rfl⟩
    show Except.ok (sqrtMean (nansumSq fun q => (f q).map (c * ·)) n) = _
    rw [nansumSq_scaled, sqrtMean_smul, abs_of_pos hc]
    rfl
  | false, .d2 m n f =>
    refine ⟨?_, rfl⟩
    show Except.ok (sqrtMean (nansumSq fun q => (f q).map (c * ·)) (m * n)) = _
    rw [nansumSq_scaled, sqrtMean_smul, abs_of_pos hc]
    rfl
  | true, .d2 m n f =>
    by_cases h : m = n
    · subst h
      have hm : ∀ f : Fin m × Fin m → Option ℝ, ∃ g, maskNan (circMask m m) f = .ok g ∧
          maskNan (circMask m m) (fun q => (f q).map (c * ·)) = .ok fun q => (g q).map (c * ·) := by
        intro f
        unfold maskNan
        simp only [dite_true]
        refine ⟨_, rfl, ?_⟩
        congr 1
        funext q
        split_ifs <;> rfl
      obtain ⟨g, h1, h2⟩ := hm f
      have hn : numReal (fun q => (g q).map (c * ·)) = numReal g := by
        unfold numReal
        congr 1
        ext q
        simp
      simp only [Spec.scaledArr, rms, h1, h2, nansumSq_scaled, sqrtMean_smul, hn, abs_of_pos hc]
      exact ⟨rfl, trivial⟩
    · have h1 : ∀ f : Fin m × Fin n → Option ℝ, maskNan (circMask m n) f = .error .indexError := by
        intro f
        unfold maskNan
        rw [dif_neg h]
      simp only [Spec.scaledArr, rms, h1]
      exact ⟨rfl, trivial⟩

/-- The root of the square of a unit. -/
theorem unit_sq_sqrt {c : ℝ} (hc : 0 < c) (d : Dim) : ((AUnit.mk c d).zpow 2).sqrt = ⟨c, d⟩ := by
  simp only [AUnit.zpow, AUnit.sqrt, AUnit.mk.injEq]
  refine ⟨?_, ?_⟩
  · rw [show c ^ (2 : ℤ) = c ^ 2 from zpow_natCast c 2, Real.sqrt_sq hc.le]
  · funext b
    push_cast
    ring

/-- **C153** the root mean square has the unit of the phase: in reference units it is that of the phase in reference units,
and what is left in the caller's array is the same. -/
theorem C153_rms (a : Arr) (c : ℝ) (hc : 0 < c) (d : Dim) (circ : Bool) :
    (rmsU a (some ⟨c, d⟩) circ).1.map (fun o => (o.1.map fun r => o.2.elim r fun u => r * u.scale, o.2.map AUnit.dim)) =
      (rms (Spec.scaledArr c a) circ).1.map (fun o => (o, some d)) ∧
    Spec.scaledArr c (rmsU a (some ⟨c, d⟩) circ).2 = (rms (Spec.scaledArr c a) circ).2 := by
  obtain ⟨h1, h2⟩ := rms_scaled c hc a circ
  refine ⟨?_, h2.symm⟩
  rw [h1]
  unfold rmsU
  dsimp only
  generalize (rms a circ).1 = o
  cases o with
  | error e => rfl
  | ok o =>
    simp only [Except.map, Option.map_some, unit_sq_sqrt hc]
    cases o <;> simp [mul_comm]

/-- **C153** the efficiency for a phase in any unit of angle is that for the phase in radians; for a plain array the numbers
are taken for radians; for a Quantity of a dimension other than an angle or a plain number it is `TypeError` whenever the rms
exists, and the caller's array has been masked by then. -/
theorem C153_efficiency (a : Arr) (circ : Bool) :
    (∀ c, 0 < c → (eRsU a (some ⟨c, Pi.single .angle 1⟩) circ).1 = (eRs (Spec.scaledArr c a) circ).1 ∧
      Spec.scaledArr c (eRsU a (some ⟨c, Pi.single .angle 1⟩) circ).2 = (eRs (Spec.scaledArr c a) circ).2) ∧
    eRsU a none circ = eRs a circ ∧
    ∀ c d, 0 < c → (∃ b, b ≠ Base.angle ∧ d b ≠ 0) → ∀ r, (rms a circ).1 = .ok r →
      eRsU a (some ⟨c, d⟩) circ = (.error .typeError, (rms a circ).2) := by
  refine ⟨fun c hc => ?_, ?_, ?_⟩
  · obtain ⟨h1, h2⟩ := rms_scaled c hc a circ
    refine ⟨?_, h2.symm⟩
    unfold eRsU eRs rmsU
    simp only [h1, Option.map_some, unit_sq_sqrt hc]
    cases (rms a circ).1 with
    | error e => rfl
    | ok o =>
      have hd : ∀ b, b ≠ Base.angle → ((AUnit.mk c (Pi.single .angle 1)).zpow 2).dim b = 0 := by
        intro b hb
        simp [AUnit.zpow, Pi.single_eq_of_ne hb]
      simp only [Except.map, Except.bind]
      rw [if_pos hd]
      cases o with
      | none => rfl
      | some r =>
        simp only [Option.map_some, AUnit.zpow]
        rw [show c ^ (2 : ℤ) = c ^ 2 from zpow_natCast c 2, mul_pow, mul_comm (c ^ 2), neg_mul]
  · unfold eRsU eRs rmsU
    dsimp only
    generalize (rms a circ).1 = o
    cases o <;> rfl
  · intro c d hc hb r hr
    unfold eRsU rmsU
    simp only [hr, Option.map_some, unit_sq_sqrt hc, Except.map, Except.bind]
    rw [if_neg]
    intro h
    obtain ⟨b, hb, hd⟩ := hb
    have := h b hb
    simp only [AUnit.zpow] at this
    push_cast at this
    exact hd (by linarith)

/-! ## `snr` -/

theorem radians_isQ {ι : Type} {v : Val ι} {f : ι → ℝ} (h : Spec.Radians v f) : IsQ v AUnit.rad.dim f := by
  obtain ⟨x, c, hc, rfl, h⟩ := h
  exact ⟨x, _, rfl, hc, rfl, h⟩

/-- **C153** the signal-to-noise ratio does not depend on the units of the axes, of the centre and of the radius, which may
all be different. -/
theorem C153_snr {m n : ℕ} (beam : Fin m × Fin n → Option ℝ) (u : Val (Fin n)) (v : Val (Fin m)) (centre radius : Sc)
    (f : Fin n → ℝ) (g : Fin m → ℝ) (c r : ℝ) (hu : Spec.Radians u f) (hv : Spec.Radians v g)
    (hc : Spec.Radians centre fun _ => c) (hr : Spec.Radians radius fun _ => r) :
    snrU beam u v centre radius = snr beam f g c r := by
  obtain ⟨a, ha, qa⟩ := sub_isQ ((radians_isQ hu).comap fun q : Fin m × Fin n => q.2) (radians_isQ hc).bc
  obtain ⟨b, hb, qb⟩ := sub_isQ ((radians_isQ hv).comap fun q : Fin m × Fin n => q.1) (radians_isQ hc).bc
  obtain ⟨s, hs, qs⟩ := add_isQ (qa.zpow 2) (qb.zpow 2)
  have hl := lt_is qs.is (IsQ.bc (ι := Fin m × Fin n) ((radians_isQ hr).zpow 2)).is
  have h2 : ∀ x : ℝ, x ^ (2 : ℤ) = x ^ 2 := fun x => zpow_natCast x 2
  simp only [h2] at hl
  unfold snrU snr
  simp only [ha, hb, hs, hl, bind, Except.bind, pure, Except.pure, meshX, meshY]
  cases nanmax beam with
  | error e => rfl
  | ok w => dsimp only; congr!

/-- **C153** axes without a unit are refused with `TypeError` unless they are all zero, as are axes of lengths. -/
theorem C153_snr_refused {m n : ℕ} (hm : 0 < m) (beam : Fin m × Fin n → Option ℝ) (v : Val (Fin m)) (centre radius : Sc)
    (c : ℝ) (hc : Spec.Radians centre fun _ => c) :
    (∀ f : Fin n → ℝ, (∃ j, f j ≠ 0) → snrU beam (.num f) v centre radius = .error .typeError) ∧
    ∀ (u : Val (Fin n)) (f : Fin n → ℝ), Spec.Metres u f → snrU beam u v centre radius = .error .typeError := by
  obtain ⟨x, k, hk, rfl, -⟩ := hc
  have hne : (Pi.single Base.angle 1 : Dim) ≠ 0 := fun h => by
    have := congrFun h Base.angle
    simp at this
  constructor
  · rintro f ⟨j, hj⟩
    have : Val.sub ((Val.num f).comap fun q : Fin m × Fin n => q.2) (Val.bc (.qty x ⟨k, Pi.single .angle 1⟩)) =
        .error .typeError := by
      unfold Val.sub Val.align
      simp only [Val.comap, Val.bc]
      rw [if_neg hne, if_neg fun h => hj (h (⟨0, hm⟩, j))]
      rfl
    unfold snrU
    simp only [this, bind, Except.bind]
  · rintro u f ⟨y, l, hl, rfl, -⟩
    have hne' : (Pi.single Base.angle 1 : Dim) ≠ Pi.single Base.length 1 := fun h => by
      have := congrFun h Base.angle
      simp at this
    have : Val.sub ((Val.qty y ⟨l, Pi.single .length 1⟩).comap fun q : Fin m × Fin n => q.2)
        (Val.bc (.qty x ⟨k, Pi.single .angle 1⟩)) = .error .typeError := by
      unfold Val.sub Val.align
      simp only [Val.comap, Val.bc]
      rw [if_neg hne']
      rfl
    unfold snrU
    simp only [this, bind, Except.bind]

/-- **C153** and so is a second axis without a unit beside a first one of angles. -/
theorem C153_snr_second {m n : ℕ} (hn : 0 < n) (beam : Fin m × Fin n → Option ℝ) (u : Val (Fin n)) (f : Fin n → ℝ)
    (hu : Spec.Radians u f) (g : Fin m → ℝ) (hg : ∃ i, g i ≠ 0) (centre radius : Sc) (c : ℝ)
    (hc : Spec.Radians centre fun _ => c) : snrU beam u (.num g) centre radius = .error .typeError := by
  obtain ⟨a, ha, -⟩ := sub_isQ ((radians_isQ hu).comap fun q : Fin m × Fin n => q.2) (radians_isQ hc).bc
  obtain ⟨x, k, hk, rfl, -⟩ := hc
  obtain ⟨i, hi⟩ := hg
  have hne : (Pi.single Base.angle 1 : Dim) ≠ 0 := fun h => by
    have := congrFun h Base.angle
    simp at this
  have : Val.sub ((Val.num g).comap fun q : Fin m × Fin n => q.1) (Val.bc (.qty x ⟨k, Pi.single .angle 1⟩)) =
      .error .typeError := by
    unfold Val.sub Val.align
    simp only [Val.comap, Val.bc]
    rw [if_neg hne, if_neg fun h => hi (h (i, ⟨0, hn⟩))]
    rfl
  unfold snrU
  simp only [ha, this, bind, Except.bind]

/-! ## `uv_ratio` -/

theorem foldl_max_mul {c : ℝ} (hc : 0 < c) (l : List ℝ) (a : ℝ) :
    (l.map (· * c)).foldl max (a * c) = l.foldl max a * c := by
  induction l generalizing a with
  | nil => rfl
  | cons b l ih => simp only [List.map_cons, List.foldl_cons]; rw [← max_mul_of_nonneg _ _ hc.le, ih]

theorem foldl_min_mul {c : ℝ} (hc : 0 < c) (l : List ℝ) (a : ℝ) :
    (l.map (· * c)).foldl min (a * c) = l.foldl min a * c := by
  induction l generalizing a with
  | nil => rfl
  | cons b l ih => simp only [List.map_cons, List.foldl_cons]; rw [← min_mul_of_nonneg _ _ hc.le, ih]

theorem extremes_mul {M : ℕ} {c : ℝ} (hc : 0 < c) (x : Fin M → ℝ) :
    maxR (fun q => x q * c) = (maxR x).map (· * c) ∧ minR (fun q => x q * c) = (minR x).map (· * c) := by
  have e : List.ofFn (fun q => x q * c) = (List.ofFn x).map (· * c) := by
    rw [List.map_ofFn]
    rfl
  unfold maxR minR
  rw [e]
  cases List.ofFn x with
  | nil => exact ⟨rfl, rfl⟩
  | cons a l =>
    simp only [List.map_cons, foldl_max_mul hc, foldl_min_mul hc]
    exact ⟨rfl, rfl⟩

theorem fl_ratio_scale {c e : ℝ} (hc : 0 < c) (he : 0 < e) (x y : ℝ) :
    Fl.mul (Fl.div (.fin x) (.fin y)) (.fin (c * e⁻¹)) = Fl.div (.fin (x * c)) (.fin (y * e)) := by
  have hp : 0 < c * e⁻¹ := by positivity
  by_cases hy : y = 0
  · subst hy
    rw [zero_mul]
    simp only [Fl.div, if_true]
    rcases lt_trichotomy x 0 with h | rfl | h
    · have h' : x * c < 0 := mul_neg_of_neg_of_pos h hc
      simp [Fl.infSign, h, h.not_gt, h', h'.not_gt, Fl.mul, hp, Fl.neg]
    · simp [Fl.infSign, Fl.mul]
    · have h' : 0 < x * c := mul_pos h hc
      simp [Fl.infSign, h, h', Fl.mul, hp]
  · have hy' : y * e ≠ 0 := mul_ne_zero hy he.ne'
    simp only [Fl.div, if_neg hy, if_neg hy', Fl.mul]
    congr 1
    field_simp

/-- **C153** the signal-to-noise ratio of a flat map, for axes in the same unit of angle, whatever it is, if the interpolation
does not depend on the scale of the plane. -/
theorem C153_snr_flat {M : ℕ}
    (griddata : (Fin M → ℝ) → (Fin M → ℝ) → (Fin M → ℝ) → (Fin 300 → ℝ) → (Fin 300 → ℝ) → Fin 300 × Fin 300 → Option ℝ)
    (hgrid : ∀ k, 0 < k → ∀ x y z gx gy,
      griddata (fun q => x q * k) (fun q => y q * k) z (fun j => gx j * k) (fun j => gy j * k) = griddata x y z gx gy)
    (beam x y : Fin M → ℝ) (k : ℝ) (hk : 0 < k) (centre radius : Sc) (c r : ℝ) (hc : Spec.Radians centre fun _ => c)
    (hr : Spec.Radians radius fun _ => r) :
    snr1U griddata beam (.qty x ⟨k, Pi.single .angle 1⟩) (.qty y ⟨k, Pi.single .angle 1⟩) centre radius =
      snr1 griddata beam (fun q => x q * k) (fun q => y q * k) c r := by
  have hlin : ∀ (a b : ℝ) (N : ℕ),
      linspaceU (.qty (fun _ => a) ⟨k, Pi.single .angle 1⟩) (.qty (fun _ => b) ⟨k, Pi.single .angle 1⟩) N =
        .ok (.qty (linspace a b N) ⟨k, Pi.single .angle 1⟩) := by
    intro a b N
    unfold linspaceU Val.align
    simp only [if_true, bind, Except.bind, pure, Except.pure, Val.mk, div_self hk.ne', mul_one]
  have hsc : ∀ (a b : ℝ) (N : ℕ), linspace (a * k) (b * k) N = fun j => linspace a b N j * k := by
    intro a b N
    funext j
    unfold linspace
    ring
  unfold snr1U snr1 maxU minU
  rw [(extremes_mul hk x).1, (extremes_mul hk x).2, (extremes_mul hk y).1, (extremes_mul hk y).2]
  dsimp only
  generalize maxR x = A
  generalize minR x = B
  generalize maxR y = C
  generalize minR y = D
  cases B <;> cases A <;> cases D <;> cases C <;> simp only [Except.map, bind, Except.bind, hlin, bare, hsc, hgrid k hk]
  exact C153_snr _ _ _ _ _ _ _ _ _ ⟨_, k, hk, rfl, fun _ => rfl⟩ ⟨_, k, hk, rfl, fun _ => rfl⟩ hc hr

/-- **C153** the size of the figures does not depend on the units of the two axes, which may be different, and no dimension
is refused. -/
theorem C153_ratio {m n : ℕ} (d d' : Dim) (u : Val (Fin m)) (v : Val (Fin n)) (f : Fin m → ℝ) (g : Fin n → ℝ)
    (hu : Spec.Holds d u f) (hv : Spec.Holds d' v g) : uvRatioU u v = uvRatio f g := by
  obtain ⟨x, c, hc, rfl, h1⟩ := hu
  obtain ⟨y, e, he, rfl, h2⟩ := hv
  obtain rfl : (fun q => x q * c) = f := funext h1
  obtain rfl : (fun q => y q * e) = g := funext h2
  unfold uvRatioU uvRatio maxU minU
  rw [(extremes_mul hc x).1, (extremes_mul hc x).2, (extremes_mul he y).1, (extremes_mul he y).2]
  have hsub : ∀ (a b : ℝ) (w : AUnit), 0 < w.scale →
      Val.sub (.qty (fun _ : Unit => a) w) (.qty (fun _ => b) w) = .ok (.qty (fun _ => a - b) w) := by
    intro a b w hw
    unfold Val.sub Val.align
    simp only [if_true, bind, Except.bind, pure, Except.pure, Val.mk, div_self hw.ne', mul_one]
  dsimp only
  generalize maxR x = A
  generalize minR x = B
  generalize maxR y = C
  generalize minR y = D
  cases A <;> cases B <;> cases C <;> cases D <;>
    simp only [Except.map, bind, Except.bind, hsub _ _ ⟨c, d⟩ hc, hsub _ _ ⟨e, d'⟩ he, pure, Except.pure, Val.div, Val.raw,
      AUnit.mul, AUnit.inv, fl_ratio_scale hc he, sub_mul]

/-! ## Cases -/

/-- A phase of 90 degrees everywhere has the efficiency of one of `π / 2` radians. -/
example : (eRsU (.d1 3 fun _ => some 90) (some AUnit.deg) false).1 =
    (eRs (.d1 3 fun _ => some (Real.pi / 180 * 90)) false).1 :=
  ((C153_efficiency (.d1 3 fun _ => some 90) false).1 (Real.pi / 180) (by positivity)).1

/-- Millimetres are refused. -/
example : eRsU (.d1 3 fun _ => some 1) (some AUnit.mm) false = (.error .typeError, .d1 3 fun _ => some 1) :=
  (C153_efficiency (.d1 3 fun _ => some 1) false).2.2 (1 / 1000) _ (by norm_num) ⟨.length, by decide, by simp⟩ _ rfl

/-- The default centre and radius in degrees, the axes in radians and degrees. -/
example (beam : Fin 2 × Fin 3 → Option ℝ) :
    snrU beam (.qty (fun j => ((j : ℕ) : ℝ) / 1000) .rad) (.qty (fun i => ((i : ℕ) : ℝ) / 20) .deg)
        (.qty (fun _ => 0.04) .deg) (.qty (fun _ => 0.01) .deg) =
      snr beam (fun j => ((j : ℕ) : ℝ) / 1000 * 1) (fun i => ((i : ℕ) : ℝ) / 20 * (Real.pi / 180)) (0.04 * (Real.pi / 180))
        (0.01 * (Real.pi / 180)) := by
  have hp : 0 < Real.pi / 180 := by positivity
  exact C153_snr _ _ _ _ _ _ _ _ _ ⟨_, 1, one_pos, rfl, fun _ => rfl⟩ ⟨_, _, hp, rfl, fun _ => rfl⟩
    ⟨_, _, hp, rfl, fun _ => rfl⟩ ⟨_, _, hp, rfl, fun _ => rfl⟩

example (beam : Fin 2 × Fin 3 → Option ℝ) (v : Val (Fin 2)) :
    snrU beam (.num fun j => ((j : ℕ) : ℝ)) v (.qty (fun _ => 0.04) .deg) (.qty (fun _ => 0.01) .deg) = .error .typeError :=
  (C153_snr_refused (by norm_num) beam v _ _ _ ⟨_, _, by positivity, rfl, fun _ => rfl⟩).1 _ ⟨1, by norm_num⟩

example (beam : Fin 2 × Fin 3 → Option ℝ) :
    snrU beam (.qty (fun j => ((j : ℕ) : ℝ)) .deg) (.num fun i => ((i : ℕ) : ℝ)) (.qty (fun _ => 0.04) .deg)
      (.qty (fun _ => 0.01) .deg) = .error .typeError :=
  C153_snr_second (by norm_num) beam _ _ ⟨_, _, by positivity, rfl, fun _ => rfl⟩ _ ⟨1, by norm_num⟩ _ _ _
    ⟨_, _, by positivity, rfl, fun _ => rfl⟩

/-- An interpolation that takes the value at a grid point and is nan elsewhere does not depend on the scale. -/
example (beam x y : Fin 4 → ℝ) : ∃ griddata : (Fin 4 → ℝ) → (Fin 4 → ℝ) → (Fin 4 → ℝ) → (Fin 300 → ℝ) → (Fin 300 → ℝ) →
      Fin 300 × Fin 300 → Option ℝ,
    (∀ x y z gx gy q k, gx q.2 = x k → gy q.1 = y k → griddata x y z gx gy q ≠ none) ∧
    snr1U griddata beam (.qty x .deg) (.qty y .deg) (.qty (fun _ => 0.04) .deg) (.qty (fun _ => 0.01) .deg) =
      snr1 griddata beam (fun q => x q * (Real.pi / 180)) (fun q => y q * (Real.pi / 180)) (0.04 * (Real.pi / 180))
        (0.01 * (Real.pi / 180)) := by
  classical
  have hp : 0 < Real.pi / 180 := by positivity
  refine ⟨fun x y z gx gy q => if h : ∃ k, gx q.2 = x k ∧ gy q.1 = y k then some (z h.choose) else none, ?_, ?_⟩
  · intro x y z gx gy q k h1 h2
    have h : ∃ k, gx q.2 = x k ∧ gy q.1 = y k := ⟨k, h1, h2⟩
    simp [dif_pos h]
  · refine C153_snr_flat _ ?_ beam x y _ hp _ _ _ _ ⟨_, _, hp, rfl, fun _ => rfl⟩ ⟨_, _, hp, rfl, fun _ => rfl⟩
    intro k hk x y z gx gy
    funext q
    simp only [mul_left_inj' hk.ne']

/-- Centimetres against degrees: the sizes in metres and radians are compared without an exception. -/
example : uvRatioU (.qty (fun j : Fin 3 => ((j : ℕ) : ℝ)) .cm) (.qty (fun j : Fin 4 => ((j : ℕ) : ℝ)) .deg) =
    uvRatio (fun j : Fin 3 => ((j : ℕ) : ℝ) * (1 / 100)) (fun j : Fin 4 => ((j : ℕ) : ℝ) * (Real.pi / 180)) :=
  C153_ratio _ _ _ _ _ _ ⟨_, 1 / 100, by norm_num, rfl, fun _ => rfl⟩ ⟨_, Real.pi / 180, by positivity, rfl, fun _ => rfl⟩

end Verif.Props
