import Verif.Model.Actuator
import Verif.Lemmas.Fl
import Mathlib.Tactic.Linarith
import Mathlib.Tactic.FieldSimp
import Mathlib.Tactic.Positivity

/-!
# Actuators: transform, itransform and the stroke limits (C58, C59)
-/

namespace Verif.Props

open Verif Verif.Np Verif.Actuator

/-! ## Specification -/

/-- What the limits do to a displacement: nan is left alone. -/
noncomputable def Spec.clamp (lo hi : ℝ) : Fl → Fl
  | .nan => .nan
  | .pinf => .fin hi
  | .ninf => .fin lo
  | .fin r => .fin (max lo (min hi r))

/-- The entries of an array, in any number of dimensions. -/
def Spec.Entry : Arr → Fl → Prop
  | .d1 _ f, x => ∃ i, f i = x
  | .d2 A, x => ∃ q, A.f q = x
  | .d3 _ A, x => ∃ q i, A.f q i = x

/-- The same array with a function applied to every entry. -/
def Spec.each (g : Fl → Fl) : Arr → Arr
  | .d1 n f => .d1 n fun i => g (f i)
  | .d2 A => .d2 ⟨A.m, A.n, fun q => g (A.f q)⟩
  | .d3 d A => .d3 d ⟨A.m, A.n, fun q i => g (A.f q i)⟩

/-- A real map and a stack of real maps as arrays. -/
def Spec.map2 {m n : ℕ} (f : Fin m → Fin n → ℝ) : Arr := .d2 ⟨m, n, fun q => .fin (f q.1 q.2)⟩

def Spec.stack {d m n : ℕ} (f : Fin d → Fin m → Fin n → ℝ) : Arr :=
  .d3 d ⟨m, n, fun q i => .fin (f i q.1 q.2)⟩

/-- Radians of primary dish phase per micrometre of displacement: `2 pi / wavelength` for every
reflection, there and back, with the sign of the object. -/
noncomputable def Spec.factor (a : Act) : ℝ :=
  a.sign * (2 * Real.pi / (299792458 / a.frequency * 10 ^ 6)) * a.nReflections

/-- A quarter turn counter-clockwise (towards the first column) of a map with `m` rows. -/
def Spec.quarter {m n : ℕ} (f : Fin m → Fin n → ℝ) : Fin n → Fin m → ℝ := fun i j => f j i.rev

/-- Half a turn. -/
def Spec.half {m n : ℕ} (f : Fin m → Fin n → ℝ) : Fin m → Fin n → ℝ := fun i j => f i.rev j.rev

/-- Three quarters. -/
def Spec.threeQuarter {m n : ℕ} (f : Fin m → Fin n → ℝ) : Fin n → Fin m → ℝ := fun i j => f j.rev i

/-! ## Lemmas -/

theorem rot90_0 {α : Type} (A : Mat α) {k : ℤ} (h : k % 4 = 0) : A.rot90 k = A := by
  unfold Mat.rot90; rw [if_pos h]

theorem rot90_1 {α : Type} (A : Mat α) {k : ℤ} (h : k % 4 = 1) :
    A.rot90 k = ⟨A.n, A.m, fun q => A.f (q.2, q.1.rev)⟩ := by
  unfold Mat.rot90; rw [if_neg (by omega), if_neg (by omega), if_pos h]; rfl

theorem rot90_2 {α : Type} (A : Mat α) {k : ℤ} (h : k % 4 = 2) :
    A.rot90 k = ⟨A.m, A.n, fun q => A.f (q.1.rev, q.2.rev)⟩ := by
  unfold Mat.rot90; rw [if_neg (by omega), if_pos h]; rfl

theorem rot90_3 {α : Type} (A : Mat α) {k : ℤ} (h : k % 4 = 3) :
    A.rot90 k = ⟨A.n, A.m, fun q => A.f (q.2.rev, q.1)⟩ := by
  unfold Mat.rot90; rw [if_neg (by omega), if_neg (by omega), if_neg (by omega)]; rfl

theorem rot90_rot90 {α : Type} (A : Mat α) (k : ℤ) : (A.rot90 k).rot90 (-k) = A := by
  have h : k % 4 = 0 ∨ k % 4 = 1 ∨ k % 4 = 2 ∨ k % 4 = 3 := by omega
  obtain ⟨m, n, f⟩ := A
  rcases h with h | h | h | h
  · rw [rot90_0 _ h, rot90_0 _ (by omega)]
  · rw [rot90_1 _ h, rot90_3 _ (by omega)]; simp
  · rw [rot90_2 _ h, rot90_2 _ (by omega)]; simp
  · rw [rot90_3 _ h, rot90_1 _ (by omega)]; simp

theorem rot90_rot90' {α : Type} (A : Mat α) (k : ℤ) : (A.rot90 (-k)).rot90 k = A := by
  simpa using rot90_rot90 A (-k)

theorem map_rot90 {α β : Type} (A : Mat α) (g : α → β) (k : ℤ) :
    (A.rot90 k).map g = (A.map g).rot90 k := by
  unfold Mat.rot90
  by_cases h0 : k % 4 = 0
  · simp only [h0, if_true]
  · by_cases h2 : k % 4 = 2
    · simp only [h2, if_true, if_neg (by decide : ¬ (2 : ℤ) = 0)]; rfl
    · by_cases h1 : k % 4 = 1
      · simp only [h1, if_true, if_neg (by decide : ¬ (1 : ℤ) = 0),
          if_neg (by decide : ¬ (1 : ℤ) = 2)]; rfl
      · simp only [h0, h1, h2, if_false]; rfl

theorem map_map {α β γ : Type} (A : Mat α) (g : α → β) (h : β → γ) :
    (A.map g).map h = A.map fun x => h (g x) := rfl

theorem rot90_entry {α : Type} (A : Mat α) (k : ℤ) (q) : ∃ q', (A.rot90 k).f q = A.f q' := by
  have key : ∀ B : Mat α, (B = A ∨ B = A.flip0.flip1 ∨ B = A.flip1.transpose ∨
      B = A.transpose.flip1) → ∀ q, ∃ q', B.f q = A.f q' := by
    rintro B (rfl | rfl | rfl | rfl) q
    · exact ⟨q, rfl⟩
    · exact ⟨_, rfl⟩
    · exact ⟨_, rfl⟩
    · exact ⟨_, rfl⟩
  refine key _ ?_ q
  unfold Mat.rot90
  by_cases h0 : k % 4 = 0
  · exact .inl (by rw [if_pos h0])
  · by_cases h2 : k % 4 = 2
    · exact .inr (.inl (by rw [if_neg h0, if_pos h2]))
    · by_cases h1 : k % 4 = 1
      · exact .inr (.inr (.inl (by rw [if_neg h0, if_neg h2, if_pos h1])))
      · exact .inr (.inr (.inr (by rw [if_neg h0, if_neg h2, if_neg h1])))

theorem entry_rot90 {α : Type} (A : Mat α) (k : ℤ) (q) : ∃ q', (A.rot90 k).f q' = A.f q := by
  have key : ∀ B : Mat α, B.rot90 (-k) = A → ∃ q', B.f q' = A.f q := by
    rintro B rfl
    obtain ⟨q', h⟩ := rot90_entry B (-k) q
    exact ⟨q', h.symm⟩
  exact key _ (rot90_rot90 A k)

theorem clip_clamp (a : Act) (h : a.minAmp ≤ a.maxAmp) (x : Fl) :
    a.clip x = Spec.clamp a.minAmp a.maxAmp x := by
  unfold Act.clip Spec.clamp
  cases x with
  | nan => simp [Fl.lt]
  | pinf => simp [Fl.lt, not_lt.2 h]
  | ninf => simp [Fl.lt]
  | fin r =>
    simp only [Fl.lt]
    by_cases h1 : a.maxAmp < r
    · simp only [h1, if_true, not_lt.2 h, Fl.lt, if_false, min_eq_left h1.le, max_eq_right h]
    · simp only [h1, if_false, Fl.lt, min_eq_right (not_lt.1 h1)]
      by_cases h2 : r < a.minAmp
      · simp only [h2, if_true, max_eq_left h2.le]
      · simp only [h2, if_false, max_eq_right (not_lt.1 h2)]

theorem div_mul_fl {t : ℝ} (ht : t ≠ 0) (x : Fl) : Fl.div (Fl.mul (.fin t) x) (.fin t) = x := by
  rcases lt_or_gt_of_ne ht with h | h
  · cases x <;> simp [Fl.mul, Fl.div, Fl.infSign, Fl.neg, h, not_lt.2 h.le, ht]
  · cases x <;> simp [Fl.mul, Fl.div, Fl.infSign, Fl.neg, h, not_lt.2 h.le, ht]

theorem tfactor_eq (a : Act) : a.tfactor = Spec.factor a := by
  unfold Act.tfactor Act.wavel Spec.factor; ring

theorem factor_ne {a : Act} (hf : a.frequency ≠ 0) (hs : a.sign ≠ 0) (hn : a.nReflections ≠ 0) :
    Spec.factor a ≠ 0 := by
  unfold Spec.factor
  have h1 : (a.sign : ℝ) ≠ 0 := by exact_mod_cast hs
  have h2 : (a.nReflections : ℝ) ≠ 0 := by exact_mod_cast hn
  have h3 := Real.pi_ne_zero
  have h4 : (299792458 : ℝ) / a.frequency * 10 ^ 6 ≠ 0 := by positivity
  positivity

theorem entry_each {g : Fl → Fl} {A : Arr} {x : Fl} (h : Spec.Entry A x) :
    Spec.Entry (Spec.each g A) (g x) := by
  cases A with
  | d1 n f => obtain ⟨i, rfl⟩ := h; exact ⟨i, rfl⟩
  | d2 A => obtain ⟨i, rfl⟩ := h; exact ⟨i, rfl⟩
  | d3 d A => obtain ⟨i, j, rfl⟩ := h; exact ⟨i, j, rfl⟩

/-! ## C58 -/

/-- **C58.**  There and back gives the displacements clipped to the limits, in two and in three
dimensions, whatever the number of rotations; infinities are clipped, nan stays nan. -/
theorem C58_inverse (a : Act) (hf : a.frequency ≠ 0) (hs : a.sign ≠ 0) (hn : a.nReflections ≠ 0)
    (hl : a.minAmp ≤ a.maxAmp) (A : Arr) (hA : ∀ n f, A ≠ .d1 n f) :
    (a.transform A).bind a.itransform = .ok (Spec.each (Spec.clamp a.minAmp a.maxAmp) A) := by
  have ht : a.tfactor ≠ 0 := by rw [tfactor_eq]; exact factor_ne hf hs hn
  cases A with
  | d1 n f => exact absurd rfl (hA n f)
  | d2 A =>
    simp only [Act.transform, Act.itransform, Except.bind]
    rw [← map_rot90, ← map_rot90, rot90_rot90]
    simp only [map_map, div_mul_fl ht]
    simp only [clip_clamp a hl]; rfl
  | d3 d A =>
    simp only [Act.transform, Act.itransform, Except.bind]
    rw [← map_rot90, ← map_rot90, rot90_rot90]
    simp only [map_map, div_mul_fl ht]
    simp only [clip_clamp a hl]; rfl

/-- **C58.**  The other way round: a phase map whose displacements are within the limits is
reproduced. -/
theorem C58_forward (a : Act) (hf : a.frequency ≠ 0) (hs : a.sign ≠ 0) (hn : a.nReflections ≠ 0)
    (hl : a.minAmp ≤ a.maxAmp) (P : Arr) (hP : ∀ n f, P ≠ .d1 n f)
    (hin : ∀ x, Spec.Entry P x → ∃ u : ℝ, a.minAmp ≤ u ∧ u ≤ a.maxAmp ∧
      x = .fin (Spec.factor a * u)) :
    (a.itransform P).bind a.transform = .ok P := by
  have ht : a.tfactor ≠ 0 := by rw [tfactor_eq]; exact factor_ne hf hs hn
  have key : ∀ x, Spec.Entry P x →
      Fl.mul (.fin a.tfactor) (a.clip (Fl.div x (.fin a.tfactor))) = x := by
    intro x hx
    obtain ⟨u, h1, h2, rfl⟩ := hin x hx
    rw [Fl.div_fin _ ht, ← tfactor_eq, mul_div_cancel_left₀ _ ht, clip_clamp a hl]
    simp [Spec.clamp, h1, h2, Fl.mul]
  cases P with
  | d1 n f => exact absurd rfl (hP n f)
  | d2 A =>
    simp only [Act.transform, Act.itransform, Except.bind]
    rw [← map_rot90, ← map_rot90, ← map_rot90, rot90_rot90']
    simp only [map_map]
    congr 2
    obtain ⟨m, n, f⟩ := A
    simp only [Mat.map]
    congr 1
    funext q
    exact key _ ⟨q, rfl⟩
  | d3 d A =>
    simp only [Act.transform, Act.itransform, Except.bind]
    rw [← map_rot90, ← map_rot90, ← map_rot90, rot90_rot90']
    simp only [map_map]
    congr 2
    obtain ⟨m, n, f⟩ := A
    simp only [Mat.map]
    congr 1
    funext q i
    exact key _ ⟨q, i, rfl⟩

/-- **C58.**  What `transform` returns for a map: the map turned by `nrot` quarter turns, times the
factor; the shape is exchanged for an odd number. -/
theorem C58_value (a : Act) {m n : ℕ} (f : Fin m → Fin n → ℝ) :
    (a.nrot % 4 = 0 → a.transform (Spec.map2 f) =
      .ok (Spec.map2 fun i j => Spec.factor a * f i j)) ∧
    (a.nrot % 4 = 1 → a.transform (Spec.map2 f) =
      .ok (Spec.map2 fun i j => Spec.factor a * Spec.quarter f i j)) ∧
    (a.nrot % 4 = 2 → a.transform (Spec.map2 f) =
      .ok (Spec.map2 fun i j => Spec.factor a * Spec.half f i j)) ∧
    (a.nrot % 4 = 3 → a.transform (Spec.map2 f) =
      .ok (Spec.map2 fun i j => Spec.factor a * Spec.threeQuarter f i j)) := by
  rw [← tfactor_eq]
  refine ⟨fun h => ?_, fun h => ?_, fun h => ?_, fun h => ?_⟩ <;>
    simp only [Act.transform, Spec.map2]
  · rw [rot90_0 _ h]; rfl
  · rw [rot90_1 _ h]; rfl
  · rw [rot90_2 _ h]; rfl
  · rw [rot90_3 _ h]; rfl

/-- **C58.**  Every map of a stack is treated on its own. -/
theorem C58_stack (a : Act) {d m n : ℕ} (f : Fin d → Fin m → Fin n → ℝ) :
    (a.nrot % 4 = 0 → a.transform (Spec.stack f) =
      .ok (Spec.stack fun k i j => Spec.factor a * f k i j)) ∧
    (a.nrot % 4 = 1 → a.transform (Spec.stack f) =
      .ok (Spec.stack fun k i j => Spec.factor a * Spec.quarter (f k) i j)) ∧
    (a.nrot % 4 = 2 → a.transform (Spec.stack f) =
      .ok (Spec.stack fun k i j => Spec.factor a * Spec.half (f k) i j)) ∧
    (a.nrot % 4 = 3 → a.transform (Spec.stack f) =
      .ok (Spec.stack fun k i j => Spec.factor a * Spec.threeQuarter (f k) i j)) := by
  rw [← tfactor_eq]
  refine ⟨fun h => ?_, fun h => ?_, fun h => ?_, fun h => ?_⟩ <;>
    simp only [Act.transform, Spec.stack]
  · rw [rot90_0 _ h]; rfl
  · rw [rot90_1 _ h]; rfl
  · rw [rot90_2 _ h]; rfl
  · rw [rot90_3 _ h]; rfl

/-- **C58.**  `transform` is linear: stated for two maps and their combination. -/
theorem C58_linear (a : Act) {m n : ℕ} (f g : Fin m → Fin n → ℝ) (c e : ℝ) :
    ∃ (m' n' : ℕ) (F G : Fin m' → Fin n' → ℝ),
      a.transform (Spec.map2 f) = .ok (Spec.map2 F) ∧
      a.transform (Spec.map2 g) = .ok (Spec.map2 G) ∧
      a.transform (Spec.map2 fun i j => c * f i j + e * g i j) =
        .ok (Spec.map2 fun i j => c * F i j + e * G i j) := by
  have h : a.nrot % 4 = 0 ∨ a.nrot % 4 = 1 ∨ a.nrot % 4 = 2 ∨ a.nrot % 4 = 3 := by omega
  rcases h with h | h | h | h
  · refine ⟨_, _, _, _, (C58_value a f).1 h, (C58_value a g).1 h, ?_⟩
    rw [(C58_value a _).1 h]; congr 2; funext i j; ring
  · refine ⟨_, _, _, _, (C58_value a f).2.1 h, (C58_value a g).2.1 h, ?_⟩
    rw [(C58_value a _).2.1 h]; congr 2; funext i j; simp only [Spec.quarter]; ring
  · refine ⟨_, _, _, _, (C58_value a f).2.2.1 h, (C58_value a g).2.2.1 h, ?_⟩
    rw [(C58_value a _).2.2.1 h]; congr 2; funext i j; simp only [Spec.half]; ring
  · refine ⟨_, _, _, _, (C58_value a f).2.2.2 h, (C58_value a g).2.2.2 h, ?_⟩
    rw [(C58_value a _).2.2.2 h]; congr 2; funext i j; simp only [Spec.threeQuarter]; ring

/-! ## C59 -/

/-- **C59.**  Every displacement from `itransform` is within the limits, unless it is nan, which is
only possible where the phase is nan or the factor makes it so. -/
theorem C59_itransform (a : Act) (hf : a.frequency ≠ 0) (hs : a.sign ≠ 0)
    (hn : a.nReflections ≠ 0) (hl : a.minAmp ≤ a.maxAmp) (P out : Arr)
    (h : a.itransform P = .ok out) (hnan : ¬ Spec.Entry P .nan) (x : Fl) (hx : Spec.Entry out x) :
    ∃ r : ℝ, x = .fin r ∧ a.minAmp ≤ r ∧ r ≤ a.maxAmp := by
  have ht : a.tfactor ≠ 0 := by rw [tfactor_eq]; exact factor_ne hf hs hn
  have key : ∀ y : Fl, y ≠ .nan → ∃ r : ℝ, a.clip (Fl.div y (.fin a.tfactor)) = .fin r ∧
      a.minAmp ≤ r ∧ r ≤ a.maxAmp := by
    intro y hy
    rw [clip_clamp a hl]
    have hd : Fl.div y (.fin a.tfactor) ≠ .nan := by
      cases y with
      | nan => exact absurd rfl hy
      | pinf => simp only [Fl.div]; by_cases h : a.tfactor < 0 <;> simp [h]
      | ninf => simp only [Fl.div]; by_cases h : a.tfactor < 0 <;> simp [h]
      | fin r => rw [Fl.div_fin _ ht]; exact fun h => nomatch h
    cases hy' : Fl.div y (.fin a.tfactor) with
    | nan => exact absurd hy' hd
    | pinf => exact ⟨_, rfl, hl, le_rfl⟩
    | ninf => exact ⟨_, rfl, le_rfl, hl⟩
    | fin r => exact ⟨_, rfl, le_max_left _ _, max_le hl (min_le_left _ _)⟩
  cases P with
  | d1 n f => exact nomatch h
  | d2 A =>
    cases h
    obtain ⟨q, rfl⟩ := hx
    obtain ⟨q', hq⟩ := rot90_entry (A.map fun x => Fl.div x (.fin a.tfactor)) (-a.nrot) q
    simp only [Mat.map] at hq ⊢
    erw [hq]
    exact key _ fun h => hnan ⟨q', h⟩
  | d3 d A =>
    cases h
    obtain ⟨q, i, rfl⟩ := hx
    obtain ⟨q', hq⟩ := rot90_entry (A.map fun x i => Fl.div (x i) (.fin a.tfactor)) (-a.nrot) q
    simp only [Mat.map] at hq ⊢
    erw [congrFun hq i]
    exact key _ fun h => hnan ⟨q', i, h⟩

/-- **C59.**  A nan of the phase map is not caught by the limits: it is in the result. -/
theorem C59_nan (a : Act) (P out : Arr) (h : a.itransform P = .ok out)
    (hnan : Spec.Entry P .nan) : Spec.Entry out .nan := by
  cases P with
  | d1 n f => exact nomatch h
  | d2 A =>
    cases h
    obtain ⟨q, hq⟩ := hnan
    obtain ⟨q', hq'⟩ := entry_rot90 (A.map fun x => Fl.div x (.fin a.tfactor)) (-a.nrot) q
    refine ⟨q', ?_⟩
    simp only [Mat.map] at hq' ⊢
    erw [hq']
    simp only [hq, Fl.div]
    simp [Act.clip, Fl.lt]
  | d3 d A =>
    cases h
    obtain ⟨q, i, hq⟩ := hnan
    obtain ⟨q', hq'⟩ := entry_rot90 (A.map fun x i => Fl.div (x i) (.fin a.tfactor)) (-a.nrot) q
    refine ⟨q', i, ?_⟩
    simp only [Mat.map] at hq' ⊢
    erw [congrFun hq' i]
    simp only [hq, Fl.div]
    simp [Act.clip, Fl.lt]

/-! ## A concrete object -/

/-- The defaults of the class, actuator.py:58-61, and a small resolution. -/
noncomputable def Spec.effelsberg : Act :=
  { frequency := 34.75e9, nrot := 1, sign := -1, order := 5, sr := 3.25, pr := 50,
    resolution := 4, minAmp := -5000, maxAmp := 5000, nReflections := 2,
    spline := fun _ _ _ => .error .valueError, griddata := fun _ _ _ _ _ => .error .valueError }

/-- A 1x2 map becomes a 2x1 map. -/
example : Spec.effelsberg.transform (Spec.map2 fun (_ : Fin 1) (j : Fin 2) => (j : ℝ) + 1) =
    .ok (Spec.map2 fun (i : Fin 2) (_ : Fin 1) =>
      Spec.factor Spec.effelsberg * ((i.rev : ℕ) + 1 : ℝ)) :=
  (C58_value Spec.effelsberg _).2.1 rfl

example : (Spec.effelsberg.transform (.d2 ⟨1, 2, ![.fin 7000, .nan] ∘ Prod.snd⟩)).bind
    Spec.effelsberg.itransform =
    .ok (.d2 ⟨1, 2, ![.fin 5000, .nan] ∘ Prod.snd⟩) := by
  rw [C58_inverse Spec.effelsberg (by norm_num [Spec.effelsberg]) (by decide) (by decide)
    (by norm_num [Spec.effelsberg]) _ (fun _ _ => by simp)]
  simp only [Spec.each]
  congr 3
  funext q
  obtain ⟨i, j⟩ := q
  fin_cases j
  · simp [Spec.clamp, Spec.effelsberg]; norm_num
  · simp [Spec.clamp]

/-- The hypotheses of `C58_forward` are met by the phase of 3 mm everywhere. -/
example : (Spec.effelsberg.itransform
    (.d2 ⟨2, 3, fun _ => .fin (Spec.factor Spec.effelsberg * 3000)⟩)).bind
    Spec.effelsberg.transform = .ok (.d2 ⟨2, 3, fun _ => .fin (Spec.factor Spec.effelsberg * 3000)⟩) :=
  C58_forward Spec.effelsberg (by norm_num [Spec.effelsberg]) (by decide) (by decide)
    (by norm_num [Spec.effelsberg]) _ (fun _ _ => by simp) (by
      rintro x ⟨q, rfl⟩
      exact ⟨3000, by norm_num [Spec.effelsberg], by norm_num [Spec.effelsberg], rfl⟩)

end Verif.Props
