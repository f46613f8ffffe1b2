import Verif.Props.Actuator
import Verif.Lemmas.Lookup
import Mathlib.Algebra.Order.Round

/-!
# The look-up table of the actuators as a file (C59, C60)
-/

namespace Verif.Props

open Verif Verif.Np Verif.Actuator

/-! ## Specification -/

/-- Words joined by two blanks. -/
def Spec.joined : List Str → Str
  | [] => []
  | [w] => w
  | w :: l => w ++ ' ' :: ' ' :: Spec.joined l

/-- The line of actuator `k`, with its displacement at every elevation. -/
def Spec.lookupRow (k : ℕ) (l : List ℤ) : Str :=
  "NR ".toList ++ decNat (k + 1) ++ " ffff ".toList ++ Spec.joined (l.map decInt) ++ "\n".toList

/-- The lines of the first `n` actuators; `v j k` is the displacement of actuator `k` at elevation
number `j`. -/
def Spec.lookupRows {m n : ℕ} (v : Fin m → Fin n → ℤ) : Str :=
  (List.ofFn fun k : Fin n => Spec.lookupRow k (List.ofFn fun j : Fin m => v j k)).flatten

/-- A complete file. -/
def Spec.lookupText {m n : ℕ} (v : Fin m → Fin n → ℤ) : Str :=
  Spec.lookupRows v ++ "**ENDE**\n".toList

/-- `z` is the integer nearest to `x`, the even one of two. -/
def Spec.Nearest (x : ℝ) (z : ℤ) : Prop := |x - z| ≤ 1 / 2 ∧ (|x - z| = 1 / 2 → Even z)

/-- What is to be written for a displacement. -/
def Spec.Command (lo hi : ℝ) (x : Fl) (z : ℤ) : Prop :=
  match Spec.clamp lo hi x with
  | .fin r => Spec.Nearest r z
  | _ => z = -9223372036854775808

/-! ## Lemmas -/

theorem joined_eq (l : List Str) : "  ".toList.intercalate l = Spec.joined l := by
  induction l with
  | nil => rfl
  | cons w l ih =>
    cases l with
    | nil => rw [List.intercalate_singleton]; rfl
    | cons w' l =>
      rw [List.intercalate_cons_cons, ih]
      simp [Spec.joined]

theorem lookupLine_eq (k : ℕ) (l : List ℤ) :
    Act.lookupLine k (l.map decInt) = Spec.lookupRow k l := by
  unfold Act.lookupLine Spec.lookupRow; rw [joined_eq]; rfl

theorem rows_eq {m n : ℕ} (v : Fin m → Fin n → ℤ) :
    Spec.lookupRows v =
      (List.ofFn fun k : Fin n => ((k : ℕ), List.ofFn fun j : Fin m => v j k)).flatMap
        fun p => Act.lookupLine p.1 (p.2.map decInt) := by
  unfold Spec.lookupRows
  rw [List.flatMap_def, List.map_ofFn]
  congr 2
  funext k
  simp only [Function.comp, lookupLine_eq]

theorem around_nearest (x : ℝ) : Spec.Nearest x (Act.around x) := by
  have h0 := Int.floor_le x
  have h1 := Int.lt_floor_add_one x
  unfold Act.around Spec.Nearest
  by_cases h : x - ⌊x⌋ < 1 / 2
  · rw [if_pos h, abs_of_nonneg (by linarith)]
    exact ⟨h.le, fun h' => absurd h' h.ne⟩
  · rw [if_neg h]
    by_cases h2 : x - ⌊x⌋ > 1 / 2
    · rw [if_pos h2]
      push_cast
      rw [abs_of_nonpos (by linarith)]
      exact ⟨by linarith, fun h' => by linarith⟩
    · have h3 : x - ⌊x⌋ = 1 / 2 := le_antisymm (not_lt.1 h2) (not_lt.1 h)
      rw [if_neg h2]
      by_cases h4 : ⌊x⌋ % 2 = 0
      · rw [if_pos h4, abs_of_nonneg (by linarith)]
        exact ⟨h3.le, fun _ => Int.even_iff.2 h4⟩
      · rw [if_neg h4]
        push_cast
        rw [abs_of_nonpos (by linarith)]
        refine ⟨by linarith, fun _ => ?_⟩
        rw [Int.even_iff]; omega

/-- The order is kept. -/
theorem nearest_mono {x y : ℝ} {z w : ℤ} (hx : Spec.Nearest x z) (hy : Spec.Nearest y w)
    (h : x ≤ y) : z ≤ w := by
  by_contra hlt
  have h1 : (w : ℝ) + 1 ≤ z := by exact_mod_cast not_le.1 hlt
  have hx1 := (abs_le.1 hx.1).1
  have hy1 := (abs_le.1 hy.1).2
  have e1 : x - z = -(1 / 2) := by linarith
  have e2 : y - w = 1 / 2 := by linarith
  have e3 : (z : ℝ) = w + 1 := by linarith
  have e3' : z = w + 1 := by exact_mod_cast e3
  have p1 := hx.2 (by rw [e1, abs_neg, abs_of_pos (by norm_num)])
  have p2 := hy.2 (by rw [e2, abs_of_pos (by norm_num)])
  rw [e3'] at p1
  exact absurd (Int.even_add_one.1 p1) (by simpa using p2)

theorem nearest_unique {x : ℝ} {z w : ℤ} (hz : Spec.Nearest x z) (hw : Spec.Nearest x w) : z = w :=
  le_antisymm (nearest_mono hz hw le_rfl) (nearest_mono hw hz le_rfl)

theorem nearest_int (z : ℤ) : Spec.Nearest z z := by
  unfold Spec.Nearest
  rw [sub_self, abs_zero]
  exact ⟨by norm_num, fun h => by norm_num at h⟩

/-- The limits are such that they can be written. -/
def Spec.Writable (a : Act) : Prop :=
  a.minAmp ≤ a.maxAmp ∧ -(2 : ℝ) ^ 62 ≤ a.minAmp ∧ a.maxAmp ≤ 2 ^ 62

theorem command_ok {a : Act} (h : Spec.Writable a) (x : Fl) :
    Spec.Command a.minAmp a.maxAmp x (Act.commandOf (a.clip x)) := by
  obtain ⟨h, hlo, hhi⟩ := h
  rw [clip_clamp a h]
  have key : ∀ r : ℝ, a.minAmp ≤ r → r ≤ a.maxAmp →
      Spec.Nearest r (Act.commandOf (.fin r)) := by
    intro r h1 h2
    have hn := around_nearest r
    have b1 : -(2 : ℤ) ^ 62 ≤ Act.around r := by
      refine nearest_mono (nearest_int _) hn ?_
      push_cast; linarith
    have b2 : Act.around r ≤ (2 : ℤ) ^ 62 := by
      refine nearest_mono hn (nearest_int _) ?_
      push_cast; linarith
    simp only [Act.commandOf, Act.toInt64]
    rw [if_pos ⟨by omega, by omega⟩]
    exact hn
  unfold Spec.Command
  cases x with
  | nan => simp [Spec.clamp, Act.commandOf, Act.toInt64]
  | pinf => exact key _ h le_rfl
  | ninf => exact key _ le_rfl h
  | fin r => exact key _ (le_max_left _ _) (max_le h (min_le_left _ _))

theorem pmap_range {β : Type} {n : ℕ} (N : ℕ) (hN : N ≤ n) (g : (k : ℕ) → k < n → β)
    (h : ∀ k ∈ List.range N, k < n) :
    (List.range N).pmap g h = List.ofFn fun k : Fin N => g k (by omega) := by
  refine List.ext_getElem (by simp) fun i h1 h2 => ?_
  simp

/-! ## The file that is written -/

/-- **C60.**  Every table with 11 rows and at least 96 columns is written as a complete file whose
numbers are the displacements clipped to the limits and rounded to a micrometre, half to even; what
is beyond column 96 is dropped.  (C59: nan is written as the smallest 64 bit integer.) -/
theorem C60_file (a : Act) (ha : Spec.Writable a) {n : ℕ} (hn : 96 ≤ n) (t : Fin 11 → Fin n → Fl) :
    ∃ v : Fin 11 → Fin 96 → ℤ,
      a.writeLookup (.d2 ⟨11, n, fun q => t q.1 q.2⟩) = (.ok (), some (Spec.lookupText v)) ∧
      ∀ j k, Spec.Command a.minAmp a.maxAmp (t j (Fin.castLE hn k)) (v j k) := by
  refine ⟨fun j k => Act.commandOf (a.clip (t j (Fin.castLE hn k))), ?_, fun j k => command_ok ha _⟩
  have hk : ∀ k ∈ List.range 96, k < n := fun k hk => by
    have := List.mem_range.1 hk; omega
  simp only [Act.writeLookup]
  rw [Act.writeLines_ok _ _ hk, pmap_range 96 hn]
  simp only [Spec.lookupText]
  rw [rows_eq]
  rfl

/-- **C59.**  No number in a file that has been written is beyond the limits rounded to a
micrometre, when no displacement is nan. -/
theorem C59_written (a : Act) (ha : Spec.Writable a) {n : ℕ} (hn : 96 ≤ n)
    (t : Fin 11 → Fin n → Fl) (ht : ∀ j k, t j k ≠ .nan) (lo hi : ℤ)
    (hlo : Spec.Nearest a.minAmp lo) (hhi : Spec.Nearest a.maxAmp hi) :
    ∃ v : Fin 11 → Fin 96 → ℤ,
      (a.writeLookup (.d2 ⟨11, n, fun q => t q.1 q.2⟩)).2 = some (Spec.lookupText v) ∧
      ∀ j k, lo ≤ v j k ∧ v j k ≤ hi := by
  obtain ⟨v, hv, hc⟩ := C60_file a ha hn t
  refine ⟨v, by rw [hv], fun j k => ?_⟩
  have h := hc j k
  have hne := ht j (Fin.castLE hn k)
  have hl := ha.1
  unfold Spec.Command at h
  cases hx : t j (Fin.castLE hn k) with
  | nan => exact absurd hx hne
  | pinf => rw [hx] at h; exact ⟨nearest_mono hlo h hl, nearest_mono h hhi le_rfl⟩
  | ninf => rw [hx] at h; exact ⟨nearest_mono hlo h le_rfl, nearest_mono h hhi hl⟩
  | fin r =>
    rw [hx] at h
    exact ⟨nearest_mono hlo h (le_max_left _ _), nearest_mono h hhi (max_le hl (min_le_left _ _))⟩

/-- **C59.**  A nan in the table is written as a displacement of -9223372036854775808 micrometres,
far beyond the limits. -/
theorem C59_nan_written (a : Act) (ha : Spec.Writable a) {n : ℕ} (hn : 96 ≤ n)
    (t : Fin 11 → Fin n → Fl) (j : Fin 11) (k : Fin 96) (hnan : t j (Fin.castLE hn k) = .nan) :
    ∃ v : Fin 11 → Fin 96 → ℤ,
      a.writeLookup (.d2 ⟨11, n, fun q => t q.1 q.2⟩) = (.ok (), some (Spec.lookupText v)) ∧
      v j k = -9223372036854775808 ∧ (v j k : ℝ) < a.minAmp := by
  obtain ⟨v, hv, hc⟩ := C60_file a ha hn t
  have h := hc j k
  rw [hnan] at h
  have h' : v j k = -9223372036854775808 := h
  refine ⟨v, hv, h', ?_⟩
  rw [h']
  refine lt_of_lt_of_le ?_ ha.2.1
  norm_num

/-! ## Reading -/

theorem mapM_ofFn {α β : Type} {n : ℕ} (g : Fin n → α) (f : α → Option β) (w : Fin n → β)
    (h : ∀ k, f (g k) = some (w k)) : (List.ofFn g).mapM f = some (List.ofFn w) := by
  induction n with
  | zero => simp
  | succ n ih =>
    rw [List.ofFn_succ, List.ofFn_succ, List.mapM_cons, h 0, ih _ _ fun k => h k.succ]
    rfl

theorem mapM_ok {α β : Type} (l : List α) (f : α → Py β) (g : α → β)
    (h : ∀ x ∈ l, f x = .ok (g x)) : l.mapM f = .ok (l.map g) := by
  induction l with
  | nil => rfl
  | cons x l ih =>
    rw [List.mapM_cons, h x (by simp), ih fun x hx => h x (by simp [hx])]
    rfl

/-- The rows of a text. -/
theorem tableRows_rows {m n : ℕ} (v : Fin m → Fin n → ℤ) :
    Act.tableRows (Spec.lookupRows v) = List.ofFn fun k : Fin n =>
      "NR".toList :: decNat (k + 1) :: "ffff".toList :: List.ofFn fun j : Fin m => decInt (v j k) := by
  rw [rows_eq, Act.rows_lines, List.map_ofFn]
  congr 1
  funext k
  simp [Function.comp_def, List.map_ofFn]

theorem rows_star {m n : ℕ} (v : Fin m → Fin n → ℤ) : '*' ∉ Spec.lookupRows v := by
  rw [rows_eq]; exact Act.lines_no_star _

theorem before_rows {m n : ℕ} (v : Fin m → Fin n → ℤ) :
    Act.beforeEnd (Spec.lookupText v) = Spec.lookupRows v ∧
    Act.beforeEnd (Spec.lookupRows v) = Spec.lookupRows v := by
  constructor
  · have h := Act.beforeEnd_stop (rows_star v) ['\n']
    exact h
  · exact Act.beforeEnd_none (rows_star v)

theorem column_eq {n : ℕ} (v : Fin 11 → Fin n → ℤ) (j : ℕ) (hj : j < 11) :
    Act.intColumn (Act.tableRows (Spec.lookupRows v)) (j + 3) =
      .ok (List.ofFn fun k : Fin n => v ⟨j, hj⟩ k) := by
  unfold Act.intColumn
  have h : (Act.tableRows (Spec.lookupRows v)).mapM (fun r => (r[j + 3]?).bind Act.parseInt) =
      some (List.ofFn fun k : Fin n => v ⟨j, hj⟩ k) := by
    rw [tableRows_rows]
    refine mapM_ofFn _ _ _ fun k => ?_
    simp only [List.getElem?_cons_succ]
    rw [List.getElem?_ofFn, dif_pos hj, Option.bind_some, Act.parseInt_decInt]
  rw [h]

theorem rows_break {m n : ℕ} (hn : 0 < n) (v : Fin m → Fin n → ℤ) : '\n' ∈ Spec.lookupRows v := by
  unfold Spec.lookupRows
  exact List.mem_flatten.2 ⟨_, List.mem_ofFn.2 ⟨⟨0, hn⟩, rfl⟩, by simp [Spec.lookupRow]⟩

/-- The rows of a file with or without its end mark. -/
theorem fileRows_of {s : Str} {n : ℕ} (hn : 0 < n) (v : Fin 11 → Fin n → ℤ)
    (hs : Act.beforeEnd s = Spec.lookupRows v) :
    Act.fileRows s = .ok (Act.tableRows (Spec.lookupRows v)) := by
  unfold Act.fileRows
  rw [hs, if_neg (not_not.2 (rows_break hn v)), if_neg]
  rw [tableRows_rows]
  rintro (h | ⟨r, hr, hl⟩)
  · have := congrArg List.length h
    rw [List.length_ofFn] at this
    simp at this
    omega
  · obtain ⟨k, rfl⟩ := List.mem_ofFn.1 hr
    simp at hl

/-- All the columns of a file. -/
theorem lookupColumns_of {n : ℕ} (v : Fin 11 → Fin n → ℤ) :
    ((List.range 11).mapM fun j => Act.intColumn (Act.tableRows (Spec.lookupRows v)) (j + 3)) =
      .ok (List.ofFn fun j : Fin 11 => List.ofFn fun k : Fin n => v j k) := by
  rw [mapM_ok (List.range 11) (fun j => Act.intColumn (Act.tableRows (Spec.lookupRows v)) (j + 3))
    (fun j => if hj : j < 11 then List.ofFn fun k : Fin n => v ⟨j, hj⟩ k else []) (by
      intro j hj
      have hj := List.mem_range.1 hj
      rw [column_eq v j hj, dif_pos hj])]
  congr 1

/-- The displacements of a file, before they are put into the array. -/
theorem readLookup_of {s : Str} {n : ℕ} (hn : 0 < n) (v : Fin 11 → Fin n → ℤ)
    (hs : Act.beforeEnd s = Spec.lookupRows v) :
    Act.readLookup s = (List.ofFn fun j : Fin 11 => List.ofFn fun k : Fin n => v j k).mapM Act.assign96 := by
  unfold Act.readLookup
  rw [fileRows_of hn v hs]
  simp only [bind, Except.bind, lookupColumns_of v]

/-- **C60.**  Reading a complete file gives its numbers, for all contents. -/
theorem C60_read (v : Fin 11 → Fin 96 → ℤ) :
    Act.readLookup (Spec.lookupText v) =
      .ok (List.ofFn fun j : Fin 11 => List.ofFn fun k : Fin 96 => v j k) := by
  rw [readLookup_of (by norm_num) v (before_rows v).1, mapM_ok _ Act.assign96 id (by
    intro l hl
    obtain ⟨j, rfl⟩ := List.mem_ofFn.1 hl
    unfold Act.assign96
    rw [if_pos (List.length_ofFn)]
    rfl), List.map_id]

/-- **C60.**  Reading what has been written gives the displacements clipped and rounded. -/
theorem C60_round_trip (a : Act) (ha : Spec.Writable a) (t : Fin 11 → Fin 96 → Fl) :
    ∃ (s : Str) (v : Fin 11 → Fin 96 → ℤ),
      a.writeLookup (.d2 ⟨11, 96, fun q => t q.1 q.2⟩) = (.ok (), some s) ∧
      Act.readLookup s = .ok (List.ofFn fun j => List.ofFn fun k => v j k) ∧
      ∀ j k, Spec.Command a.minAmp a.maxAmp (t j k) (v j k) := by
  obtain ⟨v, h1, h2⟩ := C60_file a ha le_rfl t
  exact ⟨_, v, h1, C60_read v, h2⟩

/-- **C60.**  Writing what has been read reproduces the file, when it was written from a table
without nan; the limits need not be integers. -/
theorem C60_rewrite (a : Act) (ha : Spec.Writable a) (t : Fin 11 → Fin 96 → Fl)
    (ht : ∀ j k, t j k ≠ .nan) (v : Fin 11 → Fin 96 → ℤ)
    (hv : (a.writeLookup (.d2 ⟨11, 96, fun q => t q.1 q.2⟩)).2 = some (Spec.lookupText v)) :
    a.writeLookup (.d2 ⟨11, 96, fun q => .fin (v q.1 q.2)⟩) =
      (.ok (), some (Spec.lookupText v)) := by
  obtain ⟨w, h1, h2⟩ := C60_file a ha le_rfl t
  have hvw : v = w := by
    rw [h1] at hv
    have h := congrArg Act.readLookup (Option.some.inj hv)
    rw [C60_read, C60_read, Except.ok.injEq] at h
    have h' := List.ofFn_injective h
    funext j
    exact (List.ofFn_injective (congrFun h' j)).symm
  subst hvw
  obtain ⟨u, h3, h4⟩ := C60_file a ha le_rfl fun j k => .fin (v j k : ℝ)
  rw [h3]
  congr 3
  funext j k
  have h5 := h2 j k
  have h6 := h4 j k
  have hl := ha.1
  unfold Spec.Command at h5 h6
  simp only [Spec.clamp, Fin.castLE_rfl, id] at h5 h6
  -- a number `r` within the limits that is rounded to `v j k`
  obtain ⟨r, hr1, hr2, hr⟩ : ∃ r : ℝ, a.minAmp ≤ r ∧ r ≤ a.maxAmp ∧ Spec.Nearest r (v j k) := by
    cases hx : t j k with
    | nan => exact absurd hx (ht j k)
    | pinf => rw [hx] at h5; exact ⟨_, hl, le_rfl, h5⟩
    | ninf => rw [hx] at h5; exact ⟨_, le_rfl, hl, h5⟩
    | fin x => rw [hx] at h5; exact ⟨_, le_max_left _ _, max_le hl (min_le_left _ _), h5⟩
  have hz := nearest_int (v j k)
  rcases le_total (v j k : ℝ) r with h | h
  · -- clipped to something between `v j k` and `r`
    have c1 : (v j k : ℝ) ≤ max a.minAmp (min a.maxAmp (v j k)) :=
      le_max_of_le_right (le_min (h.trans hr2) le_rfl)
    have c2 : max a.minAmp (min a.maxAmp (v j k)) ≤ r := max_le hr1 ((min_le_right _ _).trans h)
    exact le_antisymm (nearest_mono h6 hr c2) (nearest_mono hz h6 c1)
  · have c1 : r ≤ max a.minAmp (min a.maxAmp (v j k)) := le_max_of_le_right (le_min hr2 h)
    have c2 : max a.minAmp (min a.maxAmp (v j k)) ≤ v j k := max_le (hr1.trans h) (min_le_right _ _)
    exact le_antisymm (nearest_mono h6 hz c2) (nearest_mono hr h6 c1)

/-- **C60.**  A table with too few columns raises `IndexError` when part of the file has been
written: the lines it has, and no end mark. -/
theorem C60_truncated (a : Act) (ha : Spec.Writable a) {m n : ℕ} (hn : n < 96)
    (t : Fin m → Fin n → Fl) :
    ∃ v : Fin m → Fin n → ℤ,
      a.writeLookup (.d2 ⟨m, n, fun q => t q.1 q.2⟩) =
        (.error .indexError, some (Spec.lookupRows v)) ∧
      (∀ j k, Spec.Command a.minAmp a.maxAmp (t j k) (v j k)) ∧ '*' ∉ Spec.lookupRows v := by
  refine ⟨fun j k => Act.commandOf (a.clip (t j k)), ?_, fun j k => command_ok ha _, rows_star _⟩
  have e : List.range 96 = List.range n ++ n :: List.range' (n + 1) (95 - n) := by
    rw [List.range_eq_range', List.range_eq_range', ← List.range'_succ]
    have h := @List.range'_append_1 0 n (95 - n + 1)
    rw [zero_add] at h
    rw [h]; congr 1; omega
  have hk : ∀ k ∈ List.range n, k < n := fun k hk => List.mem_range.1 hk
  simp only [Act.writeLookup]
  rw [e, Act.writeLines_short _ _ hk n (lt_irrefl n), pmap_range n le_rfl, rows_eq]

/-- **C60.**  Such a file is refused when it is read back, if it has any other number of lines than one: with
`ValueError`, an empty one with `FileNotFoundError`. -/
theorem C60_truncated_read {n : ℕ} (hn : n < 96) (hn1 : n ≠ 1) (v : Fin 11 → Fin n → ℤ) :
    Act.readLookup (Spec.lookupRows v) = .error (if n = 0 then .fileNotFoundError else .valueError) := by
  by_cases h0 : n = 0
  · subst h0
    rfl
  · rw [readLookup_of (by omega) v (before_rows v).2, if_neg h0, List.ofFn_succ, List.mapM_cons]
    have h2 : Act.assign96 (List.ofFn fun k : Fin n => v 0 k) = .error .valueError := by
      unfold Act.assign96
      rw [if_neg (by rw [List.length_ofFn]; omega)]
      split
      · rename_i x hx
        have := congrArg List.length hx
        rw [List.length_ofFn] at this
        simp at this; omega
      · rfl
    rw [h2]
    rfl

/-- **C60.**  With one line only the file is accepted, and the displacement of the first actuator is
taken for all 96. -/
theorem C60_one_line (v : Fin 11 → Fin 1 → ℤ) :
    Act.readLookup (Spec.lookupRows v) =
      .ok (List.ofFn fun j : Fin 11 => List.replicate 96 (v j 0)) := by
  rw [readLookup_of (by norm_num) v (before_rows v).2, mapM_ok _ Act.assign96 (fun l => List.replicate 96 (l.getD 0 0)) (by
    intro l hl
    obtain ⟨j, rfl⟩ := List.mem_ofFn.1 hl
    simp [Act.assign96]), List.map_ofFn]
  simp [Function.comp_def]

/-- **C60.**  A file with another number of elevations than 11 is refused. -/
theorem C60_wrong_width {m : ℕ} (hm : m ≠ 11) (v : Fin m → Fin 96 → ℤ) :
    Act.readLookup (Spec.lookupText v) = .error .valueError := by
  unfold Act.readLookup Act.fileRows
  rw [(before_rows v).1, if_neg (not_not.2 (rows_break (by norm_num) v)), if_pos]
  · rfl
  · right
    rw [tableRows_rows v]
    exact ⟨_, List.mem_ofFn.2 ⟨0, rfl⟩, by simp; omega⟩

/-- **C60.**  A stack of maps is first interpolated to the 96 actuators: the file is complete and
reading it gives that table clipped and rounded.  No file is opened when the interpolation fails. -/
theorem C60_stack (a : Act) (ha : Spec.Writable a) (d : ℕ) (A : Mat (Fin d → Fl)) :
    (∀ t, a.interp d A = .ok t → ∃ (s : Str) (v : Fin 11 → Fin 96 → ℤ),
      a.writeLookup (.d3 d A) = (.ok (), some s) ∧
      Act.readLookup s = .ok (List.ofFn fun j => List.ofFn fun k => v j k) ∧
      ∀ j k, Spec.Command a.minAmp a.maxAmp (t (j, k)) (v j k)) ∧
    (∀ e, a.interp d A = .error e → a.writeLookup (.d3 d A) = (.error e, none)) := by
  constructor
  · intro t h
    obtain ⟨s, v, h1, h2, h3⟩ := C60_round_trip a ha fun j k => t (j, k)
    refine ⟨s, v, ?_, h2, h3⟩
    rw [← h1]
    simp only [Act.writeLookup, h]
  · intro e h
    simp only [Act.writeLookup, h]

/-! ## Concrete cases -/

theorem effelsberg_writable : Spec.Writable Spec.effelsberg := by
  refine ⟨?_, ?_, ?_⟩ <;> norm_num [Spec.effelsberg]

example : Spec.Nearest 2.5 2 ∧ ¬ Spec.Nearest 2.5 3 := by
  constructor
  · refine ⟨by norm_num, fun _ => by decide⟩
  · rintro ⟨-, h⟩
    have := h (by norm_num [abs])
    exact absurd this (by decide)

/-- 6.1234 mm at every actuator is written as 5000 micrometres. -/
example : ∃ v : Fin 11 → Fin 96 → ℤ,
    Spec.effelsberg.writeLookup (.d2 ⟨11, 96, fun _ => .fin 6123.4⟩) =
      (.ok (), some (Spec.lookupText v)) ∧ ∀ j k, v j k = 5000 := by
  obtain ⟨v, h1, h2⟩ := C60_file Spec.effelsberg effelsberg_writable le_rfl fun _ _ => .fin 6123.4
  refine ⟨v, h1, fun j k => nearest_unique (x := 5000) ?_ ?_⟩
  · have h := h2 j k
    have e : max (-5000) (min 5000 (6123.4 : ℝ)) = 5000 := by norm_num
    simpa only [Spec.Command, Spec.clamp, Spec.effelsberg, e] using h
  · exact_mod_cast nearest_int 5000

example : Spec.lookupRow 6 [-12, 0, 345] = "NR 7 ffff -12  0  345\n".toList := by
  simp [Spec.lookupRow, Spec.joined, decInt, decNat, digitChar]

end Verif.Props
