import Verif.Model.Simulate
import Verif.Props.Aperture

/-! # C55: the trimming of simulated maps -/

namespace Verif.Props

open Verif Verif.Np Verif.Aperture Verif.Sim

/-! ## Lists -/

theorem filter_grid {α β : Type} (p : α → Bool) (r : β → Bool) (l : List α) (l' : List β) :
    (l.flatMap fun i => l'.map fun j => (i, j)).filter (fun q => p q.1 && r q.2) =
      (l.filter p).flatMap fun i => (l'.filter r).map fun j => (i, j) := by
  induction l with
  | nil => rfl
  | cons a l ih =>
    rw [List.flatMap_cons, List.filter_append, ih]
    by_cases ha : p a = true
    · rw [List.filter_cons_of_pos ha, List.flatMap_cons]
      congr 1
      rw [List.filter_map]
      congr 1
      apply List.filter_congr
      intro x _
      simp [ha]
    · rw [List.filter_cons_of_neg ha]
      have : (l'.map fun j => (a, j)).filter (fun q => p q.1 && r q.2) = [] := by
        rw [List.filter_eq_nil_iff]
        intro q hq
        obtain ⟨j, -, rfl⟩ := List.mem_map.1 hq
        simp [ha]
      rw [this, List.nil_append]

theorem grid_length {α β : Type} (l : List α) (l' : List β) :
    (l.flatMap fun i => l'.map fun j => (i, j)).length = l.length * l'.length := by
  induction l with
  | nil => simp
  | cons a l ih => simp [ih, Nat.succ_mul, Nat.add_comm]

theorem chunks_grid {α β : Type} (l : List α) (l' : List β) (g : α × β → ℝ) :
    chunks l'.length l.length ((l.flatMap fun i => l'.map fun j => (i, j)).map g) =
      l.map fun i => l'.map fun j => g (i, j) := by
  induction l with
  | nil => rfl
  | cons a l ih =>
    have e : ((a :: l).flatMap fun i => l'.map fun j => (i, j)).map g =
        (l'.map fun j => g (a, j)) ++ ((l.flatMap fun i => l'.map fun j => (i, j)).map g) := by
      rw [List.flatMap_cons, List.map_append, List.map_map]
      rfl
    rw [e, List.length_cons, chunks, List.map_cons]
    congr 1
    · rw [List.take_left' (by simp)]
    · rw [List.drop_left' (by simp), ih]

theorem pyInt_sqrt (n : ℕ) : (pyInt (Real.sqrt ((n * n : ℕ) : ℝ))).toNat = n := by
  have : Real.sqrt ((n * n : ℕ) : ℝ) = n := by
    rw [Nat.cast_mul, Real.sqrt_mul_self (Nat.cast_nonneg n)]
  rw [this]
  unfold pyInt
  rw [if_pos (Nat.cast_nonneg n)]
  simp

/-! ## The trimming -/

open Classical in
/-- The coordinates of an axis that pass. -/
noncomputable def passing {N : ℕ} (u : Fin N → ℝ) (s : ℝ → Prop) : List (Fin N) :=
  (List.finRange N).filter fun i => s (u i)

open Classical in
theorem power_list {N : ℕ} (P : Pattern N) (lim : ℝ) :
    (cOrder N).filterMap (putNan (putNan (putNan (putNan (fun q => some (‖P.F q‖ ^ 2))
      fun q => -lim > meshX P.u P.v q) fun q => lim < meshX P.u P.v q)
      fun q => -lim > meshY P.u P.v q) fun q => lim < meshY P.u P.v q) =
    ((passing P.v fun x => |x| ≤ lim).flatMap fun i =>
      (passing P.u fun x => |x| ≤ lim).map fun j => (i, j)).map fun q => ‖P.F q‖ ^ 2 := by
  unfold passing
  rw [← filter_grid, ← List.filterMap_eq_map, List.filterMap_filter]
  unfold cOrder
  congr 1
  funext q
  unfold putNan meshX meshY
  by_cases h1 : |P.u q.2| ≤ lim
  · by_cases h2 : |P.v q.1| ≤ lim
    · rw [abs_le] at h1 h2
      simp [abs_le, h1, h2, not_lt.2 h1.1, not_lt.2 h1.2, not_lt.2 h2.1, not_lt.2 h2.2]
    · have : lim < P.v q.1 ∨ -lim > P.v q.1 := by
        rw [abs_le] at h2
        by_contra hc
        push Not at hc
        exact h2 ⟨hc.2, hc.1⟩
      rcases this with h | h
      · simp [h2, h]
      · simp [h2, h]
  · have : lim < P.u q.2 ∨ -lim > P.u q.2 := by
      rw [abs_le] at h1
      by_contra hc
      push Not at hc
      exact h1 ⟨hc.2, hc.1⟩
    rcases this with h | h
    · simp [h1, h]
    · simp [h1, h]

open Classical in
theorem box_list {N : ℕ} (P : Pattern N) (lim : ℝ) (g : Fin N × Fin N → ℝ) :
    select g (fun q => -lim < meshX P.u P.v q ∧ lim > meshX P.u P.v q ∧ -lim < meshY P.u P.v q ∧
      lim > meshY P.u P.v q) =
    ((passing P.v fun x => |x| < lim).flatMap fun i =>
      (passing P.u fun x => |x| < lim).map fun j => (i, j)).map g := by
  unfold passing select
  rw [← filter_grid]
  congr 1
  unfold cOrder
  apply List.filter_congr
  intro q _
  unfold meshX meshY
  simp only [abs_lt, decide_eq_decide, gt_iff_lt, ← Bool.decide_and]
  tauto

/-- `trim` in terms of the coordinates that pass; the axes are equal. -/
theorem trim_eq {N : ℕ} (P : Pattern N) (lim : ℝ) (huv : P.u = P.v) :
    trim P lim =
      let A := passing P.u fun x => |x| ≤ lim
      let B := passing P.u fun x => |x| < lim
      if A.length = B.length then
        .ok ⟨A.map fun i => A.map fun j => ‖P.F (i, j)‖ ^ 2, B.map fun _ => B.map fun j => P.u j,
          B.map fun i => B.map fun _ => P.u i⟩
      else .error .valueError := by
  unfold trim
  simp only [power_list, box_list]
  rw [← huv]
  set A := passing P.u fun x => |x| ≤ lim
  set B := passing P.u fun x => |x| < lim
  have hA : (List.map (fun q => ‖P.F q‖ ^ 2) (A.flatMap fun i => A.map fun j => (i, j))).length =
      A.length * A.length := by rw [List.length_map, grid_length]
  simp only [hA, pyInt_sqrt]
  unfold reshape
  simp only [List.length_map, grid_length, chunks_grid, if_true]
  by_cases h : A.length = B.length
  · rw [if_pos h, if_pos (by rw [h])]
    simp only [bind, Except.bind, pure, Except.pure, h, chunks_grid]
    rfl
  · rw [if_neg h, if_neg]
    · rfl
    · intro h2
      rcases Nat.lt_trichotomy A.length B.length with h3 | h3 | h3
      · have := Nat.mul_self_lt_mul_self h3; omega
      · exact h h3
      · have := Nat.mul_self_lt_mul_self h3; omega

open Classical in
theorem passing_mem {N : ℕ} (u : Fin N → ℝ) (s : ℝ → Prop) (i : Fin N) :
    i ∈ passing u s ↔ s (u i) := by
  unfold passing
  simp

open Classical in
theorem passing_sorted {N : ℕ} (u : Fin N → ℝ) (s : ℝ → Prop) :
    (passing u s).Pairwise (· < ·) :=
  (List.pairwise_lt_finRange N).sublist List.filter_sublist

open Classical in
theorem passing_length {N : ℕ} (u : Fin N → ℝ) (lim : ℝ) :
    (passing u fun x => |x| ≤ lim).length = (passing u fun x => |x| < lim).length ↔
      ∀ i, |u i| ≠ lim := by
  have hs : (passing u fun x => |x| < lim).Sublist (passing u fun x => |x| ≤ lim) := by
    unfold passing
    have : (List.finRange N).filter (fun i => decide (|u i| < lim)) =
        ((List.finRange N).filter fun i => decide (|u i| ≤ lim)).filter fun i => decide (|u i| < lim) := by
      rw [List.filter_filter]
      apply List.filter_congr
      intro i _
      by_cases h : |u i| < lim
      · simp [h, h.le]
      · simp [h]
    rw [this]
    exact List.filter_sublist
  constructor
  · intro h i hi
    have := hs.eq_of_length h.symm
    have h1 : i ∈ passing u fun x => |x| ≤ lim := (passing_mem _ _ _).2 hi.le
    rw [← this, passing_mem] at h1
    exact absurd hi h1.ne
  · intro h
    unfold passing
    congr 2
    funext i
    simp only [decide_eq_decide]
    exact ⟨fun h1 => lt_of_le_of_ne h1 (h i), le_of_lt⟩

/-- The maps `t` are the part of the pattern at the grid indices `J`, row and column alike. -/
def Spec.Restricts {N : ℕ} (P : Pattern N) (J : List (Fin N)) (t : Trim) : Prop :=
  t.p = (J.map fun i => J.map fun j => ‖P.F (i, j)‖ ^ 2) ∧
  t.u = (J.map fun _ => J.map fun j => P.u j) ∧
  t.v = (J.map fun i => J.map fun _ => P.v i)

/-- The grid indices inside the limit, in ascending order. -/
def Spec.Inside {N : ℕ} (P : Pattern N) (lim : ℝ) (J : List (Fin N)) : Prop :=
  J.Pairwise (· < ·) ∧ ∀ i, i ∈ J ↔ |P.u i| < lim

/-- The limit of the maps: 8 times 1.22 wavelengths over the diameter. -/
noncomputable def Spec.limit (wavel pr : ℝ) : ℝ := 8 * 1.22 * wavel / (2 * pr)

/-- **C55**. If no coordinate lies exactly on the limit, the trimmed maps of power, `u` and `v` are
square, of equal size and aligned: they are the part of the pattern at the coordinates inside the
limit. -/
theorem C55_trim {N : ℕ} (a : Sim.Input N) (i : Fin 3) (P : Pattern N)
    (hP : radiationPattern a.I a.K (a.dz i) a.wavel a.illum a.tel a.boxFactor = .ok P)
    (h : ∀ k, |P.u k| ≠ Spec.limit a.wavel a.tel.pr) :
    ∃ t J, simMap a i = .ok t ∧ Spec.Inside P (Spec.limit a.wavel a.tel.pr) J ∧
      Spec.Restricts P J t := by
  have huv : P.u = P.v := by
    obtain ⟨-, E, -, rfl⟩ := radiationPattern_ok hP
    rfl
  have hl : sizeInBw a = Spec.limit a.wavel a.tel.pr := by
    unfold sizeInBw Spec.limit
    ring
  have he : passing P.u (fun x => |x| ≤ Spec.limit a.wavel a.tel.pr) =
      passing P.u (fun x => |x| < Spec.limit a.wavel a.tel.pr) := by
    unfold passing
    apply List.filter_congr
    intro k _
    simp only [decide_eq_decide]
    exact ⟨fun h1 => lt_of_le_of_ne h1 (h k), le_of_lt⟩
  unfold simMap
  rw [hP]
  simp only [bind, Except.bind]
  rw [trim_eq _ _ huv, hl]
  dsimp only
  rw [he, if_pos rfl]
  exact ⟨_, _, rfl, ⟨passing_sorted _ _, fun i => passing_mem _ (fun x => |x| < _) _⟩, rfl, rfl,
    by rw [← huv]⟩

/-- **C55**. If a coordinate lies exactly on the limit, the reshape fails with `ValueError`. -/
theorem C55_tie {N : ℕ} (a : Sim.Input N) (i : Fin 3) (P : Pattern N)
    (hP : radiationPattern a.I a.K (a.dz i) a.wavel a.illum a.tel a.boxFactor = .ok P)
    (k : Fin N) (h : |P.u k| = Spec.limit a.wavel a.tel.pr) : simMap a i = .error .valueError := by
  obtain ⟨hN, E, -, rfl⟩ := radiationPattern_ok hP
  have hl : sizeInBw a = Spec.limit a.wavel a.tel.pr := by
    unfold sizeInBw Spec.limit
    ring
  unfold simMap
  rw [hP]
  simp only [bind, Except.bind]
  rw [trim_eq _ _ rfl, hl]
  dsimp only at h ⊢
  rw [if_neg]
  intro hc
  exact (passing_length _ _).1 hc k h

/-- **C55**. When a coordinate lies on the limit, whatever wavelength and radius: `k (N - 1) = 9.76 N
box_factor` for the distance `k` of an index from the centre. -/
theorem C55_tie_iff {N : ℕ} (I K : List ℝ) (dz wavel : ℝ) (illum : Illum (Fin N × Fin N))
    (tel : TelGeo (Fin N × Fin N)) (bf : ℝ) (P : Pattern N) (hpr : 0 < tel.pr) (hbf : 0 < bf)
    (hw : 0 < wavel) (hP : radiationPattern I K dz wavel illum tel bf = .ok P) (k : Fin N) :
    |P.u k| = Spec.limit wavel tel.pr ↔
      |((k : ℕ) : ℝ) - (N / 2 : ℕ)| * (N - 1) = 9.76 * N * bf := by
  obtain ⟨hN, E, -, rfl⟩ := radiationPattern_ok hP
  have hN0 : (2 : ℝ) ≤ N := by exact_mod_cast hN
  have hN1 : (0 : ℝ) < (N : ℝ) - 1 := by linarith
  have hN2 : (0 : ℝ) < N := by linarith
  have hc : wavel / (2 * N * tel.pr * bf) ≠ 0 := by positivity
  have e1 : |(((k : ℕ) : ℝ) - ((N / 2 : ℕ) : ℝ)) / (N * (2 * (tel.pr * bf) / ((N : ℝ) - 1))) * wavel| =
      |((k : ℕ) : ℝ) - (N / 2 : ℕ)| * (N - 1) * (wavel / (2 * N * tel.pr * bf)) := by
    rw [abs_mul, abs_div, abs_of_pos hw,
      abs_of_pos (show (0 : ℝ) < N * (2 * (tel.pr * bf) / ((N : ℝ) - 1)) by positivity)]
    field_simp
  have e2 : Spec.limit wavel tel.pr = 9.76 * N * bf * (wavel / (2 * N * tel.pr * bf)) := by
    unfold Spec.limit
    field_simp
    norm_num
  dsimp only
  rw [e1, e2, mul_left_inj' hc]

/-- A dish, with the resolution and box factor of a tie. -/
noncomputable def tieInput (N : ℕ) (bf : ℝ) : Sim.Input N where
  I := [1, -14, 2, 0, 0]
  K := [0, 0.1, 0.2]
  wavel := 0.009
  dz := ![-0.022, 0, 0.022]
  illum := fun _ _ _ _ => .ok fun _ => 1
  tel := ⟨fun _ _ => .ok fun _ => 1, fun _ _ _ => .ok fun _ => 0, 50⟩
  noise := 0
  boxFactor := bf
  workDir := ["home".toList]
  draws := fun _ _ _ => 0
  now := "2020-01-01T00:00:00".toList
  f32 := id

theorem tie_pattern {N : ℕ} (hN : 2 ≤ N) (bf : ℝ) (i : Fin 3) :
    ∃ P, radiationPattern (tieInput N bf).I (tieInput N bf).K ((tieInput N bf).dz i)
      (tieInput N bf).wavel (tieInput N bf).illum (tieInput N bf).tel (tieInput N bf).boxFactor = .ok P := by
  rw [C14_ok_iff _ _ _ _ _ hN]
  obtain ⟨W, hW⟩ : ∃ W, wavefront (fun q : Fin N × Fin N => (cart2pol
      (linspace (-((tieInput N bf).tel.pr * (tieInput N bf).boxFactor))
        ((tieInput N bf).tel.pr * (tieInput N bf).boxFactor) N q.2)
      (linspace (-((tieInput N bf).tel.pr * (tieInput N bf).boxFactor))
        ((tieInput N bf).tel.pr * (tieInput N bf).boxFactor) N q.1)).1 / (tieInput N bf).tel.pr)
      (fun q => (cart2pol
      (linspace (-((tieInput N bf).tel.pr * (tieInput N bf).boxFactor))
        ((tieInput N bf).tel.pr * (tieInput N bf).boxFactor) N q.2)
      (linspace (-((tieInput N bf).tel.pr * (tieInput N bf).boxFactor))
        ((tieInput N bf).tel.pr * (tieInput N bf).boxFactor) N q.1)).2) [0, 0.1, 0.2] = .ok W :=
    ⟨_, wavefront_ok _ _ _ 1 rfl⟩
  unfold aperture
  simp only [tieInput] at hW ⊢
  simp only [hW, bind, Except.bind, pure, Except.pure]
  exact ⟨_, rfl⟩

/-- A tie: resolution 550 and box factor 9. -/
example : simMap (tieInput 550 9) 0 = .error .valueError := by
  obtain ⟨P, hP⟩ := tie_pattern (N := 550) (by norm_num) 9 0
  refine C55_tie _ 0 P hP ⟨275 + 88, by norm_num⟩ ?_
  rw [C55_tie_iff _ _ _ _ _ _ _ P (by simp [tieInput]) (by simp [tieInput]) (by simp [tieInput]; norm_num) hP]
  simp [tieInput]
  norm_num

/-- No tie: resolution 512 and box factor 5. -/
example : ∃ t, simMap (tieInput 512 5) 0 = .ok t := by
  obtain ⟨P, hP⟩ := tie_pattern (N := 512) (by norm_num) 5 0
  obtain ⟨t, -, ht, -⟩ := C55_trim _ 0 P hP fun k => by
    intro h
    rw [C55_tie_iff _ _ _ _ _ _ _ P (by simp [tieInput]) (by simp [tieInput])
      (by simp [tieInput]; norm_num) hP] at h
    have e : |((k : ℕ) : ℝ) - ((512 / 2 : ℕ) : ℝ)| = ((|((k : ℕ) : ℤ) - 256| : ℤ) : ℝ) := by
      push_cast
      norm_num
    rw [e] at h
    have h2 : |((k : ℕ) : ℤ) - 256| * 5110 = 249856 := by
      have h3 : ((|((k : ℕ) : ℤ) - 256| * 5110 : ℤ) : ℝ) = ((249856 : ℤ) : ℝ) := by
        rw [Int.cast_mul]
        simp only [tieInput] at h
        norm_num at h ⊢
        linarith
      exact_mod_cast h3
    omega
  exact ⟨t, ht⟩

end Verif.Props
