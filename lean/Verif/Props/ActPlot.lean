import Verif.Model.ActPlot
import Verif.Props.Rings
import Verif.Props.PlotBeam

/-! # C86: the figure of the look-up table -/

namespace Verif.Props

open Verif Verif.Np Verif.MathFn Verif.Plot Verif.Actuator

/-! ## Specification -/

/-- What the panel of elevation number `e` shows of a stack of maps over a disc of the given radius,
`f e i j` being the value at `(x_j, y_i)`. -/
structure Spec.ShowsMap {d N : ℕ} (org : Origin) (radius : ℝ) (f : Fin d → Fin N → Fin N → ℝ) (e : Fin 11)
    (p : Act.Panel N) : Prop where
  /-- the elevation in the legend -/
  legend : [7, 10, 20, 30, 32, 40, 50, 60, 70, 80, 90][(e : ℕ)]? = some p.alpha
  /-- the map, and the pixel over each sample -/
  pixels : ∀ (e' : Fin d), (e' : ℕ) = e → ∀ i j, p.img.data (i, j) = .fin (f e' i j) ∧
    ∀ q, Spec.Covers p.img q (Spec.axis radius N j) (Spec.axis radius N i) ↔ q = (Spec.rowAt org i, j)
  /-- the axes of the contours -/
  axes : ∀ k : Fin N, p.cx k = Spec.axis radius N k ∧ p.cy k = Spec.axis radius N k
  /-- one colour scale for all maps of the stack -/
  colours : ∃ lo hi, p.img.vmin = .fin lo ∧ p.img.vmax = .fin hi ∧
    (∀ e i j, lo ≤ f e i j ∧ f e i j ≤ hi) ∧ (∃ e i j, f e i j = lo) ∧ ∃ e i j, f e i j = hi

/-! ## Levels -/

theorem act_factor (a : Act) : a.tfactor = Spec.factor a := by
  unfold Act.tfactor Act.wavel Spec.factor
  norm_num
  ring

theorem phase_levels (a : Act) : a.levels true = List.ofFn fun k : Fin 9 => (-2 + (k : ℕ) / 2 : ℝ) := by
  simp only [Act.levels, if_true]
  congr 1
  funext k
  rw [linspace_step]
  push_cast
  ring

/-- **C86** the contours of a phase figure are at -2, -1.5, ..., 2 rad; those of a displacement figure
are in ascending order at the displacements that `transform` takes to these phases times half the
number of reflections. -/
theorem C86_levels (a : Act) (hf : 0 < a.frequency) (hs : a.sign ≠ 0)
    (hn : a.nReflections ≠ 0) :
    a.levels true = List.ofFn (fun k : Fin 9 => (-2 + (k : ℕ) / 2 : ℝ)) ∧
    (a.levels false).Pairwise (· < ·) ∧ (a.levels false).length = 9 ∧
    ∀ x, x ∈ a.levels false ↔ ∃ k : Fin 9, Spec.factor a * x = a.nReflections / 2 * (-2 + (k : ℕ) / 2) := by
  have hw : 0 < a.wavel := by unfold Act.wavel; positivity
  have hs' : (a.sign : ℝ) ≠ 0 := by exact_mod_cast hs
  have hpi := Real.pi_pos
  set c := a.wavel / (a.sign * 4 * Real.pi) with hc
  have hc0 : c ≠ 0 := by rw [hc]; positivity
  have hl : a.levels false = ((List.ofFn fun k : Fin 9 => (-2 + (k : ℕ) / 2 : ℝ)).map fun x => x * c).insertionSort
      (· ≤ ·) := by
    rw [← phase_levels a]
    rfl
  have hperm := List.perm_insertionSort (· ≤ ·)
    ((List.ofFn fun k : Fin 9 => (-2 + (k : ℕ) / 2 : ℝ)).map fun x => x * c)
  refine ⟨phase_levels a, ?_, ?_, fun x => ?_⟩
  · rw [hl]
    have h1 := List.pairwise_insertionSort (· ≤ ·)
      ((List.ofFn fun k : Fin 9 => (-2 + (k : ℕ) / 2 : ℝ)).map fun x => x * c)
    have h2 : (((List.ofFn fun k : Fin 9 => (-2 + (k : ℕ) / 2 : ℝ)).map fun x => x * c).insertionSort
        (· ≤ ·)).Nodup := by
      rw [hperm.nodup_iff, List.nodup_map_iff (fun x y h => mul_right_cancel₀ hc0 h), List.nodup_ofFn]
      intro i j h
      simp only [add_right_inj] at h
      have : ((i : ℕ) : ℝ) = (j : ℕ) := by linarith
      exact Fin.ext (by exact_mod_cast this)
    exact h1.imp₂ (fun x y h h' => lt_of_le_of_ne h h') h2
  · rw [hl, List.length_insertionSort, List.length_map, List.length_ofFn]
  · rw [hl, hperm.mem_iff, List.mem_map]
    have hfac : Spec.factor a * c = a.nReflections / 2 := by
      rw [← act_factor, hc]
      unfold Act.tfactor
      field_simp
      ring
    constructor
    · rintro ⟨y, hy, rfl⟩
      obtain ⟨k, rfl⟩ := List.mem_ofFn.1 hy
      exact ⟨k, by rw [← hfac]; ring⟩
    · rintro ⟨k, hk⟩
      refine ⟨_, List.mem_ofFn.2 ⟨k, rfl⟩, ?_⟩
      have hn' : (a.nReflections : ℝ) ≠ 0 := by exact_mod_cast hn
      have hf0 : Spec.factor a ≠ 0 := by
        intro h0
        rw [h0, zero_mul] at hfac
        exact hn' (by linarith)
      refine mul_left_cancel₀ hf0 ?_
      rw [hk, ← hfac]
      ring

/-- **C86** with two reflections, the value of the class, and with no other number a displacement is
on a contour line exactly where the phase that belongs to it is on one. -/
theorem C86_contours (a : Act) (hf : 0 < a.frequency) (hs : a.sign ≠ 0) (hn : 0 < a.nReflections) :
    (∀ x, x ∈ a.levels false ↔ Spec.factor a * x ∈ a.levels true) ↔ a.nReflections = 2 := by
  obtain ⟨h1, -, -, h2⟩ := C86_levels a hf hs hn.ne'
  have hn' : (0 : ℝ) < a.nReflections := by exact_mod_cast hn
  have hmem : ∀ y, y ∈ a.levels true ↔ ∃ k : Fin 9, y = -2 + (k : ℕ) / 2 := by
    intro y
    rw [h1, List.mem_ofFn]
    exact exists_congr fun k => eq_comm
  simp only [h2, hmem]
  constructor
  · intro h
    have hf0 : Spec.factor a ≠ 0 := by
      unfold Spec.factor
      have : (a.sign : ℝ) ≠ 0 := by exact_mod_cast hs
      have := Real.pi_pos
      positivity
    -- the largest level of each
    obtain ⟨k, hk⟩ := (h (a.nReflections / Spec.factor a)).1 ⟨8, by
      rw [mul_div_cancel₀ _ hf0]; norm_num⟩
    rw [mul_div_cancel₀ _ hf0] at hk
    obtain ⟨k', hk'⟩ := (h (2 / Spec.factor a)).2 ⟨8, by rw [mul_div_cancel₀ _ hf0]; norm_num⟩
    rw [mul_div_cancel₀ _ hf0] at hk'
    have hk8 : ((k : ℕ) : ℝ) ≤ 8 := by exact_mod_cast (by omega : (k : ℕ) ≤ 8)
    have hk8' : ((k' : ℕ) : ℝ) ≤ 8 := by exact_mod_cast (by omega : (k' : ℕ) ≤ 8)
    have : (a.nReflections : ℝ) = 2 := by nlinarith
    exact_mod_cast this
  · intro h x
    rw [h]
    norm_num

/-! ## Panels -/

theorem univ_list_ne {d m n : ℕ} (hd : 0 < d) (hm : 0 < m) (hn : 0 < n) :
    (Finset.univ : Finset ((Fin m × Fin n) × Fin d)).toList ≠ [] := by
  rw [ne_eq, Finset.toList_eq_nil]
  exact Finset.Nonempty.ne_empty ⟨((⟨0, hm⟩, ⟨0, hn⟩), ⟨0, hd⟩), Finset.mem_univ _⟩

/-- **C86** a stack with a map for each of the eleven elevations, on the grid of the object: eleven
panels, each with the map of its elevation at its place, all with the same colours. -/
theorem C86_panels (a : Act) (org : Origin) (isPhase : Bool) (hpr : 0 < a.pr) (hsr : 0 < a.sr)
    (hN : 2 ≤ a.resolution) {d : ℕ} (hd : 11 ≤ d)
    (f : Fin d → Fin a.resolution → Fin a.resolution → ℝ) :
    ∃ ps, a.plot org isPhase d ⟨a.resolution, a.resolution, fun q e => .fin (f e q.1 q.2)⟩ = .ok ps ∧
      ps.length = 11 ∧ ∀ (e : Fin 11) p, ps[(e : ℕ)]? = some p →
        Spec.ShowsMap org (if isPhase then a.pr else a.sr) f e p ∧ p.levels = a.levels isPhase := by
  set radius := if isPhase then a.pr else a.sr with hrad
  have hr : 0 < radius := by rw [hrad]; split_ifs <;> assumption
  have hne := univ_list_ne (d := d) (m := a.resolution) (n := a.resolution) (by omega) (by omega) (by omega)
  have hmap : (Finset.univ : Finset ((Fin a.resolution × Fin a.resolution) × Fin d)).toList.map
      (fun q => Fl.fin (f q.2 q.1.1 q.1.2)) =
      ((Finset.univ : Finset ((Fin a.resolution × Fin a.resolution) × Fin d)).toList.map
      fun q => f q.2 q.1.1 q.1.2).map Fl.fin := by rw [List.map_map]; rfl
  obtain ⟨lo, hlo, hmin, hlo'⟩ := arrMin_fin ((Finset.univ : Finset ((Fin a.resolution × Fin a.resolution) ×
    Fin d)).toList.map fun q => f q.2 q.1.1 q.1.2) (by simpa using hne)
  obtain ⟨hi, hhi, hmax, hhi'⟩ := arrMax_fin ((Finset.univ : Finset ((Fin a.resolution × Fin a.resolution) ×
    Fin d)).toList.map fun q => f q.2 q.1.1 q.1.2) (by simpa using hne)
  unfold Act.plot
  dsimp only
  rw [hmap, hmin, hmax]
  simp only [bind, Except.bind]
  have h11 : ∀ p : ℕ × ℕ, p ∈ (List.range Act.alphaLookup.length).zip Act.alphaLookup → p.1 < d := by
    intro p hp
    have := (List.of_mem_zip hp).1
    rw [List.mem_range] at this
    exact lt_of_lt_of_le this hd
  refine ⟨_, mapM_ok _ _ (fun p => ⟨⟨fun q => Fl.fin (f ⟨p.1 % d, Nat.mod_lt _ (by omega)⟩ q.1 q.2),
      -radius, radius, -radius, radius, org, .fin lo, .fin hi⟩, linspace (-radius) radius a.resolution,
      linspace (-radius) radius a.resolution, a.levels isPhase, p.2⟩) ?_, ?_, fun e p hp => ?_⟩
  · intro p hp
    have hj := h11 p hp
    rw [dif_pos hj, dif_pos (by simpa using hN)]
    simp only [Nat.mod_eq_of_lt hj]
    rfl
  · rw [List.length_map, List.length_zip, List.length_range]
    rfl
  · rw [List.getElem?_map, Option.map_eq_some_iff] at hp
    obtain ⟨⟨k, al⟩, hz, rfl⟩ := hp
    obtain ⟨hk, hal⟩ := List.getElem?_zip_eq_some.1 hz
    have hk' : k = e := by
      rw [List.getElem?_range (by exact e.2)] at hk
      exact (Option.some.inj hk).symm
    subst hk'
    have hx : ∀ k : Fin a.resolution, linspace (-radius) radius a.resolution k = Spec.axis radius a.resolution k :=
      fun k => linspace_axis _ _ _
    have hN1 : (0 : ℝ) < (a.resolution : ℝ) - 1 := by
      have : (2 : ℝ) ≤ a.resolution := by exact_mod_cast hN
      linarith
    refine ⟨⟨hal, fun e' he' i j => ⟨?_, fun q => ?_⟩, fun k => ⟨hx k, hx k⟩, lo, hi, rfl, rfl, ?_, ?_, ?_⟩, rfl⟩
    · have : (⟨(e : ℕ) % d, Nat.mod_lt _ (by omega)⟩ : Fin d) = e' := by
        apply Fin.ext
        rw [← he']
        exact Nat.mod_eq_of_lt e'.2
      simp only [this]
    · rw [← hx, ← hx]
      have hend : linspace (-radius) radius a.resolution ⟨a.resolution - 1, by omega⟩ = radius := by
        rw [linspace_step, Nat.cast_sub (by omega)]
        push_cast
        field_simp
        ring
      have hst : linspace (-radius) radius a.resolution ⟨0, by omega⟩ = -radius := by
        rw [linspace_step]; norm_num
      exact covers_iff hN _ (linspace (-radius) radius a.resolution) (linspace (-radius) radius a.resolution)
        (-radius) (-radius) ((radius - -radius) / ((a.resolution : ℝ) - 1))
        ((radius - -radius) / ((a.resolution : ℝ) - 1)) (div_pos (by linarith) hN1)
        (div_pos (by linarith) hN1) (fun j => rfl) (fun j => rfl) hst.symm hend.symm hst.symm hend.symm q i j
    · intro e i j
      have hm : f e i j ∈ (Finset.univ : Finset ((Fin a.resolution × Fin a.resolution) × Fin d)).toList.map
          fun q => f q.2 q.1.1 q.1.2 := List.mem_map.2 ⟨((i, j), e), by simp, rfl⟩
      exact ⟨hlo' _ hm, hhi' _ hm⟩
    · obtain ⟨q, -, hq⟩ := List.mem_map.1 hlo
      exact ⟨_, _, _, hq⟩
    · obtain ⟨q, -, hq⟩ := List.mem_map.1 hhi
      exact ⟨_, _, _, hq⟩

theorem mapM_total {α β : Type} (f : α → Py β) (l : List α) (h : ∀ x ∈ l, ∃ y, f x = .ok y) :
    ∃ r, l.mapM f = .ok r := by
  induction l with
  | nil => exact ⟨_, rfl⟩
  | cons x l ih =>
    obtain ⟨y, hy⟩ := h x (by simp)
    obtain ⟨r, hr⟩ := ih fun z hz => h z (by simp [hz])
    rw [List.mapM_cons, hy, hr]
    exact ⟨_, rfl⟩

theorem mat_rot90_dims {α : Type} (A : Mat α) (k : ℤ) (N : ℕ) (hm : A.m = N) (hn : A.n = N) :
    (A.rot90 k).m = N ∧ (A.rot90 k).n = N := by
  unfold Mat.rot90
  split_ifs
  · exact ⟨hm, hn⟩
  · exact ⟨hm, hn⟩
  · exact ⟨hn, hm⟩
  · exact ⟨hn, hm⟩

/-- **C86** the function succeeds exactly with at least eleven maps on the grid of the object, which
must have two points or more along each side; maps beyond the eleventh are not shown. -/
theorem C86_ok_iff (a : Act) (org : Origin) (isPhase : Bool) (d : ℕ) (A : Mat (Fin d → Fl)) :
    (∃ ps, a.plot org isPhase d A = .ok ps) ↔
      11 ≤ d ∧ A.m = a.resolution ∧ A.n = a.resolution ∧ 2 ≤ a.resolution := by
  constructor
  · rintro ⟨ps, h⟩
    unfold Act.plot at h
    cases h1 : arrMin ((Finset.univ : Finset ((Fin A.m × Fin A.n) × Fin d)).toList.map fun q => A.f q.1 q.2) with
    | error e => simp only [h1, bind, Except.bind] at h; cases h
    | ok lo =>
      cases h2 : arrMax ((Finset.univ : Finset ((Fin A.m × Fin A.n) × Fin d)).toList.map fun q => A.f q.1 q.2) with
      | error e => simp only [h1, h2, bind, Except.bind] at h; cases h
      | ok hi =>
        simp only [h1, h2, bind, Except.bind] at h
        obtain ⟨hl, h3⟩ := mapM_split _ _ _ h
        have hl : ps.length = 11 := hl
        have h4 := h3 10 (10, 90) (ps[10]) rfl (List.getElem?_eq_getElem _)
        by_cases h5 : 10 < d
        · by_cases h6 : A.m = a.resolution ∧ A.n = a.resolution ∧ 2 ≤ a.resolution
          · exact ⟨h5, h6⟩
          · rw [dif_pos h5, dif_neg h6] at h4
            cases h4
        · rw [dif_neg h5] at h4
          cases h4
  · rintro ⟨h1, h2, h3, h4⟩
    unfold Act.plot
    have hne := univ_list_ne (d := d) (m := A.m) (n := A.n) (by omega) (by omega) (by omega)
    obtain ⟨lo, hlo, -⟩ := arrMin_ok (l := (Finset.univ : Finset ((Fin A.m × Fin A.n) × Fin d)).toList.map
      fun q => A.f q.1 q.2) (by simpa using hne)
    obtain ⟨hi, hhi, -⟩ := arrMax_ok (l := (Finset.univ : Finset ((Fin A.m × Fin A.n) × Fin d)).toList.map
      fun q => A.f q.1 q.2) (by simpa using hne)
    simp only [hlo, hhi, bind, Except.bind]
    refine mapM_total _ _ fun p hp => ?_
    have := (List.of_mem_zip hp).1
    rw [List.mem_range] at this
    have hj : p.1 < d := lt_of_lt_of_le this h1
    rw [dif_pos hj, dif_pos ⟨h2, h3, h4⟩]
    exact ⟨_, rfl⟩

theorem plot_length (a : Act) (org : Origin) (isPhase : Bool) (d : ℕ) (A : Mat (Fin d → Fl)) (ps)
    (h : a.plot org isPhase d A = .ok ps) : ps.length = 11 := by
  unfold Act.plot at h
  cases h1 : arrMin ((Finset.univ : Finset ((Fin A.m × Fin A.n) × Fin d)).toList.map fun q => A.f q.1 q.2) with
  | error e => simp only [h1, bind, Except.bind] at h; cases h
  | ok lo =>
    cases h2 : arrMax ((Finset.univ : Finset ((Fin A.m × Fin A.n) × Fin d)).toList.map fun q => A.f q.1 q.2) with
    | error e => simp only [h1, h2, bind, Except.bind] at h; cases h
    | ok hi =>
      simp only [h1, h2, bind, Except.bind] at h
      exact (mapM_split _ _ _ h).1

/-- **C86** the table of the object can always be shown. -/
theorem C86_default (a : Act) (org : Origin) (s : Str) (hN : 2 ≤ a.resolution) (B : Actuator.Arr)
    (h : a.phaseLookup s = .ok B) : ∃ ps, a.plotDefault org s = .ok ps ∧ ps.length = 11 := by
  unfold Act.plotDefault
  rw [h]
  unfold Act.phaseLookup at h
  cases h1 : a.readSurface s with
  | error e => simp only [h1, bind, Except.bind] at h; cases h
  | ok maps =>
    simp only [h1, bind, Except.bind, Act.stackOf, Act.transform] at h
    cases h
    simp only [bind, Except.bind]
    have hl : maps.length = 11 := by
      unfold Act.readSurface at h1
      cases h0 : Act.fileRows s with
      | error e => simp only [h0, bind, Except.bind] at h1; cases h1
      | ok rows =>
      cases h2 : (List.range 11).mapM fun j => Act.intColumn rows (j + 3) with
      | error e => simp only [h0, h2, bind, Except.bind] at h1; cases h1
      | ok cols =>
        simp only [h0, h2, bind, Except.bind] at h1
        rw [(mapM_split _ _ _ h1).1, (mapM_split _ _ _ h2).1, List.length_range]
    obtain ⟨h3, h4⟩ := mat_rot90_dims (⟨a.resolution, a.resolution, fun q i => maps.get i q⟩ :
      Mat (Fin maps.length → Fl)) a.nrot a.resolution rfl rfl
    obtain ⟨ps, hps⟩ := (C86_ok_iff a org true maps.length (((⟨a.resolution, a.resolution,
      fun q i => maps.get i q⟩ : Mat (Fin maps.length → Fl)).rot90 a.nrot).map
        fun x i => Fl.mul (.fin a.tfactor) (x i))).2 ⟨hl.ge, h3, h4, hN⟩
    exact ⟨ps, hps, plot_length _ _ _ _ _ _ hps⟩

/-! ## The hypotheses are met -/

/-- The defaults of the class: contours of phases and displacements agree. -/
example : ∀ x, x ∈ Spec.effelsberg.levels false ↔
    Spec.factor Spec.effelsberg * x ∈ Spec.effelsberg.levels true :=
  (C86_contours Spec.effelsberg (by norm_num [Spec.effelsberg]) (by norm_num [Spec.effelsberg])
    (by norm_num [Spec.effelsberg])).2 rfl

/-- With one reflection they do not. -/
example : ¬ ∀ x, x ∈ ({ Spec.effelsberg with nReflections := 1 } : Act).levels false ↔
    Spec.factor { Spec.effelsberg with nReflections := 1 } * x ∈
      ({ Spec.effelsberg with nReflections := 1 } : Act).levels true := by
  rw [C86_contours _ (by norm_num [Spec.effelsberg]) (by norm_num [Spec.effelsberg]) (by norm_num)]
  norm_num

/-- A complete file and an interpolation that succeeds: the table is shown. -/
example (v : Fin 11 → Fin 96 → ℤ) : ∃ ps,
    ({ Spec.effelsberg with griddata := fun _ _ _ _ _ => .ok fun _ => .fin 1 } : Act).plotDefault .upper
      (Spec.lookupText v) = .ok ps ∧ ps.length = 11 := by
  obtain ⟨maps, hm⟩ := (C74_read { Spec.effelsberg with griddata := fun _ _ _ _ _ => .ok fun _ => .fin 1 } v).2
    fun _ => ⟨_, rfl⟩
  have h : ∃ B, Act.phaseLookup { Spec.effelsberg with griddata := fun _ _ _ _ _ => .ok fun _ => .fin 1 }
      (Spec.lookupText v) = .ok B := by
    unfold Act.phaseLookup
    rw [hm]
    exact ⟨_, rfl⟩
  obtain ⟨B, hB⟩ := h
  exact C86_default _ _ _ (by norm_num [Spec.effelsberg]) B hB

/-- Eleven tilted planes, seen with the origin below. -/
example : ∃ ps, Spec.effelsberg.plot .lower false 11
      ⟨4, 4, fun q e => .fin (100 * (e : ℕ) + 10 * (q.1 : ℕ) + (q.2 : ℕ))⟩ = .ok ps ∧ ps.length = 11 ∧
    ∀ (e : Fin 11) p, ps[(e : ℕ)]? = some p → Spec.ShowsMap .lower 3.25
      (fun (e : Fin 11) (i j : Fin 4) => 100 * ((e : ℕ) : ℝ) + 10 * (i : ℕ) + (j : ℕ)) e p := by
  obtain ⟨ps, h1, h2, h3⟩ := C86_panels Spec.effelsberg .lower false (by norm_num [Spec.effelsberg])
    (by norm_num [Spec.effelsberg]) (by norm_num [Spec.effelsberg]) (le_refl 11)
    fun (e : Fin 11) (i j : Fin 4) => 100 * ((e : ℕ) : ℝ) + 10 * (i : ℕ) + (j : ℕ)
  exact ⟨ps, h1, h2, fun e p hp => (h3 e p hp).1⟩

end Verif.Props
