import Verif.Props.Gravity

/-!
# Fits of phase maps and of the gravitational model (C65)
-/

namespace Verif.Props

open Verif Verif.Np Verif.Aperture Verif.Actuator

/-! ## Specification -/

/-- The sum of squares of a residual map. -/
noncomputable def Spec.cost2 {N : ℕ} (r : Fin N × Fin N → ℝ) : ℝ := ∑ q, r q ^ 2

/-- The sum of squares of a list. -/
noncomputable def Spec.costL (r : List ℝ) : ℝ := (r.map (· ^ 2)).sum

/-- `x` is a point of a problem where the cost is smallest. -/
def Spec.IsMin {ρ : Type} (cost : ρ → ℝ) (f : List ℝ → Py ρ) (n : ℕ) (x : List ℝ) : Prop :=
  x.length = n ∧ ∃ r, f x = .ok r ∧ ∀ (y : List ℝ) (r' : ρ), y.length = n → f y = .ok r' →
    cost r ≤ cost r'

/-- The solver finds a global minimum of every problem that has one and whose residual exists
everywhere. -/
def Spec.Exact {ρ : Type} (cost : ρ → ℝ) (s : Act.Solver ρ) : Prop :=
  ∀ (f : List ℝ → Py ρ) (x0 : List ℝ), (∀ x : List ℝ, x.length = x0.length → ∃ r, f x = .ok r) →
    (∃ z, Spec.IsMin cost f x0.length z) →
    ∃ x, s f x0 = .ok x ∧ Spec.IsMin cost f x0.length (List.ofFn x)

/-- The phase maps of rows of coefficients without piston; with or without tilt. -/
def Spec.Maps (a : Act) (tilt : Bool) (rows : List (List ℝ))
    (maps : List (Fin a.resolution × Fin a.resolution → ℝ)) : Prop :=
  List.Forall₂ (fun K m => ∃ p, phase K a.pr false tilt a.resolution = .ok p ∧ p.phi = m) rows maps

/-! ## The residual -/

theorem nk_len {a : Act} {K : List ℝ} (h : K.length = (a.order + 1) * (a.order + 2) / 2) :
    K.length = a.nK := h

/-- **C65.**  The residual vanishes at the coefficients of the map: those from the fourth on with
`fem`, where the first three play no part, and all of them without. -/
theorem C65_residual (a : Act) (K : List ℝ) (hK : K.length = (a.order + 1) * (a.order + 2) / 2)
    (ho : 1 ≤ a.order) :
    (∀ p, phase K a.pr false false a.resolution = .ok p →
      a.residualPhase true (K.drop 3) p.phi = .ok fun _ => 0) ∧
    (∀ p, phase K a.pr false true a.resolution = .ok p →
      a.residualPhase false K p.phi = .ok fun _ => 0) := by
  have h3 : 3 ≤ K.length := by rw [nk_len hK]; exact three_le ho
  constructor
  · intro p hp
    have hl : ([0, 0, 0] ++ K.drop 3).length = K.length := by
      simp; omega
    have e : phase ([0, 0, 0] ++ K.drop 3) a.pr false false a.resolution = .ok p := by
      rw [← hp]
      refine (C10_independent K _ a.pr a.resolution a.order ho hK hl ?_).symm
      intro m hm
      obtain ⟨d, rfl⟩ := Nat.exists_eq_add_of_le hm
      have e1 : ([0, 0, 0] ++ K.drop 3).getD (3 + d) 0 = (K.drop 3).getD d 0 := by
        rw [Nat.add_comm]; rfl
      rw [e1]
      simp only [List.getD_eq_getElem?_getD, List.getElem?_drop]
    simp only [Act.residualPhase, if_true, e, bind, Except.bind, pure, Except.pure, sub_self]
  · intro p hp
    simp only [Act.residualPhase, Bool.false_eq_true, if_false, hp, bind, Except.bind, pure,
      Except.pure, sub_self]

/-- **C65.**  And conversely: where it vanishes the map is reproduced. -/
theorem C65_vanishes (a : Act) (fem : Bool) (K : List ℝ)
    (data : Fin a.resolution × Fin a.resolution → ℝ)
    (h : a.residualPhase fem K data = .ok fun _ => 0) :
    ∃ p, phase (if fem then [0, 0, 0] ++ K else K) a.pr false (!fem) a.resolution = .ok p ∧
      p.phi = data := by
  cases fem with
  | true =>
    simp only [Act.residualPhase, if_true, bind, Except.bind, pure, Except.pure] at h
    cases hp : phase ([0, 0, 0] ++ K) a.pr false false a.resolution with
    | error e => rw [hp] at h; cases h
    | ok p =>
      rw [hp] at h
      refine ⟨p, hp, ?_⟩
      funext q
      have := congrFun (Except.ok.inj h) q
      linarith
  | false =>
    simp only [Act.residualPhase, Bool.false_eq_true, if_false, bind, Except.bind, pure,
      Except.pure] at h
    cases hp : phase K a.pr false true a.resolution with
    | error e => rw [hp] at h; cases h
    | ok p =>
      rw [hp] at h
      refine ⟨p, hp, ?_⟩
      funext q
      have := congrFun (Except.ok.inj h) q
      linarith

/-! ## The shape of the result -/

theorem mapM_inv {α β : Type} (l : List α) (f : α → Py β) (out : List β) (h : l.mapM f = .ok out) :
    List.Forall₂ (fun x y => f x = .ok y) l out := by
  induction l generalizing out with
  | nil => cases h; exact .nil
  | cons x l ih =>
    rw [List.mapM_cons] at h
    cases hx : f x with
    | error e => rw [hx] at h; cases h
    | ok y =>
      rw [hx] at h
      simp only [bind, Except.bind] at h
      cases hl : l.mapM f with
      | error e => rw [hl] at h; cases h
      | ok ys =>
        rw [hl] at h
        cases h
        exact .cons hx (ih ys hl)

/-- **C65.**  Whatever the optimiser returns, there is one row for every elevation and it has all the
coefficients; with `fem` the first three are zero. -/
theorem C65_rows (a : Act) (s : Act.Solver (Fin a.resolution × Fin a.resolution → ℝ))
    (phases : List (Fin a.resolution × Fin a.resolution → ℝ)) (count : ℕ) (fem : Bool)
    (rows : List (List ℝ)) (h : a.fitZpoly s phases count fem = .ok rows) :
    rows.length = count ∧ ∀ r ∈ rows, r.length = (a.order + 1) * (a.order + 2) / 2 ∧
      (fem = true → ∀ k < 3, r[k]? = some 0) := by
  unfold Act.fitZpoly at h
  by_cases hlt : fem = true ∧ a.nK < 3
  · rw [if_pos hlt] at h; cases h
  rw [if_neg hlt] at h
  simp only [bind, Except.bind, pure, Except.pure] at h
  set x0 := List.replicate (if fem = true then a.nK - 3 else a.nK) (0.1 : ℝ) with hx0
  generalize hm : (List.range count).mapM (m := Py) (fun i => _) = res at h
  cases res with
  | error e => cases h
  | ok out =>
    have hF := mapM_inv _ _ _ hm
    have hlen : out.length = count := by rw [← hF.length_eq, List.length_range]
    have hrow : ∀ r ∈ out, r.length = x0.length := by
      intro r hr
      obtain ⟨k, hk, rfl⟩ := List.getElem_of_mem hr
      have hk' : k < (List.range count).length := by rw [hF.length_eq]; exact hk
      have := (List.forall₂_iff_get.1 hF).2 k hk' hk
      simp only [List.get_eq_getElem] at this
      cases hd : pyIdx phases (List.range count)[k] with
      | error e => rw [hd] at this; cases this
      | ok d =>
        rw [hd] at this
        simp only at this
        cases hs : s (fun K => a.residualPhase fem K d) x0 with
        | error e => rw [hs] at this; cases this
        | ok x =>
          rw [hs] at this
          rw [← Except.ok.inj this, List.length_ofFn]
    cases fem with
    | true =>
      have hge : 3 ≤ a.nK := by
        by_contra hn; exact hlt ⟨rfl, not_le.1 hn⟩
      have hx : x0.length = a.nK - 3 := by simp [hx0]
      dsimp only at h
      rw [if_pos (by omega)] at h
      cases h
      refine ⟨by simpa using hlen, fun r hr => ?_⟩
      obtain ⟨r', hr', rfl⟩ := List.mem_map.1 hr
      refine ⟨?_, fun _ k hk => ?_⟩
      · simp only [List.length_append, hrow r' hr', hx]
        show 3 + (a.nK - 3) = a.nK
        omega
      · rcases k with _ | _ | _ | k
        · rfl
        · rfl
        · rfl
        · omega
    | false =>
      have hx : x0.length = a.nK := by simp [hx0]
      dsimp only at h
      rw [if_neg (by omega)] at h
      cases h
      exact ⟨hlen, fun r hr => ⟨(hrow r hr).trans hx, fun hf => by cases hf⟩⟩

/-- **C65.**  `fem` with order zero, where there is nothing to fit: `ValueError`. -/
theorem C65_order_zero (a : Act) (h : a.order = 0)
    (s : Act.Solver (Fin a.resolution × Fin a.resolution → ℝ)) (phases) (count : ℕ) :
    a.fitZpoly s phases count true = .error .valueError := by
  unfold Act.fitZpoly
  rw [if_pos ⟨rfl, by simp [Act.nK, h]⟩]
  rfl

/-! ## With a solver that finds the minimum -/

theorem cost2_zero {N : ℕ} {r : Fin N × Fin N → ℝ} (h : Spec.cost2 r ≤ 0) : r = fun _ => 0 := by
  unfold Spec.cost2 at h
  have h0 : ∑ q, r q ^ 2 = 0 := le_antisymm h (Finset.sum_nonneg fun q _ => sq_nonneg _)
  funext q
  have := (Finset.sum_eq_zero_iff_of_nonneg fun q _ => sq_nonneg (r q)).1 h0 q (Finset.mem_univ q)
  simpa using this

theorem costL_zero {r : List ℝ} (h : Spec.costL r ≤ 0) : ∀ x ∈ r, x = 0 := by
  induction r with
  | nil => simp
  | cons x r ih =>
    unfold Spec.costL at h ih
    rw [List.map_cons, List.sum_cons] at h
    have h1 : 0 ≤ (r.map (· ^ 2)).sum := by
      apply List.sum_nonneg
      intro y hy
      obtain ⟨z, -, rfl⟩ := List.mem_map.1 hy
      exact sq_nonneg z
    have h2 := sq_nonneg x
    intro y hy
    rcases List.mem_cons.1 hy with rfl | hy
    · have : y ^ 2 = 0 := by linarith
      simpa using this
    · exact ih (by linarith) y hy

theorem residual_total (a : Act) (ho : 1 ≤ a.order) (fem : Bool)
    (data : Fin a.resolution × Fin a.resolution → ℝ) (K : List ℝ)
    (hK : K.length = if fem then a.nK - 3 else a.nK) : ∃ r, a.residualPhase fem K data = .ok r := by
  have h3 := three_le ho
  cases fem with
  | true =>
    have hl : ([0, 0, 0] ++ K).length = tri (a.order + 1) := by
      simp only [if_true] at hK
      simp only [List.length_append, hK]
      show 3 + (a.nK - 3) = a.nK
      omega
    obtain ⟨K', -, -, hp⟩ := phase_ok ([0, 0, 0] ++ K) a.pr false false a.resolution a.order hl
      (fun _ => by simp)
    simp only [Act.residualPhase, if_true, hp, bind, Except.bind, pure, Except.pure]
    exact ⟨_, rfl⟩
  | false =>
    have hl : K.length = tri (a.order + 1) := by
      simp only [Bool.false_eq_true, if_false] at hK; exact hK
    obtain ⟨K', -, -, hp⟩ := phase_ok K a.pr false true a.resolution a.order hl
      (fun h => by cases h)
    simp only [Act.residualPhase, Bool.false_eq_true, if_false, hp, bind, Except.bind, pure,
      Except.pure]
    exact ⟨_, rfl⟩

/-- **C65.**  Maps that are made of Zernike polynomials are reproduced by the coefficients of the
fit, when the optimiser finds the minimum. -/
theorem C65_reproduced (a : Act) (ho : 1 ≤ a.order) (fem : Bool)
    (s : Act.Solver (Fin a.resolution × Fin a.resolution → ℝ)) (hs : Spec.Exact Spec.cost2 s)
    (K : List (List ℝ)) (hK : ∀ r ∈ K, r.length = (a.order + 1) * (a.order + 2) / 2)
    (maps : List (Fin a.resolution × Fin a.resolution → ℝ)) (hm : Spec.Maps a (!fem) K maps) :
    ∃ rows, a.fitZpoly s maps maps.length fem = .ok rows ∧ Spec.Maps a (!fem) rows maps := by
  have h3 := three_le ho
  set x0 := List.replicate (if fem = true then a.nK - 3 else a.nK) (0.1 : ℝ) with hx0
  have hx0l : x0.length = if fem = true then a.nK - 3 else a.nK := by simp [hx0]
  have hlenKM : K.length = maps.length := hm.length_eq
  have one : ∀ i (hi : i < maps.length), ∃ x : Fin x0.length → ℝ,
      s (fun K => a.residualPhase fem K maps[i]) x0 = .ok x ∧
      ∃ p, phase (if fem then [0, 0, 0] ++ List.ofFn x else List.ofFn x) a.pr false (!fem)
        a.resolution = .ok p ∧ p.phi = maps[i] := by
    intro i hi
    have hiK : i < K.length := hlenKM ▸ hi
    obtain ⟨p, hp, hpm⟩ := (List.forall₂_iff_get.1 hm).2 i hiK hi
    simp only [List.get_eq_getElem] at hp hpm
    have hKi := hK K[i] (List.getElem_mem _)
    have hz : ∃ y : List ℝ, y.length = x0.length ∧
        a.residualPhase fem y maps[i] = .ok fun _ => 0 := by
      have := C65_residual a K[i] hKi ho
      cases fem with
      | true =>
        refine ⟨K[i].drop 3, ?_, ?_⟩
        · rw [List.length_drop, nk_len hKi, hx0l]; simp
        · rw [← hpm]; exact this.1 p hp
      | false =>
        refine ⟨K[i], ?_, ?_⟩
        · rw [nk_len hKi, hx0l]; simp
        · rw [← hpm]; exact this.2 p hp
    obtain ⟨y, hy, hy0⟩ := hz
    have h0 : Spec.cost2 (fun _ : Fin a.resolution × Fin a.resolution => (0 : ℝ)) = 0 := by
      simp [Spec.cost2]
    obtain ⟨x, e1, -, r, hr, e2⟩ := hs (fun K => a.residualPhase fem K maps[i]) x0
      (fun y hy => residual_total a ho fem _ y (hy.trans hx0l))
      ⟨y, hy, _, hy0, fun y' r' _ _ => by
        rw [h0]; exact Finset.sum_nonneg fun q _ => sq_nonneg _⟩
    refine ⟨x, e1, ?_⟩
    have hle := e2 y _ hy hy0
    rw [h0] at hle
    rw [cost2_zero hle] at hr
    exact C65_vanishes a fem _ _ hr
  choose X hX1 hX2 using one
  set out : List (List ℝ) := List.ofFn fun i : Fin maps.length => List.ofFn (X i i.2) with hout
  have hmap : (List.range maps.length).mapM (m := Py) (fun i => do
      let data ← pyIdx maps i
      let x ← s (fun K => a.residualPhase fem K data) x0
      return List.ofFn x) = .ok out := by
    have := mapM_ok (List.range maps.length) (fun i => (do
      let data ← pyIdx maps i
      let x ← s (fun K => a.residualPhase fem K data) x0
      return List.ofFn x : Py (List ℝ)))
      (fun i => if hi : i < maps.length then List.ofFn (X i hi) else []) (by
        intro i hi
        have hi := List.mem_range.1 hi
        simp only [pyIdx, List.getElem?_eq_getElem hi, bind, Except.bind, hX1 i hi, pure,
          Except.pure, dif_pos hi])
    rw [this, hout]
    congr 1
    refine List.ext_getElem (by simp) fun i h1 h2 => ?_
    have : i < maps.length := by simpa using h1
    have aux : ∀ j, j = i → (if hi : j < maps.length then List.ofFn (X j hi) else []) =
        List.ofFn (X i this) := by
      rintro j rfl; exact dif_pos this
    rw [List.getElem_map, List.getElem_ofFn, aux _ (List.getElem_range _)]
  have hfit : a.fitZpoly s maps maps.length fem =
      .ok (if fem then out.map fun r => [0, 0, 0] ++ r else out) := by
    unfold Act.fitZpoly
    rw [if_neg (by rintro ⟨-, h⟩; omega)]
    simp only [bind, Except.bind, pure, Except.pure] at hmap ⊢
    rw [← hx0, hmap]
    cases fem with
    | true =>
      simp only [if_true] at hx0l
      simp only [if_true]
      rw [if_pos (by omega)]
    | false =>
      simp only [Bool.false_eq_true, if_false] at hx0l
      simp only [Bool.false_eq_true, if_false]
      rw [if_neg (by omega)]
  refine ⟨_, hfit, ?_⟩
  unfold Spec.Maps
  rw [List.forall₂_iff_get]
  refine ⟨by cases fem <;> simp [hout], fun i h1 h2 => ?_⟩
  obtain ⟨p, hp, hpm⟩ := hX2 i h2
  refine ⟨p, ?_, hpm⟩
  cases fem with
  | true =>
    simp only [if_true] at hp
    simpa [hout] using hp
  | false =>
    simp only [Bool.false_eq_true, if_false] at hp
    simpa [hout] using hp

/-! ## The gravitational model -/

/-- `col` is what the model with the coefficients `g` gives at the elevations. -/
def Spec.Follows (g : List ℝ) (alphas : List Act.Angle) (col : List ℝ) : Prop :=
  List.Forall₂ (fun al k => Act.gravDeformation g al = .ok k) alphas col

/-- Among the elevations there are three different ones less than a turn apart. -/
def Spec.ThreeAngles (alphas : List Act.Angle) : Prop :=
  ∃ x ∈ alphas, ∃ y ∈ alphas, ∃ z ∈ alphas, x.rad < y.rad ∧ y.rad < z.rad ∧
    z.rad < x.rad + 2 * Real.pi

theorem residualGrav_ok {g : List ℝ} (hg : 3 ≤ g.length) (alphas : List Act.Angle) (col : List ℝ)
    (hl : col.length = alphas.length) :
    Act.residualGrav g col alphas = .ok (List.zipWith (· - ·) col (alphas.map fun al =>
      g.getD 0 0 * Real.sin al.rad + g.getD 1 0 * Real.cos al.rad + g.getD 2 0)) := by
  have h := mapM_ok alphas (Act.gravDeformation g) _ (fun al _ => grav_ok hg al)
  simp only [Act.residualGrav, h, bind, Except.bind, List.length_map, hl, if_true, pure, Except.pure]

theorem zipWith_sub_zero {l m : List ℝ} (hl : l.length = m.length)
    (h : ∀ x ∈ List.zipWith (· - ·) l m, x = 0) : l = m := by
  induction l generalizing m with
  | nil => cases m with
    | nil => rfl
    | cons b m => simp at hl
  | cons a l ih => cases m with
    | nil => simp at hl
    | cons b m =>
      simp only [List.zipWith_cons_cons, List.mem_cons, forall_eq_or_imp] at h
      rw [sub_eq_zero.1 h.1, ih (by simpa using hl) h.2]

theorem zipWith_self_zero (l : List ℝ) : Spec.costL (List.zipWith (· - ·) l l) = 0 := by
  induction l with
  | nil => rfl
  | cons a l ih =>
    unfold Spec.costL at ih ⊢
    simp only [List.zipWith_cons_cons, List.map_cons, List.sum_cons, sub_self, ih]
    norm_num

theorem costL_nonneg (r : List ℝ) : 0 ≤ Spec.costL r := by
  unfold Spec.costL
  apply List.sum_nonneg
  intro y hy
  obtain ⟨z, -, rfl⟩ := List.mem_map.1 hy
  exact sq_nonneg z

theorem follows_eq {g : List ℝ} (hg : 3 ≤ g.length) {alphas : List Act.Angle} {col : List ℝ}
    (h : Spec.Follows g alphas col) : col = alphas.map fun al =>
      g.getD 0 0 * Real.sin al.rad + g.getD 1 0 * Real.cos al.rad + g.getD 2 0 := by
  induction h with
  | nil => rfl
  | cons h1 _ ih =>
    rw [grav_ok hg] at h1
    rw [List.map_cons, ← ih, Except.ok.inj h1]

/-- **C65.**  The second fit: when the coefficients at the elevations follow the gravitational model
and the optimiser finds the minimum, the coefficients of the model are recovered exactly, provided
there are three different elevations. -/
theorem C65_gravity (a : Act) (s : Act.Solver (List ℝ)) (hs : Spec.Exact Spec.costL s)
    (alphas : List Act.Angle) (h3 : Spec.ThreeAngles alphas) (g : List (List ℝ))
    (hg : g.length = (a.order + 1) * (a.order + 2) / 2) (hrow : ∀ r ∈ g, r.length = 3)
    (K : List (List ℝ))
    (hK : List.Forall₂ (fun al row => List.Forall₂
      (fun gr k => Act.gravDeformation gr al = .ok k) g row) alphas K) :
    a.fitGrav s K alphas = .ok g := by
  have hcol : ∀ k (hk : k < g.length), ∃ col, K.mapM (m := Py) (fun r => pyIdx r k) = .ok col ∧
      Spec.Follows g[k] alphas col := by
    intro k hk
    clear h3
    induction hK with
    | nil => exact ⟨[], rfl, .nil⟩
    | @cons al row alphas K h1 _ ih =>
      obtain ⟨col, e1, e2⟩ := ih
      have hk' : k < row.length := h1.length_eq ▸ hk
      have e3 := (List.forall₂_iff_get.1 h1).2 k hk hk'
      refine ⟨row[k] :: col, ?_, .cons e3 e2⟩
      rw [List.mapM_cons, e1]
      simp [pyIdx, hk', bind, Except.bind, pure, Except.pure]
  have one : ∀ k (hk : k < g.length), (do
      let col ← K.mapM fun r => pyIdx r k
      let x ← s (fun g => Act.residualGrav g col alphas) [0.1, 0.1, 0.1]
      return List.ofFn x : Py (List ℝ)) = .ok g[k] := by
    intro k hk
    obtain ⟨col, e1, e2⟩ := hcol k hk
    have hgk : g[k].length = 3 := hrow _ (List.getElem_mem _)
    have hceq := follows_eq (by omega) e2
    have hclen : col.length = alphas.length := by rw [hceq, List.length_map]
    have hzero : Act.residualGrav g[k] col alphas = .ok (List.zipWith (· - ·) col col) := by
      rw [residualGrav_ok (by omega) _ _ hclen, ← hceq]
    obtain ⟨x, f1, f0, r, f2, f3⟩ := hs (fun g => Act.residualGrav g col alphas) [0.1, 0.1, 0.1]
      (fun y hy => ⟨_, residualGrav_ok (by rw [hy]; simp) _ _ hclen⟩)
      ⟨g[k], hgk, _, hzero, fun _ _ _ _ => by rw [zipWith_self_zero]; exact costL_nonneg _⟩
    have hle := f3 g[k] _ hgk hzero
    rw [zipWith_self_zero] at hle
    have hx3 : (List.ofFn x).length = 3 := f0
    change Act.residualGrav (List.ofFn x) col alphas = .ok r at f2
    rw [residualGrav_ok (by omega) _ _ hclen, Except.ok.injEq] at f2
    have hz := costL_zero hle
    rw [← f2] at hz
    have hcol2 := zipWith_sub_zero (by rw [hclen, List.length_map]) hz
    have hsame : ∀ al ∈ alphas, Act.gravDeformation (List.ofFn x) (.bare al.rad) =
        Act.gravDeformation g[k] (.bare al.rad) := by
      intro al hal
      rw [grav_ok (by omega), grav_ok (by omega)]
      rw [hceq] at hcol2
      have := List.map_inj_left.1 hcol2 al hal
      exact congrArg _ this.symm
    obtain ⟨u, hu, v, hv, w, hw, a1, a2, a3⟩ := h3
    have := C62_determined (List.ofFn x) g[k] hx3 hgk u.rad v.rad w.rad a1 a2 a3
      (hsame u hu) (hsame v hv) (hsame w hw)
    simp only [e1, bind, Except.bind]
    rw [f1]
    simp only [pure, Except.pure, this]
  unfold Act.fitGrav
  have hn : a.nK = g.length := hg.symm
  rw [hn]
  have := mapM_ok (List.range g.length) (fun k => (do
      let col ← K.mapM fun r => pyIdx r k
      let x ← s (fun g => Act.residualGrav g col alphas) [0.1, 0.1, 0.1]
      return List.ofFn x : Py (List ℝ))) (fun k => if hk : k < g.length then g[k] else [])
    (fun k hk => by rw [one k (List.mem_range.1 hk), dif_pos (List.mem_range.1 hk)])
  refine this.trans ?_
  congr 1
  refine List.ext_getElem (by simp) fun i h1 h2 => ?_
  have aux : ∀ j, j = i → (if hk : j < g.length then g[j] else []) = g[i] := by
    rintro j rfl; exact dif_pos h2
  rw [List.getElem_map, aux _ (List.getElem_range _)]

/-! ## The hypotheses can be met -/

/-- There is a solver that finds every minimum. -/
theorem exact_exists {ρ : Type} (cost : ρ → ℝ) : ∃ s : Act.Solver ρ, Spec.Exact cost s := by
  classical
  refine ⟨fun f x0 => if h : ∃ z, Spec.IsMin cost f x0.length z then
    .ok fun i => (Classical.choose h).getD i 0 else .error .valueError, fun f x0 _ h => ?_⟩
  refine ⟨_, dif_pos h, ?_⟩
  have hz := Classical.choose_spec h
  have : List.ofFn (fun i : Fin x0.length => (Classical.choose h).getD i 0) = Classical.choose h := by
    refine List.ext_getElem (by rw [List.length_ofFn]; exact hz.1.symm) fun i h1 h2 => ?_
    rw [List.getElem_ofFn]
    exact getD_lt _ _ h2
  rw [this]
  exact hz

example : ∃ s, Spec.Exact Spec.costL s ∧
    Spec.smallAct.fitGrav s [[0, 0, 0, 0, 1, 0], [0, 0, 0, 0, 1, 0], [0, 0, 0, 0, 1, 0]]
      [.bare 0, .bare 1, .bare 2] = .ok Spec.defocus := by
  obtain ⟨s, hs⟩ := exact_exists Spec.costL
  refine ⟨s, hs, C65_gravity Spec.smallAct s hs _ ?_ _ rfl ?_ _ ?_⟩
  · refine ⟨.bare 0, by simp, .bare 1, by simp, .bare 2, by simp, ?_, ?_, ?_⟩
    · simp [Act.Angle.rad]
    · simp only [Act.Angle.rad]; norm_num
    · simp only [Act.Angle.rad]; linarith [Real.two_le_pi]
  · intro r hr
    simp only [Spec.defocus, List.mem_cons, List.not_mem_nil, or_false] at hr
    rcases hr with rfl | rfl | rfl | rfl | rfl | rfl <;> rfl
  · have row : ∀ al : Act.Angle, List.Forall₂
        (fun gr k => Act.gravDeformation gr al = .ok k) Spec.defocus [0, 0, 0, 0, 1, 0] := by
      intro al
      refine .cons ?_ (.cons ?_ (.cons ?_ (.cons ?_ (.cons ?_ (.cons ?_ .nil))))) <;>
        (rw [grav_ok (by simp)]; simp)
    exact .cons (row _) (.cons (row _) (.cons (row _) .nil))

example (s : Act.Solver (Fin 3 × Fin 3 → ℝ)) (hs : Spec.Exact Spec.cost2 s) :
    ∃ maps rows, maps.length = 2 ∧ Spec.smallAct.fitZpoly s maps maps.length true = .ok rows ∧
      Spec.Maps Spec.smallAct false rows maps := by
  obtain ⟨K', -, -, hp⟩ := phase_ok [5, 0, 0, 1, 2, 3] Spec.smallAct.pr false false
    Spec.smallAct.resolution 2 rfl (fun _ => by simp)
  obtain ⟨rows, h1, h2⟩ := C65_reproduced Spec.smallAct (by decide) true s hs
    [[5, 0, 0, 1, 2, 3], [5, 0, 0, 1, 2, 3]] (by intro r hr; simp at hr; rw [hr]; rfl)
    _ (.cons ⟨_, hp, rfl⟩ (.cons ⟨_, hp, rfl⟩ .nil))
  exact ⟨_, rows, rfl, h1, h2⟩

end Verif.Props
