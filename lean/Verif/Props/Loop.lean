import Verif.Props.NewTable

/-!
# C118: corrections of the look-up table made one after the other
-/

namespace Verif.Props

open Verif Verif.Np Verif.Aperture Verif.Actuator

/-- An object with which a table can be made. -/
structure Spec.Usable (a : Act) : Prop where
  quintic : Spec.Quintic a.spline
  res : 6 ≤ a.resolution
  sr_pos : 0 < a.sr
  sr_le : a.sr ≤ 5.2
  freq : a.frequency ≠ 0
  sign : a.sign ≠ 0
  refl : a.nReflections ≠ 0
  writable : Spec.Writable a

/-- `T` has the displacements in micrometres that the surface of the model `g` asks of the actuators,
for each elevation of the table; none of them is out of reach. -/
def Spec.Displaces (a : Act) (g : List (List ℝ)) (T : Fin 11 → Fin 96 → ℝ) : Prop :=
  ∃ f u : Fin 11 → Fin a.resolution → Fin a.resolution → ℝ,
    (∀ e, Spec.ModelPhase a g e (f e)) ∧ a.transform (Spec.stack u) = .ok (Spec.stack f) ∧
    (∀ e row col, a.minAmp ≤ u e row col ∧ u e row col ≤ a.maxAmp) ∧
    a.interp 11 ⟨a.resolution, a.resolution, fun q i => .fin (u i q.1 q.2)⟩ = .ok fun q => .fin (T q.1 q.2)

/-- The model `g + c h`. -/
def Spec.addModel (c : ℝ) (g h : List (List ℝ)) : List (List ℝ) :=
  List.zipWith (List.zipWith fun x y => x + c * y) g h

/-- The opposite model. -/
def Spec.negModel (g : List (List ℝ)) : List (List ℝ) := g.map (List.map (- ·))

/-- The sizes of all the coefficients of a model. -/
def Spec.modelSize (g : List (List ℝ)) : ℝ := (g.map fun row => (row.map (|·|)).sum).sum

theorem isMap_add {a : Act} {g h : List (List ℝ)} (hg : Spec.Enough a g) (hh : Spec.Enough a h) (c : ℝ)
    {al : Act.Angle} {phi psi : Fin a.resolution × Fin a.resolution → ℝ} (h1 : Spec.IsMap a g al phi)
    (h2 : Spec.IsMap a h al psi) : Spec.IsMap a (Spec.addModel c g h) al fun q => phi q + c * psi q := by
  obtain ⟨K, k1, k2, p, k3, rfl⟩ := h1
  obtain ⟨L, l1, l2, p', l3, rfl⟩ := h2
  have h3 : 3 ≤ K.length := by rw [k1]; exact three_le hg.1
  obtain ⟨M₁, M₂, M, m1, m2, m3, m4⟩ := C11_additive K (L.map (c * ·)) a.pr false false a.resolution a.order k1
    (by rw [List.length_map, l1, k1]) fun _ => h3
  obtain ⟨N₁, N, n1, n2, n3⟩ := C11_homogeneous L c a.pr false false a.resolution a.order l1
    fun _ => by rw [l1, ← k1]; exact h3
  rw [k3] at m1; cases m1
  rw [l3] at n1; cases n1
  rw [m2] at n2; cases n2
  refine ⟨_, by simp [k1, l1], fun k hk => ?_, M, m3, funext fun q => by rw [m4, n3]⟩
  have hk' : k < K.length := by simp at hk; omega
  have hkl : k < L.length := by rw [l1, ← k1]; exact hk'
  obtain ⟨r, r1, r2⟩ := k2 k hk'
  obtain ⟨s, s1, s2⟩ := l2 k hkl
  refine ⟨List.zipWith (fun x y => x + c * y) r s, ?_, ?_⟩
  · unfold Spec.addModel
    rw [List.getElem?_zipWith, r1, s1]
  · have hr := hg.2.2 r (List.mem_of_getElem? r1)
    have hs := hh.2.2 s (List.mem_of_getElem? s1)
    rw [grav_ok hr, Except.ok.injEq] at r2
    rw [grav_ok hs, Except.ok.injEq] at s2
    rw [grav_ok (by simp; omega), getD_lt _ _ hk, List.getElem_zipWith, List.getElem_map, Except.ok.injEq]
    rw [getD_lt _ _ hk'] at r2
    rw [getD_lt _ _ hkl] at s2
    rw [← r2, ← s2]
    obtain ⟨x0, x1, x2, t, rfl⟩ : ∃ x0 x1 x2 t, r = x0 :: x1 :: x2 :: t := by
      match r, hr with
      | x0 :: x1 :: x2 :: t, _ => exact ⟨x0, x1, x2, t, rfl⟩
    obtain ⟨y0, y1, y2, t', rfl⟩ : ∃ x0 x1 x2 t, s = x0 :: x1 :: x2 :: t := by
      match s, hs with
      | x0 :: x1 :: x2 :: t, _ => exact ⟨x0, x1, x2, t, rfl⟩
    simp
    ring

theorem add_enough {a : Act} {g h : List (List ℝ)} (hg : Spec.Enough a g) (hh : Spec.Enough a h) (c : ℝ) :
    Spec.Enough a (Spec.addModel c g h) := by
  refine ⟨hg.1, ?_, fun row hr => ?_⟩
  · have := hg.2.1; have := hh.2.1
    simp only [Spec.addModel, List.length_zipWith]
    omega
  · obtain ⟨i, hi, rfl⟩ := List.getElem_of_mem hr
    have hi' := hi
    simp only [Spec.addModel, List.length_zipWith] at hi'
    simp only [Spec.addModel, List.getElem_zipWith, List.length_zipWith]
    have := hg.2.2 g[i] (List.getElem_mem _)
    have := hh.2.2 h[i] (List.getElem_mem _)
    omega

theorem modelPhase_add {a : Act} {g h : List (List ℝ)} (hg : Spec.Enough a g) (hh : Spec.Enough a h) (c : ℝ)
    {e : Fin 11} {f f' : Fin a.resolution → Fin a.resolution → ℝ} (h1 : Spec.ModelPhase a g e f)
    (h2 : Spec.ModelPhase a h e f') : Spec.ModelPhase a (Spec.addModel c g h) e fun i j => f i j + c * f' i j := by
  obtain ⟨phi, p1, p2⟩ := h1
  obtain ⟨psi, q1, q2⟩ := h2
  refine ⟨_, isMap_add hg hh c p1 q1, fun q d hd => ?_⟩
  show f q.1 q.2 + c * f' q.1 q.2 = _
  rw [p2 q d hd, q2 q d hd]
  ring

theorem modelPhase_unique {a : Act} (hs : 0 ≤ a.sr) (hs' : a.sr ≤ 5.2) {g : List (List ℝ)} {e : Fin 11}
    {f f' : Fin a.resolution → Fin a.resolution → ℝ} (h1 : Spec.ModelPhase a g e f)
    (h2 : Spec.ModelPhase a g e f') : f = f' := by
  obtain ⟨phi, p1, p2⟩ := h1
  obtain ⟨psi, q1, q2⟩ := h2
  have := isMap_unique p1 q1
  subst this
  funext i j
  obtain ⟨c, hc, -⟩ := C63_defined a hs hs' (i, j)
  exact (p2 (i, j) c hc).trans (q2 (i, j) c hc).symm

theorem transform_add {a : Act} {d n : ℕ} {u u' f f' : Fin d → Fin n → Fin n → ℝ} (c : ℝ)
    (h1 : a.transform (Spec.stack u) = .ok (Spec.stack f)) (h2 : a.transform (Spec.stack u') = .ok (Spec.stack f')) :
    a.transform (Spec.stack fun e i j => u e i j + c * u' e i j) =
      .ok (Spec.stack fun e i j => f e i j + c * f' e i j) := by
  have h4 : a.nrot % 4 = 0 ∨ a.nrot % 4 = 1 ∨ a.nrot % 4 = 2 ∨ a.nrot % 4 = 3 := by omega
  rcases h4 with h4 | h4 | h4 | h4
  · rw [(C58_stack a _).1 h4] at h1 h2 ⊢
    rw [← stack_inj (Except.ok.inj h1), ← stack_inj (Except.ok.inj h2)]
    congr 2; funext e i j; ring
  · rw [(C58_stack a _).2.1 h4] at h1 h2 ⊢
    rw [← stack_inj (Except.ok.inj h1), ← stack_inj (Except.ok.inj h2)]
    congr 2; funext e i j; simp only [Spec.quarter]; ring
  · rw [(C58_stack a _).2.2.1 h4] at h1 h2 ⊢
    rw [← stack_inj (Except.ok.inj h1), ← stack_inj (Except.ok.inj h2)]
    congr 2; funext e i j; simp only [Spec.half]; ring
  · rw [(C58_stack a _).2.2.2 h4] at h1 h2 ⊢
    rw [← stack_inj (Except.ok.inj h1), ← stack_inj (Except.ok.inj h2)]
    congr 2; funext e i j; simp only [Spec.threeQuarter]; ring

/-- **C118**. The displacements of a model are determined by it. -/
theorem C118_unique (a : Act) (ha : Spec.Usable a) {g : List (List ℝ)} {T S : Fin 11 → Fin 96 → ℝ}
    (hT : Spec.Displaces a g T) (hS : Spec.Displaces a g S) : T = S := by
  obtain ⟨f, u, h1, h2, -, h3⟩ := hT
  obtain ⟨f', u', h1', h2', -, h3'⟩ := hS
  have hf : f = f' := funext fun e => modelPhase_unique ha.sr_pos.le ha.sr_le (h1 e) (h1' e)
  subst hf
  have hu : u = u' := transform_inj a (factor_ne ha.freq ha.sign ha.refl) (h2.trans h2'.symm)
  subst hu
  rw [h3] at h3'
  funext e k
  simpa using congrFun (Except.ok.inj h3') (e, k)

/-- **C118**. The displacements of the sum of two models are the sums of the displacements. -/
theorem C118_linear (a : Act) (ha : Spec.Usable a) {g h : List (List ℝ)} (hg : Spec.Enough a g)
    (hh : Spec.Enough a h) (c : ℝ) {T S R : Fin 11 → Fin 96 → ℝ} (hT : Spec.Displaces a g T)
    (hS : Spec.Displaces a h S) (hR : Spec.Displaces a (Spec.addModel c g h) R) (e : Fin 11) (k : Fin 96) :
    R e k = T e k + c * S e k := by
  obtain ⟨f, u, h1, h2, -, h3⟩ := hT
  obtain ⟨f', u', h1', h2', -, h3'⟩ := hS
  obtain ⟨f₂, u₂, i1, i2, -, i3⟩ := hR
  have hf : f₂ = fun e i j => f e i j + c * f' e i j :=
    funext fun e => modelPhase_unique ha.sr_pos.le ha.sr_le (i1 e) (modelPhase_add hg hh c (h1 e) (h1' e))
  have hu : u₂ = fun e i j => u e i j + c * u' e i j := by
    refine transform_inj a (factor_ne ha.freq ha.sign ha.refl) ?_
    rw [i2, hf, transform_add c h2 h2']
  subst hu
  obtain ⟨F, G, j1, j2, j3⟩ := C74_rings_linear a ha.quintic ha.res ha.sr_pos (d := 11) le_rfl u u' c
  rw [h3] at j1
  rw [h3'] at j2
  rw [i3] at j3
  have e1 := congrFun (Except.ok.inj j1) (e, k)
  have e2 := congrFun (Except.ok.inj j2) (e, k)
  have e3 := congrFun (Except.ok.inj j3) (e, k)
  simp only [Fl.fin.injEq] at e1 e2 e3
  rw [e1, e2, e3]

theorem lookupText_inj {v w : Fin 11 → Fin 96 → ℤ} (h : Spec.lookupText v = Spec.lookupText w) : v = w := by
  have h := congrArg Act.readLookup h
  rw [C60_read, C60_read, Except.ok.injEq] at h
  have h' := List.ofFn_injective h
  funext j
  exact List.ofFn_injective (congrFun h' j)

/-- **C118**. Every table is corrected by the displacements of the model: the new command is the integer
nearest to the present command less the displacement, kept to the limits. -/
theorem C118_step (a : Act) (ha : Spec.Usable a) {g : List (List ℝ)} (hg : Spec.Enough a g)
    {T : Fin 11 → Fin 96 → ℝ} (hT : Spec.Displaces a g T) (v w : Fin 11 → Fin 96 → ℤ) :
    a.createLookup g (Spec.lookupText v) = .ok (Spec.lookupText w) ↔
      ∀ e k, Spec.Command a.minAmp a.maxAmp (.fin (v e k - T e k)) (w e k) := by
  obtain ⟨f, u, h1, h2, hl, h3⟩ := hT
  obtain ⟨f', u', T', w', h1', h2', h3', h4, h5⟩ := C75_commands a ha.quintic ha.res ha.sr_pos ha.sr_le ha.freq
    ha.sign ha.refl ha.writable g hg v
  have hf : f = f' := funext fun e => modelPhase_unique ha.sr_pos.le ha.sr_le (h1 e) (h1' e)
  subst hf
  have hu : u = u' := transform_inj a (factor_ne ha.freq ha.sign ha.refl) (h2.trans h2'.symm)
  subst hu
  simp only [min_eq_right (hl _ _ _).2, max_eq_right (hl _ _ _).1] at h3'
  rw [h3] at h3'
  have hTT : T = T' := by
    funext e k
    simpa using congrFun (Except.ok.inj h3') (e, k)
  subst hTT
  constructor
  · intro h
    rw [h4, Except.ok.injEq] at h
    rw [← lookupText_inj h]
    exact h5
  · intro h
    rw [h4]
    congr 2
    funext e k
    have e1 := h5 e k
    have e2 := h e k
    simp only [Spec.Command, Spec.clamp] at e1 e2
    exact nearest_unique e1 e2

/-- A command strictly between the limits has not been clipped. -/
theorem command_inside {lo hi : ℤ} {x : ℝ} {z : ℤ} (h : Spec.Command lo hi (.fin x) z) (hlo : lo < z) (hhi : z < hi) :
    Spec.Nearest x z := by
  have hl : (lo : ℝ) ≤ hi := by exact_mod_cast (hlo.trans hhi).le
  simp only [Spec.Command, Spec.clamp] at h
  rcases le_or_gt x lo with hx | hx
  · rw [max_eq_left ((min_le_right _ _).trans hx)] at h
    have := nearest_between (lo := lo) (hi := lo) le_rfl le_rfl h
    omega
  · rcases le_or_gt (hi : ℝ) x with hx' | hx'
    · rw [min_eq_left hx', max_eq_right hl] at h
      have := nearest_between (lo := hi) (hi := hi) le_rfl le_rfl h
      omega
    · rwa [min_eq_right hx'.le, max_eq_right hx.le] at h

theorem int_abs_lt {x y : ℤ} {d : ℝ} {n : ℤ} (h : |(x : ℝ) - y| ≤ d) (hd : d < n + 1) : |x - y| ≤ n := by
  have h1 : |((x - y : ℤ) : ℝ)| < ((n + 1 : ℤ) : ℝ) := by push_cast; linarith
  rw [← Int.cast_abs] at h1
  have := Int.cast_lt.1 h1
  omega

section Tables

variable (a : Act) (ha : Spec.Usable a) (lo hi : ℤ) (hlo : a.minAmp = lo) (hhi : a.maxAmp = hi)
include ha hlo hhi

/-- **C118**. What is left of the displacement after the correction is at most half a micrometre, for
every actuator that is not sent to a limit. -/
theorem C118_cancels {g : List (List ℝ)} (hg : Spec.Enough a g) {T : Fin 11 → Fin 96 → ℝ}
    (hT : Spec.Displaces a g T) (v w : Fin 11 → Fin 96 → ℤ)
    (h : a.createLookup g (Spec.lookupText v) = .ok (Spec.lookupText w)) (e : Fin 11) (k : Fin 96)
    (h1 : lo < w e k) (h2 : w e k < hi) : |T e k + ((w e k : ℝ) - v e k)| ≤ 1 / 2 := by
  have := (C118_step a ha hg hT v w).1 h e k
  rw [hlo, hhi] at this
  have := (command_inside this h1 h2).1
  rw [abs_sub_comm] at this
  rwa [show T e k + ((w e k : ℝ) - v e k) = w e k - (v e k - T e k) by ring]

/-- **C118**. Two corrections one after the other give the table of the sum of the models, to one
micrometre. -/
theorem C118_sum {g h : List (List ℝ)} (hg : Spec.Enough a g) (hh : Spec.Enough a h)
    {T S R : Fin 11 → Fin 96 → ℝ} (hT : Spec.Displaces a g T) (hS : Spec.Displaces a h S)
    (hR : Spec.Displaces a (Spec.addModel 1 g h) R) (v w x y : Fin 11 → Fin 96 → ℤ)
    (h1 : a.createLookup g (Spec.lookupText v) = .ok (Spec.lookupText w))
    (h2 : a.createLookup h (Spec.lookupText w) = .ok (Spec.lookupText x))
    (h3 : a.createLookup (Spec.addModel 1 g h) (Spec.lookupText v) = .ok (Spec.lookupText y))
    (e : Fin 11) (k : Fin 96) (hw : lo < w e k ∧ w e k < hi) (hx : lo < x e k ∧ x e k < hi)
    (hy : lo < y e k ∧ y e k < hi) : |x e k - y e k| ≤ 1 := by
  have e1 := C118_cancels a ha lo hi hlo hhi hg hT v w h1 e k hw.1 hw.2
  have e2 := C118_cancels a ha lo hi hlo hhi hh hS w x h2 e k hx.1 hx.2
  have e3 := C118_cancels a ha lo hi hlo hhi (add_enough hg hh 1) hR v y h3 e k hy.1 hy.2
  rw [C118_linear a ha hg hh 1 hT hS hR] at e3
  refine int_abs_lt (d := 3 / 2) ?_ (by norm_num)
  rw [abs_le] at *
  constructor <;> linarith [e1.1, e1.2, e2.1, e2.2, e3.1, e3.2]

/-- **C118**. The order of two corrections does not matter, except for displacements half way between
two commands. -/
theorem C118_order {g h : List (List ℝ)} (hg : Spec.Enough a g) (hh : Spec.Enough a h)
    {T S : Fin 11 → Fin 96 → ℝ} (hT : Spec.Displaces a g T) (hS : Spec.Displaces a h S)
    (v w x w' x' : Fin 11 → Fin 96 → ℤ)
    (h1 : a.createLookup g (Spec.lookupText v) = .ok (Spec.lookupText w))
    (h2 : a.createLookup h (Spec.lookupText w) = .ok (Spec.lookupText x))
    (h1' : a.createLookup h (Spec.lookupText v) = .ok (Spec.lookupText w'))
    (h2' : a.createLookup g (Spec.lookupText w') = .ok (Spec.lookupText x'))
    (e : Fin 11) (k : Fin 96) (hw : lo < w e k ∧ w e k < hi) (hx : lo < x e k ∧ x e k < hi)
    (hw' : lo < w' e k ∧ w' e k < hi) (hx' : lo < x' e k ∧ x' e k < hi)
    (ht : ∀ n : ℤ, T e k ≠ n + 1 / 2) (hs : ∀ n : ℤ, S e k ≠ n + 1 / 2) : x e k = x' e k := by
  have e1 := C118_cancels a ha lo hi hlo hhi hg hT v w h1 e k hw.1 hw.2
  have e2 := C118_cancels a ha lo hi hlo hhi hh hS w x h2 e k hx.1 hx.2
  have e1' := C118_cancels a ha lo hi hlo hhi hh hS v w' h1' e k hw'.1 hw'.2
  have e2' := C118_cancels a ha lo hi hlo hhi hg hT w' x' h2' e k hx'.1 hx'.2
  have key : ∀ (D : ℝ) (m n : ℤ), (∀ n : ℤ, D ≠ n + 1 / 2) → |D + m| ≤ 1 / 2 → |D + n| ≤ 1 / 2 → m = n := by
    intro D m n hD hm hn
    have l1 : ∀ p : ℤ, |D + p| ≤ 1 / 2 → |D + p| < 1 / 2 := by
      intro p hp
      refine lt_of_le_of_ne hp fun h => ?_
      rcases (abs_eq (by norm_num)).1 h with h | h
      · exact hD (-p) (by push_cast; linarith)
      · exact hD (-p - 1) (by push_cast; linarith)
    have hm := abs_lt.1 (l1 m hm)
    have hn := abs_lt.1 (l1 n hn)
    have a1 : (m : ℝ) < n + 1 := by linarith [hm.2, hn.1]
    have a2 : (n : ℝ) < m + 1 := by linarith [hn.2, hm.1]
    have a1 : m < n + 1 := by exact_mod_cast a1
    have a2 : n < m + 1 := by exact_mod_cast a2
    omega
  have k1 := key (T e k) (w e k - v e k) (x' e k - w' e k) ht (by push_cast; exact e1) (by push_cast; exact e2')
  have k2 := key (S e k) (x e k - w e k) (w' e k - v e k) hs (by push_cast; exact e2) (by push_cast; exact e1')
  omega

/-- **C118**. A table corrected again with the same model is corrected twice. -/
theorem C118_twice {g : List (List ℝ)} (hg : Spec.Enough a g) {T : Fin 11 → Fin 96 → ℝ}
    (hT : Spec.Displaces a g T) (v w x : Fin 11 → Fin 96 → ℤ)
    (h1 : a.createLookup g (Spec.lookupText v) = .ok (Spec.lookupText w))
    (h2 : a.createLookup g (Spec.lookupText w) = .ok (Spec.lookupText x)) (e : Fin 11) (k : Fin 96)
    (hw : lo < w e k ∧ w e k < hi) (hx : lo < x e k ∧ x e k < hi) :
    |T e k + (x e k - v e k)| ≥ |T e k| - 1 := by
  have e1 := C118_cancels a ha lo hi hlo hhi hg hT v w h1 e k hw.1 hw.2
  have e2 := C118_cancels a ha lo hi hlo hhi hg hT w x h2 e k hx.1 hx.2
  have e3 : |T e k| ≤ |T e k + (x e k - v e k)| + 1 := by
    rw [show T e k = (T e k + ((w e k : ℝ) - v e k)) + (T e k + ((x e k : ℝ) - w e k)) -
      (T e k + ((x e k : ℝ) - v e k)) by ring]
    refine (abs_sub _ _).trans ?_
    have := abs_add_le (T e k + ((w e k : ℝ) - v e k)) (T e k + ((x e k : ℝ) - w e k))
    rw [show T e k + ((w e k : ℝ) - v e k) + (T e k + ((x e k : ℝ) - w e k)) - (T e k + ((x e k : ℝ) - v e k)) +
      ((x e k : ℝ) - v e k) = T e k + ((x e k : ℝ) - v e k) by ring]
    linarith
  linarith

/-- **C118**. The correction with the opposite model brings back the table, to one micrometre. -/
theorem C118_undo {g : List (List ℝ)} (hg : Spec.Enough a g) {T S : Fin 11 → Fin 96 → ℝ}
    (hT : Spec.Displaces a g T) (hS : Spec.Displaces a (Spec.negModel g) S) (v w x : Fin 11 → Fin 96 → ℤ)
    (h1 : a.createLookup g (Spec.lookupText v) = .ok (Spec.lookupText w))
    (h2 : a.createLookup (Spec.negModel g) (Spec.lookupText w) = .ok (Spec.lookupText x)) (e : Fin 11) (k : Fin 96)
    (hw : lo < w e k ∧ w e k < hi) (hx : lo < x e k ∧ x e k < hi) :
    |x e k - v e k| ≤ 1 ∧ ((∀ n : ℤ, T e k ≠ n + 1 / 2) → x e k = v e k) := by
  have hn : Spec.negModel g = Spec.addModel (-2) g g := by
    have : ∀ l : List ℝ, l.map (- ·) = List.zipWith (fun x y => x + -2 * y) l l := by
      intro l
      rw [List.zipWith_self]
      exact List.map_congr_left fun x _ => by ring
    unfold Spec.negModel Spec.addModel
    rw [List.zipWith_self]
    exact List.map_congr_left fun l _ => this l
  have hS' := hS
  rw [hn] at hS'
  have hST := C118_linear a ha hg hg (-2) hT hT hS' e k
  have hng : Spec.Enough a (Spec.negModel g) := by rw [hn]; exact add_enough hg hg _
  have e1 := C118_cancels a ha lo hi hlo hhi hg hT v w h1 e k hw.1 hw.2
  have e2 := C118_cancels a ha lo hi hlo hhi hng hS w x h2 e k hx.1 hx.2
  rw [hST] at e2
  have e3 : |(x e k : ℝ) - v e k| ≤ 1 := by
    rw [abs_le] at *
    constructor <;> linarith [e1.1, e1.2, e2.1, e2.2]
  refine ⟨int_abs_lt e3 (by norm_num), fun ht => ?_⟩
  have l1 : |T e k + ((w e k : ℝ) - v e k)| < 1 / 2 := by
    refine lt_of_le_of_ne e1 fun h => ?_
    rcases (abs_eq (by norm_num)).1 h with h | h
    · exact ht (v e k - w e k) (by push_cast; linarith)
    · exact ht (v e k - w e k - 1) (by push_cast; linarith)
  have l2 : |(x e k : ℝ) - v e k| < 1 := by
    rw [abs_le] at e2
    rw [abs_lt] at *
    constructor <;> linarith [l1.1, l1.2, e2.1, e2.2]
  have l3 : |((x e k - v e k : ℤ) : ℝ)| < ((1 : ℤ) : ℝ) := by push_cast; exact l2
  rw [← Int.cast_abs] at l3
  have := Int.cast_lt.1 l3
  have := Int.abs_lt_one_iff.1 this
  omega

end Tables

theorem modelSize_nonneg (g : List (List ℝ)) : 0 ≤ Spec.modelSize g := by
  refine List.sum_nonneg fun x hx => ?_
  obtain ⟨r, -, rfl⟩ := List.mem_map.1 hx
  refine List.sum_nonneg fun y hy => ?_
  obtain ⟨z, -, rfl⟩ := List.mem_map.1 hy
  exact abs_nonneg z

theorem abs_sum_le_modelSize (K : List ℝ) : ∀ g : List (List ℝ), K.length ≤ g.length →
    (∀ k, k < K.length → |K.getD k 0| ≤ ((g.getD k []).map (|·|)).sum) → (K.map (|·|)).sum ≤ Spec.modelSize g := by
  induction K with
  | nil => intro g _ _; simpa using modelSize_nonneg g
  | cons x K ih =>
    intro g hl h
    match g, hl with
    | r :: g, hl =>
      have h0 := h 0 (by simp)
      have h1 := ih g (by simpa using hl) fun k hk => by simpa using h (k + 1) (by simpa using hk)
      simp only [List.getD_cons_zero] at h0
      simp only [Spec.modelSize, List.map_cons, List.sum_cons] at h1 ⊢
      linarith

theorem grav_le {row : List ℝ} (h : 3 ≤ row.length) (al : Act.Angle) {x : ℝ} (hx : Act.gravDeformation row al = .ok x) :
    |x| ≤ (row.map (|·|)).sum := by
  rw [grav_ok h, Except.ok.injEq] at hx
  obtain ⟨x0, x1, x2, t, rfl⟩ : ∃ x0 x1 x2 t, row = x0 :: x1 :: x2 :: t := by
    match row, h with
    | x0 :: x1 :: x2 :: t, _ => exact ⟨x0, x1, x2, t, rfl⟩
  have ht : 0 ≤ (t.map (|·|)).sum := by
    refine List.sum_nonneg fun y hy => ?_
    obtain ⟨z, -, rfl⟩ := List.mem_map.1 hy
    exact abs_nonneg z
  simp only [List.getD_cons_zero, List.getD_cons_succ] at hx
  simp only [List.map_cons, List.sum_cons]
  rw [← hx]
  have e1 : |x0 * Real.sin al.rad| ≤ |x0| := by
    rw [abs_mul]; exact mul_le_of_le_one_right (abs_nonneg _) (Real.abs_sin_le_one _)
  have e2 : |x1 * Real.cos al.rad| ≤ |x1| := by
    rw [abs_mul]; exact mul_le_of_le_one_right (abs_nonneg _) (Real.abs_cos_le_one _)
  have e3 := abs_add_le (x0 * Real.sin al.rad + x1 * Real.cos al.rad) x2
  have e4 := abs_add_le (x0 * Real.sin al.rad) (x1 * Real.cos al.rad)
  linarith

/-- The phases of a model are at most `2 pi` times its size. -/
theorem modelPhase_le {a : Act} (ha : Spec.Usable a) (hpr : 0 < a.pr) {g : List (List ℝ)} (hg : Spec.Enough a g)
    {e : Fin 11} {f : Fin a.resolution → Fin a.resolution → ℝ} (h : Spec.ModelPhase a g e f) (i j) :
    |f i j| ≤ 2 * Real.pi * Spec.modelSize g := by
  obtain ⟨phi, ⟨K, k1, k2, p, k3, rfl⟩, hc⟩ := h
  obtain ⟨c, c1, c2, c3, -⟩ := C63_defined a ha.sr_pos.le ha.sr_le (i, j)
  obtain ⟨M, m1, m2⟩ := C11_bound K a.pr hpr false false a.resolution a.order k1
    fun _ => by rw [k1]; exact three_le hg.1
  rw [k3] at m1; cases m1
  have hK : (K.map (|·|)).sum ≤ Spec.modelSize g := by
    refine abs_sum_le_modelSize K g (k1 ▸ hg.2.1) fun k hk => ?_
    obtain ⟨row, r1, r2⟩ := k2 k hk
    rw [List.getD_eq_getElem?_getD (l := g), r1]
    exact grav_le (hg.2.2 row (List.mem_of_getElem? r1)) _ r2
  have h1 : f i j = p.phi (i, j) * c ^ (11 - (e : ℕ)) := hc (i, j) c c1
  rw [h1, abs_mul, abs_pow, abs_of_pos c2]
  calc |p.phi (i, j)| * c ^ (11 - (e : ℕ)) ≤ |p.phi (i, j)| :=
        mul_le_of_le_one_right (abs_nonneg _) (pow_le_one₀ c2.le c3)
    _ ≤ 2 * Real.pi * (K.map (|·|)).sum := m2 _
    _ ≤ _ := mul_le_mul_of_nonneg_left hK (by positivity)

theorem transform_le {a : Act} {d n : ℕ} {u f : Fin d → Fin n → Fin n → ℝ} {B : ℝ}
    (h : a.transform (Spec.stack u) = .ok (Spec.stack f)) (hB : ∀ e i j, |f e i j| ≤ B) (e i j) :
    |Spec.factor a| * |u e i j| ≤ B := by
  rw [← abs_mul]
  have h4 : a.nrot % 4 = 0 ∨ a.nrot % 4 = 1 ∨ a.nrot % 4 = 2 ∨ a.nrot % 4 = 3 := by omega
  rcases h4 with h4 | h4 | h4 | h4
  · rw [(C58_stack a _).1 h4] at h
    have h := stack_inj (Except.ok.inj h)
    rw [← h] at hB
    exact hB e i j
  · rw [(C58_stack a _).2.1 h4] at h
    have h := stack_inj (Except.ok.inj h)
    rw [← h] at hB
    simpa [Spec.quarter] using hB e j.rev i
  · rw [(C58_stack a _).2.2.1 h4] at h
    have h := stack_inj (Except.ok.inj h)
    rw [← h] at hB
    simpa [Spec.half] using hB e i.rev j.rev
  · rw [(C58_stack a _).2.2.2 h4] at h
    have h := stack_inj (Except.ok.inj h)
    rw [← h] at hB
    simpa [Spec.threeQuarter] using hB e j i.rev

/-- **C118**. Every model that is small enough has displacements within reach. -/
theorem C118_exists (a : Act) (ha : Spec.Usable a) (hpr : 0 < a.pr) {g : List (List ℝ)} (hg : Spec.Enough a g)
    (h1 : 2 * Real.pi * Spec.modelSize g ≤ |Spec.factor a| * a.maxAmp)
    (h2 : 2 * Real.pi * Spec.modelSize g ≤ |Spec.factor a| * -a.minAmp) : ∃ T, Spec.Displaces a g T := by
  obtain ⟨-, f, -, -, h3⟩ := model_phases a ha.sr_pos.le ha.sr_le g hg
  obtain ⟨u, h4, -⟩ := itransform_real a ha.freq ha.sign ha.refl ha.writable.1 f
  obtain ⟨T, -, h5, -, -⟩ := C74_rings_linear a ha.quintic ha.res ha.sr_pos (d := 11) le_rfl u (fun _ _ _ => 0) 0
  refine ⟨T, f, u, h3, h4, fun e row col => ?_, h5⟩
  have h6 := transform_le h4 (fun e i j => modelPhase_le ha hpr hg (h3 e) i j) e row col
  have hp : 0 < |Spec.factor a| := abs_pos.2 (factor_ne ha.freq ha.sign ha.refl)
  have h7 := abs_le.1 (le_of_mul_le_mul_left (h6.trans h1) hp)
  have h8 := abs_le.1 (le_of_mul_le_mul_left (h6.trans h2) hp)
  exact ⟨by linarith [h8.1], h7.2⟩

/-- The model `s g`. -/
def Spec.scaleModel (s : ℝ) (g : List (List ℝ)) : List (List ℝ) := g.map (List.map (s * ·))

theorem scale_enough {a : Act} {g : List (List ℝ)} (hg : Spec.Enough a g) (s : ℝ) : Spec.Enough a (Spec.scaleModel s g) := by
  refine ⟨hg.1, by simpa [Spec.scaleModel] using hg.2.1, fun row hr => ?_⟩
  obtain ⟨r, hr', rfl⟩ := List.mem_map.1 hr
  simpa using hg.2.2 r hr'

theorem scale_add (s c : ℝ) (g : List (List ℝ)) :
    Spec.addModel c (Spec.scaleModel s g) (Spec.scaleModel s g) = Spec.scaleModel ((1 + c) * s) g := by
  unfold Spec.addModel Spec.scaleModel
  rw [List.zipWith_self, List.map_map]
  refine List.map_congr_left fun l _ => ?_
  simp only [Function.comp]
  rw [List.zipWith_self, List.map_map]
  exact List.map_congr_left fun x _ => by simp only [Function.comp]; ring

theorem list_sum_abs_mul (s : ℝ) (l : List ℝ) : ((l.map (s * ·)).map (|·|)).sum = |s| * (l.map (|·|)).sum := by
  induction l with
  | nil => simp
  | cons x l ih => simp only [List.map_cons, List.sum_cons, ih, abs_mul]; ring

theorem modelSize_scale (s : ℝ) (g : List (List ℝ)) : Spec.modelSize (Spec.scaleModel s g) = |s| * Spec.modelSize g := by
  induction g with
  | nil => simp [Spec.modelSize, Spec.scaleModel]
  | cons r g ih =>
    simp only [Spec.modelSize, Spec.scaleModel, List.map_cons, List.sum_cons] at ih ⊢
    rw [ih, list_sum_abs_mul]
    ring

/-- **C118**. Whatever the shape of a model, its small multiples have displacements as small as wanted,
in proportion to them. -/
theorem C118_small (a : Act) (ha : Spec.Usable a) (hpr : 0 < a.pr) (hmin : a.minAmp < 0) (hmax : 0 < a.maxAmp)
    {g : List (List ℝ)} (hg : Spec.Enough a g) {eps : ℝ} (heps : 0 < eps) :
    ∃ s > 0, ∃ T : Fin 11 → Fin 96 → ℝ, (∀ e k, |T e k| ≤ eps) ∧
      ∀ t, |t| ≤ 1 → Spec.Displaces a (Spec.scaleModel (t * s) g) fun e k => t * T e k := by
  have hp : 0 < |Spec.factor a| := abs_pos.2 (factor_ne ha.freq ha.sign ha.refl)
  set b := |Spec.factor a| * min a.maxAmp (-a.minAmp) with hb
  have hb0 : 0 < b := mul_pos hp (lt_min hmax (by linarith))
  have hm := modelSize_nonneg g
  set s₁ := b / (2 * Real.pi * (Spec.modelSize g + 1)) with hs₁
  have hs0 : 0 < s₁ := by positivity
  have key : ∀ s, |s| ≤ s₁ → ∃ T, Spec.Displaces a (Spec.scaleModel s g) T := by
    intro s hs
    have h1 : 2 * Real.pi * Spec.modelSize (Spec.scaleModel s g) ≤ b := by
      rw [modelSize_scale]
      calc 2 * Real.pi * (|s| * Spec.modelSize g) ≤ 2 * Real.pi * (s₁ * (Spec.modelSize g + 1)) := by
            refine mul_le_mul_of_nonneg_left ?_ (by positivity)
            exact mul_le_mul hs (by linarith) hm hs0.le
        _ = b := by rw [hs₁]; field_simp
    refine C118_exists a ha hpr (scale_enough hg s) (h1.trans ?_) (h1.trans ?_)
    · exact mul_le_mul_of_nonneg_left (min_le_left _ _) hp.le
    · exact mul_le_mul_of_nonneg_left (min_le_right _ _) hp.le
  obtain ⟨T₁, hT₁⟩ := key s₁ (abs_of_pos hs0).le
  have prop : ∀ t, |t| ≤ 1 → Spec.Displaces a (Spec.scaleModel (t * s₁) g) fun e k => t * T₁ e k := by
    intro t ht
    obtain ⟨T, hT⟩ := key (t * s₁) (by rw [abs_mul, abs_of_pos hs0]; exact mul_le_of_le_one_left hs0.le ht)
    have h1 := hT
    rw [show t * s₁ = (1 + (t - 1)) * s₁ by ring, ← scale_add] at h1
    have h2 := C118_linear a ha (scale_enough hg s₁) (scale_enough hg s₁) (t - 1) hT₁ hT₁ h1
    convert hT using 1
    funext e k
    rw [h2]
    ring
  set m := 1 + (∑ e, ∑ k, |T₁ e k|) / eps with hmd
  have hsum : 0 ≤ ∑ e, ∑ k, |T₁ e k| := Finset.sum_nonneg fun _ _ => Finset.sum_nonneg fun _ _ => abs_nonneg _
  have hm1 : 1 ≤ m := by
    have : 0 ≤ (∑ e, ∑ k, |T₁ e k|) / eps := by positivity
    linarith
  have hm0 : 0 < m := by linarith
  refine ⟨m⁻¹ * s₁, by positivity, fun e k => m⁻¹ * T₁ e k, fun e k => ?_, fun t ht => ?_⟩
  · have h1 : |T₁ e k| ≤ ∑ e, ∑ k, |T₁ e k| :=
      (Finset.single_le_sum (f := fun k => |T₁ e k|) (fun _ _ => abs_nonneg _) (Finset.mem_univ k)).trans
        (Finset.single_le_sum (f := fun e => ∑ k, |T₁ e k|) (fun _ _ => Finset.sum_nonneg fun _ _ => abs_nonneg _)
          (Finset.mem_univ e))
    rw [abs_mul, abs_of_pos (inv_pos.2 hm0), inv_mul_le_iff₀ hm0]
    have : m * eps = eps + ∑ e, ∑ k, |T₁ e k| := by rw [hmd]; field_simp
    linarith
  · have h1 : |t * m⁻¹| ≤ 1 := by
      rw [abs_mul, abs_of_pos (inv_pos.2 hm0)]
      exact mul_le_one₀ ht (inv_nonneg.2 hm0.le) (inv_le_one_of_one_le₀ hm1)
    have h2 := prop _ h1
    rw [← mul_assoc]
    convert h2 using 1
    funext e k
    ring

/-! ## Examples -/

theorem splined_usable : Spec.Usable Spec.splined where
  quintic := splined_quintic
  res := le_rfl
  sr_pos := by norm_num [Spec.splined, Spec.effelsberg]
  sr_le := by norm_num [Spec.splined, Spec.effelsberg]
  freq := by norm_num [Spec.splined, Spec.effelsberg]
  sign := by norm_num [Spec.splined, Spec.effelsberg]
  refl := by norm_num [Spec.splined, Spec.effelsberg]
  writable := effelsberg_writable

/-- The next table, from one with commands well within the limits, with a model that asks for little. -/
theorem splined_next {g : List (List ℝ)} (hg : Spec.Enough Spec.splined g) {T : Fin 11 → Fin 96 → ℝ}
    (hT : Spec.Displaces Spec.splined g T) (hT' : ∀ e k, |T e k| ≤ 10) {B : ℤ} (hB : B ≤ 4980)
    (v : Fin 11 → Fin 96 → ℤ) (hv : ∀ e k, |v e k| ≤ B) :
    ∃ w : Fin 11 → Fin 96 → ℤ, Spec.splined.createLookup g (Spec.lookupText v) = .ok (Spec.lookupText w) ∧
      ∀ e k, |w e k| ≤ B + 11 := by
  obtain ⟨w, h1, h2⟩ := C75_stroke Spec.splined splined_quintic le_rfl splined_usable.sr_pos splined_usable.sr_le
    splined_usable.freq splined_usable.sign splined_usable.refl splined_usable.writable (-5000) 5000
    (by norm_num [Spec.splined, Spec.effelsberg]) (by norm_num [Spec.splined, Spec.effelsberg]) g hg v
  refine ⟨w, h1, fun e k => ?_⟩
  have h3 := (C118_step Spec.splined splined_usable hg hT v w).1 h1 e k
  have h4 := abs_le.1 (hT' e k)
  have hv' : |(v e k : ℝ)| ≤ B := by exact_mod_cast hv e k
  have h5 := abs_le.1 hv'
  have hB' : (B : ℝ) ≤ 4980 := by exact_mod_cast hB
  have hx : (-5000 : ℝ) ≤ v e k - T e k ∧ (v e k : ℝ) - T e k ≤ 5000 := by
    constructor <;> linarith [h4.1, h4.2, h5.1, h5.2]
  simp only [Spec.Command, Spec.clamp, show Spec.splined.maxAmp = 5000 from rfl,
    show Spec.splined.minAmp = -5000 from rfl, min_eq_right hx.2, max_eq_right hx.1] at h3
  have h6 := abs_le.1 h3.1
  have h7 : |(w e k : ℝ)| < ((B + 12 : ℤ) : ℝ) := by
    push_cast
    rw [abs_lt]
    constructor <;> linarith [h4.1, h4.2, h5.1, h5.2, h6.1, h6.2]
  rw [← Int.cast_abs] at h7
  have := Int.cast_lt.1 h7
  omega

theorem splined_enough (x y z : ℝ) : Spec.Enough Spec.splined (List.replicate 21 [x, y, z]) :=
  ⟨by norm_num [Spec.splined, Spec.effelsberg], by norm_num [Spec.splined, Spec.effelsberg], by simp⟩

/-- A model corrected for, corrected for once more, and its double: all that `C118_sum`, `C118_twice` and
`C118_cancels` ask for, at every elevation and for every actuator. -/
example : ∃ (g : List (List ℝ)) (T : Fin 11 → Fin 96 → ℝ) (w x y : Fin 11 → Fin 96 → ℤ),
    Spec.Enough Spec.splined g ∧ Spec.modelSize g ≠ 0 ∧ Spec.Displaces Spec.splined g T ∧
    Spec.Displaces Spec.splined (Spec.addModel 1 g g) (fun e k => 2 * T e k) ∧
    Spec.splined.createLookup g (Spec.lookupText fun (e : Fin 11) (k : Fin 96) => (e * k : ℕ)) = .ok (Spec.lookupText w) ∧
    Spec.splined.createLookup g (Spec.lookupText w) = .ok (Spec.lookupText x) ∧
    Spec.splined.createLookup (Spec.addModel 1 g g)
      (Spec.lookupText fun (e : Fin 11) (k : Fin 96) => (e * k : ℕ)) = .ok (Spec.lookupText y) ∧
    ∀ e k, (-5000 < w e k ∧ w e k < 5000) ∧ (-5000 < x e k ∧ x e k < 5000) ∧ (-5000 < y e k ∧ y e k < 5000) ∧
      |x e k - y e k| ≤ 1 := by
  obtain ⟨s, hs, T, hT, hd⟩ := C118_small Spec.splined splined_usable (by norm_num [Spec.splined, Spec.effelsberg])
    (by norm_num [Spec.splined, Spec.effelsberg]) (by norm_num [Spec.splined, Spec.effelsberg])
    (splined_enough 1 (-2) 0.5) (eps := 10) (by norm_num)
  set g₀ : List (List ℝ) := List.replicate 21 [1, -2, 0.5]
  have hg := scale_enough (splined_enough 1 (-2) 0.5) (1 / 2 * s)
  have h1 := hd (1 / 2) (by rw [abs_of_pos] <;> norm_num)
  have h2 := hd 1 (by simp)
  have h3 : Spec.addModel 1 (Spec.scaleModel (1 / 2 * s) g₀) (Spec.scaleModel (1 / 2 * s) g₀) =
      Spec.scaleModel (1 * s) g₀ := by rw [scale_add]; congr 1; ring
  have hv : ∀ (e : Fin 11) (k : Fin 96), |((e * k : ℕ) : ℤ)| ≤ 950 := by
    intro e k
    have : (e : ℕ) * k ≤ 10 * 95 := Nat.mul_le_mul (by omega) (by omega)
    rw [abs_of_nonneg (by positivity)]
    exact_mod_cast this
  have hT1 : ∀ e k, |1 / 2 * T e k| ≤ 10 := fun e k => by
    rw [abs_mul, abs_of_pos (by norm_num : (0 : ℝ) < 1 / 2)]
    have := hT e k
    linarith [abs_nonneg (T e k)]
  obtain ⟨w, w1, w2⟩ := splined_next hg h1 hT1 (B := 950) (by norm_num) _ hv
  obtain ⟨x, x1, x2⟩ := splined_next hg h1 hT1 (B := 950 + 11) (by norm_num) _ w2
  obtain ⟨y, y1, y2⟩ := splined_next (scale_enough (splined_enough 1 (-2) 0.5) (1 * s)) h2
    (fun e k => by rw [one_mul]; exact hT e k) (B := 950) (by norm_num) _ hv
  have hsum : Spec.Displaces Spec.splined
      (Spec.addModel 1 (Spec.scaleModel (1 / 2 * s) g₀) (Spec.scaleModel (1 / 2 * s) g₀))
      (fun e k => 2 * (1 / 2 * T e k)) := by
    rw [h3]
    convert h2 using 1
    funext e k
    ring
  rw [← h3] at y1
  have hin : ∀ {z : ℤ} {b : ℤ}, |z| ≤ b → b ≤ 4980 → -5000 < z ∧ z < 5000 := by
    intro z b h h'
    rw [abs_le] at h
    omega
  refine ⟨_, _, w, x, y, hg, ?_, h1, hsum, w1, x1, y1, fun e k => ?_⟩
  · rw [modelSize_scale]
    have : 0 < Spec.modelSize g₀ := by
      simp only [g₀, Spec.modelSize, List.map_replicate, List.sum_replicate]
      norm_num
    have hs2 : 0 < |1 / 2 * s| := by positivity
    positivity
  · have i1 := hin (w2 e k) (by norm_num)
    have i2 := hin (x2 e k) (by norm_num)
    have i3 := hin (y2 e k) (by norm_num)
    exact ⟨i1, i2, i3, C118_sum Spec.splined splined_usable (-5000) 5000 (by norm_num [Spec.splined, Spec.effelsberg])
      (by norm_num [Spec.splined, Spec.effelsberg]) hg hg h1 h1 hsum _ w x y w1 x1 y1 e k i1 i2 i3⟩

/-- Two different models corrected for in both orders, and the first of them undone. -/
example : ∃ (g h : List (List ℝ)) (T S : Fin 11 → Fin 96 → ℝ) (w x w' x' z : Fin 11 → Fin 96 → ℤ),
    Spec.Enough Spec.splined g ∧ Spec.Enough Spec.splined h ∧ Spec.modelSize g ≠ 0 ∧ Spec.modelSize h ≠ 0 ∧
    Spec.Displaces Spec.splined g T ∧ Spec.Displaces Spec.splined h S ∧
    Spec.Displaces Spec.splined (Spec.negModel g) (fun e k => -T e k) ∧
    Spec.splined.createLookup g (Spec.lookupText fun (e : Fin 11) (k : Fin 96) => (e * k : ℕ)) = .ok (Spec.lookupText w) ∧
    Spec.splined.createLookup h (Spec.lookupText w) = .ok (Spec.lookupText x) ∧
    Spec.splined.createLookup h (Spec.lookupText fun (e : Fin 11) (k : Fin 96) => (e * k : ℕ)) = .ok (Spec.lookupText w') ∧
    Spec.splined.createLookup g (Spec.lookupText w') = .ok (Spec.lookupText x') ∧
    Spec.splined.createLookup (Spec.negModel g) (Spec.lookupText w) = .ok (Spec.lookupText z) ∧
    x = x' ∧ z = fun (e : Fin 11) (k : Fin 96) => ((e * k : ℕ) : ℤ) := by
  have hpr : 0 < Spec.splined.pr := by norm_num [Spec.splined, Spec.effelsberg]
  have hmin : Spec.splined.minAmp < 0 := by norm_num [Spec.splined, Spec.effelsberg]
  have hmax : 0 < Spec.splined.maxAmp := by norm_num [Spec.splined, Spec.effelsberg]
  have lo : Spec.splined.minAmp = ((-5000 : ℤ) : ℝ) := by norm_num [Spec.splined, Spec.effelsberg]
  have hi : Spec.splined.maxAmp = ((5000 : ℤ) : ℝ) := by norm_num [Spec.splined, Spec.effelsberg]
  obtain ⟨s, hs, T, hT, hd⟩ := C118_small Spec.splined splined_usable hpr hmin hmax
    (splined_enough 1 (-2) 0.5) (eps := 1 / 4) (by norm_num)
  obtain ⟨s', hs', S, hS, hd'⟩ := C118_small Spec.splined splined_usable hpr hmin hmax
    (splined_enough 0 0 3) (eps := 1 / 4) (by norm_num)
  set g₀ : List (List ℝ) := List.replicate 21 [1, -2, 0.5]
  set h₀ : List (List ℝ) := List.replicate 21 [0, 0, 3]
  have hg := scale_enough (splined_enough 1 (-2) 0.5) (1 * s)
  have hh := scale_enough (splined_enough 0 0 3) (1 * s')
  have h1 := hd 1 (by simp)
  have h2 := hd' 1 (by simp)
  have h3 := hd (-1) (by simp)
  have hneg : Spec.negModel (Spec.scaleModel (1 * s) g₀) = Spec.scaleModel (-1 * s) g₀ := by
    unfold Spec.negModel Spec.scaleModel
    rw [List.map_map]
    refine List.map_congr_left fun l _ => ?_
    simp only [Function.comp]
    rw [List.map_map]
    exact List.map_congr_left fun x _ => by simp only [Function.comp]; ring
  have hn := scale_enough (splined_enough 1 (-2) 0.5) (-1 * s)
  have hv : ∀ (e : Fin 11) (k : Fin 96), |((e * k : ℕ) : ℤ)| ≤ 950 := by
    intro e k
    have : (e : ℕ) * k ≤ 10 * 95 := Nat.mul_le_mul (by omega) (by omega)
    rw [abs_of_nonneg (by positivity)]
    exact_mod_cast this
  have hT1 : ∀ e k, |1 * T e k| ≤ 1 / 4 := fun e k => by rw [one_mul]; exact hT e k
  have hS1 : ∀ e k, |1 * S e k| ≤ 1 / 4 := fun e k => by rw [one_mul]; exact hS e k
  have hN1 : ∀ e k, |-1 * T e k| ≤ 1 / 4 := fun e k => by rw [neg_one_mul, abs_neg]; exact hT e k
  have wide : ∀ {x : ℝ}, |x| ≤ 1 / 4 → |x| ≤ 10 := fun h => h.trans (by norm_num)
  have tie : ∀ {x : ℝ}, |x| ≤ 1 / 4 → ∀ n : ℤ, x ≠ n + 1 / 2 := by
    intro x h n hx
    rw [abs_le] at h
    have a1 : (n : ℝ) < 0 := by linarith [h.2]
    have a2 : (-1 : ℝ) < n := by linarith [h.1]
    have a1 : n < 0 := by exact_mod_cast a1
    have a2 : -1 < n := by exact_mod_cast a2
    omega
  have hin : ∀ {z : ℤ} {b : ℤ}, |z| ≤ b → b ≤ 4980 → -5000 < z ∧ z < 5000 := by
    intro z b h h'
    rw [abs_le] at h
    omega
  obtain ⟨w, w1, w2⟩ := splined_next hg h1 (fun e k => wide (hT1 e k)) (B := 950) (by norm_num) _ hv
  obtain ⟨x, x1, x2⟩ := splined_next hh h2 (fun e k => wide (hS1 e k)) (B := 950 + 11) (by norm_num) _ w2
  obtain ⟨w', w1', w2'⟩ := splined_next hh h2 (fun e k => wide (hS1 e k)) (B := 950) (by norm_num) _ hv
  obtain ⟨x', x1', x2'⟩ := splined_next hg h1 (fun e k => wide (hT1 e k)) (B := 950 + 11) (by norm_num) _ w2'
  obtain ⟨z, z1, z2⟩ := splined_next hn h3 (fun e k => wide (hN1 e k)) (B := 950 + 11) (by norm_num) _ w2
  rw [← hneg] at h3 z1
  have pos : ∀ {t : ℝ} {m : List (List ℝ)}, 0 < t → 0 < Spec.modelSize m → Spec.modelSize (Spec.scaleModel (1 * t) m) ≠ 0 := by
    intro t m ht hm
    rw [modelSize_scale]
    have : 0 < |1 * t| := by positivity
    positivity
  refine ⟨_, _, _, _, w, x, w', x', z, hg, hh, pos hs ?_, pos hs' ?_, h1, h2, ?_, w1, x1, w1', x1', z1, ?_, ?_⟩
  · simp only [g₀, Spec.modelSize, List.map_replicate, List.sum_replicate]
    norm_num
  · simp only [h₀, Spec.modelSize, List.map_replicate, List.sum_replicate]
    norm_num
  · convert h3 using 1
    funext e k
    ring
  · funext e k
    exact C118_order Spec.splined splined_usable (-5000) 5000 lo hi hg hh h1 h2 _ w x w' x' w1 x1 w1' x1' e k
      (hin (w2 e k) (by norm_num)) (hin (x2 e k) (by norm_num)) (hin (w2' e k) (by norm_num))
      (hin (x2' e k) (by norm_num)) (tie (hT1 e k)) (tie (hS1 e k))
  · funext e k
    exact (C118_undo Spec.splined splined_usable (-5000) 5000 lo hi hg h1 h3 _ w z w1 z1 e k
      (hin (w2 e k) (by norm_num)) (hin (z2 e k) (by norm_num))).2 (tie (hT1 e k))

end Verif.Props
