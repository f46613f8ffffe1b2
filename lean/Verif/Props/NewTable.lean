import Verif.Props.Rings
import Verif.Props.Gravity

/-!
# C75: a new look-up table
-/

namespace Verif.Props

open Verif Verif.Np Verif.Aperture Verif.Actuator

/-- What `itransform` makes of a stack of real square maps: it finds the displacements with these
phases and clips them. -/
theorem itransform_real (a : Act) (hf : a.frequency ≠ 0) (hs : a.sign ≠ 0) (hn : a.nReflections ≠ 0)
    (hl : a.minAmp ≤ a.maxAmp) {d n : ℕ} (f : Fin d → Fin n → Fin n → ℝ) :
    ∃ u : Fin d → Fin n → Fin n → ℝ, a.transform (Spec.stack u) = .ok (Spec.stack f) ∧
      a.itransform (Spec.stack f) =
        .ok (Spec.stack fun e row col => max a.minAmp (min a.maxAmp (u e row col))) := by
  have hne := factor_ne hf hs hn
  have hc : ∀ r : ℝ, a.clip (Fl.div (.fin r) (.fin (Spec.factor a))) =
      .fin (max a.minAmp (min a.maxAmp (r / Spec.factor a))) := by
    intro r
    rw [Fl.div_fin _ hne]
    exact clip_clamp a hl _
  have h : a.nrot % 4 = 0 ∨ a.nrot % 4 = 1 ∨ a.nrot % 4 = 2 ∨ a.nrot % 4 = 3 := by omega
  rcases h with h | h | h | h
  · refine ⟨fun e row col => f e row col / Spec.factor a, ?_, ?_⟩
    · rw [(C58_stack a _).1 h]
      simp only [mul_div_cancel₀ _ hne]
    · simp only [Act.itransform, Spec.stack, Mat.map]
      rw [tfactor_eq, rot90_0 _ (by omega)]
      simp only [hc]
  · refine ⟨fun e row col => Spec.threeQuarter (f e) row col / Spec.factor a, ?_, ?_⟩
    · rw [(C58_stack a _).2.1 h]
      simp only [Spec.quarter, Spec.threeQuarter, mul_div_cancel₀ _ hne, Fin.rev_rev]
    · simp only [Act.itransform, Spec.stack, Mat.map]
      rw [tfactor_eq, rot90_3 _ (by omega)]
      simp only [hc, Spec.threeQuarter]
  · refine ⟨fun e row col => Spec.half (f e) row col / Spec.factor a, ?_, ?_⟩
    · rw [(C58_stack a _).2.2.1 h]
      simp only [Spec.half, mul_div_cancel₀ _ hne, Fin.rev_rev]
    · simp only [Act.itransform, Spec.stack, Mat.map]
      rw [tfactor_eq, rot90_2 _ (by omega)]
      simp only [hc, Spec.half]
  · refine ⟨fun e row col => Spec.quarter (f e) row col / Spec.factor a, ?_, ?_⟩
    · rw [(C58_stack a _).2.2.2 h]
      simp only [Spec.quarter, Spec.threeQuarter, mul_div_cancel₀ _ hne, Fin.rev_rev]
    · simp only [Act.itransform, Spec.stack, Mat.map]
      rw [tfactor_eq, rot90_1 _ (by omega)]
      simp only [hc, Spec.quarter]

theorem stackOf_eq (a : Act) (L : List a.Map) {d : ℕ} (h : L.length = d)
    (f : Fin d → Fin a.resolution → Fin a.resolution → ℝ)
    (hf : ∀ (i : ℕ) (hi : i < L.length) q, L[i] q = .fin (f ⟨i, h ▸ hi⟩ q.1 q.2)) :
    a.stackOf L = Spec.stack f := by
  subst h
  unfold Act.stackOf Spec.stack
  congr 2
  funext q i
  exact hf i i.2 q

/-- The eleven elevations of the table in degrees. -/
def Spec.elevation : Fin 11 → ℕ := ![7, 10, 20, 30, 32, 40, 50, 60, 70, 80, 90]

/-- The phase-error model of the script for elevation `e`: the phase of the gravitational model there,
times a power of the correction for the ellipsoid (see C63). -/
def Spec.ModelPhase (a : Act) (g : List (List ℝ)) (e : Fin 11)
    (f : Fin a.resolution → Fin a.resolution → ℝ) : Prop :=
  ∃ phi, Spec.IsMap a g (.quant (Spec.elevation e) (Real.pi / 180)) phi ∧
    ∀ q c, Spec.Corr a q c → f q.1 q.2 = phi q * c ^ (11 - (e : ℕ))

theorem model_phases (a : Act) (hs : 0 ≤ a.sr) (hs' : a.sr ≤ 5.2) (g : List (List ℝ)) (hg : Spec.Enough a g) :
    ∃ L f, a.generatePhasePr g (Act.alphaLookup.map fun n : ℕ => .quant n (Real.pi / 180)) true = .ok L ∧
      a.stackOf L = Spec.stack (d := 11) f ∧ ∀ e, Spec.ModelPhase a g e (f e) := by
  obtain ⟨L, h1, h2, h3⟩ := C63_power a g hg (Act.alphaLookup.map fun n : ℕ => .quant n (Real.pi / 180))
  have hl : L.length = 11 := h2
  choose c hc using C63_defined a hs hs'
  have h4 : ∀ e : Fin 11, ∃ phi, Spec.IsMap a g (.quant (Spec.elevation e) (Real.pi / 180)) phi ∧
      ∀ q c, Spec.Corr a q c → (L[(e : ℕ)]'(by omega)) q = .fin (phi q * c ^ (11 - (e : ℕ))) := by
    intro e
    obtain ⟨phi, p1, p2⟩ := h3 e (by omega) (by simp [Act.alphaLookup])
    refine ⟨phi, ?_, p2⟩
    convert p1 using 2
    fin_cases e <;> simp [Spec.elevation, Act.alphaLookup]
  choose phi p1 p2 using h4
  refine ⟨L, fun e row col => phi e (row, col) * c (row, col) ^ (11 - (e : ℕ)), h1,
    stackOf_eq a L hl _ fun i hi q => p2 ⟨i, hl ▸ hi⟩ q _ (hc q).1, fun e => ⟨phi e, p1 e, fun q c' hc' => ?_⟩⟩
  have := (hc q).1
  unfold Spec.Corr at this hc'
  rw [this] at hc'
  cases hc'
  rfl

/-- **C75**. The new table for a telescope with a sub-reflector of at most 5.2 m: the script never
stops, and the command of each actuator is the present one less the displacement, at the position
of the actuator, of the surface whose phase is the model (clipped at the points of the grid),
clipped and rounded. -/
theorem C75_commands (a : Act) (hq : Spec.Quintic a.spline) (hr : 6 ≤ a.resolution) (hs : 0 < a.sr)
    (hs' : a.sr ≤ 5.2) (hf : a.frequency ≠ 0) (hsg : a.sign ≠ 0) (hn : a.nReflections ≠ 0)
    (ha : Spec.Writable a) (g : List (List ℝ)) (hg : Spec.Enough a g) (v : Fin 11 → Fin 96 → ℤ) :
    ∃ (f u : Fin 11 → Fin a.resolution → Fin a.resolution → ℝ) (T : Fin 11 → Fin 96 → ℝ)
      (w : Fin 11 → Fin 96 → ℤ),
      (∀ e, Spec.ModelPhase a g e (f e)) ∧
      a.transform (Spec.stack u) = .ok (Spec.stack f) ∧
      a.interp 11 ⟨a.resolution, a.resolution, fun q i => .fin (max a.minAmp (min a.maxAmp (u i q.1 q.2)))⟩ =
        .ok (fun q => .fin (T q.1 q.2)) ∧
      a.createLookup g (Spec.lookupText v) = .ok (Spec.lookupText w) ∧
      ∀ e k, Spec.Command a.minAmp a.maxAmp (.fin (v e k - T e k)) (w e k) := by
  obtain ⟨L, f, h1, h2, h3⟩ := model_phases a hs.le hs' g hg
  obtain ⟨u, h4, h5⟩ := itransform_real a hf hsg hn ha.1 f
  obtain ⟨T, -, h6, -, -⟩ := C74_rings_linear a hq hr hs (d := 11) le_rfl
    (fun e row col => max a.minAmp (min a.maxAmp (u e row col))) (fun _ _ _ => 0) 0
  obtain ⟨w, h7, h8⟩ := C60_file a ha (n := 96) le_rfl fun e k => .fin ((v e k : ℝ) - T e k)
  refine ⟨f, u, T, w, h3, h4, h6, ?_, h8⟩
  unfold Act.createLookup
  rw [h1, C60_read]
  simp only [bind, Except.bind]
  rw [h2, h5]
  simp only [Spec.stack, h6]
  have : Act.subTable (List.ofFn fun j : Fin 11 => List.ofFn fun k : Fin 96 => v j k)
      (fun q => .fin (T q.1 q.2)) = fun q => .fin ((v q.1 q.2 : ℝ) - T q.1 q.2) := by
    funext q
    unfold Act.subTable
    have h9 : (List.ofFn fun j : Fin 11 => List.ofFn fun k : Fin 96 => v j k).getD (q.1 : ℕ) [] =
        List.ofFn fun k : Fin 96 => v q.1 k := by
      rw [getD_lt _ _ (by rw [List.length_ofFn]; exact q.1.2), List.getElem_ofFn]
    rw [h9, getD_lt _ _ (by rw [List.length_ofFn]; exact q.2.2), List.getElem_ofFn]
    simp [Fl.sub, sub_eq_add_neg, Fl.add, Fl.neg]
  rw [this, h7]
  rfl

theorem nearest_between {lo hi z : ℤ} {x : ℝ} (h1 : (lo : ℝ) ≤ x) (h2 : x ≤ hi) (h : Spec.Nearest x z) :
    lo ≤ z ∧ z ≤ hi := by
  have h3 := abs_le.1 h.1
  constructor
  · have : (lo : ℝ) < z + 1 := by linarith [h3.1, h3.2]
    have : lo < z + 1 := by exact_mod_cast this
    omega
  · have : (z : ℝ) < hi + 1 := by linarith [h3.1, h3.2]
    have : z < hi + 1 := by exact_mod_cast this
    omega

theorem stack_inj {d m n : ℕ} {f g : Fin d → Fin m → Fin n → ℝ} (h : Spec.stack f = Spec.stack g) : f = g := by
  unfold Spec.stack at h
  injection h with _ h
  injection h with _ _ h
  funext i r c
  have := congrFun (congrFun h (r, c)) i
  simpa using this

/-- Different displacements have different phases. -/
theorem transform_inj (a : Act) (hne : Spec.factor a ≠ 0) {d n : ℕ} {u u' : Fin d → Fin n → Fin n → ℝ}
    (h : a.transform (Spec.stack u) = a.transform (Spec.stack u')) : u = u' := by
  have h4 : a.nrot % 4 = 0 ∨ a.nrot % 4 = 1 ∨ a.nrot % 4 = 2 ∨ a.nrot % 4 = 3 := by omega
  rcases h4 with h4 | h4 | h4 | h4
  · rw [(C58_stack a _).1 h4, (C58_stack a _).1 h4] at h
    have h := stack_inj (Except.ok.inj h)
    funext e r c
    exact mul_left_cancel₀ hne (congrFun (congrFun (congrFun h e) r) c)
  · rw [(C58_stack a _).2.1 h4, (C58_stack a _).2.1 h4] at h
    have h := stack_inj (Except.ok.inj h)
    funext e r c
    have := mul_left_cancel₀ hne (congrFun (congrFun (congrFun h e) c.rev) r)
    simpa [Spec.quarter] using this
  · rw [(C58_stack a _).2.2.1 h4, (C58_stack a _).2.2.1 h4] at h
    have h := stack_inj (Except.ok.inj h)
    funext e r c
    have := mul_left_cancel₀ hne (congrFun (congrFun (congrFun h e) r.rev) c.rev)
    simpa [Spec.half] using this
  · rw [(C58_stack a _).2.2.2 h4, (C58_stack a _).2.2.2 h4] at h
    have h := stack_inj (Except.ok.inj h)
    funext e r c
    have := mul_left_cancel₀ hne (congrFun (congrFun (congrFun h e) c) r.rev)
    simpa [Spec.threeQuarter] using this

/-- **C75**. No command of a new table is outside the limits, whatever the model and the present
table. -/
theorem C75_stroke (a : Act) (hq : Spec.Quintic a.spline) (hr : 6 ≤ a.resolution) (hs : 0 < a.sr)
    (hs' : a.sr ≤ 5.2) (hf : a.frequency ≠ 0) (hsg : a.sign ≠ 0) (hn : a.nReflections ≠ 0)
    (ha : Spec.Writable a) (lo hi : ℤ) (hlo : a.minAmp = lo) (hhi : a.maxAmp = hi) (g : List (List ℝ))
    (hg : Spec.Enough a g) (v : Fin 11 → Fin 96 → ℤ) :
    ∃ w : Fin 11 → Fin 96 → ℤ, a.createLookup g (Spec.lookupText v) = .ok (Spec.lookupText w) ∧
      ∀ e k, lo ≤ w e k ∧ w e k ≤ hi := by
  obtain ⟨f, u, T, w, -, -, -, h, hw⟩ := C75_commands a hq hr hs hs' hf hsg hn ha g hg v
  refine ⟨w, h, fun e k => ?_⟩
  have := hw e k
  simp only [Spec.Command, Spec.clamp] at this
  exact nearest_between (by rw [← hlo]; exact le_max_left _ _)
    (by rw [← hhi]; exact max_le ha.1 (min_le_left _ _)) this

/-- **C75**. A model without deformations changes nothing: the first three rows (piston and tilt) are
without effect, and when the others are zero the new file is the present one, provided that that
one keeps to the limits. -/
theorem C75_unchanged (a : Act) (hq : Spec.Quintic a.spline) (hr : 6 ≤ a.resolution) (hs : 0 < a.sr)
    (hs' : a.sr ≤ 5.2) (hf : a.frequency ≠ 0) (hsg : a.sign ≠ 0) (hn : a.nReflections ≠ 0)
    (ha : Spec.Writable a) (h0 : a.minAmp ≤ 0) (h0' : 0 ≤ a.maxAmp) (g : List (List ℝ)) (hg : Spec.Enough a g)
    (hz : ∀ k row, 3 ≤ k → g[k]? = some row → ∀ x ∈ row, x = 0) (v : Fin 11 → Fin 96 → ℤ)
    (hv : ∀ e k, a.minAmp ≤ v e k ∧ (v e k : ℝ) ≤ a.maxAmp) :
    a.createLookup g (Spec.lookupText v) = .ok (Spec.lookupText v) := by
  obtain ⟨f, u, T, w, hp, ht, hi, h, hw⟩ := C75_commands a hq hr hs hs' hf hsg hn ha g hg v
  have hf0 : ∀ e row col, f e row col = 0 := by
    intro e row col
    obtain ⟨phi, ⟨K, hK, hrow, p, hph, rfl⟩, hc⟩ := hp e
    obtain ⟨c, hc', -⟩ := C63_defined a hs.le hs' (row, col)
    rw [hc (row, col) c hc']
    have h3 : 3 ≤ K.length := by
      rw [hK]
      have : 2 * 3 ≤ (a.order + 1) * (a.order + 2) := Nat.mul_le_mul (by have := hg.1; omega) (by have := hg.1; omega)
      omega
    obtain ⟨K', k1, k2, k3⟩ := phase_ok K a.pr false false a.resolution a.order
      (by rw [hK]; rfl) (fun _ => h3)
    rw [hph] at k3
    cases k3
    have hK' : ∀ m, K'.getD m 0 = 0 := by
      intro m
      rw [k2]
      unfold Spec.usedCoeff
      split_ifs with hm
      · rfl
      · have hm : 3 ≤ m := by simp at hm; omega
        by_cases hl : m < K.length
        · obtain ⟨r, hr, hd⟩ := hrow m hl
          have hr0 := hz m r hm hr
          have h3r : 3 ≤ r.length := hg.2.2 r (List.mem_of_getElem? hr)
          obtain ⟨x0, x1, x2, t, rfl⟩ : ∃ x0 x1 x2 t, r = x0 :: x1 :: x2 :: t := by
            match r, h3r with
            | x0 :: x1 :: x2 :: t, _ => exact ⟨x0, x1, x2, t, rfl⟩
          have e0 := hr0 x0 (by simp)
          have e1 := hr0 x1 (by simp)
          have e2 := hr0 x2 (by simp)
          have hd := Except.ok.inj hd
          rw [← hd, e0, e1, e2]
          ring
        · rw [List.getD_eq_getElem?_getD, List.getElem?_eq_none (by omega)]; rfl
    have hw : ∀ rho theta, wfVal a.order K' rho theta = 0 := by
      intro rho theta
      unfold wfVal
      exact Finset.sum_eq_zero fun i _ => Finset.sum_eq_zero fun k _ => by rw [hK', zero_mul]
    simp only [hw]
    simp
  have hu0 : u = fun _ _ _ => 0 := by
    have hne := factor_ne hf hsg hn
    refine transform_inj a hne ?_
    rw [ht, show f = fun _ _ _ => 0 from funext fun e => funext fun r => funext fun c => hf0 e r c]
    have h4 : a.nrot % 4 = 0 ∨ a.nrot % 4 = 1 ∨ a.nrot % 4 = 2 ∨ a.nrot % 4 = 3 := by omega
    rcases h4 with h4 | h4 | h4 | h4
    · rw [(C58_stack a _).1 h4]; simp
    · rw [(C58_stack a _).2.1 h4]; simp [Spec.quarter]
    · rw [(C58_stack a _).2.2.1 h4]; simp [Spec.half]
    · rw [(C58_stack a _).2.2.2 h4]; simp [Spec.threeQuarter]
  have hT : ∀ e k, T e k = 0 := by
    obtain ⟨F, G, e1, e2, e3⟩ := C74_rings_linear a hq hr hs (d := 11) le_rfl (fun _ _ _ => 0) (fun _ _ _ => 0) 1
    rw [hu0] at hi
    simp only [min_eq_right h0', max_eq_right h0] at hi
    simp only [mul_zero, add_zero] at e3
    intro e k
    rw [e1] at hi e2 e3
    have i1 := congrFun (Except.ok.inj hi) (e, k)
    have i2 := congrFun (Except.ok.inj e2) (e, k)
    have i3 := congrFun (Except.ok.inj e3) (e, k)
    simp only [Fl.fin.injEq] at i1 i2 i3
    linarith
  rw [h]
  congr 2
  funext e k
  have := hw e k
  rw [hT, sub_zero] at this
  simp only [Spec.Command, Spec.clamp, min_eq_right (hv e k).2, max_eq_right (hv e k).1] at this
  have := nearest_between (lo := v e k) (hi := v e k) le_rfl le_rfl this
  omega

/-- A model with a deformation in every coefficient, and a present table with one command that is out
of reach. -/
example : ∃ w : Fin 11 → Fin 96 → ℤ, Spec.splined.createLookup (List.replicate 21 [1, -2, 0.5])
      (Spec.lookupText fun (e : Fin 11) (k : Fin 96) => if k = 3 then 90000 else (e : ℕ)) = .ok (Spec.lookupText w) ∧
    ∀ e k, -5000 ≤ w e k ∧ w e k ≤ 5000 :=
  C75_stroke Spec.splined splined_quintic le_rfl (by norm_num [Spec.splined, Spec.effelsberg])
    (by norm_num [Spec.splined, Spec.effelsberg]) (by norm_num [Spec.splined, Spec.effelsberg])
    (by norm_num [Spec.splined, Spec.effelsberg]) (by norm_num [Spec.splined, Spec.effelsberg])
    effelsberg_writable (-5000) 5000 (by norm_num [Spec.splined, Spec.effelsberg])
    (by norm_num [Spec.splined, Spec.effelsberg]) _
    ⟨by norm_num [Spec.splined, Spec.effelsberg], by norm_num [Spec.splined, Spec.effelsberg], by simp⟩ _

/-- Piston and tilt only. -/
example : Spec.splined.createLookup ([[1, 2, 3], [4, 5, 6], [7, 8, 9]] ++ List.replicate 18 [0, 0, 0])
      (Spec.lookupText fun (e : Fin 11) (k : Fin 96) => (e * k : ℕ)) =
    .ok (Spec.lookupText fun (e : Fin 11) (k : Fin 96) => (e * k : ℕ)) := by
  refine C75_unchanged Spec.splined splined_quintic le_rfl (by norm_num [Spec.splined, Spec.effelsberg])
    (by norm_num [Spec.splined, Spec.effelsberg]) (by norm_num [Spec.splined, Spec.effelsberg])
    (by norm_num [Spec.splined, Spec.effelsberg]) (by norm_num [Spec.splined, Spec.effelsberg])
    effelsberg_writable (by norm_num [Spec.splined, Spec.effelsberg])
    (by norm_num [Spec.splined, Spec.effelsberg]) _
    ⟨by norm_num [Spec.splined, Spec.effelsberg], by norm_num [Spec.splined, Spec.effelsberg], ?_⟩ ?_ _ ?_
  · intro row h
    simp only [List.mem_append, List.mem_cons, List.mem_replicate, List.not_mem_nil, or_false] at h
    rcases h with (rfl | rfl | rfl) | ⟨-, rfl⟩ <;> simp
  · intro k row hk h x hx
    rw [List.getElem?_append_right (by simpa using hk)] at h
    have := List.mem_replicate.1 (List.mem_of_getElem? h)
    rw [this.2] at hx
    simpa using hx
  · intro e k
    have h1 : ((e * k : ℕ) : ℝ) ≤ 5000 := by
      have : (e : ℕ) * k ≤ 10 * 95 := Nat.mul_le_mul (by omega) (by omega)
      exact_mod_cast (by omega : (e : ℕ) * k ≤ 5000)
    have h0 : (0 : ℝ) ≤ ((e * k : ℕ) : ℝ) := Nat.cast_nonneg _
    show (-5000 : ℝ) ≤ (((e * k : ℕ) : ℤ) : ℝ) ∧ (((e * k : ℕ) : ℤ) : ℝ) ≤ 5000
    rw [Int.cast_natCast]
    constructor <;> linarith

end Verif.Props
