import Verif.Props.Surface
import Verif.Props.Lookup
import Verif.Props.Wavefront
import Verif.Props.Zernike

/-!
# Gravitational model, phase maps of new elevations (C62, C63)
-/

namespace Verif.Props

open Verif Verif.Np Verif.Aperture Verif.Actuator

theorem getD_lt {α : Type} (l : List α) (d : α) {k : ℕ} (h : k < l.length) : l.getD k d = l[k] := by
  simp [List.getD, h]

theorem three_le {a : Act} (h : 1 ≤ a.order) : 3 ≤ a.nK := by
  have := tri_mono (show 2 ≤ a.order + 1 by omega)
  simpa [tri, Act.nK] using this

/-! ## C62: the model -/

/-- **C62.**  The value, for three or more coefficients (those beyond the third are ignored); a
Quantity is converted to radians whatever its unit. -/
theorem C62_value (g0 g1 g2 : ℝ) (rest : List ℝ) (v : ℝ) :
    Act.gravDeformation (g0 :: g1 :: g2 :: rest) (.bare v) =
      .ok (g0 * Real.sin v + g1 * Real.cos v + g2) ∧
    ∀ unit, Act.gravDeformation (g0 :: g1 :: g2 :: rest) (.quant v unit) =
      .ok (g0 * Real.sin (v * unit) + g1 * Real.cos (v * unit) + g2) := ⟨rfl, fun _ => rfl⟩

/-- **C62.**  Fewer than three coefficients: `IndexError`. -/
theorem C62_short (g : List ℝ) (h : g.length < 3) (al : Act.Angle) :
    Act.gravDeformation g al = .error .indexError := by
  rcases g with _ | ⟨a, _ | ⟨b, _ | ⟨c, g⟩⟩⟩
  · rfl
  · rfl
  · rfl
  · simp at h; omega

theorem grav_ok {g : List ℝ} (h : 3 ≤ g.length) (al : Act.Angle) :
    Act.gravDeformation g al =
      .ok (g.getD 0 0 * Real.sin al.rad + g.getD 1 0 * Real.cos al.rad + g.getD 2 0) := by
  rcases g with _ | ⟨a, _ | ⟨b, _ | ⟨c, g⟩⟩⟩
  · simp at h
  · simp at h
  · simp at h
  · rfl

/-- **C62.**  Linear in the coefficients. -/
theorem C62_linear (g h : List ℝ) (hgh : g.length = h.length) (c d : ℝ) (al : Act.Angle) (x y : ℝ)
    (hg : Act.gravDeformation g al = .ok x) (hh : Act.gravDeformation h al = .ok y) :
    Act.gravDeformation (List.zipWith (fun a b => c * a + d * b) g h) al = .ok (c * x + d * y) := by
  have h3 : 3 ≤ g.length := by
    by_contra hlt
    rw [C62_short g (not_le.1 hlt)] at hg; cases hg
  rw [grav_ok h3] at hg
  rw [grav_ok (hgh ▸ h3)] at hh
  cases hg; cases hh
  rcases g with _ | ⟨a, _ | ⟨b, _ | ⟨e, g⟩⟩⟩
  · simp at h3
  · simp at h3
  · simp at h3
  · rcases h with _ | ⟨a', _ | ⟨b', _ | ⟨e', h⟩⟩⟩
    · simp at hgh
    · simp at hgh
    · simp at hgh
    · rw [grav_ok (by simp)]
      simp only [List.zipWith_cons_cons, List.getD_cons_zero, List.getD_cons_succ]
      congr 1; ring

/-- **C62.**  Three different elevations, less than a turn apart, determine the coefficients. -/
theorem C62_determined (g h : List ℝ) (hg : g.length = 3) (hh : h.length = 3) (x y z : ℝ)
    (h1 : x < y) (h2 : y < z) (h3 : z < x + 2 * Real.pi)
    (e1 : Act.gravDeformation g (.bare x) = Act.gravDeformation h (.bare x))
    (e2 : Act.gravDeformation g (.bare y) = Act.gravDeformation h (.bare y))
    (e3 : Act.gravDeformation g (.bare z) = Act.gravDeformation h (.bare z)) : g = h := by
  obtain ⟨a, b, c, rfl⟩ := List.length_eq_three.1 hg
  obtain ⟨a', b', c', rfl⟩ := List.length_eq_three.1 hh
  rw [(C62_value a b c [] x).1, (C62_value a' b' c' [] x).1, Except.ok.injEq] at e1
  rw [(C62_value a b c [] y).1, (C62_value a' b' c' [] y).1, Except.ok.injEq] at e2
  rw [(C62_value a b c [] z).1, (C62_value a' b' c' [] z).1, Except.ok.injEq] at e3
  set p := a - a' with hp
  set q := b - b' with hq
  set r := c - c' with hr
  have f1 : p * Real.sin x + q * Real.cos x + r = 0 := by rw [hp, hq, hr]; linarith
  have f2 : p * Real.sin y + q * Real.cos y + r = 0 := by rw [hp, hq, hr]; linarith
  have f3 : p * Real.sin z + q * Real.cos z + r = 0 := by rw [hp, hq, hr]; linarith
  have hpi := Real.pi_pos
  -- the differences, as products of half angles
  have s1 : Real.sin ((y - x) / 2) ≠ 0 :=
    (Real.sin_pos_of_pos_of_lt_pi (by linarith) (by linarith)).ne'
  have s2 : Real.sin ((z - y) / 2) ≠ 0 :=
    (Real.sin_pos_of_pos_of_lt_pi (by linarith) (by linarith)).ne'
  have s3 : Real.sin ((z - x) / 2) ≠ 0 :=
    (Real.sin_pos_of_pos_of_lt_pi (by linarith) (by linarith)).ne'
  have d1 : p * Real.cos ((y + x) / 2) - q * Real.sin ((y + x) / 2) = 0 := by
    have e : 2 * Real.sin ((y - x) / 2) *
        (p * Real.cos ((y + x) / 2) - q * Real.sin ((y + x) / 2)) = 0 := by
      have a1 := Real.sin_sub_sin y x
      have a2 := Real.cos_sub_cos y x
      linear_combination f2 - f1 - p * a1 - q * a2
    rcases mul_eq_zero.1 e with e | e
    · exact absurd (by simpa using e) s1
    · exact e
  have d2 : p * Real.cos ((z + y) / 2) - q * Real.sin ((z + y) / 2) = 0 := by
    have e : 2 * Real.sin ((z - y) / 2) *
        (p * Real.cos ((z + y) / 2) - q * Real.sin ((z + y) / 2)) = 0 := by
      have a1 := Real.sin_sub_sin z y
      have a2 := Real.cos_sub_cos z y
      linear_combination f3 - f2 - p * a1 - q * a2
    rcases mul_eq_zero.1 e with e | e
    · exact absurd (by simpa using e) s2
    · exact e
  have hs : Real.sin ((z - x) / 2) = Real.sin ((z + y) / 2) * Real.cos ((y + x) / 2) -
      Real.cos ((z + y) / 2) * Real.sin ((y + x) / 2) := by
    rw [← Real.sin_sub]; congr 1; ring
  have hp0 : p = 0 := by
    have : p * Real.sin ((z - x) / 2) = 0 := by
      rw [hs]
      linear_combination Real.sin ((z + y) / 2) * d1 - Real.sin ((y + x) / 2) * d2
    exact (mul_eq_zero.1 this).resolve_right s3
  have hq0 : q = 0 := by
    have : q * Real.sin ((z - x) / 2) = 0 := by
      rw [hs]
      linear_combination Real.cos ((z + y) / 2) * d1 - Real.cos ((y + x) / 2) * d2
    exact (mul_eq_zero.1 this).resolve_right s3
  have hr0 : r = 0 := by rw [hp0, hq0] at f1; linarith
  rw [hp, sub_eq_zero] at hp0
  rw [hq, sub_eq_zero] at hq0
  rw [hr, sub_eq_zero] at hr0
  rw [hp0, hq0, hr0]

/-! ## The maps -/

/-- `m` is the phase map of the coefficients the model has at the elevation `al`, without piston and
tilt. -/
def Spec.IsMap (a : Act) (g : List (List ℝ)) (al : Act.Angle)
    (phi : Fin a.resolution × Fin a.resolution → ℝ) : Prop :=
  ∃ K : List ℝ, K.length = (a.order + 1) * (a.order + 2) / 2 ∧
    (∀ k, k < K.length → ∃ row, g[k]? = some row ∧
      Act.gravDeformation row al = .ok (K.getD k 0)) ∧
    ∃ p, phase K a.pr false false a.resolution = .ok p ∧ p.phi = phi

/-- Enough coefficients for the order of the object. -/
def Spec.Enough (a : Act) (g : List (List ℝ)) : Prop :=
  1 ≤ a.order ∧ (a.order + 1) * (a.order + 2) / 2 ≤ g.length ∧ ∀ row ∈ g, 3 ≤ row.length

/-- One map. -/
noncomputable def oneMap (a : Act) (g : List (List ℝ)) (al : Act.Angle) : Py (Act.Map a) := do
  let K ← a.gravCoeffs g al
  let p ← phase K a.pr false false a.resolution
  return fun q => .fin (p.phi q)

theorem coeffs_ok {a : Act} {g : List (List ℝ)} (h : Spec.Enough a g) (al : Act.Angle) :
    ∃ K, a.gravCoeffs g al = .ok K ∧ K.length = a.nK ∧
      ∀ k, k < K.length → ∃ row, g[k]? = some row ∧
        Act.gravDeformation row al = .ok (K.getD k 0) := by
  set f : ℕ → ℝ := fun k => (g.getD k []).getD 0 0 * Real.sin al.rad +
    (g.getD k []).getD 1 0 * Real.cos al.rad + (g.getD k []).getD 2 0 with hf
  have h1 : ∀ k, k < a.nK → ∃ row, g[k]? = some row ∧ Act.gravDeformation row al = .ok (f k) := by
    intro k hk
    have hk' : k < g.length := lt_of_lt_of_le hk h.2.1
    refine ⟨g[k], List.getElem?_eq_getElem hk', ?_⟩
    rw [grav_ok (h.2.2 _ (List.getElem_mem _))]
    simp only [hf, getD_lt _ _ hk']
  refine ⟨(List.range a.nK).map f, ?_, by simp, ?_⟩
  · unfold Act.gravCoeffs
    refine mapM_ok _ _ _ fun k hk => ?_
    obtain ⟨row, h2, h3⟩ := h1 k (List.mem_range.1 hk)
    simp only [pyIdx, h2, bind, Except.bind, h3]
  · intro k hk
    have hk' : k < a.nK := by simpa using hk
    obtain ⟨row, h2, h3⟩ := h1 k hk'
    refine ⟨row, h2, ?_⟩
    rw [h3]; simp [List.getD, hk']

theorem oneMap_ok {a : Act} {g : List (List ℝ)} (h : Spec.Enough a g) (al : Act.Angle) :
    ∃ phi, Spec.IsMap a g al phi ∧ oneMap a g al = .ok fun q => .fin (phi q) := by
  obtain ⟨K, h1, h2, h3⟩ := coeffs_ok h al
  have h3K : 3 ≤ K.length := by rw [h2]; exact three_le h.1
  obtain ⟨K', -, -, hp⟩ := phase_ok K a.pr false false a.resolution a.order h2 fun _ => h3K
  refine ⟨_, ⟨K, h2, h3, _, hp, rfl⟩, ?_⟩
  simp only [oneMap, h1, hp, bind, Except.bind, pure, Except.pure]

theorem isMap_unique {a : Act} {g : List (List ℝ)} {al : Act.Angle}
    {phi psi : Fin a.resolution × Fin a.resolution → ℝ} (h : Spec.IsMap a g al phi)
    (h' : Spec.IsMap a g al psi) : phi = psi := by
  obtain ⟨K, h1, h2, p, h3, rfl⟩ := h
  obtain ⟨L, h1', h2', p', h3', rfl⟩ := h'
  have : K = L := by
    refine List.ext_getElem (h1.trans h1'.symm) fun k hk hk' => ?_
    obtain ⟨row, e1, e2⟩ := h2 k hk
    obtain ⟨row', e1', e2'⟩ := h2' k hk'
    rw [e1] at e1'; cases e1'
    rw [e2, Except.ok.injEq, getD_lt _ _ hk, getD_lt _ _ hk'] at e2'
    exact e2'
  subst this
  rw [h3] at h3'; cases h3'; rfl

/-- The loop, when there are enough coefficients: `c` is applied to the whole stack every time. -/
theorem genLoop_eq {a : Act} {g : List (List ℝ)} (h : Spec.Enough a g) (eac : Bool)
    (alphas : List Act.Angle) (i : ℕ) (phases : List (Act.Map a))
    (hlen : phases.length = i + alphas.length) :
    ∃ L, a.genLoop g eac i alphas phases = .ok L ∧ L.length = phases.length ∧
      ∀ n (hn : n < L.length) (hn' : n < phases.length),
        (n < i → L[n] = fun q =>
          (fun x => if eac then Fl.mul x (a.correction q) else x)^[alphas.length] (phases[n] q)) ∧
        (∀ (hi : i ≤ n) (m : ℕ), n = i + m → ∃ al phi, alphas[m]? = some al ∧ Spec.IsMap a g al phi ∧
          L[n] = fun q => (fun x => if eac then Fl.mul x (a.correction q) else x)^[
            alphas.length - m] (.fin (phi q))) := by
  induction alphas generalizing i phases with
  | nil =>
    refine ⟨phases, rfl, rfl, fun n hn hn' => ⟨fun _ => rfl, fun hi m hm => ?_⟩⟩
    simp at hlen; omega
  | cons al rest ih =>
    obtain ⟨K, h1, h2, h3⟩ := coeffs_ok h al
    have h3K : 3 ≤ K.length := by rw [h2]; exact three_le h.1
    obtain ⟨K', -, -, hp⟩ := phase_ok K a.pr false false a.resolution a.order h2 fun _ => h3K
    set p : PhaseMap a.resolution := _ with hpdef
    have hmap : Spec.IsMap a g al p.phi := ⟨K, h2, h3, p, hp, rfl⟩
    set ph1 := phases.set i (fun q => Fl.fin (p.phi q)) with hph1
    set ph2 := (if eac then ph1.map fun m q => Fl.mul (m q) (a.correction q) else ph1) with hph2
    have hl2 : ph2.length = (i + 1) + rest.length := by
      rw [hph2]
      have : ph1.length = i + (rest.length + 1) := by
        rw [hph1, List.length_set, hlen, List.length_cons]
      split_ifs
      · rw [List.length_map]; omega
      · omega
    obtain ⟨L, e1, e2, e3⟩ := ih (i + 1) ph2 hl2
    have hll : ph2.length = phases.length := by rw [hl2, hlen, List.length_cons]; omega
    have get2 : ∀ n (hn : n < ph2.length) (hn1 : n < ph1.length), ph2[n] = fun q =>
        if eac then Fl.mul (ph1[n] q) (a.correction q) else ph1[n] q := by
      intro n hn hn1
      cases eac with
      | true => simp [hph2]
      | false => simp [hph2]
    refine ⟨L, ?_, e2.trans hll, fun n hn hn' => ?_⟩
    · rw [← e1]
      simp only [Act.genLoop, h1, hp, bind, Except.bind]
      rfl
    · have hn1 : n < ph1.length := by rw [hph1, List.length_set]; exact hn'
      obtain ⟨f1, f2⟩ := e3 n hn (by omega)
      constructor
      · intro hlt
        rw [f1 (by omega), get2 n (by omega) hn1]
        funext q
        rw [List.length_cons, Function.iterate_succ_apply]
        have : ph1[n] = phases[n] := by
          simp only [hph1]; rw [List.getElem_set_ne (by omega)]
        rw [this]
      · intro hi m hm
        rcases Nat.eq_zero_or_pos m with h0 | h0
        · subst h0
          have hni : n = i := by omega
          subst hni
          refine ⟨al, p.phi, rfl, hmap, ?_⟩
          rw [f1 (by omega), get2 n (by omega) hn1]
          funext q
          rw [Nat.sub_zero, List.length_cons, Function.iterate_succ_apply]
          have : ph1[n] = fun q => Fl.fin (p.phi q) := by
            simp only [hph1]; rw [List.getElem_set_self]
          rw [this]
        · obtain ⟨al', phi, g1, g2, g3⟩ := f2 (by omega) (m - 1) (by omega)
          refine ⟨al', phi, ?_, g2, ?_⟩
          · rw [show m = (m - 1) + 1 by omega, List.getElem?_cons_succ]; exact g1
          · rw [g3, List.length_cons, show rest.length + 1 - m = rest.length - (m - 1) by omega]

theorem generate_eq {a : Act} {g : List (List ℝ)} (h : Spec.Enough a g) (eac : Bool)
    (alphas : List Act.Angle) :
    ∃ L, a.generatePhasePr g alphas eac = .ok L ∧ L.length = alphas.length ∧
      ∀ n (hn : n < L.length) (hn' : n < alphas.length),
        ∃ phi, Spec.IsMap a g alphas[n] phi ∧
          L[n] = fun q => (fun x => if eac then Fl.mul x (a.correction q) else x)^[
            alphas.length - n] (.fin (phi q)) := by
  obtain ⟨L, e1, e2, e3⟩ := genLoop_eq h eac alphas 0
    (List.replicate alphas.length fun _ => .fin 0) (by simp)
  rw [List.length_replicate] at e2
  refine ⟨L, e1, e2, fun n hn hn' => ?_⟩
  obtain ⟨al, phi, g1, g2, g3⟩ := (e3 n hn (by simpa using hn')).2 (by omega) n (by omega)
  rw [List.getElem?_eq_getElem hn', Option.some.injEq] at g1
  exact ⟨phi, g1 ▸ g2, g3⟩

/-- **C62.**  Without the ellipsoidal correction there is one map for every elevation, in order, and
it is the phase of the Zernike coefficients of the model at that elevation. -/
theorem C62_maps (a : Act) (g : List (List ℝ)) (h : Spec.Enough a g) (alphas : List Act.Angle) :
    ∃ L, a.generatePhasePr g alphas false = .ok L ∧ L.length = alphas.length ∧
      ∀ n (hn : n < L.length) (hn' : n < alphas.length),
        ∃ phi, Spec.IsMap a g alphas[n] phi ∧ L[n] = fun q => .fin (phi q) := by
  obtain ⟨L, e1, e2, e3⟩ := generate_eq h false alphas
  refine ⟨L, e1, e2, fun n hn hn' => ?_⟩
  obtain ⟨phi, g1, g2⟩ := e3 n hn hn'
  refine ⟨phi, g1, ?_⟩
  rw [g2]
  funext q
  have : (fun x : Fl => if false = true then Fl.mul x (a.correction q) else x) = id := by
    funext x; simp
  rw [this, Function.iterate_id]; rfl

/-- **C62.**  Elementwise: the map of an elevation is the one that is returned for this elevation
alone. -/
theorem C62_elementwise (a : Act) (g : List (List ℝ)) (h : Spec.Enough a g)
    (alphas : List Act.Angle) (L : List (Act.Map a))
    (hL : a.generatePhasePr g alphas false = .ok L) :
    L.length = alphas.length ∧ ∀ n (hn : n < L.length) (hn' : n < alphas.length),
      a.generatePhasePr g [alphas[n]] false = .ok [L[n]] := by
  obtain ⟨L', e1, e2, e3⟩ := C62_maps a g h alphas
  rw [hL] at e1; cases e1
  refine ⟨e2, fun n hn hn' => ?_⟩
  obtain ⟨phi, g1, g2⟩ := e3 n hn hn'
  obtain ⟨L1, f1, f2, f3⟩ := C62_maps a g h [alphas[n]]
  obtain ⟨m, rfl⟩ := List.length_eq_one_iff.1 f2
  obtain ⟨psi, k1, k2⟩ := f3 0 (by simp) (by simp)
  rw [f1, g2]
  have : m = fun q => Fl.fin (psi q) := k2
  rw [this, isMap_unique g1 k1]

/-! ## C63 -/

/-- The radius of a grid point of the sub-reflector. -/
noncomputable def Spec.gridRadius (a : Act) (q : Fin a.resolution × Fin a.resolution) : ℝ :=
  Real.sqrt (linspace (-a.sr) a.sr a.resolution q.2 ^ 2 + linspace (-a.sr) a.sr a.resolution q.1 ^ 2)

/-- The correction at a grid point. -/
def Spec.Corr (a : Act) (q : Fin a.resolution × Fin a.resolution) (c : ℝ) : Prop :=
  Act.correctionAt 14.3050 7.3872 (Spec.gridRadius a q) = .fin c

theorem correction_eq {a : Act} {q : Fin a.resolution × Fin a.resolution} {c : ℝ}
    (h : Spec.Corr a q c) : a.correction q = .fin c := h

theorem mul_iterate (c x : ℝ) (n : ℕ) :
    (fun y => Fl.mul y (.fin c))^[n] (.fin x) = .fin (x * c ^ n) := by
  induction n generalizing x with
  | zero => simp
  | succ n ih =>
    rw [Function.iterate_succ_apply]
    have : Fl.mul (.fin x) (.fin c) = .fin (x * c) := rfl
    rw [this, ih]
    congr 1; ring

/-- **C63.**  What the code does: map number `n` of `N` is multiplied `N - n` times by the
correction. -/
theorem C63_power (a : Act) (g : List (List ℝ)) (h : Spec.Enough a g) (alphas : List Act.Angle) :
    ∃ L, a.generatePhasePr g alphas true = .ok L ∧ L.length = alphas.length ∧
      ∀ n (hn : n < L.length) (hn' : n < alphas.length),
        ∃ phi, Spec.IsMap a g alphas[n] phi ∧
          ∀ q c, Spec.Corr a q c → L[n] q = .fin (phi q * c ^ (alphas.length - n)) := by
  obtain ⟨L, e1, e2, e3⟩ := generate_eq h true alphas
  refine ⟨L, e1, e2, fun n hn hn' => ?_⟩
  obtain ⟨phi, g1, g2⟩ := e3 n hn hn'
  refine ⟨phi, g1, fun q c hc => ?_⟩
  rw [g2]
  simp only [if_true, correction_eq hc]
  exact mul_iterate _ _ _

/-- **C63.**  Once per map is what the last one gets, and the only one of a list of one. -/
theorem C63_last (a : Act) (g : List (List ℝ)) (h : Spec.Enough a g) (alphas : List Act.Angle)
    (L : List (Act.Map a)) (hL : a.generatePhasePr g alphas true = .ok L) (n : ℕ)
    (hn : n < L.length) (hn' : n < alphas.length) (hlast : n + 1 = alphas.length) :
    ∃ phi, Spec.IsMap a g alphas[n] phi ∧
      ∀ q c, Spec.Corr a q c → L[n] q = .fin (phi q * c) := by
  obtain ⟨L', e1, e2, e3⟩ := C63_power a g h alphas
  rw [hL] at e1; cases e1
  obtain ⟨phi, g1, g2⟩ := e3 n hn hn'
  refine ⟨phi, g1, fun q c hc => ?_⟩
  rw [g2 q c hc, show alphas.length - n = 1 by omega, pow_one]

/-- **C63.**  Every other map is wrong, at every point where the phase is not zero and the correction
is neither zero nor one: it is smaller than it should be. -/
theorem C63_not_once (a : Act) (g : List (List ℝ)) (h : Spec.Enough a g) (alphas : List Act.Angle)
    (L : List (Act.Map a)) (hL : a.generatePhasePr g alphas true = .ok L) (n : ℕ)
    (hn : n < L.length) (hn' : n < alphas.length) (hnot : n + 1 < alphas.length)
    (phi : Fin a.resolution × Fin a.resolution → ℝ) (hphi : Spec.IsMap a g alphas[n] phi)
    (q : Fin a.resolution × Fin a.resolution) (c : ℝ) (hc : Spec.Corr a q c) (h0 : 0 < c)
    (h1 : c < 1) (hne : phi q ≠ 0) :
    ∃ x, L[n] q = .fin x ∧ |x| < |phi q * c| := by
  obtain ⟨L', e1, e2, e3⟩ := C63_power a g h alphas
  rw [hL] at e1; cases e1
  obtain ⟨psi, g1, g2⟩ := e3 n hn hn'
  rw [isMap_unique g1 hphi] at g2
  refine ⟨_, g2 q c hc, ?_⟩
  rw [abs_mul, abs_mul, abs_of_pos h0, abs_of_pos (pow_pos h0 _)]
  refine mul_lt_mul_of_pos_left ?_ (abs_pos.2 hne)
  have := pow_lt_pow_right_of_lt_one₀ h0 h1 (show 1 < alphas.length - n by omega)
  simpa using this

/-- **C63.**  With the ellipsoid of the code the correction is a number between zero and one at every
point of a grid of a sub-reflector up to 5.2 m, one at the centre only. -/
theorem C63_defined (a : Act) (hs : 0 ≤ a.sr) (hs' : a.sr ≤ 5.2)
    (q : Fin a.resolution × Fin a.resolution) :
    ∃ c, Spec.Corr a q c ∧ 0 < c ∧ c ≤ 1 ∧ (c = 1 ↔ Spec.gridRadius a q = 0) := by
  have hx : ∀ i : Fin a.resolution, |linspace (-a.sr) a.sr a.resolution i| ≤ a.sr := by
    intro i
    have hi := i.2
    unfold linspace
    rcases Nat.lt_or_ge 1 a.resolution with h | h
    · have hN : (0 : ℝ) < (a.resolution : ℝ) - 1 := by
        have : (1 : ℝ) < a.resolution := by exact_mod_cast h
        linarith
      have hin : ((i : ℕ) : ℝ) ≤ (a.resolution : ℝ) - 1 := by
        have : ((i : ℕ) : ℝ) + 1 ≤ a.resolution := by exact_mod_cast hi
        linarith
      have h0 : (0 : ℝ) ≤ (i : ℕ) := Nat.cast_nonneg _
      have e : ((i : ℕ) : ℝ) * ((a.sr - -a.sr) / ((a.resolution : ℝ) - 1)) =
          2 * a.sr * (((i : ℕ) : ℝ) / ((a.resolution : ℝ) - 1)) := by ring
      have d0 : 0 ≤ ((i : ℕ) : ℝ) / ((a.resolution : ℝ) - 1) := by positivity
      have d1 : ((i : ℕ) : ℝ) / ((a.resolution : ℝ) - 1) ≤ 1 := (div_le_one hN).2 hin
      rw [e, abs_le]
      constructor <;> nlinarith
    · have : (i : ℕ) = 0 := by omega
      rw [this]; simp [abs_of_nonneg hs]
  have hr0 : 0 ≤ Spec.gridRadius a q := Real.sqrt_nonneg _
  have hr1 : Spec.gridRadius a q < 7.3872 := by
    unfold Spec.gridRadius
    rw [Real.sqrt_lt' (by norm_num)]
    have a1 := sq_le_sq' (abs_le.1 (hx q.2)).1 (abs_le.1 (hx q.2)).2
    have a2 := sq_le_sq' (abs_le.1 (hx q.1)).1 (abs_le.1 (hx q.1)).2
    nlinarith
  rcases hr0.eq_or_lt with h | h
  · refine ⟨1, ?_, one_pos, le_rfl, by simp [← h]⟩
    unfold Spec.Corr
    rw [← h]; exact correctionAt_zero (by norm_num) (by norm_num)
  · obtain ⟨c, d, e1, e2, e3, e4, e5⟩ := C64_decreasing (a := 14.3050) (b := 7.3872)
      (by norm_num) (by norm_num) hr0 hr1 le_rfl
    obtain ⟨c', d', f1, f2, f3, f4, f5⟩ := C64_decreasing (a := 14.3050) (b := 7.3872)
      (by norm_num) (by norm_num) le_rfl h hr1.le
    rw [f2, Fl.fin.injEq] at e1
    subst e1
    rw [correctionAt_zero (by norm_num) (by norm_num), Fl.fin.injEq] at f1
    subst f1
    exact ⟨d', f2, lt_of_le_of_lt e3 e4, f4.le, ⟨fun h' => absurd h' f4.ne, fun h' => absurd h' h.ne'⟩⟩

/-! ## Concrete cases -/

/-- A small object: order 2, three by three points. -/
noncomputable def Spec.smallAct : Act := { Spec.effelsberg with order := 2, resolution := 3 }

/-- Only the defocus term, a constant of one. -/
def Spec.defocus : List (List ℝ) :=
  [[0, 0, 0], [0, 0, 0], [0, 0, 0], [0, 0, 0], [0, 0, 1], [0, 0, 0]]

theorem small_enough : Spec.Enough Spec.smallAct Spec.defocus := by
  refine ⟨by decide, by decide, ?_⟩
  intro row h
  simp only [Spec.defocus, List.mem_cons, List.not_mem_nil, or_false] at h
  rcases h with rfl | rfl | rfl | rfl | rfl | rfl <;> simp

/-- The middle of the right edge. -/
noncomputable def Spec.rightEdge : Fin Spec.smallAct.resolution × Fin Spec.smallAct.resolution :=
  ((1 : Fin 3), (2 : Fin 3))

/-- The phase at the middle of the right edge: a full turn. -/
theorem small_edge (al : Act.Angle) (phi) (h : Spec.IsMap Spec.smallAct Spec.defocus al phi) :
    phi Spec.rightEdge = 2 * Real.pi := by
  have hK : Spec.IsMap Spec.smallAct Spec.defocus al phi := h
  obtain ⟨K, h1, h2, p, h3, rfl⟩ := h
  have hlen : K.length = 6 := h1
  obtain ⟨K', -, e, h4⟩ := phase_ok K Spec.smallAct.pr false false Spec.smallAct.resolution 2 h1
    (fun _ => by omega)
  rw [h3, Except.ok.injEq] at h4
  rw [h4]
  have hk : ∀ k row, k < 6 → Spec.defocus[k]? = some row → K.getD k 0 = row.getD 2 0 ∨
      row ∉ Spec.defocus := by
    intro k row hk hrow
    obtain ⟨row', g1, g2⟩ := h2 k (by omega)
    rw [hrow] at g1; cases g1
    left
    have hm : row ∈ Spec.defocus := List.mem_of_getElem? hrow
    simp only [Spec.defocus, List.mem_cons, List.not_mem_nil, or_false] at hm
    rcases hm with rfl | rfl | rfl | rfl | rfl | rfl <;>
      (rw [(grav_ok (by simp) al), Except.ok.injEq] at g2; rw [← g2]; simp)
  have k3 : K.getD 3 0 = 0 := by
    rcases hk 3 [0, 0, 0] (by omega) rfl with h | h
    · simpa using h
    · exact absurd (List.mem_of_getElem? (show Spec.defocus[3]? = some [0, 0, 0] from rfl)) h
  have k4 : K.getD 4 0 = 1 := by
    rcases hk 4 [0, 0, 1] (by omega) rfl with h | h
    · simpa using h
    · exact absurd (List.mem_of_getElem? (show Spec.defocus[4]? = some [0, 0, 1] from rfl)) h
  have k5 : K.getD 5 0 = 0 := by
    rcases hk 5 [0, 0, 0] (by omega) rfl with h | h
    · simpa using h
    · exact absurd (List.mem_of_getElem? (show Spec.defocus[5]? = some [0, 0, 0] from rfl)) h
  have l1 : linspace (-50 : ℝ) 50 3 1 = 0 := by norm_num [linspace]
  have l2 : linspace (-50 : ℝ) 50 3 2 = 50 := by norm_num [linspace]
  have hW : ∀ theta, wfVal 2 K' 1 theta = 1 := by
    intro theta
    unfold wfVal
    simp only [Finset.sum_range_succ, Finset.sum_range_zero, zero_add, e, tri]
    have u : Uv (2 : ℕ) (-((2 : ℕ) : ℤ) + 2 * ((1 : ℕ) : ℤ)) 1 theta = 1 := by
      refine Uv_of_ok ?_
      have hr := C03_rim 2 0 ⟨by decide, by decide⟩
      norm_num at hr ⊢
      simp [Zernike.U, hr, bind, Except.bind, pure, Except.pure]
    have c0 : ∀ m, m < 3 → Spec.usedCoeff K false false m = 0 := by
      intro m hm
      unfold Spec.usedCoeff
      rw [if_pos]
      rcases Nat.eq_zero_or_pos m with h | h
      · exact .inl ⟨h, rfl⟩
      · exact .inr ⟨by omega, rfl⟩
    have c3 : ∀ m, 3 ≤ m → Spec.usedCoeff K false false m = K.getD m 0 := by
      intro m hm
      unfold Spec.usedCoeff
      rw [if_neg]
      rintro (⟨h, -⟩ | ⟨h, -⟩) <;> omega
    norm_num only [Nat.add_zero]
    rw [c0 0 (by omega), c0 1 (by omega), c0 2 (by omega), c3 3 (by omega), c3 4 (by omega),
      c3 5 (by omega), k3, k4, k5]
    norm_num at u ⊢
    exact u
  have hif : ∀ (c : Prop) (d : Decidable c) (x : ℝ), ¬ c →
      (@ite ℝ c d 0 x) * 2 * Real.pi = x * 2 * Real.pi := by
    intro c d x hc; rw [if_neg hc]
  refine (hif _ _ _ ?_).trans ?_
  · show ¬ ((linspace (-50 : ℝ) 50 3 2) ^ 2 + (linspace (-50 : ℝ) 50 3 1) ^ 2 > 50 ^ 2)
    rw [l1, l2]; norm_num
  · show wfVal 2 K' (Real.sqrt ((linspace (-50 : ℝ) 50 3 2) ^ 2 + (linspace (-50 : ℝ) 50 3 1) ^ 2) / 50)
      (arctan2 (linspace (-50 : ℝ) 50 3 1) (linspace (-50 : ℝ) 50 3 2)) * 2 * Real.pi = 2 * Real.pi
    rw [l1, l2]
    rw [show Real.sqrt ((50 : ℝ) ^ 2 + 0 ^ 2) / 50 = 1 by
      rw [zero_pow two_ne_zero, add_zero, Real.sqrt_sq (by norm_num)]; norm_num, hW]
    ring

/-- **C63.**  So "once per map" does not hold for the code: two elevations, defocus only. -/
theorem C63_refuted : ¬ ∀ (a : Act) (g : List (List ℝ)) (alphas : List Act.Angle)
    (L : List (Act.Map a)), Spec.Enough a g → a.generatePhasePr g alphas true = .ok L →
    ∀ n (hn : n < L.length) (hn' : n < alphas.length) (phi : _),
      Spec.IsMap a g alphas[n] phi → ∀ q c, Spec.Corr a q c → L[n] q = .fin (phi q * c) := by
  intro hall
  obtain ⟨L, h1, h2, h3⟩ := C63_power Spec.smallAct Spec.defocus small_enough [.bare 0, .bare 1]
  obtain ⟨phi, g1, -⟩ := h3 0 (by rw [h2]; simp) (by simp)
  have h5 := hall _ _ _ L small_enough h1 0 (by rw [h2]; simp) (by simp) phi g1
  obtain ⟨c, c1, c2, c3, c4⟩ := C63_defined Spec.smallAct (by norm_num [Spec.smallAct, Spec.effelsberg])
    (by norm_num [Spec.smallAct, Spec.effelsberg]) Spec.rightEdge
  have hr : Spec.gridRadius Spec.smallAct Spec.rightEdge ≠ 0 := by
    show Real.sqrt (linspace (-3.25 : ℝ) 3.25 3 2 ^ 2 + linspace (-3.25 : ℝ) 3.25 3 1 ^ 2) ≠ 0
    rw [Ne, Real.sqrt_eq_zero']
    norm_num [linspace]
  have hc1 : c < 1 := lt_of_le_of_ne c3 fun h => hr (c4.1 h)
  obtain ⟨x, e1, e2⟩ := C63_not_once Spec.smallAct Spec.defocus small_enough _ L h1 0
    (by rw [h2]; simp) (by simp) (by simp) phi g1 _ c c1 c2 hc1
    (by rw [small_edge _ _ g1]; exact Real.two_pi_pos.ne')
  rw [h5 _ c c1, Fl.fin.injEq] at e1
  rw [← e1] at e2
  exact lt_irrefl _ e2

end Verif.Props
