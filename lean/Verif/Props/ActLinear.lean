import Mathlib.Analysis.InnerProductSpace.Projection.FiniteDimensional
import Mathlib.Analysis.InnerProductSpace.PiL2
import Verif.Props.ActRecover

/-!
# The fits of phase maps and of the gravitational model are linear (C107)
-/

namespace Verif.Props

open Verif Verif.Np Verif.Aperture Verif.Actuator

/-! ## Specification -/

/-- The phase map of the coefficients `row` (without piston; with or without tilt) is the orthogonal projection of the
map `m` on the phase maps of this order: the sum of squares from `m` to any of them is the one to the map of `row`
plus the one from there on.  So it is the nearest one. -/
def Spec.Best (a : Act) (tilt : Bool) (row : List ℝ) (m : Fin a.resolution × Fin a.resolution → ℝ) : Prop :=
  row.length = (a.order + 1) * (a.order + 2) / 2 ∧ ∃ p, phase row a.pr false tilt a.resolution = .ok p ∧
    ∀ L p', L.length = (a.order + 1) * (a.order + 2) / 2 → phase L a.pr false tilt a.resolution = .ok p' →
      Spec.cost2 (fun q => m q - p'.phi q) =
        Spec.cost2 (fun q => m q - p.phi q) + Spec.cost2 (fun q => p.phi q - p'.phi q)

/-! ## Linear least squares -/

theorem lsq_exists {ι : Type} [Fintype ι] {n : ℕ} (L : (Fin n → ℝ) →ₗ[ℝ] (ι → ℝ)) (d : ι → ℝ) :
    ∃ x, ∀ y, ∑ q, (d q - L x q) * L y q = 0 := by
  set e := (WithLp.linearEquiv 2 ℝ (ι → ℝ)).symm with he
  set V : Submodule ℝ (EuclideanSpace ℝ ι) := (LinearMap.range L).map e.toLinearMap with hV
  have h1 := V.sub_starProjection_mem_orthogonal (e d)
  obtain ⟨w, ⟨x, rfl⟩, hx⟩ := V.starProjection_apply_mem (e d)
  refine ⟨x, fun y => ?_⟩
  have h2 := (Submodule.mem_orthogonal' V _).1 h1 (e (L y)) ⟨L y, ⟨y, rfl⟩, rfl⟩
  rw [← hx] at h2
  rw [PiLp.inner_apply] at h2
  rw [← h2]
  refine Finset.sum_congr rfl fun q _ => ?_
  simp [he]
  ring

theorem lsq_pythagoras {ι : Type} [Fintype ι] {n : ℕ} {L : (Fin n → ℝ) →ₗ[ℝ] (ι → ℝ)} {d : ι → ℝ} {x : Fin n → ℝ}
    (h : ∀ y, ∑ q, (d q - L x q) * L y q = 0) (y : Fin n → ℝ) :
    ∑ q, (d q - L y q) ^ 2 = ∑ q, (d q - L x q) ^ 2 + ∑ q, (L x q - L y q) ^ 2 := by
  have h1 := h (x - y)
  rw [← Finset.sum_add_distrib]
  have : ∑ q, (d q - L y q) ^ 2 = ∑ q, ((d q - L x q) ^ 2 + (L x q - L y q) ^ 2 + 2 * ((d q - L x q) * L (x - y) q)) := by
    refine Finset.sum_congr rfl fun q _ => ?_
    rw [map_sub, Pi.sub_apply]
    ring
  rw [this, Finset.sum_add_distrib, ← Finset.mul_sum, h1]
  ring

/-- Where the cost is smallest, the residual is orthogonal to the model. -/
theorem lsq_normal {ι : Type} [Fintype ι] {n : ℕ} {L : (Fin n → ℝ) →ₗ[ℝ] (ι → ℝ)} {d : ι → ℝ} {x : Fin n → ℝ}
    (h : ∀ y, ∑ q, (d q - L x q) ^ 2 ≤ ∑ q, (d q - L y q) ^ 2) (y : Fin n → ℝ) : ∑ q, (d q - L x q) * L y q = 0 := by
  obtain ⟨z, hz⟩ := lsq_exists L d
  have h1 := lsq_pythagoras hz x
  have h2 := h z
  have h3 : ∑ q, (L z q - L x q) ^ 2 = 0 :=
    le_antisymm (by linarith) (Finset.sum_nonneg fun q _ => sq_nonneg _)
  have h4 : ∀ q, L z q = L x q := fun q => by
    have := (Finset.sum_eq_zero_iff_of_nonneg fun q _ => sq_nonneg (L z q - L x q)).1 h3 q (Finset.mem_univ q)
    exact sub_eq_zero.1 (pow_eq_zero_iff two_ne_zero |>.1 this)
  rw [← hz y]
  exact Finset.sum_congr rfl fun q _ => by rw [h4]

/-! ## The phase map as a linear map -/

/-- The phase map of coefficients. -/
noncomputable def phiOf (a : Act) (tilt : Bool) (K : List ℝ) : Fin a.resolution × Fin a.resolution → ℝ :=
  match phase K a.pr false tilt a.resolution with
  | .ok p => p.phi
  | .error _ => fun _ => 0

theorem phiOf_eq {a : Act} {tilt : Bool} {K : List ℝ} {p : PhaseMap a.resolution}
    (h : phase K a.pr false tilt a.resolution = .ok p) : phiOf a tilt K = p.phi := by
  rw [phiOf, h]

theorem phiOf_ok {a : Act} (ho : 1 ≤ a.order) (tilt : Bool) {K : List ℝ} (hK : K.length = a.nK) :
    ∃ p, phase K a.pr false tilt a.resolution = .ok p ∧ p.phi = phiOf a tilt K := by
  have h3 := three_le ho
  obtain ⟨K', -, -, h⟩ := phase_ok K a.pr false tilt a.resolution a.order hK fun _ => by omega
  exact ⟨_, h, (phiOf_eq h).symm⟩

theorem phiOf_add {a : Act} (ho : 1 ≤ a.order) (tilt : Bool) {K L : List ℝ} (hK : K.length = a.nK)
    (hL : L.length = a.nK) (q) :
    phiOf a tilt (List.zipWith (· + ·) K L) q = phiOf a tilt K q + phiOf a tilt L q := by
  have h3 := three_le ho
  obtain ⟨M1, M2, M, h1, h2, h, e⟩ := C11_additive K L a.pr false tilt a.resolution a.order hK (hL.trans hK.symm)
    fun _ => by omega
  rw [phiOf_eq h1, phiOf_eq h2, phiOf_eq h, e]

theorem phiOf_smul {a : Act} (ho : 1 ≤ a.order) (tilt : Bool) {K : List ℝ} (hK : K.length = a.nK) (c : ℝ) (q) :
    phiOf a tilt (K.map (c * ·)) q = c * phiOf a tilt K q := by
  have h3 := three_le ho
  obtain ⟨M1, M, h1, h, e⟩ := C11_homogeneous K c a.pr false tilt a.resolution a.order hK fun _ => by omega
  rw [phiOf_eq h1, phiOf_eq h, e]

/-- The coefficients of a combination. -/
noncomputable def Spec.comb (c d : ℝ) (K L : List ℝ) : List ℝ := List.zipWith (· + ·) (K.map (c * ·)) (L.map (d * ·))

theorem comb_length {c d : ℝ} {K L : List ℝ} {n : ℕ} (hK : K.length = n) (hL : L.length = n) :
    (Spec.comb c d K L).length = n := by
  simp [Spec.comb, hK, hL]

theorem phiOf_comb {a : Act} (ho : 1 ≤ a.order) (tilt : Bool) {K L : List ℝ} (hK : K.length = a.nK)
    (hL : L.length = a.nK) (c d : ℝ) (q) :
    phiOf a tilt (Spec.comb c d K L) q = c * phiOf a tilt K q + d * phiOf a tilt L q := by
  rw [Spec.comb, phiOf_add ho tilt (by simpa using hK) (by simpa using hL), phiOf_smul ho tilt hK, phiOf_smul ho tilt hL]

/-- `Spec.Best` as orthogonality. -/
theorem best_iff {a : Act} (ho : 1 ≤ a.order) {tilt : Bool} {row : List ℝ}
    {m : Fin a.resolution × Fin a.resolution → ℝ} :
    Spec.Best a tilt row m ↔ row.length = a.nK ∧
      ∀ L : List ℝ, L.length = a.nK → ∑ q, (m q - phiOf a tilt row q) * phiOf a tilt L q = 0 := by
  constructor
  · rintro ⟨hr, p, hp, h⟩
    refine ⟨hr, fun L hL => ?_⟩
    have hlen : (Spec.comb 1 1 row L).length = a.nK := comb_length hr hL
    obtain ⟨p', hp', e'⟩ := phiOf_ok ho tilt hlen
    have := h _ p' hlen hp'
    rw [e', ← phiOf_eq hp] at this
    unfold Spec.cost2 at this
    have e1 : ∑ q, (m q - phiOf a tilt (Spec.comb 1 1 row L) q) ^ 2 = ∑ q, ((m q - phiOf a tilt row q) ^ 2 +
        (phiOf a tilt L q) ^ 2 - 2 * ((m q - phiOf a tilt row q) * phiOf a tilt L q)) := by
      refine Finset.sum_congr rfl fun q _ => ?_
      rw [phiOf_comb ho tilt hr hL]
      ring
    have e2 : ∑ q, (phiOf a tilt row q - phiOf a tilt (Spec.comb 1 1 row L) q) ^ 2 = ∑ q, (phiOf a tilt L q) ^ 2 := by
      refine Finset.sum_congr rfl fun q _ => ?_
      rw [phiOf_comb ho tilt hr hL]
      ring
    rw [e1, e2, Finset.sum_sub_distrib, Finset.sum_add_distrib, ← Finset.mul_sum] at this
    linarith
  · rintro ⟨hr, h⟩
    obtain ⟨p, hp, e⟩ := phiOf_ok ho tilt hr
    refine ⟨hr, p, hp, fun L p' hL hp' => ?_⟩
    have h1 := h _ (comb_length (c := 1) (d := -1) hr hL)
    rw [e, ← phiOf_eq hp']
    unfold Spec.cost2
    have e1 : ∑ q, (m q - phiOf a tilt L q) ^ 2 = ∑ q, ((m q - phiOf a tilt row q) ^ 2 +
        (phiOf a tilt row q - phiOf a tilt L q) ^ 2 +
        2 * ((m q - phiOf a tilt row q) * phiOf a tilt (Spec.comb 1 (-1) row L) q)) := by
      refine Finset.sum_congr rfl fun q _ => ?_
      rw [phiOf_comb ho tilt hr hL]
      ring
    rw [e1, Finset.sum_add_distrib, Finset.sum_add_distrib, ← Finset.mul_sum, h1]
    ring

/-- The best map of a combination is the combination of the best maps. -/
theorem best_comb {a : Act} (ho : 1 ≤ a.order) {tilt : Bool} {ra rb rc : List ℝ}
    {ma mb mc : Fin a.resolution × Fin a.resolution → ℝ} {c d : ℝ} (hc : ∀ q, mc q = c * ma q + d * mb q)
    (h1 : Spec.Best a tilt ra ma) (h2 : Spec.Best a tilt rb mb) (h3 : Spec.Best a tilt rc mc) (q) :
    phiOf a tilt rc q = c * phiOf a tilt ra q + d * phiOf a tilt rb q := by
  obtain ⟨l1, o1⟩ := (best_iff ho).1 h1
  obtain ⟨l2, o2⟩ := (best_iff ho).1 h2
  obtain ⟨l3, o3⟩ := (best_iff ho).1 h3
  have lab : (Spec.comb c d ra rb).length = a.nK := comb_length l1 l2
  have lw : (Spec.comb 1 (-1) rc (Spec.comb c d ra rb)).length = a.nK := comb_length l3 lab
  have k1 := o1 _ lw
  have k2 := o2 _ lw
  have k3 := o3 _ lw
  have e : ∀ q, phiOf a tilt (Spec.comb 1 (-1) rc (Spec.comb c d ra rb)) q =
      phiOf a tilt rc q - (c * phiOf a tilt ra q + d * phiOf a tilt rb q) := by
    intro q
    rw [phiOf_comb ho tilt l3 lab, phiOf_comb ho tilt l1 l2]
    ring
  have hz : ∑ q, (phiOf a tilt (Spec.comb 1 (-1) rc (Spec.comb c d ra rb)) q) ^ 2 = 0 := by
    have : ∑ q, (phiOf a tilt (Spec.comb 1 (-1) rc (Spec.comb c d ra rb)) q) ^ 2 =
        ∑ q, (c * ((ma q - phiOf a tilt ra q) * phiOf a tilt (Spec.comb 1 (-1) rc (Spec.comb c d ra rb)) q) +
          d * ((mb q - phiOf a tilt rb q) * phiOf a tilt (Spec.comb 1 (-1) rc (Spec.comb c d ra rb)) q) -
          (mc q - phiOf a tilt rc q) * phiOf a tilt (Spec.comb 1 (-1) rc (Spec.comb c d ra rb)) q) := by
      refine Finset.sum_congr rfl fun q _ => ?_
      rw [hc, e]
      ring
    rw [this, Finset.sum_sub_distrib, Finset.sum_add_distrib, ← Finset.mul_sum, ← Finset.mul_sum, k1, k2, k3]
    ring
  have := (Finset.sum_eq_zero_iff_of_nonneg fun q _ =>
    sq_nonneg (phiOf a tilt (Spec.comb 1 (-1) rc (Spec.comb c d ra rb)) q)).1 hz q (Finset.mem_univ q)
  have := pow_eq_zero_iff two_ne_zero |>.1 this
  rw [e] at this
  linarith

/-- With enough points across the map determines the coefficients. -/
theorem phiOf_inj {a : Act} (ho : 1 ≤ a.order) (hpr : 0 < a.pr) (hN : 2 * a.order + 2 ≤ a.resolution) {tilt : Bool}
    {K L : List ℝ} (hK : K.length = a.nK) (hL : L.length = a.nK) (h : phiOf a tilt K = phiOf a tilt L) (k : ℕ)
    (h0 : k ≠ 0) (ht : tilt = false → 3 ≤ k) : K[k]? = L[k]? := by
  obtain ⟨p, hp, e⟩ := phiOf_ok ho tilt hK
  obtain ⟨p', hp', e'⟩ := phiOf_ok ho tilt hL
  have heq := phase_phi ho hK hL hp hp' (by rw [e, e', h])
  exact C68_phase K L a.pr hpr false tilt a.resolution a.order ho hN hK (hL.trans hK.symm) heq k
    (by tauto) (by rintro ⟨h1, h2⟩; have := ht h2; omega)

/-! ## The fit of one map -/

/-- The coefficients with the first three. -/
noncomputable def full (fem : Bool) (K : List ℝ) : List ℝ := if fem then [0, 0, 0] ++ K else K

/-- The number of fitted coefficients. -/
def numFit (a : Act) (fem : Bool) : ℕ := if fem then a.nK - 3 else a.nK

theorem full_length {a : Act} (ho : 1 ≤ a.order) {fem : Bool} {K : List ℝ} (hK : K.length = numFit a fem) :
    (full fem K).length = a.nK := by
  have h3 := three_le ho
  cases fem <;> simp [full, numFit] at hK ⊢ <;> omega

theorem residual_full {a : Act} (ho : 1 ≤ a.order) {fem : Bool} {K : List ℝ} (hK : K.length = numFit a fem)
    (data : Fin a.resolution × Fin a.resolution → ℝ) :
    a.residualPhase fem K data = .ok fun q => data q - phiOf a (!fem) (full fem K) q := by
  obtain ⟨p, hp, e⟩ := phiOf_ok ho (!fem) (full_length ho hK)
  cases fem with
  | true =>
    have hp : phase ([0, 0, 0] ++ K) a.pr false false a.resolution = .ok p := hp
    simp only [Act.residualPhase, if_true, hp, bind, Except.bind, pure, Except.pure, e]
  | false =>
    have hp : phase K a.pr false true a.resolution = .ok p := hp
    simp only [Act.residualPhase, Bool.false_eq_true, if_false, hp, bind, Except.bind, pure, Except.pure, e]

/-- The model of the fit. -/
noncomputable def fitLin (a : Act) (ho : 1 ≤ a.order) (fem : Bool) {n : ℕ} (hn : n = numFit a fem) :
    (Fin n → ℝ) →ₗ[ℝ] (Fin a.resolution × Fin a.resolution → ℝ) where
  toFun x := phiOf a (!fem) (full fem (List.ofFn x))
  map_add' x y := by
    funext q
    rw [Pi.add_apply, ← phiOf_add ho _ (full_length ho (by simp [hn])) (full_length ho (by simp [hn]))]
    congr 2
    have : List.ofFn (x + y) = List.zipWith (· + ·) (List.ofFn x) (List.ofFn y) :=
      List.ext_getElem (by simp) fun i h1 h2 => by simp
    rw [this]
    cases fem <;> simp [full]
  map_smul' c x := by
    funext q
    rw [Pi.smul_apply, RingHom.id_apply, smul_eq_mul, ← phiOf_smul ho _ (full_length ho (by simp [hn]))]
    congr 2
    have : List.ofFn (c • x) = (List.ofFn x).map (c * ·) := List.ext_getElem (by simp) fun i h1 h2 => by simp
    rw [this]
    cases fem <;> simp [full]

/-- Without tilt the first three coefficients play no part. -/
theorem phiOf_drop {a : Act} (ho : 1 ≤ a.order) {L : List ℝ} (hL : L.length = a.nK) :
    phiOf a false L = phiOf a false (full true (L.drop 3)) := by
  obtain ⟨p, hp, e⟩ := phiOf_ok ho false hL
  have h3 := three_le ho
  have h1 := (C65_residual a L hL ho).1 p hp
  rw [residual_full ho (by simp [numFit, hL]), Except.ok.injEq] at h1
  funext q
  have := congrFun h1 q
  simp only [Bool.not_true] at this
  rw [← e]
  linarith

theorem fit_one (a : Act) (ho : 1 ≤ a.order) (fem : Bool)
    (s : Act.Solver (Fin a.resolution × Fin a.resolution → ℝ)) (hs : Spec.Exact Spec.cost2 s)
    (data : Fin a.resolution × Fin a.resolution → ℝ) (x0 : List ℝ) (hx0 : x0.length = numFit a fem) :
    ∃ x, s (fun K => a.residualPhase fem K data) x0 = .ok x ∧ Spec.Best a (!fem) (full fem (List.ofFn x)) data := by
  set A := fitLin a ho fem hx0 with hA
  have hf : ∀ y : List ℝ, y.length = x0.length → ∃ z : Fin x0.length → ℝ, List.ofFn z = y ∧
      a.residualPhase fem y data = .ok fun q => data q - A z q := by
    intro y hy
    refine ⟨fun i => y.getD i 0, List.ext_getElem (by simp [hy]) fun i h1 h2 => ?_, ?_⟩
    · rw [List.getElem_ofFn]; exact getD_lt _ _ h2
    · have hz : List.ofFn (fun i : Fin x0.length => y.getD i 0) = y :=
        List.ext_getElem (by simp [hy]) fun i h1 h2 => by rw [List.getElem_ofFn]; exact getD_lt _ _ h2
      rw [residual_full ho (hy.trans hx0)]
      simp only [hA, fitLin, LinearMap.coe_mk, AddHom.coe_mk, hz]
  obtain ⟨z, hz⟩ := lsq_exists A data
  obtain ⟨x, h1, h2, r, h3, h4⟩ := hs (fun K => a.residualPhase fem K data) x0
    (fun y hy => by obtain ⟨_, -, e⟩ := hf y hy; exact ⟨_, e⟩)
    ⟨List.ofFn z, by simp, fun q => data q - A z q, by
      obtain ⟨z', e1, e2⟩ := hf (List.ofFn z) (by simp)
      rw [List.ofFn_injective e1] at e2
      exact e2, fun y r' hy hr => by
      obtain ⟨z', e1, e2⟩ := hf y hy
      change a.residualPhase fem y data = .ok r' at hr
      rw [e2, Except.ok.injEq] at hr
      rw [← hr]
      unfold Spec.cost2
      rw [lsq_pythagoras hz z']
      exact le_add_of_nonneg_right (Finset.sum_nonneg fun q _ => sq_nonneg _)⟩
  refine ⟨x, h1, (best_iff ho).2 ⟨full_length ho (by simp [hx0]), ?_⟩⟩
  have hx : a.residualPhase fem (List.ofFn x) data = .ok fun q => data q - A x q := by
    obtain ⟨z', e1, e2⟩ := hf (List.ofFn x) (by simp)
    rw [List.ofFn_injective e1] at e2
    exact e2
  change a.residualPhase fem (List.ofFn x) data = .ok r at h3
  rw [hx, Except.ok.injEq] at h3
  have hmin : ∀ y, ∑ q, (data q - A x q) ^ 2 ≤ ∑ q, (data q - A y q) ^ 2 := by
    intro y
    have hy : a.residualPhase fem (List.ofFn y) data = .ok fun q => data q - A y q := by
      obtain ⟨z', e1, e2⟩ := hf (List.ofFn y) (by simp)
      rw [List.ofFn_injective e1] at e2
      exact e2
    have := h4 (List.ofFn y) _ (by simp) hy
    rw [← h3] at this
    exact this
  intro L hL
  have key : ∀ K : List ℝ, K.length = numFit a fem →
      ∑ q, (data q - phiOf a (!fem) (full fem (List.ofFn x)) q) * phiOf a (!fem) (full fem K) q = 0 := by
    intro K hK
    obtain ⟨w, hw, -⟩ := hf K (hK.trans hx0.symm)
    have := lsq_normal hmin w
    simp only [hA, fitLin, LinearMap.coe_mk, AddHom.coe_mk, hw] at this
    exact this
  cases fem with
  | false => exact key L hL
  | true =>
    have := key (L.drop 3) (by simp [numFit, hL])
    simp only [Bool.not_true] at this ⊢
    rw [phiOf_drop ho hL]
    exact this

/-! ## All maps -/

/-- The fit of maps is the fit of each. -/
theorem fit_rows (a : Act) (ho : 1 ≤ a.order) (fem : Bool)
    (s : Act.Solver (Fin a.resolution × Fin a.resolution → ℝ)) (hs : Spec.Exact Spec.cost2 s) :
    ∃ F : (Fin a.resolution × Fin a.resolution → ℝ) → List ℝ, (∀ m, Spec.Best a (!fem) (F m) m) ∧
      ∀ maps, a.fitZpoly s maps maps.length fem = .ok (maps.map F) := by
  have h3 := three_le ho
  set x0 := List.replicate (if fem = true then a.nK - 3 else a.nK) (0.1 : ℝ) with hx0
  have hx0l : x0.length = numFit a fem := by simp [hx0, numFit]
  choose X hX1 hX2 using fun data => fit_one a ho fem s hs data x0 hx0l
  refine ⟨fun m => full fem (List.ofFn (X m)), hX2, fun maps => ?_⟩
  have hmap : (List.range maps.length).mapM (m := Py) (fun i => do
      let data ← pyIdx maps i
      let x ← s (fun K => a.residualPhase fem K data) x0
      return List.ofFn x) = .ok (maps.map fun m => List.ofFn (X m)) := by
    have := mapM_ok (List.range maps.length) (fun i => (do
      let data ← pyIdx maps i
      let x ← s (fun K => a.residualPhase fem K data) x0
      return List.ofFn x : Py (List ℝ)))
      (fun i => if hi : i < maps.length then List.ofFn (X maps[i]) else []) (by
        intro i hi
        have hi := List.mem_range.1 hi
        simp only [pyIdx, List.getElem?_eq_getElem hi, bind, Except.bind, hX1, pure,
          Except.pure, dif_pos hi])
    rw [this]
    congr 1
    refine List.ext_getElem (by simp) fun i h1 h2 => ?_
    have h3 : i < maps.length := by simpa using h1
    have aux : ∀ j, j = i → (if hi : j < maps.length then List.ofFn (X maps[j]) else []) =
        List.ofFn (X maps[i]) := by
      rintro j rfl; exact dif_pos h3
    rw [List.getElem_map, List.getElem_map, aux _ (List.getElem_range _)]
  unfold Act.fitZpoly
  rw [if_neg (by rintro ⟨-, h⟩; omega)]
  simp only [bind, Except.bind, pure, Except.pure] at hmap ⊢
  rw [← hx0, hmap]
  simp only
  cases fem with
  | true =>
    rw [if_pos (by rw [hx0l]; simp only [numFit, if_true]; omega), List.map_map]
    rfl
  | false =>
    rw [if_neg (by rw [hx0l]; simp [numFit])]
    rfl

/-- **C107**. The fit of any maps returns: each row gives the phase map that is nearest to its map, its orthogonal
projection. -/
theorem C107_best (a : Act) (ho : 1 ≤ a.order) (fem : Bool)
    (s : Act.Solver (Fin a.resolution × Fin a.resolution → ℝ)) (hs : Spec.Exact Spec.cost2 s)
    (maps : List (Fin a.resolution × Fin a.resolution → ℝ)) :
    ∃ rows, a.fitZpoly s maps maps.length fem = .ok rows ∧ List.Forall₂ (Spec.Best a (!fem)) rows maps := by
  obtain ⟨F, h1, h2⟩ := fit_rows a ho fem s hs
  refine ⟨_, h2 maps, ?_⟩
  rw [List.forall₂_map_left_iff]
  exact List.forall₂_same.2 fun m _ => h1 m

/-- **C107**. Each row is fitted to its own map: the fit of maps in another order, or of some of them, gives the
same rows in that order. -/
theorem C107_separate (a : Act) (ho : 1 ≤ a.order) (fem : Bool)
    (s : Act.Solver (Fin a.resolution × Fin a.resolution → ℝ)) (hs : Spec.Exact Spec.cost2 s)
    (maps maps' : List (Fin a.resolution × Fin a.resolution → ℝ)) (rows rows' : List (List ℝ))
    (h : a.fitZpoly s maps maps.length fem = .ok rows) (h' : a.fitZpoly s maps' maps'.length fem = .ok rows')
    (i j : ℕ) (hij : maps[i]? = maps'[j]?) : rows[i]? = rows'[j]? := by
  obtain ⟨F, -, h2⟩ := fit_rows a ho fem s hs
  rw [h2, Except.ok.injEq] at h h'
  rw [← h, ← h', List.getElem?_map, List.getElem?_map, hij]

/-- The combination of two sets of maps. -/
def Spec.combMaps {N : ℕ} (c d : ℝ) (A B : List (Fin N × Fin N → ℝ)) : List (Fin N × Fin N → ℝ) :=
  List.zipWith (fun x y q => c * x q + d * y q) A B

/-- A row with the first three zero is fixed by the others. -/
theorem best_coeff {a : Act} (ho : 1 ≤ a.order) (hpr : 0 < a.pr) (hN : 2 * a.order + 2 ≤ a.resolution) {fem : Bool}
    {ra rb rc : List ℝ} {ma mb mc : Fin a.resolution × Fin a.resolution → ℝ} {c d : ℝ}
    (hc : ∀ q, mc q = c * ma q + d * mb q)
    (h1 : Spec.Best a (!fem) ra ma) (h2 : Spec.Best a (!fem) rb mb) (h3 : Spec.Best a (!fem) rc mc)
    (z1 : fem = true → ∀ k < 3, ra[k]? = some 0) (z2 : fem = true → ∀ k < 3, rb[k]? = some 0)
    (z3 : fem = true → ∀ k < 3, rc[k]? = some 0) (k : ℕ) (hk : fem = false → k ≠ 0) :
    rc[k]? = (Spec.comb c d ra rb)[k]? := by
  have hl : (Spec.comb c d ra rb).length = a.nK := comb_length h1.1 h2.1
  by_cases hf : fem = true ∧ k < 3
  · have l1 := z1 hf.1 k hf.2
    have l2 := z2 hf.1 k hf.2
    rw [z3 hf.1 k hf.2, Spec.comb, List.getElem?_zipWith, List.getElem?_map, List.getElem?_map, l1, l2]
    simp
  · refine phiOf_inj ho hpr hN (tilt := !fem) h3.1 hl ?_ k ?_ ?_
    · funext q
      rw [best_comb ho hc h1 h2 h3 q, phiOf_comb ho _ h1.1 h2.1]
    · rintro rfl
      cases fem with
      | true => exact hf ⟨rfl, by norm_num⟩
      | false => exact hk rfl rfl
    · intro h
      cases fem with
      | true => simpa using hf
      | false => simp at h

/-- **C107**. With at least `2 n + 2` points across, the coefficients of a combination of maps are the combination of
the coefficients; without `fem` all but the first, which no map determines. -/
theorem C107_linear (a : Act) (ho : 1 ≤ a.order) (hpr : 0 < a.pr) (hN : 2 * a.order + 2 ≤ a.resolution) (fem : Bool)
    (s s' s'' : Act.Solver (Fin a.resolution × Fin a.resolution → ℝ)) (hs : Spec.Exact Spec.cost2 s)
    (hs' : Spec.Exact Spec.cost2 s') (hs'' : Spec.Exact Spec.cost2 s'')
    (A B : List (Fin a.resolution × Fin a.resolution → ℝ)) (hAB : A.length = B.length) (c d : ℝ)
    (ra rb rc : List (List ℝ)) (hA : a.fitZpoly s A A.length fem = .ok ra)
    (hB : a.fitZpoly s' B B.length fem = .ok rb)
    (hC : a.fitZpoly s'' (Spec.combMaps c d A B) A.length fem = .ok rc) :
    rc.map (·.drop (if fem then 0 else 1)) =
      (List.zipWith (Spec.comb c d) ra rb).map (·.drop (if fem then 0 else 1)) := by
  obtain ⟨F, f1, f2⟩ := fit_rows a ho fem s hs
  obtain ⟨G, g1, g2⟩ := fit_rows a ho fem s' hs'
  obtain ⟨H, k1, k2⟩ := fit_rows a ho fem s'' hs''
  have hl : (Spec.combMaps c d A B).length = A.length := by simp [Spec.combMaps, hAB]
  have z1 := (C65_rows a s A _ fem ra hA).2
  have z2 := (C65_rows a s' B _ fem rb hB).2
  have z3 := (C65_rows a s'' _ _ fem rc hC).2
  rw [f2, Except.ok.injEq] at hA
  rw [g2, Except.ok.injEq] at hB
  rw [← hl, k2, Except.ok.injEq] at hC
  subst hA hB hC
  refine List.ext_getElem (by simp [hl, hAB]) fun i h1 h2 => ?_
  have i1 : i < A.length := by simpa [hl] using h1
  have i2 : i < B.length := by omega
  simp only [List.getElem_map, List.getElem_zipWith]
  refine List.ext_getElem? fun k => ?_
  rw [List.getElem?_drop, List.getElem?_drop]
  refine best_coeff ho hpr hN (c := c) (d := d) (ma := A[i]) (mb := B[i]) (mc := (Spec.combMaps c d A B)[i])
    (fun q => by
      have : (Spec.combMaps c d A B)[i] = fun q => c * A[i] q + d * B[i] q := List.getElem_zipWith
      rw [this]) (f1 _) (g1 _) (k1 _) (z1 _ ?_).2 (z2 _ ?_).2 (z3 _ ?_).2 _ ?_
  · exact List.mem_map_of_mem (List.getElem_mem _)
  · exact List.mem_map_of_mem (List.getElem_mem _)
  · exact List.mem_map_of_mem (List.getElem_mem _)
  · rintro rfl; simp

/-- **C107**. At any resolution the fitted maps are linear in the maps. -/
theorem C107_linear_maps (a : Act) (ho : 1 ≤ a.order) (fem : Bool) (c d : ℝ) (ra rb rc : List ℝ)
    (ma mb : Fin a.resolution × Fin a.resolution → ℝ) (h1 : Spec.Best a (!fem) ra ma)
    (h2 : Spec.Best a (!fem) rb mb) (h3 : Spec.Best a (!fem) rc fun q => c * ma q + d * mb q) :
    ∃ pa pb pc, phase ra a.pr false (!fem) a.resolution = .ok pa ∧ phase rb a.pr false (!fem) a.resolution = .ok pb ∧
      phase rc a.pr false (!fem) a.resolution = .ok pc ∧ ∀ q, pc.phi q = c * pa.phi q + d * pb.phi q := by
  obtain ⟨pa, e1, e1'⟩ := phiOf_ok ho (!fem) h1.1
  obtain ⟨pb, e2, e2'⟩ := phiOf_ok ho (!fem) h2.1
  obtain ⟨pc, e3, e3'⟩ := phiOf_ok ho (!fem) h3.1
  refine ⟨pa, pb, pc, e1, e2, e3, fun q => ?_⟩
  rw [e1', e2', e3']
  exact best_comb ho (fun _ => rfl) h1 h2 h3 q

/-- **C107**. What a map holds outside the dish plays no part. -/
theorem C107_outside (a : Act) (ho : 1 ≤ a.order) (fem : Bool) (row : List ℝ)
    (m m' : Fin a.resolution × Fin a.resolution → ℝ)
    (h : ∀ i j, linspace (-a.pr) a.pr a.resolution j ^ 2 + linspace (-a.pr) a.pr a.resolution i ^ 2 ≤ a.pr ^ 2 →
      m (i, j) = m' (i, j)) : Spec.Best a (!fem) row m ↔ Spec.Best a (!fem) row m' := by
  rw [best_iff ho, best_iff ho]
  refine and_congr_right fun _ => forall_congr' fun L => forall_congr' fun hL => ?_
  refine Eq.congr (Finset.sum_congr rfl fun q _ => ?_) rfl
  by_cases hq : linspace (-a.pr) a.pr a.resolution q.2 ^ 2 + linspace (-a.pr) a.pr a.resolution q.1 ^ 2 ≤ a.pr ^ 2
  · rw [h q.1 q.2 hq]
  · have : phiOf a (!fem) L q = 0 := by
      have h3 := three_le ho
      obtain ⟨K', -, -, h⟩ := phase_ok L a.pr false (!fem) a.resolution a.order hL fun _ => by
        rw [hL]; exact h3
      rw [phiOf_eq h]
      simp only
      rw [if_pos]
      · ring
      · simpa [meshX, meshY] using hq
    rw [this, mul_zero, mul_zero]

/-- **C107**. An error in a map is not amplified: the fitted map is no further from the true one than the map was. -/
theorem C107_noise (a : Act) (fem : Bool) (row K : List ℝ) (m : Fin a.resolution × Fin a.resolution → ℝ)
    (h : Spec.Best a (!fem) row m) (hK : K.length = (a.order + 1) * (a.order + 2) / 2) (p t : PhaseMap a.resolution)
    (hp : phase row a.pr false (!fem) a.resolution = .ok p) (ht : phase K a.pr false (!fem) a.resolution = .ok t) :
    Spec.cost2 (fun q => p.phi q - t.phi q) ≤ Spec.cost2 (fun q => m q - t.phi q) := by
  obtain ⟨-, p', hp', hb⟩ := h
  rw [hp, Except.ok.injEq] at hp'
  subst hp'
  rw [hb K t hK ht]
  exact le_add_of_nonneg_left (Finset.sum_nonneg fun q _ => sq_nonneg _)

/-! ## The gravitational model -/

/-- The three coefficients give the values at the elevations that are nearest to those of the column. -/
def Spec.BestGrav (alphas : List Act.Angle) (g col : List ℝ) : Prop :=
  g.length = 3 ∧ ∃ v, alphas.mapM (Act.gravDeformation g) = .ok v ∧
    ∀ g' v', g'.length = 3 → alphas.mapM (Act.gravDeformation g') = .ok v' →
      Spec.costL (List.zipWith (· - ·) col v') =
        Spec.costL (List.zipWith (· - ·) col v) + Spec.costL (List.zipWith (· - ·) v v')

/-- The value of the model. -/
noncomputable def gravAt (g : List ℝ) (al : Act.Angle) : ℝ :=
  g.getD 0 0 * Real.sin al.rad + g.getD 1 0 * Real.cos al.rad + g.getD 2 0

theorem grav_values {g : List ℝ} (hg : g.length = 3) (alphas : List Act.Angle) :
    alphas.mapM (Act.gravDeformation g) = .ok (alphas.map (gravAt g)) :=
  mapM_ok alphas (Act.gravDeformation g) _ (fun al _ => grav_ok hg.ge al)

/-- The sum over the observations of a product. -/
noncomputable def dotGrav (alphas : List Act.Angle) (col g g' : List ℝ) : ℝ :=
  ((col.zip alphas).map fun z => (z.1 - gravAt g z.2) * gravAt g' z.2).sum

theorem cost_zip (alphas : List Act.Angle) (col g : List ℝ) :
    Spec.costL (List.zipWith (· - ·) col (alphas.map (gravAt g))) =
      ((col.zip alphas).map fun z => (z.1 - gravAt g z.2) ^ 2).sum := by
  unfold Spec.costL
  induction alphas generalizing col with
  | nil => simp
  | cons al l ih =>
    cases col with
    | nil => simp
    | cons x col =>
      simp only [List.map_cons, List.zipWith_cons_cons, List.zip_cons_cons, List.sum_cons]
      rw [ih col]

theorem cost_diff (alphas : List Act.Angle) (g g' : List ℝ) :
    Spec.costL (List.zipWith (· - ·) (alphas.map (gravAt g)) (alphas.map (gravAt g'))) =
      (alphas.map fun al => (gravAt g al - gravAt g' al) ^ 2).sum := by
  unfold Spec.costL
  induction alphas with
  | nil => simp
  | cons al l ih => simp only [List.map_cons, List.zipWith_cons_cons, List.sum_cons]; rw [ih]

theorem gravAt_comb (c d : ℝ) {g h : List ℝ} (hg : g.length = 3) (hh : h.length = 3) (al : Act.Angle) :
    gravAt (Spec.comb c d g h) al = c * gravAt g al + d * gravAt h al := by
  obtain ⟨x, y, z, rfl⟩ := List.length_eq_three.1 hg
  obtain ⟨x', y', z', rfl⟩ := List.length_eq_three.1 hh
  simp [gravAt, Spec.comb]
  ring

theorem cost_expand (alphas : List Act.Angle) (col : List ℝ) (hl : col.length = alphas.length) {g g' w : List ℝ}
    (hw : ∀ al, gravAt w al = gravAt g al - gravAt g' al) :
    Spec.costL (List.zipWith (· - ·) col (alphas.map (gravAt g'))) =
      Spec.costL (List.zipWith (· - ·) col (alphas.map (gravAt g))) +
      Spec.costL (List.zipWith (· - ·) (alphas.map (gravAt g)) (alphas.map (gravAt g'))) +
      2 * dotGrav alphas col g w := by
  rw [cost_zip, cost_zip, cost_diff, dotGrav]
  induction alphas generalizing col with
  | nil => simp
  | cons al l ih =>
    cases col with
    | nil => simp at hl
    | cons x col =>
      simp only [List.map_cons, List.zip_cons_cons, List.sum_cons]
      rw [ih col (by simpa using hl), hw]
      ring

theorem bestGrav_iff {alphas : List Act.Angle} {g col : List ℝ} (hl : col.length = alphas.length) :
    Spec.BestGrav alphas g col ↔ g.length = 3 ∧ ∀ g' : List ℝ, g'.length = 3 → dotGrav alphas col g g' = 0 := by
  constructor
  · rintro ⟨hg, v, hv, h⟩
    rw [grav_values hg, Except.ok.injEq] at hv
    subst hv
    refine ⟨hg, fun w hw => ?_⟩
    have hc := comb_length (c := 1) (d := -1) hg hw
    have h1 := h _ _ hc (grav_values hc alphas)
    rw [cost_expand alphas col hl (g := g) (w := w) (fun al => by rw [gravAt_comb 1 (-1) hg hw]; ring)] at h1
    linarith
  · rintro ⟨hg, h⟩
    refine ⟨hg, _, grav_values hg alphas, fun g' v' hg' hv' => ?_⟩
    rw [grav_values hg', Except.ok.injEq] at hv'
    subst hv'
    have hc := comb_length (c := 1) (d := -1) hg hg'
    rw [cost_expand alphas col hl (g := g) (w := Spec.comb 1 (-1) g g')
      (fun al => by rw [gravAt_comb 1 (-1) hg hg']; ring), h _ hc]
    ring

/-- The model as a linear map. -/
noncomputable def gravLin (alphas : List Act.Angle) : (Fin 3 → ℝ) →ₗ[ℝ] (Fin alphas.length → ℝ) where
  toFun x i := x 0 * Real.sin alphas[i].rad + x 1 * Real.cos alphas[i].rad + x 2
  map_add' x y := by funext i; simp only [Pi.add_apply]; ring
  map_smul' c x := by funext i; simp only [Pi.smul_apply, smul_eq_mul, RingHom.id_apply]; ring

theorem zip_sum (alphas : List Act.Angle) (col : List ℝ) (hl : col.length = alphas.length)
    (f : ℝ × Act.Angle → ℝ) :
    ((col.zip alphas).map f).sum = ∑ i : Fin alphas.length, f (col.getD i 0, alphas[i]) := by
  rw [← List.sum_ofFn]
  congr 1
  refine List.ext_getElem (by simp [hl]) fun i h1 h2 => ?_
  have : i < col.length := by simp at h1; omega
  simp [List.getElem?_eq_getElem this]

theorem fit_grav_one (s : Act.Solver (List ℝ)) (hs : Spec.Exact Spec.costL s) (alphas : List Act.Angle)
    (col : List ℝ) (hl : col.length = alphas.length) :
    ∃ x, s (fun g => Act.residualGrav g col alphas) [0.1, 0.1, 0.1] = .ok x ∧
      Spec.BestGrav alphas (List.ofFn x) col := by
  have hres : ∀ g : List ℝ, g.length = 3 →
      Act.residualGrav g col alphas = .ok (List.zipWith (· - ·) col (alphas.map (gravAt g))) :=
    fun g hg => residualGrav_ok hg.ge alphas col hl
  obtain ⟨z, hz⟩ := lsq_exists (gravLin alphas) fun i => col.getD i 0
  have hbz : Spec.BestGrav alphas (List.ofFn z) col := by
    refine (bestGrav_iff hl).2 ⟨by simp, fun g' hg' => ?_⟩
    obtain ⟨u, v, w, rfl⟩ := List.length_eq_three.1 hg'
    have := hz ![u, v, w]
    rw [dotGrav, zip_sum _ _ hl]
    refine Eq.trans ?_ this
    refine Finset.sum_congr rfl fun i _ => ?_
    simp [gravAt, gravLin]
  have hmin : ∀ y : List ℝ, y.length = 3 →
      Spec.costL (List.zipWith (· - ·) col (alphas.map (gravAt (List.ofFn z)))) ≤
        Spec.costL (List.zipWith (· - ·) col (alphas.map (gravAt y))) := by
    intro y hy
    obtain ⟨-, v, hv, hb⟩ := hbz
    rw [grav_values (by simp), Except.ok.injEq] at hv
    subst hv
    rw [hb y _ hy (grav_values hy alphas)]
    exact le_add_of_nonneg_right (costL_nonneg _)
  obtain ⟨x, h1, h0, r, h2, h3⟩ := hs (fun g => Act.residualGrav g col alphas) [0.1, 0.1, 0.1]
    (fun y hy => ⟨_, hres y hy⟩)
    ⟨List.ofFn z, by simp, _, hres _ (by simp), fun y r' hy hr => by
      change Act.residualGrav y col alphas = .ok r' at hr
      rw [hres y hy, Except.ok.injEq] at hr
      rw [← hr]
      exact hmin y hy⟩
  refine ⟨x, h1, ?_⟩
  have hx3 : (List.ofFn x).length = 3 := h0
  change Act.residualGrav (List.ofFn x) col alphas = .ok r at h2
  rw [hres _ hx3, Except.ok.injEq] at h2
  -- the costs agree, so the values agree
  obtain ⟨hz3, v, hv, hb⟩ := hbz
  rw [grav_values hz3, Except.ok.injEq] at hv
  subst hv
  have e1 := hb _ _ hx3 (grav_values hx3 alphas)
  have e2 := h3 (List.ofFn z) _ hz3 (hres _ hz3)
  rw [← h2] at e2
  have e3 : Spec.costL (List.zipWith (· - ·) (alphas.map (gravAt (List.ofFn z))) (alphas.map (gravAt (List.ofFn x)))) ≤ 0 := by
    linarith
  have e4 := zipWith_sub_zero (by simp) (costL_zero e3)
  refine ⟨hx3, _, grav_values hx3 alphas, fun g' v' hg' hv' => ?_⟩
  rw [← e4]
  exact hb g' v' hg' hv'

theorem bestGrav_comb {alphas : List Act.Angle} (h3 : Spec.ThreeAngles alphas) {ga gb gc A B C : List ℝ} {c d : ℝ}
    (hA : A.length = alphas.length) (hB : B.length = alphas.length) (hC : C = Spec.comb c d A B)
    (h1 : Spec.BestGrav alphas ga A) (h2 : Spec.BestGrav alphas gb B) (h : Spec.BestGrav alphas gc C) :
    gc = Spec.comb c d ga gb := by
  subst hC
  have hCl := comb_length (c := c) (d := d) hA hB
  obtain ⟨l1, o1⟩ := (bestGrav_iff hA).1 h1
  obtain ⟨l2, o2⟩ := (bestGrav_iff hB).1 h2
  have hl := comb_length (c := c) (d := d) l1 l2
  have hb : Spec.BestGrav alphas (Spec.comb c d ga gb) (Spec.comb c d A B) := by
    refine (bestGrav_iff hCl).2 ⟨hl, fun g' hg' => ?_⟩
    have e : dotGrav alphas (Spec.comb c d A B) (Spec.comb c d ga gb) g' =
        c * dotGrav alphas A ga g' + d * dotGrav alphas B gb g' := by
      unfold dotGrav
      rw [zip_sum _ _ hCl, zip_sum _ _ hA, zip_sum _ _ hB, Finset.mul_sum, Finset.mul_sum, ← Finset.sum_add_distrib]
      refine Finset.sum_congr rfl fun i _ => ?_
      have i1 : (i : ℕ) < A.length := lt_of_lt_of_eq i.2 hA.symm
      have i2 : (i : ℕ) < B.length := lt_of_lt_of_eq i.2 hB.symm
      have : (Spec.comb c d A B).getD i 0 = c * A.getD i 0 + d * B.getD i 0 := by
        rw [getD_lt _ _ (lt_of_lt_of_eq i.2 hCl.symm), getD_lt _ _ i1, getD_lt _ _ i2]
        simp [Spec.comb]
      simp only [this, gravAt_comb c d l1 l2]
      ring
    rw [e, o1 g' hg', o2 g' hg']
    ring
  have hl3 := h.1
  obtain ⟨-, v, hv, hb1⟩ := hb
  rw [grav_values hl, Except.ok.injEq] at hv
  subst hv
  obtain ⟨-, v, hv, hb2⟩ := h
  rw [grav_values hl3, Except.ok.injEq] at hv
  subst hv
  have e1 := hb1 _ _ hl3 (grav_values hl3 alphas)
  have e2 := hb2 _ _ hl (grav_values hl alphas)
  have e3 : Spec.costL (List.zipWith (· - ·) (alphas.map (gravAt (Spec.comb c d ga gb))) (alphas.map (gravAt gc))) ≤ 0 := by
    have := costL_nonneg (List.zipWith (· - ·) (alphas.map (gravAt gc)) (alphas.map (gravAt (Spec.comb c d ga gb))))
    linarith
  have e4 := zipWith_sub_zero (by simp) (costL_zero e3)
  have hsame : ∀ al ∈ alphas, Act.gravDeformation gc (.bare al.rad) =
      Act.gravDeformation (Spec.comb c d ga gb) (.bare al.rad) := by
    intro al hal
    rw [grav_ok hl3.ge, grav_ok hl.ge]
    exact congrArg _ (List.map_inj_left.1 e4 al hal).symm
  obtain ⟨u, hu, v, hv, w, hw, a1, a2, a3⟩ := h3
  exact C62_determined _ _ hl3 hl u.rad v.rad w.rad a1 a2 a3 (hsame u hu) (hsame v hv) (hsame w hw)

/-- The second fit is the fit of each column. -/
theorem fit_cols (a : Act) (s : Act.Solver (List ℝ)) (hs : Spec.Exact Spec.costL s) (alphas : List Act.Angle) :
    ∃ F : List ℝ → List ℝ, (∀ col, col.length = alphas.length → Spec.BestGrav alphas (F col) col) ∧
      ∀ K : List (List ℝ), K.length = alphas.length → (∀ r ∈ K, a.nK ≤ r.length) →
        a.fitGrav s K alphas = .ok ((List.range a.nK).map fun k => F (K.map fun r => r.getD k 0)) := by
  choose! X hX1 hX2 using fun col hl => fit_grav_one s hs alphas col hl
  refine ⟨fun col => List.ofFn (X col), hX2, fun K hK hr => ?_⟩
  unfold Act.fitGrav
  refine mapM_ok _ _ _ fun k hk => ?_
  have hk := List.mem_range.1 hk
  have hcol : K.mapM (m := Py) (fun r => pyIdx r k) = .ok (K.map fun r => r.getD k 0) := by
    refine mapM_ok _ _ _ fun r hrK => ?_
    have : k < r.length := lt_of_lt_of_le hk (hr r hrK)
    simp [pyIdx, List.getElem?_eq_getElem this]
  rw [hcol]
  simp only [bind, Except.bind]
  rw [hX1 _ (by simpa using hK)]
  rfl

/-- **C107**. The fit of the gravitational model to any table returns: for each coefficient the values of the model
are nearest to those of the table. -/
theorem C107_gravity_best (a : Act) (s : Act.Solver (List ℝ)) (hs : Spec.Exact Spec.costL s)
    (alphas : List Act.Angle) (K : List (List ℝ)) (hK : K.length = alphas.length)
    (hr : ∀ r ∈ K, r.length = (a.order + 1) * (a.order + 2) / 2) :
    ∃ G, a.fitGrav s K alphas = .ok G ∧ G.length = (a.order + 1) * (a.order + 2) / 2 ∧
      ∀ k (hk : k < G.length), Spec.BestGrav alphas G[k] (K.map fun r => r.getD k 0) := by
  obtain ⟨F, h1, h2⟩ := fit_cols a s hs alphas
  refine ⟨_, h2 K hK fun r h => (hr r h).ge, by simp [Act.nK], fun k hk => ?_⟩
  rw [List.getElem_map, List.getElem_range]
  exact h1 _ (by simpa using hK)

/-- **C107**. The coefficients of the gravitational model are linear in the table, when there are three different
elevations. -/
theorem C107_gravity (a : Act) (s s' s'' : Act.Solver (List ℝ)) (hs : Spec.Exact Spec.costL s)
    (hs' : Spec.Exact Spec.costL s') (hs'' : Spec.Exact Spec.costL s'') (alphas : List Act.Angle)
    (h3 : Spec.ThreeAngles alphas) (KA KB : List (List ℝ)) (hA : KA.length = alphas.length)
    (hB : KB.length = alphas.length) (rA : ∀ r ∈ KA, r.length = (a.order + 1) * (a.order + 2) / 2)
    (rB : ∀ r ∈ KB, r.length = (a.order + 1) * (a.order + 2) / 2) (c d : ℝ) (GA GB GC : List (List ℝ))
    (eA : a.fitGrav s KA alphas = .ok GA) (eB : a.fitGrav s' KB alphas = .ok GB)
    (eC : a.fitGrav s'' (List.zipWith (Spec.comb c d) KA KB) alphas = .ok GC) :
    GC = List.zipWith (Spec.comb c d) GA GB := by
  obtain ⟨F, f1, f2⟩ := fit_cols a s hs alphas
  obtain ⟨G, g1, g2⟩ := fit_cols a s' hs' alphas
  obtain ⟨H, k1, k2⟩ := fit_cols a s'' hs'' alphas
  have hl : (List.zipWith (Spec.comb c d) KA KB).length = alphas.length := by simp [hA, hB]
  have hrC : ∀ r ∈ List.zipWith (Spec.comb c d) KA KB, a.nK ≤ r.length := by
    intro r hr
    obtain ⟨i, hi, rfl⟩ := List.getElem_of_mem hr
    rw [List.getElem_zipWith]
    exact (comb_length (n := a.nK) (rA _ (List.getElem_mem _)) (rB _ (List.getElem_mem _))).ge
  rw [f2 KA hA fun r h => (rA r h).ge, Except.ok.injEq] at eA
  rw [g2 KB hB fun r h => (rB r h).ge, Except.ok.injEq] at eB
  rw [k2 _ hl hrC, Except.ok.injEq] at eC
  subst eA eB eC
  refine List.ext_getElem (by simp) fun k j1 j2 => ?_
  have hk : k < a.nK := by simpa using j1
  simp only [List.getElem_zipWith, List.getElem_map, List.getElem_range]
  refine bestGrav_comb h3 (by simpa using hA) (by simpa using hB) ?_ (f1 _ (by simpa using hA))
    (g1 _ (by simpa using hB)) (k1 _ (by simpa using hl))
  refine List.ext_getElem (by simp [Spec.comb]) fun i i1 i2 => ?_
  have l1 : i < KA.length := by simp at i1; omega
  have l2 : i < KB.length := by simp at i1; omega
  have m1 : k < KA[i].length := lt_of_lt_of_eq hk (rA _ (List.getElem_mem _)).symm
  have m2 : k < KB[i].length := lt_of_lt_of_eq hk (rB _ (List.getElem_mem _)).symm
  have m3 : k < (Spec.comb c d KA[i] KB[i]).length :=
    lt_of_lt_of_eq hk (comb_length (n := a.nK) (rA _ (List.getElem_mem _)) (rB _ (List.getElem_mem _))).symm
  simp only [List.getElem_map, List.getElem_zipWith]
  rw [getD_lt _ _ m3]
  simp only [Spec.comb, List.getElem_map, List.getElem_zipWith, getD_lt _ _ m1, getD_lt _ _ m2]

/-- **C107**. `fit_all` is linear in the maps: both tables of a combination are the combinations of the tables. -/
theorem C107_fit_all (a : Act) (ho : 1 ≤ a.order) (hpr : 0 < a.pr) (hN : 2 * a.order + 2 ≤ a.resolution)
    (s : Act.Solver (Fin a.resolution × Fin a.resolution → ℝ)) (hs : Spec.Exact Spec.cost2 s)
    (t : Act.Solver (List ℝ)) (ht : Spec.Exact Spec.costL t) (alphas : List Act.Angle)
    (h3 : Spec.ThreeAngles alphas) (A B : List (Fin a.resolution × Fin a.resolution → ℝ))
    (hA : A.length = alphas.length) (hB : B.length = alphas.length) (c d : ℝ) :
    ∃ GA KA GB KB, a.fitAll s t A alphas = .ok (GA, KA) ∧ a.fitAll s t B alphas = .ok (GB, KB) ∧
      a.fitAll s t (Spec.combMaps c d A B) alphas =
        .ok (List.zipWith (Spec.comb c d) GA GB, List.zipWith (Spec.comb c d) KA KB) := by
  obtain ⟨F, f1, f2⟩ := fit_rows a ho true s hs
  obtain ⟨G, g1, g2⟩ := fit_cols a t ht alphas
  have hC : (Spec.combMaps c d A B).length = alphas.length := by simp [Spec.combMaps, hA, hB]
  have hrow : ∀ M : List (Fin a.resolution × Fin a.resolution → ℝ), ∀ r ∈ M.map F, r.length = a.nK := by
    intro M r hr
    obtain ⟨m, -, rfl⟩ := List.mem_map.1 hr
    exact (f1 m).1
  have one : ∀ M : List (Fin a.resolution × Fin a.resolution → ℝ), M.length = alphas.length →
      ∃ Y, a.fitGrav t (M.map F) alphas = .ok Y ∧ a.fitAll s t M alphas = .ok (Y, M.map F) := by
    intro M hM
    have := g2 (M.map F) (by simpa using hM) fun r h => (hrow M r h).ge
    refine ⟨_, this, ?_⟩
    unfold Act.fitAll
    rw [← hM, f2 M]
    simp only [bind, Except.bind]
    rw [this]
    rfl
  obtain ⟨GA, a1, a2⟩ := one A hA
  obtain ⟨GB, b1, b2⟩ := one B hB
  obtain ⟨GC, c1, c2⟩ := one _ hC
  have hK := C107_linear a ho hpr hN true s s s hs hs hs A B (hA.trans hB.symm) c d _ _ _ (f2 A) (f2 B)
    (by rw [show A.length = (Spec.combMaps c d A B).length by rw [hC, hA]]; exact f2 _)
  have hid : (fun x : List ℝ => x.drop 0) = id := funext fun x => List.drop_zero
  simp only [if_true, hid, List.map_id] at hK
  rw [hK] at c1 c2
  have hG := C107_gravity a t t t ht ht ht alphas h3 (A.map F) (B.map F) (by simpa using hA) (by simpa using hB)
    (hrow A) (hrow B) c d GA GB GC a1 b1 c1
  exact ⟨GA, _, GB, _, a2, b2, by rw [c2, hG]⟩

/-- **C107**. The order of the observations plays no part: maps and elevations taken in another order give the same
coefficients of the gravitational model. -/
theorem C107_order (a : Act) (ho : 1 ≤ a.order)
    (s : Act.Solver (Fin a.resolution × Fin a.resolution → ℝ)) (hs : Spec.Exact Spec.cost2 s)
    (t : Act.Solver (List ℝ)) (ht : Spec.Exact Spec.costL t) (alphas alphas' : List Act.Angle)
    (h3 : Spec.ThreeAngles alphas) (A A' : List (Fin a.resolution × Fin a.resolution → ℝ))
    (hA : A.length = alphas.length) (hA' : A'.length = alphas'.length)
    (hp : (A.zip alphas).Perm (A'.zip alphas')) :
    ∃ g K K', a.fitAll s t A alphas = .ok (g, K) ∧ a.fitAll s t A' alphas' = .ok (g, K') ∧
      (K.zip alphas).Perm (K'.zip alphas') := by
  obtain ⟨F, f1, f2⟩ := fit_rows a ho true s hs
  obtain ⟨G, g1, g2⟩ := fit_cols a t ht alphas
  obtain ⟨G', g1', g2'⟩ := fit_cols a t ht alphas'
  have hrow : ∀ M : List (Fin a.resolution × Fin a.resolution → ℝ), ∀ r ∈ M.map F, r.length = a.nK := by
    intro M r hr
    obtain ⟨m, -, rfl⟩ := List.mem_map.1 hr
    exact (f1 m).1
  have hz : ∀ {β γ δ : Type} (f : β → γ) (l : List β) (m : List δ),
      (l.map f).zip m = (l.zip m).map fun z => (f z.1, z.2) := by
    intro β γ δ f l m
    rw [List.zip_map_left]
    rfl
  have hpK : ((A.map F).zip alphas).Perm ((A'.map F).zip alphas') := by
    rw [hz, hz]; exact hp.map _
  have h3' : alphas.Perm alphas' := by
    have := hp.map Prod.snd
    rwa [List.map_snd_zip hA.ge, List.map_snd_zip hA'.ge] at this
  refine ⟨(List.range a.nK).map fun k => G ((A.map F).map fun r => r.getD k 0), A.map F, A'.map F, ?_, ?_, hpK⟩
  · unfold Act.fitAll
    rw [← hA, f2 A]
    simp only [bind, Except.bind]
    rw [g2 (A.map F) (by simpa using hA) fun r h => (hrow A r h).ge]
    rfl
  · unfold Act.fitAll
    rw [← hA', f2 A']
    simp only [bind, Except.bind]
    rw [g2' (A'.map F) (by simpa using hA') fun r h => (hrow A' r h).ge]
    simp only [pure, Except.pure, Except.ok.injEq, Prod.mk.injEq, and_true]
    refine List.map_congr_left fun k _ => ?_
    have l1 : ((A.map F).map fun r => r.getD k 0).length = alphas.length := by simpa using hA
    have l2 : ((A'.map F).map fun r => r.getD k 0).length = alphas'.length := by simpa using hA'
    have b2 := g1' _ l2
    have b1 : Spec.BestGrav alphas (G' ((A'.map F).map fun r => r.getD k 0)) ((A.map F).map fun r => r.getD k 0) := by
      obtain ⟨m1, m2⟩ := (bestGrav_iff l2).1 b2
      refine (bestGrav_iff l1).2 ⟨m1, fun g' hg' => ?_⟩
      refine Eq.trans ?_ (m2 g' hg')
      unfold dotGrav
      refine List.Perm.sum_eq (List.Perm.map _ ?_)
      rw [hz _ (A.map F), hz _ (A'.map F)]; exact hpK.map _
    have := bestGrav_comb h3 (c := 1) (d := 0) l1 l1 ?_ (g1 _ l1) (g1 _ l1) b1
    · rw [this]
      have hl := (g1 _ l1).1
      generalize G ((A.map F).map fun r => r.getD k 0) = w at hl
      obtain ⟨x, y, z, rfl⟩ := List.length_eq_three.1 hl
      simp [Spec.comb]
    · refine List.ext_getElem (by simp [Spec.comb]) fun i _ _ => by simp [Spec.comb]

/-! ## The hypotheses can be met -/

/-- Six points across, order two, three elevations: the fit of twice some maps less others, whatever they hold. -/
example (A B : List (Fin 6 × Fin 6 → ℝ)) (hA : A.length = 3) (hB : B.length = 3) : ∃ s t GA KA GB KB,
    Spec.fineAct.fitAll s t A [.bare 0, .bare 1, .bare 2] = .ok (GA, KA) ∧
    Spec.fineAct.fitAll s t B [.bare 0, .bare 1, .bare 2] = .ok (GB, KB) ∧
    Spec.fineAct.fitAll s t (List.zipWith (fun x y q => 2 * x q + -1 * y q) A B) [.bare 0, .bare 1, .bare 2] =
      .ok (List.zipWith (Spec.comb 2 (-1)) GA GB, List.zipWith (Spec.comb 2 (-1)) KA KB) := by
  obtain ⟨s, h1⟩ := exact_exists (ρ := Fin Spec.fineAct.resolution × Fin Spec.fineAct.resolution → ℝ) Spec.cost2
  obtain ⟨t, h2⟩ := exact_exists Spec.costL
  exact ⟨s, t, C107_fit_all Spec.fineAct (by decide) (by norm_num [Spec.fineAct, Spec.smallAct, Spec.effelsberg])
    (by decide) s h1 t h2 [.bare 0, .bare 1, .bare 2]
    ⟨.bare 0, by simp, .bare 1, by simp, .bare 2, by simp, by simp [Act.Angle.rad],
      by simp only [Act.Angle.rad]; norm_num, by simp only [Act.Angle.rad]; linarith [Real.two_le_pi]⟩
    A B hA hB 2 (-1)⟩

example : Spec.comb 2 (-1) [1, 2] [3, 5] = [-1, -1] := by norm_num [Spec.comb]

/-- Three maps and the same three backwards. -/
example (x y z : Fin 6 × Fin 6 → ℝ) : ∃ s t g K K',
    Spec.fineAct.fitAll s t [x, y, z] [.bare 0, .bare 1, .bare 2] = .ok (g, K) ∧
    Spec.fineAct.fitAll s t [z, y, x] [.bare 2, .bare 1, .bare 0] = .ok (g, K') := by
  obtain ⟨s, h1⟩ := exact_exists (ρ := Fin Spec.fineAct.resolution × Fin Spec.fineAct.resolution → ℝ) Spec.cost2
  obtain ⟨t, h2⟩ := exact_exists Spec.costL
  obtain ⟨g, K, K', e1, e2, -⟩ := C107_order Spec.fineAct (by decide) s h1 t h2 [.bare 0, .bare 1, .bare 2]
    [.bare 2, .bare 1, .bare 0]
    ⟨.bare 0, by simp, .bare 1, by simp, .bare 2, by simp, by simp [Act.Angle.rad],
      by simp only [Act.Angle.rad]; norm_num, by simp only [Act.Angle.rad]; linarith [Real.two_le_pi]⟩
    [x, y, z] [z, y, x] rfl rfl (List.reverse_perm [(z, _), (y, _), (x, _)])
  exact ⟨s, t, g, K, K', e1, e2⟩

end Verif.Props
