import Verif.Props.BestFit

/-!
# C138: neither the order of the maps nor that of the samples matters, and repeated samples count again
-/

namespace Verif.Props

open Verif Verif.Np Verif.Aperture Verif.MathFn Verif.Core Verif.Telgeometry Finset

/-! ## Specification -/

/-- The maps in another order, each with its samples chosen by `t`: map `i` is the former map `s i`, and its sample `k`
is the former sample `t i k`. -/
def Spec.arranged {α : Type} {M M' : ℕ} (s : Fin 3 → Fin 3) (t : Fin 3 → Fin M' → Fin M) (f : Fin 3 × Fin M → α) :
    Fin 3 × Fin M' → α := fun q => f (s q.1, t q.1 q.2)

/-- Every sample of every map is used `c` times. -/
def Spec.EachUsed {M M' : ℕ} (c : ℕ) (t : Fin 3 → Fin M' → Fin M) : Prop :=
  ∀ i k, (univ.filter fun k' => t i k' = k).card = c

/-- `p` is a best fit within `S`: the residual can be evaluated all over `S` and no other point has a smaller sum of
squares. -/
def Spec.BestIn (S : Set (List ℝ)) (f : List ℝ → Py (List ℝ)) (p : List ℝ) : Prop :=
  p ∈ S ∧ ∃ r, f p = .ok r ∧ ∀ p' ∈ S, ∃ r', f p' = .ok r' ∧ Spec.costL r ≤ Spec.costL r'

/-! ## The normalisation and the interpolation -/

theorem norm_surj {ι κ : Type} [Fintype ι] [Fintype κ] [Nonempty ι] (P : κ → Fl) (t : ι → κ) (ht : Function.Surjective t)
    (r : κ → ℝ) (h : MathFn.norm P = .ok r) : MathFn.norm (fun q => P (t q)) = .ok fun q => r (t q) := by
  have : Nonempty κ := ‹Nonempty ι›.map t
  obtain ⟨mn, mx, h1, h2, h3⟩ := norm_ok P
  obtain ⟨mn', mx', h1', h2', h3'⟩ := norm_ok (fun q => P (t q))
  have e : (fun x => ∃ q, P (t q) = x) = fun x => ∃ q, P q = x := by
    funext x
    exact propext ⟨fun ⟨q, hq⟩ => ⟨t q, hq⟩, fun ⟨q, hq⟩ => by
      obtain ⟨q', rfl⟩ := ht q
      exact ⟨q', hq⟩⟩
  rw [e] at h1' h2'
  rw [h3'] 
  rw [h3] at h
  cases h
  rw [h1'.unique h1, h2'.unique h2]

theorem normAxis1_surj {m m' n n' : ℕ} (hn : 0 < n') (P : Fin m × Fin n → Fl) (s : Fin m' → Fin m)
    (t : Fin m' → Fin n' → Fin n) (ht : ∀ i, Function.Surjective (t i)) (r : Fin m × Fin n → ℝ)
    (h : normAxis1 P = .ok r) :
    normAxis1 (fun q : Fin m' × Fin n' => P (s q.1, t q.1 q.2)) = .ok fun q => r (s q.1, t q.1 q.2) := by
  have : Nonempty (Fin n') := ⟨⟨0, hn⟩⟩
  obtain ⟨r', h1, h2⟩ := C27_axis1 hn (fun q : Fin m' × Fin n' => P (s q.1, t q.1 q.2))
  rw [h1]
  congr 1
  funext q
  have hn0 : 0 < n := (t q.1 ⟨0, hn⟩).pos
  obtain ⟨r0, h3, h4⟩ := C27_axis1 hn0 P
  rw [h] at h3
  cases h3
  have := norm_surj _ (t q.1) (ht q.1) _ (h4 (s q.1))
  have h5 := (h2 q.1).symm.trans this
  exact congrFun (Except.ok.inj h5) q.2

theorem interpolator_surj {n M M' : ℕ} (g0 g1 : Fin n → ℝ) (V : Fin n × Fin n → ℝ) (xi : Fin M → ℝ × ℝ)
    (t : Fin M' → Fin M) (ht : Function.Surjective t) :
    interpolator g0 g1 V (fun k => xi (t k)) = (interpolator g0 g1 V xi).map fun b k => b (t k) := by
  unfold interpolator
  have e : (∃ k, ¬ (inGrid g0 (xi (t k)).1 ∧ inGrid g1 (xi (t k)).2)) ↔
      ∃ k, ¬ (inGrid g0 (xi k).1 ∧ inGrid g1 (xi k).2) :=
    ⟨fun ⟨k, hk⟩ => ⟨t k, hk⟩, fun ⟨k, hk⟩ => by
      obtain ⟨k', rfl⟩ := ht k
      exact ⟨k', hk⟩⟩
  by_cases h1 : StrictMono g0 ∧ StrictMono g1
  · rw [if_neg (not_not.2 h1), if_neg (not_not.2 h1)]
    by_cases h2 : ∃ k, ¬ (inGrid g0 (xi k).1 ∧ inGrid g1 (xi k).2)
    · rw [if_pos h2, if_pos (e.2 h2)]; rfl
    · rw [if_neg h2, if_neg (mt e.1 h2)]; rfl
  · rw [if_pos h1, if_pos h1]; rfl

variable {N M M' : ℕ}

theorem modelRow_surj (params : List ℝ) (u v : Fin 3 × Fin M → ℝ) (dz : Fin 3 → ℝ) (wavel : ℝ)
    (illum : Illum (Fin N × Fin N)) (tel : TelGeo (Fin N × Fin N)) (bf : ℝ) (s : Fin 3 → Fin 3)
    (t : Fin 3 → Fin M' → Fin M) (ht : ∀ i, Function.Surjective (t i)) (i : Fin 3) :
    modelRow params (Spec.arranged s t u) (Spec.arranged s t v) (fun i => dz (s i)) wavel illum tel bf i =
      (modelRow params u v dz wavel illum tel bf (s i)).map fun b k => b (t i k) := by
  unfold modelRow Spec.arranged
  simp only [bind, Except.bind]
  cases radiationPattern (params.take 5) (params.drop 5) (dz (s i)) wavel illum tel bf with
  | error e => rfl
  | ok P => exact interpolator_surj P.u P.v _ (fun k => (u (s i, k), v (s i, k))) (t i) (ht i)

/-! ## The residual -/

/-- **C138.**  The residual of the arranged maps is the arranged residual. -/
theorem C138_residual (params : List ℝ) (beam : Fin 3 × Fin M → Fl) (u v : Fin 3 × Fin M → ℝ) (dz : Fin 3 → ℝ)
    (wavel : ℝ) (illum : Illum (Fin N × Fin N)) (tel : TelGeo (Fin N × Fin N)) (bf : ℝ) (s : Equiv.Perm (Fin 3))
    (t : Fin 3 → Fin M' → Fin M) (ht : ∀ i, Function.Surjective (t i)) (r' : List ℝ) :
    residualTrue params (Spec.arranged s t beam) (Spec.arranged s t u) (Spec.arranged s t v) (fun i => dz (s i)) wavel
      illum tel bf = .ok r' ↔
    ∃ R, residualTrue params beam u v dz wavel illum tel bf = .ok (flatten3 R) ∧ r' = flatten3 (Spec.arranged s t R) := by
  constructor
  · intro h
    obtain ⟨b', hb', nd', nm', hd', hm', rfl⟩ := residualTrue_ok.1 h
    have hM' : 0 < M' := (residual_layout _ _ _ _ _ _ _ _ _ _ h).1
    have hM : 0 < M := (t 0 ⟨0, hM'⟩).pos
    have hex : ∀ i, ∃ b, modelRow params u v dz wavel illum tel bf i = .ok b := by
      intro i
      obtain ⟨j, rfl⟩ := s.surjective i
      have := hb' j
      rw [modelRow_surj params u v dz wavel illum tel bf s t ht] at this
      cases hc : modelRow params u v dz wavel illum tel bf (s j) with
      | error e => rw [hc] at this; cases this
      | ok b => exact ⟨b, rfl⟩
    choose b hb using hex
    obtain ⟨nd, hd, -⟩ := C27_axis1 hM beam
    obtain ⟨nm, hm, -⟩ := C27_axis1 hM (fun q : Fin 3 × Fin M => Fl.fin (b q.1 q.2))
    refine ⟨fun q => nd q - nm q, residualTrue_ok.2 ⟨b, hb, nd, nm, hd, hm, rfl⟩, ?_⟩
    have e1 := hd'.symm.trans (normAxis1_surj hM' beam s t ht nd hd)
    have e2 : ∀ i k, b' i k = b (s i) (t i k) := by
      intro i k
      have := hb' i
      rw [modelRow_surj params u v dz wavel illum tel bf s t ht, hb] at this
      exact (congrFun (Except.ok.inj this) k).symm
    simp only [e2] at hm'
    have e3 := hm'.symm.trans (normAxis1_surj hM' _ s t ht nm hm)
    cases e1
    cases e3
    rfl
  · rintro ⟨R, h, rfl⟩
    obtain ⟨b, hb, nd, nm, hd, hm, hR⟩ := residualTrue_ok.1 h
    have hM : 0 < M := (residual_layout _ _ _ _ _ _ _ _ _ _ h).1
    have hM' : 0 < M' := (ht 0 ⟨0, hM⟩).choose.pos
    have hR' : R = fun q => nd q - nm q := by
      funext q
      have e1 := flatten3_getElem R q.1 q.2
      rw [hR, flatten3_getElem] at e1
      exact (Option.some.inj e1).symm
    subst hR'
    refine residualTrue_ok.2 ⟨fun i k => b (s i) (t i k), fun i => ?_, _, _, normAxis1_surj hM' beam s t ht nd hd,
      normAxis1_surj hM' _ s t ht nm hm, rfl⟩
    rw [modelRow_surj params u v dz wavel illum tel bf s t ht, hb]
    rfl

theorem used_surj {c : ℕ} (hc : 0 < c) {t : Fin 3 → Fin M' → Fin M} (ht : Spec.EachUsed c t) (i : Fin 3) :
    Function.Surjective (t i) := by
  intro k
  have h := ht i k
  obtain ⟨k', hk'⟩ := Finset.card_pos.1 (h ▸ hc)
  exact ⟨k', (mem_filter.1 hk').2⟩

/-- **C138.**  If each sample is used `c` times, the sum of the squares is `c` times what it was. -/
theorem C138_cost (c : ℕ) (s : Equiv.Perm (Fin 3)) (t : Fin 3 → Fin M' → Fin M) (ht : Spec.EachUsed c t)
    (R : Fin 3 × Fin M → ℝ) : Spec.costL (flatten3 (Spec.arranged s t R)) = c * Spec.costL (flatten3 R) := by
  rw [costL_flatten, costL_flatten, mul_sum]
  have h : ∀ i : Fin 3, ∑ k : Fin M', Spec.arranged s t R (i, k) ^ 2 = c * ∑ k : Fin M, R (s i, k) ^ 2 := by
    intro i
    rw [← sum_fiberwise_of_maps_to (g := t i) (fun k _ => mem_univ (t i k)), mul_sum]
    refine sum_congr rfl fun k _ => ?_
    rw [sum_congr rfl (g := fun _ => R (s i, k) ^ 2), sum_const, ht i k, nsmul_eq_mul]
    intro k' hk'
    show R (s i, t i k') ^ 2 = _
    rw [(mem_filter.1 hk').2]
  simp_rw [h]
  exact Equiv.sum_comp s fun i => (c : ℝ) * ∑ k, R (i, k) ^ 2

theorem residual_arranged (nK : ℕ) (beam : Fin 3 × Fin M → Fl) (u v : Fin 3 × Fin M → ℝ) (dz : Fin 3 → ℝ)
    (wavel : ℝ) (illum : Illum (Fin N × Fin N)) (tel : TelGeo (Fin N × Fin N)) (bf : ℝ) (cfg : Config)
    (s : Equiv.Perm (Fin 3)) (c : ℕ) (hc : 0 < c) (t : Fin 3 → Fin M' → Fin M) (ht : Spec.EachUsed c t) (p : List ℝ)
    (r' : List ℝ) :
    residual p nK (Spec.arranged s t beam) (Spec.arranged s t u) (Spec.arranged s t v) (fun i => dz (s i)) wavel illum tel
      bf cfg = .ok r' ↔
    ∃ R, residual p nK beam u v dz wavel illum tel bf cfg = .ok (flatten3 R) ∧ r' = flatten3 (Spec.arranged s t R) := by
  unfold Core.residual
  simp only [bind, Except.bind]
  cases paramsComplete p nK cfg with
  | error e => 
    constructor
    · intro h; cases h
    · rintro ⟨_, h, _⟩; cases h
  | ok q => exact C138_residual q beam u v dz wavel illum tel bf s t (used_surj hc ht) r'

theorem residual_flat {nK : ℕ} {beam : Fin 3 × Fin M → Fl} {u v : Fin 3 × Fin M → ℝ} {dz : Fin 3 → ℝ}
    {wavel : ℝ} {illum : Illum (Fin N × Fin N)} {tel : TelGeo (Fin N × Fin N)} {bf : ℝ} {cfg : Config} {p r : List ℝ}
    (h : residual p nK beam u v dz wavel illum tel bf cfg = .ok r) : ∃ R : Fin 3 × Fin M → ℝ, r = flatten3 R := by
  unfold Core.residual at h
  simp only [bind, Except.bind] at h
  cases hp : paramsComplete p nK cfg with
  | error e => rw [hp] at h; cases h
  | ok q =>
    rw [hp] at h
    obtain ⟨b, hb, nd, nm, hd, hm, rfl⟩ := residualTrue_ok.1 h
    exact ⟨_, rfl⟩

/-- **C138.**  The best fits, within any set of parameters, are the same. -/
theorem C138_best (S : Set (List ℝ)) (nK : ℕ) (beam : Fin 3 × Fin M → Fl) (u v : Fin 3 × Fin M → ℝ) (dz : Fin 3 → ℝ)
    (wavel : ℝ) (illum : Illum (Fin N × Fin N)) (tel : TelGeo (Fin N × Fin N)) (bf : ℝ) (cfg : Config)
    (s : Equiv.Perm (Fin 3)) (c : ℕ) (hc : 0 < c) (t : Fin 3 → Fin M' → Fin M) (ht : Spec.EachUsed c t) (p : List ℝ) :
    Spec.BestIn S (fun p => residual p nK (Spec.arranged s t beam) (Spec.arranged s t u) (Spec.arranged s t v)
      (fun i => dz (s i)) wavel illum tel bf cfg) p ↔
    Spec.BestIn S (fun p => residual p nK beam u v dz wavel illum tel bf cfg) p := by
  have key := residual_arranged nK beam u v dz wavel illum tel bf cfg s c hc t ht
  have hc' : (0 : ℝ) < c := by exact_mod_cast hc
  unfold Spec.BestIn
  refine and_congr_right fun _ => ?_
  constructor
  · rintro ⟨r, hr, hmin⟩
    obtain ⟨R, hR, rfl⟩ := (key p r).1 hr
    refine ⟨_, hR, fun p' hp' => ?_⟩
    obtain ⟨r', hr', hle⟩ := hmin p' hp'
    obtain ⟨R', hR', rfl⟩ := (key p' r').1 hr'
    refine ⟨_, hR', ?_⟩
    rw [C138_cost c s t ht, C138_cost c s t ht] at hle
    exact le_of_mul_le_mul_left hle hc'
  · rintro ⟨r, hr, hmin⟩
    obtain ⟨R, rfl⟩ := residual_flat hr
    refine ⟨_, (key p _).2 ⟨R, hr, rfl⟩, fun p' hp' => ?_⟩
    obtain ⟨r', hr', hle⟩ := hmin p' hp'
    obtain ⟨R', rfl⟩ := residual_flat hr'
    refine ⟨_, (key p' _).2 ⟨R', hr', rfl⟩, ?_⟩
    rw [C138_cost c s t ht, C138_cost c s t ht]
    exact mul_le_mul_of_nonneg_left hle hc'.le

/-! ## The covariance -/

theorem sum_used {m m' c : ℕ} (e : Fin m' → Fin m) (he : ∀ k, (univ.filter fun k' => e k' = k).card = c)
    (f : Fin m → ℝ) : ∑ k', f (e k') = c * ∑ k, f k := by
  rw [← sum_fiberwise_of_maps_to (g := e) (fun k _ => mem_univ (e k)), mul_sum]
  refine sum_congr rfl fun k _ => ?_
  rw [sum_congr rfl (g := fun _ => f k), sum_const, he k, nsmul_eq_mul]
  intro k' hk'
  rw [(mem_filter.1 hk').2]

/-- **C138.**  In another order, the residual and the rows of the Jacobian give the same covariance and correlation
matrices, and fail in the same way. -/
theorem C138_matrices {m n : ℕ} (res : Fin m → ℝ) (jac : Matrix (Fin m) (Fin n) ℝ) (nPars : ℕ) (e : Equiv.Perm (Fin m)) :
    coMatrices (fun k => res (e k)) (jac.submatrix e id) nPars = coMatrices res jac nPars := by
  have h1 : (jac.submatrix e id).transpose * jac.submatrix e id = jac.transpose * jac := by
    ext i j
    simp only [Matrix.mul_apply, Matrix.transpose_apply, Matrix.submatrix_apply, id]
    exact Equiv.sum_comp e fun k => jac k i * jac k j
  have h2 : ((fun k => res (e k)) ⬝ᵥ fun k => res (e k)) = res ⬝ᵥ res := Equiv.sum_comp e fun k => res k * res k
  unfold coMatrices
  rw [h1, h2]

/-- **C138.**  Each sample `c` times: the correlations stay, but the covariance is smaller by `(m - n) / (c m - n)`,
about `1 / c`, although nothing new was measured. -/
theorem C138_repeated {m m' n c : ℕ} (hc : 0 < c) (res : Fin m → ℝ) (jac : Matrix (Fin m) (Fin n) ℝ) (nPars : ℕ)
    (hm : nPars < m) (e : Fin m' → Fin m) (he : ∀ k, (univ.filter fun k' => e k' = k).card = c)
    (cov corr : Matrix (Fin n) (Fin n) ℝ) (h : coMatrices res jac nPars = .ok (some (cov, corr))) :
    m' = c * m ∧ coMatrices (fun k => res (e k)) (jac.submatrix e id) nPars =
      .ok (some ((((m : ℝ) - nPars) / ((c * m : ℕ) - nPars)) • cov, corr)) := by
  have hm' : m' = c * m := by
    have := sum_used e he fun _ => 1
    simp only [sum_const, card_univ, Fintype.card_fin, nsmul_eq_mul, mul_one] at this
    exact_mod_cast this
  subst hm'
  refine ⟨rfl, ?_⟩
  have hc0 : (0 : ℝ) < c := by exact_mod_cast hc
  have h1 : (jac.submatrix e id).transpose * jac.submatrix e id = (c : ℝ) • (jac.transpose * jac) := by
    ext i j
    simp only [Matrix.mul_apply, Matrix.transpose_apply, Matrix.submatrix_apply, id, Matrix.smul_apply, smul_eq_mul]
    exact sum_used e he fun k => jac k i * jac k j
  have h2 : ((fun k => res (e k)) ⬝ᵥ fun k => res (e k)) = c * (res ⬝ᵥ res) := sum_used e he fun k => res k * res k
  have hlt : nPars < c * m := hm.trans_le (Nat.le_mul_of_pos_left m hc)
  have hp : (0 : ℝ) < (m : ℝ) - nPars := by
    have : (nPars : ℝ) < m := by exact_mod_cast hm
    linarith
  have hp' : (0 : ℝ) < ((c * m : ℕ) : ℝ) - nPars := by
    have : (nPars : ℝ) < (c * m : ℕ) := by exact_mod_cast hlt
    linarith
  unfold coMatrices at h ⊢
  rw [h1, h2]
  generalize jac.transpose * jac = G at h ⊢
  generalize res ⬝ᵥ res = S at h ⊢
  unfold MathFn.inv at h ⊢
  have hsm : ∀ (a : ℝ) (A : Matrix (Fin n) (Fin n) ℝ), a ≠ 0 → ((a • A).det = 0 ↔ A.det = 0) ∧
      (A.det ≠ 0 → (a • A)⁻¹ = a⁻¹ • A⁻¹) := by
    intro a A ha
    have e1 : (a • A).det = 0 ↔ A.det = 0 := by
      rw [Matrix.det_smul, mul_eq_zero, or_iff_right (pow_ne_zero _ ha)]
    refine ⟨e1, fun hA => ?_⟩
    refine Matrix.inv_eq_right_inv ?_
    rw [smul_mul_smul_comm, mul_inv_cancel₀ ha, Matrix.mul_nonsing_inv _ (isUnit_iff_ne_zero.2 hA), one_smul]
  by_cases hG : G.det = 0
  · rw [if_pos hG] at h; cases h
  rw [if_neg hG] at h
  rw [if_neg (mt (hsm c G hc0.ne').1.1 hG), (hsm c G hc0.ne').2 hG]
  simp only [bind, Except.bind] at h ⊢
  rw [if_neg (by push_cast; omega)] at h
  rw [if_neg (by push_cast; exact_mod_cast (not_le.2 (show (0 : ℤ) < (c * m : ℕ) - nPars by omega)))]
  push_cast at h hp' ⊢
  set k : ℝ := ((m : ℝ) - nPars) / ((c : ℝ) * m - nPars) with hk
  have hk0 : 0 < k := div_pos hp hp'
  set C := (S / ((m : ℝ) - nPars)) • G⁻¹ with hC
  have hC' : (c * S / ((c : ℝ) * m - nPars)) • (c : ℝ)⁻¹ • G⁻¹ = k • C := by
    rw [hC, hk, smul_smul, smul_smul]
    congr 1
    field_simp
  rw [hC']
  have hD : (Matrix.diagonal fun i => (k • C) i i).map Real.sqrt =
      Real.sqrt k • (Matrix.diagonal fun i => C i i).map Real.sqrt := by
    ext i j
    simp only [Matrix.map_apply, Matrix.diagonal_apply, Matrix.smul_apply, smul_eq_mul]
    split_ifs
    · rw [Real.sqrt_mul hk0.le]
    · simp
  rw [hD]
  have hs : Real.sqrt k ≠ 0 := (Real.sqrt_pos.2 hk0).ne'
  by_cases hd : ((Matrix.diagonal fun i => C i i).map Real.sqrt).det = 0
  · rw [if_pos hd] at h; cases h
  rw [if_neg hd] at h
  rw [if_neg (mt (hsm _ _ hs).1.1 hd), (hsm _ _ hs).2 hd]
  obtain ⟨h3, h4⟩ := Prod.mk.inj (Option.some.inj (Except.ok.inj h))
  rw [← h3, ← h4]
  simp only [pure, Except.pure]
  congr 3
  rw [smul_mul_smul_comm, smul_mul_smul_comm]
  rw [show (Real.sqrt k)⁻¹ * k * (Real.sqrt k)⁻¹ = 1 by
    have := Real.mul_self_sqrt hk0.le
    field_simp
    rw [sq]; exact this.symm, one_smul]

/-! ## Cases -/

/-- The maps from plus to minus, each read backwards. -/
example (S : Set (List ℝ)) (beam : Fin 3 × Fin 10000 → Fl) (u v : Fin 3 × Fin 10000 → ℝ) (cfg : Config) (p : List ℝ) :
    Spec.BestIn S (fun p => Core.residual (N := 256) p 21 (fun q => beam (Fin.rev q.1, Fin.rev q.2))
      (fun q => u (Fin.rev q.1, Fin.rev q.2)) (fun q => v (Fin.rev q.1, Fin.rev q.2)) ![0.022, 0, -0.022] 0.009 illumGauss
      (manualTel 50 3.25 1 20 30 387.39435) 5 cfg) p ↔
    Spec.BestIn S (fun p => Core.residual (N := 256) p 21 beam u v ![-0.022, 0, 0.022] 0.009 illumGauss
      (manualTel 50 3.25 1 20 30 387.39435) 5 cfg) p := by
  have h := C138_best (N := 256) S 21 beam u v ![-0.022, 0, 0.022] 0.009 illumGauss
    (manualTel 50 3.25 1 20 30 387.39435) 5 cfg Fin.revPerm 1 one_pos (fun _ => Fin.rev) (fun i k => by
      rw [card_eq_one]
      exact ⟨Fin.rev k, by ext k'; simp [Fin.rev_eq_iff]⟩) p
  rw [show (![0.022, 0, -0.022] : Fin 3 → ℝ) = fun i => ![-0.022, 0, 0.022] (Fin.revPerm i) by
    funext i
    fin_cases i <;> rfl]
  exact h

/-- Two numbers and one parameter, each number twice: the variance falls to a third. -/
example : ∃ cov corr, coMatrices ![1, 2] !![1; 1] 1 = .ok (some (cov, corr)) ∧
    coMatrices ![1, 1, 2, 2] !![1; 1; 1; 1] 1 = .ok (some ((1 / 3 : ℝ) • cov, corr)) := by
  obtain ⟨cov, corr, h1, -⟩ := C30_matrices ![1, 2] !![1; 1] 1 (by norm_num)
    (fun v hv => by
      have := congrFun hv 0
      simp [Matrix.mulVec, dotProduct] at this
      funext i
      rw [Subsingleton.elim i 0, this]
      rfl)
    (fun h => by have := congrFun h 0; simp at this)
  refine ⟨cov, corr, h1, ?_⟩
  have h := (C138_repeated (m' := 4) (c := 2) two_pos ![1, 2] !![1; 1] 1 (by norm_num) ![0, 0, 1, 1] (by decide) _ _ h1).2
  have e1 : (fun k => ![1, 2] ((![0, 0, 1, 1] : Fin 4 → Fin 2) k)) = (![1, 1, 2, 2] : Fin 4 → ℝ) := by
    funext k
    fin_cases k <;> rfl
  have e2 : (!![1; 1] : Matrix (Fin 2) (Fin 1) ℝ).submatrix (![0, 0, 1, 1] : Fin 4 → Fin 2) id = !![1; 1; 1; 1] := by
    ext k j
    fin_cases k <;> fin_cases j <;> rfl
  rw [e1, e2] at h
  rw [h]
  norm_num

end Verif.Props
