import Verif.Props.Nested
import Verif.Props.Errors

/-! # C113: what excluding a parameter does to a fit and to its formal errors -/

namespace Verif.Props

open Verif Verif.Np Verif.Aperture Verif.MathFn Verif.Core Verif.Fs Verif.Store Verif.Fit Finset Matrix

/-! ## Specification -/

/-- `cfg'` excludes what `cfg` excludes, with the same values, and possibly more; the bounds are the same and the values of
the parameters that are excluded in addition are within them. -/
structure Spec.MoreExcluded (cfg cfg' : Config) (S S' : List ℕ) : Prop where
  subset : ∀ e ∈ S, e ∈ S'
  fixed : ∀ e ∈ S, cfg'.fixed.getD e 0 = cfg.fixed.getD e 0
  boundMin : cfg'.boundMin = cfg.boundMin
  boundMax : cfg'.boundMax = cfg.boundMax
  ge : ∀ e ∈ S', e ∉ S → cfg.boundMin.getD e 0 ≤ cfg'.fixed.getD e 0
  le : ∀ e ∈ S', e ∉ S → cfg'.fixed.getD e 0 ≤ cfg.boundMax.getD e 0

/-- Vector `w` of fewer parameters, zero for the others. -/
noncomputable def Spec.spread {k n : ℕ} (e : Fin k → Fin n) (w : Fin k → ℝ) (j : Fin n) : ℝ :=
  ∑ i, if e i = j then w i else 0

/-! ## Complete vectors -/

variable {N M : ℕ}

theorem foldl_set_same (val : ℕ → ℝ) (S : List ℕ) (p : List ℝ) (h : ∀ e ∈ S, p[e]? = some (val e)) :
    S.foldl (fun l e => l.set e (val e)) p = p := by
  induction S with
  | nil => rfl
  | cons e S ih =>
    rw [List.foldl_cons]
    have h1 := h e List.mem_cons_self
    have h2 : p.set e (val e) = p := by
      apply List.ext_getElem?
      intro i
      rw [List.getElem?_set]
      split_ifs with h3 h4
      · subst h3; exact h1.symm
      · subst h3; rw [List.getElem?_eq_none (by omega)]
      · rfl
    rw [h2]
    exact ih fun e' he' => h e' (List.mem_cons_of_mem _ he')

theorem complete_full {cfg : Config} {S : List ℕ} (hf : Spec.Feasible cfg S) {n : ℕ} (hn : 1 ≤ n) {p : List ℝ}
    (hp : p.length = 5 + Spec.nK n) (h : ∀ e ∈ S, p.getD e 0 = cfg.fixed.getD e 0) :
    paramsComplete (dropAt S 0 p) (Spec.nK n) cfg = .ok p := by
  have h3 := nK_three hn
  rw [complete_delete cfg S hf.excluded hf.ascending hf.below hf.fixed _ h3 p hp, foldl_set_same]
  intro e he
  have h7 := hf.below e he
  rw [← h e he, List.getD_eq_getElem?_getD, List.getElem?_eq_getElem (show e < p.length by omega)]
  rfl

theorem boundsMin_length {cfg : Config} {S : List ℕ} (hf : Spec.Feasible cfg S) {n : ℕ} (hn : 1 ≤ n) :
    (Spec.boundsMin cfg n).length = 5 + Spec.nK n := by
  have h3 := nK_three hn
  unfold Spec.boundsMin
  rw [List.length_append, hf.boundMin, List.length_replicate]
  omega

theorem boundsMax_length {cfg : Config} {S : List ℕ} (hf : Spec.Feasible cfg S) {n : ℕ} (hn : 1 ≤ n) :
    (Spec.boundsMax cfg n).length = 5 + Spec.nK n := by
  have h3 := nK_three hn
  unfold Spec.boundsMax
  rw [List.length_append, hf.boundMax, List.length_replicate]
  omega

/-- A vector of fitted parameters within the bounds as a complete vector. -/
theorem full_vector {cfg : Config} {S : List ℕ} (hf : Spec.Feasible cfg S) {n : ℕ} (hn : 1 ≤ n) {x : List ℝ}
    (hx : Spec.Within (dropAt S 0 (Spec.boundsMin cfg n)) (dropAt S 0 (Spec.boundsMax cfg n)) x) :
    ∃ p : List ℝ, p.length = 5 + Spec.nK n ∧ dropAt S 0 p = x ∧ (∀ e ∈ S, p.getD e 0 = cfg.fixed.getD e 0) ∧
      ∀ i < 5 + Spec.nK n, i ∉ S → (Spec.boundsMin cfg n).getD i 0 ≤ p.getD i 0 ∧
        p.getD i 0 ≤ (Spec.boundsMax cfg n).getD i 0 := by
  have h3 := nK_three hn
  have hnd : S.Nodup := hf.ascending.imp (fun h => ne_of_lt h)
  have hb := boundsMin_length hf hn
  have hb' := boundsMax_length hf hn
  have hlen : x.length + S.length = 5 + Spec.nK n := by
    have h1 := dropAt_length S (Spec.boundsMin cfg n) 0
    rw [hb, countP_range' S hnd _ (fun e he => by have := hf.below e he; omega), hx.1.length_eq] at h1
    exact h1
  obtain ⟨r, h1, h2, h4, h5⟩ := C36_complete cfg S hf.excluded hf.ascending hf.below hf.fixed _ h3 x hlen
  rw [hf.excluded, npDelete_ok r S (fun e he => by have := hf.below e he; omega)] at h5
  have h5' := Except.ok.inj h5
  refine ⟨r, h2, h5', fun e he => ?_, fun i hi hS => ⟨?_, ?_⟩⟩
  · rw [List.getD_eq_getElem?_getD, List.getD_eq_getElem?_getD, h4 e he]
  · refine forall₂_dropAt (R := (· ≤ ·)) S 0 _ _ (by rw [hb, h2]) ?_ i (by rw [hb]; exact hi) (by simpa using hS)
    rw [h5']
    exact hx.1
  · refine forall₂_dropAt (R := (· ≤ ·)) S 0 _ _ (by rw [hb', h2]) ?_ i (by rw [h2]; exact hi) (by simpa using hS)
    rw [h5']
    exact hx.2

theorem within_full {cfg : Config} {S : List ℕ} (hf : Spec.Feasible cfg S) {n : ℕ} (hn : 1 ≤ n) {p : List ℝ}
    (hp : p.length = 5 + Spec.nK n)
    (h : ∀ i < 5 + Spec.nK n, i ∉ S → (Spec.boundsMin cfg n).getD i 0 ≤ p.getD i 0 ∧
        p.getD i 0 ≤ (Spec.boundsMax cfg n).getD i 0) :
    Spec.Within (dropAt S 0 (Spec.boundsMin cfg n)) (dropAt S 0 (Spec.boundsMax cfg n)) (dropAt S 0 p) := by
  have hb := boundsMin_length hf hn
  have hb' := boundsMax_length hf hn
  constructor
  · exact dropAt_forall₂ (R := (· ≤ ·)) S 0 _ _ (by rw [hb, hp]) fun i hi hS => (h i (by omega) (by simpa using hS)).1
  · exact dropAt_forall₂ (R := (· ≤ ·)) S 0 _ _ (by rw [hb', hp]) fun i hi hS => (h i (by omega) (by simpa using hS)).2

theorem getD_append_low (l r : List ℝ) (i : ℕ) (h : i < l.length) : (l ++ r).getD i 0 = l.getD i 0 := by
  rw [List.getD_eq_getElem?_getD, List.getD_eq_getElem?_getD, List.getElem?_append_left h]

/-- **C113.**  Whatever a fit with more excluded parameters can reach, the one with fewer can: for any fitted parameters of
the former within the bounds there are some of the latter, within the bounds, that mean the same complete vector and have
the same residual. -/
theorem C113_reached (cfg cfg' : Config) (S S' : List ℕ) (hf : Spec.Feasible cfg S) (hf' : Spec.Feasible cfg' S')
    (hm : Spec.MoreExcluded cfg cfg' S S') (n : ℕ) (hn : 1 ≤ n) (x' : List ℝ)
    (hx : Spec.Within (dropAt S' 0 (Spec.boundsMin cfg' n)) (dropAt S' 0 (Spec.boundsMax cfg' n)) x')
    (beam : Fin 3 × Fin M → Fl) (u v : Fin 3 × Fin M → ℝ) (dz : Fin 3 → ℝ) (wavel : ℝ)
    (illum : Illum (Fin N × Fin N)) (tel : TelGeo (Fin N × Fin N)) (bf : ℝ) :
    ∃ x p, Spec.Within (dropAt S 0 (Spec.boundsMin cfg n)) (dropAt S 0 (Spec.boundsMax cfg n)) x ∧
      paramsComplete x (Spec.nK n) cfg = .ok p ∧ paramsComplete x' (Spec.nK n) cfg' = .ok p ∧
      Core.residual x (Spec.nK n) beam u v dz wavel illum tel bf cfg =
        Core.residual x' (Spec.nK n) beam u v dz wavel illum tel bf cfg' := by
  obtain ⟨p, hp, hd, hfix, hin⟩ := full_vector hf' hn hx
  have e1 := complete_full hf hn hp fun e he => by rw [hfix e (hm.subset e he), hm.fixed e he]
  have e2 := complete_full hf' hn hp hfix
  rw [hd] at e2
  have hb1 : Spec.boundsMin cfg' n = Spec.boundsMin cfg n := by unfold Spec.boundsMin; rw [hm.boundMin]
  have hb2 : Spec.boundsMax cfg' n = Spec.boundsMax cfg n := by unfold Spec.boundsMax; rw [hm.boundMax]
  refine ⟨dropAt S 0 p, p, within_full hf hn hp fun i hi hS => ?_, e1, e2, ?_⟩
  · by_cases hS' : i ∈ S'
    · have h7 := hf'.below i hS'
      rw [hfix i hS']
      unfold Spec.boundsMin Spec.boundsMax
      rw [getD_append_low _ _ _ (by rw [hf.boundMin]; omega), getD_append_low _ _ _ (by rw [hf.boundMax]; omega)]
      exact ⟨hm.ge i hS' hS, hm.le i hS' hS⟩
    · rw [← hb1, ← hb2]
      exact hin i hi hS'
  · unfold Core.residual
    rw [e1, e2]

/-- **C113.**  So excluding a parameter never gives a better best fit. -/
theorem C113_never_better (a b : Input N M) (S S' : List ℕ) (hf : Spec.Feasible a.cfg S) (hf' : Spec.Feasible b.cfg S')
    (hm : Spec.MoreExcluded a.cfg b.cfg S S') (hab : b = { a with cfg := b.cfg, solver := b.solver })
    (n : ℕ) (hn : 1 ≤ n) (x v x' v' : List ℝ)
    (h : Spec.BestPoint (Spec.resid a n) (dropAt S 0 (Spec.boundsMin a.cfg n)) (dropAt S 0 (Spec.boundsMax a.cfg n)) x v)
    (h' : Spec.BestPoint (Spec.resid b n) (dropAt S' 0 (Spec.boundsMin b.cfg n)) (dropAt S' 0 (Spec.boundsMax b.cfg n))
      x' v') :
    Spec.costL v ≤ Spec.costL v' := by
  obtain ⟨y, p, h1, -, -, h2⟩ := C113_reached a.cfg b.cfg S S' hf hf' hm n hn x' h'.1 a.beam a.u a.v a.dz a.wavel a.illum
    a.tel a.boxFactor
  refine h.2.2 y v' h1 ?_
  have h3 := h'.2.1
  rw [hab] at h3
  exact h2.trans h3

/-- **C113.**  Parameters that are excluded at the values which the best fit gave them: the remaining ones are a best fit of
the new configuration, with the same complete vector and the same residual. -/
theorem C113_at_best (a b : Input N M) (S S' : List ℕ) (hf : Spec.Feasible a.cfg S) (hf' : Spec.Feasible b.cfg S')
    (hm : Spec.MoreExcluded a.cfg b.cfg S S') (hab : b = { a with cfg := b.cfg, solver := b.solver })
    (n : ℕ) (hn : 1 ≤ n) (x v p : List ℝ)
    (h : Spec.BestPoint (Spec.resid a n) (dropAt S 0 (Spec.boundsMin a.cfg n)) (dropAt S 0 (Spec.boundsMax a.cfg n)) x v)
    (hp : paramsComplete x (Spec.nK n) a.cfg = .ok p) (hfix : ∀ e ∈ S', e ∉ S → b.cfg.fixed.getD e 0 = p.getD e 0) :
    ∃ x', npDelete p b.cfg.excluded = .ok x' ∧ paramsComplete x' (Spec.nK n) b.cfg = .ok p ∧
      Spec.BestPoint (Spec.resid b n) (dropAt S' 0 (Spec.boundsMin b.cfg n)) (dropAt S' 0 (Spec.boundsMax b.cfg n)) x' v := by
  have h3 := nK_three hn
  obtain ⟨q, hq, hd, hq1, hq2⟩ := full_vector hf hn h.1
  have e1 := complete_full hf hn hq hq1
  rw [hd, hp] at e1
  cases e1
  have hall : ∀ e ∈ S', p.getD e 0 = b.cfg.fixed.getD e 0 := by
    intro e he
    by_cases hS : e ∈ S
    · rw [hq1 e hS, hm.fixed e hS]
    · rw [hfix e he hS]
  have e2 := complete_full hf' hn hq hall
  have hb1 : Spec.boundsMin b.cfg n = Spec.boundsMin a.cfg n := by unfold Spec.boundsMin; rw [hm.boundMin]
  have hb2 : Spec.boundsMax b.cfg n = Spec.boundsMax a.cfg n := by unfold Spec.boundsMax; rw [hm.boundMax]
  refine ⟨dropAt S' 0 p, ?_, e2, within_full hf' hn hq fun i hi hS => ?_, ?_, fun y w hy hw => ?_⟩
  · rw [hf'.excluded, npDelete_ok p S' (fun e he => by have := hf'.below e he; omega)]
  · rw [hb1, hb2]
    exact hq2 i hi fun h' => hS (hm.subset i h')
  · have := h.2.1
    unfold Spec.resid Core.residual at this ⊢
    rw [hp] at this
    rw [e2, hab]
    exact this
  · obtain ⟨z, r, h1, -, -, h2⟩ := C113_reached a.cfg b.cfg S S' hf hf' hm n hn y hy a.beam a.u a.v a.dz a.wavel a.illum
      a.tel a.boxFactor
    refine h.2.2 z w h1 ?_
    rw [hab] at hw
    exact h2.trans hw

theorem best_stored (a : Input N M) (S : List ℕ) (hf : Spec.Feasible a.cfg S) (hb : Spec.FindsBest a)
    (fs fs' : FS Content) (d : Path) (h : (fitZpoly a).run fs = (.ok d, fs')) (hd : fs d = none ∨ isDir fs d) (j : ℕ)
    (hj : 1 ≤ j) (hj' : j ≤ a.orderMax) :
    ∃ t res x v, fs' (Spec.file "res" j :: d) = some (.file (.csv t res)) ∧
      Spec.sumSq res = Spec.costL v ∧ Spec.BestPoint (Spec.resid a j) (dropAt S 0 (Spec.boundsMin a.cfg j))
        (dropAt S 0 (Spec.boundsMax a.cfg j)) x v := by
  obtain ⟨names, fit, init, it, lb, ub, r, co, hdr, ph, res, jac, grad, phi, cov, cor, -, -, h1, h2, h3, -, -, -, -, -,
    h4, h5, -⟩ := C67_provenance a fs fs' d h hd j hj hj'
  have h3' := nK_three hj
  refine ⟨_, res, List.ofFn r.x, List.ofFn r.fn, h4, sumSq_grid _ _ h5, ?_⟩
  have := hb j it lb ub r hj h1 h2 h3
  rw [hf.excluded, npDelete_ok _ _ fun e he => by
    have := hf.below e he
    rw [boundsMin_length hf hj]
    omega] at h1
  rw [hf.excluded, npDelete_ok _ _ fun e he => by
    have := hf.below e he
    rw [boundsMax_length hf hj]
    omega] at h2
  cases h1
  cases h2
  exact this

/-- **C113.**  Two runs on the same data, the second with more parameters excluded, both with an optimiser that finds best
points: at every order the stored residuals of the second are not smaller. -/
theorem C113_run (a b : Input N M) (S S' : List ℕ) (hf : Spec.Feasible a.cfg S) (hf' : Spec.Feasible b.cfg S')
    (hm : Spec.MoreExcluded a.cfg b.cfg S S') (hab : b = { a with cfg := b.cfg, solver := b.solver })
    (ha : Spec.FindsBest a) (hb : Spec.FindsBest b) (fa fa' fb fb' : FS Content) (d d' : Path)
    (h : (fitZpoly a).run fa = (.ok d, fa')) (hd : fa d = none ∨ isDir fa d)
    (h' : (fitZpoly b).run fb = (.ok d', fb')) (hd' : fb d' = none ∨ isDir fb d') (k : ℕ) (hk : 1 ≤ k)
    (hk' : k ≤ a.orderMax) :
    ∃ t t' res res', fa' (Spec.file "res" k :: d) = some (.file (.csv t res)) ∧
      fb' (Spec.file "res" k :: d') = some (.file (.csv t' res')) ∧ Spec.sumSq res ≤ Spec.sumSq res' := by
  obtain ⟨t, res, x, v, h1, h2, h3⟩ := best_stored a S hf ha fa fa' d h hd k hk hk'
  obtain ⟨t', res', x', v', h4, h5, h6⟩ := best_stored b S' hf' hb fb fb' d' h' hd' k hk (by rw [hab]; exact hk')
  refine ⟨t, t', res, res', h1, h4, ?_⟩
  rw [h2, h5]
  exact C113_never_better a b S S' hf hf' hm hab k hk x v x' v' h3 h6

/-! ## Formal errors -/

theorem spread_dot {k n : ℕ} (e : Fin k → Fin n) (w : Fin k → ℝ) (z : Fin n → ℝ) :
    Spec.spread e w ⬝ᵥ z = ∑ i, w i * z (e i) := by
  unfold Spec.spread dotProduct
  simp only [Finset.sum_mul]
  rw [Finset.sum_comm]
  refine Finset.sum_congr rfl fun i _ => ?_
  simp [ite_mul]

theorem spread_mulVec {m k n : ℕ} (J : Matrix (Fin m) (Fin n) ℝ) (e : Fin k → Fin n) (w : Fin k → ℝ) :
    J.mulVec (Spec.spread e w) = (J.submatrix id e).mulVec w := by
  funext r
  unfold mulVec
  rw [dotProduct_comm, spread_dot]
  unfold dotProduct
  exact Finset.sum_congr rfl fun i _ => mul_comm _ _

theorem gram_dot {m n : ℕ} (J : Matrix (Fin m) (Fin n) ℝ) (y z : Fin n → ℝ) :
    y ⬝ᵥ (J.transpose * J).mulVec z = J.mulVec y ⬝ᵥ J.mulVec z := by
  rw [← mulVec_mulVec, dotProduct_mulVec, vecMul_transpose]

theorem spread_injective {k n : ℕ} (e : Fin k → Fin n) (he : Function.Injective e) (w : Fin k → ℝ) (i : Fin k) :
    Spec.spread e w (e i) = w i := by
  unfold Spec.spread
  rw [Finset.sum_eq_single i]
  · simp
  · intro j _ hj
    rw [if_neg fun h => hj (he h)]
  · intro h
    exact absurd (mem_univ i) h

theorem rank_submatrix {m n k : ℕ} {J : Matrix (Fin m) (Fin n) ℝ} (hrank : ∀ v : Fin n → ℝ, J.mulVec v = 0 → v = 0)
    {e : Fin k → Fin n} (he : Function.Injective e) (v : Fin k → ℝ) (hv : (J.submatrix id e).mulVec v = 0) : v = 0 := by
  rw [← spread_mulVec] at hv
  have := hrank _ hv
  funext i
  rw [← spread_injective e he v i, this]
  rfl

/-- **C113.**  Leaving columns out of the Jacobian, with the same residual: no variance of a remaining parameter, nor of any
combination of them, gets larger. -/
theorem C113_errors {m n k : ℕ} (res : Fin m → ℝ) (J : Matrix (Fin m) (Fin n) ℝ) (e : Fin k → Fin n)
    (he : Function.Injective e) (nPars nPars' : ℕ) (hle : nPars' ≤ nPars) (hdof : nPars < m)
    (hrank : ∀ v : Fin n → ℝ, J.mulVec v = 0 → v = 0) (hres : res ≠ 0) :
    ∃ cov corr cov' corr', coMatrices res J nPars = .ok (some (cov, corr)) ∧
      coMatrices res (J.submatrix id e) nPars' = .ok (some (cov', corr')) ∧
      (∀ i, cov' i i ≤ cov (e i) (e i)) ∧
      ∀ w : Fin k → ℝ, ∑ i, ∑ j, w i * cov' i j * w j ≤ ∑ i, ∑ j, w i * cov (e i) (e j) * w j := by
  obtain ⟨cov, corr, h1, h2, h3, h4, -⟩ := C30_matrices res J nPars hdof hrank hres
  obtain ⟨cov', corr', h1', h2', h3', h4', -⟩ := C30_matrices res (J.submatrix id e) nPars' (lt_of_le_of_lt hle hdof)
    (rank_submatrix hrank he) hres
  have hRSS : 0 < ∑ k, res k ^ 2 := by
    obtain ⟨i, hi⟩ := Function.ne_iff.1 hres
    exact Finset.sum_pos' (fun k _ => sq_nonneg _) ⟨i, mem_univ _, sq_pos_of_ne_zero hi⟩
  have hd1 : (0 : ℝ) < (m : ℝ) - nPars := by
    have : (nPars : ℝ) < m := by exact_mod_cast hdof
    linarith
  have hd2 : (m : ℝ) - nPars ≤ (m : ℝ) - nPars' := by
    have : (nPars' : ℝ) ≤ nPars := by exact_mod_cast hle
    linarith
  set s := (∑ k, res k ^ 2) / ((m : ℝ) - nPars) with hs
  set s' := (∑ k, res k ^ 2) / ((m : ℝ) - nPars') with hs'
  have hs0 : 0 < s := div_pos hRSS hd1
  have hs0' : 0 < s' := div_pos hRSS (hd1.trans_le hd2)
  have hss : s' ≤ s := div_le_div_of_nonneg_left hRSS.le hd1 hd2
  have hflip' : (J.submatrix id e).transpose * J.submatrix id e * cov' = s' • (1 : Matrix (Fin k) (Fin k) ℝ) := by
    have := congrArg Matrix.transpose h2'
    rw [transpose_mul, transpose_mul, transpose_transpose, h3', transpose_smul, transpose_one] at this
    exact this
  have key : ∀ w : Fin k → ℝ, w ⬝ᵥ cov'.mulVec w ≤ Spec.spread e w ⬝ᵥ cov.mulVec (Spec.spread e w) := by
    intro w
    set y := cov'.mulVec w with hy
    have hA' : ((J.submatrix id e).transpose * J.submatrix id e).mulVec y = s' • w := by
      rw [hy, mulVec_mulVec, hflip', smul_mulVec, one_mulVec]
    set A := J.transpose * J with hA
    set W := Spec.spread e w
    set Y := Spec.spread e y
    have hAY : cov.mulVec (A.mulVec Y) = s • Y := by rw [mulVec_mulVec, h2, smul_mulVec, one_mulVec]
    have hYAY : A.mulVec Y ⬝ᵥ Y = s' * (w ⬝ᵥ y) := by
      rw [dotProduct_comm, hA, gram_dot, spread_mulVec, ← gram_dot, hA', dotProduct_smul, smul_eq_mul, dotProduct_comm]
    have hWY : W ⬝ᵥ Y = w ⬝ᵥ y := by
      rw [spread_dot]
      unfold dotProduct
      exact Finset.sum_congr rfl fun i _ => congrArg (w i * ·) (spread_injective e he y i)
    have hpos : 0 ≤ (W - (1 / s') • A.mulVec Y) ⬝ᵥ cov.mulVec (W - (1 / s') • A.mulVec Y) := by
      by_cases hz : W - (1 / s') • A.mulVec Y = 0
      · rw [hz]; simp
      · exact (h4 _ hz).le
    have hcross : A.mulVec Y ⬝ᵥ cov.mulVec W = s * (w ⬝ᵥ y) := by
      rw [dotProduct_mulVec, ← mulVec_transpose, h3, hAY, smul_dotProduct, smul_eq_mul, dotProduct_comm, hWY]
    rw [mulVec_sub, mulVec_smul, hAY, sub_dotProduct, dotProduct_sub, dotProduct_sub, smul_dotProduct, smul_dotProduct,
      dotProduct_smul, dotProduct_smul, dotProduct_smul, dotProduct_smul, hcross, hWY, hYAY] at hpos
    simp only [smul_eq_mul] at hpos
    have e1 : W ⬝ᵥ cov.mulVec W - 1 / s' * (s * (w ⬝ᵥ y)) - (1 / s' * (s * (w ⬝ᵥ y)) - 1 / s' * (1 / s' * (s * (s' * (w ⬝ᵥ y))))) =
        W ⬝ᵥ cov.mulVec W - s / s' * (w ⬝ᵥ y) := by
      field_simp
      ring
    have hwy : 0 ≤ w ⬝ᵥ y := by
      by_cases hz : w = 0
      · rw [hz]; simp
      · exact (h4' _ hz).le
    have h5 : w ⬝ᵥ y ≤ s / s' * (w ⬝ᵥ y) := le_mul_of_one_le_left hwy ((one_le_div hs0').2 hss)
    nlinarith [hpos, e1, h5]
  have expand : ∀ {q : ℕ} (C : Matrix (Fin q) (Fin q) ℝ) (w : Fin q → ℝ),
      w ⬝ᵥ C.mulVec w = ∑ i, ∑ j, w i * C i j * w j := by
    intro q C w
    unfold mulVec dotProduct
    refine Finset.sum_congr rfl fun i _ => ?_
    rw [Finset.mul_sum]
    exact Finset.sum_congr rfl fun j _ => by ring
  have quad : ∀ w : Fin k → ℝ, ∑ i, ∑ j, w i * cov' i j * w j ≤ ∑ i, ∑ j, w i * cov (e i) (e j) * w j := by
    intro w
    have h := key w
    rw [expand, spread_dot] at h
    refine h.trans (le_of_eq (Finset.sum_congr rfl fun i _ => ?_))
    unfold mulVec
    rw [dotProduct_comm, spread_dot, Finset.mul_sum]
    exact Finset.sum_congr rfl fun j _ => by ring
  refine ⟨cov, corr, cov', corr', h1, h1', fun i => ?_, quad⟩
  have h := quad (Pi.single i 1)
  simpa [Pi.single_apply, Finset.sum_ite_eq] using h

/-- **C113.**  The variance of a parameter is at least the one it would have alone. -/
theorem C113_alone {m n : ℕ} (res : Fin m → ℝ) (J : Matrix (Fin m) (Fin n) ℝ) (nPars : ℕ) (hdof : nPars < m)
    (hrank : ∀ v : Fin n → ℝ, J.mulVec v = 0 → v = 0) (hres : res ≠ 0) :
    ∃ cov corr, coMatrices res J nPars = .ok (some (cov, corr)) ∧
      ∀ i, (∑ k, res k ^ 2) / ((m : ℝ) - nPars) / ∑ k, J k i ^ 2 ≤ cov i i := by
  obtain ⟨cov, corr, h1, -⟩ := C30_matrices res J nPars hdof hrank hres
  refine ⟨cov, corr, h1, fun i => ?_⟩
  have he : Function.Injective fun _ : Fin 1 => i := fun a b _ => Subsingleton.elim a b
  obtain ⟨cov₁, corr₁, cov', corr', h1', h2', h3', -⟩ := C113_errors res J (fun _ : Fin 1 => i) he nPars nPars le_rfl hdof
    hrank hres
  rw [h1] at h1'
  cases h1'
  obtain ⟨cov₂, corr₂, g1, g2, -⟩ := C30_matrices res (J.submatrix id fun _ : Fin 1 => i) nPars hdof
    (rank_submatrix hrank he) hres
  rw [h2'] at g1
  cases g1
  have h := congrFun (congrFun g2 0) 0
  simp only [Matrix.mul_apply, Finset.univ_unique, Fin.default_eq_zero, Finset.sum_singleton, transpose_apply,
    submatrix_apply, id_eq, Matrix.smul_apply, one_apply_eq, smul_eq_mul, mul_one] at h
  have hpos : 0 < ∑ k, J k i ^ 2 := by
    refine lt_of_le_of_ne (Finset.sum_nonneg fun k _ => sq_nonneg _) fun h0 => ?_
    have hz : ∀ k, J k i = 0 := fun k => by
      have := (Finset.sum_eq_zero_iff_of_nonneg fun k _ => sq_nonneg (J k i)).1 h0.symm k (mem_univ k)
      exact pow_eq_zero_iff (two_ne_zero) |>.1 this
    have := hrank (Pi.single i 1) (by
      funext k
      simp [hz k])
    have := congrFun this i
    simp at this
  have e2 : ∑ k, J k i * J k i = ∑ k, J k i ^ 2 := Finset.sum_congr rfl fun k _ => by ring
  rw [e2] at h
  rw [← h, mul_div_assoc, div_self hpos.ne', mul_one]
  exact h3' 0

/-- **C113.**  A parameter whose columns are orthogonal to those left out: its variances and covariances change only by the
number of degrees of freedom. -/
theorem C113_orthogonal {m n k : ℕ} (res : Fin m → ℝ) (J : Matrix (Fin m) (Fin n) ℝ) (e : Fin k → Fin n)
    (he : Function.Injective e) (nPars nPars' : ℕ) (hle : nPars' ≤ nPars) (hdof : nPars < m)
    (hrank : ∀ v : Fin n → ℝ, J.mulVec v = 0 → v = 0) (hres : res ≠ 0)
    (horth : ∀ i j, (∀ i', e i' ≠ j) → ∑ r, J r (e i) * J r j = 0) :
    ∃ cov corr cov' corr', coMatrices res J nPars = .ok (some (cov, corr)) ∧
      coMatrices res (J.submatrix id e) nPars' = .ok (some (cov', corr')) ∧
      ∀ i j, cov' i j = ((m : ℝ) - nPars) / ((m : ℝ) - nPars') * cov (e i) (e j) := by
  obtain ⟨cov, corr, h1, h2, h3, -⟩ := C30_matrices res J nPars hdof hrank hres
  obtain ⟨cov', corr', h1', h2', -⟩ := C30_matrices res (J.submatrix id e) nPars' (lt_of_le_of_lt hle hdof)
    (rank_submatrix hrank he) hres
  have hd1 : (0 : ℝ) < (m : ℝ) - nPars := by
    have : (nPars : ℝ) < m := by exact_mod_cast hdof
    linarith
  have hd2 : (m : ℝ) - nPars ≤ (m : ℝ) - nPars' := by
    have : (nPars' : ℝ) ≤ nPars := by exact_mod_cast hle
    linarith
  have hRSS : 0 < ∑ k, res k ^ 2 := by
    obtain ⟨i, hi⟩ := Function.ne_iff.1 hres
    exact Finset.sum_pos' (fun k _ => sq_nonneg _) ⟨i, mem_univ _, sq_pos_of_ne_zero hi⟩
  set A' := (J.submatrix id e).transpose * J.submatrix id e with hA'
  set B : Matrix (Fin k) (Fin k) ℝ := cov.submatrix e e with hB
  have hflip : J.transpose * J * cov = ((∑ k, res k ^ 2) / ((m : ℝ) - nPars)) • (1 : Matrix (Fin n) (Fin n) ℝ) := by
    have := congrArg Matrix.transpose h2
    rw [transpose_mul, transpose_mul, transpose_transpose, h3, transpose_smul, transpose_one] at this
    exact this
  have hAB : A' * B = ((∑ k, res k ^ 2) / ((m : ℝ) - nPars)) • (1 : Matrix (Fin k) (Fin k) ℝ) := by
    ext i j
    have h := congrFun (congrFun hflip (e i)) (e j)
    rw [Matrix.mul_apply] at h ⊢
    rw [Matrix.smul_apply, Matrix.one_apply] at h ⊢
    have e1 : ∑ l, A' i l * B l j = ∑ l, (J.transpose * J) (e i) l * cov l (e j) := by
      have hzero : ∀ l ∉ Finset.univ.image e, (J.transpose * J) (e i) l * cov l (e j) = 0 := by
        intro l hl
        have : ∀ i', e i' ≠ l := fun i' h => hl (mem_image.2 ⟨i', mem_univ _, h⟩)
        have h0 := horth i l this
        rw [Matrix.mul_apply]
        simp only [transpose_apply]
        rw [h0, zero_mul]
      rw [← Finset.sum_subset (subset_univ (Finset.univ.image e)) fun l _ hl => hzero l hl,
        Finset.sum_image fun a _ b _ h => he h]
      refine Finset.sum_congr rfl fun l _ => ?_
      rw [hA', hB]
      simp only [Matrix.mul_apply, transpose_apply, submatrix_apply, id_eq]
    rw [e1, h]
    by_cases hij : i = j
    · rw [if_pos hij, if_pos (congrArg e hij)]
    · rw [if_neg hij, if_neg fun h => hij (he h)]
  refine ⟨cov, corr, cov', corr', h1, h1', fun i j => ?_⟩
  have h5 : cov' * (A' * B) = (cov' * A') * B := (Matrix.mul_assoc _ _ _).symm
  rw [hAB, h2', Matrix.mul_smul, Matrix.mul_one, Matrix.smul_mul, Matrix.one_mul] at h5
  have h6 := congrFun (congrFun h5 i) j
  simp only [Matrix.smul_apply, smul_eq_mul, hB, submatrix_apply] at h6
  have hd3 : (0 : ℝ) < (m : ℝ) - nPars' := hd1.trans_le hd2
  field_simp at h6 ⊢
  linarith

/-! ## Cases that meet the hypotheses -/

/-- The shipped configuration with the coefficients of order one excluded too. -/
example : Spec.Feasible defaultConfig [1, 2, 3, 4, 5] ∧
    Spec.Feasible { defaultConfig with excluded := [1, 2, 3, 4, 5, 6, 7] } [1, 2, 3, 4, 5, 6, 7] ∧
    Spec.MoreExcluded defaultConfig { defaultConfig with excluded := [1, 2, 3, 4, 5, 6, 7] } [1, 2, 3, 4, 5]
      [1, 2, 3, 4, 5, 6, 7] := by
  refine ⟨default_feasible, C40_shipped [1, 2, 3, 4, 5, 6, 7] (by decide) (by decide), ⟨by decide, fun _ _ => rfl, rfl, rfl,
    fun e he hS => ?_, fun e he hS => ?_⟩⟩
  all_goals
    have : e = 6 ∨ e = 7 := by simp at he hS; omega
    rcases this with rfl | rfl <;> simp [defaultConfig] <;> norm_num

/-- A fit that finds best points; the coefficients of order one are then excluded at the values found. -/
example : ∃ (a b : Input 64 5) (x v p x' : List ℝ) (n : ℕ), 1 ≤ n ∧ Spec.Feasible a.cfg [1, 2, 3, 4, 5] ∧
    Spec.Feasible b.cfg [1, 2, 3, 4, 5, 6, 7] ∧ Spec.MoreExcluded a.cfg b.cfg [1, 2, 3, 4, 5] [1, 2, 3, 4, 5, 6, 7] ∧
    b = { a with cfg := b.cfg, solver := b.solver } ∧
    Spec.BestPoint (Spec.resid a n) (dropAt [1, 2, 3, 4, 5] 0 (Spec.boundsMin a.cfg n))
      (dropAt [1, 2, 3, 4, 5] 0 (Spec.boundsMax a.cfg n)) x v ∧
    paramsComplete x (Spec.nK n) a.cfg = .ok p ∧ paramsComplete x' (Spec.nK n) b.cfg = .ok p ∧
    Spec.BestPoint (Spec.resid b n) (dropAt [1, 2, 3, 4, 5, 6, 7] 0 (Spec.boundsMin b.cfg n))
      (dropAt [1, 2, 3, 4, 5, 6, 7] 0 (Spec.boundsMax b.cfg n)) x' v := by
  obtain ⟨d, fs', h⟩ := centre_run
  have hd : sampleFs d = none := by
    rcases C45_directory _ _ _ _ h with ⟨i, hi, hdi, hdn, -⟩ | ⟨h1, -⟩
    · exact hdn
    · rw [h1]; simp [Spec.runDir, centreInput, sampleInput, sampleFs]
  have hf : Spec.Feasible centreInput.cfg [1, 2, 3, 4, 5] := default_feasible
  obtain ⟨-, -, x, v, -, -, hbest⟩ := best_stored centreInput _ hf centre_finds _ _ _ h (.inl hd) 2
    (by norm_num) (by simp [centreInput, sampleInput])
  obtain ⟨p, hp, hdx, hq1, hq2⟩ := full_vector hf (by norm_num) hbest.1
  have hp1 := complete_full hf (by norm_num) hp hq1
  rw [hdx] at hp1
  have hpl : p.length = 11 := hp
  set c : Config := { defaultConfig with excluded := [1, 2, 3, 4, 5, 6, 7], fixed := p.take 8 } with hc
  have hget : ∀ e < 8, c.fixed.getD e 0 = p.getD e 0 := by
    intro e he
    rw [List.getD_eq_getElem?_getD, List.getD_eq_getElem?_getD, hc]
    show ((p.take 8)[e]?).getD 0 = _
    rw [List.getElem?_take_of_lt he]
  have hg := C40_shipped [1, 2, 3, 4, 5, 6, 7] (by decide) (by decide)
  have hf' : Spec.Feasible c [1, 2, 3, 4, 5, 6, 7] :=
    ⟨rfl, hg.ascending, hg.below, by rw [hc, List.length_take, hpl]; rfl, rfl, rfl, rfl, hg.lt, hg.ge, hg.le⟩
  have h67 : ∀ e ∈ [1, 2, 3, 4, 5, 6, 7], e ∉ [1, 2, 3, 4, 5] → e < 8 ∧ e < 5 + Spec.nK 2 := by
    intro e he hS
    simp at he hS
    have : e < 8 := by omega
    exact ⟨this, by simp [Spec.nK]; omega⟩
  have hm : Spec.MoreExcluded centreInput.cfg c [1, 2, 3, 4, 5] [1, 2, 3, 4, 5, 6, 7] := by
    refine ⟨by decide, fun e he => ?_, rfl, rfl, fun e he hS => ?_, fun e he hS => ?_⟩
    · rw [hget e (by have := hf.below e he; omega), hq1 e he]
    · rw [hget e (h67 e he hS).1]
      have := (hq2 e (h67 e he hS).2 hS).1
      rw [Spec.boundsMin, getD_append_low _ _ _ (by rw [hf.boundMin]; exact (h67 e he hS).1)] at this
      exact this
    · rw [hget e (h67 e he hS).1]
      have := (hq2 e (h67 e he hS).2 hS).2
      rw [Spec.boundsMax, getD_append_low _ _ _ (by rw [hf.boundMax]; exact (h67 e he hS).1)] at this
      exact this
  obtain ⟨x', -, h2, h3⟩ := C113_at_best centreInput { centreInput with cfg := c } _ _ hf hf' hm rfl 2 (by norm_num) x v p
    hbest hp1 fun e he hS => hget e (h67 e he hS).1
  exact ⟨centreInput, { centreInput with cfg := c }, x, v, p, x', 2, by norm_num, hf, hf', hm, rfl, hbest, hp1, h2, h3⟩

/-- Two correlated parameters; the first one alone. -/
example : ∃ (res : Fin 3 → ℝ) (J : Matrix (Fin 3) (Fin 2) ℝ) (e : Fin 1 → Fin 2), Function.Injective e ∧
    (∀ v, J.mulVec v = 0 → v = 0) ∧ res ≠ 0 ∧ ∃ cov corr cov' corr', coMatrices res J 2 = .ok (some (cov, corr)) ∧
      coMatrices res (J.submatrix id e) 1 = .ok (some (cov', corr')) ∧ cov' 0 0 ≤ cov 0 0 := by
  have hr : ∀ v : Fin 2 → ℝ, (!![1, 0; 1, 1; 0, 1] : Matrix (Fin 3) (Fin 2) ℝ).mulVec v = 0 → v = 0 := by
    intro v hv
    have h0 := congrFun hv 0
    have h2 := congrFun hv 2
    simp [Matrix.mulVec, dotProduct, Fin.sum_univ_two] at h0 h2
    funext i
    fin_cases i
    · exact h0
    · exact h2
  have hres : (![1, 0, 0] : Fin 3 → ℝ) ≠ 0 := fun h => by simpa using congrFun h 0
  have he : Function.Injective fun _ : Fin 1 => (0 : Fin 2) := fun a b _ => Subsingleton.elim a b
  refine ⟨![1, 0, 0], !![1, 0; 1, 1; 0, 1], fun _ => 0, he, hr, hres, ?_⟩
  obtain ⟨cov, corr, cov', corr', h1, h2, h3, -⟩ := C113_errors ![1, 0, 0] !![1, 0; 1, 1; 0, 1] (fun _ : Fin 1 => 0) he 2 1
    (by norm_num) (by norm_num) hr hres
  exact ⟨cov, corr, cov', corr', h1, h2, h3 0⟩

/-- Two columns that are orthogonal. -/
example : ∃ (J : Matrix (Fin 3) (Fin 2) ℝ) (e : Fin 1 → Fin 2), Function.Injective e ∧
    (∀ v, J.mulVec v = 0 → v = 0) ∧ ∀ i j, (∀ i', e i' ≠ j) → ∑ r, J r (e i) * J r j = 0 := by
  refine ⟨!![1, 1; 1, -1; 0, 0], fun _ => 0, fun a b _ => Subsingleton.elim a b, fun v hv => ?_, fun i j hj => ?_⟩
  · have h0 := congrFun hv 0
    have h1 := congrFun hv 1
    simp [Matrix.mulVec, dotProduct, Fin.sum_univ_two] at h0 h1
    funext i
    fin_cases i
    · show v 0 = 0
      linarith
    · show v 1 = 0
      linarith
  · have : j = 1 := by
      have h := hj 0
      fin_cases j
      · exact absurd rfl h
      · rfl
    subst this
    simp [Fin.sum_univ_three]

end Verif.Props
