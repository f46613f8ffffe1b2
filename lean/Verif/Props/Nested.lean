import Verif.Props.BestFit
import Verif.Props.Contents
import Verif.Props.Header

/-! # C101: a higher order never fits worse -/

namespace Verif.Props

open Verif Verif.Np Verif.Zernike Verif.Aperture Verif.Core Verif.Fs Verif.Store Verif.Fit Finset

/-! ## Specification -/

/-- Among the points within the bounds where `f` can be evaluated, `x` has the smallest sum of squares; `v` is the value
there. -/
def Spec.BestPoint (f : List ℝ → Py (List ℝ)) (lo hi x v : List ℝ) : Prop :=
  Spec.Within lo hi x ∧ f x = .ok v ∧ ∀ x' v', Spec.Within lo hi x' → f x' = .ok v' → Spec.costL v ≤ Spec.costL v'

/-- The residual of a fit at the order `k`, a function of the fitted parameters. -/
noncomputable def Spec.resid {N M : ℕ} (a : Input N M) (k : ℕ) : List ℝ → Py (List ℝ) := fun p =>
  Core.residual p (Spec.nK k) a.beam a.u a.v a.dz a.wavel a.illum a.tel a.boxFactor a.cfg

/-- The optimiser finds a best point of each problem that the fit gives to it. -/
def Spec.FindsBest {N M : ℕ} (a : Input N M) : Prop :=
  ∀ k it lb ub r, 1 ≤ k → npDelete (Spec.boundsMin a.cfg k) a.cfg.excluded = .ok lb →
    npDelete (Spec.boundsMax a.cfg k) a.cfg.excluded = .ok ub →
    leastSquares a.solver (Spec.resid a k) it lb ub = .ok r →
    Spec.BestPoint (Spec.resid a k) lb ub (List.ofFn r.x) (List.ofFn r.fn)

/-- The sum of the squares of the numbers of a table. -/
noncomputable def Spec.sumSq (rows : List (List Fl)) : ℝ :=
  (rows.map fun row => (row.map fun x => match x with
    | .fin r => r ^ 2
    | _ => 0).sum).sum

/-! ## Zero coefficients of higher order -/

variable {N M : ℕ}

theorem nK_three {n : ℕ} (h : 1 ≤ n) : 3 ≤ Spec.nK n := nK_mono h

theorem pattern_extension (I K : List ℝ) (n m : ℕ) (hnm : n ≤ m) (hK : K.length = Spec.nK n) (dz wavel : ℝ)
    (illum : Illum (Fin N × Fin N)) (tel : TelGeo (Fin N × Fin N)) (bf : ℝ) :
    radiationPattern I (K ++ List.replicate (Spec.nK m - Spec.nK n) 0) dz wavel illum tel bf =
      radiationPattern I K dz wavel illum tel bf := by
  have e : Spec.nK m - Spec.nK n = (m + 1) * (m + 2) / 2 - K.length := by rw [hK]; rfl
  unfold radiationPattern aperture
  rw [e]
  simp only [C09_extension _ _ K n m hnm hK]

theorem residualTrue_extension (p : List ℝ) (n m : ℕ) (hnm : n ≤ m) (hp : p.length = 5 + Spec.nK n)
    (beam : Fin 3 × Fin M → Fl) (u v : Fin 3 × Fin M → ℝ) (dz : Fin 3 → ℝ) (wavel : ℝ)
    (illum : Illum (Fin N × Fin N)) (tel : TelGeo (Fin N × Fin N)) (bf : ℝ) :
    residualTrue (p ++ List.replicate (Spec.nK m - Spec.nK n) 0) beam u v dz wavel illum tel bf =
      residualTrue p beam u v dz wavel illum tel bf := by
  have e : ∀ i, modelRow (p ++ List.replicate (Spec.nK m - Spec.nK n) 0) u v dz wavel illum tel bf i =
      modelRow p u v dz wavel illum tel bf i := by
    intro i
    unfold modelRow
    rw [List.take_append_of_le_length (by omega), List.drop_append_of_le_length (by omega)]
    dsimp only
    rw [pattern_extension _ _ n m hnm (by rw [List.length_drop]; omega)]
  unfold residualTrue
  simp only [e]

theorem foldl_set_append (val : ℕ → ℝ) (S : List ℕ) (p q : List ℝ) (h : ∀ e ∈ S, e < p.length) :
    S.foldl (fun l e => l.set e (val e)) (p ++ q) = S.foldl (fun l e => l.set e (val e)) p ++ q := by
  induction S generalizing p with
  | nil => rfl
  | cons e S ih =>
    rw [List.foldl_cons, List.foldl_cons, List.set_append_left _ _ (h e List.mem_cons_self), ih _ fun e' he' => by
      rw [List.length_set]
      exact h e' (List.mem_cons_of_mem _ he')]

theorem bounds_append (S : List ℕ) (h7 : ∀ e ∈ S, e ≤ 7) (b : List ℝ) (hb : b.length = 8) (c : ℝ) {n m : ℕ} (hn : 1 ≤ n)
    (hnm : n ≤ m) :
    dropAt S 0 (b ++ List.replicate (Spec.nK m - 3) c) =
      dropAt S 0 (b ++ List.replicate (Spec.nK n - 3) c) ++ List.replicate (Spec.nK m - Spec.nK n) c := by
  have h1 := nK_three hn
  have h2 := nK_mono hnm
  have ha : ∀ l : List ℝ, dropAt S (0 + b.length) l = l := fun l =>
    dropAt_above S _ (fun e he => by have := h7 e he; omega) l
  rw [dropAt_append, dropAt_append, ha, ha, List.append_assoc, List.replicate_append_replicate]
  congr 2
  omega

/-- **C101.**  A vector of fitted parameters within the bounds of the order `n`, continued by zero coefficients, is within
the bounds of a higher order and has the same residual. -/
theorem C101_nested (cfg : Config) (S : List ℕ) (hf : Spec.Feasible cfg S) (n m : ℕ) (hn : 1 ≤ n) (hnm : n ≤ m) (x : List ℝ)
    (hx : Spec.Within (dropAt S 0 (Spec.boundsMin cfg n)) (dropAt S 0 (Spec.boundsMax cfg n)) x)
    (beam : Fin 3 × Fin M → Fl) (u v : Fin 3 × Fin M → ℝ) (dz : Fin 3 → ℝ) (wavel : ℝ)
    (illum : Illum (Fin N × Fin N)) (tel : TelGeo (Fin N × Fin N)) (bf : ℝ) :
    Spec.Within (dropAt S 0 (Spec.boundsMin cfg m)) (dropAt S 0 (Spec.boundsMax cfg m))
        (x ++ List.replicate (Spec.nK m - Spec.nK n) 0) ∧
      Core.residual (x ++ List.replicate (Spec.nK m - Spec.nK n) 0) (Spec.nK m) beam u v dz wavel illum tel bf cfg =
        Core.residual x (Spec.nK n) beam u v dz wavel illum tel bf cfg := by
  have h3 := nK_three hn
  have hle := nK_mono hnm
  have hnd : S.Nodup := hf.ascending.imp (fun h => ne_of_lt h)
  constructor
  · unfold Spec.boundsMin Spec.boundsMax
    rw [bounds_append S hf.below _ hf.boundMin _ hn hnm, bounds_append S hf.below _ hf.boundMax _ hn hnm]
    have key : ∀ (a b : ℝ) (j : ℕ), a ≤ b → List.Forall₂ (· ≤ ·) (List.replicate j a) (List.replicate j b) := by
      intro a b j h
      rw [List.forall₂_iff_get]
      simp [h]
    exact ⟨List.rel_append hx.1 (key _ _ _ (by norm_num)), List.rel_append hx.2 (key _ _ _ (by norm_num))⟩
  · have hlen : x.length + S.length = 5 + Spec.nK n := by
      have h1 := dropAt_length S (Spec.boundsMin cfg n) 0
      have h2 : (Spec.boundsMin cfg n).length = 5 + Spec.nK n := by
        unfold Spec.boundsMin
        rw [List.length_append, hf.boundMin, List.length_replicate]
        omega
      rw [h2, countP_range' S hnd _ (fun e he => by have := hf.below e he; omega), hx.1.length_eq] at h1
      exact h1
    obtain ⟨l, hl1, hl2⟩ := dropAt_surj S (5 + Spec.nK n) 0 x (by
      rw [countP_range' S hnd _ (fun e he => by have := hf.below e he; omega)]
      exact hlen)
    have hx' : x ++ List.replicate (Spec.nK m - Spec.nK n) 0 =
        dropAt S 0 (l ++ List.replicate (Spec.nK m - Spec.nK n) 0) := by
      rw [dropAt_append, hl2, dropAt_above S _ (fun e he => by have := hf.below e he; omega)]
    unfold Core.residual
    rw [hx', ← hl2, complete_delete cfg S hf.excluded hf.ascending hf.below hf.fixed _ h3 l hl1,
      complete_delete cfg S hf.excluded hf.ascending hf.below hf.fixed _ (h3.trans hle) _ (by
        rw [List.length_append, List.length_replicate, hl1]
        omega)]
    show residualTrue _ beam u v dz wavel illum tel bf = residualTrue _ beam u v dz wavel illum tel bf
    rw [foldl_set_append _ _ _ _ (fun e he => by have := hf.below e he; omega)]
    exact residualTrue_extension _ n m hnm (by rw [foldl_set_length, hl1]) beam u v dz wavel illum tel bf

/-- **C101.**  The smallest sum of squares that the parameters of a higher order can reach is not above that of a lower
one. -/
theorem C101_best (a : Input N M) (S : List ℕ) (hf : Spec.Feasible a.cfg S) (n m : ℕ) (hn : 1 ≤ n) (hnm : n ≤ m)
    (x v x' v' : List ℝ)
    (h : Spec.BestPoint (Spec.resid a n) (dropAt S 0 (Spec.boundsMin a.cfg n)) (dropAt S 0 (Spec.boundsMax a.cfg n)) x v)
    (h' : Spec.BestPoint (Spec.resid a m) (dropAt S 0 (Spec.boundsMin a.cfg m)) (dropAt S 0 (Spec.boundsMax a.cfg m))
      x' v') :
    Spec.costL v' ≤ Spec.costL v := by
  obtain ⟨h1, h2⟩ := C101_nested a.cfg S hf n m hn hnm x h.1 a.beam a.u a.v a.dz a.wavel a.illum a.tel a.boxFactor
  exact h'.2.2 _ _ h1 (h2.trans h.2.1)

theorem sumSq_grid (f : Fin (3 * M) → ℝ) (rows : List (List Fl))
    (h : Spec.Grid (fun (i : Fin 3) (j : Fin M) => .fin (f (finProdFinEquiv (i, j)))) rows) :
    Spec.sumSq rows = Spec.costL (List.ofFn f) := by
  unfold Spec.Grid at h
  rw [h]
  unfold Spec.sumSq Spec.costL
  rw [List.map_ofFn, List.map_ofFn, List.sum_ofFn, List.sum_ofFn]
  simp only [Function.comp_def, List.map_ofFn, List.sum_ofFn]
  rw [← Fintype.sum_prod_type' (f := fun (i : Fin 3) (j : Fin M) => f (finProdFinEquiv (i, j)) ^ 2)]
  exact Fintype.sum_equiv finProdFinEquiv _ _ fun q => rfl

/-- **C101.**  With an optimiser that finds best points, the residuals that a run stores do not grow with the order. -/
theorem C101_run (a : Input N M) (S : List ℕ) (hf : Spec.Feasible a.cfg S) (hb : Spec.FindsBest a)
    (fs fs' : FS Content) (d : Path) (h : (fitZpoly a).run fs = (.ok d, fs')) (hd : fs d = none ∨ isDir fs d) (k m : ℕ)
    (hk : 1 ≤ k) (hkm : k ≤ m) (hm : m ≤ a.orderMax) :
    ∃ t t' res res', fs' (Spec.file "res" k :: d) = some (.file (.csv t res)) ∧
      fs' (Spec.file "res" m :: d) = some (.file (.csv t' res')) ∧ Spec.sumSq res' ≤ Spec.sumSq res := by
  have get : ∀ j, 1 ≤ j → j ≤ a.orderMax → ∃ t res x v, fs' (Spec.file "res" j :: d) = some (.file (.csv t res)) ∧
      Spec.sumSq res = Spec.costL v ∧ Spec.BestPoint (Spec.resid a j) (dropAt S 0 (Spec.boundsMin a.cfg j))
        (dropAt S 0 (Spec.boundsMax a.cfg j)) x v := by
    intro j hj hj'
    obtain ⟨names, fit, init, it, lb, ub, r, co, hdr, ph, res, jac, grad, phi, cov, cor, -, -, h1, h2, h3, -, -, -, -, -,
      h4, h5, -⟩ := C67_provenance a fs fs' d h hd j hj hj'
    have h3' := nK_three hj
    refine ⟨_, res, List.ofFn r.x, List.ofFn r.fn, h4, sumSq_grid _ _ h5, ?_⟩
    have := hb j it lb ub r hj h1 h2 h3
    rw [hf.excluded, npDelete_ok _ _ fun e he => by
      have := hf.below e he
      simp only [Spec.boundsMin, List.length_append, hf.boundMin]
      omega] at h1
    rw [hf.excluded, npDelete_ok _ _ fun e he => by
      have := hf.below e he
      simp only [Spec.boundsMax, List.length_append, hf.boundMax]
      omega] at h2
    cases h1
    cases h2
    exact this
  obtain ⟨t, res, x, v, h1, h2, h3⟩ := get k hk (hkm.trans hm)
  obtain ⟨t', res', x', v', h4, h5, h6⟩ := get m (hk.trans hkm) hm
  refine ⟨t, t', res, res', h1, h4, ?_⟩
  rw [h2, h5]
  exact C101_best a S hf k m hk hkm x v x' v' h3 h6

/-! ## The hypotheses are met -/

/-- All the points of the maps lie at the pointing centre, so no parameter changes the residual. -/
noncomputable def centreRes : Fin 15 → ℝ := fun i => ((i % 5 : ℕ) : ℝ) / 4

noncomputable def centreSolver : Solver 15 := fun _ x0 _ _ =>
  .ok ⟨fun i => x0.get i, centreRes, fun i j => if i.val = j.val then 1 else 0, fun _ => 0⟩

noncomputable def centreInput : Input 64 5 :=
  { sampleInput with u := fun _ => 0, v := fun _ => 0, solver := centreSolver }

theorem centre_resid (k : ℕ) (hk : 1 ≤ k) (x : List ℝ) (hx : x.length = Spec.nK k) :
    Spec.resid centreInput k x = .ok (List.ofFn centreRes) := by
  have h3 := nK_three hk
  obtain ⟨l, hl1, hl2⟩ := dropAt_surj [1, 2, 3, 4, 5] (5 + Spec.nK k) 0 x (by
    rw [countP_range' _ (by decide) _ (by simp; omega)]
    simp [hx]; omega)
  unfold Spec.resid Core.residual
  have hf := default_feasible
  rw [← hl2, show centreInput.cfg = defaultConfig from rfl,
    complete_delete defaultConfig _ hf.excluded hf.ascending hf.below hf.fixed _ h3 l hl1]
  show residualTrue _ _ _ _ _ _ _ _ _ = _
  set p := [1, 2, 3, 4, 5].foldl (fun q e => q.set e (defaultConfig.fixed.getD e 0)) l with hp
  have hpl : p.length = 5 + Spec.nK k := by rw [hp, foldl_set_length, hl1]
  have hrow : ∀ i, ∃ c, modelRow p centreInput.u centreInput.v centreInput.dz centreInput.wavel centreInput.illum
      centreInput.tel centreInput.boxFactor i = .ok fun _ => c := by
    intro i
    have hP : ∃ P, radiationPattern (p.take 5) (p.drop 5) (centreInput.dz i) centreInput.wavel centreInput.illum
        centreInput.tel centreInput.boxFactor = .ok P := by
      rw [radiationPattern_eq _ _ _ _ (by norm_num)]
      unfold aperture
      rw [wavefront_ok _ _ _ k (by rw [List.length_drop, hpl, Nat.add_sub_cancel_left]; rfl)]
      exact ⟨_, rfl⟩
    obtain ⟨P, hP⟩ := hP
    have hax := C14_axes _ _ _ _ _ _ _ _ P (by norm_num [centreInput, sampleInput]) (by norm_num [centreInput, sampleInput])
      (by norm_num [centreInput, sampleInput]) hP
    have h0 := hax.2.2.1 ⟨32, by norm_num⟩ rfl
    refine ⟨evalLinear P.u P.v (fun q => ‖P.F (q.2, q.1)‖ ^ 2) 0 0, modelRow_ok.2 ⟨P, hP, (interpolator_ok_iff _ _ _ _ _).2 ⟨⟨hax.2.1, hax.1 ▸ hax.2.1⟩, fun j => ?_, rfl⟩⟩⟩
    rw [← hax.1]
    exact ⟨⟨⟨_, h0.le⟩, _, h0.ge⟩, ⟨_, h0.le⟩, _, h0.ge⟩
  choose c hc using hrow
  obtain ⟨nd, hd1, hd2⟩ := C27_axis1 (by norm_num : 0 < 5) centreInput.beam
  obtain ⟨nm, hm1, hm2⟩ := C27_axis1 (by norm_num : 0 < 5) (fun q : Fin 3 × Fin 5 => Fl.fin (c q.1))
  rw [residualTrue_ok.2 ⟨fun i _ => c i, hc, nd, nm, hd1, hm1, rfl⟩]
  congr 1
  have e1 : ∀ i j, nm (i, j) = 0 := by
    intro i j
    have := (C27_constant (ι := Fin 5) (c i)).symm.trans (hm2 i)
    exact (congrFun (Except.ok.inj this) j).symm
  have e2 : ∀ i j, nd (i, j) = ((j : ℕ) : ℝ) / 4 := by
    intro i j
    have := hd2 i
    rw [show (fun j => centreInput.beam (i, j)) = fun j : Fin 5 => Fl.fin (((j : ℕ) : ℝ)) from rfl,
      C27_value _ 0 4 (by intro q; simp) (by
        intro q
        have := q.isLt
        have h4 : ((q : ℕ) : ℝ) ≤ ((4 : ℕ) : ℝ) := by exact_mod_cast (by omega : (q : ℕ) ≤ 4)
        simpa using h4) (by simp)] at this
    rw [← congrFun (Except.ok.inj this) j]
    simp
  refine List.ext_getElem? fun n => ?_
  rcases Nat.lt_or_ge n 15 with hn | hn
  · have h := flatten3_getElem (fun q : Fin 3 × Fin 5 => nd q - nm q) ⟨n / 5, by omega⟩ ⟨n % 5, by omega⟩
    rw [show n / 5 * 5 + n % 5 = n by omega, e1, e2, sub_zero] at h
    rw [h, List.getElem?_ofFn, dif_pos hn]
    rfl
  · rw [List.getElem?_eq_none (by rw [flatten3_length]; omega), List.getElem?_eq_none (by simpa using hn)]

theorem centre_finds : Spec.FindsBest centreInput := by
  intro k it lb ub r hk h1 h2 h
  have hf := default_feasible
  have h3 := nK_three hk
  have hlb : lb.length = Spec.nK k := by
    rw [show centreInput.cfg = defaultConfig from rfl, hf.excluded, npDelete_ok _ _ fun e he => by
      have := hf.below e he
      simp only [Spec.boundsMin, List.length_append, hf.boundMin]
      omega] at h1
    cases h1
    have := dropAt_length [1, 2, 3, 4, 5] (Spec.boundsMin defaultConfig k) 0
    rw [countP_range' _ (by decide) _ fun e he => by
      have := hf.below e he
      simp only [Spec.boundsMin, List.length_append, hf.boundMin]
      omega] at this
    simp only [Spec.boundsMin, List.length_append, hf.boundMin, List.length_replicate, List.length_cons, List.length_nil]
      at this ⊢
    omega
  unfold leastSquares at h
  split_ifs at h with g1 g2 g3
  cases h
  push Not at g1
  simp only [List.get_eq_getElem, List.ofFn_getElem]
  exact ⟨⟨g3.1, g3.2⟩, centre_resid k hk _ (by rw [← g1.1, hlb]), fun x' v' hx' hv' => by
    rw [centre_resid k hk x' (by rw [← hx'.1.length_eq, hlb])] at hv'
    cases hv'
    exact le_rfl⟩

theorem centre_run : ∃ d fs', (fitZpoly centreInput).run sampleFs = (.ok d, fs') := by
  refine C40_completes centreInput [1, 2, 3, 4, 5] default_feasible (fun f x0 lb ub r hp h => ?_)
    (fun f x0 lb ub hp hl => ⟨_, rfl, fun v hv => ?_, ?_⟩) (by simp [Spec.nK, centreInput, sampleInput])
    (fun _ => ⟨_, rfl⟩) sampleFs sampleFs_wf (by simp [centreInput, sampleInput, sampleFs, isDir])
    (.inl (by simp [centreInput, sampleInput, sampleFs]))
    (.inl ⟨0, by omega, by simp [Spec.runDir, centreInput, sampleInput, sampleFs]⟩)
  · cases h
    simp only [List.get_eq_getElem, List.ofFn_getElem]
    exact ⟨hp.2.2.2.1, hp.2.2.2.2⟩
  · funext j
    have := congrFun hv ⟨j.val, by omega⟩
    simpa [Matrix.mulVec, dotProduct, Fin.val_inj] using this
  · intro h
    have := congrFun h ⟨1, by norm_num⟩
    simp [centreRes] at this

example : ∃ d fs' t t' res res', (fitZpoly centreInput).run sampleFs = (.ok d, fs') ∧
    fs' (Spec.file "res" 1 :: d) = some (.file (.csv t res)) ∧
    fs' (Spec.file "res" 2 :: d) = some (.file (.csv t' res')) ∧ Spec.sumSq res' ≤ Spec.sumSq res := by
  obtain ⟨d, fs', h⟩ := centre_run
  have hd : sampleFs d = none := by
    rcases C45_directory _ _ _ _ h with ⟨i, hi, hdi, hdn, -⟩ | ⟨h1, -⟩
    · exact hdn
    · rw [h1]; simp [Spec.runDir, centreInput, sampleInput, sampleFs]
  obtain ⟨t, t', res, res', h1, h2, h3⟩ := C101_run centreInput _ default_feasible centre_finds _ _ _ h (.inl hd) 1 2 le_rfl
    (by norm_num) (by simp [centreInput, sampleInput])
  exact ⟨d, fs', t, t', res, res', h, h1, h2, h3⟩

end Verif.Props
