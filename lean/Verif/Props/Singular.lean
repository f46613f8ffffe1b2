import Verif.Props.FitStart
import Verif.Props.Residual
import Verif.Props.Header

/-!
# Perfect fits (C82); parameters the beam maps do not determine (C83)
-/

namespace Verif.Props

open Verif Verif.Np Verif.Fs Verif.Aperture Verif.MathFn Verif.Core Verif.Fit Verif.Store

/-- What is assumed of the optimiser: the solution is above the lower bounds (the `trf` method keeps its
iterates strictly inside), the residual returned is that of the solution, and the Jacobian has a zero
column for a parameter on which the residual does not depend near the solution. -/
def Spec.TrueJac {m : ℕ} (solver : Solver m) : Prop :=
  ∀ f x0 lb ub r, solver f x0 lb ub = .ok r →
    (∀ (i : Fin x0.length) lo, lb[(i : ℕ)]? = some lo → lo < r.x i) ∧
    f (List.ofFn r.x) = .ok (List.ofFn r.fn) ∧
    ∀ c, (∃ ε > 0, ∀ t, |t| < ε →
      f (List.ofFn (Function.update r.x c (r.x c + t))) = f (List.ofFn r.x)) → ∀ k, r.jac k c = 0

/-! ## Positions -/

/-- The place of the parameter at position `k + e` among those kept. -/
def keptPlace (S : List ℕ) (k e : ℕ) : ℕ := (List.range' k e).countP (· ∉ S)

theorem keptPlace_succ (S : List ℕ) (k e : ℕ) :
    keptPlace S k (e + 1) = keptPlace S (k + 1) e + if k ∈ S then 0 else 1 := by
  unfold keptPlace
  rw [List.range'_succ, List.countP_cons]
  by_cases h : k ∈ S <;> simp [h]

theorem dropAt_get {α : Type} (S : List ℕ) (k : ℕ) (p : List α) (e : ℕ) (h : k + e ∉ S) :
    (dropAt S k p)[keptPlace S k e]? = p[e]? := by
  induction p generalizing k e with
  | nil => simp [dropAt]
  | cons a p ih =>
    cases e with
    | zero => simp [dropAt, show k ∉ S from h, keptPlace]
    | succ e =>
      have := ih (k + 1) e (by rwa [show k + 1 + e = k + (e + 1) by omega])
      rw [keptPlace_succ]
      by_cases hk : k ∈ S <;> simp [dropAt, hk, this]

theorem dropAt_set {α : Type} (S : List ℕ) (k : ℕ) (p : List α) (e : ℕ) (h : k + e ∉ S) (t : α) :
    (dropAt S k p).set (keptPlace S k e) t = dropAt S k (p.set e t) := by
  induction p generalizing k e with
  | nil => simp [dropAt]
  | cons a p ih =>
    cases e with
    | zero => simp [dropAt, show k ∉ S from h, keptPlace]
    | succ e =>
      have := ih (k + 1) e (by rwa [show k + 1 + e = k + (e + 1) by omega])
      rw [keptPlace_succ]
      by_cases hk : k ∈ S <;> simp [dropAt, hk, this]

theorem foldl_set_set {α : Type} (val : ℕ → α) (S : List ℕ) (p : List α) (e : ℕ) (he : e ∉ S) (t : α) :
    S.foldl (fun q e => q.set e (val e)) (p.set e t) =
      (S.foldl (fun q e => q.set e (val e)) p).set e t := by
  induction S generalizing p with
  | nil => rfl
  | cons b S ih =>
    rw [List.mem_cons, not_or] at he
    rw [List.foldl_cons, List.foldl_cons, ← ih _ he.2, List.set_comm _ _ he.1]

theorem ofFn_update {α : Type} {n : ℕ} (x : Fin n → α) (c : Fin n) (t : α) :
    List.ofFn (Function.update x c t) = (List.ofFn x).set c t := by
  apply List.ext_getElem
  · simp
  · intro i h1 h2
    rw [List.getElem_set]
    simp only [List.getElem_ofFn, Function.update_apply, Fin.ext_iff]
    split_ifs with h h' h' <;> first | rfl | exact absurd h.symm h' | exact absurd h'.symm h

/-- A fitted parameter and its place in the complete vector. -/
theorem complete_update {cfg : Config} {S : List ℕ}
    (hex : cfg.excluded = S.map (fun e : ℕ => (e : ℤ))) (hS : S.Pairwise (· < ·))
    (h7 : ∀ e ∈ S, e ≤ 7) (hf : cfg.fixed.length = 8) {nK : ℕ} (hK : 3 ≤ nK) {q : ℕ}
    (hq : q + S.length = 5 + nK) (x : Fin q → ℝ) :
    ∃ full, paramsComplete (List.ofFn x) nK cfg = .ok full ∧ full.length = 5 + nK ∧
      (∀ e ∈ S, full[e]? = cfg.fixed[e]?) ∧
      ∀ e < 5 + nK, e ∉ S → ∃ c : Fin q, (c : ℕ) = keptPlace S 0 e ∧ full[e]? = some (x c) ∧
        ∀ t, paramsComplete (List.ofFn (Function.update x c t)) nK cfg = .ok (full.set e t) := by
  have hnd : S.Nodup := hS.imp (fun h => ne_of_lt h)
  obtain ⟨p, hp1, hp2⟩ := dropAt_surj S (5 + nK) 0 (List.ofFn x) (by
    rw [countP_range' S hnd _ (fun e he => by have := h7 e he; omega)]
    simpa using hq)
  refine ⟨_, by rw [← hp2]; exact complete_delete cfg S hex hS h7 hf nK hK p hp1,
    by rw [foldl_set_length, hp1], fun e he => ?_, fun e he heS => ?_⟩
  · have := h7 e he
    rw [foldl_set_get _ _ _ _ (by omega), if_pos he]
    have h8 : e < cfg.fixed.length := by omega
    simp [h8]
  · have hg := dropAt_get S 0 p e (by simpa using heS)
    rw [hp2, List.getElem?_eq_getElem (by omega : e < p.length)] at hg
    have hlt : keptPlace S 0 e < q := by
      have := (List.getElem?_eq_some_iff.1 hg).1
      simpa using this
    refine ⟨⟨_, hlt⟩, rfl, ?_, fun t => ?_⟩
    · rw [foldl_set_get _ _ _ _ (by omega), if_neg heS, List.getElem?_eq_getElem (by omega), ← hg]
      simp [hlt]
    · rw [ofFn_update, ← hp2, dropAt_set S 0 p e (by simpa using heS),
        complete_delete cfg S hex hS h7 hf nK hK _ (by rw [List.length_set, hp1]),
        foldl_set_set _ _ _ _ heS]

/-! ## The fit -/

theorem solveOrder_singular {N M : ℕ} (a : Input N M) (S : List ℕ) (hf : Spec.Feasible a.cfg S)
    (hJ : Spec.TrueJac a.solver) (n : ℕ) (hn : 1 ≤ n) (init : List ℝ)
    (hi : init.length = 5 + Spec.nK n) (e : ℕ) (he : e < 8) (heS : e ∉ S)
    (hflat : ∀ (full : List ℝ) (x : ℝ), full.length = 5 + Spec.nK n → full[e]? = some x →
      (∀ k < 8, k ∉ S → a.cfg.boundMin.getD k 0 < full.getD k 0) →
      (∀ k ∈ S, full[k]? = a.cfg.fixed[k]?) →
      ∃ ε > 0, ∀ t, |t| < ε → ∀ r,
        residualTrue full a.beam a.u a.v a.dz a.wavel a.illum a.tel a.boxFactor = .ok r →
        residualTrue (full.set e (x + t)) a.beam a.u a.v a.dz a.wavel a.illum a.tel a.boxFactor = .ok r)
    (out : OrderOut) : solveOrder a n init ≠ .ok out := by
  intro h
  have hK : 3 ≤ Spec.nK n := by
    unfold Spec.nK
    have : 2 * 3 ≤ (n + 1) * (n + 2) := Nat.mul_le_mul (by omega) (by omega)
    omega
  have hnd : S.Nodup := hf.ascending.imp (fun h => ne_of_lt h)
  have d1 := npDelete_ok init S (fun x hx => by have := hf.below x hx; omega)
  have d2 := npDelete_ok (a.cfg.boundMin ++ List.replicate (Spec.nK n - 3) (-5)) S (fun x hx => by
    have := hf.below x hx
    rw [List.length_append, hf.boundMin]; omega)
  have d3 := npDelete_ok (a.cfg.boundMax ++ List.replicate (Spec.nK n - 3) 5) S (fun x hx => by
    have := hf.below x hx
    rw [List.length_append, hf.boundMax]; omega)
  unfold solveOrder at h
  dsimp only at h
  simp only [show (n + 1) * (n + 2) / 2 = Spec.nK n from rfl] at h
  rw [hf.excluded, d1, d2, d3] at h
  simp only [bind, Except.bind] at h
  split at h
  · cases h
  rename_i r hr
  unfold leastSquares at hr
  split_ifs at hr
  obtain ⟨hlo, hfn, hcol⟩ := hJ _ _ _ _ _ hr
  have hq : (dropAt S 0 init).length + S.length = 5 + Spec.nK n := by
    have := dropAt_length S init 0
    rw [hi, countP_range' S hnd _ (fun e he => by have := hf.below e he; omega)] at this
    exact this
  obtain ⟨full, c1, c2, c3, c4⟩ := complete_update hf.excluded hf.ascending hf.below hf.fixed hK hq r.x
  obtain ⟨c, -, c6, c7⟩ := c4 e (by omega) heS
  have hb : ∀ k < 8, k ∉ S → a.cfg.boundMin.getD k 0 < full.getD k 0 := by
    intro k hk hkS
    obtain ⟨ck, e1, e2, -⟩ := c4 k (by omega) hkS
    have h3 := dropAt_get S 0 (a.cfg.boundMin ++ List.replicate (Spec.nK n - 3) (-5)) k (by simpa using hkS)
    have hkl : k < a.cfg.boundMin.length := by rw [hf.boundMin]; exact hk
    rw [← e1, List.getElem?_append_left hkl, List.getElem?_eq_getElem hkl] at h3
    have h4 := hlo ck _ h3
    rw [List.getD, List.getD, e2, List.getElem?_eq_getElem hkl]
    exact h4
  obtain ⟨ε, hε, hfl⟩ := hflat full (r.x c) c2 c6 hb c3
  have hres : residualTrue full a.beam a.u a.v a.dz a.wavel a.illum a.tel a.boxFactor =
      .ok (List.ofFn r.fn) := by
    have := hfn
    unfold Core.residual at this
    rwa [c1] at this
  have hzero := hcol c ⟨ε, hε, fun t ht => by
    rw [hfn]
    unfold Core.residual
    rw [c7]
    exact hfl t ht _ hres⟩
  have hco := C31_zero_column r.fn r.jac (dropAt S 0 init).length c hzero
  rw [c1] at h
  simp only [hco] at h
  cases h

theorem trace_noFile {C α : Type} {p : Prog C α} (hp : Puts (fun _ => False) p) {fs fs' : FS C}
    (h : fs' ∈ p.trace fs) {q : Path} {c : C} (hq : fs' q = some (.file c)) : fs q = some (.file c) := by
  induction p generalizing fs with
  | ret a => simp only [Prog.trace, List.mem_singleton] at h; rw [← h, hq]
  | raise e => simp only [Prog.trace, List.mem_singleton] at h; rw [← h, hq]
  | op o k ih =>
    simp only [Prog.trace, List.mem_cons] at h
    rcases h with h | h
    · rw [← h, hq]
    · have h1 := ih _ (hp.2 _) h
      cases ho : fs q with
      | some x =>
        rw [← ho, ← h1]
        exact (exec_mkdir_frame fs o q (fun c hc => hp.1 q c hc) (by rw [ho]; rfl)).symm
      | none =>
        exfalso
        cases o with
        | put p c => exact hp.1 p c rfl
        | present p => simp_all [exec]
        | isDir p => simp_all [exec]
        | mkdir p =>
          simp only [exec] at h1
          split at h1
          · simp only [update] at h1
            split at h1 <;> simp_all
          · simp_all
        | read p =>
          simp only [exec] at h1
          split at h1 <;> simp_all

/-- The optimisation of the first order fails: the program has stored nothing. -/
theorem fit_stops {N M : ℕ} (a : Input N M) (hn : 1 ≤ a.orderMax)
    (h : ∀ out, solveOrder a 1 (a.cfg.init ++ List.replicate (Spec.nK 1 - 3) 0.1) ≠ .ok out)
    (fs : FS Content) :
    (∃ e, ((fitZpoly a).run fs).1 = .error e) ∧
    ∀ fs' ∈ (fitZpoly a).trace fs, ∀ p c, fs' p = some (.file c) → fs p = some (.file c) := by
  obtain ⟨e, he⟩ : ∃ e, solveOrder a 1 (a.cfg.init ++ List.replicate (Spec.nK 1 - 3) 0.1) = .error e := by
    cases hs : solveOrder a 1 (a.cfg.init ++ List.replicate (Spec.nK 1 - 3) 0.1) with
    | error e => exact ⟨e, rfl⟩
    | ok out => exact absurd hs (h out)
  obtain ⟨k, hk⟩ : ∃ k, a.orderMax = k + 1 := ⟨a.orderMax - 1, by omega⟩
  have hstart : ∀ d, startVector a d 1 = .ret (a.cfg.init ++ List.replicate (Spec.nK 1 - 3) 0.1) := by
    intro d
    unfold startVector
    simp [Spec.nK]
  have hloop : ∀ snrs d, fitLoop a snrs d 1 a.orderMax = .raise e := by
    intro snrs d
    rw [hk, fitLoop]
    unfold fitOrder
    rw [hstart]
    simp only [Prog.ret_bind, he, Prog.lift_error, Prog.raise_bind]
  have hp : Puts (fun _ => False) (fitZpoly a) := by
    unfold fitZpoly
    refine puts_bind (puts_allocDir _ _) fun d => puts_bind (puts_lift _) fun s0 =>
      puts_bind (puts_lift _) fun s1 => puts_bind (puts_lift _) fun s2 => ?_
    rw [hloop]
    trivial
  refine ⟨?_, fun fs' hfs p c hc => trace_noFile hp hfs hc⟩
  cases hr : (fitZpoly a).run fs with
  | mk r fs' =>
    cases r with
    | error e' => exact ⟨e', rfl⟩
    | ok d =>
      obtain ⟨fs1, s0, s1, s2, -, -, -, -, h2⟩ := fitZpoly_ok hr
      rw [hloop] at h2
      cases h2

/-- **C83.**  The amplitude of the illumination among the fitted parameters, as in the configuration that
comes with the package: the beam maps do not determine it, the covariance of the fit does not exist, and
`fit_zpoly` ends in an exception before anything is stored. -/
theorem C83_amplitude {N M : ℕ} (a : Input N M) (S : List ℕ) (hf : Spec.Feasible a.cfg S)
    (hJ : Spec.TrueJac a.solver) (h0 : 0 ∉ S) (hb : 0 ≤ a.cfg.boundMin.getD 0 0)
    (hq : if 2 ∈ S then 0 ≤ a.cfg.fixed.getD 2 0 else 0 ≤ a.cfg.boundMin.getD 2 0)
    (hI : ∀ rest : List ℝ, rest.length = 4 → 0 ≤ rest.getD 1 0 → Spec.propAmp a.illum a.tel.pr rest)
    (hn : 1 ≤ a.orderMax) (fs : FS Content) :
    (∃ e, ((fitZpoly a).run fs).1 = .error e) ∧
    ∀ fs' ∈ (fitZpoly a).trace fs, ∀ p c, fs' p = some (.file c) → fs p = some (.file c) := by
  refine fit_stops a hn (solveOrder_singular a S hf hJ 1 le_rfl _ (by simp [hf.init, Spec.nK]) 0 (by omega)
    h0 ?_) fs
  intro full x hl hx hlo hfix
  obtain ⟨rest, Ks, hr, rfl⟩ : ∃ rest Ks : List ℝ, rest.length = 4 ∧ full = x :: rest ++ Ks := by
    cases full with
    | nil => simp at hx
    | cons y t =>
      simp only [List.getElem?_cons_zero, Option.some.injEq] at hx
      subst hx
      refine ⟨t.take 4, t.drop 4, ?_, by simp⟩
      simp [Spec.nK] at hl ⊢
      omega
  have hx0 : 0 < x := by
    have := hlo 0 (by omega) h0
    simp only [List.cons_append, List.getD_cons_zero] at this
    linarith
  have hq2 : 0 ≤ rest.getD 1 0 := by
    have e1 : rest.getD 1 0 = (x :: rest ++ Ks).getD 2 0 := by
      match rest, hr with
      | [_, _, _, _], _ => rfl
    rw [e1]
    split_ifs at hq with h2
    · rw [List.getD, hfix 2 h2]
      exact hq
    · exact hq.trans (hlo 2 (by omega) h2).le
  refine ⟨x, hx0, fun t ht r h => ?_⟩
  have hne : x + t ≠ 0 := by
    have := abs_lt.1 ht
    have : 0 < x + t := by linarith
    exact this.ne'
  have := C18_residual x ((x + t) / x) (div_ne_zero hne hx0.ne') rest Ks hr a.beam a.u a.v a.dz a.wavel
    a.illum a.tel a.boxFactor (fun X Y Ea hE => hI rest hr hq2 X Y x _ Ea hE) r h
  rwa [div_mul_cancel₀ _ hx0.ne'] at this

/-- **C83.**  The piston among the fitted parameters: the same, for every illumination. -/
theorem C83_piston {N M : ℕ} (a : Input N M) (S : List ℕ) (hf : Spec.Feasible a.cfg S)
    (hJ : Spec.TrueJac a.solver) (h5 : 5 ∉ S) (hn : 1 ≤ a.orderMax) (fs : FS Content) :
    (∃ e, ((fitZpoly a).run fs).1 = .error e) ∧
    ∀ fs' ∈ (fitZpoly a).trace fs, ∀ p c, fs' p = some (.file c) → fs p = some (.file c) := by
  refine fit_stops a hn (solveOrder_singular a S hf hJ 1 le_rfl _ (by simp [hf.init, Spec.nK]) 5 (by omega)
    h5 ?_) fs
  intro full x hl hx _ _
  obtain ⟨I, Ks, hI, rfl⟩ : ∃ I Ks : List ℝ, I.length = 5 ∧ full = I ++ x :: Ks := by
    refine ⟨full.take 5, full.drop 6, ?_, ?_⟩
    · simp [hl]
    · obtain ⟨h1, h2⟩ := List.getElem?_eq_some_iff.1 hx
      rw [← h2, ← List.drop_eq_getElem_cons h1, List.take_append_drop]
  refine ⟨1, one_pos, fun t _ r h => ?_⟩
  have := C17_residual I Ks hI x t a.beam a.u a.v a.dz a.wavel a.illum a.tel a.boxFactor r h
  have e1 : (I ++ x :: Ks).set 5 (x + t) = I ++ (x + t) :: Ks := by
    rw [← hI, List.set_append_right _ _ le_rfl]
    simp
  rwa [e1]

/-- **C83.**  The configuration of the package with the illumination functions of the package. -/
theorem C83_default {N M : ℕ} (a : Input N M) (hc : a.cfg = defaultConfig)
    (hill : a.illum = illumGauss ∨ a.illum = illumParabolic ∧ a.tel.pr ≠ 0)
    (hJ : Spec.TrueJac a.solver) (hn : 1 ≤ a.orderMax) (fs : FS Content) :
    (∃ e, ((fitZpoly a).run fs).1 = .error e) ∧
    ∀ fs' ∈ (fitZpoly a).trace fs, ∀ p c, fs' p = some (.file c) → fs p = some (.file c) := by
  refine C83_amplitude a [1, 2, 3, 4, 5] (hc ▸ default_feasible) hJ (by decide)
    (by rw [hc]; simp [defaultConfig]) (by rw [hc]; simp [defaultConfig]; norm_num) ?_ hn fs
  intro rest hr hq
  rcases hill with h | ⟨h, hpr⟩
  · rw [h]; exact (C18_illum _ rest hr).1
  · rw [h]; exact (C18_illum _ rest hr).2 hpr hq

/-- **C82.**  A fit that reproduces the maps exactly (as it can for noise-free simulated maps): the
covariance is zero, the correlation does not exist, and `fit_zpoly` ends in an exception before anything is
stored. -/
theorem C82_perfect_fit {N M : ℕ} (a : Input N M) (S : List ℕ) (hf : Spec.Feasible a.cfg S)
    (hz : ∀ f x0 lb ub r, a.solver f x0 lb ub = .ok r → r.fn = 0)
    (hS : S.length < 8) (hM : 8 < 3 * M + S.length) (hn : 1 ≤ a.orderMax) (fs : FS Content) :
    (∃ e, ((fitZpoly a).run fs).1 = .error e) ∧
    ∀ fs' ∈ (fitZpoly a).trace fs, ∀ p c, fs' p = some (.file c) → fs p = some (.file c) := by
  refine fit_stops a hn (fun out h => ?_) fs
  have hnd : S.Nodup := hf.ascending.imp (fun h => ne_of_lt h)
  have hi : (a.cfg.init ++ List.replicate (Spec.nK 1 - 3) 0.1).length = 8 := by simp [hf.init, Spec.nK]
  have d1 := npDelete_ok (a.cfg.init ++ List.replicate (Spec.nK 1 - 3) 0.1) S (fun x hx => by
    have := hf.below x hx; omega)
  have d2 := npDelete_ok (a.cfg.boundMin ++ List.replicate (Spec.nK 1 - 3) (-5)) S (fun x hx => by
    have := hf.below x hx
    rw [List.length_append, hf.boundMin]; omega)
  have d3 := npDelete_ok (a.cfg.boundMax ++ List.replicate (Spec.nK 1 - 3) 5) S (fun x hx => by
    have := hf.below x hx
    rw [List.length_append, hf.boundMax]; omega)
  have hq : (dropAt S 0 (a.cfg.init ++ List.replicate (Spec.nK 1 - 3) 0.1)).length + S.length = 8 := by
    have := dropAt_length S (a.cfg.init ++ List.replicate (Spec.nK 1 - 3) 0.1) 0
    rw [hi, countP_range' S hnd _ (fun e he => by have := hf.below e he; omega)] at this
    exact this
  unfold solveOrder at h
  dsimp only at h
  simp only [show (1 + 1) * (1 + 2) / 2 = Spec.nK 1 from rfl] at h
  rw [hf.excluded, d1, d2, d3] at h
  simp only [bind, Except.bind] at h
  split at h
  · cases h
  rename_i r hr
  unfold leastSquares at hr
  split_ifs at hr
  have hfn := hz _ _ _ _ _ hr
  obtain ⟨full, c1, -⟩ := complete_update hf.excluded hf.ascending hf.below hf.fixed (nK := Spec.nK 1)
    (by simp [Spec.nK]) (by simpa [Spec.nK] using hq) r.x
  have hco := C31_zero_residual r.jac (dropAt S 0 (a.cfg.init ++ List.replicate (Spec.nK 1 - 3) 0.1)).length
    (by omega) (by omega)
  rw [show (fun _ => (0 : ℝ)) = r.fn from hfn.symm] at hco
  rw [c1] at h
  simp only [hco] at h
  cases h

example (fs : FS Content) : ∃ e, ((fitZpoly { sampleInput with
    solver := fun _ x0 _ _ => .ok ⟨x0.get, 0, 0, 0⟩ }).run fs).1 = .error e :=
  (C82_perfect_fit _ [1, 2, 3, 4, 5] default_feasible (fun _ _ _ _ _ h => by cases h; rfl) (by decide)
    (by decide) (by simp [sampleInput]) fs).1

/-! ## An optimiser of this kind -/

/-- The Jacobian at the start vector, if that is above the lower bounds. -/
noncomputable def derivSolver (m : ℕ) : Solver m := fun f x0 lb _ => open Classical in
  if ∀ (i : Fin x0.length) lo, lb[(i : ℕ)]? = some lo → lo < x0.get i then
    match f x0 with
    | .error e => .error e
    | .ok l =>
      if hl : l.length = m then
        .ok ⟨x0.get, fun k => l.get (k.cast hl.symm),
          fun k c => deriv (fun t => match f (List.ofFn (Function.update x0.get c (x0.get c + t))) with
            | .ok l' => l'.getD k 0
            | .error _ => 0) 0, fun _ => 0⟩
      else .error .valueError
  else .error .valueError

theorem derivSolver_trueJac (m : ℕ) : Spec.TrueJac (derivSolver m) := by
  intro f x0 lb ub r h
  unfold derivSolver at h
  split_ifs at h with h1
  have hx : List.ofFn x0.get = x0 := List.ofFn_get x0
  split at h
  · cases h
  rename_i l hl
  split_ifs at h with h2
  cases h
  subst h2
  refine ⟨h1, ?_, fun c hc k => ?_⟩
  · dsimp only
    rw [hx, hl]
    congr 1
    exact (List.ofFn_get l).symm
  · obtain ⟨ε, hε, hfl⟩ := hc
    dsimp only at hfl ⊢
    have : (fun t => match f (List.ofFn (Function.update x0.get c (x0.get c + t))) with
        | .ok l' => l'.getD k 0
        | .error _ => 0) =ᶠ[nhds 0] fun _ => l.getD k 0 := by
      filter_upwards [Metric.ball_mem_nhds (0 : ℝ) hε] with t ht
      rw [hfl t (by simpa [Real.dist_eq] using ht), hx, hl]
    rw [this.deriv_eq]
    exact deriv_const _ _

example (fs : FS Content) (illumName : Str) :
    ∃ e, ((fitZpoly { sampleInput with
      illum := illumGauss, illumName := illumName, solver := derivSolver 15 }).run fs).1 = .error e :=
  (C83_default _ rfl (.inl rfl) (derivSolver_trueJac 15) (by simp [sampleInput]) fs).1

end Verif.Props
