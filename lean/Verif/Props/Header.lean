import Verif.Props.PlotFit

/-! # C38, C40: the stored header row and the shipped configuration -/

namespace Verif.Props

open Verif Verif.Np Verif.AuxFn Verif.MathFn Verif.Fs Verif.Store Verif.Fit

theorem dropAt_length {α : Type} (S : List ℕ) (l : List α) (k : ℕ) :
    (Core.dropAt S k l).length + (List.range' k l.length).countP (· ∈ S) = l.length := by
  induction l generalizing k with
  | nil => simp [Core.dropAt]
  | cons a l ih =>
    rw [List.length_cons, List.range'_succ, List.countP_cons]
    have := ih (k + 1)
    simp only [Core.dropAt]
    split_ifs with h1 h2
    · omega
    · simp [h1] at h2
    · rename_i h3; simp [h1] at h3
    · rw [List.length_cons]; omega

theorem wrap_inv (n : ℕ) (S T : List ℕ) (h : (S.map fun e : ℕ => (e : ℤ)).mapM (Core.wrapIdx n) = some T) :
    T = S ∧ ∀ e ∈ S, e < n := by
  induction S generalizing T with
  | nil => cases h; simp
  | cons e S ih =>
    rw [List.map_cons, List.mapM_cons] at h
    unfold Core.wrapIdx at h
    simp only [Option.bind_eq_bind, Option.bind_eq_some_iff] at h
    obtain ⟨x, hx, y, hy, h⟩ := h
    cases h
    obtain ⟨rfl, hS⟩ := ih _ hy
    split_ifs at hx with h1 h2
    · cases hx
      exact ⟨by simp, by simpa using ⟨by omega, hS⟩⟩
    · omega

/-- Removing the excluded entries, seen from the entry that stays. -/
theorem delete_get {cfg : Core.Config} {S : List ℕ} (hf : Spec.Feasible cfg S) {l x : List ℝ}
    (h : Core.npDelete l cfg.excluded = .ok x) :
    x.length + S.length = l.length ∧ (∀ e ∈ S, e < l.length) ∧
      x = (Core.dropAt S 0 (List.range l.length)).map fun k => l.getD k 0 := by
  rw [hf.excluded] at h
  unfold Core.npDelete at h
  split at h
  · cases h
  rename_i T hT
  cases h
  obtain ⟨rfl, hS⟩ := wrap_inv _ _ _ hT
  refine ⟨?_, hS, ?_⟩
  · have := dropAt_length T l 0
    rw [countP_range' T (hf.ascending.imp fun h => ne_of_lt h) _ hS] at this
    exact this
  · rw [← dropAt_map]
    congr 1
    apply List.ext_getElem (by simp)
    intro n h1 h2
    simp [h1]

/-- **C38**. The row stored above the covariance and the correlation matrix of a fit: entry `c` is the
place, in the stored solution, of the number the optimiser returned as its `c`-th variable, and in
the stored start vector of the one it began with.  Column `c` of the stored Jacobian belongs to the
same variable. The entries ascend and leave out exactly the excluded parameters. -/
theorem C38_stored {N M : ℕ} (a : Input N M) (fs fs' : FS Content) (d : Path)
    (h : (fitZpoly a).run fs = (.ok d, fs')) (hd : fs d = none ∨ isDir fs d) (k : ℕ) (hk : 1 ≤ k)
    (hk' : k ≤ a.orderMax) (S : List ℕ) (hf : Spec.Feasible a.cfg S) :
    ∃ (names : List Str) (fit init it lb ub : List ℝ) (r : LsqResult (3 * M) it.length)
      (idx : Fin it.length → ℕ) (t1 t2 t3 : Str) (cov corr jac : List (List Fl)),
      leastSquares a.solver (fun p => Core.residual p (Spec.nK k) a.beam a.u a.v a.dz
        a.wavel a.illum a.tel a.boxFactor a.cfg) it lb ub = .ok r ∧
      fs' (Spec.file "fitpar" k :: d) = some (.file (.params names fit init)) ∧
      fs' (Spec.file "cov" k :: d) = some (.file (.csv t1 ((List.ofFn fun c => .fin (idx c : ℝ)) :: cov))) ∧
      fs' (Spec.file "corr" k :: d) = some (.file (.csv t2 ((List.ofFn fun c => .fin (idx c : ℝ)) :: corr))) ∧
      fs' (Spec.file "jac" k :: d) = some (.file (.csv t3 jac)) ∧
      Spec.Grid (fun i c => .fin (r.jac i c)) jac ∧
      Spec.Fitted S (5 + Spec.nK k) idx ∧ fit.length = 5 + Spec.nK k ∧ init.length = 5 + Spec.nK k ∧
      ∀ c, fit[idx c]? = some (r.x c) ∧ init[idx c]? = some it[c] := by
  obtain ⟨names, fit, init, it, lb, ub, r, co, hdr, ph, res, jac, grad, phi, cov, cor, g1, g2, -, -, g3, g4,
    -, g5, g6, -, -, -, g7, g8, -, -, -, -, g9, -, g10, -⟩ := C67_provenance a fs fs' d h hd k hk hk'
  obtain ⟨idx, hp, hi, hidx⟩ := header_fitted hf hk g6 g5
  have hK : 3 ≤ Spec.nK k := by
    unfold Spec.nK
    have : 6 ≤ (k + 1) * (k + 2) := Nat.mul_le_mul (by omega : 2 ≤ k + 1) (by omega : 3 ≤ k + 2)
    omega
  have hrow : hdr.map Fl.fin = List.ofFn fun c => Fl.fin (idx c : ℝ) := by
    apply List.ext_getElem (by simp [g6])
    intro n h1 h2
    have := hidx ⟨n, by simpa using h2⟩
    simp only [List.length_map] at h1
    simp [List.getD_eq_getElem?_getD, h1] at this
    simp [this]
  obtain ⟨i1, i2, i3⟩ := delete_get hf g2
  have hil : init.length = 5 + Spec.nK k := by omega
  obtain ⟨fit', f1, f2, -, f4⟩ := C36_complete a.cfg S hf.excluded hf.ascending hf.below hf.fixed (Spec.nK k) hK
    (List.ofFn r.x) (by simpa using hp)
  rw [g4] at f1
  cases f1
  obtain ⟨-, -, j3⟩ := delete_get hf f4
  have hh : hdr = (Core.dropAt S 0 (List.range (5 + Spec.nK k))).map fun k : ℕ => (k : ℝ) := by
    rw [hf.excluded, npDelete_ok _ S (fun e he => by have := hf.below e he; simp; omega), dropAt_map] at g5
    cases g5
    rw [Nat.add_comm]
  have hdi : Core.dropAt S 0 (List.range (5 + Spec.nK k)) = List.ofFn idx := by
    have h1 : (Core.dropAt S 0 (List.range (5 + Spec.nK k))).length = it.length := by
      rw [← g6, hh, List.length_map]
    apply List.ext_getElem (by simpa using h1)
    intro n h2 h3
    have := hidx ⟨n, by simpa using h3⟩
    rw [hh] at this
    simp [List.getD_eq_getElem?_getD, h2] at this
    simpa using this
  rw [hil, hdi] at i3
  rw [f2, hdi] at j3
  refine ⟨names, fit, init, it, lb, ub, r, idx, _, _, _, cov, cor, jac, g3, g1, by rw [g9, hrow], by rw [g10, hrow],
    g7, g8, hi, f2, hil, fun c => ⟨?_, ?_⟩⟩
  · have h1 := ((hi.2 (idx c)).1 ⟨c, rfl⟩).1
    have h2 := congrArg (fun l => l[(c : ℕ)]?) j3
    simp at h2
    rw [h2, List.getElem?_eq_getElem (by omega)]
    rfl
  · have h1 := ((hi.2 (idx c)).1 ⟨c, rfl⟩).1
    have h2 := congrArg (fun l => l[(c : ℕ)]?) i3
    simp at h2
    rw [List.getElem?_eq_getElem (by omega : idx c < init.length)] at h2 ⊢
    exact congrArg some h2.symm

example : ∃ d fs' names fit init title rows, (fitZpoly sampleInput).run sampleFs = (.ok d, fs') ∧
    fs' (Spec.file "fitpar" 2 :: d) = some (.file (.params names fit init)) ∧
    fs' (Spec.file "cov" 2 :: d) = some (.file (.csv title
      ([.fin 0, .fin 6, .fin 7, .fin 8, .fin 9, .fin 10] :: rows))) := by
  obtain ⟨d, fs', h⟩ := sample_run
  have hd : sampleFs d = none := by
    rcases C45_directory _ _ _ _ h with ⟨i, hi, hdi, hdn, -⟩ | ⟨h1, -⟩
    · exact hdn
    · rw [h1]; simp [Spec.runDir, sampleInput, sampleFs]
  obtain ⟨names, fit, init, it, lb, ub, r, idx, t1, t2, t3, cov, corr, jac, -, h1, h2, -, -, -, h3, h4, h5, h6⟩ :=
    C38_stored sampleInput _ _ _ h (.inl hd) 2 (by norm_num) (by simp [sampleInput]) _ default_feasible
  have hl : List.ofFn idx = [0, 6, 7, 8, 9, 10] := by
    refine List.Perm.eq_of_pairwise (le := (· < ·)) (fun a b _ _ h1 h2 => absurd h1 (by omega)) ?_ (by decide) ?_
    · exact List.pairwise_ofFn.2 fun i j hij => h3.1 hij
    · refine (List.perm_ext_iff_of_nodup ?_ (by decide)).2 fun x => ?_
      · exact List.nodup_ofFn.2 h3.1.injective
      · rw [List.mem_ofFn']
        refine (h3.2 x).trans ?_
        simp [Spec.nK]
        omega
  refine ⟨d, fs', names, fit, init, t1, cov, h, h1, ?_⟩
  rw [h2]
  have : (List.ofFn fun c => Fl.fin (idx c : ℝ)) = (List.ofFn idx).map fun k : ℕ => Fl.fin (k : ℝ) := by
    rw [List.map_ofFn]; rfl
  rw [this, hl]
  simp

/-- **C40**. The configuration the package ships with stays usable whichever parameters are excluded:
its start values lie within its bounds, also those of the parameters it excludes. -/
theorem C40_shipped (S : List ℕ) (hS : S.Pairwise (· < ·)) (h7 : ∀ e ∈ S, e ≤ 7) :
    Spec.Feasible { Core.defaultConfig with excluded := S.map fun e : ℕ => (e : ℤ) } S where
  excluded := rfl
  ascending := hS
  below := h7
  fixed := rfl
  init := rfl
  boundMin := rfl
  boundMax := rfl
  lt k hk _ := by
    interval_cases k <;> simp [Core.defaultConfig] <;> norm_num
  ge k hk _ := by
    interval_cases k <;> simp [Core.defaultConfig] <;> norm_num
  le k hk _ := by
    interval_cases k <;> simp [Core.defaultConfig] <;> norm_num

/-- Everything fitted. -/
example : Spec.Feasible { Core.defaultConfig with excluded := [] } [] :=
  C40_shipped [] (by simp) (by simp)

end Verif.Props
