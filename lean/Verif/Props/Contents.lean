import Verif.Props.Table

/-! # C67: what the files of a fit hold; C53 on the output of a fit -/

namespace Verif.Props

open Verif Verif.AuxFn Verif.MathFn Verif.Fs Verif.Store Verif.Fit Verif.Aperture Verif.Core

/-- All that one order computes. -/
theorem solveOrder_save {N M : ℕ} {a : Input N M} {m : ℕ} {init : List ℝ} {out : OrderOut}
    (h : solveOrder a m init = .ok out) :
    ∃ (it lb ub : List ℝ) (r : LsqResult (3 * M) it.length)
      (co : Option (Matrix (Fin it.length) (Fin it.length) ℝ × Matrix (Fin it.length) (Fin it.length) ℝ))
      (hdr : List ℝ) (ph : PhaseMap 1000),
      npDelete init a.cfg.excluded = .ok it ∧
      npDelete (Spec.boundsMin a.cfg m) a.cfg.excluded = .ok lb ∧
      npDelete (Spec.boundsMax a.cfg m) a.cfg.excluded = .ok ub ∧
      leastSquares a.solver (fun p => Core.residual p (Spec.nK m) a.beam a.u a.v a.dz
        a.wavel a.illum a.tel a.boxFactor a.cfg) it lb ub = .ok r ∧
      paramsComplete (List.ofFn r.x) (Spec.nK m) a.cfg = .ok out.sol ∧
      coMatrices r.fn r.jac it.length = .ok co ∧
      npDelete ((List.range (Spec.nK m + 5)).map fun k : ℕ => (k : ℝ)) a.cfg.excluded = .ok hdr ∧
      hdr.length = it.length ∧
      phase (out.sol.drop 5) a.tel.pr false false 1000 = .ok ph ∧
      out.save = [rows3 a.beam, rows3 fun q => .fin (a.u q), rows3 fun q => .fin (a.v q),
        rows3 (reshape3 r.fn), matRows r.jac, List.ofFn fun j => [.fin (r.grad j)],
        List.ofFn fun i => List.ofFn fun j => .fin (ph.phi (i, j)),
        hdr.map Fl.fin :: (match co with
          | some c => matRows c.1
          | none => List.replicate it.length (List.replicate it.length .nan)),
        hdr.map Fl.fin :: (match co with
          | some c => matRows c.2
          | none => List.replicate it.length (List.replicate it.length .nan))] := by
  unfold solveOrder at h
  simp only [bind, Except.bind, pure, Except.pure] at h
  split at h
  · cases h
  rename_i it h1
  split at h
  · cases h
  rename_i lb h2
  split at h
  · cases h
  rename_i ub h3
  split at h
  · cases h
  rename_i r h4
  split at h
  · cases h
  rename_i sol h5
  split at h
  · cases h
  rename_i co h6
  split at h
  · cases h
  rename_i hdr h7
  split at h
  · cases h
  rename_i c1 h8
  split at h
  · cases h
  rename_i c2 h9
  split at h
  · cases h
  rename_i ph h10
  cases h
  unfold vstack at h8 h9
  split_ifs at h8 with hl
  split_ifs at h9
  cases h8
  cases h9
  exact ⟨it, lb, ub, r, co, hdr, ph, h1, h2, h3, h4, h5, h6, h7, hl, h10, rfl⟩

/-- The csv files of one order. -/
theorem orderStore_csv {N M : ℕ} (a : Input N M) (s : List Fl) (m : ℕ) (names : List Str)
    (init : List ℝ) (out : OrderOut) (hlen : out.save.length = 9) (t : Str × Str × ℕ)
    (ht : t ∈ Spec.csvTable m) (ht' : m = 1 ∨ 3 ≤ t.2.2) :
    (t.1, Content.csv (t.2.1 ++ ' ' :: a.name) (out.save.getD t.2.2 [])) ∈
      orderStore a s m names init out := by
  unfold orderStore
  rw [csvRows_names m a.name out.save hlen]
  refine List.mem_cons_of_mem _ (List.mem_append.2 (.inr (List.mem_map.2 ⟨t, ?_, rfl⟩)))
  rw [List.mem_filter]
  exact ⟨ht, by simpa using ht'⟩

/-- `A` is stored as a text file row by row. -/
def Spec.Grid {m n : ℕ} (A : Fin m → Fin n → Fl) (rows : List (List Fl)) : Prop :=
  rows = List.ofFn fun i => List.ofFn fun j => A i j

theorem nine_six {α : Type} (a b c d e f g h i : List α) :
    [a, b, c, d, e, f, g, h, i].getD 6 [] = g := rfl

theorem nine_five {α : Type} (a b c d e f g h i : List α) :
    [a, b, c, d, e, f, g, h, i].getD 5 [] = f := rfl

/-- **C67**. The files of order `k` of a run that ends well stem from one call of the optimiser: on
the residual of that order, from the stored start vector without the excluded parameters, with the
bounds of the order.  The stored solution is its result completed, `res_n{k}`, `jac_n{k}` and
`grad_n{k}` are its residuals (one map per row), Jacobian and gradient, `phase_n{k}` is the phase map
of the stored solution without piston and tilt, `cov_n{k}` and `corr_n{k}` are the matrices of that
result below a row with the indices of the fitted parameters. -/
theorem C67_provenance {N M : ℕ} (a : Input N M) (fs fs' : FS Content) (d : Path)
    (h : (fitZpoly a).run fs = (.ok d, fs')) (hd : fs d = none ∨ isDir fs d) (k : ℕ) (hk : 1 ≤ k)
    (hk' : k ≤ a.orderMax) :
    ∃ (names : List Str) (fit init it lb ub : List ℝ) (r : LsqResult (3 * M) it.length)
      (co : Option (Matrix (Fin it.length) (Fin it.length) ℝ × Matrix (Fin it.length) (Fin it.length) ℝ))
      (hdr : List ℝ) (ph : PhaseMap 1000)
      (res jac grad phi cov cor : List (List Fl)),
      fs' (Spec.file "fitpar" k :: d) = some (.file (.params names fit init)) ∧
      npDelete init a.cfg.excluded = .ok it ∧
      npDelete (Spec.boundsMin a.cfg k) a.cfg.excluded = .ok lb ∧
      npDelete (Spec.boundsMax a.cfg k) a.cfg.excluded = .ok ub ∧
      leastSquares a.solver (fun p => Core.residual p (Spec.nK k) a.beam a.u a.v a.dz
        a.wavel a.illum a.tel a.boxFactor a.cfg) it lb ub = .ok r ∧
      paramsComplete (List.ofFn r.x) (Spec.nK k) a.cfg = .ok fit ∧
      coMatrices r.fn r.jac it.length = .ok co ∧
      npDelete ((List.range (Spec.nK k + 5)).map fun k : ℕ => (k : ℝ)) a.cfg.excluded = .ok hdr ∧
      hdr.length = it.length ∧
      phase (fit.drop 5) a.tel.pr false false 1000 = .ok ph ∧
      fs' (Spec.file "res" k :: d) = some (.file (.csv ("Residual ".toList ++ a.name) res)) ∧
      Spec.Grid (fun i j => .fin (r.fn (finProdFinEquiv (i, j)))) res ∧
      fs' (Spec.file "jac" k :: d) = some (.file (.csv ("Jacobian ".toList ++ a.name) jac)) ∧
      Spec.Grid (fun i j => .fin (r.jac i j)) jac ∧
      fs' (Spec.file "grad" k :: d) = some (.file (.csv ("Gradient ".toList ++ a.name) grad)) ∧
      Spec.Grid (n := 1) (fun i _ => .fin (r.grad i)) grad ∧
      fs' (Spec.file "phase" k :: d) =
        some (.file (.csv ("Phase-error radians ".toList ++ a.name) phi)) ∧
      Spec.Grid (fun i j => .fin (ph.phi (i, j))) phi ∧
      fs' (Spec.file "cov" k :: d) = some (.file (.csv
        ("Variance-Covariance matrix (first row fitted parameters idx) ".toList ++ a.name)
        (hdr.map Fl.fin :: cov))) ∧
      Spec.Grid (fun i j => match co with | some c => .fin (c.1 i j) | none => .nan) cov ∧
      fs' (Spec.file "corr" k :: d) = some (.file (.csv
        ("Correlation matrix (first row fitted parameters idx) ".toList ++ a.name)
        (hdr.map Fl.fin :: cor))) ∧
      Spec.Grid (fun i j => match co with | some c => .fin (c.2 i j) | none => .nan) cor := by
  obtain ⟨fs1, s0, s1, s2, h1, -, -, -, h2⟩ := fitZpoly_ok h
  obtain ⟨init, out, names, -, e2, -, -⟩ := fitLoop_ok le_rfl (allocDir_isDir h1 hd) h2
  obtain ⟨hso, -, -, -, hmem⟩ := e2 k hk (by omega)
  obtain ⟨it, lb, ub, r, co, hdr, ph, g1, g2, g3, g4, g5, g6, g7, g8, g9, g10⟩ := solveOrder_save hso
  have hlen : (out k).save.length = 9 := by rw [g10]; rfl
  have hc := fun t ht ht' => hmem _ (orderStore_csv a [s0, s1, s2] k (names k) (init k) (out k) hlen t ht ht')
  rw [g10] at hc
  refine ⟨names k, (out k).sol, init k, it, lb, ub, r, co, hdr, ph, _, _, _, _, _, _,
    hmem _ (orderStore_head a _ k _ _ _), g1, g2, g3, g4, g5, g6, g7, g8, g9,
    hc (Spec.file "res" k, "Residual".toList, 3) (by simp [Spec.csvTable]) (.inr (by norm_num)), rfl,
    hc (Spec.file "jac" k, "Jacobian".toList, 4) (by simp [Spec.csvTable]) (.inr (by norm_num)), rfl,
    hc (Spec.file "grad" k, "Gradient".toList, 5) (by simp [Spec.csvTable]) (.inr (by norm_num)), ?_,
    hc (Spec.file "phase" k, "Phase-error radians".toList, 6) (by simp [Spec.csvTable])
      (.inr (by norm_num)), ?_,
    hc (Spec.file "cov" k, "Variance-Covariance matrix (first row fitted parameters idx)".toList, 7)
      (by simp [Spec.csvTable]) (.inr (by norm_num)), ?_,
    hc (Spec.file "corr" k, "Correlation matrix (first row fitted parameters idx)".toList, 8)
      (by simp [Spec.csvTable]) (.inr (by norm_num)), ?_⟩
  · unfold Spec.Grid
    refine (nine_five _ _ _ _ _ _ _ _ _).trans ?_
    simp
  · unfold Spec.Grid
    exact nine_six _ _ _ _ _ _ _ _ _
  · unfold Spec.Grid
    cases co with
    | none => simp [List.ofFn_const]
    | some c => rfl
  · unfold Spec.Grid
    cases co with
    | none => simp [List.ofFn_const]
    | some c => rfl

/-- **C39**. The table stored for order `k` of a run has these names: the five illumination parameters,
then for coefficient `i` the name of the polynomial that `wavefront` multiplies by it. -/
theorem C39_stored {N M : ℕ} (a : Input N M) (fs fs' : FS Content) (d : Path)
    (h : (fitZpoly a).run fs = (.ok d, fs')) (hd : fs d = none ∨ isDir fs d) (k : ℕ) (hk : 1 ≤ k)
    (hk' : k ≤ a.orderMax) :
    ∃ names fit init, fs' (Spec.file "fitpar" k :: d) = some (.file (.params names fit init)) ∧
      names.length = fit.length ∧ names.length = 5 + Spec.nK k ∧
      names.take 5 = ["i_amp".toList, "c_dB".toList, "q".toList, "x_0".toList, "y_0".toList] ∧
      ∀ i < Spec.nK k, ∃ ni li : ℤ, names[5 + i]? = some (Spec.kName ni li) ∧
        ∀ {ι : Type} (rho theta : ι → ℝ), ∃ W,
          wavefront rho theta (Spec.unitVec (Spec.nK k) i) = .ok W ∧
          ∀ q, Zernike.U (.int ni) (.int li) (rho q) (theta q) = .ok (W q) := by
  obtain ⟨fs1, s0, s1, s2, h1, -, -, -, h2⟩ := fitZpoly_ok h
  obtain ⟨init, out, names, -, e2, -, -⟩ := fitLoop_ok le_rfl (allocDir_isDir h1 hd) h2
  obtain ⟨-, hn, hl, -, hmem⟩ := e2 k hk (by omega)
  obtain ⟨n1, n2, n3⟩ := C39_first k
  obtain ⟨n4, n5, n6, -⟩ := C39_distinct k
  rw [hn] at n2 n5
  cases n2
  cases n5
  refine ⟨names k, (out k).sol, init k, hmem _ (orderStore_head a _ k _ _ _), hl, n6, n3, fun i hi => ?_⟩
  obtain ⟨n7, ni, li, n8, -, n9, n10⟩ := C39_meaning k i hi
  rw [hn] at n8
  cases n8
  exact ⟨ni, li, n9, n10⟩

/-- **C67**. The observation as given to `fit_zpoly` is stored with the run: the maps (as given, not
normalised), their coordinates and the information. -/
theorem C67_observation {N M : ℕ} (a : Input N M) (fs fs' : FS Content) (d : Path)
    (h : (fitZpoly a).run fs = (.ok d, fs')) (hd : fs d = none ∨ isDir fs d) (hn : 1 ≤ a.orderMax) :
    ∃ (s : Fin 3 → Fl) (beam u v : List (List Fl)) (i : Info), (∀ k, a.snr k = .ok (s k)) ∧
      fs' ("beam_data.csv".toList :: d) = some (.file (.csv ("Normalized beam ".toList ++ a.name) beam)) ∧
      Spec.Grid (fun i j => a.beam (i, j)) beam ∧
      fs' ("u_data.csv".toList :: d) = some (.file (.csv ("u vector radians ".toList ++ a.name) u)) ∧
      Spec.Grid (fun i j => .fin (a.u (i, j))) u ∧
      fs' ("v_data.csv".toList :: d) = some (.file (.csv ("v vector radians ".toList ++ a.name) v)) ∧
      Spec.Grid (fun i j => .fin (a.v (i, j))) v ∧
      fs' ("pyoof_info.yml".toList :: d) = some (.file (.info i)) ∧
      i.name = a.name ∧ i.telName = a.telName ∧ i.telOpd = a.opdName ∧ i.pr = a.tel.pr ∧
      i.obsObject = a.obsObject ∧ i.obsDate = a.obsDate ∧ i.dz = [a.dz 0, a.dz 1, a.dz 2] ∧
      i.wavel = a.wavel ∧ i.frequency = a.freq ∧ i.illumination = a.illumName ∧
      i.meanel = a.meanel ∧ i.fftResolution = N ∧ i.boxFactor = a.boxFactor ∧
      i.snr = [s 0, s 1, s 2] := by
  obtain ⟨fs1, s0, s1, s2, h1, c0, c1, c2, h2⟩ := fitZpoly_ok h
  obtain ⟨init, out, names, -, e2, -, -⟩ := fitLoop_ok le_rfl (allocDir_isDir h1 hd) h2
  obtain ⟨hso, -, -, -, hmem⟩ := e2 1 le_rfl (by omega)
  obtain ⟨it, lb, ub, r, co, hdr, ph, -, -, -, -, -, -, -, -, -, g10⟩ := solveOrder_save hso
  have hlen : (out 1).save.length = 9 := by rw [g10]; rfl
  have hc := fun t ht => hmem _ (orderStore_csv a [s0, s1, s2] 1 (names 1) (init 1) (out 1) hlen t ht
    (.inl rfl))
  rw [g10] at hc
  refine ⟨![s0, s1, s2], _, _, _, infoOf a [s0, s1, s2], fun k => by fin_cases k <;> assumption,
    hc ("beam_data.csv".toList, "Normalized beam".toList, 0) (by simp [Spec.csvTable]), rfl,
    hc ("u_data.csv".toList, "u vector radians".toList, 1) (by simp [Spec.csvTable]), rfl,
    hc ("v_data.csv".toList, "v vector radians".toList, 2) (by simp [Spec.csvTable]), rfl,
    hmem ("pyoof_info.yml".toList, .info (infoOf a [s0, s1, s2])) ?_,
    rfl, rfl, rfl, rfl, rfl, rfl, ?_, rfl, rfl, rfl, rfl, rfl, rfl, rfl⟩
  · unfold orderStore
    rw [if_pos rfl]
    exact List.mem_cons_of_mem _ (List.mem_append.2 (.inl List.mem_cons_self))
  · show List.ofFn a.dz = _
    simp

/-- **C53**. The table of the directory returned by a fit: one row with the information of that fit,
the first three of its parameters, the rms of its phase map and the efficiency. -/
theorem C53_after_fit {N M : ℕ} (a : Input N M) (fs fs' : FS Content) (d : Path)
    (h : (fitZpoly a).run fs = (.ok d, fs')) (hd : fs d = none ∨ isDir fs d) (k : ℕ) (hk : 1 ≤ k)
    (hk' : k ≤ a.orderMax) (S : List ℕ) (hf : Spec.Feasible a.cfg S) (hb : Spec.InBounds a.solver) :
    ∃ row names fit init ph i, (tablePyoofOut k [d]).run fs' = (.ok [row], fs') ∧
      fs' (Spec.file "fitpar" k :: d) = some (.file (.params names fit init)) ∧
      phase (fit.drop 5) a.tel.pr false false 1000 = .ok ph ∧
      i.name = a.name ∧ i.telName = a.telName ∧ i.obsObject = a.obsObject ∧ i.obsDate = a.obsDate ∧
      i.meanel = a.meanel ∧ (∀ k : Fin 3, ∃ s, a.snr k = .ok s ∧ i.snr[(k : ℕ)]? = some s) ∧
      Spec.RowOf i 1000 ph.phi fit row := by
  obtain ⟨names, fit, init, it, lb, ub, r, co, hdr, ph, res, jac, grad, phi, cov, cor, g1, -, -, -, -, -,
    -, -, -, g2, -, -, -, -, -, -, g3, g4, -⟩ := C67_provenance a fs fs' d h hd k hk hk'
  obtain ⟨s, beam, u, v, i, i0, -, -, -, -, -, -, i1, i2, i6, -, -, i3, i7, -, -, -, -, i4, -, -, i5⟩ :=
    C67_observation a fs fs' d h hd (by omega)
  obtain ⟨names', fit', init', g1', -, hl, -⟩ := C40_stored a S hf hb fs fs' d h hd k hk hk'
  rw [g1] at g1'
  cases g1'
  rw [g4] at g3
  obtain ⟨rows, hr, hr'⟩ := C53_rows k fs' [(d, i, ⟨1000, ph.phi⟩, fit)] (by
    intro x hx
    rw [List.mem_singleton] at hx
    subst hx
    exact ⟨i1, ⟨_, g3⟩, ⟨names, init, g1⟩, by rw [i5]; rfl, by norm_num, by
      rw [hl]; omega⟩)
  cases hr' with
  | cons h1 h2 =>
    cases h2
    exact ⟨_, names, fit, init, ph, i, hr, g1, g2, i2, i6, i3, i7, i4,
      fun k => ⟨s k, i0 k, by rw [i5]; fin_cases k <;> rfl⟩, h1⟩

example : ∃ d fs' row, (fitZpoly sampleInput).run sampleFs = (.ok d, fs') ∧
    (tablePyoofOut 2 [d]).run fs' = (.ok [row], fs') ∧ row.name = "obs".toList ∧ row.cdB = -14.5 := by
  obtain ⟨d, fs', h⟩ := sample_run
  have hd : sampleFs d = none := by
    rcases C45_directory _ _ _ _ h with ⟨i, hi, hdi, hdn, -⟩ | ⟨h1, -⟩
    · exact hdn
    · rw [h1]; simp [Spec.runDir, sampleInput, sampleFs]
  obtain ⟨row, names, fit, init, ph, i, h1, h2, h3, h4, -, -, -, -, -, h5⟩ := C53_after_fit sampleInput _ _ _ h
    (.inl hd) 2 (by norm_num) (by simp [sampleInput]) [1, 2, 3, 4, 5] default_feasible (lazy_inBounds 15)
  obtain ⟨names', fit', init', g1, -, g2, -, -, -, g3, -⟩ := C40_stored sampleInput [1, 2, 3, 4, 5]
    default_feasible (lazy_inBounds 15) _ _ _ h (.inl hd) 2 (by norm_num) (by simp [sampleInput])
  rw [h2] at g1
  cases g1
  refine ⟨d, fs', row, h, h1, h5.name.trans h4, ?_⟩
  have e1 := congrArg (fun l : List ℝ => l[1]?) h5.coeffs
  have e2 : (fit.take 3)[1]? = fit[1]? := by rw [List.getElem?_take]; simp
  rw [e2, g3 1 (by simp)] at e1
  exact Option.some.inj e1

end Verif.Props
