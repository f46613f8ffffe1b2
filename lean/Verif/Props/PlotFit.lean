import Verif.Props.PlotBeam
import Verif.Props.PlotVar
import Verif.Props.Contents

/-! # C73: `plot_fit_path` shows the fit -/

namespace Verif.Props

open Verif Verif.Np Verif.AuxFn Verif.MathFn Verif.Fs Verif.Store Verif.Fit Verif.Aperture Verif.Plot

/-! ## Reading an array -/

/-- What `np.genfromtxt` makes of an array stored row by row. -/
theorem grid_read {m n : ℕ} (A : Fin m → Fin n → Fl) (rows : List (List Fl)) (h : Spec.Grid A rows) :
    ∃ arr, genfromtxt rows = .ok arr ∧
      ((2 ≤ m ∧ 2 ≤ n ∧ arr = .d2 m n fun q => toNum (A q.1 q.2)) ∨
        (m ≤ 1 ∨ n ≤ 1) ∧ ∃ k f, arr = .d1 k f) := by
  have hlen : rows.length = m := by rw [h]; simp
  have hrow : ∀ r ∈ rows, r.length = n := by
    intro r hr
    rw [h] at hr
    obtain ⟨i, rfl⟩ := (List.mem_ofFn' _ _).1 hr
    simp
  have hget : ∀ (i : Fin m) (j : Fin n), (rows.getD i []).getD j Fl.nan = A i j := by
    intro i j
    rw [h, getD_ofFn, getD_ofFn]
  by_cases hm : m = 0
  · subst hm
    have : rows = [] := List.length_eq_zero_iff.1 hlen
    subst this
    exact ⟨.d1 0 fun i => toNum (([] : List (List Fl)).flatten.get i), by simp [genfromtxt], .inr ⟨.inl (by omega), _, _, rfl⟩⟩
  have hhd : (rows.headD []).length = n := by
    cases rows with
    | nil => simp at hlen; omega
    | cons r l => exact hrow r List.mem_cons_self
  unfold genfromtxt
  dsimp only
  rw [hhd, if_neg (not_not.2 hrow)]
  by_cases hc : rows.length ≤ 1 ∨ n ≤ 1
  · rw [if_pos hc]
    exact ⟨_, rfl, .inr ⟨by omega, _, _, rfl⟩⟩
  · rw [if_neg hc]
    have key : ∀ k : ℕ, k = m →
        (Arr.d2 k n fun q => toNum ((rows.getD q.1 []).getD q.2 .nan)) =
          .d2 m n fun q => toNum (A q.1 q.2) := by
      rintro _ rfl
      congr 1
      funext q
      rw [hget]
    exact ⟨_, rfl, .inl ⟨by omega, by omega, key _ hlen⟩⟩

/-- `res`, `beam`, `u` and `v`: three maps of at least two points. -/
theorem three_grid {M : ℕ} (A : Fin 3 → Fin M → Fl) (arr : MathFn.Arr)
    (h : (2 ≤ 3 ∧ 2 ≤ M ∧ arr = .d2 3 M fun q => toNum (A q.1 q.2)) ∨
        (3 ≤ 1 ∨ M ≤ 1) ∧ ∃ k f, arr = .d1 k f) :
    (∀ B : Fin 3 × Fin M → ℝ, (∀ q, A q.1 q.2 = .fin (B q)) → 2 ≤ M → threeRows arr = .ok ⟨M, B⟩) ∧
    ∀ x, threeRows arr = .ok x → 2 ≤ M ∧ ∃ B : Fin 3 × Fin M → ℝ, x = ⟨M, B⟩ ∧
      ∀ q, A q.1 q.2 = .fin (B q) := by
  constructor
  · intro B hB hM
    rcases h with ⟨-, -, rfl⟩ | ⟨h, -⟩
    · unfold threeRows
      have : ∀ q : Fin 3 × Fin M, toNum (A q.1 q.2) = some (B q) := fun q => by rw [hB]; rfl
      dsimp only
      rw [dif_pos le_rfl, if_pos]
      · congr 2
        funext q
        exact congrArg (Option.getD · 0) (this q)
      · intro i j
        exact (congrArg Option.isSome (this (i, j))).trans rfl
    · omega
  · intro x hx
    rcases h with ⟨-, hM, rfl⟩ | ⟨-, k, f, rfl⟩
    · unfold threeRows at hx
      dsimp only at hx
      rw [dif_pos le_rfl] at hx
      split_ifs at hx with hs
      cases hx
      refine ⟨hM, _, rfl, fun q => ?_⟩
      have := hs q.1 q.2
      simp only [Fin.castLE_rfl, id] at this ⊢
      cases hq : A q.1 q.2 <;> simp [hq, toNum] at this ⊢
    · cases hx

/-- The files in the directory of a fit, as `plot_fit_path` reads them. -/
theorem fitFigs_run {fs : FS Content} {d : Path} {n : ℕ} {names : List Str} {fit init : List ℝ}
    {info : Info} {t1 t2 t3 t4 t5 t6 : Str} {r1 r2 r3 r4 r5 r6 : List (List Fl)}
    {a1 a2 a3 a4 a5 a6 : MathFn.Arr} (e : PlotEnv)
    (h1 : fs (Spec.file "fitpar" n :: d) = some (.file (.params names fit init)))
    (h2 : fs ("pyoof_info.yml".toList :: d) = some (.file (.info info)))
    (h3 : fs ("beam_data.csv".toList :: d) = some (.file (.csv t1 r1)))
    (h4 : fs (Spec.file "res" n :: d) = some (.file (.csv t2 r2)))
    (h5 : fs ("u_data.csv".toList :: d) = some (.file (.csv t3 r3)))
    (h6 : fs ("v_data.csv".toList :: d) = some (.file (.csv t4 r4)))
    (h7 : fs (Spec.file "cov" n :: d) = some (.file (.csv t5 r5)))
    (h8 : fs (Spec.file "corr" n :: d) = some (.file (.csv t6 r6)))
    (e1 : genfromtxt r1 = .ok a1) (e2 : genfromtxt r2 = .ok a2) (e3 : genfromtxt r3 = .ok a3)
    (e4 : genfromtxt r4 = .ok a4) (e5 : genfromtxt r5 = .ok a5) (e6 : genfromtxt r6 = .ok a6) :
    (fitFigs e d n).run fs = (figsOf e n fit info a1 a2 a3 a4 a5 a6, fs) := by
  unfold fitFigs Plot.readArr
  simp only [fileName_spec, Path.join, Prog.run_bind, run_readFile, Prog.run_lift, h1, h2, h3, h4, h5, h6,
    h7, h8, e1, e2, e3, e4, e5, e6]

/-! ## The file system -/

/-- The directory of the figures is made if nothing is there. -/
noncomputable def withPlots (fs : FS Content) (d : Path) : FS Content :=
  if present fs ("plots".toList :: d) then fs else update fs ("plots".toList :: d) .dir

theorem plotsDir_run {d : Path} {fs : FS Content} (hd : isDir fs d) :
    (plotsDir d).run fs = (.ok (), withPlots fs d) := by
  unfold plotsDir withPlots
  rw [Prog.run_bind, run_existsP]
  dsimp only
  by_cases hp : present fs ("plots".toList :: d) = true
  · rw [if_pos hp, if_pos hp]
    rfl
  · rw [if_neg hp, if_neg hp, run_makedirs_leaf _ _ _ _ hd, if_neg hp]

theorem withPlots_ne {d q : Path} {fs : FS Content} (h : q ≠ "plots".toList :: d) :
    withPlots fs d q = fs q := by
  unfold withPlots
  split_ifs
  · rfl
  · exact update_ne _ _ h

/-- The same in the model of the fit. -/
theorem fitPlot_run {d : Path} (n : ℕ) {fs : FS Content} (hd : isDir fs d) :
    (Fit.plotFitPath d n).run fs = (savePdfs d n).run (withPlots fs d) := by
  have heq : Fit.plotFitPath d n = (do
      let e ← existsP (d.join "plots".toList)
      if e then savePdfs d n else makedirs (d.join "plots".toList) false >>= fun _ => savePdfs d n) := by
    unfold Fit.plotFitPath existsP
    simp only [Prog.op_bind]
    congr 1
    funext r
    cases r <;> rfl
  rw [heq, Prog.run_bind, run_existsP]
  dsimp only
  unfold withPlots
  by_cases hp : present fs ("plots".toList :: d) = true
  · rw [if_pos hp, if_pos hp]
  · rw [if_neg hp, if_neg hp, Prog.run_bind, run_makedirs_leaf _ _ _ _ hd, if_neg hp]

theorem plotFit_run (e : PlotEnv) {d : Path} (n : ℕ) (save : Bool) {fs : FS Content} (hd : isDir fs d) :
    (Plot.plotFitPath e d n save).run fs = match (fitFigs e d n).run (withPlots fs d) with
      | (.error x, g) => (.error x, g)
      | (.ok x, g) => if save then match (savePdfs d n).run g with
          | (.error y, g') => (.error y, g')
          | (.ok _, g') => (.ok x, g')
        else (.ok x, g) := by
  unfold Plot.plotFitPath
  rw [Prog.run_bind, plotsDir_run hd]
  dsimp only
  rw [Prog.run_bind]
  rcases (fitFigs e d n).run (withPlots fs d) with ⟨_ | x, g⟩
  · rfl
  · dsimp only
    cases save
    · rfl
    · rw [if_pos rfl, if_pos rfl, Prog.run_bind]
      rcases (savePdfs d n).run g with ⟨_ | y, g'⟩ <;> rfl

theorem writes_fitFigs (e : PlotEnv) (d : Path) (n : ℕ) : Writes (fun _ => False) (fitFigs e d n) := by
  unfold fitFigs Plot.readArr
  refine writes_bind (writes_readFile _) fun _ => writes_bind (writes_lift _) fun _ => ?_
  refine writes_bind (writes_readFile _) fun _ => writes_bind (writes_lift _) fun _ => ?_
  have hr : ∀ p : Path, Writes (fun _ => False) (do
      let c ← readFile p
      Prog.lift (match c with | .csv _ rows => genfromtxt rows | _ => .error .valueError) :
        Prog Content MathFn.Arr) := fun p =>
    writes_bind (writes_readFile _) fun _ => writes_lift _
  refine writes_bind (hr _) fun _ => writes_bind (hr _) fun _ => writes_bind (hr _) fun _ => ?_
  refine writes_bind (hr _) fun _ => writes_bind (hr _) fun _ => writes_bind (hr _) fun _ => ?_
  exact writes_lift _

/-- The names of the figures of one order. -/
def Spec.pdfs (n : ℕ) : List Str :=
  ["fitbeam", "fitphase", "residual", "cov", "corr"].map (fun k : String =>
    k.toList ++ "_n".toList ++ decNat n ++ ".pdf".toList) ++
  if n = 1 then ["obsbeam.pdf".toList] else []

/-- One more figure. -/
theorem write_mem {fs fs' g : FS Content} {p : Path} {L : List Path} {r : Unit}
    (hw : (writeFile .part p .plot).run fs = (.ok r, fs'))
    (h : (∀ q ∈ L, fs q = some (.file .plot)) ∧ ∀ q, q ∉ L → fs q = g q) :
    (∀ q ∈ p :: L, fs' q = some (.file .plot)) ∧ ∀ q, q ∉ p :: L → fs' q = g q := by
  obtain ⟨rfl, -⟩ := writeFile_ok hw
  constructor
  · intro q hq
    by_cases e : q = p
    · rw [e, update_same]
    · rw [update_ne _ _ e]
      exact h.1 q ((List.mem_cons.1 hq).resolve_left e)
  · intro q hq
    rw [List.mem_cons, not_or] at hq
    rw [update_ne _ _ hq.1]
    exact h.2 q hq.2

theorem savePdfs_ok {d : Path} {n : ℕ} {fs fs' : FS Content} {r : Unit}
    (h : (savePdfs d n).run fs = (.ok r, fs')) :
    (∀ f ∈ Spec.pdfs n, fs' (f :: "plots".toList :: d) = some (.file .plot)) ∧
    ∀ q, (∀ f ∈ Spec.pdfs n, q ≠ f :: "plots".toList :: d) → fs' q = fs q := by
  unfold savePdfs at h
  simp only [Prog.run_bind_ok] at h
  obtain ⟨_, g1, h1, _, g2, h2, _, g3, h3, _, g4, h4, _, g5, h5, h⟩ := h
  have k5 := write_mem h5 (write_mem h4 (write_mem h3 (write_mem h2 (write_mem h1 (L := []) (g := fs)
    ⟨by simp, fun _ _ => rfl⟩))))
  unfold Spec.pdfs
  by_cases hn : n = 1
  · rw [if_pos hn] at h ⊢
    have k6 := write_mem h k5
    constructor
    · intro f hf
      refine k6.1 _ ?_
      simp only [List.map_cons, List.map_nil, List.cons_append, List.nil_append, List.mem_cons,
        List.not_mem_nil, or_false] at hf ⊢
      rcases hf with rfl | rfl | rfl | rfl | rfl | rfl <;> simp [Path.join]
    · intro q hq
      refine k6.2 q fun hm => ?_
      simp only [List.map_cons, List.map_nil, List.cons_append, List.nil_append, List.mem_cons,
        List.not_mem_nil, or_false] at hq hm
      rcases hm with rfl | rfl | rfl | rfl | rfl | rfl
      · exact hq _ (.inr (.inr (.inr (.inr (.inr rfl))))) rfl
      · exact hq _ (.inr (.inr (.inr (.inr (.inl rfl))))) rfl
      · exact hq _ (.inr (.inr (.inr (.inl rfl)))) rfl
      · exact hq _ (.inr (.inr (.inl rfl))) rfl
      · exact hq _ (.inr (.inl rfl)) rfl
      · exact hq _ (.inl rfl) rfl
  · rw [if_neg hn] at h ⊢
    cases h
    constructor
    · intro f hf
      refine k5.1 _ ?_
      simp only [List.map_cons, List.map_nil, List.append_nil, List.mem_cons,
        List.not_mem_nil, or_false] at hf ⊢
      rcases hf with rfl | rfl | rfl | rfl | rfl <;> simp [Path.join]
    · intro q hq
      refine k5.2 q fun hm => ?_
      simp only [List.map_cons, List.map_nil, List.append_nil, List.mem_cons,
        List.not_mem_nil, or_false] at hq hm
      rcases hm with rfl | rfl | rfl | rfl | rfl
      · exact hq _ (.inr (.inr (.inr (.inr rfl)))) rfl
      · exact hq _ (.inr (.inr (.inr (.inl rfl)))) rfl
      · exact hq _ (.inr (.inr (.inl rfl))) rfl
      · exact hq _ (.inr (.inl rfl)) rfl
      · exact hq _ (.inl rfl) rfl

theorem writes_savePdfs (d : Path) (n : ℕ) :
    Writes (fun q => ∃ f, q = f :: "plots".toList :: d) (savePdfs d n) := by
  unfold savePdfs
  refine writes_bind (writes_writeFile ⟨_, rfl⟩ _ _) fun _ => ?_
  refine writes_bind (writes_writeFile ⟨_, rfl⟩ _ _) fun _ => ?_
  refine writes_bind (writes_writeFile ⟨_, rfl⟩ _ _) fun _ => ?_
  refine writes_bind (writes_writeFile ⟨_, rfl⟩ _ _) fun _ => ?_
  refine writes_bind (writes_writeFile ⟨_, rfl⟩ _ _) fun _ => ?_
  split_ifs
  · exact writes_writeFile ⟨_, rfl⟩ _ _
  · trivial

/-- **C73**. Plotting a stored fit changes nothing outside the `plots` directory, whether it ends well
or in an exception; without `save` it does no more than create that directory.  With `save` the
figures of the order are written there, and no other file; with order 1 also the observed maps. -/
theorem C73_files (e : PlotEnv) (d : Path) (n : ℕ) (save : Bool) (fs fs' : FS Content) (hd : isDir fs d)
    (r : Py (Σ N, FitFigs N)) (h : (Plot.plotFitPath e d n save).run fs = (r, fs')) :
    (∀ q, ¬ "plots".toList :: d <:+ q → fs' q = fs q) ∧
    (save = false → ∀ q, q ≠ "plots".toList :: d → fs' q = fs q) ∧
    (save = true → (∃ x, r = .ok x) →
      (∀ f ∈ Spec.pdfs n, fs' (f :: "plots".toList :: d) = some (.file .plot)) ∧
      ∀ q, q ≠ "plots".toList :: d → (∀ f ∈ Spec.pdfs n, q ≠ f :: "plots".toList :: d) →
        fs' q = fs q) := by
  rw [plotFit_run e n save hd] at h
  have hf : ∀ x g, (fitFigs e d n).run (withPlots fs d) = (x, g) → g = withPlots fs d := by
    intro x g hx
    funext q
    exact run_frame (writes_fitFigs e d n) hx (fun hn => hn)
  rcases hx : (fitFigs e d n).run (withPlots fs d) with ⟨x | x, g⟩
  · obtain rfl := hf _ _ hx
    rw [hx] at h
    cases h
    exact ⟨fun q hq => withPlots_ne fun e => hq (e ▸ List.suffix_refl _), fun _ q hq => withPlots_ne hq,
      fun _ ⟨x, hx⟩ => by cases hx⟩
  · obtain rfl := hf _ _ hx
    rw [hx] at h
    dsimp only at h
    cases save
    · cases h
      exact ⟨fun q hq => withPlots_ne fun e => hq (e ▸ List.suffix_refl _), fun _ q hq => withPlots_ne hq,
        fun h => by cases h⟩
    · rw [if_pos rfl] at h
      rcases hs : (savePdfs d n).run (withPlots fs d) with ⟨y | y, g⟩
      · rw [hs] at h
        cases h
        refine ⟨fun q hq => ?_, fun h => (by cases h), fun _ ⟨x, hx⟩ => by cases hx⟩
        rw [run_frame (writes_savePdfs d n) hs (q := q) (by
          rintro ⟨f, rfl⟩
          exact hq (List.suffix_cons _ _))]
        exact withPlots_ne fun e => hq (e ▸ List.suffix_refl _)
      · rw [hs] at h
        cases h
        obtain ⟨s1, s2⟩ := savePdfs_ok hs
        refine ⟨fun q hq => ?_, fun h => (by cases h), fun _ _ => ⟨s1, fun q hq hq' => ?_⟩⟩
        · rw [s2 q (by
            rintro f - rfl
            exact hq (List.suffix_cons _ _))]
          exact withPlots_ne fun e => hq (e ▸ List.suffix_refl _)
        · rw [s2 q hq']
          exact withPlots_ne hq

/-- **C73**. What `fit_zpoly` does to the disk for its figures (the model of `fit_zpoly` leaves out
what they show) is what plotting the stored fit with `save` does, when the figures can be made. -/
theorem C73_as_in_fit (e : PlotEnv) (d : Path) (n : ℕ) (fs fs' : FS Content) (hd : isDir fs d)
    (x : Σ N, FitFigs N) (h : (Plot.plotFitPath e d n true).run fs = (.ok x, fs')) :
    (Fit.plotFitPath d n).run fs = (.ok (), fs') := by
  rw [plotFit_run e n true hd] at h
  rw [fitPlot_run n hd]
  rcases hx : (fitFigs e d n).run (withPlots fs d) with ⟨x | x, g⟩
  · rw [hx] at h
    cases h
  · have : g = withPlots fs d := by
      funext q
      exact run_frame (writes_fitFigs e d n) hx (fun hn => hn)
    subst this
    rw [hx] at h
    dsimp only at h
    rw [if_pos rfl] at h
    rcases hs : (savePdfs d n).run (withPlots fs d) with ⟨y | y, g⟩
    · rw [hs] at h
      cases h
    · rw [hs] at h
      cases h
      rfl

/-- **C73**. An order that was not fitted: `FileNotFoundError`, and an empty `plots` directory. -/
theorem C73_missing (e : PlotEnv) (d : Path) (n : ℕ) (save : Bool) (fs : FS Content) (hd : isDir fs d)
    (hn : fs (Spec.file "fitpar" n :: d) = none) :
    ∃ fs', (Plot.plotFitPath e d n save).run fs = (.error .fileNotFoundError, fs') ∧
      (fs ("plots".toList :: d) = none → fs' ("plots".toList :: d) = some .dir) ∧
      ∀ q, q ≠ "plots".toList :: d → fs' q = fs q := by
  have hne : Spec.file "fitpar" n :: d ≠ "plots".toList :: d := by
    intro h
    have := congrArg List.head? (List.cons.inj h).1
    simp [Spec.file] at this
  refine ⟨withPlots fs d, ?_, fun h => ?_, fun q hq => withPlots_ne hq⟩
  · rw [plotFit_run e n save hd]
    unfold fitFigs
    rw [Prog.run_bind, run_readFile]
    simp only [Path.join, fileName_spec, withPlots_ne hne, hn]
  · unfold withPlots
    rw [if_neg (by
      show ¬ (fs ("plots".toList :: d)).isSome = true
      rw [h]
      simp), update_same]

/-! ## What the figures show -/

/-- nan for a missing number. -/
def Spec.flOf : Option ℝ → Fl
  | some x => .fin x
  | none => .nan

theorem sameSize_eq {M : ℕ} (A B : Fin 3 × Fin M → ℝ) : sameSize ⟨M, A⟩ ⟨M, B⟩ = .ok B := by
  unfold sameSize
  rw [dif_pos rfl]
  rfl

theorem py_bind_ok {α β : Type} (x : Py α) (f : α → Py β) (b : β) :
    (x >>= f) = .ok b ↔ ∃ a, x = .ok a ∧ f a = .ok b := by
  cases x <;> simp [bind, Except.bind]

theorem sameSize_inv {M : ℕ} {A : Fin 3 × Fin M → ℝ} {y : Σ M, Fin 3 × Fin M → ℝ}
    {B : Fin 3 × Fin M → ℝ} (h : sameSize ⟨M, A⟩ y = .ok B) : y = ⟨M, B⟩ := by
  obtain ⟨M', y⟩ := y
  unfold sameSize at h
  split_ifs at h with hm
  dsimp only at hm
  subst hm
  cases h
  rfl

/-- `figsOf` on arrays of the right shape. -/
theorem figsOf_iff {M N : ℕ} (e : PlotEnv) (n : ℕ) (fit : List ℝ) (info : Info) (hN : info.fftResolution = N)
    (beam res u v cov corr : MathFn.Arr) (U V R : Fin 3 × Fin M → ℝ)
    (hu : threeRows u = .ok ⟨M, U⟩) (hv : threeRows v = .ok ⟨M, V⟩) (hr : threeRows res = .ok ⟨M, R⟩)
    (x : Σ N, FitFigs N) :
    figsOf e n fit info beam res u v cov corr = .ok x ↔
      ∃ figs : FitFigs N, x = ⟨N, figs⟩ ∧
      (if n = 1 then ∃ B data, threeRows beam = .ok ⟨M, B⟩ ∧
          plotBeamData e.org (e.griddata M N) e.c U V B info.dz false = .ok data ∧ figs.data = some data
        else figs.data = none) ∧
      plotBeam e.org (fit.take 5) (fit.drop 5) info.dz info.wavel (e.illum N) (e.tel N) info.boxFactor
        e.plim e.c = .ok figs.beam ∧
      plotPhase e.org (fit.drop 5) info.pr false false = .ok figs.phase ∧
      plotBeamData e.org (e.griddata M N) e.c U V R info.dz true = .ok figs.res ∧
      plotVariance e.strict cov n true = .ok figs.cov ∧
      plotVariance e.strict corr n true = .ok figs.corr := by
  subst hN
  unfold figsOf
  by_cases h1 : n = 1
  · simp only [py_bind_ok, hu, hv, hr, Except.ok.injEq, exists_eq_left', sameSize_eq, if_pos h1]
    constructor
    · rintro ⟨y, hy, B, hB, data, hd, fb, hb, fp, hp, fr, hr, fc, hc, fk, hk, hx⟩
      cases hx
      exact ⟨_, rfl, ⟨B, data, by rw [hy, sameSize_inv hB], hd, rfl⟩, hb, hp, hr, hc, hk⟩
    · rintro ⟨figs, rfl, ⟨B, data, hB, hd, hfd⟩, hb, hp, hr, hc, hk⟩
      refine ⟨_, hB, B, sameSize_eq _ _, data, hd, _, hb, _, hp, _, hr, _, hc, _, hk, ?_⟩
      rw [← hfd]
      rfl
  · simp only [py_bind_ok, hu, hv, hr, Except.ok.injEq, exists_eq_left', sameSize_eq, if_neg h1]
    constructor
    · rintro ⟨fb, hb, fp, hp, fr, hr, fc, hc, fk, hk, hx⟩
      cases hx
      exact ⟨_, rfl, rfl, hb, hp, hr, hc, hk⟩
    · rintro ⟨figs, rfl, hd, hb, hp, hr, hc, hk⟩
      refine ⟨_, hb, _, hp, _, hr, _, hc, _, hk, ?_⟩
      rw [← hd]
      rfl

/-- A stored matrix below a row of parameter numbers. -/
theorem vstack_grid {p : ℕ} (hdr : List ℝ) (hl : hdr.length = p) (A : Fin p → Fin p → Fl)
    (rows : List (List Fl)) (h : Spec.Grid A rows) :
    Spec.Grid (m := p + 1) (n := p) (fun i j => Fin.cases (Fl.fin (hdr.getD j 0)) (fun i => A i j) i)
      (hdr.map Fl.fin :: rows) := by
  unfold Spec.Grid at h ⊢
  rw [List.ofFn_succ, h]
  congr 1
  subst hl
  refine List.ext_getElem (by simp) fun i h1 h2 => ?_
  simp at h1 ⊢

theorem after_fit {N M : ℕ} {a : Input N M} {fs fs' : FS Content} {d : Path}
    (h : (fitZpoly a).run fs = (.ok d, fs')) (hd : fs d = none ∨ isDir fs d) : isDir fs' d := by
  obtain ⟨fs1, s0, s1, s2, h1, -, -, -, h2⟩ := fitZpoly_ok h
  exact run_isDir h2 (allocDir_isDir h1 hd)

/-- The figure `fig` is the one of the matrix stored as `kind`, for parameters up to order `k`. -/
def Spec.MatrixFig (fs : FS Content) (d : Path) (k : ℕ) (strict : Bool) (kind : String)
    (fig : Σ m n, VarFig m n) : Prop :=
  ∃ (p : ℕ) (title : Str) (rows : List (List Fl)) (matrix : Fin (p + 1) × Fin p → Option ℝ)
    (vf : VarFig p p),
    fs (Spec.file kind k :: d) = some (.file (.csv title rows)) ∧
    Spec.Grid (fun i j => Spec.flOf (matrix (i, j))) rows ∧
    plotVariance2 strict matrix k true = .ok vf ∧ fig = ⟨p, p, vf⟩

theorem matrixFig_of {fs : FS Content} {d : Path} {k p : ℕ} {strict : Bool} {kind : String} {title : Str}
    {rows : List (List Fl)} {hdr : List ℝ} {A : Fin p → Fin p → Fl} {arr : MathFn.Arr}
    {fig : Σ m n, VarFig m n} (hl : hdr.length = p)
    (hf : fs (Spec.file kind k :: d) = some (.file (.csv title (hdr.map Fl.fin :: rows))))
    (hg : Spec.Grid A rows) (hA : ∀ i j, A i j = .nan ∨ ∃ x, A i j = .fin x)
    (h1 : genfromtxt (hdr.map Fl.fin :: rows) = .ok arr) (h2 : plotVariance strict arr k true = .ok fig) :
    Spec.MatrixFig fs d k strict kind fig := by
  have hg' := vstack_grid hdr hl A rows hg
  obtain ⟨arr', h1', hs⟩ := grid_read _ _ hg'
  rw [h1] at h1'
  cases h1'
  rcases hs with ⟨-, hp, rfl⟩ | ⟨-, m, f, rfl⟩
  · unfold plotVariance at h2
    simp only [py_bind_ok] at h2
    obtain ⟨vf, h2, h3⟩ := h2
    cases h3
    refine ⟨p, title, _, _, vf, hf, ?_, h2, rfl⟩
    have : ∀ i j, Spec.flOf (toNum (Fin.cases (motive := fun _ => Fl) (Fl.fin (hdr.getD (j : Fin p) 0)) (fun i => A i j) i)) =
        Fin.cases (motive := fun _ => Fl) (Fl.fin (hdr.getD j 0)) (fun i => A i j) i := by
      intro i j
      refine Fin.cases ?_ (fun i => ?_) i
      · rfl
      · simp only [Fin.cases_succ]
        rcases hA i j with h | ⟨x, h⟩ <;> rw [h] <;> rfl
    simp only [this]
    exact hg'
  · unfold plotVariance at h2
    cases m with
    | zero => cases h2
    | succ m =>
      simp only [py_bind_ok] at h2
      obtain ⟨_, _, h⟩ := h2
      cases h

/-- All that plotting an order needs, as `fit_zpoly` leaves it. -/
theorem stored_order {N M : ℕ} {a : Input N M} {fs fs' : FS Content} {d : Path}
    (h : (fitZpoly a).run fs = (.ok d, fs')) (hd : fs d = none ∨ isDir fs d) {k : ℕ} (hk : 1 ≤ k)
    (hk' : k ≤ a.orderMax) (e : PlotEnv) :
    ∃ (names : List Str) (fit init hdr : List ℝ) (R : Fin 3 × Fin M → ℝ) (i : Info)
      (res cov cor : List (List Fl)) (t1 t2 t3 : Str) (a1 a2 a3 a4 a5 a6 : MathFn.Arr) (p : ℕ)
      (C K : Fin p → Fin p → Fl) (ph : PhaseMap 1000),
      fs' (Spec.file "fitpar" k :: d) = some (.file (.params names fit init)) ∧
      phase (fit.drop 5) a.tel.pr false false 1000 = .ok ph ∧
      i.dz = [a.dz 0, a.dz 1, a.dz 2] ∧ i.wavel = a.wavel ∧ i.pr = a.tel.pr ∧ i.fftResolution = N ∧
      i.boxFactor = a.boxFactor ∧
      fs' (Spec.file "res" k :: d) = some (.file (.csv t1 res)) ∧
      Spec.Grid (fun i j => .fin (R (i, j))) res ∧
      hdr.length = p ∧
      Core.npDelete ((List.range (Spec.nK k + 5)).map fun k : ℕ => (k : ℝ)) a.cfg.excluded = .ok hdr ∧
      fs' (Spec.file "cov" k :: d) = some (.file (.csv t2 (hdr.map Fl.fin :: cov))) ∧
      Spec.Grid C cov ∧ (∀ i j, C i j = .nan ∨ ∃ x, C i j = .fin x) ∧
      fs' (Spec.file "corr" k :: d) = some (.file (.csv t3 (hdr.map Fl.fin :: cor))) ∧
      Spec.Grid K cor ∧ (∀ i j, K i j = .nan ∨ ∃ x, K i j = .fin x) ∧
      genfromtxt (hdr.map Fl.fin :: cov) = .ok a5 ∧ genfromtxt (hdr.map Fl.fin :: cor) = .ok a6 ∧
      (∀ B, threeRows a1 = .ok ⟨M, B⟩ ↔ 2 ≤ M ∧ ∀ q, a.beam q = .fin (B q)) ∧
      (∀ x, threeRows a3 = .ok x ↔ 2 ≤ M ∧ x = ⟨M, a.u⟩) ∧
      (∀ x, threeRows a4 = .ok x ↔ 2 ≤ M ∧ x = ⟨M, a.v⟩) ∧
      (∀ x, threeRows a2 = .ok x ↔ 2 ≤ M ∧ x = ⟨M, R⟩) ∧
      (fitFigs e d k).run (withPlots fs' d) = (figsOf e k fit i a1 a2 a3 a4 a5 a6, withPlots fs' d) := by
  obtain ⟨names, fit, init, it, lb, ub, r, co, hdr, ph, res, jac, grad, phi, cov, cor, g1, -, -, -, -, -,
    -, gh, gl, gp, gr, gr', -, -, -, -, -, -, gc, gc', gk, gk'⟩ := C67_provenance a fs fs' d h hd k hk hk'
  obtain ⟨s, beam, u, v, i, -, ib, ib', iu, iu', iv, iv', ii, i1, i2, i3, i4, i5, i6, i7, i8, -, -, -, i9,
    i10, -⟩ := C67_observation a fs fs' d h hd (by omega)
  have hw : ∀ f : Str, f ≠ "plots".toList → withPlots fs' d (f :: d) = fs' (f :: d) := fun f hf =>
    withPlots_ne fun e => hf (List.cons.inj e).1
  have hne : ∀ kind : String, kind.toList.head? ≠ some 'p' → kind.toList ≠ [] →
      Spec.file kind k ≠ "plots".toList := by
    intro kind h1 h2 h3
    have := congrArg List.head? h3
    rw [Spec.file, List.append_assoc, List.append_assoc, List.head?_append_of_ne_nil _ h2] at this
    exact h1 this
  obtain ⟨a1, e1, s1⟩ := grid_read _ _ ib'
  obtain ⟨a2, e2, s2⟩ := grid_read _ _ gr'
  obtain ⟨a3, e3, s3⟩ := grid_read _ _ iu'
  obtain ⟨a4, e4, s4⟩ := grid_read _ _ iv'
  obtain ⟨a5, e5, s5⟩ := grid_read _ _ (vstack_grid hdr gl _ _ gc')
  obtain ⟨a6, e6, s6⟩ := grid_read _ _ (vstack_grid hdr gl _ _ gk')
  have hthree : ∀ (B : Fin 3 × Fin M → ℝ) (arr : MathFn.Arr)
      (hs : (2 ≤ 3 ∧ 2 ≤ M ∧ arr = .d2 3 M fun q => toNum (.fin (B (q.1, q.2)))) ∨
        (3 ≤ 1 ∨ M ≤ 1) ∧ ∃ k f, arr = .d1 k f) (x), threeRows arr = .ok x ↔ 2 ≤ M ∧ x = ⟨M, B⟩ := by
    intro B arr hs x
    obtain ⟨t1, t2⟩ := three_grid (fun i j => .fin (B (i, j))) arr hs
    constructor
    · intro hx
      obtain ⟨hM, B', rfl, hB'⟩ := t2 x hx
      refine ⟨hM, ?_⟩
      congr 1
      funext q
      exact (Fl.fin.inj (hB' q)).symm
    · rintro ⟨hM, rfl⟩
      exact t1 B (fun q => rfl) hM
  refine ⟨names, fit, init, hdr, fun q => r.fn (finProdFinEquiv q), i, res, cov, cor, _, _, _, a1, a2, a3, a4,
    a5, a6, it.length, _, _, ph, g1, gp, i7, i8, i4, i9, i10, gr, gr', gl, gh, gc, gc', ?_, gk, gk', ?_, e5, e6, ?_,
    hthree _ _ s3, hthree _ _ s4, hthree (fun q => r.fn (finProdFinEquiv q)) _ s2, ?_⟩
  · intro i j
    cases co
    · exact .inl rfl
    · exact .inr ⟨_, rfl⟩
  · intro i j
    cases co
    · exact .inl rfl
    · exact .inr ⟨_, rfl⟩
  · intro B
    obtain ⟨t1, t2⟩ := three_grid (fun i j => a.beam (i, j)) a1 s1
    constructor
    · intro hB
      obtain ⟨hM, B', hB', hq⟩ := t2 _ hB
      cases hB'
      exact ⟨hM, hq⟩
    · rintro ⟨hM, hq⟩
      exact t1 B hq hM
  · exact fitFigs_run (fs := withPlots fs' d) (d := d) (n := k) e
      ((hw _ (hne _ (by decide) (by decide))).trans g1) ((hw _ (by decide)).trans ii)
      ((hw _ (by decide)).trans ib) ((hw _ (hne _ (by decide) (by decide))).trans gr)
      ((hw _ (by decide)).trans iu) ((hw _ (by decide)).trans iv)
      ((hw _ (hne _ (by decide) (by decide))).trans gc) ((hw _ (hne _ (by decide) (by decide))).trans gk)
      e1 e2 e3 e4 e5 e6

theorem figs_of_run {e : PlotEnv} {d : Path} {k : ℕ} {save : Bool} {fs fs' : FS Content} {x : Σ N, FitFigs N}
    {y : Py (Σ N, FitFigs N)} (hd : isDir fs d)
    (hx : (Plot.plotFitPath e d k save).run fs = (.ok x, fs'))
    (hrun : (fitFigs e d k).run (withPlots fs d) = (y, withPlots fs d)) : y = .ok x := by
  rw [plotFit_run e k save hd, hrun] at hx
  cases y with
  | error y => cases hx
  | ok y =>
    dsimp only at hx
    cases save
    · cases hx; rfl
    · rw [if_pos rfl] at hx
      rcases hs : (savePdfs d k).run (withPlots fs d) with ⟨z | z, g⟩
      · rw [hs] at hx; cases hx
      · rw [hs] at hx; cases hx; rfl

/-- **C73**. After a fit, `plot_fit_path` with the telescope and the illumination of the fit makes the
figures of that fit: `plot_beam` and `plot_phase` (without piston and tilt) of the stored solution
with the offsets, wavelength, box factor and resolution of the fit, `plot_beam_data` of the residual
stored for the order and, for order 1 only, of the observed maps, `plot_variance` of the two stored
matrices. -/
theorem C73_shows {N M : ℕ} (a : Input N M) (fs fs' fs'' : FS Content) (d : Path)
    (h : (fitZpoly a).run fs = (.ok d, fs')) (hd : fs d = none ∨ isDir fs d) (k : ℕ) (hk : 1 ≤ k)
    (hk' : k ≤ a.orderMax) (e : PlotEnv) (ht : e.tel N = a.tel) (hi : e.illum N = a.illum) (save : Bool)
    (x : Σ N, FitFigs N) (hx : (Plot.plotFitPath e d k save).run fs' = (.ok x, fs'')) :
    ∃ (figs : FitFigs N) (names : List Str) (fit init : List ℝ) (R : Fin 3 × Fin M → ℝ) (title : Str)
      (rows : List (List Fl)), x = ⟨N, figs⟩ ∧
      fs' (Spec.file "fitpar" k :: d) = some (.file (.params names fit init)) ∧
      plotBeam e.org (fit.take 5) (fit.drop 5) [a.dz 0, a.dz 1, a.dz 2] a.wavel a.illum a.tel a.boxFactor
        e.plim e.c = .ok figs.beam ∧
      plotPhase e.org (fit.drop 5) a.tel.pr false false = .ok figs.phase ∧
      fs' (Spec.file "res" k :: d) = some (.file (.csv title rows)) ∧
      Spec.Grid (fun i j => .fin (R (i, j))) rows ∧
      plotBeamData e.org (e.griddata M N) e.c a.u a.v R [a.dz 0, a.dz 1, a.dz 2] true = .ok figs.res ∧
      (k = 1 → ∃ B data, (∀ q, a.beam q = .fin (B q)) ∧
        plotBeamData e.org (e.griddata M N) e.c a.u a.v B [a.dz 0, a.dz 1, a.dz 2] false = .ok data ∧
        figs.data = some data) ∧
      (k ≠ 1 → figs.data = none) ∧
      Spec.MatrixFig fs' d k e.strict "cov" figs.cov ∧ Spec.MatrixFig fs' d k e.strict "corr" figs.corr := by
  have hd' := after_fit h hd
  obtain ⟨names, fit, init, hdr, R, i, res, cov, cor, t1, t2, t3, a1, a2, a3, a4, a5, a6, p, C, K, ph, g1, -, i6, i7, i3,
    i9, i10, gr, gr', gl, -, gc, gc', gC, gk, gk', gK, e5, e6, s1, s3, s4, s2, hrun⟩ := stored_order h hd hk hk' e
  have hfig := figs_of_run hd' hx hrun
  have hM : 2 ≤ M := by
    unfold figsOf at hfig
    simp only [py_bind_ok] at hfig
    obtain ⟨u3, hu3, -⟩ := hfig
    exact ((s3 _).1 hu3).1
  obtain ⟨figs, rfl, f1, f2, f3, f4, f5, f6⟩ := (figsOf_iff e k fit i i9 a1 a2 a3 a4 a5 a6 _ _ _
    ((s3 _).2 ⟨hM, rfl⟩) ((s4 _).2 ⟨hM, rfl⟩) ((s2 _).2 ⟨hM, rfl⟩) x).1 hfig
  rw [i6, i7, ht, hi, i10] at f2
  rw [i3] at f3
  rw [i6] at f4
  refine ⟨figs, names, fit, init, R, t1, res, rfl, g1, f2, f3, gr, gr', f4, ?_, ?_,
    matrixFig_of gl gc gc' gC e5 f5, matrixFig_of gl gk gk' gK e6 f6⟩
  · intro h1
    rw [if_pos h1] at f1
    obtain ⟨B, data, hB, hdat, hfd⟩ := f1
    rw [i6] at hdat
    exact ⟨B, data, ((s1 B).1 hB).2, hdat, hfd⟩
  · intro h1
    rw [if_neg h1] at f1
    exact f1

/-- The indices of the fitted parameters, in ascending order. -/
def Spec.Fitted (S : List ℕ) (total : ℕ) {p : ℕ} (idx : Fin p → ℕ) : Prop :=
  StrictMono idx ∧ ∀ k, (∃ c, idx c = k) ↔ k < total ∧ k ∉ S

/-- The row above the stored matrices. -/
theorem header_fitted {cfg : Core.Config} {S : List ℕ} (hf : Spec.Feasible cfg S) {k : ℕ} (hk : 1 ≤ k)
    {hdr : List ℝ} {p : ℕ} (hl : hdr.length = p)
    (h : Core.npDelete ((List.range (Spec.nK k + 5)).map fun k : ℕ => (k : ℝ)) cfg.excluded = .ok hdr) :
    ∃ idx : Fin p → ℕ, p + S.length = 5 + Spec.nK k ∧ Spec.Fitted S (5 + Spec.nK k) idx ∧
      ∀ j : Fin p, hdr.getD j 0 = (idx j : ℝ) := by
  have hlen : S.length ≤ 8 := by
    have hnd : S.Nodup := hf.ascending.imp fun h => ne_of_lt h
    rw [← List.toFinset_card_of_nodup hnd]
    refine le_trans (Finset.card_le_card (t := Finset.range 8) fun e he => ?_) (by simp)
    have := hf.below e (List.mem_toFinset.1 he)
    exact Finset.mem_range.2 (by omega)
  have hK : 3 ≤ Spec.nK k := by
    unfold Spec.nK
    have : 6 ≤ (k + 1) * (k + 2) := Nat.mul_le_mul (by omega : 2 ≤ k + 1) (by omega : 3 ≤ k + 2)
    omega
  obtain ⟨r, header, -, h2, h3, h4, h5, -⟩ := C38_header cfg S hf.excluded hf.ascending hf.below hf.fixed
    (Spec.nK k) hK (List.replicate (5 + Spec.nK k - S.length) 0) (by simp; omega)
  have hlt : ∀ e ∈ S, e < Spec.nK k + 5 := fun e he => by have := hf.below e he; omega
  have hh : hdr = header.map fun k : ℕ => (k : ℝ) := by
    rw [hf.excluded, npDelete_ok _ S (by simpa using hlt)] at h h2
    rw [dropAt_map] at h
    cases h
    cases h2
    rfl
  subst hh
  rw [List.length_map] at hl
  subst hl
  refine ⟨fun c => header.get c, by rw [h3, List.length_replicate]; omega, ⟨fun i j hij => List.pairwise_iff_get.1 h4 i j hij, fun m => ?_⟩, fun j => ?_⟩
  · rw [show 5 + Spec.nK k = Spec.nK k + 5 by omega, ← h5 m]
    exact List.mem_iff_get.symm
  · simp

theorem matrix_cells {cfg : Core.Config} {S : List ℕ} (hf : Spec.Feasible cfg S) {fs : FS Content} {d : Path}
    {k p : ℕ} (hk : 1 ≤ k) {strict : Bool} {kind : String} {title : Str}
    {rows : List (List Fl)} {hdr : List ℝ} {C : Fin p → Fin p → Fl} {arr : MathFn.Arr}
    {fig : Σ m n, VarFig m n} (hl : hdr.length = p)
    (hh : Core.npDelete ((List.range (Spec.nK k + 5)).map fun k : ℕ => (k : ℝ)) cfg.excluded = .ok hdr)
    (hfile : fs (Spec.file kind k :: d) = some (.file (.csv title (hdr.map Fl.fin :: rows))))
    (hg : Spec.Grid C rows) (hC : ∀ i j, C i j = .nan ∨ ∃ x, C i j = .fin x)
    (h1 : genfromtxt (hdr.map Fl.fin :: rows) = .ok arr) (h2 : plotVariance strict arr k true = .ok fig) :
    ∃ (p : ℕ) (vf : VarFig p p) (idx : Fin p → ℕ) (A : Fin p → Fin p → Option ℝ) (title : Str)
      (rows : List (List Fl)), fig = ⟨p, p, vf⟩ ∧ 2 ≤ p ∧ p + S.length = 5 + Spec.nK k ∧
      Spec.Fitted S (5 + Spec.nK k) idx ∧
      fs (Spec.file kind k :: d) = some (.file (.csv title
        ((List.ofFn fun j => .fin (idx j : ℝ)) :: rows))) ∧
      Spec.Grid (fun i j => Spec.flOf (A i j)) rows ∧
      ∀ c t : Fin p, ∃ x y lx ly, vf.xTicks[(c : ℕ)]? = some x ∧ vf.yTicks[(t : ℕ)]? = some y ∧
        vf.xLabels[(c : ℕ)]? = some lx ∧ vf.yLabels[(t : ℕ)]? = some ly ∧
        Spec.Label (idx c) lx ∧ Spec.Label (idx t.rev) ly ∧
        (∀ q, Spec.Covers vf.img q x y ↔ q = (t.rev, c)) ∧
        vf.img.data (t.rev, c) = if c ≤ t.rev then some (A c t.rev) else none := by
  obtain ⟨idx, hp, hi, hidx⟩ := header_fitted hf hk hl hh
  have hg' := vstack_grid hdr hl C rows hg
  obtain ⟨arr', h1', hs⟩ := grid_read _ _ hg'
  rw [h1] at h1'
  cases h1'
  rcases hs with ⟨-, hp2, rfl⟩ | ⟨-, m, f, rfl⟩
  · unfold plotVariance at h2
    simp only [py_bind_ok] at h2
    obtain ⟨vf, h2, h3⟩ := h2
    cases h3
    obtain ⟨vf', h4, -, -, -, -, h5⟩ := C71_cells (order := k) strict (by omega)
      (fun q : Fin (p + 1) × Fin p => toNum (Fin.cases (motive := fun _ => Fl) (Fl.fin (hdr.getD q.2 0))
        (fun i => C i q.2) q.1)) idx (fun j => by
      show some (hdr.getD j 0) = _
      rw [hidx]) (fun j => ((hi.2 (idx j)).1 ⟨j, rfl⟩).1)
    rw [h2] at h4
    cases h4
    refine ⟨p, vf, idx, fun i j => toNum (C i j), title, rows, rfl, hp2, hp, hi, ?_, ?_, h5⟩
    · rw [hfile]
      congr 5
      refine List.ext_getElem (by simp [hl]) fun i h1 h2 => ?_
      have := hidx ⟨i, by simpa using h2⟩
      rw [List.getElem_map, List.getElem_ofFn, ← this]
      congr 1
      have h1' : i < hdr.length := by simpa using h1
      simp [List.getD, List.getElem?_eq_getElem h1']
    · have : ∀ i j, Spec.flOf (toNum (C i j)) = C i j := by
        intro i j
        rcases hC i j with h | ⟨x, h⟩ <;> rw [h] <;> rfl
      simp only [this]
      exact hg
  · unfold plotVariance at h2
    cases m with
    | zero => cases h2
    | succ m =>
      simp only [py_bind_ok] at h2
      obtain ⟨_, _, h⟩ := h2
      cases h

/-- **C73**. The figures of the covariance and correlation matrices of a fit: as many columns as
fitted parameters, column `c` labelled with the `c`-th parameter that is not excluded, tick `t` of
the vertical axis with the one `t` places from the end; the pixel there shows the stored entry of
these two parameters (or is masked above the diagonal). -/
theorem C73_matrices {N M : ℕ} (a : Input N M) (fs fs' fs'' : FS Content) (d : Path)
    (h : (fitZpoly a).run fs = (.ok d, fs')) (hd : fs d = none ∨ isDir fs d) (k : ℕ) (hk : 1 ≤ k)
    (hk' : k ≤ a.orderMax) (S : List ℕ) (hf : Spec.Feasible a.cfg S) (e : PlotEnv)
    (save : Bool) (N' : ℕ) (figs : FitFigs N')
    (hx : (Plot.plotFitPath e d k save).run fs' = (.ok ⟨N', figs⟩, fs'')) (kind : String)
    (fig : Σ m n, VarFig m n) (hfig : kind = "cov" ∧ fig = figs.cov ∨ kind = "corr" ∧ fig = figs.corr) :
    ∃ (p : ℕ) (vf : VarFig p p) (idx : Fin p → ℕ) (A : Fin p → Fin p → Option ℝ) (title : Str)
      (rows : List (List Fl)), fig = ⟨p, p, vf⟩ ∧ 2 ≤ p ∧ p + S.length = 5 + Spec.nK k ∧
      Spec.Fitted S (5 + Spec.nK k) idx ∧
      fs' (Spec.file kind k :: d) = some (.file (.csv title
        ((List.ofFn fun j => .fin (idx j : ℝ)) :: rows))) ∧
      Spec.Grid (fun i j => Spec.flOf (A i j)) rows ∧
      ∀ c t : Fin p, ∃ x y lx ly, vf.xTicks[(c : ℕ)]? = some x ∧ vf.yTicks[(t : ℕ)]? = some y ∧
        vf.xLabels[(c : ℕ)]? = some lx ∧ vf.yLabels[(t : ℕ)]? = some ly ∧
        Spec.Label (idx c) lx ∧ Spec.Label (idx t.rev) ly ∧
        (∀ q, Spec.Covers vf.img q x y ↔ q = (t.rev, c)) ∧
        vf.img.data (t.rev, c) = if c ≤ t.rev then some (A c t.rev) else none := by
  have hd' := after_fit h hd
  obtain ⟨names, fit, init, hdr, R, i, res, cov, cor, t1, t2, t3, a1, a2, a3, a4, a5, a6, p, C, K, ph, g1, -, i6, i7, i3,
    i9, i10, gr, gr', gl, gh, gc, gc', gC, gk, gk', gK, e5, e6, s1, s3, s4, s2, hrun⟩ := stored_order h hd hk hk' e
  have hfo := figs_of_run hd' hx hrun
  have hM : 2 ≤ M := by
    unfold figsOf at hfo
    simp only [py_bind_ok] at hfo
    obtain ⟨u3, hu3, -⟩ := hfo
    exact ((s3 _).1 hu3).1
  obtain ⟨figs', hN, -, -, -, -, f5, f6⟩ := (figsOf_iff e k fit i i9 a1 a2 a3 a4 a5 a6 _ _ _
    ((s3 _).2 ⟨hM, rfl⟩) ((s4 _).2 ⟨hM, rfl⟩) ((s2 _).2 ⟨hM, rfl⟩) _).1 hfo
  cases hN
  rcases hfig with ⟨rfl, rfl⟩ | ⟨rfl, rfl⟩
  · exact matrix_cells hf hk gl gh gc gc' gC e5 f5
  · exact matrix_cells hf hk gl gh gk gk' gK e6 f6

/-- **C73**. A fit of a single parameter cannot be plotted. -/
theorem C73_single {N M : ℕ} (a : Input N M) (fs fs' : FS Content) (d : Path)
    (h : (fitZpoly a).run fs = (.ok d, fs')) (hd : fs d = none ∨ isDir fs d) (k : ℕ) (hk : 1 ≤ k)
    (hk' : k ≤ a.orderMax) (S : List ℕ) (hf : Spec.Feasible a.cfg S)
    (hS : 5 + Spec.nK k = S.length + 1) (e : PlotEnv) (save : Bool) :
    ∃ err fs'', (Plot.plotFitPath e d k save).run fs' = (.error err, fs'') := by
  rcases hr : (Plot.plotFitPath e d k save).run fs' with ⟨err | ⟨N', figs⟩, fs''⟩
  · exact ⟨err, fs'', rfl⟩
  · obtain ⟨p, -, -, -, -, -, -, h2, hp, -⟩ := C73_matrices a fs fs' fs'' d h hd k hk hk' S hf e save N' figs hr
      "cov" figs.cov (.inl ⟨rfl, rfl⟩)
    omega

theorem grid_inj {m n : ℕ} {A B : Fin m → Fin n → Fl} {rows : List (List Fl)} (hA : Spec.Grid A rows)
    (hB : Spec.Grid B rows) : A = B := by
  unfold Spec.Grid at hA hB
  rw [hA] at hB
  have h1 := List.ofFn_injective hB
  funext i
  exact List.ofFn_injective (congrFun h1 i)

theorem variance_ok {cfg : Core.Config} {S : List ℕ} (hf : Spec.Feasible cfg S)
    {k p : ℕ} (hk : 1 ≤ k) (strict : Bool)
    {rows : List (List Fl)} {hdr : List ℝ} {C : Fin p → Fin p → Fl} {arr : MathFn.Arr}
    (hl : hdr.length = p)
    (hh : Core.npDelete ((List.range (Spec.nK k + 5)).map fun k : ℕ => (k : ℝ)) cfg.excluded = .ok hdr)
    (hg : Spec.Grid C rows) (h1 : genfromtxt (hdr.map Fl.fin :: rows) = .ok arr)
    (hS : S.length + 2 ≤ 5 + Spec.nK k) : ∃ fig, plotVariance strict arr k true = .ok fig := by
  obtain ⟨idx, hp, hi, hidx⟩ := header_fitted hf hk hl hh
  have hg' := vstack_grid hdr hl C rows hg
  obtain ⟨arr', h1', hs⟩ := grid_read _ _ hg'
  rw [h1] at h1'
  cases h1'
  rcases hs with ⟨-, hp2, rfl⟩ | ⟨h, -⟩
  · obtain ⟨vf', h4, -, -, -, -, h5⟩ := C71_cells (order := k) strict (by omega)
      (fun q : Fin (p + 1) × Fin p => toNum (Fin.cases (motive := fun _ => Fl) (Fl.fin (hdr.getD q.2 0))
        (fun i => C i q.2) q.1)) idx (fun j => by
      show some (hdr.getD j 0) = _
      rw [hidx]) (fun j => ((hi.2 (idx j)).1 ⟨j, rfl⟩).1)
    refine ⟨⟨p, p, vf'⟩, ?_⟩
    unfold plotVariance
    simp only [py_bind_ok]
    exact ⟨vf', h4, rfl⟩
  · omega

/-- **C73**. A fit of at least two parameters on maps of at least two points can be plotted whenever
the beam maps, the residual and, for order 1, the observed maps can: the phase map and the two
matrices never prevent it. -/
theorem C73_total {N M : ℕ} (a : Input N M) (fs fs' : FS Content) (d : Path)
    (h : (fitZpoly a).run fs = (.ok d, fs')) (hd : fs d = none ∨ isDir fs d) (k : ℕ) (hk : 1 ≤ k)
    (hk' : k ≤ a.orderMax) (S : List ℕ) (hf : Spec.Feasible a.cfg S)
    (hS : S.length + 2 ≤ 5 + Spec.nK k) (hM : 2 ≤ M) (e : PlotEnv)
    (ht : e.tel N = a.tel) (hi : e.illum N = a.illum)
    (names : List Str) (fit init : List ℝ) (R : Fin 3 × Fin M → ℝ) (title : Str) (rows : List (List Fl))
    (hfit : fs' (Spec.file "fitpar" k :: d) = some (.file (.params names fit init)))
    (hres : fs' (Spec.file "res" k :: d) = some (.file (.csv title rows)))
    (hR : Spec.Grid (fun i j => .fin (R (i, j))) rows)
    (hb : ∃ r, plotBeam e.org (fit.take 5) (fit.drop 5) [a.dz 0, a.dz 1, a.dz 2] a.wavel a.illum a.tel
      a.boxFactor e.plim e.c = .ok r)
    (hr : ∃ r, plotBeamData e.org (e.griddata M N) e.c a.u a.v R [a.dz 0, a.dz 1, a.dz 2] true = .ok r)
    (hdat : k = 1 → ∃ B r, (∀ q, a.beam q = .fin (B q)) ∧
      plotBeamData e.org (e.griddata M N) e.c a.u a.v B [a.dz 0, a.dz 1, a.dz 2] false = .ok r) :
    ∃ (figs : FitFigs N) (fs'' : FS Content),
      (Plot.plotFitPath e d k false).run fs' = (.ok ⟨N, figs⟩, fs'') := by
  have hd' := after_fit h hd
  obtain ⟨names', fit', init', hdr, R', i, res, cov, cor, t1, t2, t3, a1, a2, a3, a4, a5, a6, p, C, K, ph, g1, gp, i6,
    i7, i3, i9, i10, gr, gr', gl, gh, gc, gc', gC, gk, gk', gK, e5, e6, s1, s3, s4, s2, hrun⟩ :=
    stored_order h hd hk hk' e
  rw [hfit] at g1
  cases g1
  rw [hres] at gr
  cases gr
  have hRR : R' = R := by
    funext q
    exact Fl.fin.inj (congrFun (congrFun (grid_inj gr' hR) q.1) q.2)
  subst hRR
  obtain ⟨fb, hb⟩ := hb
  obtain ⟨fr, hr⟩ := hr
  obtain ⟨fc, hc⟩ := variance_ok hf hk e.strict gl gh gc' e5 hS
  obtain ⟨fk, hk1⟩ := variance_ok hf hk e.strict gl gh gk' e6 hS
  have hph : ∃ fp, plotPhase e.org (fit.drop 5) i.pr false false = .ok fp := by
    rw [i3]
    unfold plotPhase
    rw [gp]
    exact ⟨_, rfl⟩
  obtain ⟨fp, hph⟩ := hph
  have hsol : ∃ data, (if k = 1 then ∃ B r, threeRows a1 = .ok ⟨M, B⟩ ∧
      plotBeamData e.org (e.griddata M N) e.c a.u a.v B i.dz false = .ok r ∧ data = some r
      else data = none) := by
    split_ifs with h1
    · obtain ⟨B, r, hB, hr⟩ := hdat h1
      exact ⟨some r, B, r, (s1 B).2 ⟨hM, hB⟩, by rw [i6]; exact hr, rfl⟩
    · exact ⟨none, rfl⟩
  obtain ⟨data, hdata⟩ := hsol
  have hfo := (figsOf_iff e k fit i i9 a1 a2 a3 a4 a5 a6 _ _ _
    ((s3 _).2 ⟨hM, rfl⟩) ((s4 _).2 ⟨hM, rfl⟩) ((s2 _).2 ⟨hM, rfl⟩) ⟨N, ⟨data, fb, fp, fr, fc, fk⟩⟩).2
    ⟨_, rfl, hdata, by rw [i6, i7, ht, hi, i10]; exact hb, hph, by rw [i6]; exact hr, hc, hk1⟩
  refine ⟨⟨data, fb, fp, fr, fc, fk⟩, withPlots fs' d, ?_⟩
  rw [plotFit_run e k false hd', hrun, hfo]
  rfl

/-! ## A case that meets the hypotheses -/

/-- A fit of order 1 on the corners of a square that stays at its start, where all coefficients are 0. -/
noncomputable def plotInput : Input 2 4 where
  name := "obs".toList
  obsObject := "3C84".toList
  obsDate := "2020".toList
  freq := 34e9
  wavel := 1
  dz := ![-0.022, 0, 0.022]
  meanel := 32
  beam := fun q => .fin q.2
  u := fun q => ![0, 1, 0, 1] q.2
  v := fun q => ![0, 0, 1, 1] q.2
  orderMax := 1
  illum := fun _ _ _ _ => .ok fun _ => 1
  illumName := "one".toList
  tel := ⟨fun _ _ => .ok fun _ => 1, fun _ _ _ => .ok fun _ => 0, 1⟩
  opdName := "none".toList
  telName := "tel".toList
  boxFactor := 1
  fitPrevious := true
  cfg := { Core.defaultConfig with init := [0.01, -10, 1.5, 0, 0, 0, 0, 0] }
  makePlots := false
  workDir := ["home".toList]
  snr := fun _ => .ok (.fin 10)
  solver := lazySolver 12

theorem plotInput_feasible : Spec.Feasible plotInput.cfg [1, 2, 3, 4, 5] where
  excluded := rfl
  ascending := by decide
  below := by decide
  fixed := rfl
  init := rfl
  boundMin := rfl
  boundMax := rfl
  lt k hk hS := by
    interval_cases k <;> simp [plotInput, Core.defaultConfig] at hS ⊢ <;> norm_num
  ge k hk hS := by
    interval_cases k <;> simp [plotInput, Core.defaultConfig] at hS ⊢ <;> norm_num
  le k hk hS := by
    interval_cases k <;> simp [plotInput, Core.defaultConfig] at hS ⊢ <;> norm_num

theorem plotInput_run : ∃ d fs', (fitZpoly plotInput).run sampleFs = (.ok d, fs') := by
  refine C40_completes plotInput [1, 2, 3, 4, 5] plotInput_feasible (lazy_inBounds 12)
    (fun f x0 lb ub hp hl => ⟨_, rfl, fun v hv => ?_, ?_⟩) (by simp [Spec.nK, plotInput])
    (fun _ => ⟨_, rfl⟩) sampleFs sampleFs_wf (by simp [plotInput, sampleFs, isDir])
    (.inl (by simp [plotInput, sampleFs]))
    (.inl ⟨0, by omega, by simp [Spec.runDir, plotInput, sampleFs]⟩)
  · funext j
    have := congrFun hv ⟨j.val, by omega⟩
    simpa [Matrix.mulVec, dotProduct, Fin.val_inj] using this
  · intro h
    have := congrFun h ⟨0, by norm_num⟩
    simp at this

/-- Some interpolation that does not give a flat map. -/
noncomputable def slope (M N : ℕ) : GridData M N := fun _ _ _ _ _ => .ok fun q => some ((q.1 : ℕ) : ℝ)

noncomputable def plotEnv : PlotEnv where
  org := .lower
  strict := true
  illum _ := fun _ _ _ _ => .ok fun _ => 1
  tel _ := ⟨fun _ _ => .ok fun _ => 1, fun _ _ _ => .ok fun _ => 0, 1⟩
  griddata := slope
  c := 180 / Real.pi
  plim := none

theorem zero_pattern (I : List ℝ) (d : ℝ) : ∃ P : Pattern 2, radiationPattern I [0, 0, 0] d 1
    (fun _ _ _ _ => .ok fun _ => 1) ⟨fun _ _ => .ok fun _ => 1, fun _ _ _ => .ok fun _ => 0, 1⟩ 1 = .ok P ∧
    ∃ q q', ‖P.F q‖ ≠ ‖P.F q'‖ := by
  have : ∃ P : Pattern 2, radiationPattern I [0, 0, 0] d 1 (fun _ _ _ _ => .ok fun _ => 1)
      ⟨fun _ _ => .ok fun _ => 1, fun _ _ _ => .ok fun _ => 0, 1⟩ 1 = .ok P := by
    rw [C14_ok_iff _ _ _ _ _ le_rfl]
    exact ⟨_, aperture_ok_iff.2 ⟨_, _, _, _, rfl, wavefront_ok _ _ _ 1 rfl, rfl, rfl, rfl⟩⟩
  obtain ⟨P, h⟩ := this
  refine ⟨P, h, (1, 1), (1, 0), ?_⟩
  obtain ⟨E, hE, hF⟩ := C15_fourier_sum _ _ _ _ _ _ _ _ _ (by norm_num) (by norm_num) (by norm_num) h
  have hE1 : ∀ q, E q = 1 := by
    obtain ⟨B, W, dl, Ea, k1, k2, k3, k4, rfl⟩ := aperture_ok_iff.1 hE
    rw [wavefront_ok _ _ _ 1 rfl] at k2
    cases k1
    cases k2
    cases k3
    cases k4
    intro q
    simp [wfVal, tri, Finset.sum_range_succ]
  obtain ⟨-, E', -, rfl⟩ := radiationPattern_ok h
  have h1 := hF 1 1
  have h0 := hF 1 0
  simp only [hE1, Fin.sum_univ_two] at h1 h0
  have hz : ∀ t : ℂ, t = Real.pi * Complex.I → Complex.exp t = -1 := by
    rintro t rfl; exact Complex.exp_pi_mul_I
  norm_num at h1 h0
  rw [hz _ (by push_cast; ring)] at h0
  intro hcon
  dsimp only at hcon
  rw [h1, h0] at hcon
  norm_num at hcon

theorem slope_panel {M : ℕ} (hM : 0 < M) (c dz : ℝ) (u v b : Fin M → ℝ) :
    ∃ p, dataPanel (N := 2) .lower (slope M 2) c dz u v b = .ok p := by
  obtain ⟨ua, ub, u1, u2, -⟩ := range_spec hM fun k => u k * c
  obtain ⟨va, vb, v1, v2, -⟩ := range_spec hM fun k => v k * c
  obtain ⟨xa, xb, x1, x2, -⟩ := range_spec (n := 2) (by norm_num) (linspace ua ub 2)
  obtain ⟨ya, yb, y1, y2, -⟩ := range_spec (n := 2) (by norm_num) (linspace va vb 2)
  obtain ⟨q, q', e1, e2, e3⟩ := extR_ok (N := 2) (by norm_num) fun q => ((q.1 : ℕ) : ℝ)
  have e1' : ext arrMin (fun q : Fin 2 × Fin 2 => some ((q.1 : ℕ) : ℝ)) = .ok (.fin ((q.1 : ℕ) : ℝ)) := e1
  have e2' : ext arrMax (fun q : Fin 2 × Fin 2 => some ((q.1 : ℕ) : ℝ)) = .ok (.fin ((q'.1 : ℕ) : ℝ)) := e2
  have hlt : ((q.1 : ℕ) : ℝ) < ((q'.1 : ℕ) : ℝ) := by
    have f1 := (e3 (0, 0)).1
    have f2 := (e3 (1, 1)).2
    simp only [Fin.val_zero, Fin.val_one, Nat.cast_zero, Nat.cast_one] at f1 f2
    linarith
  unfold dataPanel
  simp only [u1, u2, v1, v2, x1, x2, y1, y2, slope, e1', e2', levels_ok _ _ hlt, bind, Except.bind, pure,
    Except.pure]
  exact ⟨_, rfl⟩

theorem slope_data {M : ℕ} (hM : 0 < M) (c : ℝ) (u v b : Fin 3 × Fin M → ℝ) (d0 d1 d2 : ℝ) (m : Bool) :
    ∃ r, plotBeamData (N := 2) .lower (slope M 2) c u v b [d0, d1, d2] m = .ok r := by
  have e1 : (List.range 3).mapM (pyIdx [d0, d1, d2]) = .ok [d0, d1, d2] := rfl
  obtain ⟨ra, rb, r1, r2, -⟩ := range_spec hM fun k => u (0, k)
  obtain ⟨sa, sb, s1, s2, -⟩ := range_spec hM fun k => v (0, k)
  have huv : ∃ z, uvRatio (fun k => u (0, k)) (fun k => v (0, k)) = .ok z := by
    unfold uvRatio
    simp only [r1, r2, s1, s2, bind, Except.bind, pure, Except.pure]
    exact ⟨_, rfl⟩
  obtain ⟨z, huv⟩ := huv
  have tail : ∀ b : Fin 3 × Fin M → ℝ, ∃ r, ([d0, d1, d2].zip (List.finRange 3)).mapM (fun x =>
      dataPanel (N := 2) .lower (slope M 2) c x.1 (fun k => u (x.2, k)) (fun k => v (x.2, k))
        (fun k => b (x.2, k))) = .ok r := by
    intro b
    choose p hp using fun x : ℝ × Fin 3 => slope_panel hM c x.1 (fun k => u (x.2, k)) (fun k => v (x.2, k))
      (fun k => b (x.2, k))
    exact ⟨_, mapM_ok _ _ p fun x _ => hp x⟩
  unfold plotBeamData
  cases m with
  | true =>
    simp only [if_true, bind, Except.bind]
    rw [e1]
    simp only [huv]
    exact tail b
  | false =>
    obtain ⟨r, hr, hrow⟩ := C27_axis1 hM fun q : Fin 3 × Fin M => Fl.fin (b q)
    simp only [hr, bind, Except.bind, Bool.false_eq_true, if_false]
    rw [e1]
    simp only [huv]
    exact tail r

/-- The fit above is plotted: a figure with the observed maps, three fitted parameters. -/
example : ∃ d fs' fs'' figs, (fitZpoly plotInput).run sampleFs = (.ok d, fs') ∧
    (Plot.plotFitPath plotEnv d 1 false).run fs' = (.ok ⟨2, figs⟩, fs'') ∧ figs.data ≠ none ∧
    ∃ vf, figs.cov = ⟨3, 3, vf⟩ := by
  obtain ⟨d, fs', h⟩ := plotInput_run
  have hd : sampleFs d = none := by
    rcases C45_directory _ _ _ _ h with ⟨i, hi, hdi, hdn, -⟩ | ⟨h1, -⟩
    · exact hdn
    · rw [h1]; simp [Spec.runDir, plotInput, sampleFs]
  obtain ⟨names, fit, init, it, lb, ub, r, co, hdr, ph, res, jac, grad, phi, cov, cor, g1, g2, -, -, g3, g4,
    -, -, -, -, g5, g6, -⟩ := C67_provenance plotInput _ _ _ h (.inl hd) 1 le_rfl le_rfl
  obtain ⟨⟨names', fit', g7⟩, -⟩ := C40_chain plotInput _ _ _ h (.inl hd) le_rfl
  rw [g1] at g7
  cases g7
  have hit : Core.npDelete plotInput.cfg.init plotInput.cfg.excluded = .ok [0.01, 0, 0] := rfl
  rw [hit] at g2
  cases g2
  have hx : List.ofFn r.x = [0.01, 0, 0] := by
    unfold leastSquares at g3
    split_ifs at g3
    cases g3
    exact List.ofFn_getElem
  rw [hx] at g4
  have hfit : fit.drop 5 = [0, 0, 0] := by
    have e : Core.paramsComplete [0.01, 0, 0] (Spec.nK 1) plotInput.cfg =
        .ok [0.01, -14.5, 1.4, 0, 0, 0, 0, 0] := rfl
    rw [e] at g4
    cases g4
    rfl
  obtain ⟨figs, fs'', hp⟩ := C73_total plotInput _ _ _ h (.inl hd) 1 le_rfl le_rfl _ plotInput_feasible
    (by simp [Spec.nK]) (by norm_num) plotEnv rfl rfl _ _ _ (fun q => r.fn (finProdFinEquiv q)) _ _ g1 g5 g6 (by
      rw [hfit]
      obtain ⟨P0, h0, n0⟩ := zero_pattern (fit.take 5) (-0.022)
      obtain ⟨P1, h1, n1⟩ := zero_pattern (fit.take 5) 0
      obtain ⟨P2, h2, n2⟩ := zero_pattern (fit.take 5) 0.022
      exact (C72_total .lower _ _ _ _ _ [] _ _ _ _ none (180 / Real.pi) _ _ _ (by norm_num)
        (by norm_num) (by norm_num) (div_pos (by norm_num) Real.pi_pos) h0 h1 h2 (by simp)).1 (by
        intro P hP
        simp only [List.mem_cons, List.not_mem_nil, or_false] at hP
        rcases hP with rfl | rfl | rfl
        · exact n0
        · exact n1
        · exact n2))
    (slope_data (by norm_num) _ _ _ _ _ _ _ _) (fun _ => ⟨_, (slope_data (by norm_num) _ _ _ _ _ _ _ _).choose,
      fun q => rfl, (slope_data (by norm_num) _ _ _ _ _ _ _ _).choose_spec⟩)
  refine ⟨d, fs', fs'', figs, h, hp, ?_, ?_⟩
  · obtain ⟨figs', _, _, _, _, _, _, e, -, -, -, -, -, -, e1, -⟩ := C73_shows plotInput _ _ _ _ h (.inl hd) 1
      le_rfl le_rfl plotEnv rfl rfl false _ hp
    cases e
    obtain ⟨B, data, -, -, e2⟩ := e1 rfl
    rw [e2]
    simp
  · obtain ⟨p, vf, idx, A, -, -, e1, e2, e3, -⟩ := C73_matrices plotInput _ _ _ _ h (.inl hd) 1 le_rfl le_rfl _
      plotInput_feasible plotEnv false _ _ hp "cov" figs.cov (.inl ⟨rfl, rfl⟩)
    obtain rfl : p = 3 := by simp [Spec.nK] at e3; omega
    exact ⟨vf, e1⟩

end Verif.Props
