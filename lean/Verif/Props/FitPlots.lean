import Verif.Model.FitPlots
import Verif.Props.PlotFit
import Verif.Props.Concurrent

/-! # C84: figures that cannot be made do not cost the numbers -/

namespace Verif.Props

open Verif Verif.Fs Verif.Store Verif.Fit Verif.Plot Verif.AuxFn Verif.MathFn Verif.Np

/-! ## Specification -/

/-- The same apart from the directory `plots` in `d`. -/
def Spec.SameNumbers (d : Path) (fs g : FS Content) : Prop :=
  ∀ q, ¬ "plots".toList :: d <:+ q → fs q = g q

/-- The call without figures and with a given number of orders. -/
def Spec.numbersOnly {N M : ℕ} (a : Input N M) (k : ℕ) : Input N M :=
  { a with makePlots := false, orderMax := k }

/-! ## Programs that do not look at some paths -/

/-- A program that only looks at paths in `S`, whose parents are in `T`. -/
theorem run_agree {C α : Type} {S T : Path → Prop} {p : Prog C α} (hp : Touches S p)
    (hT : ∀ q, S q → T q.tail) {fs g : FS C} (h : ∀ q, S q ∨ T q → fs q = g q)
    {r : Py α} {fs' : FS C} (hr : p.run fs = (r, fs')) :
    ∃ g', p.run g = (r, g') ∧ ∀ q, fs q = g q → fs' q = g' q := by
  induction p generalizing fs g with
  | ret a => cases hr; exact ⟨g, rfl, fun q hq => hq⟩
  | raise e => cases hr; exact ⟨g, rfl, fun q hq => hq⟩
  | op o k ih =>
    have h1 := h _ (.inl hp.1)
    have h2 : isDir fs o.path.tail = isDir g o.path.tail := by
      have := h _ (.inr (hT _ hp.1))
      cases hc : o.path.tail with
      | nil => rfl
      | cons f d => rw [hc] at this; simp only [isDir, this]
    obtain ⟨e1, e2⟩ := exec_congr h1 h2
    have e3 : ∀ q, fs q = g q → (exec fs o).2 q = (exec g o).2 q := by
      intro q hq
      by_cases hqo : q = o.path
      · rw [hqo]; exact e2
      · rw [exec_other hqo, exec_other hqo]; exact hq
    rw [Prog.run_op] at hr ⊢
    rw [← e1]
    obtain ⟨g', g1, g2⟩ := ih _ (hp.2 _) (fun q hq => e3 q (h q hq)) hr
    exact ⟨g', g1, fun q hq => g2 q (e3 q hq)⟩

/-- A file of numbers in `d`. -/
def NumFile (d q : Path) : Prop := ∃ f, f ≠ "plots".toList ∧ q = f :: d

theorem fileName_ne_plots (k : String) (n : ℕ) : fileName k n ≠ "plots".toList := by
  have h1 : ∀ x : Str, (x ++ ".csv".toList).getLast? = some 'v' := fun x => by
    rw [List.getLast?_append]; rfl
  intro h
  have h2 := h1 (k.toList ++ "_n".toList ++ decNat n)
  rw [show k.toList ++ "_n".toList ++ decNat n ++ ".csv".toList = "plots".toList from h] at h2
  exact absurd h2 (by decide)

theorem touches_saveLoop_num (name : Str) (d : Path) (l : List (Str × Str × List (List Fl)))
    (hl : ∀ x ∈ l, x.1 ≠ "plots".toList) : Touches (NumFile d) (saveLoop name d l) := by
  induction l with
  | nil => trivial
  | cons x l ih =>
    obtain ⟨f, h, x⟩ := x
    exact touches_bind' (touches_writeFile ⟨f, hl _ List.mem_cons_self, rfl⟩ _ _)
      fun _ => ih fun y hy => hl y (List.mem_cons_of_mem _ hy)

theorem touches_csv_num (name : Str) (d : Path) (n : ℕ) (s : List (List (List Fl))) :
    Touches (NumFile d) (storeDataCsv name d n s) := by
  have key : ∀ (fn hs : List Str) (s : List (List (List Fl))), (∀ f ∈ fn, f ≠ "plots".toList) →
      ∀ x ∈ fn.zip (hs.zip s), x.1 ≠ "plots".toList :=
    fun fn hs s hf x hx => hf _ (List.of_mem_zip hx).1
  unfold storeDataCsv
  dsimp only
  split_ifs
  · refine touches_saveLoop_num _ _ _ (key _ _ _ fun f hf => ?_)
    simp only [List.drop_succ_cons, List.drop_zero, List.mem_cons, List.not_mem_nil, or_false] at hf
    rcases hf with rfl | rfl | rfl | rfl | rfl | rfl <;> exact fileName_ne_plots _ _
  · refine touches_saveLoop_num _ _ _ (key _ _ _ fun f hf => ?_)
    simp only [List.mem_cons, List.not_mem_nil, or_false] at hf
    rcases hf with rfl | rfl | rfl | rfl | rfl | rfl | rfl | rfl | rfl
    · decide
    · decide
    · decide
    all_goals exact fileName_ne_plots _ _

theorem touches_order_num {N M : ℕ} (a : Input N M) (s : List Fl) (d : Path) (n : ℕ)
    (ha : a.makePlots = false) : Touches (NumFile d) (fitOrder a s d n) := by
  refine touches_bind' ?_ fun init => ?_
  · unfold startVector
    dsimp only
    split_ifs
    · refine touches_bind' (touches_readFile ⟨_, fileName_ne_plots _ _, rfl⟩) fun c => ?_
      cases c <;> trivial
    · trivial
  refine touches_bind' (touches_lift _) fun out => ?_
  refine touches_bind' ?_ fun _ => ?_
  · refine touches_bind' (touches_lift _) fun names => ?_
    split_ifs
    · exact touches_writeFile ⟨_, fileName_ne_plots _ _, rfl⟩ _ _
    · trivial
  have hrest : Touches (NumFile d) (do
      storeDataCsv a.name d n out.save
      if a.makePlots then plotFitPath d n) := by
    refine touches_bind' (touches_csv_num _ _ _ _) fun _ => ?_
    rw [ha]
    trivial
  dsimp only
  by_cases hn : n = 1
  · rw [if_pos hn]
    exact touches_bind' (touches_writeFile ⟨_, by decide, rfl⟩ _ _) fun _ => hrest
  · rw [if_neg hn]
    exact hrest

/-! ## One round -/

theorem order_split {N M : ℕ} (a : Input N M) (e : PlotEnv) (s : List Fl) (d : Path) (n k : ℕ)
    (lim : ℝ × ℝ × ℝ × ℝ) (hl : fitPlim a = .ok lim) :
    fitOrderP a e s d n = (fitOrder (Spec.numbersOnly a k) s d n >>= fun _ =>
      if a.makePlots then Plot.plotFitPath { e with plim := some lim } d n true >>= fun _ => .ret ()
      else .ret ()) := by
  unfold fitOrderP fitOrder
  rw [hl]
  simp only [Prog.lift_ok, Prog.ret_bind, prog_bind_assoc]
  congr 1
  funext init
  congr 1
  funext out
  congr 1
  funext _
  by_cases hn : n = 1
  · simp only [hn, if_true, prog_bind_assoc]
    rfl
  · simp only [hn, if_false, prog_bind_assoc]
    rfl

theorem order_split' {N M : ℕ} (a : Input N M) (s : List Fl) (d : Path) (n k : ℕ) :
    fitOrder a s d n = (fitOrder (Spec.numbersOnly a k) s d n >>= fun _ =>
      if a.makePlots then Fit.plotFitPath d n else .ret ()) := by
  unfold fitOrder
  simp only [prog_bind_assoc]
  congr 1
  funext init
  congr 1
  funext out
  congr 1
  funext _
  by_cases hn : n = 1
  · simp only [hn, if_true, prog_bind_assoc]
    rfl
  · simp only [hn, if_false, prog_bind_assoc]
    rfl

/-- A round that stores its files has a directory to store them in. -/
theorem order_isDir {N M : ℕ} {a : Input N M} {s : List Fl} {d : Path} {n : ℕ} {fs fs' : FS Content}
    {r : Unit} (h : (fitOrder a s d n).run fs = (.ok r, fs')) : isDir fs' d := by
  unfold fitOrder at h
  rw [Prog.run_bind_ok] at h
  obtain ⟨init, fs1, -, h⟩ := h
  rw [Prog.run_bind_ok] at h
  obtain ⟨out, fs2, -, h⟩ := h
  rw [Prog.run_bind_ok] at h
  obtain ⟨u, fs3, h3, h⟩ := h
  refine run_isDir h ?_
  unfold storeDataAscii at h3
  rw [Prog.run_bind_ok] at h3
  obtain ⟨names, fs4, -, h3⟩ := h3
  have h5 := h3
  split_ifs at h3
  · exact run_isDir h5 (writeFile_ok h3).2.2
  · simp at h3

theorem plots_only {e : PlotEnv} {d : Path} {n : ℕ} {fs fs' : FS Content} {r : Py (Σ N, FitFigs N)}
    (hd : isDir fs d) (h : (Plot.plotFitPath e d n true).run fs = (r, fs')) : Spec.SameNumbers d fs' fs := by
  intro q hq
  rw [plotFit_run e n true hd] at h
  have h0 : withPlots fs d q = fs q := withPlots_ne fun h => hq (h ▸ List.suffix_refl _)
  rcases hx : (fitFigs e d n).run (withPlots fs d) with ⟨x | x, g⟩
  · rw [hx] at h
    cases h
    rw [run_frame (writes_fitFigs e d n) hx (fun hn => hn), h0]
  · have h1 := run_frame (writes_fitFigs e d n) hx (q := q) (fun hn => hn)
    rw [hx] at h
    dsimp only at h
    rw [if_pos rfl] at h
    rcases hs : (savePdfs d n).run g with ⟨y | y, g'⟩
    all_goals
      rw [hs] at h
      cases h
      rw [run_frame (writes_savePdfs d n) hs (fun ⟨f, hf⟩ => hq (hf ▸ List.suffix_cons _ _)), h1, h0]

theorem num_not_plots {d q : Path} (h : NumFile d q ∨ q = d) : ¬ "plots".toList :: d <:+ q := by
  rintro hs
  rcases h with ⟨f, hf, rfl⟩ | rfl
  · exact hf (by simpa using (suffix_eq hs (List.suffix_refl _) (by simp)).symm)
  · have := hs.length_le
    simp at this

/-- The numbers of one round do not depend on what is in `plots`. -/
theorem order_agree {N M : ℕ} {a : Input N M} {s : List Fl} {d : Path} {n : ℕ} (ha : a.makePlots = false)
    {fs g fs' : FS Content} {r : Py Unit} (hfg : Spec.SameNumbers d fs g)
    (h : (fitOrder a s d n).run fs = (r, fs')) :
    ∃ g', (fitOrder a s d n).run g = (r, g') ∧ Spec.SameNumbers d fs' g' := by
  obtain ⟨g', h1, h2⟩ := run_agree (T := fun q => q = d) (touches_order_num a s d n ha)
    (by rintro _ ⟨f, -, rfl⟩; rfl) (fun q hq => hfg q (num_not_plots hq)) h
  exact ⟨g', h1, fun q hq => h2 q (hfg q hq)⟩

theorem loop_error {N M : ℕ} {a : Input N M} {s : List Fl} {d : Path} {n k : ℕ} {fs fs' : FS Content}
    {x : PyErr} (h : (fitOrder a s d n).run fs = (.error x, fs')) :
    (fitLoop a s d n (k + 1)).run fs = (.error x, fs') := by
  rw [fitLoop, Prog.run_bind, h]

theorem loop_next {N M : ℕ} {a : Input N M} {s : List Fl} {d : Path} {n k : ℕ} {fs fs1 : FS Content}
    (h : (fitOrder a s d n).run fs = (.ok (), fs1)) :
    (fitLoop a s d n (k + 1)).run fs = (fitLoop a s d (n + 1) k).run fs1 := by
  rw [fitLoop, Prog.run_bind, h]

/-! ## The loop -/

theorem loop_failure {N M : ℕ} (a : Input N M) (e : PlotEnv) (s : List Fl) (d : Path) (K : ℕ)
    (lim : ℝ × ℝ × ℝ × ℝ) (hl : fitPlim a = .ok lim) (n k : ℕ) (fs g fs' : FS Content) (r : Py Unit)
    (hfg : Spec.SameNumbers d fs g) (h : (fitLoopP a e s d n k).run fs = (r, fs')) :
    (∃ g', (fitLoop (Spec.numbersOnly a K) s d n k).run g = (r, g') ∧ Spec.SameNumbers d fs' g') ∨
    ∃ j, 1 ≤ j ∧ j ≤ k ∧ a.makePlots = true ∧
      (∃ g', (fitLoop (Spec.numbersOnly a K) s d n j).run g = (.ok (), g') ∧ Spec.SameNumbers d fs' g') ∧
      ∃ fs1 x, r = .error x ∧ Spec.SameNumbers d fs' fs1 ∧
        (Plot.plotFitPath { e with plim := some lim } d (n + j - 1) true).run fs1 = (.error x, fs') := by
  induction k generalizing n fs g with
  | zero => cases h; exact .inl ⟨g, rfl, hfg⟩
  | succ k ih =>
    rw [fitLoopP, order_split a e s d n K lim hl, Prog.run_bind, Prog.run_bind] at h
    rcases h1 : (fitOrder (Spec.numbersOnly a K) s d n).run fs with ⟨x | u, fs1⟩
    · rw [h1] at h
      cases h
      obtain ⟨g', g1, g2⟩ := order_agree rfl hfg h1
      exact .inl ⟨g', loop_error g1, g2⟩
    · rw [h1] at h
      dsimp only at h
      obtain ⟨g1, e1, e2⟩ := order_agree rfl hfg h1
      have hdir := order_isDir h1
      cases hm : a.makePlots with
      | false =>
        rw [hm] at h
        rcases ih (n + 1) fs1 g1 e2 h with ⟨g', i1, i2⟩ | ⟨j, i1, i2, i3, -⟩
        · exact .inl ⟨g', by rw [loop_next e1]; exact i1, i2⟩
        · rw [hm] at i3; cases i3
      | true =>
        rw [hm, if_pos rfl, Prog.run_bind] at h
        rcases h2 : (Plot.plotFitPath { e with plim := some lim } d n true).run fs1 with ⟨x | figs, fs2⟩
        · rw [h2] at h
          cases h
          have h3 := plots_only hdir h2
          refine .inr ⟨1, le_rfl, by omega, rfl, ⟨g1, by rw [loop_next e1]; rfl, fun q hq => ?_⟩, fs1, x, rfl,
            h3, h2⟩
          rw [h3 q hq, e2 q hq]
        · rw [h2] at h
          dsimp only at h
          have h3 := plots_only hdir h2
          rcases ih (n + 1) fs2 g1 (fun q hq => by rw [h3 q hq, e2 q hq]) h with
            ⟨g', i1, i2⟩ | ⟨j, i1, i2, -, ⟨g', i3, i4⟩, fs3, x, i5, i6, i7⟩
          · exact .inl ⟨g', by rw [loop_next e1]; exact i1, i2⟩
          · refine .inr ⟨j + 1, by omega, by omega, rfl, ⟨g', by rw [loop_next e1]; exact i3, i4⟩, fs3, x, i5,
              i6, ?_⟩
            rw [show n + (j + 1) - 1 = n + 1 + j - 1 by omega]
            exact i7

theorem loop_same {N M : ℕ} (a : Input N M) (e : PlotEnv) (s : List Fl) (d : Path)
    (lim : ℝ × ℝ × ℝ × ℝ) (hl : fitPlim a = .ok lim) (n k : ℕ) (fs fs' : FS Content)
    (h : (fitLoopP a e s d n k).run fs = (.ok (), fs')) :
    (fitLoop a s d n k).run fs = (.ok (), fs') := by
  induction k generalizing n fs with
  | zero => exact h
  | succ k ih =>
    rw [fitLoopP, order_split a e s d n 0 lim hl, Prog.run_bind_ok] at h
    obtain ⟨u, fs2, h, h2⟩ := h
    rw [Prog.run_bind_ok] at h
    obtain ⟨u', fs1, h0, h1⟩ := h
    have hdir := order_isDir h0
    have h3 : (if a.makePlots then Fit.plotFitPath d n else .ret ()).run fs1 = (.ok (), fs2) := by
      cases hm : a.makePlots with
      | false => rw [hm] at h1; exact h1
      | true =>
        rw [hm, if_pos rfl, Prog.run_bind_ok] at h1
        obtain ⟨x, fs3, h4, h5⟩ := h1
        cases h5
        exact C73_as_in_fit _ _ _ _ _ hdir _ h4
    have h6 : (fitOrder a s d n).run fs = (.ok (), fs2) := by
      rw [order_split' a s d n 0, Prog.run_bind, h0]
      exact h3
    rw [loop_next h6]
    exact ih _ _ h2

/-! ## The whole run -/

theorem plim_ok {N M : ℕ} (a : Input N M) (hM : 0 < M) : ∃ lim, fitPlim a = .ok lim ∧
    Spec.Range (fun k => a.u (0, k)) lim.1 lim.2.1 ∧ Spec.Range (fun k => a.v (0, k)) lim.2.2.1 lim.2.2.2 := by
  obtain ⟨u0, u1, h1, h2, h3⟩ := range_spec hM fun k => a.u (0, k)
  obtain ⟨v0, v1, h4, h5, h6⟩ := range_spec hM fun k => a.v (0, k)
  refine ⟨(u0, u1, v0, v1), ?_, h3, h6⟩
  unfold fitPlim
  simp only [h1, h2, h4, h5, bind, Except.bind, pure, Except.pure]

theorem loop_numbers {N M : ℕ} (a : Input N M) (K K' : ℕ) (s : List Fl) (d : Path) (n k : ℕ) :
    fitLoop (Spec.numbersOnly a K) s d n k = fitLoop (Spec.numbersOnly a K') s d n k := by
  induction k generalizing n with
  | zero => rfl
  | succ k ih =>
    rw [fitLoop, fitLoop, show fitOrder (Spec.numbersOnly a K) s d n = fitOrder (Spec.numbersOnly a K') s d n
      from rfl]
    congr 1
    funext _
    exact ih _

theorem fitZpolyP_ok {N M : ℕ} {a : Input N M} {e : PlotEnv} {fs fs' : FS Content} {d : Path}
    (h : (fitZpolyP a e).run fs = (.ok d, fs')) :
    ∃ fs1 s0 s1 s2, (allocDir a.workDir a.name).run fs = (.ok d, fs1) ∧ a.snr 0 = .ok s0 ∧
      a.snr 1 = .ok s1 ∧ a.snr 2 = .ok s2 ∧
      (fitLoopP a e [s0, s1, s2] d 1 a.orderMax).run fs1 = (.ok (), fs') := by
  unfold fitZpolyP at h
  rw [Prog.run_bind_ok] at h
  obtain ⟨d', fs1, h1, h2⟩ := h
  simp only [Prog.run_bind_ok, Prog.run_lift, Prod.mk.injEq] at h2
  obtain ⟨s0, _, ⟨e0, rfl⟩, s1, _, ⟨e1, rfl⟩, s2, _, ⟨e2, rfl⟩, _, fs2, h3, h4⟩ := h2
  cases h4
  exact ⟨_, _, _, _, h1, e0, e1, e2, h3⟩

theorem fitZpoly_of {N M : ℕ} {a : Input N M} {fs fs1 fs' : FS Content} {d : Path} {s0 s1 s2 : Fl}
    {r : Py Unit} (h1 : (allocDir a.workDir a.name).run fs = (.ok d, fs1)) (e0 : a.snr 0 = .ok s0)
    (e1 : a.snr 1 = .ok s1) (e2 : a.snr 2 = .ok s2)
    (h : (fitLoop a [s0, s1, s2] d 1 a.orderMax).run fs1 = (r, fs')) :
    (fitZpoly a).run fs = ((r.map fun _ => d), fs') := by
  unfold fitZpoly
  rw [Prog.run_bind, h1]
  simp only [Prog.run_bind, Prog.run_lift, e0, e1, e2, h]
  cases r <;> rfl

/-- **C84**. A run with figures that ends normally leaves the disk as the model of `fit_zpoly` that
takes the figures to succeed: every other statement about a complete run is one about this. -/
theorem C84_same {N M : ℕ} (a : Input N M) (hM : 0 < M) (e : PlotEnv) (fs fs' : FS Content) (d : Path)
    (h : (fitZpolyP a e).run fs = (.ok d, fs')) : (fitZpoly a).run fs = (.ok d, fs') := by
  obtain ⟨lim, hl, -⟩ := plim_ok a hM
  obtain ⟨fs1, s0, s1, s2, h1, e0, e1, e2, h2⟩ := fitZpolyP_ok h
  exact fitZpoly_of h1 e0 e1 e2 (loop_same a e _ d lim hl 1 _ _ _ h2)

/-- **C84**. A run with figures that ends in an exception: either the numbers alone end in the same
exception, or the figures of some order `k` could not be made; then every file of numbers of the
orders up to `k` is on the disk, as after a run of `k` orders without figures, and nothing else is
different outside `plots`. -/
theorem C84_failure {N M : ℕ} (a : Input N M) (hM : 0 < M) (e : PlotEnv) (fs fs' : FS Content) (x : PyErr)
    (h : (fitZpolyP a e).run fs = (.error x, fs')) :
    (∃ g', (fitZpoly (Spec.numbersOnly a a.orderMax)).run fs = (.error x, g') ∧
      ∃ i ≤ 100, Spec.SameNumbers (Spec.runDir a.workDir a.name i) fs' g') ∨
    ∃ k d g', 1 ≤ k ∧ k ≤ a.orderMax ∧ a.makePlots = true ∧
      (fitZpoly (Spec.numbersOnly a k)).run fs = (.ok d, g') ∧ Spec.SameNumbers d fs' g' ∧
      ∃ fs1 lim, Spec.SameNumbers d fs' fs1 ∧
        Spec.Range (fun k => a.u (0, k)) lim.1 lim.2.1 ∧ Spec.Range (fun k => a.v (0, k)) lim.2.2.1 lim.2.2.2 ∧
        (Plot.plotFitPath { e with plim := some lim } d k true).run fs1 = (.error x, fs') := by
  obtain ⟨lim, hl, hl'⟩ := plim_ok a hM
  unfold fitZpolyP at h
  rcases h1 : (allocDir a.workDir a.name).run fs with ⟨y | d, fs1⟩
  · rw [Prog.run_bind, h1] at h
    cases h
    refine .inl ⟨fs', ?_, 0, by omega, fun _ _ => rfl⟩
    unfold fitZpoly
    rw [Prog.run_bind, show (Spec.numbersOnly a a.orderMax).workDir = a.workDir from rfl,
      show (Spec.numbersOnly a a.orderMax).name = a.name from rfl, h1]
  · rw [Prog.run_bind, h1] at h
    dsimp only at h
    have hsnr : ∀ i, (Spec.numbersOnly a a.orderMax).snr i = a.snr i := fun _ => rfl
    have hbad : ∀ {y}, (y = x ∧ fs1 = fs') →
        (fitZpoly (Spec.numbersOnly a a.orderMax)).run fs = (.error y, fs1) →
        ∃ g', (fitZpoly (Spec.numbersOnly a a.orderMax)).run fs = (.error x, g') ∧
          ∃ i ≤ 100, Spec.SameNumbers (Spec.runDir a.workDir a.name i) fs' g' := by
      rintro y ⟨rfl, rfl⟩ hy
      exact ⟨_, hy, 0, by omega, fun _ _ => rfl⟩
    rcases e0 : a.snr 0 with y | s0
    · refine .inl (hbad (y := y) ?_ ?_)
      · simpa [Prog.run_bind, e0] using h
      · unfold fitZpoly
        rw [Prog.run_bind, show (Spec.numbersOnly a a.orderMax).workDir = a.workDir from rfl,
          show (Spec.numbersOnly a a.orderMax).name = a.name from rfl, h1]
        simp [hsnr, e0]
    rcases e1 : a.snr 1 with y | s1
    · refine .inl (hbad (y := y) ?_ ?_)
      · simpa [Prog.run_bind, e0, e1] using h
      · unfold fitZpoly
        rw [Prog.run_bind, show (Spec.numbersOnly a a.orderMax).workDir = a.workDir from rfl,
          show (Spec.numbersOnly a a.orderMax).name = a.name from rfl, h1]
        simp [hsnr, e0, e1]
    rcases e2 : a.snr 2 with y | s2
    · refine .inl (hbad (y := y) ?_ ?_)
      · simpa [Prog.run_bind, e0, e1, e2] using h
      · unfold fitZpoly
        rw [Prog.run_bind, show (Spec.numbersOnly a a.orderMax).workDir = a.workDir from rfl,
          show (Spec.numbersOnly a a.orderMax).name = a.name from rfl, h1]
        simp [hsnr, e0, e1, e2]
    rcases h2 : (fitLoopP a e [s0, s1, s2] d 1 a.orderMax).run fs1 with ⟨r, fs2⟩
    have hr : r = .error x ∧ fs2 = fs' := by
      simp only [e0, e1, e2, Prog.lift_ok, Prog.ret_bind, Prog.run_bind, h2] at h
      cases r
      · cases h; exact ⟨rfl, rfl⟩
      · cases h
    obtain ⟨rfl, rfl⟩ := hr
    obtain ⟨i, hi, hd, -⟩ := allocDir_ok h1
    rcases loop_failure a e _ d a.orderMax lim hl 1 _ _ fs1 _ _ (fun _ _ => rfl) h2 with
      ⟨g', i1, i2⟩ | ⟨j, i1, i2, i3, ⟨g', i4, i5⟩, fs3, y, i6, i7, i8⟩
    · exact .inl ⟨g', fitZpoly_of (a := Spec.numbersOnly a a.orderMax) h1 e0 e1 e2 i1, i, hi, hd ▸ i2⟩
    · cases i6
      refine .inr ⟨j, d, g', i1, i2, i3, fitZpoly_of (a := Spec.numbersOnly a j) (r := .ok ()) h1 e0 e1 e2 ?_, i5,
        fs3, lim, i7, hl'.1, hl'.2, ?_⟩
      · rw [loop_numbers a j a.orderMax]
        exact i4
      · rwa [show 1 + j - 1 = j by omega] at i8

/-- **C84**. Without figures the two models are the same. -/
theorem C84_off {N M : ℕ} (a : Input N M) (hM : 0 < M) (e : PlotEnv) (ha : a.makePlots = false)
    (fs : FS Content) : (fitZpolyP a e).run fs = (fitZpoly a).run fs := by
  obtain ⟨lim, hl, -⟩ := plim_ok a hM
  have h1 : ∀ s d n, fitOrderP a e s d n = fitOrder a s d n := by
    intro s d n
    rw [order_split a e s d n 0 lim hl, order_split' a s d n 0, ha]
    rfl
  have h2 : ∀ s d n k, fitLoopP a e s d n k = fitLoop a s d n k := by
    intro s d n k
    induction k generalizing n with
    | zero => rfl
    | succ k ih => rw [fitLoopP, fitLoop, h1]; congr 1; funext _; exact ih _
  unfold fitZpolyP fitZpoly
  simp only [h2]

/-! ## The figures of a complete run -/

theorem touches_figs_num (e : PlotEnv) (d : Path) (n : ℕ) : Touches (NumFile d) (fitFigs e d n) := by
  have hr : ∀ f : Str, f ≠ "plots".toList → Touches (NumFile d) (Plot.readArr (d.join f)) := fun f hf =>
    touches_bind' (touches_readFile ⟨f, hf, rfl⟩) fun _ => touches_lift _
  unfold fitFigs
  refine touches_bind' (touches_readFile ⟨_, fileName_ne_plots _ _, rfl⟩) fun _ => ?_
  refine touches_bind' (touches_lift _) fun _ => ?_
  refine touches_bind' (touches_readFile ⟨_, by decide, rfl⟩) fun _ => ?_
  refine touches_bind' (touches_lift _) fun _ => ?_
  refine touches_bind' (hr _ (by decide)) fun _ => touches_bind' (hr _ (fileName_ne_plots _ _)) fun _ => ?_
  refine touches_bind' (hr _ (by decide)) fun _ => touches_bind' (hr _ (by decide)) fun _ => ?_
  refine touches_bind' (hr _ (fileName_ne_plots _ _)) fun _ => ?_
  exact touches_bind' (hr _ (fileName_ne_plots _ _)) fun _ => touches_lift _

theorem same_isDir {d : Path} {fs g : FS Content} (h : Spec.SameNumbers d fs g) (hd : isDir fs d) :
    isDir g d := by
  have := h d (num_not_plots (.inr rfl))
  cases d with
  | nil => rfl
  | cons f d => simp only [isDir, ← this] at hd ⊢; exact hd

/-- What is plotted depends only on the numbers. -/
theorem figs_agree {e : PlotEnv} {d : Path} {n : ℕ} {fs g fs' : FS Content} {x : Σ N, FitFigs N}
    (hd : isDir fs d) (hfg : Spec.SameNumbers d fs g)
    (h : (Plot.plotFitPath e d n true).run fs = (.ok x, fs')) :
    ∃ g', (Plot.plotFitPath e d n false).run g = (.ok x, g') := by
  rw [plotFit_run e n true hd] at h
  rw [plotFit_run e n false (same_isDir hfg hd)]
  rcases hx : (fitFigs e d n).run (withPlots fs d) with ⟨y | y, f1⟩
  · rw [hx] at h
    cases h
  · have hw : Spec.SameNumbers d (withPlots fs d) (withPlots g d) := by
      intro q hq
      have hne : q ≠ "plots".toList :: d := fun h => hq (h ▸ List.suffix_refl _)
      rw [withPlots_ne hne, withPlots_ne hne, hfg q hq]
    obtain ⟨g', h1, -⟩ := run_agree (T := fun q => q = d) (touches_figs_num e d n)
      (by rintro _ ⟨f, -, rfl⟩; rfl) (fun q hq => hw q (num_not_plots hq)) hx
    rw [hx] at h
    dsimp only at h
    rw [if_pos rfl] at h
    rcases hs : (savePdfs d n).run f1 with ⟨z | z, f2⟩
    · rw [hs] at h
      cases h
    · rw [hs] at h
      cases h
      exact ⟨g', by rw [h1]; rfl⟩

theorem loop_figures {N M : ℕ} (a : Input N M) (e : PlotEnv) (s : List Fl) (d : Path) (K : ℕ)
    (lim : ℝ × ℝ × ℝ × ℝ) (hl : fitPlim a = .ok lim) (ha : a.makePlots = true) (n k : ℕ)
    (fs g fs' : FS Content) (hfg : Spec.SameNumbers d fs g)
    (h : (fitLoopP a e s d n k).run fs = (.ok (), fs')) (j : ℕ) (hj : 1 ≤ j) (hjk : j ≤ k) :
    ∃ g' g'' x, (fitLoop (Spec.numbersOnly a K) s d n j).run g = (.ok (), g') ∧
      (Plot.plotFitPath { e with plim := some lim } d (n + j - 1) false).run g' = (.ok x, g'') := by
  induction k generalizing n fs g j with
  | zero => omega
  | succ k ih =>
    rw [fitLoopP, order_split a e s d n K lim hl, Prog.run_bind_ok] at h
    obtain ⟨u, fs2, h, h2⟩ := h
    rw [Prog.run_bind_ok] at h
    obtain ⟨u', fs1, h0, h1⟩ := h
    rw [ha, if_pos rfl, Prog.run_bind_ok] at h1
    obtain ⟨x, fs3, h4, h5⟩ := h1
    cases h5
    have hdir := order_isDir h0
    obtain ⟨g1, e1, e2⟩ := order_agree rfl hfg h0
    obtain ⟨g2, e3⟩ := figs_agree hdir e2 h4
    rcases Nat.eq_or_lt_of_le hj with rfl | hj
    · exact ⟨g1, g2, x, by rw [loop_next e1]; rfl, by rw [show n + 1 - 1 = n by omega]; exact e3⟩
    · have h3 := plots_only hdir h4
      obtain ⟨g', g'', y, i1, i2⟩ := ih (n + 1) fs2 g1 (fun q hq => by rw [h3 q hq, e2 q hq]) h2 (j - 1)
        (by omega) (by omega)
      refine ⟨g', g'', y, ?_, ?_⟩
      · rw [show j = j - 1 + 1 by omega, loop_next e1]
        exact i1
      · rw [show n + j - 1 = n + 1 + (j - 1) - 1 by omega]
        exact i2

/-- **C84**. When a run with figures ends normally the figures of every order were made, with the
range of the observed coordinates as limits, from the numbers of that order: what C73 says of a
stored fit holds for them. -/
theorem C84_figures {N M : ℕ} (a : Input N M) (hM : 0 < M) (e : PlotEnv) (fs fs' : FS Content) (d : Path)
    (h : (fitZpolyP a e).run fs = (.ok d, fs')) (ha : a.makePlots = true) (k : ℕ) (hk : 1 ≤ k)
    (hk' : k ≤ a.orderMax) :
    ∃ g g' x lim, (fitZpoly (Spec.numbersOnly a k)).run fs = (.ok d, g) ∧
      Spec.Range (fun k => a.u (0, k)) lim.1 lim.2.1 ∧ Spec.Range (fun k => a.v (0, k)) lim.2.2.1 lim.2.2.2 ∧
      (Plot.plotFitPath { e with plim := some lim } d k false).run g = (.ok x, g') := by
  obtain ⟨lim, hl, hl1, hl2⟩ := plim_ok a hM
  obtain ⟨fs1, s0, s1, s2, h1, e0, e1, e2, h2⟩ := fitZpolyP_ok h
  obtain ⟨g, g', x, i1, i2⟩ := loop_figures a e _ d k lim hl ha 1 _ fs1 fs1 _ (fun _ _ => rfl) h2 k hk hk'
  rw [show 1 + k - 1 = k by omega] at i2
  exact ⟨g, g', x, lim, fitZpoly_of (a := Spec.numbersOnly a k) (r := .ok ()) h1 e0 e1 e2 i1, hl1, hl2, i2⟩

/-- **C84**. With figures and one free parameter at the first order the run always ends in an
exception. -/
theorem C84_single {N M : ℕ} (a : Input N M) (hM : 0 < M) (e : PlotEnv) (ha : a.makePlots = true)
    (hn : 1 ≤ a.orderMax) (S : List ℕ) (hf : Spec.Feasible a.cfg S) (hS : S.length = 7) (fs fs' : FS Content)
    (hd : ∀ i ≤ 100, fs (Spec.runDir a.workDir a.name i) = none ∨ isDir fs (Spec.runDir a.workDir a.name i))
    (r : Py Path) (h : (fitZpolyP a e).run fs = (r, fs')) : ∃ x, r = .error x := by
  rcases r with x | d
  · exact ⟨x, rfl⟩
  exfalso
  obtain ⟨g, g', x, lim, h1, -, -, h2⟩ := C84_figures a hM e fs fs' d h ha 1 le_rfl hn
  have hd' : fs d = none ∨ isDir fs d := by
    rcases C45_directory _ _ _ _ h1 with ⟨i, hi, rfl, -⟩ | ⟨rfl, -⟩
    · exact hd i hi
    · exact hd 100 le_rfl
  obtain ⟨err, fs'', h3⟩ := C73_single (Spec.numbersOnly a 1) fs g d h1 hd' 1 le_rfl le_rfl S hf
    (by simp [Spec.nK, hS]) { e with plim := some lim } false
  rw [h2] at h3
  cases h3

/-! ## When a run with figures ends normally -/

/-- Nothing in the way of the figures. -/
def Clear (d : Path) (fs : FS Content) : Prop :=
  (fs ("plots".toList :: d) = none ∨ isDir fs ("plots".toList :: d)) ∧
  ∀ f, isDir fs (f :: "plots".toList :: d) = false

theorem clear_withPlots {d : Path} {fs : FS Content} (h : Clear d fs) :
    isDir (withPlots fs d) ("plots".toList :: d) ∧ ∀ f, isDir (withPlots fs d) (f :: "plots".toList :: d) = false := by
  constructor
  · unfold withPlots
    rcases h.1 with h1 | h1
    · rw [if_neg (by show ¬ (fs ("plots".toList :: d)).isSome = true; rw [h1]; simp), isDir_iff, update_same]
    · rw [if_pos (isDir_present h1)]
      exact h1
  · intro f
    have := h.2 f
    have hne : f :: "plots".toList :: d ≠ "plots".toList :: d := fun h => by
      have := congrArg List.length h
      simp at this
    simp only [isDir, withPlots_ne hne] at this ⊢
    exact this

theorem write_clear {d : Path} {f : Str} {fs : FS Content} (c : Content)
    (h : isDir fs ("plots".toList :: d) ∧ ∀ f, isDir fs (f :: "plots".toList :: d) = false) :
    ∃ fs', (writeFile .part (f :: "plots".toList :: d) c).run fs = (.ok (), fs') ∧
      isDir fs' ("plots".toList :: d) ∧ ∀ f, isDir fs' (f :: "plots".toList :: d) = false := by
  have hr : (writeFile .part (f :: "plots".toList :: d) c).run fs =
      (.ok (), update fs (f :: "plots".toList :: d) (.file c)) := by
    rw [run_writeFile, if_pos]
    rw [h.2 f, List.tail_cons, h.1]
    rfl
  refine ⟨_, hr, run_isDir hr h.1, fun g => ?_⟩
  by_cases hg : g = f
  · subst hg
    simp [isDir, update_same]
  · have := h.2 g
    simp only [isDir] at this ⊢
    rw [update_ne _ _ (by simpa using hg)]
    exact this

theorem savePdfs_clear {d : Path} {n : ℕ} {fs : FS Content}
    (h : isDir fs ("plots".toList :: d) ∧ ∀ f, isDir fs (f :: "plots".toList :: d) = false) :
    ∃ fs', (savePdfs d n).run fs = (.ok (), fs') ∧
      isDir fs' ("plots".toList :: d) ∧ ∀ f, isDir fs' (f :: "plots".toList :: d) = false := by
  unfold savePdfs
  dsimp only [Path.join]
  obtain ⟨f1, h1, k1⟩ := write_clear (f := "fitbeam".toList ++ "_n".toList ++ decNat n ++ ".pdf".toList) .plot h
  obtain ⟨f2, h2, k2⟩ := write_clear (f := "fitphase".toList ++ "_n".toList ++ decNat n ++ ".pdf".toList) .plot k1
  obtain ⟨f3, h3, k3⟩ := write_clear (f := "residual".toList ++ "_n".toList ++ decNat n ++ ".pdf".toList) .plot k2
  obtain ⟨f4, h4, k4⟩ := write_clear (f := "cov".toList ++ "_n".toList ++ decNat n ++ ".pdf".toList) .plot k3
  obtain ⟨f5, h5, k5⟩ := write_clear (f := "corr".toList ++ "_n".toList ++ decNat n ++ ".pdf".toList) .plot k4
  obtain ⟨f6, h6, k6⟩ := write_clear (f := "obsbeam.pdf".toList) .plot k5
  simp only [Prog.run_bind, h1, h2, h3, h4, h5]
  by_cases hn : n = 1
  · rw [if_pos hn, h6]
    exact ⟨_, rfl, k6⟩
  · rw [if_neg hn]
    exact ⟨_, rfl, k5⟩

/-- Figures that can be made are saved. -/
theorem plot_clear {e : PlotEnv} {d : Path} {n : ℕ} {fs g g' : FS Content} {x : Σ N, FitFigs N}
    (hd : isDir fs d) (hc : Clear d fs) (hfg : Spec.SameNumbers d fs g)
    (h : (Plot.plotFitPath e d n false).run g = (.ok x, g')) :
    ∃ fs', (Plot.plotFitPath e d n true).run fs = (.ok x, fs') ∧ Clear d fs' := by
  rw [plotFit_run e n false (same_isDir hfg hd)] at h
  rw [plotFit_run e n true hd]
  rcases hx : (fitFigs e d n).run (withPlots g d) with ⟨y | y, f1⟩
  · rw [hx] at h
    cases h
  · have hw : Spec.SameNumbers d (withPlots g d) (withPlots fs d) := by
      intro q hq
      have hne : q ≠ "plots".toList :: d := fun h => hq (h ▸ List.suffix_refl _)
      rw [withPlots_ne hne, withPlots_ne hne, hfg q hq]
    obtain ⟨f2, h1, -⟩ := run_agree (T := fun q => q = d) (touches_figs_num e d n)
      (by rintro _ ⟨f, -, rfl⟩; rfl) (fun q hq => hw q (num_not_plots hq)) hx
    have h2 : f2 = withPlots fs d := by
      funext q
      exact run_frame (writes_fitFigs e d n) h1 (fun hn => hn)
    subst h2
    rw [hx] at h
    cases h
    obtain ⟨f3, h3, k1, k2⟩ := savePdfs_clear (n := n) (clear_withPlots hc)
    rw [h1]
    dsimp only
    rw [if_pos rfl, h3]
    exact ⟨f3, rfl, .inr k1, k2⟩

theorem order_clear {N M : ℕ} {a : Input N M} {s : List Fl} {d : Path} {n : ℕ} (ha : a.makePlots = false)
    {fs fs' : FS Content} {r : Py Unit} (hc : Clear d fs) (h : (fitOrder a s d n).run fs = (r, fs')) :
    Clear d fs' := by
  have hq : ∀ q, "plots".toList :: d <:+ q → fs' q = fs q := by
    intro q hq
    have := touches_frame (touches_order_num a s d n ha) (q := q)
      (fun hn => num_not_plots (.inl hn) hq) fs
    rwa [h] at this
  refine ⟨?_, fun f => ?_⟩
  · simp only [isDir, hq _ (List.suffix_refl _)]
    exact hc.1
  · simp only [isDir, hq _ (List.suffix_cons _ _)]
    exact hc.2 f

theorem loop_ok_first {N M : ℕ} {a : Input N M} {s : List Fl} {d : Path} {n k : ℕ} {g g' : FS Content}
    (h : (fitLoop a s d n (k + 1)).run g = (.ok (), g')) :
    ∃ g1, (fitOrder a s d n).run g = (.ok (), g1) ∧ (fitLoop a s d (n + 1) k).run g1 = (.ok (), g') := by
  rw [fitLoop, Prog.run_bind_ok] at h
  obtain ⟨u, g1, h1, h2⟩ := h
  exact ⟨g1, h1, h2⟩

theorem loop_total {N M : ℕ} (a : Input N M) (e : PlotEnv) (s : List Fl) (d : Path) (K : ℕ)
    (lim : ℝ × ℝ × ℝ × ℝ) (hl : fitPlim a = .ok lim) (n k : ℕ)
    (fs g : FS Content) (hfg : Spec.SameNumbers d fs g) (hc : Clear d fs)
    (hnum : ∃ g', (fitLoop (Spec.numbersOnly a K) s d n k).run g = (.ok (), g'))
    (hfig : ∀ j g', 1 ≤ j → j ≤ k → (fitLoop (Spec.numbersOnly a K) s d n j).run g = (.ok (), g') →
      ∃ x g'', (Plot.plotFitPath { e with plim := some lim } d (n + j - 1) false).run g' = (.ok x, g'')) :
    ∃ fs', (fitLoopP a e s d n k).run fs = (.ok (), fs') := by
  induction k generalizing n fs g with
  | zero => exact ⟨fs, rfl⟩
  | succ k ih =>
    obtain ⟨g', hnum⟩ := hnum
    obtain ⟨g1, h1, h2⟩ := loop_ok_first hnum
    have hgf : Spec.SameNumbers d g fs := fun q hq => (hfg q hq).symm
    obtain ⟨fs1, h3, h4⟩ := order_agree rfl hgf h1
    have hc1 := order_clear rfl hc h3
    have h41 : Spec.SameNumbers d fs1 g1 := fun q hq => (h4 q hq).symm
    have hdir := order_isDir h3
    obtain ⟨x, g2, h5⟩ := hfig 1 g1 le_rfl (by omega) (by rw [loop_next h1]; rfl)
    rw [show n + 1 - 1 = n by omega] at h5
    obtain ⟨fs2, h6, hc2⟩ := plot_clear hdir hc1 h41 h5
    have h7 := plots_only hdir h6
    have hnext : ∀ j, (fitLoop (Spec.numbersOnly a K) s d n (j + 1)).run g =
        (fitLoop (Spec.numbersOnly a K) s d (n + 1) j).run g1 := fun j => loop_next h1
    rw [fitLoopP, order_split a e s d n K lim hl]
    cases hm : a.makePlots with
    | true =>
      obtain ⟨fs', h8⟩ := ih (n + 1) fs2 g1 (fun q hq => by rw [h7 q hq, h41 q hq]) hc2 ⟨g', h2⟩
        (fun j g'' hj hjk hr => by
          have := hfig (j + 1) g'' (by omega) (by omega) (by rw [hnext]; exact hr)
          rwa [show n + (j + 1) - 1 = n + 1 + j - 1 by omega] at this)
      refine ⟨fs', ?_⟩
      rw [Prog.run_bind, Prog.run_bind, h3]
      dsimp only
      rw [if_pos rfl, Prog.run_bind, h6]
      exact h8
    | false =>
      obtain ⟨fs', h8⟩ := ih (n + 1) fs1 g1 h41 hc1 ⟨g', h2⟩
        (fun j g'' hj hjk hr => by
          have := hfig (j + 1) g'' (by omega) (by omega) (by rw [hnext]; exact hr)
          rwa [show n + (j + 1) - 1 = n + 1 + j - 1 by omega] at this)
      refine ⟨fs', ?_⟩
      rw [Prog.run_bind, Prog.run_bind, h3]
      exact h8

/-- **C84**. In a new directory the figures are the only thing that can go wrong: a run with figures
ends normally exactly when the numbers do and the figures of every order can be made from them. -/
theorem C84_iff {N M : ℕ} (a : Input N M) (hM : 0 < M) (e : PlotEnv) (ha : a.makePlots = true)
    (fs : FS Content) (hw : WF fs) (d : Path) (hd : fs d = none) :
    (∃ fs', (fitZpolyP a e).run fs = (.ok d, fs')) ↔
      (∃ g, (fitZpoly (Spec.numbersOnly a a.orderMax)).run fs = (.ok d, g)) ∧
      ∀ k, 1 ≤ k → k ≤ a.orderMax → ∃ g g' x lim, (fitZpoly (Spec.numbersOnly a k)).run fs = (.ok d, g) ∧
        Spec.Range (fun k => a.u (0, k)) lim.1 lim.2.1 ∧ Spec.Range (fun k => a.v (0, k)) lim.2.2.1 lim.2.2.2 ∧
        (Plot.plotFitPath { e with plim := some lim } d k false).run g = (.ok x, g') := by
  obtain ⟨lim, hl, hl1, hl2⟩ := plim_ok a hM
  constructor
  · rintro ⟨fs', h⟩
    refine ⟨?_, fun k hk hk' => C84_figures a hM e fs fs' d h ha k hk hk'⟩
    obtain ⟨fs1, s0, s1, s2, h1, e0, e1, e2, h2⟩ := fitZpolyP_ok h
    rcases loop_failure a e _ d a.orderMax lim hl 1 _ _ fs1 _ _ (fun _ _ => rfl) h2 with
      ⟨g', i1, i2⟩ | ⟨j, i1, i2, i3, -, fs3, y, i6, -⟩
    · exact ⟨g', fitZpoly_of (a := Spec.numbersOnly a a.orderMax) h1 e0 e1 e2 i1⟩
    · cases i6
  · rintro ⟨⟨g, hg⟩, hfig⟩
    obtain ⟨fs1, s0, s1, s2, h1, e0, e1, e2, h2⟩ := fitZpoly_ok hg
    have hfresh := fun q hq => allocDir_fresh hw h1 hd q hq
    have hc : Clear d fs1 := by
      refine ⟨.inl (hfresh _ (below_join d _)), fun f => ?_⟩
      simp only [isDir, hfresh (f :: "plots".toList :: d) ⟨f, _, rfl, List.suffix_cons _ _⟩]
    obtain ⟨fs', h3⟩ := loop_total a e [s0, s1, s2] d a.orderMax lim hl 1 a.orderMax fs1 fs1 (fun _ _ => rfl) hc
      ⟨g, h2⟩ (fun j g' hj hjk hr => by
        obtain ⟨g1, g2, x, lim', i1, i2, i3, i4⟩ := hfig j hj hjk
        have hr' := fitZpoly_of (a := Spec.numbersOnly a j) (r := .ok ()) h1 e0 e1 e2
          (by rw [loop_numbers a j a.orderMax]; exact hr)
        rw [i1] at hr'
        cases hr'
        have hlim : lim' = lim := by
          obtain ⟨a1, a2, a3, a4⟩ := lim
          obtain ⟨b1, b2, b3, b4⟩ := lim'
          obtain ⟨rfl, rfl⟩ := range_unique i2 hl1
          obtain ⟨rfl, rfl⟩ := range_unique i3 hl2
          rfl
        rw [show 1 + j - 1 = j by omega]
        subst hlim
        exact ⟨x, g2, i4⟩)
    refine ⟨fs', ?_⟩
    unfold fitZpolyP
    rw [Prog.run_bind, show a.workDir = (Spec.numbersOnly a a.orderMax).workDir from rfl,
      show a.name = (Spec.numbersOnly a a.orderMax).name from rfl, h1]
    have hsnr : ∀ i, a.snr i = (Spec.numbersOnly a a.orderMax).snr i := fun _ => rfl
    simp only [Prog.run_bind, Prog.run_lift, hsnr, e0, e1, e2, h3]
    rfl

/-! ## The hypotheses are met -/

/-- An interpolation that refuses the points. -/
noncomputable def refusing : PlotEnv := { plotEnv with griddata := fun _ _ _ _ _ _ _ => .error .valueError }

theorem refused {M N : ℕ} (org : Origin) (c : ℝ) (u v b : Fin 3 × Fin M → ℝ) (d0 d1 d2 : ℝ) (m : Bool) (r)
    (h : plotBeamData (N := N) org (fun _ _ _ _ _ => .error .valueError) c u v b [d0, d1, d2] m = .ok r) :
    False := by
  have key : ∀ dz (u v b : Fin M → ℝ) p,
      dataPanel (N := N) org (fun _ _ _ _ _ => .error .valueError) c dz u v b ≠ .ok p := by
    intro dz u v b p hp
    unfold dataPanel at hp
    dsimp only at hp
    simp only [bind, Except.bind] at hp
    repeat' split at hp
    all_goals cases hp
  have e1 : (List.range 3).mapM (pyIdx [d0, d1, d2]) = .ok [d0, d1, d2] := rfl
  have tail : ∀ b : Fin 3 × Fin M → ℝ, ([d0, d1, d2].zip (List.finRange 3)).mapM (fun x =>
      dataPanel (N := N) org (fun _ _ _ _ _ => .error .valueError) c x.1 (fun k => u (x.2, k))
        (fun k => v (x.2, k)) (fun k => b (x.2, k))) ≠ .ok r := by
    intro b h
    rw [show [d0, d1, d2].zip (List.finRange 3) = [(d0, 0), (d1, 1), (d2, 2)] from rfl, List.mapM_cons] at h
    simp only [bind, Except.bind] at h
    split at h
    · cases h
    · rename_i p hp
      exact key _ _ _ _ _ hp
  unfold plotBeamData at h
  cases hu : uvRatio (fun k => u (0, k)) (fun k => v (0, k)) <;> cases m <;>
    cases hb : normAxis1 fun q => Fl.fin (b q) <;>
    simp only [hu, hb, e1, if_true, if_false, Bool.false_eq_true, bind, Except.bind] at h <;>
    first | cases h | exact tail _ h

/-- The figures of the first order cannot be made: the exception reaches the caller, the fitted
parameters are stored. -/
example : ∃ x fs' d c, (fitZpolyP { plotInput with makePlots := true } refusing).run sampleFs = (.error x, fs') ∧
    fs' (Spec.file "fitpar" 1 :: d) = some (.file c) := by
  set b : Input 2 4 := { plotInput with makePlots := true } with hb
  have hnone : ∀ d, (∃ i, d = Spec.runDir plotInput.workDir plotInput.name i) → sampleFs d = none := by
    rintro _ ⟨i, rfl⟩
    simp [Spec.runDir, plotInput, sampleFs]
  obtain ⟨d, g, hg⟩ := plotInput_run
  have hdn : sampleFs d = none := by
    rcases C45_directory _ _ _ _ hg with ⟨i, -, rfl, -⟩ | ⟨rfl, -⟩
    · exact hnone _ ⟨i, rfl⟩
    · exact hnone _ ⟨100, rfl⟩
  rcases h : (fitZpolyP b refusing).run sampleFs with ⟨x | d', fs'⟩
  · have hsame : Spec.numbersOnly b 1 = plotInput := rfl
    rcases C84_failure b (by norm_num) refusing _ _ _ h with ⟨g', h1, -⟩ | ⟨k, d', g', h1, h2, -, h3, h4, -⟩
    · rw [show Spec.numbersOnly b b.orderMax = plotInput from rfl, hg] at h1
      cases h1
    · obtain rfl : k = 1 := le_antisymm h2 h1
      rw [hsame, hg] at h3
      cases h3
      obtain ⟨⟨names, fit, hf⟩, -⟩ := C40_chain plotInput _ _ _ hg (.inl hdn) le_rfl
      refine ⟨x, fs', d, .params names fit plotInput.cfg.init, rfl, ?_⟩
      exact (h4 _ (num_not_plots (.inl ⟨_, fileName_ne_plots "fitpar" 1, rfl⟩))).trans hf
  · exfalso
    obtain ⟨g1, g2, x, lim, h1, -, -, h2⟩ := C84_figures b (by norm_num) refusing _ _ _ h rfl 1 le_rfl le_rfl
    rw [show Spec.numbersOnly b 1 = plotInput from rfl, hg] at h1
    cases h1
    obtain ⟨figs, _, _, _, R, _, _, -, -, -, -, -, -, h3, -⟩ := C73_shows plotInput _ _ _ _ hg (.inl hdn) 1 le_rfl
      le_rfl { refusing with plim := some lim } rfl rfl false _ h2
    exact refused _ _ _ _ _ _ _ _ _ _ h3

/-- The same fit, with an interpolation that works: the run with figures ends normally. -/
example : ∃ d fs', (fitZpolyP { plotInput with makePlots := true } plotEnv).run sampleFs = (.ok d, fs') := by
  obtain ⟨d, fs', h⟩ := plotInput_run
  have hd : sampleFs d = none := by
    rcases C45_directory _ _ _ _ h with ⟨i, hi, hdi, hdn, -⟩ | ⟨h1, -⟩
    · exact hdn
    · rw [h1]; simp [Spec.runDir, plotInput, sampleFs]
  obtain ⟨names, fit, init, it, lb, ub, r, co, hdr, ph, res, jac, grad, phi, cov, cor, g1, g2, -, -, g3, g4,
    -, -, -, -, g5, g6, -⟩ := C67_provenance plotInput _ _ _ h (.inl hd) 1 le_rfl le_rfl
  obtain ⟨⟨names', fit', g7⟩, -⟩ := C40_chain plotInput _ _ _ h (.inl hd) le_rfl
  rw [g1] at g7
  cases g7
  have hit : Core.npDelete plotInput.cfg.init plotInput.cfg.excluded = .ok [0.01, 0, 0] := rfl
  rw [hit] at g2
  cases g2
  have hx : List.ofFn r.x = [0.01, 0, 0] := by
    unfold leastSquares at g3
    split_ifs at g3
    cases g3
    exact List.ofFn_getElem
  rw [hx] at g4
  have hfit : fit.drop 5 = [0, 0, 0] := by
    have e : Core.paramsComplete [0.01, 0, 0] (Spec.nK 1) plotInput.cfg =
        .ok [0.01, -14.5, 1.4, 0, 0, 0, 0, 0] := rfl
    rw [e] at g4
    cases g4
    rfl
  obtain ⟨lim, hl, hl1, hl2⟩ := plim_ok plotInput (by norm_num)
  obtain ⟨figs, fs'', hp⟩ := C73_total plotInput _ _ _ h (.inl hd) 1 le_rfl le_rfl _ plotInput_feasible
    (by simp [Spec.nK]) (by norm_num) { plotEnv with plim := some lim } rfl rfl _ _ _
    (fun q => r.fn (finProdFinEquiv q)) _ _ g1 g5 g6 (by
      rw [hfit]
      obtain ⟨P0, h0, n0⟩ := zero_pattern (fit.take 5) (-0.022)
      obtain ⟨P1, h1, n1⟩ := zero_pattern (fit.take 5) 0
      obtain ⟨P2, h2, n2⟩ := zero_pattern (fit.take 5) 0.022
      exact (C72_total .lower _ _ _ _ _ [] _ _ _ _ (some lim) (180 / Real.pi) _ _ _ (by norm_num)
        (by norm_num) (by norm_num) (div_pos (by norm_num) Real.pi_pos) h0 h1 h2 (by simp)).1 (by
        intro P hP
        simp only [List.mem_cons, List.not_mem_nil, or_false] at hP
        rcases hP with rfl | rfl | rfl
        · exact n0
        · exact n1
        · exact n2))
    (slope_data (by norm_num) _ _ _ _ _ _ _ _) (fun _ => ⟨_, (slope_data (by norm_num) _ _ _ _ _ _ _ _).choose,
      fun q => rfl, (slope_data (by norm_num) _ _ _ _ _ _ _ _).choose_spec⟩)
  refine ⟨d, (C84_iff { plotInput with makePlots := true } (by norm_num) plotEnv rfl sampleFs sampleFs_wf d hd).2
    ⟨⟨fs', h⟩, fun k hk hk' => ?_⟩⟩
  obtain rfl : k = 1 := le_antisymm hk' hk
  exact ⟨fs', fs'', _, lim, h, hl1, hl2, hp⟩

/-- One free parameter: everything but the amplitude is fixed. -/
example : ∃ a : Input 2 4, a.makePlots = true ∧ 1 ≤ a.orderMax ∧ Spec.Feasible a.cfg [1, 2, 3, 4, 5, 6, 7] ∧
    ∀ i ≤ 100, sampleFs (Spec.runDir a.workDir a.name i) = none := by
  refine ⟨{ plotInput with
    makePlots := true
    cfg := { Core.defaultConfig with
      excluded := [1, 2, 3, 4, 5, 6, 7]
      init := [0.01, -10, 1.5, 0, 0, 0, 0, 0] } }, rfl, le_rfl, ?_, fun i _ => ?_⟩
  · constructor
    · rfl
    · decide
    · decide
    · rfl
    · rfl
    · rfl
    · rfl
    · intro k hk hS
      interval_cases k <;> simp [Core.defaultConfig] at hS ⊢ <;> norm_num
    · intro k hk hS
      interval_cases k <;> simp [Core.defaultConfig] at hS ⊢ <;> norm_num
    · intro k hk hS
      interval_cases k <;> simp [Core.defaultConfig] at hS ⊢ <;> norm_num
  · simp [Spec.runDir, plotInput, sampleFs]

end Verif.Props
