import Verif.Lemmas.Hoare
import Verif.Props.FitRun
import Verif.Props.MathFn

/-! # C40: start vectors and bounds of `fit_zpoly` -/

namespace Verif.Props

open Verif Verif.Fs Verif.Store Verif.Fit Verif.Core Verif.Aperture

/-! ## Specification -/

/-- A configuration with excluded parameters `S` (ascending, below 8) whose free parameters have a
start value within bounds. -/
structure Spec.Feasible (cfg : Config) (S : List ℕ) : Prop where
  excluded : cfg.excluded = S.map fun e : ℕ => (e : ℤ)
  ascending : S.Pairwise (· < ·)
  below : ∀ e ∈ S, e ≤ 7
  fixed : cfg.fixed.length = 8
  init : cfg.init.length = 8
  boundMin : cfg.boundMin.length = 8
  boundMax : cfg.boundMax.length = 8
  lt : ∀ k < 8, k ∉ S → cfg.boundMin.getD k 0 < cfg.boundMax.getD k 0
  ge : ∀ k < 8, k ∉ S → cfg.boundMin.getD k 0 ≤ cfg.init.getD k 0
  le : ∀ k < 8, k ∉ S → cfg.init.getD k 0 ≤ cfg.boundMax.getD k 0

/-- The optimiser as it is called: bounds that fit, a start vector within them. -/
def Spec.ProperCall (x0 lb ub : List ℝ) : Prop :=
  lb.length = x0.length ∧ ub.length = x0.length ∧ List.Forall₂ (· < ·) lb ub ∧
  List.Forall₂ (· ≤ ·) lb x0 ∧ List.Forall₂ (· ≤ ·) x0 ub

/-- The optimiser returns vectors within the bounds. -/
def Spec.InBounds {m : ℕ} (solver : Solver m) : Prop :=
  ∀ f x0 lb ub r, Spec.ProperCall x0 lb ub → solver f x0 lb ub = .ok r →
    List.Forall₂ (· ≤ ·) lb (List.ofFn r.x) ∧ List.Forall₂ (· ≤ ·) (List.ofFn r.x) ub

/-- The number of Zernike coefficients up to order `m`. -/
def Spec.nK (m : ℕ) : ℕ := (m + 1) * (m + 2) / 2

theorem default_feasible : Spec.Feasible defaultConfig [1, 2, 3, 4, 5] where
  excluded := rfl
  ascending := by decide
  below := by decide
  fixed := rfl
  init := rfl
  boundMin := rfl
  boundMax := rfl
  lt k hk hS := by
    interval_cases k <;> simp [defaultConfig] at hS ⊢ <;> norm_num
  ge k hk hS := by
    interval_cases k <;> simp [defaultConfig] at hS ⊢ <;> norm_num
  le k hk hS := by
    interval_cases k <;> simp [defaultConfig] at hS ⊢ <;> norm_num

/-! ## Lists -/

theorem dropAt_append {α : Type} (S : List ℕ) (k : ℕ) (l l' : List α) :
    dropAt S k (l ++ l') = dropAt S k l ++ dropAt S (k + l.length) l' := by
  induction l generalizing k with
  | nil => rfl
  | cons a l ih =>
    simp only [List.cons_append, dropAt, ih, List.length_cons]
    rw [show k + 1 + l.length = k + (l.length + 1) by omega]
    split_ifs <;> rfl

theorem dropAt_above {α : Type} (S : List ℕ) (k : ℕ) (h : ∀ e ∈ S, e < k) (l : List α) :
    dropAt S k l = l := by
  induction l generalizing k with
  | nil => rfl
  | cons a l ih =>
    have : k ∉ S := fun hk => lt_irrefl _ (h k hk)
    simp only [dropAt, this, if_false, ih (k + 1) (fun e he => (h e he).trans (Nat.lt_succ_self k))]

theorem dropAt_forall₂ {R : ℝ → ℝ → Prop} (S : List ℕ) (k : ℕ) (l l' : List ℝ)
    (hl : l.length = l'.length) (h : ∀ i < l.length, k + i ∉ S → R (l.getD i 0) (l'.getD i 0)) :
    List.Forall₂ R (dropAt S k l) (dropAt S k l') := by
  induction l generalizing l' k with
  | nil =>
    cases l' with
    | nil => exact .nil
    | cons b l' => simp at hl
  | cons a l ih =>
    cases l' with
    | nil => simp at hl
    | cons b l' =>
      have hrec := ih (k + 1) l' (by simpa using hl) (fun i hi hS => by
        have := h (i + 1) (by simpa using hi) (by rwa [show k + (i + 1) = k + 1 + i by omega])
        simpa using this)
      simp only [dropAt]
      split_ifs with hk
      · exact hrec
      · exact .cons (by simpa using h 0 (by simp) (by simpa using hk)) hrec

theorem forall₂_append {R : ℝ → ℝ → Prop} {a b c d : List ℝ} (h1 : List.Forall₂ R a b)
    (h2 : List.Forall₂ R c d) : List.Forall₂ R (a ++ c) (b ++ d) := by
  induction h1 with
  | nil => exact h2
  | cons h _ ih => exact .cons h ih

theorem forall₂_replicate {R : ℝ → ℝ → Prop} {a b : ℝ} (h : R a b) (n : ℕ) :
    List.Forall₂ R (List.replicate n a) (List.replicate n b) := by
  induction n with
  | zero => exact .nil
  | succ n ih => exact .cons h ih

theorem nK_succ (m : ℕ) : Spec.nK (m + 1) = Spec.nK m + (m + 2) := by
  have h := tri_succ (m + 1)
  unfold tri at h
  unfold Spec.nK
  simp only [Nat.add_assoc, Nat.reduceAdd] at h ⊢
  exact h

theorem nK_ge (m : ℕ) (hm : 1 ≤ m) : 3 ≤ Spec.nK m := by
  induction m with
  | zero => omega
  | succ m ih =>
    rw [nK_succ]
    rcases Nat.eq_zero_or_pos m with rfl | h
    · simp [Spec.nK]
    · have := ih h; omega

theorem nK_mono {m n : ℕ} (h : m ≤ n) : Spec.nK m ≤ Spec.nK n := by
  induction n with
  | zero => rw [Nat.le_zero.1 h]
  | succ n ih =>
    rcases Nat.lt_or_ge m (n + 1) with h1 | h1
    · rw [nK_succ]; have := ih (by omega); omega
    · rw [le_antisymm h h1]

/-! ## One order -/

/-- A start vector for order `m`: `5 + N` entries, the free ones within the bounds. -/
def Start (cfg : Config) (S : List ℕ) (m : ℕ) (init : List ℝ) : Prop :=
  init.length = 5 + Spec.nK m ∧
  List.Forall₂ (· ≤ ·) (dropAt S 0 (cfg.boundMin ++ List.replicate (Spec.nK m - 3) (-5))) (dropAt S 0 init) ∧
  List.Forall₂ (· ≤ ·) (dropAt S 0 init) (dropAt S 0 (cfg.boundMax ++ List.replicate (Spec.nK m - 3) 5))

theorem drop_tail {cfg : Config} {S : List ℕ} (hf : Spec.Feasible cfg S) {l : List ℝ}
    (hl : 8 ≤ l.length) (r : List ℝ) : dropAt S 0 (l ++ r) = dropAt S 0 l ++ r := by
  rw [dropAt_append, dropAt_above S (0 + l.length)]
  intro e he
  have := hf.below e he
  omega

theorem start_default {cfg : Config} {S : List ℕ} (hf : Spec.Feasible cfg S) (m : ℕ) (hm : 1 ≤ m) :
    Start cfg S m (cfg.init ++ List.replicate (Spec.nK m - 3) 0.1) := by
  have h3 := nK_ge m hm
  refine ⟨by rw [List.length_append, List.length_replicate, hf.init]; omega, ?_, ?_⟩
  · rw [drop_tail hf hf.boundMin.ge, drop_tail hf hf.init.ge]
    refine forall₂_append (dropAt_forall₂ _ _ _ _ (by rw [hf.boundMin, hf.init]) ?_)
      (forall₂_replicate (by norm_num) _)
    intro i hi hS
    exact hf.ge i (by rw [hf.boundMin] at hi; exact hi) (by simpa using hS)
  · rw [drop_tail hf hf.boundMax.ge, drop_tail hf hf.init.ge]
    refine forall₂_append (dropAt_forall₂ _ _ _ _ (by rw [hf.boundMax, hf.init]) ?_)
      (forall₂_replicate (by norm_num) _)
    intro i hi hS
    exact hf.le i (by rw [hf.init] at hi; exact hi) (by simpa using hS)

theorem start_next {cfg : Config} {S : List ℕ} (hf : Spec.Feasible cfg S) (m : ℕ) (hm : 1 ≤ m)
    (sol : List ℝ) (hs : Start cfg S m sol) (b : Bool) :
    Start cfg S (m + 1) (Spec.nextInit b cfg.init m sol) := by
  cases b
  · have := start_default hf (m + 1) (by omega)
    exact this
  · obtain ⟨h1, h2, h3⟩ := hs
    have h4 := nK_ge m hm
    simp only [Spec.nextInit, if_true]
    let a1 := cfg.boundMin ++ List.replicate (Spec.nK m - 3) (-5 : ℝ)
    let a2 := cfg.boundMax ++ List.replicate (Spec.nK m - 3) (5 : ℝ)
    have e : Spec.nK (m + 1) - 3 = (Spec.nK m - 3) + (m + 2) := by rw [nK_succ]; omega
    refine ⟨by rw [List.length_append, List.length_replicate, h1, nK_succ]; omega, ?_, ?_⟩
    · rw [e, List.replicate_add (Spec.nK m - 3), ← List.append_assoc,
        drop_tail hf (l := a1) (by simp [a1, hf.boundMin]), drop_tail hf (l := sol) (by omega)]
      exact forall₂_append h2 (forall₂_replicate (by norm_num) _)
    · rw [e, List.replicate_add (Spec.nK m - 3), ← List.append_assoc,
        drop_tail hf (l := a2) (by simp [a2, hf.boundMax]), drop_tail hf (l := sol) (by omega)]
      exact forall₂_append h3 (forall₂_replicate (by norm_num) _)

theorem inv_error {n : ℕ} {A : Matrix (Fin n) (Fin n) ℝ} {e : PyErr} (h : MathFn.inv A = .error e) :
    e = .linAlgError := by
  unfold MathFn.inv at h
  split_ifs at h
  cases h
  rfl

theorem coMatrices_error {m n : ℕ} {res : Fin m → ℝ} {jac : Matrix (Fin m) (Fin n) ℝ} {k : ℕ}
    {e : PyErr} (h : MathFn.coMatrices res jac k = .error e) : e = .linAlgError := by
  unfold MathFn.coMatrices at h
  simp only [bind, Except.bind, pure, Except.pure] at h
  split at h
  · rename_i h1
    cases h
    exact inv_error h1
  · split_ifs at h
    split at h
    · rename_i h1
      cases h
      exact inv_error h1
    · cases h

theorem solveOrder_start {N M : ℕ} (a : Input N M) (S : List ℕ) (hf : Spec.Feasible a.cfg S)
    (m : ℕ) (hm : 1 ≤ m) (init : List ℝ) (hs : Start a.cfg S m init) :
    (∃ out x lb ub, solveOrder a m init = .ok out ∧ Spec.ProperCall (dropAt S 0 init) lb ub ∧
      (∃ f r, a.solver f (dropAt S 0 init) lb ub = .ok r ∧ x = List.ofFn r.x) ∧
      lb = dropAt S 0 (a.cfg.boundMin ++ List.replicate (Spec.nK m - 3) (-5)) ∧
      ub = dropAt S 0 (a.cfg.boundMax ++ List.replicate (Spec.nK m - 3) 5) ∧
      out.sol.length = 5 + Spec.nK m ∧ dropAt S 0 out.sol = x ∧
      ∀ e ∈ S, out.sol[e]? = a.cfg.fixed[e]?) ∨
    ∃ e, solveOrder a m init = .error e ∧ (dropAt S 0 init).length + S.length = 5 + Spec.nK m ∧
      ((e = .linAlgError ∧ ∃ f lb ub r, Spec.ProperCall (dropAt S 0 init) lb ub ∧
          a.solver f (dropAt S 0 init) lb ub = .ok r ∧
          MathFn.coMatrices r.fn r.jac (dropAt S 0 init).length = .error e) ∨
      ∃ f lb ub, Spec.ProperCall (dropAt S 0 init) lb ub ∧
        a.solver f (dropAt S 0 init) lb ub = .error e) := by
  obtain ⟨hl, hlo, hhi⟩ := hs
  have h3 := nK_ge m hm
  have hlt : ∀ (l : List ℝ), 8 ≤ l.length → npDelete l a.cfg.excluded = .ok (dropAt S 0 l) := by
    intro l hl
    rw [hf.excluded, npDelete_ok]
    intro e he
    have := hf.below e he
    omega
  have hnd : S.Nodup := hf.ascending.imp (fun h => ne_of_lt h)
  have hSlen : ∀ (l : List ℝ), 8 ≤ l.length → (dropAt S 0 l).length + S.length = l.length := by
    intro l hl
    have hS8 : ∀ e ∈ S, e < l.length := fun e he => by have := hf.below e he; omega
    have key : ∀ (k : ℕ) (l : List ℝ), (dropAt S k l).length + (List.range' k l.length).countP (· ∈ S)
        = l.length := by
      intro k l
      induction l generalizing k with
      | nil => rfl
      | cons a l ih =>
        have := ih (k + 1)
        simp only [dropAt, List.length_cons, List.range'_succ, List.countP_cons]
        by_cases hk : k ∈ S
        · simp only [hk, if_true, decide_true]; omega
        · simp only [hk, if_false, decide_false, List.length_cons]; simp; omega
    have := key 0 l
    rwa [countP_range' S hnd _ hS8] at this
  have hbl : (a.cfg.boundMin ++ List.replicate (Spec.nK m - 3) (-5)).length = 5 + Spec.nK m := by
    rw [List.length_append, List.length_replicate, hf.boundMin]; omega
  have hbu : (a.cfg.boundMax ++ List.replicate (Spec.nK m - 3) 5).length = 5 + Spec.nK m := by
    rw [List.length_append, List.length_replicate, hf.boundMax]; omega
  have hlu : List.Forall₂ (· < ·) (dropAt S 0 (a.cfg.boundMin ++ List.replicate (Spec.nK m - 3) (-5)))
      (dropAt S 0 (a.cfg.boundMax ++ List.replicate (Spec.nK m - 3) 5)) := by
    rw [drop_tail hf hf.boundMin.ge, drop_tail hf hf.boundMax.ge]
    refine forall₂_append (dropAt_forall₂ _ _ _ _ (by rw [hf.boundMin, hf.boundMax]) ?_)
      (forall₂_replicate (by norm_num) _)
    intro i hi hS
    exact hf.lt i (by rw [hf.boundMin] at hi; exact hi) (by simpa using hS)
  have hprop : Spec.ProperCall (dropAt S 0 init)
      (dropAt S 0 (a.cfg.boundMin ++ List.replicate (Spec.nK m - 3) (-5)))
      (dropAt S 0 (a.cfg.boundMax ++ List.replicate (Spec.nK m - 3) 5)) :=
    ⟨hlo.length_eq, hhi.length_eq.symm, hlu, hlo, hhi⟩
  unfold solveOrder
  have hnK : (m + 1) * (m + 2) / 2 = Spec.nK m := rfl
  simp only [hnK, bind, Except.bind, pure, Except.pure]
  rw [hlt init (by omega), hlt _ (by omega), hlt _ (by omega)]
  dsimp only
  have hls : leastSquares a.solver (fun p => Core.residual p (Spec.nK m) a.beam a.u a.v a.dz
        a.wavel a.illum a.tel a.boxFactor a.cfg) (dropAt S 0 init)
      (dropAt S 0 (a.cfg.boundMin ++ List.replicate (Spec.nK m - 3) (-5)))
      (dropAt S 0 (a.cfg.boundMax ++ List.replicate (Spec.nK m - 3) 5)) =
      a.solver (fun p => Core.residual p (Spec.nK m) a.beam a.u a.v a.dz
        a.wavel a.illum a.tel a.boxFactor a.cfg) (dropAt S 0 init)
      (dropAt S 0 (a.cfg.boundMin ++ List.replicate (Spec.nK m - 3) (-5)))
      (dropAt S 0 (a.cfg.boundMax ++ List.replicate (Spec.nK m - 3) 5)) := by
    unfold leastSquares
    rw [if_neg (by rw [not_or, not_not, not_not]; exact ⟨hprop.1, hprop.2.1⟩),
      if_neg (by rw [not_not]; exact hlu), if_neg (by rw [not_not]; exact ⟨hlo, hhi⟩)]
  rw [hls]
  cases hr : a.solver (fun p => Core.residual p (Spec.nK m) a.beam a.u a.v a.dz
        a.wavel a.illum a.tel a.boxFactor a.cfg) (dropAt S 0 init)
      (dropAt S 0 (a.cfg.boundMin ++ List.replicate (Spec.nK m - 3) (-5)))
      (dropAt S 0 (a.cfg.boundMax ++ List.replicate (Spec.nK m - 3) 5)) with
  | error e => exact .inr ⟨e, rfl, by rw [hSlen init (by omega), hl], .inr ⟨_, _, _, hprop, hr⟩⟩
  | ok r =>
  dsimp only
  have hxl : (List.ofFn r.x).length + S.length = 5 + Spec.nK m := by
    rw [List.length_ofFn, hSlen init (by omega), hl]
  obtain ⟨sol, hp, hsl, hsf, hsd⟩ := C36_complete a.cfg S hf.excluded hf.ascending hf.below hf.fixed
    (Spec.nK m) h3 (List.ofFn r.x) hxl
  rw [hp]
  dsimp only
  cases hco : MathFn.coMatrices r.fn r.jac (dropAt S 0 init).length with
  | error e => exact .inr ⟨e, rfl, by rw [hSlen init (by omega), hl],
      .inl ⟨coMatrices_error hco, _, _, _, r, hprop, hr, hco⟩⟩
  | ok co =>
  dsimp only
  have hhdr : ((List.range (Spec.nK m + 5)).map fun k : ℕ => (k : ℝ)).length = 5 + Spec.nK m := by
    rw [List.length_map, List.length_range]; omega
  rw [hlt _ (by omega)]
  dsimp only
  have hhl : (dropAt S 0 ((List.range (Spec.nK m + 5)).map fun k : ℕ => (k : ℝ))).length =
      (dropAt S 0 init).length := by
    have h1 := hSlen _ (show 8 ≤ ((List.range (Spec.nK m + 5)).map fun k : ℕ => (k : ℝ)).length by omega)
    have h2 := hSlen init (by omega)
    omega
  unfold vstack
  simp only [if_pos hhl]
  obtain ⟨K', -, -, hph⟩ := phase_ok (sol.drop 5) a.tel.pr false false 1000 m (by
    rw [List.length_drop, hsl]; show 5 + Spec.nK m - 5 = Spec.nK m; omega) (fun _ => by
    rw [List.length_drop, hsl]; omega)
  rw [hph]
  dsimp only
  refine .inl ⟨_, List.ofFn r.x, _, _, rfl, hprop, ⟨_, r, hr, rfl⟩, rfl, rfl, hsl, ?_, hsf⟩
  have := hlt sol (by omega)
  rw [hsd] at this
  exact (Except.ok.inj this).symm

/-! ## Runs without an `OSError` -/

/-- `d` is a directory, and the only directory below it is `plots`, if at all. -/
def Good (d : Path) (fs : FS Content) : Prop :=
  isDir fs d ∧ (∀ q, Below d q → fs q = some .dir → q = "plots".toList :: d) ∧
  ∀ c, fs ("plots".toList :: d) ≠ some (.file c)

theorem not_below_self {d : Path} : ¬ Below d d := by
  rintro ⟨f, e, h, he⟩
  have h1 := congrArg List.length h
  have h2 := he.length_le
  rw [List.length_cons] at h1
  omega

theorem good_update {d : Path} {fs : FS Content} (h : Good d fs) {q : Path} (hq : Below d q)
    (hp : q ≠ "plots".toList :: d) (c : Content) : Good d (update fs q (.file c)) := by
  obtain ⟨h1, h2, h3⟩ := h
  refine ⟨?_, fun q' hq' hd => ?_, fun c' hc' => ?_⟩
  · cases d with
    | nil => rfl
    | cons g d =>
      rw [isDir_iff] at h1 ⊢
      rw [update_ne, h1]
      rintro rfl
      exact not_below_self hq
  · by_cases e : q' = q
    · rw [e, update_same] at hd; cases hd
    · rw [update_ne _ _ e] at hd
      exact h2 q' hq' hd
  · rw [update_ne _ _ (Ne.symm hp)] at hc'
    exact h3 c' hc'

theorem good_not_dir {d : Path} {fs : FS Content} (h : Good d fs) {q : Path} (hq : Below d q)
    (hp : q ≠ "plots".toList :: d) : isDir fs q = false := by
  rw [Bool.eq_false_iff]
  intro hd
  cases q with
  | nil => obtain ⟨f, e, h', -⟩ := hq; cases h'
  | cons f q => exact hp (h.2.1 _ hq (isDir_iff.1 hd))

variable {E : PyErr → Prop} {d : Path}

theorem triple_write_in (f : Str) (hf : f ≠ "plots".toList) (c : Content) :
    Triple (fun fs => E .osError ∨ Good d fs) (writeFile .part (f :: d) c)
      (fun _ fs => E .osError ∨ Good d fs) E := by
  have hb : Below d (f :: d) := below_join d f
  have hne : f :: d ≠ "plots".toList :: d := fun h => hf (List.cons.inj h).1
  refine triple_writeFile _ _ _ (fun fs h _ => ?_) (fun fs h hc => ?_)
  · exact h.imp id fun h => good_update h hb hne c
  · rcases h with h | h
    · exact h
    · exact absurd (by rw [good_not_dir h hb hne]; simpa using h.1) hc

theorem triple_write_plots (f : Str) :
    Triple (fun fs => E .osError ∨ Good d fs ∧ isDir fs ("plots".toList :: d))
      (writeFile .part (f :: "plots".toList :: d) .plot)
      (fun _ fs => E .osError ∨ Good d fs ∧ isDir fs ("plots".toList :: d)) E := by
  have hb : Below d (f :: "plots".toList :: d) := ⟨_, _, rfl, List.suffix_cons _ _⟩
  have hne : f :: "plots".toList :: d ≠ "plots".toList :: d := by simp
  refine triple_writeFile _ _ _ (fun fs h _ => ?_) (fun fs h hc => ?_)
  · refine h.imp id fun h => ⟨good_update h.1 hb hne _, ?_⟩
    rw [isDir_iff] at h ⊢
    rw [update_ne _ _ hne.symm, h.2]
  · rcases h with h | h
    · exact h
    · exact absurd (by rw [good_not_dir h.1 hb hne]; simpa using h.2) hc

theorem triple_plotFitPath (m : ℕ) :
    Triple (fun fs => E .osError ∨ Good d fs) (plotFitPath d m)
      (fun _ fs => E .osError ∨ Good d fs) E := by
  have hrest : Triple (fun fs => E .osError ∨ Good d fs ∧ isDir fs ("plots".toList :: d)) (do
      let pdf := fun kind : String =>
        (d.join "plots".toList).join (kind.toList ++ "_n".toList ++ decNat m ++ ".pdf".toList)
      writeFile Content.part (pdf "fitbeam") .plot
      writeFile .part (pdf "fitphase") .plot
      writeFile .part (pdf "residual") .plot
      writeFile .part (pdf "cov") .plot
      writeFile .part (pdf "corr") .plot
      if m = 1 then writeFile .part ((d.join "plots".toList).join "obsbeam.pdf".toList) .plot)
      (fun _ fs => E .osError ∨ Good d fs) E := by
    refine triple_bind (triple_write_plots _) fun _ => ?_
    refine triple_bind (triple_write_plots _) fun _ => ?_
    refine triple_bind (triple_write_plots _) fun _ => ?_
    refine triple_bind (triple_write_plots _) fun _ => ?_
    refine triple_bind (triple_write_plots _) fun _ => ?_
    split_ifs
    · exact triple_post (fun _ fs h => h.imp id And.left) (triple_write_plots _)
    · exact triple_pure _ fun fs h => h.imp id And.left
  unfold plotFitPath
  refine triple_bind (triple_existsP _) fun e => ?_
  cases e
  · simp only [Bool.not_false, if_true]
    refine triple_bind (Q := fun _ fs => E .osError ∨ Good d fs ∧ isDir fs ("plots".toList :: d)) ?_
      fun _ => hrest
    by_cases hE : E .osError
    · exact triple_post (fun _ _ _ => .inl hE) (triple_makedirs_any _ _ hE)
    · refine triple_makedirs_leaf _ _ _ (fun fs h => (h.1.resolve_left hE).1) (fun fs h hp => ?_)
        (fun fs h _ hf => by cases hf) (fun fs h hp _ => ?_)
      · refine .inr ⟨?_, by rw [isDir_iff, update_same]⟩
        obtain ⟨h1, h2, h3⟩ := h.1.resolve_left hE
        refine ⟨?_, fun q hq hd => ?_, fun c hc => ?_⟩
        · cases d with
          | nil => rfl
          | cons g d =>
            rw [isDir_iff] at h1 ⊢
            rw [update_ne _ _ (by simp), h1]
        · by_cases e : q = "plots".toList :: d
          · exact e
          · rw [update_ne _ _ e] at hd
            exact h2 q hq hd
        · rw [update_same] at hc; cases hc
      · have := h.2
        rw [Path.join, hp] at this
        cases this
  · simp only [Bool.not_true, Bool.false_eq_true, if_false]
    refine triple_pre (fun fs h => h.1.imp id fun hg => ⟨hg, ?_⟩) hrest
    rw [isDir_iff]
    have hp := h.2
    simp only [Path.join, present, Option.isSome_iff_exists] at hp
    obtain ⟨n, hn⟩ := hp
    cases n with
    | dir => exact hn
    | file c => exact absurd hn (hg.2.2 c)

theorem triple_saveLoop (name : Str) (l : List (Str × Str × List (List Fl)))
    (hl : ∀ x ∈ l, x.1 ≠ "plots".toList) :
    Triple (fun fs => E .osError ∨ Good d fs) (saveLoop name d l)
      (fun _ fs => E .osError ∨ Good d fs) E := by
  induction l with
  | nil => exact triple_ret _ fun _ h => h
  | cons x l ih =>
    obtain ⟨f, g, y⟩ := x
    exact triple_bind (triple_write_in f (hl _ List.mem_cons_self) _) fun _ =>
      ih fun x hx => hl x (List.mem_cons_of_mem _ hx)

theorem file_ne_plots (k : String) (m : ℕ) (hk : k ∈ ["fitpar"]) : fileName k m ≠ "plots".toList := by
  rw [List.mem_singleton] at hk
  subst hk
  simp [fileName]

theorem paramNames_len (m : ℕ) : ∃ names, paramNames m = .ok names ∧ names.length = 5 + Spec.nK m := by
  obtain ⟨names, h1, h2, -⟩ := C39_distinct m
  exact ⟨names, h1, h2⟩

/-- After the start vector, given the result of the numerical part. -/
theorem triple_fitOrder {N M : ℕ} (a : Input N M) (s : List Fl) (m : ℕ) (P : FS Content → Prop)
    (init : List ℝ) (hstart : ∀ fs, P fs → (startVector a d m).run fs = (.ok init, fs))
    (hil : init.length = 5 + Spec.nK m)
    (hok : ∀ out, solveOrder a m init = .ok out → out.sol.length = 5 + Spec.nK m)
    (herr : ∀ e, solveOrder a m init = .error e → E e) :
    Triple (fun fs => P fs ∧ (E .osError ∨ Good d fs)) (fitOrder a s d m)
      (fun _ fs => E .osError ∨ Good d fs) E := by
  unfold fitOrder
  refine triple_bind (Q := fun i fs => i = init ∧ (E .osError ∨ Good d fs)) ?_ fun i => ?_
  · intro fs h
    rw [hstart fs h.1]
    refine ⟨fun a fs' h' => ?_, fun e fs' h' => by simp at h'⟩
    cases h'
    exact ⟨rfl, h.2⟩
  refine triple_bind (Q := fun out fs => (i = init ∧ solveOrder a m init = .ok out) ∧
    (E .osError ∨ Good d fs)) ?_ fun out => ?_
  · intro fs h
    obtain ⟨rfl, h⟩ := h
    exact triple_lift (P := fun fs => E .osError ∨ Good d fs) _ (fun out fs ho h => ⟨⟨rfl, ho⟩, h⟩)
      herr fs h
  intro fs h
  obtain ⟨⟨rfl, ho⟩, h⟩ := h
  refine triple_bind (P := fun fs => E .osError ∨ Good d fs)
    (Q := fun _ fs => E .osError ∨ Good d fs) ?_ (fun _ => ?_) fs h
  · unfold storeDataAscii
    obtain ⟨names, hn, hl⟩ := paramNames_len m
    rw [hn, Prog.lift_ok, Prog.ret_bind, if_pos ⟨by rw [hl, hok out ho], by rw [hok out ho, hil]⟩]
    exact triple_write_in _ (file_ne_plots _ _ (by simp)) _
  have hrest : Triple (fun fs => E .osError ∨ Good d fs) (do
      storeDataCsv a.name d m out.save
      if a.makePlots then plotFitPath d m) (fun _ fs => E .osError ∨ Good d fs) E := by
    refine triple_bind (Q := fun _ fs => E .osError ∨ Good d fs) ?_ fun _ => ?_
    · rw [storeDataCsv_eq]
      exact triple_saveLoop _ _ fun x hx hp => filesAt_not_plots m (hp ▸ csvRows_filesAt m _ x hx)
    · cases a.makePlots
      · exact triple_pure _ fun _ h => h
      · exact triple_plotFitPath m
  by_cases hm : m = 1
  · dsimp only
    rw [if_pos hm]
    exact triple_bind (triple_write_in _ (by simp) _) fun _ => hrest
  · dsimp only
    rw [if_neg hm]
    exact hrest

theorem fitOrder_isDir {N M : ℕ} {a : Input N M} {s : List Fl} {m : ℕ} {fs fs' : FS Content} {r : Unit}
    (h : (fitOrder a s d m).run fs = (.ok r, fs')) : isDir fs d := by
  unfold fitOrder at h
  rw [Prog.run_bind_ok] at h
  obtain ⟨init, fs1, h1, h⟩ := h
  have e1 := startVector_fs a d m fs
  rw [h1] at e1
  simp only at e1
  subst e1
  rw [Prog.run_bind_ok] at h
  obtain ⟨out, fs2, h2, h⟩ := h
  rw [Prog.run_lift, Prod.mk.injEq] at h2
  obtain ⟨-, rfl⟩ := h2
  rw [Prog.run_bind_ok] at h
  obtain ⟨_, fs3, h3, h⟩ := h
  unfold storeDataAscii at h3
  rw [Prog.run_bind_ok] at h3
  obtain ⟨names, fs4, h4, h3⟩ := h3
  rw [Prog.run_lift, Prod.mk.injEq] at h4
  obtain ⟨-, rfl⟩ := h4
  split_ifs at h3
  · exact (writeFile_ok h3).2.2
  · simp at h3

/-- What the start vector of order `n` needs from the file system. -/
def Inv (cfg : Config) (S : List ℕ) (d : Path) (n : ℕ) (fs : FS Content) : Prop :=
  n = 1 ∨ ∃ names sol i0, fs (fileName "fitpar" (n - 1) :: d) = some (.file (.params names sol i0)) ∧
    Start cfg S (n - 1) sol

theorem startVector_inv {N M : ℕ} (a : Input N M) {S : List ℕ} (hf : Spec.Feasible a.cfg S) {n : ℕ}
    (hn : 1 ≤ n) {fs : FS Content} (h : Inv a.cfg S d n fs) :
    ∃ init, (startVector a d n).run fs = (.ok init, fs) ∧ Start a.cfg S n init := by
  unfold startVector
  dsimp only
  by_cases hc : (a.fitPrevious && n != 1) = true
  · rw [if_pos hc]
    simp only [Bool.and_eq_true, bne_iff_ne, ne_eq] at hc
    rcases h with h | ⟨names, sol, i0, h1, h2⟩
    · exact absurd h hc.2
    obtain ⟨m, rfl⟩ : ∃ m, n = m + 1 := ⟨n - 1, by omega⟩
    rw [Nat.add_sub_cancel] at h1 h2 ⊢
    rw [Prog.run_bind, run_readFile]
    simp only [Path.join, h1, Prog.run_pure]
    refine ⟨_, rfl, ?_⟩
    have := start_next hf m (by omega) sol h2 true
    simp only [Spec.nextInit, if_true] at this
    have e := nK_succ m
    unfold Spec.nK at e
    rw [show (m + 1 + 1) * (m + 1 + 2) / 2 - (m + 1) * (m + 1 + 1) / 2 = m + 2 by
      simp only [Nat.add_assoc, Nat.reduceAdd] at e ⊢; omega]
    exact this
  · rw [if_neg hc]
    exact ⟨_, rfl, start_default hf n hn⟩

theorem fitLoop_triple {N M : ℕ} (a : Input N M) (s : List Fl) {S : List ℕ}
    (hf : Spec.Feasible a.cfg S) (hb : Spec.InBounds a.solver) (L : ℕ)
    (hl : ∀ f x0 lb ub r, x0.length + S.length ≤ 5 + Spec.nK L → Spec.ProperCall x0 lb ub →
      a.solver f x0 lb ub = .ok r →
      MathFn.coMatrices r.fn r.jac x0.length = .error .linAlgError → E .linAlgError)
    (hsol : ∀ f x0 lb ub e, x0.length + S.length ≤ 5 + Spec.nK L → Spec.ProperCall x0 lb ub → a.solver f x0 lb ub = .error e → E e)
    (k n : ℕ) (hn : 1 ≤ n) (hL : n + k ≤ L + 1) (fs : FS Content) (hi : Inv a.cfg S d n fs)
    (hg : E .osError ∨ Good d fs) :
    (∀ e fs', (fitLoop a s d n k).run fs = (.error e, fs') → E e) ∧
    ∀ r fs', (fitLoop a s d n k).run fs = (.ok r, fs') → E .osError ∨ Good d fs' := by
  induction k generalizing n fs with
  | zero =>
    refine ⟨fun e fs' h => by simp [fitLoop] at h, fun r fs' h => ?_⟩
    cases h
    exact hg
  | succ k ih =>
    obtain ⟨init, h1, h2⟩ := startVector_inv a hf hn hi
    have hcase := solveOrder_start a S hf n hn init h2
    have ht := triple_fitOrder (E := E) (d := d) a s n (fun fs1 => fs1 = fs) init
      (by rintro _ rfl; exact h1) h2.1 (fun out ho => by
        rcases hcase with ⟨out', x, lb, ub, ho', -, -, -, -, hlen, -⟩ | ⟨e, he, -⟩
        · rw [ho] at ho'; cases ho'; exact hlen
        · rw [ho] at he; cases he) (fun e he => by
        rcases hcase with ⟨out', x, lb, ub, ho', -⟩ | ⟨e', he', hc⟩
        · rw [ho'] at he; cases he
        · rw [he'] at he
          cases he
          have := nK_mono (show n ≤ L by omega)
          rcases hc with ⟨hlen, ⟨rfl, f, lb, ub, r, hp, hr, hco⟩ | ⟨f, lb, ub, hp, hr⟩⟩
          · exact hl f _ lb ub r (by omega) hp hr hco
          · exact hsol f _ lb ub _ (by omega) hp hr) fs ⟨rfl, hg⟩
    suffices H : ∀ r fs1, (fitOrder a s d n).run fs = (.ok r, fs1) →
        Inv a.cfg S d (n + 1) fs1 by
      constructor
      · intro e fs' h
        rw [fitLoop, Prog.run_bind_error] at h
        rcases h with h | ⟨_, fs1, h3, h4⟩
        · exact ht.2 e fs' h
        · exact (ih (n + 1) (by omega) (by omega) fs1 (H _ _ h3) (ht.1 _ fs1 h3)).1 e fs' h4
      · intro r fs' h
        rw [fitLoop, Prog.run_bind_ok] at h
        obtain ⟨_, fs1, h3, h4⟩ := h
        exact (ih (n + 1) (by omega) (by omega) fs1 (H _ _ h3) (ht.1 _ fs1 h3)).2 r fs' h4
    · intro _ fs1 h3
      refine .inr ?_
      have hd := fitOrder_isDir h3
      obtain ⟨i0, o0, n0, hst, hso, hpn, hl1, hl2, hfr, hfr'⟩ := fitOrder_ok hd h3
      rw [h1] at hst
      cases hst
      obtain ⟨-, -, -, -, -, -, -, -, -, hlen⟩ := solveOrder_ok hso
      refine ⟨n0, o0.sol, init, ?_, ?_⟩
      · rw [Nat.add_sub_cancel, hfr _ (fun hp => file_ne_plots "fitpar" n (by simp) (inPlots_join.1 hp))]
        exact putAll_mem d _ (orderStore_nodup a s n n0 init o0 hlen) fs _
          (orderStore_head a s n n0 init o0)
      · rw [Nat.add_sub_cancel]
        rcases hcase with ⟨out', x, lb, ub, ho', hpc, ⟨f, r, hr, rfl⟩, rfl, rfl, hsl, hsd, -⟩ | ⟨e', he', -⟩
        · rw [hso] at ho'
          cases ho'
          refine ⟨hsl, ?_, ?_⟩
          · rw [hsd]; exact (hb _ _ _ _ _ hpc hr).1
          · rw [hsd]; exact (hb _ _ _ _ _ hpc hr).2
        · rw [hso] at he'; cases he'

theorem fitLoop_spec {N M : ℕ} (a : Input N M) (s : List Fl) {S : List ℕ}
    (hf : Spec.Feasible a.cfg S) (hb : Spec.InBounds a.solver) (L : ℕ)
    (hl : ∀ f x0 lb ub r, x0.length + S.length ≤ 5 + Spec.nK L → Spec.ProperCall x0 lb ub →
      a.solver f x0 lb ub = .ok r →
      MathFn.coMatrices r.fn r.jac x0.length = .error .linAlgError → E .linAlgError)
    (hsol : ∀ f x0 lb ub e, x0.length + S.length ≤ 5 + Spec.nK L → Spec.ProperCall x0 lb ub →
      a.solver f x0 lb ub = .error e → E e)
    (k n : ℕ) (hn : 1 ≤ n) (hL : n + k ≤ L + 1) (fs : FS Content) (hi : Inv a.cfg S d n fs)
    (hg : E .osError ∨ Good d fs) (e : PyErr) (fs' : FS Content)
    (h : (fitLoop a s d n k).run fs = (.error e, fs')) : E e :=
  (fitLoop_triple a s hf hb L hl hsol k n hn hL fs hi hg).1 e fs' h

/-! ## The allocation -/

theorem allocLoop_error {out : Path} {name : Str} {l : List ℕ} {cur : Option Path}
    {fs fs' : FS Content} {e : PyErr} (h : (allocLoop out name l cur).run fs = (.error e, fs')) :
    e = .osError := by
  induction l generalizing cur with
  | nil => simp [allocLoop] at h
  | cons i l ih =>
    rw [allocLoop, Prog.run_bind, run_existsP] at h
    cases hp : present fs (Path.join out (runName name i))
    · simp only [hp, Bool.not_false, if_true] at h
      rw [Prog.run_bind_error] at h
      rcases h with h | ⟨_, fs1, -, h⟩
      · exact (triple_makedirs_any (P := fun _ => True) (E := (· = .osError)) _ true rfl fs trivial).2 e _ h
      · simp at h
    · simp only [hp, Bool.not_true, Bool.false_eq_true, if_false] at h
      exact ih h

theorem allocDir_error {w : Path} {name : Str} {fs fs' : FS Content} {e : PyErr}
    (h : (allocDir w name).run fs = (.error e, fs')) : e = .osError := by
  rw [allocDir_eq, Prog.run_bind_error] at h
  rcases h with h | ⟨_, fs0, -, h⟩
  · unfold allocOut at h
    rw [Prog.run_bind, run_existsP] at h
    cases hp : present fs (w.join "pyoof_out".toList)
    · simp only [hp, Bool.not_false, if_true] at h
      exact (triple_makedirs_any (P := fun _ => True) (E := (· = .osError)) _ true rfl fs trivial).2 e _ h
    · simp only [hp, Bool.not_true, Bool.false_eq_true, if_false] at h
      simp at h
  · rw [Prog.run_bind_error] at h
    rcases h with h | ⟨r, fs1, h1, h⟩
    · exact allocLoop_error h
    · cases r with
      | some d => simp at h
      | none =>
        exfalso
        rcases allocLoop_ok h1 with ⟨_, _, _, _, _, _, h⟩ | ⟨_, _, h⟩
        · cases h
        · rw [List.getLast?_eq_some_getLast (by simp)] at h
          cases h

theorem allocLoop_run {out : Path} {name : Str} {l : List ℕ} {cur : Option Path}
    {fs : FS Content} (ho : isDir fs out) :
    ∃ r fs', (allocLoop out name l cur).run fs = (.ok r, fs') := by
  induction l generalizing cur with
  | nil => exact ⟨_, _, rfl⟩
  | cons i l ih =>
    rw [allocLoop, Prog.run_bind, run_existsP]
    cases hp : present fs (Path.join out (runName name i))
    · simp only [Bool.not_false, if_true]
      rw [Prog.run_bind, run_makedirs_leaf _ _ _ _ ho]
      rw [if_neg (by rw [hp]; simp)]
      exact ⟨_, _, rfl⟩
    · simp only [Bool.not_true, Bool.false_eq_true, if_false]
      exact ih

theorem allocDir_run {w : Path} {name : Str} {fs : FS Content} (hw : isDir fs w)
    (ho : fs (w.join "pyoof_out".toList) = none ∨ isDir fs (w.join "pyoof_out".toList)) :
    ∃ d fs', (allocDir w name).run fs = (.ok d, fs') := by
  rcases h : (allocDir w name).run fs with ⟨e | d, fs'⟩
  swap
  · exact ⟨d, fs', rfl⟩
  exfalso
  rw [allocDir_eq] at h
  obtain ⟨fs0, h0, hd⟩ : ∃ fs0, (allocOut (w.join "pyoof_out".toList)).run fs = (.ok (), fs0) ∧
      isDir fs0 (w.join "pyoof_out".toList) := by
    unfold allocOut
    rw [Prog.run_bind, run_existsP]
    rcases ho with ho | ho
    · have hp : present fs (w.join "pyoof_out".toList) = false := by
        show (fs (w.join "pyoof_out".toList)).isSome = false
        rw [ho]; rfl
      simp only [hp, Bool.not_false, if_true]
      rw [run_makedirs_leaf _ _ _ _ hw, if_neg (by rw [hp]; simp)]
      exact ⟨_, rfl, by rw [isDir_iff, update_same]⟩
    · simp only [isDir_present ho, Bool.not_true, Bool.false_eq_true, if_false]
      exact ⟨_, rfl, ho⟩
  rw [Prog.run_bind, h0] at h
  simp only at h
  obtain ⟨r, fs2, h2⟩ := allocLoop_run (name := name) (l := List.range 101) (cur := none) hd
  rw [Prog.run_bind, h2] at h
  cases r with
  | some d => simp at h
  | none =>
    rcases allocLoop_ok h2 with ⟨_, _, _, _, _, _, h⟩ | ⟨_, _, h⟩
    · cases h
    · rw [List.getLast?_eq_some_getLast (by simp)] at h
      cases h

/-! ## C40 -/

/-- **C40**. With a feasible configuration (such as the one of the package) and an optimiser that
returns vectors within the bounds, whatever exception ends a run: it is a singular matrix, an
`OSError`, or it comes from `snr` or from within the iteration of the optimiser, which was called
with a start vector within the bounds.  The checks of the optimiser and of the array functions
never fail, at any order, with or without `fit_previous`. -/
theorem C40_feasible {N M : ℕ} (a : Input N M) (S : List ℕ) (hf : Spec.Feasible a.cfg S)
    (hb : Spec.InBounds a.solver) (fs fs' : FS Content) (e : PyErr)
    (h : (fitZpoly a).run fs = (.error e, fs')) :
    e = .linAlgError ∨ e = .osError ∨ (∃ i, a.snr i = .error e) ∨
    ∃ f x0 lb ub, Spec.ProperCall x0 lb ub ∧ a.solver f x0 lb ub = .error e := by
  rw [fitZpoly_eq, Prog.run_bind_error] at h
  rcases h with h | ⟨d, fs1, h1, h⟩
  · exact .inr (.inl (allocDir_error h))
  unfold fitRest at h
  simp only [Prog.run_bind_error, Prog.run_lift, Prod.mk.injEq] at h
  rcases h with ⟨h, -⟩ | ⟨s0, _, -, ⟨h, -⟩ | ⟨s1, _, -, ⟨h, -⟩ | ⟨s2, fs2, -, h | ⟨_, _, -, h⟩⟩⟩⟩
  · exact .inr (.inr (.inl ⟨0, h⟩))
  · exact .inr (.inr (.inl ⟨1, h⟩))
  · exact .inr (.inr (.inl ⟨2, h⟩))
  · refine fitLoop_spec (E := fun e => e = .linAlgError ∨ e = .osError ∨ (∃ i, a.snr i = .error e) ∨
      ∃ f x0 lb ub, Spec.ProperCall x0 lb ub ∧ a.solver f x0 lb ub = .error e) a _ hf hb a.orderMax
      (fun _ _ _ _ _ _ _ _ _ => .inl rfl)
      (fun f x0 lb ub e _ hp he => .inr (.inr (.inr ⟨f, x0, lb, ub, hp, he⟩))) a.orderMax 1 le_rfl
      (by omega) fs2
      (.inl rfl) (.inl (.inr (.inl rfl))) e fs' h
  · simp at h

/-- What a complete run needs besides the file system. -/
structure Spec.Runs {N M : ℕ} (a : Input N M) (S : List ℕ) : Prop where
  feasible : Spec.Feasible a.cfg S
  inBounds : Spec.InBounds a.solver
  solves : ∀ f x0 lb ub, Spec.ProperCall x0 lb ub → x0.length < 3 * M →
      ∃ r, a.solver f x0 lb ub = .ok r ∧ (∀ v, r.jac.mulVec v = 0 → v = 0) ∧ r.fn ≠ 0
  enough : 5 + Spec.nK a.orderMax < 3 * M + S.length
  snr : ∀ i, ∃ x, a.snr i = .ok x

theorem fitRest_completes {N M : ℕ} {a : Input N M} {S : List ℕ} (ha : Spec.Runs a S) {d : Path}
    {fs1 : FS Content} (hgood : Good d fs1) :
    ∃ fs2, (fitRest a d).run fs1 = (.ok d, fs2) ∧ Good d fs2 := by
  obtain ⟨hf, hb, hs, hM, hsnr⟩ := ha
  obtain ⟨s0, e0⟩ := hsnr 0
  obtain ⟨s1, e1⟩ := hsnr 1
  obtain ⟨s2, e2⟩ := hsnr 2
  have ht := fitLoop_triple (E := fun _ => False) (d := d) a [s0, s1, s2] hf hb a.orderMax
      (fun f x0 lb ub r hlen hp hr hco => by
        obtain ⟨r', hr', hrank, hres⟩ := hs f x0 lb ub hp (by omega)
        rw [hr] at hr'
        cases hr'
        obtain ⟨_, _, hok, -⟩ := C30_matrices r.fn r.jac x0.length (by omega) hrank hres
        rw [hok] at hco
        cases hco)
      (fun f x0 lb ub e hlen hp he => by
        obtain ⟨r, hr, -⟩ := hs f x0 lb ub hp (by omega)
        rw [hr] at he
        cases he) a.orderMax 1 le_rfl (by omega) fs1 (.inl rfl) (.inr hgood)
  rcases h : (fitLoop a [s0, s1, s2] d 1 a.orderMax).run fs1 with ⟨e | r, fs2⟩
  · exact (ht.1 e fs2 h).elim
  · refine ⟨fs2, ?_, (ht.2 r fs2 h).resolve_left id⟩
    simp only [fitRest, e0, e1, e2, Prog.lift_ok, Prog.ret_bind]
    rw [Prog.run_bind, h]
    rfl

/-- **C40**. Such a run does end well if the optimiser never raises and returns a Jacobian of full
rank, a residual that is not zero and more residuals than parameters, if `snr` does not raise, and
if `work_dir` is a directory in which `pyoof_out` is absent or a directory with a free number
(or all are in use and `name-100` has no subdirectories but `plots`). -/
theorem C40_completes {N M : ℕ} (a : Input N M) (S : List ℕ) (hf : Spec.Feasible a.cfg S)
    (hb : Spec.InBounds a.solver)
    (hs : ∀ f x0 lb ub, Spec.ProperCall x0 lb ub → x0.length < 3 * M →
      ∃ r, a.solver f x0 lb ub = .ok r ∧ (∀ v, r.jac.mulVec v = 0 → v = 0) ∧ r.fn ≠ 0)
    (hM : 5 + Spec.nK a.orderMax < 3 * M + S.length)
    (hsnr : ∀ i, ∃ x, a.snr i = .ok x) (fs : FS Content) (hw : WF fs) (hwd : isDir fs a.workDir)
    (hout : fs (a.workDir.join "pyoof_out".toList) = none ∨
      isDir fs (a.workDir.join "pyoof_out".toList))
    (hfree : (∃ i ≤ 100, fs (Spec.runDir a.workDir a.name i) = none) ∨
      Good (Spec.runDir a.workDir a.name 100) fs) :
    ∃ d fs', (fitZpoly a).run fs = (.ok d, fs') := by
  obtain ⟨d, fs1, h1⟩ := allocDir_run (name := a.name) hwd hout
  obtain ⟨i, hi, hdi, hcase⟩ := allocDir_ok h1
  have hbelow : ∀ q, Below d q → fs1 q = fs q := by
    rintro q ⟨f, e, rfl, he⟩
    refine run_frame (writes_allocDir a.workDir a.name) h1 ?_
    have := he.length_le
    rw [hdi, ← runDir_eq _ _ hi] at this
    simp at this ⊢
    omega
  have hgood : Good d fs1 := by
    by_cases hd : fs d = none
    · refine ⟨allocDir_isDir h1 (.inl hd), fun q hq hqd => ?_, fun c hc => ?_⟩
      · rw [allocDir_fresh hw h1 hd q hq] at hqd
        cases hqd
      · rw [allocDir_fresh hw h1 hd _ (below_join d _)] at hc
        cases hc
    · rcases hcase with h3 | ⟨rfl, h3⟩
      · exact absurd h3.1 hd
      · rcases hfree with ⟨j, hj, hfj⟩ | hg
        · have := h3 j hj
          rw [hfj] at this
          cases this
        · rw [← hdi] at hg
          refine ⟨allocDir_isDir h1 (.inr hg.1), fun q hq hqd => ?_, fun c hc => ?_⟩
          · rw [hbelow q hq] at hqd
            exact hg.2.1 q hq hqd
          · rw [hbelow _ (below_join d _)] at hc
            exact hg.2.2 c hc
  obtain ⟨fs2, h2, -⟩ := fitRest_completes ⟨hf, hb, hs, hM, hsnr⟩ hgood
  exact ⟨d, fs2, by rw [fitZpoly_eq, Prog.run_bind, h1]; exact h2⟩

theorem forall₂_dropAt {R : ℝ → ℝ → Prop} (S : List ℕ) (k : ℕ) (l l' : List ℝ)
    (hl : l.length = l'.length) (h : List.Forall₂ R (dropAt S k l) (dropAt S k l')) (i : ℕ)
    (hi : i < l.length) (hS : k + i ∉ S) : R (l.getD i 0) (l'.getD i 0) := by
  induction l generalizing l' k i with
  | nil => simp at hi
  | cons a l ih =>
    cases l' with
    | nil => simp at hl
    | cons b l' =>
      simp only [dropAt] at h
      cases i with
      | zero =>
        rw [Nat.add_zero] at hS
        rw [if_neg hS, if_neg hS] at h
        cases h
        simpa
      | succ i =>
        have hrec : List.Forall₂ R (dropAt S (k + 1) l) (dropAt S (k + 1) l') := by
          split_ifs at h
          · exact h
          · cases h; assumption
        have := ih (k + 1) l' (by simpa using hl) hrec i (by simpa using hi)
          (by rwa [show k + 1 + i = k + (i + 1) by omega])
        simpa using this

/-- The bounds at order `m` before exclusion. -/
def Spec.boundsMin (cfg : Config) (m : ℕ) : List ℝ := cfg.boundMin ++ List.replicate (Spec.nK m - 3) (-5)
def Spec.boundsMax (cfg : Config) (m : ℕ) : List ℝ := cfg.boundMax ++ List.replicate (Spec.nK m - 3) 5

/-- **C40**. What a run that ends well has stored for order `k`: names, solution and start vector of
`5 + N` entries; in the solution every excluded parameter has its fixed value, all others are within
the bounds, as are those of the start vector. -/
theorem C40_stored {N M : ℕ} (a : Input N M) (S : List ℕ) (hf : Spec.Feasible a.cfg S)
    (hb : Spec.InBounds a.solver) (fs fs' : FS Content) (d : Path)
    (h : (fitZpoly a).run fs = (.ok d, fs')) (hd : fs d = none ∨ isDir fs d) (k : ℕ) (hk : 1 ≤ k)
    (hk' : k ≤ a.orderMax) :
    ∃ names fit init, fs' (Spec.file "fitpar" k :: d) = some (.file (.params names fit init)) ∧
      names.length = 5 + Spec.nK k ∧ fit.length = 5 + Spec.nK k ∧ init.length = 5 + Spec.nK k ∧
      (Spec.boundsMin a.cfg k).length = 5 + Spec.nK k ∧
      (Spec.boundsMax a.cfg k).length = 5 + Spec.nK k ∧
      (∀ e ∈ S, fit[e]? = a.cfg.fixed[e]?) ∧
      ∀ i < 5 + Spec.nK k, i ∉ S →
        ((Spec.boundsMin a.cfg k).getD i 0 ≤ init.getD i 0 ∧
          init.getD i 0 ≤ (Spec.boundsMax a.cfg k).getD i 0) ∧
        (Spec.boundsMin a.cfg k).getD i 0 ≤ fit.getD i 0 ∧
          fit.getD i 0 ≤ (Spec.boundsMax a.cfg k).getD i 0 := by
  obtain ⟨fs1, s0, s1, s2, h1, -, -, -, h2⟩ := fitZpoly_ok h
  obtain ⟨init, out, names, e1, e2, e3, -⟩ := fitLoop_ok le_rfl (allocDir_isDir h1 hd) h2
  -- start vectors are fine, by induction
  have hsol : ∀ m, 1 ≤ m → m ≤ a.orderMax → Start a.cfg S m (init m) →
      Start a.cfg S m (out m).sol ∧ ∀ e ∈ S, (out m).sol[e]? = a.cfg.fixed[e]? := by
    intro m hm1 hm2 hst
    rcases solveOrder_start a S hf m hm1 (init m) hst with
      ⟨out', x, lb, ub, ho', hpc, ⟨f, r, hr, rfl⟩, rfl, rfl, hsl, hsd, hfx⟩ | ⟨e', he', -⟩
    · rw [(e2 m hm1 (by omega)).1] at ho'
      cases ho'
      refine ⟨⟨hsl, ?_, ?_⟩, hfx⟩
      · rw [hsd]; exact (hb _ _ _ _ _ hpc hr).1
      · rw [hsd]; exact (hb _ _ _ _ _ hpc hr).2
    · rw [(e2 m hm1 (by omega)).1] at he'; cases he'
  have hstart : ∀ m, 1 ≤ m → m ≤ a.orderMax → Start a.cfg S m (init m) := by
    intro m hm1
    induction m, hm1 using Nat.le_induction with
    | base =>
      intro hm2
      have := e1 (by omega)
      obtain ⟨i, hi, hs⟩ := startVector_inv (d := d) (fs := fs1) a hf le_rfl (.inl rfl)
      rw [this] at hi
      cases hi
      exact hs
    | succ m hm1 ih =>
      intro hm2
      rw [e3 m hm1 (by omega)]
      exact start_next hf m hm1 _ (hsol m hm1 (by omega) (ih (by omega))).1 _
  obtain ⟨hso, hpn, hl1, hl2, hmem⟩ := e2 k hk (by omega)
  obtain ⟨⟨f1, f2, f3⟩, hfx⟩ := hsol k hk hk' (hstart k hk hk')
  obtain ⟨i1, i2, i3⟩ := hstart k hk hk'
  have h3 := nK_ge k hk
  have hbl : (Spec.boundsMin a.cfg k).length = 5 + Spec.nK k := by
    unfold Spec.boundsMin; rw [List.length_append, List.length_replicate, hf.boundMin]; omega
  have hbu : (Spec.boundsMax a.cfg k).length = 5 + Spec.nK k := by
    unfold Spec.boundsMax; rw [List.length_append, List.length_replicate, hf.boundMax]; omega
  refine ⟨names k, (out k).sol, init k, hmem _ (orderStore_head a _ k _ _ _), by omega, f1, i1, hbl,
    hbu, hfx, fun i hi hS => ⟨⟨?_, ?_⟩, ?_, ?_⟩⟩
  · exact forall₂_dropAt S 0 _ _ (by rw [i1]; exact hbl) i2 i (lt_of_lt_of_eq hi hbl.symm) (by simpa using hS)
  · exact forall₂_dropAt S 0 _ _ (by rw [i1]; exact hbu.symm) i3 i (by rw [i1]; exact hi) (by simpa using hS)
  · exact forall₂_dropAt S 0 _ _ (by rw [f1]; exact hbl) f2 i (lt_of_lt_of_eq hi hbl.symm) (by simpa using hS)
  · exact forall₂_dropAt S 0 _ _ (by rw [f1]; exact hbu.symm) f3 i (by rw [f1]; exact hi) (by simpa using hS)

/-- **C40**. The stored start vectors: that of the configuration for order 1; for order `k + 1` the
stored solution of order `k` (with `fit_previous`) or the one of the configuration (without),
extended by 0.1 for the new coefficients.  No assumption on configuration or optimiser. -/
theorem C40_chain {N M : ℕ} (a : Input N M) (fs fs' : FS Content) (d : Path)
    (h : (fitZpoly a).run fs = (.ok d, fs')) (hd : fs d = none ∨ isDir fs d) (hn : 1 ≤ a.orderMax) :
    (∃ names fit, fs' (Spec.file "fitpar" 1 :: d) = some (.file (.params names fit a.cfg.init))) ∧
    ∀ k, 1 ≤ k → k < a.orderMax → ∃ names fit init names' fit' init',
      fs' (Spec.file "fitpar" k :: d) = some (.file (.params names fit init)) ∧
      fs' (Spec.file "fitpar" (k + 1) :: d) = some (.file (.params names' fit' init')) ∧
      init' = if a.fitPrevious then fit ++ List.replicate (k + 2) 0.1
        else a.cfg.init ++ List.replicate (Spec.nK (k + 1) - 3) 0.1 := by
  obtain ⟨fs1, s0, s1, s2, h1, -, -, -, h2⟩ := fitZpoly_ok h
  obtain ⟨init, out, names, e1, e2, e3, -⟩ := fitLoop_ok le_rfl (allocDir_isDir h1 hd) h2
  have hmem : ∀ k, 1 ≤ k → k ≤ a.orderMax →
      fs' (Spec.file "fitpar" k :: d) = some (.file (.params (names k) (out k).sol (init k))) :=
    fun k hk hk' => (e2 k hk (by omega)).2.2.2.2 _ (orderStore_head a _ k _ _ _)
  refine ⟨⟨names 1, (out 1).sol, ?_⟩, fun k hk hk' => ⟨_, _, _, _, _, _, hmem k hk (by omega),
    hmem (k + 1) (by omega) (by omega), e3 k hk (by omega)⟩⟩
  have hi := e1 (by omega)
  unfold startVector at hi
  simp only [bne_self_eq_false, Bool.and_false, Bool.false_eq_true, if_false, Prog.run_ret,
    Nat.reduceAdd, Nat.reduceMul, Nat.reduceDiv, Nat.reduceSub, List.replicate_zero,
    List.append_nil, Prod.mk.injEq, Except.ok.injEq, and_true] at hi
  rw [hi]
  exact hmem 1 le_rfl hn

/-- **C45**. If all 101 directories exist, a run that ends well has replaced the results of order 1
(and all others up to `order_max`) in `name-100`, and nothing outside that directory. -/
theorem C45_overflow {N M : ℕ} (a : Input N M) (fs fs' : FS Content) (d : Path)
    (hall : ∀ i ≤ 100, isDir fs (Spec.runDir a.workDir a.name i))
    (h : (fitZpoly a).run fs = (.ok d, fs')) :
    d = Spec.runDir a.workDir a.name 100 ∧
    (∀ k, 1 ≤ k → k ≤ a.orderMax → ∃ names fit init,
      fs' (Spec.file "fitpar" k :: d) = some (.file (.params names fit init)) ∧
      names.length = fit.length ∧ fit.length = init.length) ∧
    (1 ≤ a.orderMax → ∃ s0 s1 s2, a.snr 0 = .ok s0 ∧ a.snr 1 = .ok s1 ∧ a.snr 2 = .ok s2 ∧
      fs' ("pyoof_info.yml".toList :: d) = some (.file (.info (infoOf a [s0, s1, s2])))) ∧
    ∀ q, fs q ≠ none → ¬ Below d q → fs' q = fs q := by
  have hd100 : d = Spec.runDir a.workDir a.name 100 := by
    rcases C45_directory a fs fs' d h with ⟨i, hi, hdi, hdn, -⟩ | ⟨h1, -⟩
    · have := hall i hi
      rw [← hdi] at this
      have hne : d ≠ [] := by rw [hdi]; simp [Spec.runDir]
      obtain ⟨f, e, rfl⟩ := List.exists_cons_of_ne_nil hne
      rw [isDir_iff, hdn] at this
      cases this
    · exact h1
  have hdir : isDir fs d := hd100 ▸ hall 100 le_rfl
  obtain ⟨fs1, s0, s1, s2, h1, g0, g1, g2, h2⟩ := fitZpoly_ok h
  obtain ⟨init, out, names, e1, e2, e3, -⟩ := fitLoop_ok le_rfl (allocDir_isDir h1 (.inr hdir)) h2
  refine ⟨hd100, fun k hk hk' => ?_, fun hn => ?_, fun q hq hb => ?_⟩
  · obtain ⟨-, -, hl1, hl2, hmem⟩ := e2 k hk (by omega)
    exact ⟨_, _, _, hmem _ (orderStore_head a _ k _ _ _), hl1, hl2⟩
  · obtain ⟨-, -, -, -, hmem⟩ := e2 1 le_rfl (by omega)
    exact ⟨s0, s1, s2, g0, g1, g2, 
      hmem ("pyoof_info.yml".toList, .info (infoOf a [s0, s1, s2])) (by simp [orderStore])⟩
  · have hq' := Option.isSome_iff_ne_none.2 hq
    have hm := (allocDir a.workDir a.name).run_mem_trace fs
    rw [h1] at hm
    have h3 : fs1 q = fs q := trace_puts (puts_allocDir _ _) hm hq' id
    have hm2 := (fitLoop a [s0, s1, s2] d 1 a.orderMax).run_mem_trace fs1
    rw [h2] at hm2
    rw [← h3]
    exact trace_puts (puts_fitLoop a _ d 1 a.orderMax) hm2 (by rw [h3]; exact hq') hb

/-! ## A run -/

/-- An optimiser that stays where it is. -/
noncomputable def lazySolver (m : ℕ) : Solver m := fun _ x0 _ _ =>
  .ok ⟨fun i => x0.get i, fun _ => 1, fun i j => if i.val = j.val then 1 else 0, fun _ => 0⟩

theorem lazy_inBounds (m : ℕ) : Spec.InBounds (lazySolver m) := by
  intro f x0 lb ub r hp h
  cases h
  simp only [List.get_eq_getElem, List.ofFn_getElem]
  exact ⟨hp.2.2.2.1, hp.2.2.2.2⟩

/-- A run with the configuration of the package, orders 1 and 2, five points per map. -/
noncomputable def sampleInput : Input 64 5 where
  name := "obs".toList
  obsObject := "3C84".toList
  obsDate := "2020".toList
  freq := 34e9
  wavel := 0.009
  dz := ![-0.022, 0, 0.022]
  meanel := 32
  beam := fun q => .fin q.2
  u := fun q => q.2
  v := fun q => q.1
  orderMax := 2
  illum := fun _ _ _ _ => .ok fun _ => 1
  illumName := "one".toList
  tel := ⟨fun _ _ => .ok fun _ => 1, fun _ _ _ => .ok fun _ => 0, 50⟩
  opdName := "none".toList
  telName := "tel".toList
  boxFactor := 5
  fitPrevious := true
  cfg := defaultConfig
  makePlots := true
  workDir := ["home".toList]
  snr := fun _ => .ok (.fin 10)
  solver := lazySolver 15

/-- A disk with an empty directory. -/
def sampleFs : FS Content := fun p => if p = ["home".toList] then some .dir else none

theorem sampleFs_wf : WF sampleFs := by
  intro f d h
  unfold sampleFs at h
  split_ifs at h with h1
  · cases h1; rfl
  · cases h

/-- The hypotheses of the theorems of this file are met. -/
theorem sample_run : ∃ d fs', (fitZpoly sampleInput).run sampleFs = (.ok d, fs') := by
  refine C40_completes sampleInput [1, 2, 3, 4, 5] default_feasible (lazy_inBounds 15)
    (fun f x0 lb ub hp hl => ⟨_, rfl, fun v hv => ?_, ?_⟩) (by simp [Spec.nK, sampleInput])
    (fun _ => ⟨_, rfl⟩) sampleFs sampleFs_wf (by simp [sampleInput, sampleFs, isDir])
    (.inl (by simp [sampleInput, sampleFs]))
    (.inl ⟨0, by omega, by simp [Spec.runDir, sampleInput, sampleFs]⟩)
  · funext j
    have := congrFun hv ⟨j.val, by omega⟩
    simpa [Matrix.mulVec, dotProduct, Fin.val_inj] using this
  · intro h
    have := congrFun h ⟨0, by norm_num⟩
    simp at this

example : ∃ d fs' names fit init, (fitZpoly sampleInput).run sampleFs = (.ok d, fs') ∧
    fs' (Spec.file "fitpar" 2 :: d) = some (.file (.params names fit init)) ∧
    fit.length = 11 ∧ fit[1]? = some (-14.5 : ℝ) := by
  obtain ⟨d, fs', h⟩ := sample_run
  have hd : sampleFs d = none := by
    rcases C45_directory _ _ _ _ h with ⟨i, hi, hdi, hdn, -⟩ | ⟨h1, -⟩
    · exact hdn
    · rw [h1]; simp [Spec.runDir, sampleInput, sampleFs]
  obtain ⟨names, fit, init, h1, -, h2, -, -, -, h3, -⟩ := C40_stored sampleInput [1, 2, 3, 4, 5]
    default_feasible (lazy_inBounds 15) _ _ _ h (.inl hd) 2 (by norm_num) (by simp [sampleInput])
  refine ⟨d, fs', names, fit, init, h, h1, h2, ?_⟩
  rw [h3 1 (by simp)]
  rfl

example : ∃ d fs', (fitZpoly sampleInput).run sampleFs = (.ok d, fs') ∧
    ∃ c, fs' (Spec.file "cov" 2 :: d) = some (.file c) := by
  obtain ⟨d, fs', h⟩ := sample_run
  have hd : sampleFs d = none := by
    rcases C45_directory _ _ _ _ h with ⟨i, hi, hdi, hdn, -⟩ | ⟨h1, -⟩
    · exact hdn
    · rw [h1]; simp [Spec.runDir, sampleInput, sampleFs]
  obtain ⟨c, hc, -⟩ := (C47_files sampleInput _ _ sampleFs_wf d h hd (by simp [sampleInput])).1
    (Spec.file "cov" 2) (.inr ⟨2, by norm_num, by simp [sampleInput], by simp [Spec.orderFiles]⟩)
  exact ⟨d, fs', h, c, hc⟩

/-- A disk on which all 101 directories are in use. -/
noncomputable def fullFs : FS Content := fun p => open Classical in
  if p = ["home".toList] ∨ p = ["pyoof_out".toList, "home".toList] ∨
    ∃ i ≤ 100, p = Spec.runDir ["home".toList] "obs".toList i then some .dir else none

open Classical in
example : ∃ d fs', (fitZpoly sampleInput).run fullFs = (.ok d, fs') ∧
    d = Spec.runDir ["home".toList] "obs".toList 100 ∧
    ∃ names fit init, fs' (Spec.file "fitpar" 1 :: d) = some (.file (.params names fit init)) := by
  have hlen : ∀ p, fullFs p ≠ none → fullFs p = some .dir ∧ p.length ≤ 3 := by
    intro p hp
    unfold fullFs at hp ⊢
    split_ifs at hp ⊢ with h
    · refine ⟨rfl, ?_⟩
      rcases h with rfl | rfl | ⟨i, -, rfl⟩
      · simp
      · simp
      · simp [Spec.runDir]
    · simp at hp
  have hall : ∀ i ≤ 100, fullFs (Spec.runDir ["home".toList] "obs".toList i) = some .dir := by
    intro i hi
    unfold fullFs
    rw [if_pos (.inr (.inr ⟨i, hi, rfl⟩))]
  have hwf : WF fullFs := by
    intro f d h
    have h' : fullFs (f :: d) ≠ none := Option.isSome_iff_ne_none.1 h
    unfold fullFs at h'
    split_ifs at h' with h1
    · rcases h1 with h1 | h1 | ⟨i, -, h1⟩
      · cases h1; rfl
      · cases h1
        rw [isDir_iff]
        unfold fullFs
        rw [if_pos (.inl rfl)]
      · simp only [Spec.runDir, List.cons.injEq] at h1
        rw [h1.2, isDir_iff]
        unfold fullFs
        rw [if_pos (.inr (.inl rfl))]
    · simp at h'
  obtain ⟨d, fs', h⟩ := C40_completes sampleInput [1, 2, 3, 4, 5] default_feasible (lazy_inBounds 15)
    (fun f x0 lb ub hp hl => ⟨_, rfl, fun v hv => by
      funext j
      have := congrFun hv ⟨j.val, by omega⟩
      simpa [Matrix.mulVec, dotProduct, Fin.val_inj] using this, fun h => by
      have := congrFun h ⟨0, by norm_num⟩
      simp at this⟩) (by simp [Spec.nK, sampleInput])
    (fun _ => ⟨_, rfl⟩) fullFs hwf (by
      show isDir fullFs ["home".toList] = true
      rw [isDir_iff]; unfold fullFs; rw [if_pos (.inl rfl)])
    (.inr (by
      show isDir fullFs ["pyoof_out".toList, "home".toList] = true
      rw [isDir_iff]; unfold fullFs; rw [if_pos (.inr (.inl rfl))]))
    (.inr (by
      refine ⟨?_, fun q hq hqd => ?_, fun c hc => ?_⟩
      · have := hall 100 le_rfl
        exact isDir_iff.2 this
      · exfalso
        have := (hlen q (by rw [hqd]; simp)).2
        obtain ⟨f, e, rfl, he⟩ := hq
        have := he.length_le
        simp [Spec.runDir, sampleInput] at this
        simp at *
        omega
      · have := (hlen _ (by rw [hc]; simp)).1
        rw [hc] at this
        cases this))
  obtain ⟨h1, h2, -⟩ := C45_overflow sampleInput fullFs fs' d (fun i hi => isDir_iff.2 (hall i hi)) h
  obtain ⟨names, fit, init, h3, -⟩ := h2 1 le_rfl (by simp [sampleInput])
  exact ⟨d, fs', h, h1, names, fit, init, h3⟩

end Verif.Props
