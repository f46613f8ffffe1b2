import Mathlib.Analysis.InnerProductSpace.PiL2
import Verif.Props.BestFit

/-!
# Better maps give better fits (C123)
-/

namespace Verif.Props

open Verif Verif.Np Verif.Zernike Verif.Aperture Verif.Fourier Verif.Telgeometry Verif.Core Verif.MathFn Finset
open Filter Topology

variable {N M nK : ℕ}

theorem sqrt_cost (f : Fin 3 × Fin M → ℝ) :
    Real.sqrt (Spec.costL (flatten3 f)) = ‖(WithLp.toLp 2 f : EuclideanSpace ℝ (Fin 3 × Fin M))‖ := by
  rw [EuclideanSpace.norm_eq, costL_flatten, Fintype.sum_prod_type]
  simp

theorem sqrt_cost_add (f g : Fin 3 × Fin M → ℝ) :
    Real.sqrt (Spec.costL (flatten3 fun q => f q + g q)) ≤
      Real.sqrt (Spec.costL (flatten3 f)) + Real.sqrt (Spec.costL (flatten3 g)) := by
  rw [sqrt_cost, sqrt_cost, sqrt_cost]
  exact norm_add_le (WithLp.toLp 2 f : EuclideanSpace ℝ (Fin 3 × Fin M)) (WithLp.toLp 2 g)

theorem sqrt_cost_neg (f : Fin 3 × Fin M → ℝ) :
    Real.sqrt (Spec.costL (flatten3 fun q => -f q)) = Real.sqrt (Spec.costL (flatten3 f)) := by
  rw [costL_flatten, costL_flatten]
  simp

theorem sqrt_cost_le (f : Fin 3 × Fin M → ℝ) (c : ℝ) (hc : 0 ≤ c) (h : ∀ q, |f q| ≤ c) :
    Real.sqrt (Spec.costL (flatten3 f)) ≤ c * Real.sqrt (3 * M) := by
  rw [costL_flatten]
  have h1 : ∑ i : Fin 3, ∑ k : Fin M, f (i, k) ^ 2 ≤ ∑ _i : Fin 3, ∑ _k : Fin M, c ^ 2 :=
    sum_le_sum fun i _ => sum_le_sum fun k _ => by
      rw [← sq_abs]
      exact pow_le_pow_left₀ (abs_nonneg _) (h (i, k)) 2
  refine (Real.sqrt_le_sqrt h1).trans (le_of_eq ?_)
  simp only [Finset.sum_const, Finset.card_univ, Fintype.card_fin, nsmul_eq_mul]
  rw [show ((3 : ℕ) : ℝ) * ((M : ℝ) * c ^ 2) = c ^ 2 * (3 * M) by push_cast; ring,
    Real.sqrt_mul (sq_nonneg c), Real.sqrt_sq hc]

/-- The normalised maps of two observations that differ little. -/
theorem norm_maps (hM : 0 < M) (d d0 : Fin 3 × Fin M → ℝ) (ε Δ : ℝ) (hε : ∀ q, |d q - d0 q| ≤ ε)
    (hΔ : 0 < Δ) (hs : ∀ i, ∃ s t, Δ ≤ d0 (i, t) - d0 (i, s)) (nd nd0 : Fin 3 × Fin M → ℝ)
    (h : normAxis1 (fun q => Fl.fin (d q)) = .ok nd) (h0 : normAxis1 (fun q => Fl.fin (d0 q)) = .ok nd0) (q : Fin 3 × Fin M) :
    |nd q - nd0 q| ≤ 2 * ε / Δ := by
  have : NeZero M := ⟨hM.ne'⟩
  obtain ⟨nd1, e1, e2⟩ := C27_axis1 hM fun q => Fl.fin (d q)
  obtain ⟨nd2, e3, e4⟩ := C27_axis1 hM fun q => Fl.fin (d0 q)
  rw [h] at e1
  cases e1
  rw [h0] at e3
  cases e3
  obtain ⟨n0, n1, f1, f2, f3⟩ := C97_norm (fun k => d0 (q.1, k)) (fun k => d (q.1, k)) ε fun k => by
    rw [abs_sub_comm]; exact hε _
  rw [e4 q.1] at f1
  cases f1
  rw [e2 q.1] at f2
  cases f2
  obtain ⟨s, t, hst⟩ := hs q.1
  rw [le_div_iff₀ hΔ, abs_sub_comm]
  exact (mul_le_mul_of_nonneg_left hst (abs_nonneg _)).trans (f3 q.2 s t)

/-- Whichever of two sets of parameters fits disturbed maps better fits the maps themselves almost as well. -/
theorem cost_error (p ps : List ℝ) (d d0 : Fin 3 × Fin M → ℝ) (u v : Fin 3 × Fin M → ℝ) (dz : Fin 3 → ℝ) (wavel : ℝ)
    (illum : Illum (Fin N × Fin N)) (tel : TelGeo (Fin N × Fin N)) (bf ε Δ : ℝ) (hε : ∀ q, |d q - d0 q| ≤ ε)
    (hΔ : 0 < Δ) (hs : ∀ i, ∃ s t, Δ ≤ d0 (i, t) - d0 (i, s)) (r rs rs0 : List ℝ)
    (h : residualTrue p (fun q => .fin (d q)) u v dz wavel illum tel bf = .ok r)
    (hs1 : residualTrue ps (fun q => .fin (d q)) u v dz wavel illum tel bf = .ok rs)
    (hs0 : residualTrue ps (fun q => .fin (d0 q)) u v dz wavel illum tel bf = .ok rs0)
    (hle : Spec.costL r ≤ Spec.costL rs) :
    ∃ r0, residualTrue p (fun q => .fin (d0 q)) u v dz wavel illum tel bf = .ok r0 ∧
      Real.sqrt (Spec.costL r0) ≤ Real.sqrt (Spec.costL rs0) + 4 * ε / Δ * Real.sqrt (3 * M) := by
  have hM := (residual_layout _ _ _ _ _ _ _ _ _ r h).1
  have hε0 : 0 ≤ ε := (abs_nonneg _).trans (hε (0, ⟨0, hM⟩))
  obtain ⟨b, hb, nd, nm, h1, h2, rfl⟩ := residualTrue_ok.1 h
  obtain ⟨bs, hbs, nd', nms, h1', h2s, rfl⟩ := residualTrue_ok.1 hs1
  obtain ⟨bs', hbs', nd0, nms', h10, h2s', rfl⟩ := residualTrue_ok.1 hs0
  rw [h1] at h1'
  cases h1'
  have : bs' = bs := by
    funext i
    exact Except.ok.inj ((hbs' i).symm.trans (hbs i))
  subst this
  rw [h2s] at h2s'
  cases h2s'
  refine ⟨_, residualTrue_ok.2 ⟨b, hb, nd0, nm, h10, h2, rfl⟩, ?_⟩
  have he : Real.sqrt (Spec.costL (flatten3 fun q => nd q - nd0 q)) ≤ 2 * ε / Δ * Real.sqrt (3 * M) :=
    sqrt_cost_le _ _ (by positivity) (norm_maps hM d d0 ε Δ hε hΔ hs nd nd0 h1 h10)
  have t1 := sqrt_cost_add (fun q => nd q - nm q) (fun q => -(nd q - nd0 q))
  have t2 := sqrt_cost_add (fun q => nd0 q - nms q) (fun q => nd q - nd0 q)
  rw [sqrt_cost_neg] at t1
  have e1 : (fun q => nd q - nm q + -(nd q - nd0 q)) = fun q => nd0 q - nm q := by funext q; ring
  have e2 : (fun q => nd0 q - nms q + (nd q - nd0 q)) = fun q => nd q - nms q := by funext q; ring
  rw [e1] at t1
  rw [e2] at t2
  have t3 := Real.sqrt_le_sqrt hle
  have t4 : 4 * ε / Δ * Real.sqrt (3 * M) = 2 * ε / Δ * Real.sqrt (3 * M) + 2 * ε / Δ * Real.sqrt (3 * M) := by ring
  linarith

/-- **C123.**  If the fitted parameters `x` fit maps with errors of at most `ε` no worse than the true parameters `xs`
do, then they fit the maps without errors as well as `xs`, up to `4 ε` over the contrast of the maps, in the root
mean square over the pixels. -/
theorem C123_error (x xs : List ℝ) (cfg : Config) (d d0 : Fin 3 × Fin M → ℝ) (u v : Fin 3 × Fin M → ℝ)
    (dz : Fin 3 → ℝ) (wavel : ℝ) (illum : Illum (Fin N × Fin N)) (tel : TelGeo (Fin N × Fin N)) (bf ε Δ : ℝ)
    (hε : ∀ q, |d q - d0 q| ≤ ε) (hΔ : 0 < Δ) (hs : ∀ i, ∃ s t, Δ ≤ d0 (i, t) - d0 (i, s)) (r rs rs0 : List ℝ)
    (h : Core.residual x nK (fun q => .fin (d q)) u v dz wavel illum tel bf cfg = .ok r)
    (hs1 : Core.residual xs nK (fun q => .fin (d q)) u v dz wavel illum tel bf cfg = .ok rs)
    (hs0 : Core.residual xs nK (fun q => .fin (d0 q)) u v dz wavel illum tel bf cfg = .ok rs0)
    (hle : Spec.costL r ≤ Spec.costL rs) :
    ∃ r0, Core.residual x nK (fun q => .fin (d0 q)) u v dz wavel illum tel bf cfg = .ok r0 ∧
      Real.sqrt (Spec.costL r0 / (3 * M)) ≤ Real.sqrt (Spec.costL rs0 / (3 * M)) + 4 * ε / Δ := by
  unfold Core.residual at h hs1 hs0 ⊢
  cases hp : paramsComplete x nK cfg with
  | error e => rw [hp] at h; cases h
  | ok p =>
    cases hps : paramsComplete xs nK cfg with
    | error e => rw [hps] at hs1; cases hs1
    | ok ps =>
      rw [hp] at h
      rw [hps] at hs1 hs0
      simp only [Bind.bind, Except.bind] at h hs1 hs0 ⊢
      have hM := (residual_layout _ _ _ _ _ _ _ _ _ r h).1
      have hM' : (0 : ℝ) < 3 * M := by
        have : (0 : ℝ) < M := by exact_mod_cast hM
        positivity
      obtain ⟨r0, e1, e2⟩ := cost_error p ps d d0 u v dz wavel illum tel bf ε Δ hε hΔ hs r rs rs0 h hs1 hs0 hle
      refine ⟨r0, e1, ?_⟩
      rw [Real.sqrt_div' _ hM'.le, Real.sqrt_div' _ hM'.le, div_le_iff₀ (Real.sqrt_pos.2 hM'), add_mul,
        div_mul_cancel₀ _ (Real.sqrt_pos.2 hM').ne']
      exact e2

/-- Maps between 0 and 1, errors of at most one percent, default configuration: the fit misses the maps without errors by
at most four percent in the root mean square, if some parameters fit them perfectly. -/
example (x xs : List ℝ) (d d0 u v : Fin 3 × Fin 36 → ℝ) (hd : ∀ q, |d q - d0 q| ≤ 0.01)
    (h0 : ∀ i, d0 (i, 0) = 0) (h1 : ∀ i, d0 (i, 1) = 1) (r rs rs0 : List ℝ)
    (h : Core.residual x 3 (fun q => .fin (d q)) u v ![-0.022, 0, 0.022] 0.009 illumParabolic
        (manualTel 50 3.25 1 20 30 387.39435) 2 defaultConfig (N := 6) = .ok r)
    (hs1 : Core.residual xs 3 (fun q => .fin (d q)) u v ![-0.022, 0, 0.022] 0.009 illumParabolic
        (manualTel 50 3.25 1 20 30 387.39435) 2 defaultConfig (N := 6) = .ok rs)
    (hs0 : Core.residual xs 3 (fun q => .fin (d0 q)) u v ![-0.022, 0, 0.022] 0.009 illumParabolic
        (manualTel 50 3.25 1 20 30 387.39435) 2 defaultConfig (N := 6) = .ok rs0)
    (hperf : Spec.costL rs0 = 0) (hle : Spec.costL r ≤ Spec.costL rs) :
    ∃ r0, Core.residual x 3 (fun q => .fin (d0 q)) u v ![-0.022, 0, 0.022] 0.009 illumParabolic
        (manualTel 50 3.25 1 20 30 387.39435) 2 defaultConfig (N := 6) = .ok r0 ∧
      Real.sqrt (Spec.costL r0 / 108) ≤ 0.04 := by
  obtain ⟨r0, e1, e2⟩ := C123_error x xs defaultConfig d d0 u v _ _ _ _ 2 0.01 1 hd one_pos
    (fun i => ⟨0, 1, by rw [h0, h1]; norm_num⟩) r rs rs0 h hs1 hs0 hle
  refine ⟨r0, e1, ?_⟩
  rw [hperf] at e2
  norm_num at e2 ⊢
  exact e2

/-- The model maps of a box of parameters: continuous at a given amplitude, the same for all amplitudes but zero,
where they vanish. -/
theorem box_maps (n : ℕ) (hK : nK = (n + 1) * (n + 2) / 2) (lb ub p0 : (Fin 5 → ℝ) × (Fin nK → ℝ))
    (beam : Fin 3 × Fin M → Fl) (u v : Fin 3 × Fin M → ℝ) (dz : Fin 3 → ℝ) (wavel : ℝ)
    (illum : Illum (Fin N × Fin N)) (tel : TelGeo (Fin N × Fin N)) (bf : ℝ) (r0 : List ℝ)
    (h0 : residualTrue (Spec.vec p0) beam u v dz wavel illum tel bf = .ok r0)
    (hl : Spec.ContLight illum tel bf (Set.Icc lb.1 ub.1))
    (hamp : ∀ I ∈ Set.Icc lb.1 ub.1, Spec.propAmp illum tel.pr (List.ofFn fun j : Fin 4 => I j.succ))
    (hflat : ∀ p ∈ Set.Icc lb ub, p.1 0 ≠ 0 → ∀ i b, Spec.Sampled (Spec.vec p) u v dz wavel illum tel bf i b →
      ∃ s t, b s ≠ b t) :
    ∃ nm : (Fin 5 → ℝ) × (Fin nK → ℝ) → Fin 3 × Fin M → ℝ,
      (∀ p ∈ Set.Icc lb ub, ∀ beam nd, normAxis1 beam = .ok nd →
        residualTrue (Spec.vec p) beam u v dz wavel illum tel bf = .ok (flatten3 fun q => nd q - nm p q)) ∧
      (∀ p ∈ Set.Icc lb ub, p.1 0 = 0 → ∀ q, nm p q = 0) ∧
      (∀ a : ℝ, a ≠ 0 → ∀ q, ContinuousOn (fun p => nm p q) (Set.Icc lb ub ∩ {p | p.1 0 = a})) ∧
      ∀ p ∈ Set.Icc lb ub, p.1 0 ≠ 0 → ∀ a : ℝ, a ≠ 0 → (Function.update p.1 0 a, p.2) ∈ Set.Icc lb ub →
        nm (Function.update p.1 0 a, p.2) = nm p := by
  simp only [sampled_iff] at hflat
  have hM := (residual_layout _ _ _ _ _ _ _ _ _ r0 h0).1
  have : NeZero M := ⟨hM.ne'⟩
  obtain ⟨b0, hb0, nd0, nm0, hd0, -, -⟩ := residualTrue_ok.1 h0
  have hrow := fun i => row_cont (nK := nK) n hK u v dz wavel illum tel bf _ hl i _ _ (hb0 i)
  choose b hb hbc using hrow
  have hnm : ∀ p : (Fin 5 → ℝ) × (Fin nK → ℝ), ∃ nm, normAxis1 (fun q : Fin 3 × Fin M => Fl.fin (b q.1 p q.2)) = .ok nm ∧
      ∀ i, MathFn.norm (fun j => Fl.fin (b i p j)) = .ok (fun j => nm (i, j)) := fun p => C27_axis1 hM _
  choose nm hn1 hn2 using hnm
  have hres : ∀ p ∈ Set.Icc lb ub, ∀ beam nd, normAxis1 beam = .ok nd →
      residualTrue (Spec.vec p) beam u v dz wavel illum tel bf =
      .ok (flatten3 fun q => nd q - nm p q) := fun p hp beam nd hd =>
    residualTrue_ok.2 ⟨fun i => b i p, fun i => hb i p ⟨hp.1.1, hp.2.1⟩, nd, nm p, hd, hn1 p, rfl⟩
  have hzero : ∀ p ∈ Set.Icc lb ub, p.1 0 = 0 → ∀ i, b i p = fun _ => 0 := by
    intro p hp h i
    obtain ⟨P, e1, e2⟩ := modelRow_ok.1 (hb i p ⟨hp.1.1, hp.2.1⟩)
    obtain ⟨hN, E, hE, rfl⟩ := radiationPattern_ok e1
    obtain ⟨B, W, delta, Ea, f1, f2, f3, f4, rfl⟩ := aperture_ok_iff.1 hE
    have hEa : Ea = fun _ => 0 := by
      rw [vec_cons, h, List.cons_append, List.take_succ_cons, List.take_append_of_le_length (by simp),
        List.take_of_length_le (by simp)] at f4
      have := hamp p.1 ⟨hp.1.1, hp.2.1⟩ _ _ 0 0 Ea f4
      rw [mul_zero, f4] at this
      rw [Except.ok.inj this]
      funext q
      exact zero_mul _
    obtain ⟨-, -, hbe⟩ := (interpolator_ok_iff _ _ _ _ _).1 e2
    rw [hbe]
    funext k
    have hF : (fun q : Fin N × Fin N => ‖fftshift2 (fft2 fun q => ((B q * Ea q : ℝ) : ℂ) *
        Complex.exp ((((W q + delta q / wavel) * 2 * Real.pi : ℝ) : ℂ) * Complex.I)) (q.2, q.1)‖ ^ 2) = fun _ => 0 := by
      funext q
      unfold fftshift2 fft2
      simp [hEa]
    dsimp only
    rw [hF]
    unfold evalLinear valAt
    simp
  refine ⟨nm, hres, ?_, ?_, ?_⟩
  · rintro p hp h ⟨i, k⟩
    have h1 := hn2 p i
    rw [hzero p hp h i, C27_constant] at h1
    exact (congrFun (Except.ok.inj h1) k).symm
  · rintro a ha ⟨i, k⟩ p hp
    have hp0' : p.1 0 ≠ 0 := by
      have := hp.2
      simp only [Set.mem_setOf_eq] at this
      rw [this]
      exact ha
    exact norm_contAt (x := p) (b i) (fun y j => nm y (i, j)) (fun y => hn2 y i)
      (fun k => (hbc i k p ⟨hp.1.1.1, hp.1.2.1⟩).mono fun y hy => ⟨hy.1.1.1, hy.1.2.1⟩)
      (hflat p hp.1 hp0' i _ (hb i p ⟨hp.1.1.1, hp.1.2.1⟩)) k
  · intro p hp h a ha hin
    have r1 := hres p hp beam nd0 hd0
    rw [vec_cons] at r1
    have r2 := C18_residual (p.1 0) (a / p.1 0) (div_ne_zero ha h) _ _ (by simp) beam u v dz wavel illum tel bf
      (fun x y Ea hE => hamp p.1 ⟨hp.1.1, hp.2.1⟩ x y _ _ Ea hE) _ r1
    rw [div_mul_cancel₀ _ h] at r2
    have r3 := hres _ hin beam nd0 hd0
    rw [vec_cons] at r3
    have e1 : (fun j : Fin 4 => (Function.update p.1 0 a) j.succ) = fun j => p.1 j.succ := by
      funext j
      simp [Function.update_of_ne (Fin.succ_ne_zero j)]
    dsimp only at r3
    rw [Function.update_self, e1, r2] at r3
    have e2 := Except.ok.inj r3
    funext ⟨i, k⟩
    have e3 := congrArg (fun l => l[(i : ℕ) * M + k]?) e2
    simp only [flatten3_getElem] at e3
    have := Option.some.inj e3
    linarith

/-- **C123.**  Let `ps` fit the maps `d0` perfectly, none of which is flat.  For every `δ` there is an `ε` such that for
maps within `ε` of `d0`, parameters that fit these no worse than `ps` does, best fits for example, lie within `δ` of
parameters that fit `d0` perfectly. -/
theorem C123_stable (n : ℕ) (hK : nK = (n + 1) * (n + 2) / 2) (lb ub ps : (Fin 5 → ℝ) × (Fin nK → ℝ))
    (hps : ps ∈ Set.Icc lb ub) (d0 : Fin 3 × Fin M → ℝ) (u v : Fin 3 × Fin M → ℝ) (dz : Fin 3 → ℝ) (wavel : ℝ)
    (illum : Illum (Fin N × Fin N)) (tel : TelGeo (Fin N × Fin N)) (bf : ℝ) (r0 : List ℝ)
    (h0 : residualTrue (Spec.vec ps) (fun q => .fin (d0 q)) u v dz wavel illum tel bf = .ok r0)
    (hperf : Spec.costL r0 = 0) (hne : ∀ i, ∃ s t, d0 (i, s) ≠ d0 (i, t))
    (hl : Spec.ContLight illum tel bf (Set.Icc lb.1 ub.1))
    (hamp : ∀ I ∈ Set.Icc lb.1 ub.1, Spec.propAmp illum tel.pr (List.ofFn fun j : Fin 4 => I j.succ))
    (hflat : ∀ p ∈ Set.Icc lb ub, p.1 0 ≠ 0 → ∀ i b, Spec.Sampled (Spec.vec p) u v dz wavel illum tel bf i b →
      ∃ s t, b s ≠ b t) (δ : ℝ) (hδ : 0 < δ) :
    ∃ ε > 0, ∀ d : Fin 3 × Fin M → ℝ, (∀ q, |d q - d0 q| ≤ ε) → ∀ p ∈ Set.Icc lb ub, ∀ r rs,
      residualTrue (Spec.vec p) (fun q => .fin (d q)) u v dz wavel illum tel bf = .ok r →
      residualTrue (Spec.vec ps) (fun q => .fin (d q)) u v dz wavel illum tel bf = .ok rs →
      Spec.costL r ≤ Spec.costL rs →
      ∃ z ∈ Set.Icc lb ub, dist p z < δ ∧
        ∃ rz, residualTrue (Spec.vec z) (fun q => .fin (d0 q)) u v dz wavel illum tel bf = .ok rz ∧
          ∀ y ∈ rz, y = 0 := by
  have hM := (residual_layout _ _ _ _ _ _ _ _ _ r0 h0).1
  have : NeZero M := ⟨hM.ne'⟩
  obtain ⟨nm, hres, hz, hcont, hup⟩ := box_maps n hK lb ub ps _ u v dz wavel illum tel bf r0 h0 hl hamp hflat
  obtain ⟨nd0, hd0, hnd0⟩ := C27_axis1 hM fun q => Fl.fin (d0 q)
  set cost : (Fin 5 → ℝ) × (Fin nK → ℝ) → ℝ := fun p => ∑ i : Fin 3, ∑ k : Fin M, (nd0 (i, k) - nm p (i, k)) ^ 2 with hcost
  have hc : ∀ p, Spec.costL (flatten3 fun q => nd0 q - nm p q) = cost p := fun p => costL_flatten _
  have hc0 : ∀ p, 0 ≤ cost p := fun p => sum_nonneg fun i _ => sum_nonneg fun k _ => sq_nonneg _
  have hps0 : cost ps = 0 := by
    rw [hres ps hps _ nd0 hd0] at h0
    rw [← hc, Except.ok.inj h0, hperf]
  -- the spread of the maps
  obtain ⟨Δ, hΔ, hΔs⟩ : ∃ Δ > 0, ∀ i, ∃ s t, Δ ≤ d0 (i, t) - d0 (i, s) := by
    have : ∀ i, ∃ s t, 0 < d0 (i, t) - d0 (i, s) := by
      intro i
      obtain ⟨s, t, h⟩ := hne i
      rcases lt_or_gt_of_ne h with h | h
      · exact ⟨s, t, sub_pos.2 h⟩
      · exact ⟨t, s, sub_pos.2 h⟩
    choose s t hst using this
    obtain ⟨j, -, hj⟩ := Finset.exists_min_image (univ : Finset (Fin 3)) (fun i => d0 (i, t i) - d0 (i, s i)) ⟨0, mem_univ _⟩
    exact ⟨_, hst j, fun i => ⟨s i, t i, hj i (mem_univ _)⟩⟩
  -- amplitude zero costs at least one
  have hone : ∀ p ∈ Set.Icc lb ub, p.1 0 = 0 → 1 ≤ cost p := by
    intro p hp h
    obtain ⟨r, e1, -, e2, -⟩ := C27_order (fun k => d0 (0, k)) (hne 0)
    rw [hnd0 0] at e1
    cases e1
    obtain ⟨k, -, hk⟩ := Finset.exists_max_image (univ : Finset (Fin M)) (fun k => d0 (0, k)) ⟨0, mem_univ _⟩
    have e3 := e2 k fun k' => hk k' (mem_univ _)
    have e4 : (nd0 (0, k) - nm p (0, k)) ^ 2 ≤ ∑ k : Fin M, (nd0 (0, k) - nm p (0, k)) ^ 2 :=
      Finset.single_le_sum (f := fun k => (nd0 (0, k) - nm p (0, k)) ^ 2) (fun _ _ => sq_nonneg _) (mem_univ k)
    have e5 : ∑ k : Fin M, (nd0 (0, k) - nm p (0, k)) ^ 2 ≤ cost p :=
      Finset.single_le_sum (f := fun i => ∑ k : Fin M, (nd0 (i, k) - nm p (i, k)) ^ 2)
        (fun _ _ => sum_nonneg fun _ _ => sq_nonneg _) (mem_univ (0 : Fin 3))
    dsimp only at e3
    rw [e3, hz p hp h, sub_zero, one_pow] at e4
    exact e4.trans e5
  set a := ps.1 0 with ha
  have ha0 : a ≠ 0 := by
    intro h
    have := hone ps hps h
    rw [hps0] at this
    linarith
  set A : Set ((Fin 5 → ℝ) × (Fin nK → ℝ)) := Set.Icc lb ub ∩ {p | p.1 0 = a} with hA
  have hAc : IsCompact A := isCompact_Icc.inter_right (isClosed_eq (by fun_prop) continuous_const)
  have hcostc : ContinuousOn cost A := by
    intro p hp
    refine tendsto_finsetSum _ fun i _ => tendsto_finsetSum _ fun k _ => ?_
    exact Tendsto.pow (tendsto_const_nhds.sub (hcont a ha0 (i, k) p hp)) 2
  set Z : Set ((Fin 5 → ℝ) × (Fin nK → ℝ)) := {p ∈ A | cost p = 0} with hZ
  have hpsA : ps ∈ A := ⟨hps, rfl⟩
  have hZne : Z.Nonempty := ⟨ps, hpsA, hps0⟩
  -- away from the perfect fits the cost is bounded below
  obtain ⟨m, hm, hmin⟩ : ∃ m > 0, ∀ p ∈ A, cost p < m → Metric.infDist p Z < δ := by
    set F := A ∩ {p | δ ≤ Metric.infDist p Z} with hF
    have hFc : IsCompact F := hAc.inter_right (isClosed_le continuous_const (Metric.continuous_infDist_pt Z))
    rcases F.eq_empty_or_nonempty with he | hn
    · refine ⟨1, one_pos, fun p hp _ => ?_⟩
      by_contra h
      have : p ∈ F := ⟨hp, not_lt.1 h⟩
      rw [he] at this
      exact this
    · obtain ⟨pm, hpm, hpmin⟩ := hFc.exists_isMinOn hn (hcostc.mono Set.inter_subset_left)
      refine ⟨cost pm, lt_of_le_of_ne (hc0 pm) ?_, fun p hp h => ?_⟩
      · intro h
        have hzm : pm ∈ Z := ⟨hpm.1, h.symm⟩
        have := hpm.2
        simp only [Set.mem_setOf_eq, Metric.infDist_zero_of_mem hzm] at this
        linarith
      · by_contra h'
        exact absurd (hpmin (⟨hp, not_lt.1 h'⟩ : p ∈ F)) (not_le.2 h)
  have hM' : 0 < Real.sqrt (3 * M) := by
    have : (0 : ℝ) < M := by exact_mod_cast hM
    exact Real.sqrt_pos.2 (by positivity)
  set η := min m 1 with hη
  have hη0 : 0 < η := lt_min hm one_pos
  refine ⟨Δ / (8 * Real.sqrt (3 * M)) * Real.sqrt η, by
    have := Real.sqrt_pos.2 hη0
    positivity, fun d hd p hp r rs hr hrs hle => ?_⟩
  obtain ⟨r1, hr1, hb⟩ := cost_error _ _ d d0 u v dz wavel illum tel bf _ Δ hd hΔ hΔs r rs r0 hr hrs h0 hle
  rw [hres p hp _ nd0 hd0] at hr1
  rw [← Except.ok.inj hr1, hc, hperf, Real.sqrt_zero, zero_add] at hb
  have hlt : cost p < η := by
    have hb' : Real.sqrt (cost p) ≤ Real.sqrt η / 2 := by
      refine hb.trans (le_of_eq ?_)
      have h8 : Real.sqrt (3 * M) ≠ 0 := hM'.ne'
      field_simp
      ring
    have hs0 := Real.sqrt_pos.2 hη0
    exact (Real.sqrt_lt_sqrt_iff (hc0 p)).1 (by linarith)
  have hp0 : p.1 0 ≠ 0 := fun h => by
    have := hone p hp h
    linarith [min_le_right m 1]
  have upd : ∀ w ∈ Set.Icc lb ub, ∀ w' ∈ Set.Icc lb ub, (Function.update w.1 0 (w'.1 0), w.2) ∈ Set.Icc lb ub := by
    intro w hw w' hw'
    refine ⟨⟨fun j => ?_, hw.1.2⟩, ⟨fun j => ?_, hw.2.2⟩⟩
    · by_cases hj : j = 0
      · subst hj; simpa using hw'.1.1 0
      · simpa [Function.update_of_ne hj] using hw.1.1 j
    · by_cases hj : j = 0
      · subst hj; simpa using hw'.2.1 0
      · simpa [Function.update_of_ne hj] using hw.2.1 j
  have hp' := upd p hp ps hps
  have hcp : cost (Function.update p.1 0 a, p.2) = cost p := by
    simp only [hcost, hup p hp hp0 a ha0 hp']
  have hinf := hmin (Function.update p.1 0 a, p.2) ⟨hp', by simp⟩ (by
    rw [hcp]; exact hlt.trans_le (min_le_left _ _))
  obtain ⟨z, hzZ, hzd⟩ := (Metric.infDist_lt_iff hZne).1 hinf
  have hz' := upd z hzZ.1.1 p hp
  have hz0 : z.1 0 ≠ 0 := by
    have := hzZ.1.2
    simp only [Set.mem_setOf_eq] at this
    rw [this]; exact ha0
  refine ⟨(Function.update z.1 0 (p.1 0), z.2), hz', ?_, _, hres _ hz' _ nd0 hd0, ?_⟩
  · refine lt_of_le_of_lt ?_ hzd
    rw [Prod.dist_eq, Prod.dist_eq]
    refine max_le_max ?_ le_rfl
    rw [dist_pi_le_iff dist_nonneg]
    intro j
    by_cases hj : j = 0
    · subst hj
      simp
    · have := dist_le_pi_dist (Function.update p.1 0 a) z.1 j
      dsimp only
      rw [Function.update_of_ne hj] at this
      rw [Function.update_of_ne hj]
      exact this
  · have hzc : cost (Function.update z.1 0 (p.1 0), z.2) = 0 := by
      simp only [hcost, hup z hzZ.1.1 hz0 (p.1 0) hp0 hz']
      exact hzZ.2
    have hq : ∀ q, nd0 q - nm (Function.update z.1 0 (p.1 0), z.2) q = 0 := by
      rintro ⟨i, k⟩
      have h1 := (sum_eq_zero_iff_of_nonneg fun i _ => sum_nonneg fun k _ => sq_nonneg _).1 hzc i (mem_univ i)
      have h2 := (sum_eq_zero_iff_of_nonneg fun k _ => sq_nonneg _).1 h1 k (mem_univ k)
      exact pow_eq_zero_iff (two_ne_zero) |>.1 h2
    intro y hy
    unfold flatten3 at hy
    simp only [hq, List.mem_flatMap, List.mem_map] at hy
    obtain ⟨-, -, -, -, rfl⟩ := hy
    rfl

theorem vec_rel {R : ℝ → ℝ → Prop} (p p' : (Fin 5 → ℝ) × (Fin nK → ℝ)) (h1 : ∀ j, R (p.1 j) (p'.1 j))
    (h2 : ∀ j, R (p.2 j) (p'.2 j)) : List.Forall₂ R (Spec.vec p) (Spec.vec p') := by
  have hof : ∀ {k : ℕ} (f g : Fin k → ℝ), (∀ j, R (f j) (g j)) → List.Forall₂ R (List.ofFn f) (List.ofFn g) := by
    intro k f g h
    rw [List.forall₂_iff_get]
    refine ⟨by simp, fun i hi1 hi2 => ?_⟩
    simpa using h ⟨i, by simpa using hi1⟩
  exact List.rel_append (hof _ _ h1) (hof _ _ h2)

/-- **C123.**  The same for the fitted parameters, the configuration and the telescopes and illuminations of the package. -/
theorem C123_fit (cfg : Config) (S : List ℕ) (hex : cfg.excluded = S.map (fun e : ℕ => (e : ℤ)))
    (hS : S.Pairwise (· < ·)) (h7 : ∀ e ∈ S, e ≤ 7) (hf : cfg.fixed.length = 8) (n : ℕ) (hn : 1 ≤ n)
    (hK : nK = (n + 1) * (n + 2) / 2) (lo hi xs : List ℝ) (hxs : Spec.Within lo hi xs)
    (hlen : xs.length + S.length = 5 + nK)
    (d0 : Fin 3 × Fin M → ℝ) (u v : Fin 3 × Fin M → ℝ) (dz : Fin 3 → ℝ) (wavel : ℝ)
    (illum : Illum (Fin N × Fin N)) (tel : TelGeo (Fin N × Fin N)) (bf : ℝ) (r0 : List ℝ)
    (h0 : Core.residual xs nK (fun q => .fin (d0 q)) u v dz wavel illum tel bf cfg = .ok r0)
    (hperf : ∀ y ∈ r0, y = 0) (hne : ∀ i, ∃ s t, d0 (i, s) ≠ d0 (i, t))
    (ht : Spec.OwnTel tel) (hil : illum = illumGauss ∨ illum = illumParabolic ∧ ∀ x full, Spec.Within lo hi x →
      paramsComplete x nK cfg = .ok full → 0 < full.getD 2 0 ∧ full.getD 3 0 = 0 ∧ full.getD 4 0 = 0)
    (hpr : 0 < tel.pr) (hbf : 2 ≤ bf)
    (hgrid : ∀ I K P, radiationPattern I K (dz 0) wavel illum tel bf = .ok P →
      ∀ i row col, ∃ k, u (i, k) = P.u col ∧ v (i, k) = P.v row)
    (B : Fin N × Fin N → ℝ) (hB : tel.block (fun q => Spec.gridPoint tel.pr bf N q.2)
      (fun q => Spec.gridPoint tel.pr bf N q.1) = .ok B) (s t : Fin N × Fin N) (hst : s ≠ t) (hs : B s ≠ 0) (ht0 : B t ≠ 0)
    (δ : ℝ) (hδ : 0 < δ) :
    ∃ ε > 0, ∀ d : Fin 3 × Fin M → ℝ, (∀ q, |d q - d0 q| ≤ ε) → ∀ x, Spec.Within lo hi x → ∀ r rs,
      Core.residual x nK (fun q => .fin (d q)) u v dz wavel illum tel bf cfg = .ok r →
      Core.residual xs nK (fun q => .fin (d q)) u v dz wavel illum tel bf cfg = .ok rs →
      Spec.costL r ≤ Spec.costL rs →
      ∃ z, Spec.Within lo hi z ∧ List.Forall₂ (fun a b => |a - b| < δ) x z ∧
        ∃ rz, Core.residual z nK (fun q => .fin (d0 q)) u v dz wavel illum tel bf cfg = .ok rz ∧ ∀ y ∈ rz, y = 0 := by
  obtain ⟨lb, ub, lift, back⟩ := fit_box cfg S hex hS h7 hf n hn hK lo hi xs hxs hlen
  obtain ⟨ps, hps, q1, -⟩ := lift xs hxs
  have res : ∀ beam x (p : (Fin 5 → ℝ) × (Fin nK → ℝ)), paramsComplete x nK cfg = .ok (Spec.vec p) →
      Core.residual x nK beam u v dz wavel illum tel bf cfg =
      residualTrue (Spec.vec p) beam u v dz wavel illum tel bf := by
    intro beam x p h
    unfold Core.residual
    rw [h]
    rfl
  have hr0 := (res _ xs ps q1).symm.trans h0
  have hoi := fit_own cfg S lo hi lb ub ps hps back illum hil
  obtain ⟨P, hP, -⟩ := modelRow_ok.1 ((residualTrue_ok.1 hr0).choose_spec.1 0)
  obtain ⟨hl, hamp, -⟩ := own_light ht hoi hpr bf
  have hflat := own_not_flat lb ub ps u v dz wavel illum tel bf ht hoi hpr hbf P (by
    have t1 : (Spec.vec ps).take 5 = List.ofFn ps.1 := by
      unfold Spec.vec
      rw [List.take_append_of_le_length (by simp), List.take_of_length_le (by simp)]
    have t2 : (Spec.vec ps).drop 5 = List.ofFn ps.2 := by
      unfold Spec.vec
      rw [List.drop_append_of_le_length (by simp), List.drop_of_length_le (by simp), List.nil_append]
    rw [← t1, ← t2]
    exact hP) (hgrid _ _ P hP) B hB s t hst hs ht0
  have hc : Spec.costL r0 = 0 := by
    unfold Spec.costL
    refine List.sum_eq_zero fun y hy => ?_
    obtain ⟨w, hw, rfl⟩ := List.mem_map.1 hy
    rw [hperf w hw]
    norm_num
  obtain ⟨ε, hε, hmain⟩ := C123_stable n hK lb ub ps hps d0 u v dz wavel illum tel bf r0 hr0 hc hne hl hamp hflat δ hδ
  refine ⟨ε, hε, fun d hd x hx r rs hr hrs hle => ?_⟩
  obtain ⟨p, hp, p1, p2⟩ := lift x hx
  obtain ⟨z, hz, hdist, rz, hrz, hzero⟩ := hmain d hd p hp r rs ((res _ x p p1).symm.trans hr)
    ((res _ xs ps q1).symm.trans hrs) hle
  obtain ⟨w, c⟩ := back z hz
  refine ⟨_, w, ?_, rz, (res _ _ z c).trans hrz, hzero⟩
  rw [← p2]
  refine dropAt_mono S (vec_rel p z (fun j => ?_) fun j => ?_) 0
  · rw [← Real.dist_eq]
    exact ((dist_le_pi_dist p.1 z.1 j).trans (by rw [Prod.dist_eq]; exact le_max_left _ _)).trans_lt hdist
  · rw [← Real.dist_eq]
    exact ((dist_le_pi_dist p.2 z.2 j).trans (by rw [Prod.dist_eq]; exact le_max_right _ _)).trans_lt hdist

/-- The default configuration, order 1, the maps of the parameters 0.01, 0.1, 0.1 on 6 by 6 pixels: fits of maps that are
near enough are as near as one likes to parameters with the same maps. -/
example : ∃ (u v : Fin 3 × Fin 36 → ℝ) (d0 : Fin 3 × Fin 36 → ℝ), ∀ δ > 0, ∃ ε > 0, ∀ d : Fin 3 × Fin 36 → ℝ,
    (∀ q, |d q - d0 q| ≤ ε) → ∀ x, Spec.Within [0, -5, -5] [10, 5, 5] x → ∀ r rs,
      Core.residual x 3 (fun q => .fin (d q)) u v ![-0.022, 0, 0.022] 0.009 illumParabolic
        (manualTel 50 3.25 1 20 30 387.39435) 2 defaultConfig (N := 6) = .ok r →
      Core.residual [0.01, 0.1, 0.1] 3 (fun q => .fin (d q)) u v ![-0.022, 0, 0.022] 0.009 illumParabolic
        (manualTel 50 3.25 1 20 30 387.39435) 2 defaultConfig (N := 6) = .ok rs → Spec.costL r ≤ Spec.costL rs →
      ∃ z, Spec.Within [0, -5, -5] [10, 5, 5] z ∧ List.Forall₂ (fun a b => |a - b| < δ) x z ∧
        ∃ rz, Core.residual z 3 (fun q => .fin (d0 q)) u v ![-0.022, 0, 0.022] 0.009 illumParabolic
          (manualTel 50 3.25 1 20 30 387.39435) 2 defaultConfig (N := 6) = .ok rz ∧ ∀ y ∈ rz, y = 0 := by
  have hpat : ∀ dz : ℝ, ∃ P : Pattern 6, radiationPattern [0.01, -14.5, 1.4, 0, 0] [0, 0.1, 0.1] dz 0.009 illumParabolic
      (manualTel 50 3.25 1 20 30 387.39435) 2 = .ok P := by
    intro dz
    obtain ⟨A, P, -, hP, -⟩ := C96_package [0.01, -14.5, 1.4, 0, 0] [0, 0.1, 0.1] dz 0.009 50 2
      (fun _ => illumParabolic) (fun _ => manualTel 50 3.25 1 20 30 387.39435)
      (.manualParabolic _ _ _ _ _ _ _ _ _ _ _ (by norm_num)) (by norm_num) (by norm_num) (by norm_num) 1 rfl
    exact ⟨P 4, hP 4⟩
  obtain ⟨P, hP⟩ := hpat ((![-0.022, 0, 0.022] : Fin 3 → ℝ) 0)
  have same : ∀ I K dz (Q : Pattern 6), radiationPattern I K dz 0.009 illumParabolic
      (manualTel 50 3.25 1 20 30 387.39435) 2 = .ok Q → Q.u = P.u ∧ Q.v = P.v := by
    intro I K dz Q hQ
    obtain ⟨-, E, -, rfl⟩ := radiationPattern_ok hQ
    obtain ⟨-, E', -, rfl⟩ := radiationPattern_ok hP
    exact ⟨rfl, rfl⟩
  have hax := C14_axes _ _ _ _ _ _ _ _ P (by norm_num [manualTel]) (by norm_num) (by norm_num) hP
  let col : Fin 36 → Fin 6 := fun k => ⟨(k : ℕ) % 6, Nat.mod_lt _ (by norm_num)⟩
  let row : Fin 36 → Fin 6 := fun k => ⟨(k : ℕ) / 6, by omega⟩
  have hc : paramsComplete [0.01, 0.1, 0.1] 3 defaultConfig = .ok [0.01, -14.5, 1.4, 0, 0, 0, 0.1, 0.1] :=
    complete_delete defaultConfig [1, 2, 3, 4, 5] rfl (by decide) (by decide) rfl 3 le_rfl
      [0.01, 0, 0, 0, 0, 0, 0.1, 0.1] rfl
  have hrow : ∀ i, ∃ b, modelRow [0.01, -14.5, 1.4, 0, 0, 0, 0.1, 0.1] (fun q : Fin 3 × Fin 36 => P.u (col q.2))
      (fun q => P.v (row q.2)) ![-0.022, 0, 0.022] 0.009 illumParabolic (manualTel 50 3.25 1 20 30 387.39435) 2 i
        (N := 6) = .ok b := by
    intro i
    obtain ⟨Q, hQ⟩ := hpat ((![-0.022, 0, 0.022] : Fin 3 → ℝ) i)
    refine ⟨_, modelRow_ok.2 ⟨Q, hQ, (interpolator_ok_iff _ _ _ _ _).2 ⟨?_, fun k => ?_, rfl⟩⟩⟩
    · rw [(same _ _ _ Q hQ).1, (same _ _ _ Q hQ).2, ← hax.1]
      exact ⟨hax.2.1, hax.2.1⟩
    · rw [(same _ _ _ Q hQ).1, (same _ _ _ Q hQ).2]
      exact ⟨⟨⟨_, le_rfl⟩, _, le_rfl⟩, ⟨_, le_rfl⟩, _, le_rfl⟩
  choose b hb using hrow
  obtain ⟨B, hB, hv⟩ := C24_value 50 3.25 1 20 (fun q : Fin 6 × Fin 6 => Spec.gridPoint 50 2 6 q.2)
    (fun q => Spec.gridPoint 50 2 6 q.1)
  have g2 : Spec.gridPoint 50 2 6 2 = -20 := by norm_num [Spec.gridPoint]
  have g3 : Spec.gridPoint 50 2 6 3 = 20 := by norm_num [Spec.gridPoint]
  refine ⟨fun q => P.u (col q.2), fun q => P.v (row q.2), fun q => b q.1 q.2, fun δ hδ => ?_⟩
  obtain ⟨nm, hm, -⟩ := C27_axis1 (by norm_num : 0 < 36) (fun q : Fin 3 × Fin 36 => Fl.fin (b q.1 q.2))
  have hgrid : ∀ I K (Q : Pattern 6), radiationPattern I K ((![-0.022, 0, 0.022] : Fin 3 → ℝ) 0) 0.009 illumParabolic
      (manualTel 50 3.25 1 20 30 387.39435) 2 = .ok Q → ∀ (_i : Fin 3) (r c : Fin 6), ∃ k : Fin 36,
        P.u (col k) = Q.u c ∧ P.v (row k) = Q.v r := by
    intro I K Q hQ i r c
    rw [(same _ _ _ Q hQ).1, (same _ _ _ Q hQ).2]
    refine ⟨⟨(r : ℕ) * 6 + c, by omega⟩, ?_, ?_⟩
    · dsimp only [col]
      congr 1
      apply Fin.ext
      dsimp only
      omega
    · dsimp only [row]
      congr 1
      apply Fin.ext
      dsimp only
      omega
  have hB2 : B (2, 2) ≠ 0 := by
    rw [(hv (2, 2)).1]
    · norm_num
    · simp only [g2]
      norm_num [Spec.visible]
  have hB3 : B (3, 3) ≠ 0 := by
    rw [(hv (3, 3)).1]
    · norm_num
    · simp only [g3]
      norm_num [Spec.visible]
  have hvec : Spec.vec ((![0.01, -14.5, 1.4, 0, 0], ![0, 0.1, 0.1]) : (Fin 5 → ℝ) × (Fin 3 → ℝ)) =
      [0.01, -14.5, 1.4, 0, 0, 0, 0.1, 0.1] := by
    simp [Spec.vec, List.ofFn_succ]
  have hne : ∀ i, ∃ s t, b i s ≠ b i t := by
    intro i
    refine own_not_flat (nK := 3) (![0.01, -14.5, 1.4, 0, 0], ![0, 0.1, 0.1]) (![0.01, -14.5, 1.4, 0, 0], ![0, 0.1, 0.1])
      (![0.01, -14.5, 1.4, 0, 0], ![0, 0.1, 0.1]) (fun q : Fin 3 × Fin 36 => P.u (col q.2)) (fun q => P.v (row q.2))
      ![-0.022, 0, 0.022] 0.009 illumParabolic (manualTel 50 3.25 1 20 30 387.39435) 2 (.manual _ _ _ _ _ _)
      (Or.inr ⟨rfl, fun I hI => ?_⟩) (by norm_num [manualTel]) le_rfl P (by
        simpa [List.ofFn_succ] using hP) (fun i r c => hgrid _ _ P hP i r c) B hB (2, 2) (3, 3) (by decide) hB2 hB3
      (![0.01, -14.5, 1.4, 0, 0], ![0, 0.1, 0.1]) ⟨le_rfl, le_rfl⟩ (by norm_num) i (b i) (by
        rw [sampled_iff, hvec]; exact hb i)
    have : I = ![0.01, -14.5, 1.4, 0, 0] := le_antisymm hI.2 hI.1
    subst this
    refine ⟨?_, rfl, rfl⟩
    show (0 : ℝ) < 1.4
    norm_num
  refine C123_fit defaultConfig [1, 2, 3, 4, 5] rfl (by decide) (by decide) rfl 1 le_rfl rfl [0, -5, -5] [10, 5, 5]
    [0.01, 0.1, 0.1] ?_ rfl (fun q => b q.1 q.2) _ _ _ 0.009 illumParabolic _ 2 (flatten3 fun q => nm q - nm q) ?_ ?_ hne
    (.manual _ _ _ _ _ _) (Or.inr ⟨rfl, ?_⟩) (by norm_num [manualTel]) le_rfl (fun I K Q hQ i r c => hgrid I K Q hQ i r c)
    B hB (2, 2) (3, 3) (by decide) hB2 hB3 δ hδ
  · refine ⟨.cons ?_ (.cons ?_ (.cons ?_ .nil)), .cons ?_ (.cons ?_ (.cons ?_ .nil))⟩ <;> norm_num
  · unfold Core.residual
    rw [hc]
    exact residualTrue_ok.2 ⟨b, hb, nm, nm, hm, hm, rfl⟩
  · intro y hy
    simp only [sub_self, flatten3, List.mem_flatMap, List.mem_map] at hy
    obtain ⟨-, -, -, -, rfl⟩ := hy
    rfl
  · intro x full hx hfull
    have hl : x.length = 3 := hx.1.length_eq.symm
    match x, hl with
    | [a, c, d], _ =>
      have := complete_delete defaultConfig [1, 2, 3, 4, 5] rfl (by decide) (by decide) rfl 3 le_rfl
        [a, 0, 0, 0, 0, 0, c, d] rfl
      have e : paramsComplete [a, c, d] 3 defaultConfig = .ok [a, -14.5, 1.4, 0, 0, 0, c, d] := this
      rw [e] at hfull
      cases hfull
      exact ⟨by norm_num, rfl, rfl⟩

end Verif.Props
