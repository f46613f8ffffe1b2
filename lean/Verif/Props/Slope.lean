import Verif.Props.Pointing
import Verif.Props.Jacobian
import Verif.Props.Derivative
import Verif.Props.Illumination
import Verif.Props.DoubleResidualCase
import Mathlib.Analysis.InnerProductSpace.Calculus
import Mathlib.Analysis.SpecialFunctions.Pow.Deriv

/-!
# The residual has slopes, and the errors from finite differences tend to those from the slopes (C143)
-/

namespace Verif.Props

open Verif Verif.Np Verif.Aperture Verif.MathFn Verif.Core Verif.Telgeometry Finset Filter Topology

/-! ## Specification -/

/-- One of the numbers is the greatest, one the least, and no other is as great or as small. -/
def Spec.SingleExtremes {M : ℕ} (b : Fin M → ℝ) : Prop :=
  ∃ lo hi, b lo < b hi ∧ (∀ k, k ≠ lo → b lo < b k) ∧ ∀ k, k ≠ hi → b k < b hi

/-! ## The power, the samples, the normalised samples -/

theorem exactPower_differentiable {N : ℕ} (E : ℝ → Fin N × Fin N → ℂ) (pr bf wavel u v : ℝ)
    (h : ∀ q, DifferentiableAt ℝ (fun t => E t q) 0) :
    DifferentiableAt ℝ (fun t => Spec.exactPower (E t) pr bf wavel u v) 0 := by
  unfold Spec.exactPower
  refine DifferentiableAt.norm_sq ℝ ?_
  refine DifferentiableAt.fun_sum fun i _ => DifferentiableAt.fun_sum fun j _ => ?_
  exact (h (i, j)).mul_const _

theorem lerp_differentiable (G : ℝ → ℤ → ℤ → ℝ) (x y : ℝ) (h : ∀ m n, DifferentiableAt ℝ (fun t => G t m n) 0) :
    DifferentiableAt ℝ (fun t => lerpZ (fun m => lerpZ (fun n => G t m n) y) x) 0 := by
  unfold lerpZ
  have h1 : ∀ m, DifferentiableAt ℝ (fun t => G t m ⌊y⌋ * (1 - Int.fract y) + G t m (⌊y⌋ + 1) * Int.fract y) 0 :=
    fun m => ((h m _).mul_const _).add ((h m _).mul_const _)
  exact ((h1 _).mul_const _).add ((h1 _).mul_const _)

/-- Where the extremes are single the normalised numbers have slopes. -/
theorem norm_differentiable {M : ℕ} (b n : ℝ → Fin M → ℝ) (hb : ∀ k, DifferentiableAt ℝ (fun t => b t k) 0)
    (hs : Spec.SingleExtremes (b 0)) (hn : ∀ t, MathFn.norm (fun k => Fl.fin (b t k)) = .ok (n t)) (k : Fin M) :
    DifferentiableAt ℝ (fun t => n t k) 0 := by
  obtain ⟨lo, hi, h1, h2, h3⟩ := hs
  have ev : ∀ a c, b 0 a < b 0 c → ∀ᶠ t in 𝓝 (0 : ℝ), b t a < b t c := fun a c h =>
    (hb a).continuousAt.eventually_lt (hb c).continuousAt h
  have e1 : ∀ᶠ t in 𝓝 (0 : ℝ), ∀ k, k ≠ lo → b t lo < b t k :=
    eventually_all.2 fun k => by
      by_cases hk : k = lo
      · exact .of_forall fun t h => absurd hk h
      · exact (ev lo k (h2 k hk)).mono fun t h _ => h
  have e2 : ∀ᶠ t in 𝓝 (0 : ℝ), ∀ k, k ≠ hi → b t k < b t hi :=
    eventually_all.2 fun k => by
      by_cases hk : k = hi
      · exact .of_forall fun t h => absurd hk h
      · exact (ev k hi (h3 k hk)).mono fun t h _ => h
  have hev : (fun t => n t k) =ᶠ[𝓝 0] fun t => (b t k - b t lo) / (b t hi - b t lo) := by
    filter_upwards [e1, e2, ev lo hi h1] with t a1 a2 a3
    have := C27_value (b t) lo hi (fun q => by
      by_cases hq : q = lo
      · rw [hq]
      · exact (a1 q hq).le) (fun q => by
      by_cases hq : q = hi
      · rw [hq]
      · exact (a2 q hq).le) a3
    rw [hn t] at this
    exact congrFun (Except.ok.inj this) k
  refine DifferentiableAt.congr_of_eventuallyEq ?_ hev
  exact ((hb k).sub (hb lo)).div ((hb hi).sub (hb lo)) (sub_ne_zero.2 h1.ne')

/-- **C143**. Let the parameters move along a path on which the aperture has slopes, and let each of the three model maps
have one brightest and one faintest sample; then every residual has a slope. -/
theorem C143_residual {N M : ℕ} (p : ℝ → List ℝ) (beam : Fin 3 × Fin M → Fl) (u v : Fin 3 × Fin M → ℝ) (dz : Fin 3 → ℝ)
    (wavel : ℝ) (illum : Illum (Fin N × Fin N)) (tel : TelGeo (Fin N × Fin N)) (bf : ℝ) (hpr : 0 < tel.pr) (hbf : 0 < bf)
    (hw : 0 < wavel) (E : Fin 3 → ℝ → Fin N × Fin N → ℂ)
    (hE : ∀ i t, aperture (fun q => Spec.gridPoint tel.pr bf N q.2) (fun q => Spec.gridPoint tel.pr bf N q.1)
      ((p t).take 5) ((p t).drop 5) (dz i) wavel illum tel = .ok (E i t))
    (hd : ∀ i q, DifferentiableAt ℝ (fun t => E i t q) 0) (r : ℝ → List ℝ)
    (hr : ∀ t, residualTrue (p t) beam u v dz wavel illum tel bf = .ok (r t))
    (hs : ∀ i b, Spec.Sampled (p 0) u v dz wavel illum tel bf i b → Spec.SingleExtremes b) (j : ℕ) :
    DifferentiableAt ℝ (fun t => (r t).getD j 0) 0 := by
  choose b hb nd nm h1 h2 h3 using fun t => residualTrue_ok.1 (hr t)
  have hbd : ∀ i k, DifferentiableAt ℝ (fun t => b t i k) 0 := by
    intro i k
    have : (fun t => b t i k) = fun t => lerpZ (fun m => lerpZ (fun n => Spec.exactPower (E i t) tel.pr bf wavel
        (m * Spec.beamStep tel.pr bf wavel N) (n * Spec.beamStep tel.pr bf wavel N))
          (v (i, k) / Spec.beamStep tel.pr bf wavel N)) (u (i, k) / Spec.beamStep tel.pr bf wavel N) := by
      funext t
      exact sampled_lerp (p t) u v dz wavel illum tel bf hpr hbf hw i (b t i) (sampled_iff.2 (hb t i)) (E i t) (hE i t) k _
        rfl
    rw [this]
    exact lerp_differentiable _ _ _ fun m n => exactPower_differentiable _ _ _ _ _ _ (hd i)
  have hM : 0 < M := by
    rcases Nat.eq_zero_or_pos M with rfl | h
    · obtain ⟨e, he⟩ := normAxis1_empty beam
      have := h1 0
      rw [he] at this
      cases this
    · exact h
  have hnm : ∀ i k, DifferentiableAt ℝ (fun t => nm t (i, k)) 0 := by
    intro i k
    refine norm_differentiable (fun t k => b t i k) (fun t k => nm t (i, k)) (hbd i)
      (hs i _ (sampled_iff.2 (hb 0 i))) (fun t => ?_) k
    obtain ⟨r', a1, a2⟩ := C27_axis1 hM (fun q : Fin 3 × Fin M => Fl.fin (b t q.1 q.2))
    obtain rfl := Except.ok.inj ((h2 t).symm.trans a1)
    exact a2 i
  have hnd : ∀ t, nd t = nd 0 := fun t => Except.ok.inj ((h1 t).symm.trans (h1 0))
  by_cases hj : j < 3 * M
  · obtain ⟨i, k, hik⟩ : ∃ (i : Fin 3) (k : Fin M), j = i * M + k :=
      ⟨⟨j / M, Nat.div_lt_of_lt_mul (by rwa [mul_comm] at hj)⟩, ⟨j % M, Nat.mod_lt _ hM⟩, by
        simp only; rw [mul_comm]; exact (Nat.div_add_mod j M).symm⟩
    have : (fun t => (r t).getD j 0) = fun t => nd 0 (i, k) - nm t (i, k) := by
      funext t
      have hg := flatten3_getElem (fun q => nd t q - nm t q) i k
      rw [h3 t, hik, List.getD_eq_getElem?_getD, hg, hnd t]
      rfl
    rw [this]
    exact (hnm i k).const_sub _
  · have : (fun t => (r t).getD j 0) = fun _ => 0 := by
      funext t
      rw [List.getD_eq_getElem?_getD, List.getElem?_eq_none, Option.getD_none]
      rw [h3 t, flatten3_length]
      exact not_lt.1 hj
    rw [this]
    exact differentiableAt_const _

/-! ## Paths of the parameters -/

/-- Samples that can be taken with some parameters can be taken with all that have an aperture. -/
theorem sampled_other {N M : ℕ} (params params' : List ℝ) (u v : Fin 3 × Fin M → ℝ) (dz : Fin 3 → ℝ) (wavel : ℝ)
    (illum : Illum (Fin N × Fin N)) (tel : TelGeo (Fin N × Fin N)) (bf : ℝ) (hpr : 0 < tel.pr) (hbf : 0 < bf)
    (hw : 0 < wavel) (i : Fin 3) (b : Fin M → ℝ) (hb : modelRow params u v dz wavel illum tel bf i = .ok b)
    (E : Fin N × Fin N → ℂ)
    (hE : aperture (fun q => Spec.gridPoint tel.pr bf N q.2) (fun q => Spec.gridPoint tel.pr bf N q.1)
      (params'.take 5) (params'.drop 5) (dz i) wavel illum tel = .ok E) :
    ∃ b', modelRow params' u v dz wavel illum tel bf i = .ok b' := by
  obtain ⟨P, hP, hi⟩ := modelRow_ok.1 hb
  obtain ⟨hm, hin, -⟩ := (interpolator_ok_iff _ _ _ _ _).1 hi
  have hN : 2 ≤ N := (radiationPattern_ok hP).1
  obtain ⟨P', hP'⟩ : ∃ P, radiationPattern (params'.take 5) (params'.drop 5) (dz i) wavel illum tel bf = .ok P := by
    rw [C14_ok_iff _ _ _ _ _ hN, linspace_grid]
    exact ⟨_, hE⟩
  obtain ⟨huv, -, h0, hstep⟩ := C14_axes _ _ _ _ _ _ _ _ P hpr hbf hw hP
  obtain ⟨huv', -, h0', hstep'⟩ := C14_axes _ _ _ _ _ _ _ _ P' hpr hbf hw hP'
  have hax := axis_int P.u (Spec.beamStep tel.pr bf wavel N) h0 (fun i j e => by rw [hstep i j e]; rfl)
  have hax' := axis_int P'.u (Spec.beamStep tel.pr bf wavel N) h0' (fun i j e => by rw [hstep' i j e]; rfl)
  have e : P'.u = P.u := by
    funext j
    rw [hax, hax']
  exact ⟨_, modelRow_ok.2 ⟨P', hP', (interpolator_ok_iff _ _ _ _ _).2 ⟨by rw [← huv', e]; exact ⟨hm.1, hm.1⟩, fun k => by
    rw [← huv', e]
    refine ⟨(hin k).1, ?_⟩
    have := (hin k).2
    rw [← huv] at this
    exact this, rfl⟩⟩⟩

/-- **C143**. The residual along a path of the illumination parameters (along which the illumination has slopes) and a
direction of the coefficients. -/
theorem C143_params {N M : ℕ} (I : ℝ → List ℝ) (K D : List ℝ) (hI : ∀ t, (I t).length = 5) (hKD : K.length = D.length)
    (beam : Fin 3 × Fin M → Fl) (u v : Fin 3 × Fin M → ℝ) (dz : Fin 3 → ℝ) (wavel : ℝ) (illum : Illum (Fin N × Fin N))
    (tel : TelGeo (Fin N × Fin N)) (bf : ℝ) (hpr : 0 < tel.pr) (hbf : 0 < bf) (hw : 0 < wavel)
    (Ea : ℝ → Fin N × Fin N → ℝ)
    (hill : ∀ t, illum (fun q => Spec.gridPoint tel.pr bf N q.2) (fun q => Spec.gridPoint tel.pr bf N q.1) (I t) tel.pr =
      .ok (Ea t))
    (hd : ∀ q, DifferentiableAt ℝ (fun t => Ea t q) 0) (r0 : List ℝ)
    (h : residualTrue (I 0 ++ K) beam u v dz wavel illum tel bf = .ok r0)
    (hs : ∀ i b, Spec.Sampled (I 0 ++ K) u v dz wavel illum tel bf i b → Spec.SingleExtremes b) :
    ∃ r : ℝ → List ℝ, r 0 = r0 ∧ (∀ t, residualTrue (I t ++ Spec.moved K D t) beam u v dz wavel illum tel bf = .ok (r t)) ∧
      ∀ j, DifferentiableAt ℝ (fun t => (r t).getD j 0) 0 := by
  have tk : ∀ t (L : List ℝ), (I t ++ L).take 5 = I t ∧ (I t ++ L).drop 5 = L := fun t L => by
    rw [← hI t]; simp
  obtain ⟨b, hb, nd, nm, e1, e2, -⟩ := residualTrue_ok.1 h
  have hap : ∀ i, ∃ E : ℝ → Fin N × Fin N → ℂ, (∀ t, aperture (fun q => Spec.gridPoint tel.pr bf N q.2)
      (fun q => Spec.gridPoint tel.pr bf N q.1) (I t) (Spec.moved K D t) (dz i) wavel illum tel = .ok (E t)) ∧
      ∀ q, DifferentiableAt ℝ (fun t => E t q) 0 := by
    intro i
    obtain ⟨P, hP, -⟩ := modelRow_ok.1 (hb i)
    obtain ⟨E0, hE0, -⟩ := exact_node _ _ _ _ _ _ _ P hpr.ne' hbf.ne' hw.ne' hP
    rw [(tk 0 K).1, (tk 0 K).2] at hE0
    obtain ⟨B, W, dl, Ea0, a1, a2, a3, -, -⟩ := aperture_ok_iff.1 hE0
    obtain ⟨n, hn, -⟩ := wavefront_ok_inv a2
    refine ⟨_, fun t => aperture_ok_iff.2 ⟨B, _, dl, Ea t, a1,
      wavefront_ok _ _ (Spec.moved K D t) n (by simp [Spec.moved, ← hKD, hn]), a3, hill t, rfl⟩, fun q => ?_⟩
    simp only [wfVal_moved n K D hKD]
    refine DifferentiableAt.mul ?_ ?_
    · exact Complex.ofRealCLM.differentiableAt.comp (0 : ℝ) ((hd q).const_mul (B q))
    · refine DifferentiableAt.cexp ?_
      refine DifferentiableAt.mul_const ?_ _
      refine Complex.ofRealCLM.differentiableAt.comp (0 : ℝ)
        (DifferentiableAt.mul_const (DifferentiableAt.mul_const ?_ 2) Real.pi)
      fun_prop
  choose E hE hEd using hap
  have h0 : Spec.moved K D 0 = K := by
    unfold Spec.moved
    simp only [zero_mul, add_zero]
    clear hE hEd h hs hb e2
    induction K generalizing D with
    | nil => rfl
    | cons a K ih =>
      cases D with
      | nil => simp at hKD
      | cons d D => rw [List.zipWith_cons_cons, ih D (by simpa using hKD)]
  have hex : ∀ t, ∃ r, residualTrue (I t ++ Spec.moved K D t) beam u v dz wavel illum tel bf = .ok r := by
    intro t
    have hrow : ∀ i, ∃ b', modelRow (I t ++ Spec.moved K D t) u v dz wavel illum tel bf i = .ok b' := fun i =>
      sampled_other (I 0 ++ K) _ u v dz wavel illum tel bf hpr hbf hw i (b i) (hb i) (E i t) (by
        rw [(tk t _).1, (tk t _).2]
        exact hE i t)
    choose b' hb' using hrow
    have hM : 0 < M := by
      rcases Nat.eq_zero_or_pos M with rfl | h
      · obtain ⟨e, he⟩ := normAxis1_empty beam
        rw [he] at e1
        cases e1
      · exact h
    obtain ⟨nm', f1, -⟩ := C27_axis1 hM (fun q : Fin 3 × Fin M => Fl.fin (b' q.1 q.2))
    exact ⟨_, residualTrue_ok.2 ⟨b', hb', nd, nm', e1, f1, rfl⟩⟩
  choose r hr using hex
  refine ⟨r, ?_, hr, fun j => ?_⟩
  · have := hr 0
    rw [h0, h] at this
    exact (Except.ok.inj this).symm
  · refine C143_residual (fun t => I t ++ Spec.moved K D t) beam u v dz wavel illum tel bf hpr hbf hw E (fun i t => ?_) hEd r
      hr (fun i b hb => hs i b ?_) j
    · simp only [(tk t _).1, (tk t _).2]
      exact hE i t
    · simp only [h0] at hb
      exact hb

/-- **C143**. With any illumination function the residual has slopes along every direction of the coefficients. -/
theorem C143_coefficients {N M : ℕ} (I K D : List ℝ) (hI : I.length = 5) (hKD : K.length = D.length)
    (beam : Fin 3 × Fin M → Fl) (u v : Fin 3 × Fin M → ℝ) (dz : Fin 3 → ℝ) (wavel : ℝ) (illum : Illum (Fin N × Fin N))
    (tel : TelGeo (Fin N × Fin N)) (bf : ℝ) (hpr : 0 < tel.pr) (hbf : 0 < bf) (hw : 0 < wavel) (r0 : List ℝ)
    (h : residualTrue (I ++ K) beam u v dz wavel illum tel bf = .ok r0)
    (hs : ∀ i b, Spec.Sampled (I ++ K) u v dz wavel illum tel bf i b → Spec.SingleExtremes b) :
    ∃ r : ℝ → List ℝ, r 0 = r0 ∧ (∀ t, residualTrue (I ++ Spec.moved K D t) beam u v dz wavel illum tel bf = .ok (r t)) ∧
      ∀ j, DifferentiableAt ℝ (fun t => (r t).getD j 0) 0 := by
  obtain ⟨b, hb, -⟩ := residualTrue_ok.1 h
  obtain ⟨P, hP, -⟩ := modelRow_ok.1 (hb 0)
  obtain ⟨E0, hE0, -⟩ := exact_node _ _ _ _ _ _ _ P hpr.ne' hbf.ne' hw.ne' hP
  obtain ⟨B, W, dl, Ea, -, -, -, a4, -⟩ := aperture_ok_iff.1 hE0
  rw [show (I ++ K).take 5 = I by rw [← hI]; simp] at a4
  exact C143_params (fun _ => I) K D (fun _ => hI) hKD beam u v dz wavel illum tel bf hpr hbf hw (fun _ => Ea) (fun _ => a4)
    (fun q => differentiableAt_const _) r0 h hs

/-- **C143**. With `illum_gauss` the residual has slopes along every direction of all parameters. -/
theorem C143_gauss {N M : ℕ} (I A K D : List ℝ) (hI : I.length = 5) (hA : A.length = 5) (hKD : K.length = D.length)
    (beam : Fin 3 × Fin M → Fl) (u v : Fin 3 × Fin M → ℝ) (dz : Fin 3 → ℝ) (wavel : ℝ)
    (tel : TelGeo (Fin N × Fin N)) (bf : ℝ) (hpr : 0 < tel.pr) (hbf : 0 < bf) (hw : 0 < wavel) (r0 : List ℝ)
    (h : residualTrue (I ++ K) beam u v dz wavel illumGauss tel bf = .ok r0)
    (hs : ∀ i b, Spec.Sampled (I ++ K) u v dz wavel illumGauss tel bf i b → Spec.SingleExtremes b) :
    ∃ r : ℝ → List ℝ, r 0 = r0 ∧
      (∀ t, residualTrue (Spec.moved I A t ++ Spec.moved K D t) beam u v dz wavel illumGauss tel bf = .ok (r t)) ∧
      ∀ j, DifferentiableAt ℝ (fun t => (r t).getD j 0) 0 := by
  match I, hI, A, hA with
  | [i, c, p, x0, y0], _, [i', c', p', x0', y0'], _ =>
    have hm : ∀ t, Spec.moved [i, c, p, x0, y0] [i', c', p', x0', y0'] t =
        [i + t * i', c + t * c', p + t * p', x0 + t * x0', y0 + t * y0'] := fun t => rfl
    have h0 : Spec.moved [i, c, p, x0, y0] [i', c', p', x0', y0'] 0 = [i, c, p, x0, y0] := by
      rw [hm]; simp
    refine C143_params (fun t => Spec.moved [i, c, p, x0, y0] [i', c', p', x0', y0'] t) K D (fun t => rfl) hKD beam u v dz
      wavel illumGauss tel bf hpr hbf hw _ (fun t => rfl) (fun q => ?_) r0 (by rw [h0]; exact h) (by rw [h0]; exact hs)
    simp only [gaussAt, taper, offset]
    have hp : ∀ s : ℝ, 0 < (10 : ℝ) ^ s := fun s => Real.rpow_pos_of_pos (by norm_num) s
    have d1 : DifferentiableAt ℝ (fun t : ℝ => (10 : ℝ) ^ ((c + t * c') / 20)) 0 := by
      refine DifferentiableAt.rpow (differentiableAt_const _) (by fun_prop) (by norm_num)
    refine DifferentiableAt.mul (DifferentiableAt.mul (by fun_prop) ?_) ?_
    · refine DifferentiableAt.sqrt ((differentiableAt_const _).mul (d1.pow 2)) ?_
      have := hp ((c + 0 * c') / 20)
      positivity
    · refine DifferentiableAt.exp (DifferentiableAt.div (by fun_prop) ((differentiableAt_const _).mul
        ((d1.mul_const _).pow 2)) ?_)
      have := hp ((c + 0 * c') / 20)
      positivity

/-- **C143**. With `illum_parabolic` (of an order that is not negative) the residual has slopes along every direction of the
amplitude, the taper and the coefficients; the parameters that are fitted with the configuration that comes with the
package are among them. -/
theorem C143_parabolic {N M : ℕ} (i c p x0 y0 i' c' : ℝ) (hp : 0 ≤ p) (K D : List ℝ) (hKD : K.length = D.length)
    (beam : Fin 3 × Fin M → Fl) (u v : Fin 3 × Fin M → ℝ) (dz : Fin 3 → ℝ) (wavel : ℝ)
    (tel : TelGeo (Fin N × Fin N)) (bf : ℝ) (hpr : 0 < tel.pr) (hbf : 0 < bf) (hw : 0 < wavel) (r0 : List ℝ)
    (h : residualTrue ([i, c, p, x0, y0] ++ K) beam u v dz wavel illumParabolic tel bf = .ok r0)
    (hs : ∀ j b, Spec.Sampled ([i, c, p, x0, y0] ++ K) u v dz wavel illumParabolic tel bf j b → Spec.SingleExtremes b) :
    ∃ r : ℝ → List ℝ, r 0 = r0 ∧
      (∀ t, residualTrue ([i + t * i', c + t * c', p, x0, y0] ++ Spec.moved K D t) beam u v dz wavel illumParabolic tel bf =
        .ok (r t)) ∧
      ∀ j, DifferentiableAt ℝ (fun t => (r t).getD j 0) 0 := by
  have h0 : [i + 0 * i', c + 0 * c', p, x0, y0] = [i, c, p, x0, y0] := by simp
  refine C143_params (fun t => [i + t * i', c + t * c', p, x0, y0]) K D (fun t => rfl) hKD beam u v dz
    wavel illumParabolic tel bf hpr hbf hw _ (fun t => rfl) (fun q => ?_) r0 (by rw [h0]; exact h) (by rw [h0]; exact hs)
  have d1 : DifferentiableAt ℝ (fun t : ℝ => (10 : ℝ) ^ ((c + t * c') / 20)) 0 := by
    refine DifferentiableAt.rpow (differentiableAt_const _) (by fun_prop) (by norm_num)
  have d2 : DifferentiableAt ℝ (fun t : ℝ => i + t * i') 0 := by fun_prop
  obtain ⟨x, hx⟩ : ∃ x, x = Spec.gridPoint tel.pr bf N q.2 := ⟨_, rfl⟩
  obtain ⟨y, hy⟩ : ∃ y, y = Spec.gridPoint tel.pr bf N q.1 := ⟨_, rfl⟩
  obtain ⟨s, hs0, hs2⟩ : ∃ s, 0 ≤ s ∧ s ^ 2 = (x - offset (.bare x0)) ^ 2 + (y - offset (.bare y0)) ^ 2 :=
    ⟨Real.sqrt _, Real.sqrt_nonneg _, Real.sq_sqrt (by positivity)⟩
  have e : ∀ t : ℝ, parabolicAt (offset (.bare (i + t * i'))) (.bare (c + t * c')) (offset (.bare p)) (.bare x0) (.bare y0)
      tel.pr x y = Fl.nanToNum (Fl.mul (.fin (i + t * i')) (Fl.add (.fin ((10 : ℝ) ^ ((c + t * c') / 20)))
        (Fl.mul (.fin (1 - (10 : ℝ) ^ ((c + t * c') / 20))) (Fl.pow (.fin (1 - (s / tel.pr) ^ 2)) p)))) := fun t =>
    parabolicAt_eq _ _ _ _ _ _ _ _ s hpr.ne' hs0 hs2
  simp only [← hx, ← hy, e]
  have hX : Fl.pow (.fin (1 - (s / tel.pr) ^ 2)) p = .nan ∨ ∃ z, Fl.pow (.fin (1 - (s / tel.pr) ^ 2)) p = .fin z := by
    unfold Fl.pow
    rcases hp.eq_or_lt with rfl | hp
    · simp
    · simp only [hp.ne', if_false, hp, if_true]
      split_ifs
      · exact .inr ⟨_, rfl⟩
      · exact .inl rfl
      · exact .inr ⟨_, rfl⟩
  rcases hX with hX | ⟨z, hX⟩
  · rw [hX]
    exact differentiableAt_const _
  · rw [hX]
    exact d2.mul (d1.add (((differentiableAt_const _).sub d1).mul_const z))

/-! ## Finite differences -/

/-- The matrix of the finite differences: column `i` from a step `h i` along a line of its own. -/
noncomputable def Spec.differences {m n : ℕ} (c : Fin n → ℝ → Fin m → ℝ) (h : Fin n → ℝ) : Matrix (Fin m) (Fin n) ℝ :=
  Matrix.of fun k i => (c i (h i) k - c i 0 k) / h i

/-- **C143**. As the steps of the finite differences get small, the standard errors and the correlations which
`co_matrices` makes from them tend to those from the slopes. -/
theorem C143_limit {m n : ℕ} (c : Fin n → ℝ → Fin m → ℝ) (J : Matrix (Fin m) (Fin n) ℝ)
    (hc : ∀ i k, HasDerivAt (fun t => c i t k) (J k i) 0) (res : Fin m → ℝ) (hres : res ≠ 0) (nPars : ℕ) (hdof : nPars < m)
    {sigma : ℝ} (hs : 0 < sigma) (hJ : Spec.Stretches J sigma) (ε : ℝ) (hε : 0 < ε) :
    ∃ η > 0, ∀ h : Fin n → ℝ, (∀ i, h i ≠ 0 ∧ |h i| < η) → ∃ cov corr cov' corr',
      coMatrices res J nPars = .ok (some (cov, corr)) ∧
      coMatrices res (Spec.differences c h) nPars = .ok (some (cov', corr')) ∧
      (∀ i, |Real.sqrt (cov' i i) - Real.sqrt (cov i i)| ≤ ε * Real.sqrt (cov i i)) ∧
      ∀ i j, |corr' i j - corr i j| ≤ ε := by
  obtain ⟨κ, k0, k1, k2⟩ : ∃ κ : ℝ, 0 < κ ∧ κ ≤ 1 / 4 ∧ κ ≤ ε / 8 :=
    ⟨min (1 / 4) (ε / 8), lt_min (by norm_num) (by positivity), min_le_left _ _, min_le_right _ _⟩
  obtain ⟨δ, d0, hd⟩ : ∃ δ : ℝ, 0 < δ ∧ δ = κ * sigma / (m * n + 1) := ⟨_, by positivity, rfl⟩
  have ev : ∀ᶠ t in 𝓝[≠] (0 : ℝ), ∀ i k, |(c i t k - c i 0 k) / t - J k i| < δ := by
    refine eventually_all.2 fun i => eventually_all.2 fun k => ?_
    have := (hasDerivAt_iff_tendsto_slope.1 (hc i k)).eventually (Metric.ball_mem_nhds _ d0)
    refine this.mono fun t ht => ?_
    rw [Real.dist_eq, slope_def_field, sub_zero] at ht
    exact ht
  obtain ⟨η, hη, hball⟩ := Metric.mem_nhdsWithin_iff.1 ev
  refine ⟨η, hη, fun h hh => ?_⟩
  have hent : ∀ i k, |Spec.differences c h k i - J k i| < δ := fun i k =>
    hball (a := h i) ⟨by rw [Metric.mem_ball, Real.dist_eq, sub_zero]; exact (hh i).2, (hh i).1⟩ i k
  have hfar : Spec.farSq J (Spec.differences c h) ≤ (κ * sigma) ^ 2 := by
    have h1 : Spec.farSq J (Spec.differences c h) ≤ ∑ _k : Fin m, ∑ _i : Fin n, δ ^ 2 :=
      Finset.sum_le_sum fun k _ => Finset.sum_le_sum fun i _ => by
        rw [← sq_abs]
        exact pow_le_pow_left₀ (abs_nonneg _) (hent i k).le 2
    refine h1.trans ?_
    simp only [Finset.sum_const, Finset.card_univ, Fintype.card_fin, nsmul_eq_mul]
    obtain ⟨L, hL0, hL⟩ : ∃ L : ℝ, 0 ≤ L ∧ L = m * n := ⟨_, by positivity, rfl⟩
    rw [← mul_assoc, ← hL]
    rw [← hL] at hd
    have : κ * sigma = (L + 1) * δ := by rw [hd]; field_simp
    rw [this, mul_pow]
    have : L ≤ (L + 1) ^ 2 := by nlinarith
    gcongr
  obtain ⟨cov, corr, cov', corr', a1, a2, a3, -, a5⟩ := C142_near res J (Spec.differences c h) nPars hdof hres hs hJ k0.le
    (by linarith) hfar
  have p1 : 0 < 1 - κ := by linarith
  have p2 : 0 < 1 + κ := by linarith
  refine ⟨cov, corr, cov', corr', a1, a2, fun i => ?_, fun i j => (a5 i j).trans ?_⟩
  · obtain ⟨b1, b2⟩ := a3 i
    have hn := Real.sqrt_nonneg (cov i i)
    generalize Real.sqrt (cov i i) = x at *
    generalize Real.sqrt (cov' i i) = y at *
    rw [div_le_iff₀ p2] at b1
    rw [le_div_iff₀ p1] at b2
    have hy : y ≤ 2 * x := by
      by_contra hcon
      nlinarith
    have hκx : κ * x ≤ ε / 8 * x := mul_le_mul_of_nonneg_right k2 hn
    rw [abs_le]
    constructor <;> nlinarith
  · rw [div_pow, div_sub_one (by positivity), div_le_iff₀ (by positivity)]
    have : (3 / 4) ^ 2 ≤ (1 - κ) ^ 2 := pow_le_pow_left₀ (by norm_num) (by linarith) 2
    nlinarith

theorem errors_limit {N M n : ℕ} (p : List ℝ) (beam : Fin 3 × Fin M → Fl) (u v : Fin 3 × Fin M → ℝ) (dz : Fin 3 → ℝ)
    (wavel : ℝ) (illum : Illum (Fin N × Fin N)) (tel : TelGeo (Fin N × Fin N)) (bf : ℝ) (r0 : List ℝ)
    (h : residualTrue p beam u v dz wavel illum tel bf = .ok r0) (r : Fin n → ℝ → List ℝ)
    (J : Matrix (Fin (3 * M)) (Fin n) ℝ) (hd : ∀ i (k : Fin (3 * M)), HasDerivAt (fun t => (r i t).getD k.val 0) (J k i) 0)
    (sigma : ℝ) (nPars : ℕ) (hs : 0 < sigma) (hJ : Spec.Stretches J sigma) (hdof : nPars < 3 * M) (hne : ∃ x ∈ r0, x ≠ 0)
    (ε : ℝ) (hε : 0 < ε) :
    ∃ η > 0, ∀ h : Fin n → ℝ, (∀ i, h i ≠ 0 ∧ |h i| < η) → ∃ cov corr cov' corr',
        coMatrices (fun k : Fin (3 * M) => r0.getD k.val 0) J nPars = .ok (some (cov, corr)) ∧
        coMatrices (fun k : Fin (3 * M) => r0.getD k.val 0)
          (Spec.differences (fun i t (k : Fin (3 * M)) => (r i t).getD k.val 0) h) nPars = .ok (some (cov', corr')) ∧
        (∀ i, |Real.sqrt (cov' i i) - Real.sqrt (cov i i)| ≤ ε * Real.sqrt (cov i i)) ∧
        ∀ i j, |corr' i j - corr i j| ≤ ε := by
  refine C143_limit _ _ hd _ ?_ nPars hdof hs hJ ε hε
  obtain ⟨x, hx, hx0⟩ := hne
  obtain ⟨j, hj, rfl⟩ := List.getElem_of_mem hx
  have hlen : r0.length = 3 * M := by
    obtain ⟨b, hb, nd, nm, -, -, e⟩ := residualTrue_ok.1 h
    rw [e, flatten3_length]
  intro h0
  have := congrFun h0 ⟨j, hlen ▸ hj⟩
  simp only [List.getD_eq_getElem?_getD, List.getElem?_eq_getElem hj, Option.getD_some, Pi.zero_apply] at this
  exact hx0 this

/-- **C143**. The same for the residual of a fit with `illum_gauss`, for any choice of fitted directions: the slopes
exist, and if they tell the parameters apart, the errors from finite differences tend to those from the slopes. -/
theorem C143_errors {N M n : ℕ} (I K : List ℝ) (A D : Fin n → List ℝ) (hI : I.length = 5) (hA : ∀ i, (A i).length = 5)
    (hKD : ∀ i, K.length = (D i).length) (beam : Fin 3 × Fin M → Fl) (u v : Fin 3 × Fin M → ℝ) (dz : Fin 3 → ℝ) (wavel : ℝ)
    (tel : TelGeo (Fin N × Fin N)) (bf : ℝ) (hpr : 0 < tel.pr) (hbf : 0 < bf) (hw : 0 < wavel) (r0 : List ℝ)
    (h : residualTrue (I ++ K) beam u v dz wavel illumGauss tel bf = .ok r0)
    (hs : ∀ i b, Spec.Sampled (I ++ K) u v dz wavel illumGauss tel bf i b → Spec.SingleExtremes b) :
    ∃ (r : Fin n → ℝ → List ℝ) (J : Matrix (Fin (3 * M)) (Fin n) ℝ),
      (∀ i t, residualTrue (Spec.moved I (A i) t ++ Spec.moved K (D i) t) beam u v dz wavel illumGauss tel bf = .ok (r i t)) ∧
      (∀ i k, HasDerivAt (fun t => (r i t).getD k.val 0) (J k i) 0) ∧
      ∀ (sigma : ℝ) (nPars : ℕ), 0 < sigma → Spec.Stretches J sigma → nPars < 3 * M → (∃ x ∈ r0, x ≠ 0) → ∀ ε > 0,
      ∃ η > 0, ∀ h : Fin n → ℝ, (∀ i, h i ≠ 0 ∧ |h i| < η) → ∃ cov corr cov' corr',
        coMatrices (fun k : Fin (3 * M) => r0.getD k.val 0) J nPars = .ok (some (cov, corr)) ∧
        coMatrices (fun k : Fin (3 * M) => r0.getD k.val 0)
          (Spec.differences (fun i t (k : Fin (3 * M)) => (r i t).getD k.val 0) h) nPars = .ok (some (cov', corr')) ∧
        (∀ i, |Real.sqrt (cov' i i) - Real.sqrt (cov i i)| ≤ ε * Real.sqrt (cov i i)) ∧
        ∀ i j, |corr' i j - corr i j| ≤ ε := by
  choose r hr0 hr hd using fun i => C143_gauss I (A i) K (D i) hI (hA i) (hKD i) beam u v dz wavel tel bf hpr hbf hw r0 h hs
  exact ⟨r, Matrix.of fun k i => deriv (fun t => (r i t).getD k.val 0) 0, hr, fun i k => (hd i k).hasDerivAt,
    fun sigma nPars hs hJ hdof hne ε hε => errors_limit _ beam u v dz wavel illumGauss tel bf r0 h r _
      (fun i k => (hd i k).hasDerivAt) sigma nPars hs hJ hdof hne ε hε⟩

/-- **C143**. The same with `illum_parabolic`, for the amplitude, the taper and the coefficients. -/
theorem C143_errors_parabolic {N M n : ℕ} (i c p x0 y0 : ℝ) (hp : 0 ≤ p) (K : List ℝ) (i' c' : Fin n → ℝ)
    (D : Fin n → List ℝ) (hKD : ∀ i, K.length = (D i).length) (beam : Fin 3 × Fin M → Fl) (u v : Fin 3 × Fin M → ℝ)
    (dz : Fin 3 → ℝ) (wavel : ℝ)
    (tel : TelGeo (Fin N × Fin N)) (bf : ℝ) (hpr : 0 < tel.pr) (hbf : 0 < bf) (hw : 0 < wavel) (r0 : List ℝ)
    (h : residualTrue ([i, c, p, x0, y0] ++ K) beam u v dz wavel illumParabolic tel bf = .ok r0)
    (hs : ∀ j b, Spec.Sampled ([i, c, p, x0, y0] ++ K) u v dz wavel illumParabolic tel bf j b → Spec.SingleExtremes b) :
    ∃ (r : Fin n → ℝ → List ℝ) (J : Matrix (Fin (3 * M)) (Fin n) ℝ),
      (∀ j t, residualTrue ([i + t * i' j, c + t * c' j, p, x0, y0] ++ Spec.moved K (D j) t) beam u v dz wavel illumParabolic
        tel bf = .ok (r j t)) ∧
      (∀ j k, HasDerivAt (fun t => (r j t).getD k.val 0) (J k j) 0) ∧
      ∀ (sigma : ℝ) (nPars : ℕ), 0 < sigma → Spec.Stretches J sigma → nPars < 3 * M → (∃ x ∈ r0, x ≠ 0) → ∀ ε > 0,
      ∃ η > 0, ∀ h : Fin n → ℝ, (∀ i, h i ≠ 0 ∧ |h i| < η) → ∃ cov corr cov' corr',
        coMatrices (fun k : Fin (3 * M) => r0.getD k.val 0) J nPars = .ok (some (cov, corr)) ∧
        coMatrices (fun k : Fin (3 * M) => r0.getD k.val 0)
          (Spec.differences (fun i t (k : Fin (3 * M)) => (r i t).getD k.val 0) h) nPars = .ok (some (cov', corr')) ∧
        (∀ i, |Real.sqrt (cov' i i) - Real.sqrt (cov i i)| ≤ ε * Real.sqrt (cov i i)) ∧
        ∀ i j, |corr' i j - corr i j| ≤ ε := by
  choose r hr0 hr hd using fun j => C143_parabolic i c p x0 y0 (i' j) (c' j) hp K (D j) (hKD j) beam u v dz wavel tel bf hpr
    hbf hw r0 h hs
  exact ⟨r, Matrix.of fun k i => deriv (fun t => (r i t).getD k.val 0) 0, hr, fun i k => (hd i k).hasDerivAt,
    fun sigma nPars hs hJ hdof hne ε hε => errors_limit _ beam u v dz wavel illumParabolic tel bf r0 h r _
      (fun i k => (hd i k).hasDerivAt) sigma nPars hs hJ hdof hne ε hε⟩

/-- Differences of two curved residuals. -/
example (ε : ℝ) (hε : 0 < ε) : ∃ η > 0, ∀ h : Fin 2 → ℝ, (∀ i, h i ≠ 0 ∧ |h i| < η) →
    ∃ cov corr cov' corr' : Matrix (Fin 2) (Fin 2) ℝ,
    coMatrices ![1, 1, 1] !![1, 0; 0, 2; 0, 0] 2 = .ok (some (cov, corr)) ∧
    coMatrices ![1, 1, 1] (Spec.differences ![fun t => ![t + t ^ 2, 0, 0], fun t => ![0, 2 * t, t ^ 2]] h) 2 =
      .ok (some (cov', corr')) ∧
    (∀ i, |Real.sqrt (cov' i i) - Real.sqrt (cov i i)| ≤ ε * Real.sqrt (cov i i)) ∧ ∀ i j, |corr' i j - corr i j| ≤ ε := by
  refine C143_limit _ _ (fun i k => ?_) _ (fun h => by simpa using congrFun h 0) 2 (by norm_num) one_pos (fun v => ?_) ε hε
  · have e1 : HasDerivAt (fun t : ℝ => t + t ^ 2) 1 0 := by
      have := (hasDerivAt_id' (0 : ℝ)).fun_add (hasDerivAt_pow 2 (0 : ℝ))
      norm_num at this
      exact this
    have e2 : HasDerivAt (fun t : ℝ => 2 * t) 2 0 := by simpa using (hasDerivAt_id (0 : ℝ)).const_mul 2
    have e3 : HasDerivAt (fun t : ℝ => t ^ 2) 0 0 := by simpa using hasDerivAt_pow 2 (0 : ℝ)
    have e4 : HasDerivAt (fun _ : ℝ => (0 : ℝ)) 0 0 := hasDerivAt_const _ _
    fin_cases i <;> fin_cases k
    · exact e1
    · exact e4
    · exact e4
    · exact e4
    · exact e2
    · exact e3
  · simp only [Spec.lenSq, Fin.sum_univ_two, Fin.sum_univ_three, Matrix.mulVec, dotProduct]
    simp
    nlinarith [sq_nonneg (v 1)]

/-- Without errors of the wavefront the order 1 gives the maps of the order 0. -/
theorem four_tilt (I : List ℝ) (dz : ℝ) : radiationPattern I [0, 0, 0] dz (1 / 64) (fun _ _ _ _ => .ok fun _ => 1)
      (⟨Spec.smallBlock, fun _ _ _ => .ok fun _ => 0, 96⟩ : TelGeo (Fin 4 × Fin 4)) 1 =
    radiationPattern I [0] dz (1 / 64) (fun _ _ _ _ => .ok fun _ => 1)
      (⟨Spec.smallBlock, fun _ _ _ => .ok fun _ => 0, 96⟩ : TelGeo (Fin 4 × Fin 4)) 1 := by
  have e : ∀ x y : Fin 4 × Fin 4 → ℝ, aperture x y I [0, 0, 0] dz (1 / 64) (fun _ _ _ _ => .ok fun _ => 1)
        ⟨Spec.smallBlock, fun _ _ _ => .ok fun _ => 0, 96⟩ =
      aperture x y I [0] dz (1 / 64) (fun _ _ _ _ => .ok fun _ => 1) ⟨Spec.smallBlock, fun _ _ _ => .ok fun _ => 0, 96⟩ := by
    intro x y
    have w0 : ∀ a b, wfVal 0 [0] a b = 0 := fun a b => by simp [wfVal, tri]
    have w1 : ∀ a b, wfVal 1 [0, 0, 0] a b = 0 := fun a b => by simp [wfVal, tri, Finset.sum_range_succ]
    refine (aperture_ok_iff.2 ⟨_, _, _, _, rfl, wavefront_ok _ _ [0, 0, 0] 1 (by simp [tri]), rfl, rfl, rfl⟩).trans
      (aperture_ok_iff.2 ⟨_, _, _, _, rfl, wavefront_ok _ _ [0] 0 (by simp [tri]), rfl, rfl, ?_⟩).symm
    funext q
    simp only [w0, w1]
  rw [radiationPattern_eq _ _ _ _ (by norm_num), radiationPattern_eq _ _ _ _ (by norm_num), e]

/-- Two samples of each map, the powers of which are 16 and 8: the residual has slopes along the tilts. -/
example (beam : Fin 3 × Fin 2 → Fl) (a b : ℝ) : ∃ r : ℝ → List ℝ,
    (∀ t, residualTrue ([1, -10, 2, 0, 0] ++ [0, 0 + t * a, 0 + t * b]) beam Spec.twoPlaces (fun _ => 0) (fun _ => 0) (1 / 64)
      (fun _ _ _ _ => .ok fun _ => 1) (⟨Spec.smallBlock, fun _ _ _ => .ok fun _ => 0, 96⟩ : TelGeo (Fin 4 × Fin 4)) 1 =
      .ok (r t)) ∧ ∀ j, DifferentiableAt ℝ (fun t => (r t).getD j 0) 0 := by
  have hrow : ∀ i, modelRow ([1, -10, 2, 0, 0] ++ [0, 0, 0]) Spec.twoPlaces (fun _ => 0) (fun _ => 0) (1 / 64)
      (fun _ _ _ _ => .ok fun _ => 1) (⟨Spec.smallBlock, fun _ _ _ => .ok fun _ => 0, 96⟩ : TelGeo (Fin 4 × Fin 4)) 1 i =
      modelRow [1, -10, 2, 0, 0, 0] Spec.twoPlaces (fun _ => 0) (fun _ => 0) (1 / 64)
      (fun _ _ _ _ => .ok fun _ => 1) (⟨Spec.smallBlock, fun _ _ _ => .ok fun _ => 0, 96⟩ : TelGeo (Fin 4 × Fin 4)) 1 i := by
    intro i
    have := four_tilt [1, -10, 2, 0, 0] 0
    unfold modelRow
    simp only [List.cons_append, List.nil_append, List.take_succ_cons, List.take_zero, List.drop_succ_cons, List.drop_zero,
      this]
  have hex : ∀ i, ∃ b, modelRow [1, -10, 2, 0, 0, 0] Spec.twoPlaces (fun _ => 0) (fun _ => 0) (1 / 64)
      (fun _ _ _ _ => .ok fun _ => 1) (⟨Spec.smallBlock, fun _ _ _ => .ok fun _ => 0, 96⟩ : TelGeo (Fin 4 × Fin 4)) 1 i =
      .ok b := by
    intro i
    obtain ⟨P, hP, hax, -⟩ := four_pattern [1, -10, 2, 0, 0] 0
    refine ⟨_, modelRow_ok.2 ⟨P, hP, (interpolator_ok_iff _ _ _ _ _).2 ⟨?_, fun k => ?_, rfl⟩⟩⟩
    · constructor <;>
      · intro x y hxy
        simp only [hax]
        have : ((x : ℕ) : ℝ) < ((y : ℕ) : ℝ) := by exact_mod_cast hxy
        gcongr
    · unfold Spec.twoPlaces
      refine ⟨⟨⟨0, ?_⟩, ⟨2, ?_⟩⟩, ⟨⟨0, ?_⟩, ⟨2, ?_⟩⟩⟩ <;> simp only [hax] <;> (try split_ifs) <;> norm_num
  choose b' hb' using hex
  obtain ⟨nd, f1, -⟩ := C27_axis1 (by norm_num) beam
  obtain ⟨nm, f2, -⟩ := C27_axis1 (by norm_num) fun q : Fin 3 × Fin 2 => Fl.fin (b' q.1 q.2)
  obtain ⟨r, -, hr, hd⟩ := C143_coefficients [1, -10, 2, 0, 0] [0, 0, 0] [0, a, b] rfl rfl beam Spec.twoPlaces (fun _ => 0)
    (fun _ => 0) (1 / 64) (fun _ _ _ _ => .ok fun _ => 1)
    (⟨Spec.smallBlock, fun _ _ _ => .ok fun _ => 0, 96⟩ : TelGeo (Fin 4 × Fin 4)) 1 (by norm_num) (by norm_num) (by norm_num) _
    (residualTrue_ok.2 ⟨b', fun i => (hrow i).trans (hb' i), nd, nm, f1, f2, rfl⟩) (fun i c hc => by
      have hc' := sampled_iff.1 hc
      rw [hrow] at hc'
      obtain ⟨e0, e1⟩ := two_row i c hc'
      refine ⟨1, 0, by rw [e0, e1]; norm_num, fun k hk => ?_, fun k hk => ?_⟩
      · have : k = 0 := by omega
        rw [this, e0, e1]; norm_num
      · have : k = 1 := by omega
        rw [this, e0, e1]; norm_num)
  refine ⟨r, fun t => ?_, hd⟩
  rw [← hr t]
  simp [Spec.moved]

end Verif.Props
