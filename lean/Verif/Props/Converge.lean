import Verif.Lemmas.Riemann
import Verif.Lemmas.ZernikeUnique
import Verif.Props.Aperture
import Verif.Props.Geometry
import Verif.Props.Illumination
import Mathlib.Analysis.SpecialFunctions.Complex.Arg
import Mathlib.Analysis.SpecialFunctions.Pow.Continuity

/-!
# C96: finer grids converge to the Fourier integral of the aperture
-/

namespace Verif.Props

open Verif Verif.Np Verif.Aperture Verif.Telgeometry Verif.Riemann MeasureTheory Filter Topology

/-! ## Specification -/

/-- The field in the direction `(u, v)`: the Fourier integral of the aperture distribution. -/
noncomputable def Spec.fourierField (A : ℝ × ℝ → ℂ) (wavel u v : ℝ) : ℂ :=
  ∫ p : ℝ × ℝ, A p * Complex.exp (-(2 * Real.pi * Complex.I) * (((p.1 * u + p.2 * v) / wavel : ℝ) : ℂ))

/-- `A` is what `aperture` returns at a point, for arrays of every shape. -/
def Spec.IsAperture (A : ℝ × ℝ → ℂ) (I K : List ℝ) (dz wavel : ℝ) (illum : ∀ ι : Type, Illum ι)
    (tel : ∀ ι : Type, TelGeo ι) : Prop :=
  ∀ (ι : Type) (x y : ι → ℝ), aperture x y I K dz wavel (illum ι) (tel ι) = .ok fun q => A (x q, y q)

/-- Bounded, zero outside a square, and continuous but for a set of area zero. -/
def Spec.Piecewise (A : ℝ × ℝ → ℂ) (R : ℝ) : Prop :=
  (∃ M, ∀ p, ‖A p‖ ≤ M) ∧ (∀ p : ℝ × ℝ, R < |p.1| ∨ R < |p.2| → A p = 0) ∧ ∀ᵐ p, ContinuousAt A p

/-! ## Convergence -/

/-- **C96** resolutions that grow, and pixels whose coordinates tend to a direction: the computed field, times the
area of an aperture pixel and the phase of the corner of the box, tends to the Fourier integral. -/
theorem C96_converges (I K : List ℝ) (dz wavel pr bf : ℝ) (illum : ∀ ι : Type, Illum ι) (tel : ∀ ι : Type, TelGeo ι)
    (A : ℝ × ℝ → ℂ) (h0 : 0 < pr) (hbf : 0 < bf) (hw : wavel ≠ 0) (hpr : ∀ ι, (tel ι).pr = pr)
    (hA : Spec.IsAperture A I K dz wavel illum tel) (hR : Spec.Piecewise A (pr * bf))
    (N : ℕ → ℕ) (hN : Tendsto N atTop atTop) (P : ∀ k, Pattern (N k))
    (hP : ∀ k, radiationPattern I K dz wavel (illum _) (tel _) bf = .ok (P k)) (i j : ∀ k, Fin (N k)) (u v : ℝ)
    (hu : Tendsto (fun k => (P k).u (j k)) atTop (𝓝 u)) (hv : Tendsto (fun k => (P k).v (i k)) atTop (𝓝 v)) :
    Tendsto (fun k => (((2 * (pr * bf) / ((N k : ℝ) - 1)) ^ 2 : ℝ) : ℂ) *
      Complex.exp (2 * Real.pi * Complex.I * ((pr * bf * ((P k).u (j k) + (P k).v (i k)) / wavel : ℝ) : ℂ)) *
      (P k).F (i k, j k)) atTop (𝓝 (Spec.fourierField A wavel u v)) := by
  obtain ⟨⟨M, hM⟩, hz, hc⟩ := hR
  have hN2 : ∀ k, 2 ≤ N k := fun k => (radiationPattern_ok (hP k)).1
  let G : ℕ → ℝ × ℝ → ℂ := fun k p => A p *
    Complex.exp (-(2 * Real.pi * Complex.I) * (((p.1 * (P k).u (j k) + p.2 * (P k).v (i k)) / wavel : ℝ) : ℂ))
  have hnorm : ∀ t : ℝ, ‖Complex.exp (-(2 * Real.pi * Complex.I) * (t : ℂ))‖ = 1 := by
    intro t
    rw [show -(2 * Real.pi * Complex.I) * (t : ℂ) = ((-(2 * Real.pi * t) : ℝ) : ℂ) * Complex.I by push_cast; ring]
    exact Complex.norm_exp_ofReal_mul_I _
  have key := tendsto_sum (R := pr * bf) (M := M) (mul_pos h0 hbf) N hN2 hN G
    (fun p => A p * Complex.exp (-(2 * Real.pi * Complex.I) * (((p.1 * u + p.2 * v) / wavel : ℝ) : ℂ)))
    (fun k p => by rw [norm_mul, hnorm, mul_one]; exact hM p)
    (fun p hp => by rw [hz p hp, zero_mul]) (by
      filter_upwards [hc] with p hp q hq
      refine (hp.tendsto.comp hq).mul ?_
      refine (Complex.continuous_exp.tendsto _).comp (tendsto_const_nhds.mul ?_)
      refine (Complex.continuous_ofReal.tendsto _).comp (Tendsto.div_const ?_ _)
      have q1 := (continuous_fst.tendsto p).comp hq
      have q2 := (continuous_snd.tendsto p).comp hq
      exact (q1.mul hu).add (q2.mul hv))
  refine key.congr fun k => ?_
  obtain ⟨E, hE, hF⟩ := C15_fourier_sum I K dz wavel (N k) (illum _) (tel _) bf (P k)
    (by rw [hpr]; exact h0.ne') hbf.ne' hw (hP k)
  rw [hA, Except.ok.injEq] at hE
  rw [hF, Finset.sum_range]
  rw [Finset.mul_sum]
  refine Finset.sum_congr rfl fun a _ => ?_
  rw [Finset.sum_range, Finset.mul_sum]
  refine Finset.sum_congr rfl fun b _ => ?_
  rw [← hE, hpr]
  have e1 : ∀ c : Fin (N k), Spec.gridPoint pr bf (N k) c = -(pr * bf) + (c : ℕ) * (2 * (pr * bf) / ((N k : ℝ) - 1)) := by
    intro c
    unfold Spec.gridPoint
    ring
  have e2 : 2 * pr * bf / ((N k : ℝ) - 1) = 2 * (pr * bf) / ((N k : ℝ) - 1) := by ring
  dsimp only [G]
  rw [e1, e1, e2]
  generalize 2 * (pr * bf) / ((N k : ℝ) - 1) = h
  generalize (P k).u (j k) = s
  generalize (P k).v (i k) = t
  generalize A _ = w
  have hexp : Complex.exp (-(2 * Real.pi * Complex.I) *
      ((((-(pr * bf) + (b : ℕ) * h) * s + (-(pr * bf) + (a : ℕ) * h) * t) / wavel : ℝ) : ℂ)) =
      Complex.exp (2 * Real.pi * Complex.I * ((pr * bf * (s + t) / wavel : ℝ) : ℂ)) *
      Complex.exp (-(2 * Real.pi * Complex.I) * (((((b : ℕ) * h) * s + ((a : ℕ) * h) * t) / wavel : ℝ) : ℂ)) := by
    rw [← Complex.exp_add]
    congr 1
    push_cast
    ring
  rw [hexp]
  push_cast
  ring

theorem pixel_coord {I K : List ℝ} {dz wavel pr bf : ℝ} {N : ℕ} {illum : Illum (Fin N × Fin N)}
    {tel : TelGeo (Fin N × Fin N)} {P : Pattern N} (hpr : tel.pr = pr)
    (h : radiationPattern I K dz wavel illum tel bf = .ok P) (j : Fin N) (m : ℤ) (hj : ((j : ℕ) : ℤ) = (N / 2 : ℕ) + m) :
    P.u j = m * wavel / (2 * (pr * bf)) * (1 - 1 / (N : ℝ)) ∧ P.v j = m * wavel / (2 * (pr * bf)) * (1 - 1 / (N : ℝ)) := by
  obtain ⟨hN, E, -, rfl⟩ := radiationPattern_ok h
  have hj' : ((j : ℕ) : ℝ) - ((N / 2 : ℕ) : ℝ) = m := by
    generalize N / 2 = c at hj
    have : (((j : ℕ) : ℤ) : ℝ) = ((c : ℤ) : ℝ) + m := by exact_mod_cast hj
    push_cast at this
    linarith
  have hN0 : (N : ℝ) ≠ 0 := by
    have : (2 : ℝ) ≤ N := by exact_mod_cast hN
    linarith
  simp only [hj', hpr]
  generalize pr * bf = R
  have : (m : ℝ) / (N * (2 * R / ((N : ℝ) - 1))) * wavel = m * wavel / (2 * R) * (1 - 1 / (N : ℝ)) := by
    rw [show (N : ℝ) * (2 * R / ((N : ℝ) - 1)) = (2 * R) / (((N : ℝ) - 1) / N) by
      rw [div_div_eq_mul_div, mul_div_assoc']
      ring]
    rw [div_div_eq_mul_div, show (1 : ℝ) - 1 / N = ((N : ℝ) - 1) / N by field_simp]
    ring
  exact ⟨this, this⟩

/-- **C96** the pixel `n` rows and `m` columns from the centre. -/
theorem C96_pixel (I K : List ℝ) (dz wavel pr bf : ℝ) (illum : ∀ ι : Type, Illum ι) (tel : ∀ ι : Type, TelGeo ι)
    (A : ℝ × ℝ → ℂ) (h0 : 0 < pr) (hbf : 0 < bf) (hw : wavel ≠ 0) (hpr : ∀ ι, (tel ι).pr = pr)
    (hA : Spec.IsAperture A I K dz wavel illum tel) (hR : Spec.Piecewise A (pr * bf))
    (N : ℕ → ℕ) (hN : Tendsto N atTop atTop) (P : ∀ k, Pattern (N k))
    (hP : ∀ k, radiationPattern I K dz wavel (illum _) (tel _) bf = .ok (P k)) (i j : ∀ k, Fin (N k)) (m n : ℤ)
    (hj : ∀ k, ((j k : ℕ) : ℤ) = (N k / 2 : ℕ) + m) (hi : ∀ k, ((i k : ℕ) : ℤ) = (N k / 2 : ℕ) + n) :
    Tendsto (fun k => (2 * (pr * bf) / ((N k : ℝ) - 1)) ^ 4 * ‖(P k).F (i k, j k)‖ ^ 2) atTop
      (𝓝 (‖Spec.fourierField A wavel (m * wavel / (2 * (pr * bf))) (n * wavel / (2 * (pr * bf)))‖ ^ 2)) := by
  have hlim : ∀ c : ℝ, Tendsto (fun k => c * (1 - 1 / (N k : ℝ))) atTop (𝓝 c) := by
    intro c
    have h1 : Tendsto (fun k => 1 / (N k : ℝ)) atTop (𝓝 0) :=
      tendsto_const_nhds.div_atTop (tendsto_natCast_atTop_atTop.comp hN)
    have h2 := (tendsto_const_nhds (x := c)).mul ((tendsto_const_nhds (x := (1 : ℝ))).sub h1)
    simpa using h2
  have h1 := C96_converges I K dz wavel pr bf illum tel A h0 hbf hw hpr hA hR N hN P hP i j
    (m * wavel / (2 * (pr * bf))) (n * wavel / (2 * (pr * bf)))
    ((hlim _).congr fun k => ((pixel_coord (hpr _) (hP k) (j k) m (hj k)).1).symm)
    ((hlim _).congr fun k => ((pixel_coord (hpr _) (hP k) (i k) n (hi k)).2).symm)
  refine (h1.norm.pow 2).congr fun k => ?_
  rw [norm_mul, norm_mul, mul_pow, mul_pow, Complex.norm_real]
  have he : ∀ t : ℝ, ‖Complex.exp (2 * Real.pi * Complex.I * (t : ℂ))‖ = 1 := by
    intro t
    rw [show 2 * Real.pi * Complex.I * (t : ℂ) = ((2 * Real.pi * t : ℝ) : ℂ) * Complex.I by push_cast; ring]
    exact Complex.norm_exp_ofReal_mul_I _
  rw [he, one_pow, mul_one, Real.norm_eq_abs, sq_abs]
  ring

/-- **C96** the beam relative to its centre, which needs no scale. -/
theorem C96_beam (I K : List ℝ) (dz wavel pr bf : ℝ) (illum : ∀ ι : Type, Illum ι) (tel : ∀ ι : Type, TelGeo ι)
    (A : ℝ × ℝ → ℂ) (h0 : 0 < pr) (hbf : 0 < bf) (hw : wavel ≠ 0) (hpr : ∀ ι, (tel ι).pr = pr)
    (hA : Spec.IsAperture A I K dz wavel illum tel) (hR : Spec.Piecewise A (pr * bf))
    (hc : Spec.fourierField A wavel 0 0 ≠ 0) (N : ℕ → ℕ) (hN : Tendsto N atTop atTop) (P : ∀ k, Pattern (N k))
    (hP : ∀ k, radiationPattern I K dz wavel (illum _) (tel _) bf = .ok (P k)) (i j c : ∀ k, Fin (N k)) (m n : ℤ)
    (hj : ∀ k, ((j k : ℕ) : ℤ) = (N k / 2 : ℕ) + m) (hi : ∀ k, ((i k : ℕ) : ℤ) = (N k / 2 : ℕ) + n)
    (hcen : ∀ k, (c k : ℕ) = N k / 2) :
    Tendsto (fun k => ‖(P k).F (i k, j k)‖ ^ 2 / ‖(P k).F (c k, c k)‖ ^ 2) atTop
      (𝓝 (‖Spec.fourierField A wavel (m * wavel / (2 * (pr * bf))) (n * wavel / (2 * (pr * bf)))‖ ^ 2 /
        ‖Spec.fourierField A wavel 0 0‖ ^ 2)) := by
  have h1 := C96_pixel I K dz wavel pr bf illum tel A h0 hbf hw hpr hA hR N hN P hP i j m n hj hi
  have h2 := C96_pixel I K dz wavel pr bf illum tel A h0 hbf hw hpr hA hR N hN P hP c c 0 0
    (fun k => by rw [hcen]; simp) (fun k => by rw [hcen]; simp)
  simp only [Int.cast_zero, zero_mul, zero_div] at h2
  refine (h1.div h2 (pow_ne_zero _ (norm_ne_zero_iff.2 hc))).congr fun k => ?_
  have hN2 := (radiationPattern_ok (hP k)).1
  have hne : (2 * (pr * bf) / ((N k : ℝ) - 1)) ^ 4 ≠ 0 := by
    refine pow_ne_zero _ (div_ne_zero (by positivity) ?_)
    have : (2 : ℝ) ≤ N k := by exact_mod_cast hN2
    linarith
  simp only [Pi.div_apply]
  rw [mul_div_mul_left _ _ hne]

/-! ## The apertures of the package -/

/-- The edge of the set has no area. -/
def ThinEdge (S : Set (ℝ × ℝ)) : Prop := volume (frontier S) = 0

theorem thin_compl {S : Set (ℝ × ℝ)} (h : ThinEdge S) : ThinEdge Sᶜ := by
  unfold ThinEdge
  rw [frontier_compl]
  exact h

theorem thin_inter {S T : Set (ℝ × ℝ)} (h : ThinEdge S) (h' : ThinEdge T) : ThinEdge (S ∩ T) := by
  refine measure_mono_null (frontier_inter_subset S T) (measure_union_null ?_ ?_)
  · exact measure_mono_null Set.inter_subset_left h
  · exact measure_mono_null Set.inter_subset_right h'

theorem thin_union {S T : Set (ℝ × ℝ)} (h : ThinEdge S) (h' : ThinEdge T) : ThinEdge (S ∪ T) := by
  have := thin_compl (thin_inter (thin_compl h) (thin_compl h'))
  rwa [Set.compl_inter, compl_compl, compl_compl] at this

theorem thin_lt {f g : ℝ × ℝ → ℝ} (hf : Continuous f) (hg : Continuous g) (h : volume {p | f p = g p} = 0) :
    ThinEdge {p | f p < g p} :=
  measure_mono_null (frontier_lt_subset_eq hf hg) h

/-- A closed set with finite columns has no area. -/
theorem null_columns {S : Set (ℝ × ℝ)} (hS : IsClosed S) (h : ∀ x, {y | (x, y) ∈ S}.Finite) : volume S = 0 := by
  rw [Measure.volume_eq_prod, Measure.measure_prod_null hS.measurableSet]
  exact Eventually.of_forall fun x => (h x).measure_zero _

theorem null_swap {S : Set (ℝ × ℝ)} (h : volume (Prod.swap ⁻¹' S) = 0) : volume S = 0 := by
  have := (Measure.measurePreserving_swap (μ := (volume : Measure ℝ)) (ν := (volume : Measure ℝ))).measure_preimage_emb
    MeasurableEquiv.prodComm.measurableEmbedding S
  rw [Measure.volume_eq_prod] at h ⊢
  rw [← this]
  exact h

theorem null_circle (x0 y0 c : ℝ) : volume {p : ℝ × ℝ | (p.1 - x0) ^ 2 + (p.2 - y0) ^ 2 = c} = 0 := by
  refine null_columns (isClosed_eq (by fun_prop) (by fun_prop)) fun x => ?_
  refine Set.Finite.subset (Set.toFinite {y0 + Real.sqrt (c - (x - x0) ^ 2), y0 - Real.sqrt (c - (x - x0) ^ 2)}) ?_
  intro y hy
  have hy' : (y - y0) ^ 2 = c - (x - x0) ^ 2 := by
    have : (x - x0) ^ 2 + (y - y0) ^ 2 = c := hy
    linarith
  have h0 : 0 ≤ c - (x - x0) ^ 2 := hy' ▸ sq_nonneg _
  have : (y - y0 - Real.sqrt (c - (x - x0) ^ 2)) * (y - y0 + Real.sqrt (c - (x - x0) ^ 2)) = 0 := by
    have := Real.sq_sqrt h0
    nlinarith
  rcases mul_eq_zero.1 this with e | e
  · left; linarith
  · right; simp only [Set.mem_singleton_iff]; linarith

theorem null_abs_snd {f : ℝ → ℝ} (hf : Continuous f) : volume {p : ℝ × ℝ | |p.2| = f p.1} = 0 := by
  refine null_columns (isClosed_eq (by fun_prop) (by fun_prop)) fun x => ?_
  refine Set.Finite.subset (Set.toFinite {f x, -f x}) ?_
  intro y hy
  have hy' : |y| = f x := hy
  rcases abs_choice y with e | e
  · left; linarith
  · right; simp only [Set.mem_singleton_iff]; linarith

theorem null_abs_fst {f : ℝ → ℝ} (hf : Continuous f) : volume {p : ℝ × ℝ | |p.1| = f p.2} = 0 :=
  null_swap (null_abs_snd hf)

theorem thin_visible (pr sr a L : ℝ) : ThinEdge {p | Spec.visible pr sr a L p.1 p.2} := by
  have c1 : ∀ c : ℝ, volume {p : ℝ × ℝ | p.1 ^ 2 + p.2 ^ 2 = c} = 0 := fun c => by
    simpa using null_circle 0 0 c
  have b1 : ThinEdge {p : ℝ × ℝ | sr ^ 2 < p.1 ^ 2 + p.2 ^ 2} := by
    refine thin_lt (by fun_prop) (by fun_prop) ?_
    simpa only [eq_comm] using c1 (sr ^ 2)
  have b2 : ThinEdge {p : ℝ × ℝ | p.1 ^ 2 + p.2 ^ 2 < pr ^ 2} := thin_lt (by fun_prop) (by fun_prop) (c1 _)
  have ax : ∀ c : ℝ, ThinEdge {p : ℝ × ℝ | |p.1| < c} := fun c =>
    thin_lt (by fun_prop) (by fun_prop) (null_abs_fst (f := fun _ => c) continuous_const)
  have ay : ∀ c : ℝ, ThinEdge {p : ℝ × ℝ | |p.2| < c} := fun c =>
    thin_lt (by fun_prop) (by fun_prop) (null_abs_snd (f := fun _ => c) continuous_const)
  have := thin_inter b1 (thin_inter b2 (thin_inter (thin_compl (thin_inter (ax (sr + L)) (ay a)))
    (thin_compl (thin_inter (ay (sr + L)) (ax a)))))
  exact this

theorem thin_shade (alpha : ℝ) : ThinEdge {p : ℝ × ℝ | Spec.shade alpha p.1 p.2} ∧
    ThinEdge {p : ℝ × ℝ | Spec.shade alpha p.2 p.1} := by
  have ax : ∀ c : ℝ, ThinEdge {p : ℝ × ℝ | |p.1| < c} := fun c =>
    thin_lt (by fun_prop) (by fun_prop) (null_abs_fst (f := fun _ => c) continuous_const)
  have ay : ∀ c : ℝ, ThinEdge {p : ℝ × ℝ | |p.2| < c} := fun c =>
    thin_lt (by fun_prop) (by fun_prop) (null_abs_snd (f := fun _ => c) continuous_const)
  have ax' : ∀ c : ℝ, ThinEdge {p : ℝ × ℝ | c < |p.1|} := fun c =>
    thin_lt (by fun_prop) (by fun_prop) (by
      simpa only [eq_comm] using null_abs_fst (f := fun _ => c) continuous_const)
  have ay' : ∀ c : ℝ, ThinEdge {p : ℝ × ℝ | c < |p.2|} := fun c =>
    thin_lt (by fun_prop) (by fun_prop) (by
      simpa only [eq_comm] using null_abs_snd (f := fun _ => c) continuous_const)
  have wy : ThinEdge {p : ℝ × ℝ | |p.2| < 1 + Spec.shadeD alpha / (Spec.shadeC alpha - 23.25) * (|p.1| - 23.25)} :=
    thin_lt (by fun_prop) (by fun_prop) (null_abs_snd
      (f := fun x => 1 + Spec.shadeD alpha / (Spec.shadeC alpha - 23.25) * (|x| - 23.25)) (by fun_prop))
  have wx : ThinEdge {p : ℝ × ℝ | |p.1| < 1 + Spec.shadeD alpha / (Spec.shadeC alpha - 23.25) * (|p.2| - 23.25)} :=
    thin_lt (by fun_prop) (by fun_prop) (null_abs_fst
      (f := fun x => 1 + Spec.shadeD alpha / (Spec.shadeC alpha - 23.25) * (|x| - 23.25)) (by fun_prop))
  exact ⟨thin_union (thin_inter (ax' 23.25) (thin_inter (ax _) wy)) (ax' _),
    thin_union (thin_inter (ay' 23.25) (thin_inter (ay _) wx)) (ay' _)⟩

/-- A function that is 1 on the set and 0 outside is continuous off its edge. -/
theorem mask_continuous {S : Set (ℝ × ℝ)} (hS : ThinEdge S) {b : ℝ × ℝ → ℝ} (h1 : ∀ p ∈ S, b p = 1)
    (h0 : ∀ p ∉ S, b p = 0) : ∀ᵐ p, ContinuousAt b p := by
  have : ∀ᵐ p, p ∉ frontier S := by
    rw [ae_iff]
    simpa [ThinEdge] using hS
  filter_upwards [this] with p hp
  by_cases hi : p ∈ interior S
  · have : b =ᶠ[𝓝 p] fun _ => 1 := by
      filter_upwards [mem_interior_iff_mem_nhds.1 hi] with q hq using h1 q hq
    exact continuousAt_const.congr this.symm
  · have hc : p ∈ interior Sᶜ := by
      rw [interior_compl]
      intro hcl
      exact hp ⟨hcl, hi⟩
    have : b =ᶠ[𝓝 p] fun _ => 0 := by
      filter_upwards [mem_interior_iff_mem_nhds.1 hc] with q hq using h0 q hq
    exact continuousAt_const.congr this.symm

/-- A blockage of the package: a function of the point, 0 or 1, zero outside the disc. -/
def GoodBlock (b : ℝ × ℝ → ℝ) (pr : ℝ) : Prop :=
  (∀ p, b p = 0 ∨ b p = 1) ∧ (∀ p : ℝ × ℝ, b p ≠ 0 → p.1 ^ 2 + p.2 ^ 2 < pr ^ 2) ∧ ∀ᵐ p, ContinuousAt b p

theorem good_manual (pr sr a L : ℝ) : ∃ b, GoodBlock b pr ∧
    ∀ (ι : Type) (x y : ι → ℝ), blockManual pr sr a L x y = .ok fun q => b (x q, y q) := by
  classical
  let b : ℝ × ℝ → ℝ := fun p => if Spec.visible pr sr a L p.1 p.2 then 1 else 0
  refine ⟨b, ⟨fun p => ?_, fun p hp => ?_, ?_⟩, fun ι x y => ?_⟩
  · dsimp only [b]
    split_ifs <;> simp
  · dsimp only [b] at hp
    split_ifs at hp with h
    · exact h.2.1
    · exact absurd rfl hp
  · exact mask_continuous (thin_visible pr sr a L) (fun p hp => if_pos hp) fun p hp => if_neg hp
  · obtain ⟨B, hB, hv⟩ := C24_value pr sr a L x y
    rw [hB]
    congr 1
    funext q
    dsimp only [b]
    split_ifs with h
    · exact (hv q).1 h
    · exact (hv q).2 h

theorem good_effelsberg (alpha : ℝ) (h0 : 0 < alpha) (h1 : alpha < Real.pi / 2) : ∃ b, GoodBlock b 50 ∧
    ∀ (ι : Type) (x y : ι → ℝ), blockEffelsberg alpha x y = .ok fun q => b (x q, y q) := by
  classical
  let S : Set (ℝ × ℝ) := {p | Spec.visible 50 3.25 1 20 p.1 p.2 ∧ ¬ Spec.shade alpha p.1 p.2 ∧ ¬ Spec.shade alpha p.2 p.1}
  let b : ℝ × ℝ → ℝ := fun p => if p ∈ S then 1 else 0
  refine ⟨b, ⟨fun p => ?_, fun p hp => ?_, ?_⟩, fun ι x y => ?_⟩
  · dsimp only [b]
    split_ifs <;> simp
  · dsimp only [b] at hp
    split_ifs at hp with h
    · exact h.1.2.1
    · exact absurd rfl hp
  · refine mask_continuous (S := S) ?_ (fun p hp => if_pos hp) fun p hp => if_neg hp
    obtain ⟨s1, s2⟩ := thin_shade alpha
    exact thin_inter (thin_visible _ _ _ _) (thin_inter (thin_compl s1) (thin_compl s2))
  · obtain ⟨B, hB, hv⟩ := C25_value alpha h0 h1 x y
    rw [hB]
    congr 1
    funext q
    dsimp only [b]
    split_ifs with h
    · exact (hv q).1 h
    · exact (hv q).2 h

/-- An illumination of the package: a function of the point, bounded on the square. -/
def GoodIllum (e : ℝ × ℝ → ℝ) (pr : ℝ) : Prop :=
  (∃ M, ∀ p : ℝ × ℝ, |p.1| ≤ pr → |p.2| ≤ pr → |e p| ≤ M) ∧ ∀ᵐ p, ContinuousAt e p

theorem good_continuous {e : ℝ × ℝ → ℝ} (he : Continuous e) (pr : ℝ) : GoodIllum e pr := by
  refine ⟨?_, ae_of_all _ fun p => he.continuousAt⟩
  obtain ⟨M, hM⟩ := ((isCompact_Icc (a := -pr) (b := pr)).prod (isCompact_Icc (a := -pr) (b := pr))).exists_bound_of_continuousOn
    he.continuousOn
  exact ⟨M, fun p h1 h2 => hM p ⟨abs_le.1 h1, abs_le.1 h2⟩⟩

theorem good_gauss (i c x0 y0 pr : ℝ) (mid : List ℝ) : ∃ e, GoodIllum e pr ∧
    ∀ (ι : Type) (x y : ι → ℝ), illumGauss x y (i :: c :: (mid ++ [x0, y0])) pr = .ok fun q => e (x q, y q) := by
  refine ⟨fun p => gaussAt i (.bare c) (.bare x0) (.bare y0) pr p.1 p.2, good_continuous ?_ pr, fun ι x y =>
    gauss_ignores_middle x y i c x0 y0 pr mid⟩
  unfold gaussAt
  fun_prop

theorem good_parabolic (i c q x0 y0 pr : ℝ) (hpr : 0 < pr) (hq : 0 < q) : ∃ e, GoodIllum e pr ∧
    ∀ (ι : Type) (x y : ι → ℝ), illumParabolic x y [i, c, q, x0, y0] pr = .ok fun p => e (x p, y p) := by
  refine ⟨fun p => parabolicAt i (.bare c) q (.bare x0) (.bare y0) pr p.1 p.2, ?_, fun ι x y =>
    (parabolic_array x y _ pr).1 i c q x0 y0 rfl⟩
  by_cases hk : ∃ k : ℤ, q = k
  · obtain ⟨k, rfl⟩ := hk
    have hk0 : 0 < k := by exact_mod_cast hq
    obtain ⟨n, rfl⟩ := Int.eq_ofNat_of_zero_le hk0.le
    refine good_continuous ?_ pr
    have : (fun p : ℝ × ℝ => parabolicAt i (.bare c) ((n : ℤ) : ℝ) (.bare x0) (.bare y0) pr p.1 p.2) =
        fun p => i * (taper (.bare c) + (1 - taper (.bare c)) *
          (1 - ((p.1 - offset (.bare x0)) ^ 2 + (p.2 - offset (.bare y0)) ^ 2) / pr ^ 2) ^ n) := by
      funext p
      rw [Int.cast_natCast]
      exact pedestal_outside_int i (.bare c) n (by exact_mod_cast hk0) (.bare x0) (.bare y0) pr hpr p.1 p.2
    rw [this]
    fun_prop
  · have hk' : ∀ k : ℤ, q ≠ k := fun k e => hk ⟨k, e⟩
    have inside : ∀ p : ℝ × ℝ, (p.1 - x0) ^ 2 + (p.2 - y0) ^ 2 ≤ pr ^ 2 →
        parabolicAt i (.bare c) q (.bare x0) (.bare y0) pr p.1 p.2 = i * (taper (.bare c) + (1 - taper (.bare c)) *
          (1 - ((p.1 - x0) ^ 2 + (p.2 - y0) ^ 2) / pr ^ 2) ^ q) := by
      intro p hp
      have hs : Real.sqrt ((p.1 - x0) ^ 2 + (p.2 - y0) ^ 2) ^ 2 = (p.1 - x0) ^ 2 + (p.2 - y0) ^ 2 :=
        Real.sq_sqrt (by positivity)
      rw [pedestal_value i (.bare c) q (.bare x0) (.bare y0) pr p.1 p.2 _ hpr hq (Real.sqrt_nonneg _) hs
        (by rw [← Real.sqrt_sq hpr.le]; exact Real.sqrt_le_sqrt hp)]
      unfold Spec.pedestal
      rw [div_pow, hs]
    have outside : ∀ p : ℝ × ℝ, pr ^ 2 < (p.1 - x0) ^ 2 + (p.2 - y0) ^ 2 →
        parabolicAt i (.bare c) q (.bare x0) (.bare y0) pr p.1 p.2 = 0 := fun p hp =>
      pedestal_outside i (.bare c) q (.bare x0) (.bare y0) pr hpr hk' p.1 p.2 hp
    constructor
    · refine ⟨|i| * (|taper (.bare c)| + |1 - taper (.bare c)|), fun p _ _ => ?_⟩
      rcases le_or_gt ((p.1 - x0) ^ 2 + (p.2 - y0) ^ 2) (pr ^ 2) with h | h
      · dsimp only
        rw [inside p h, abs_mul]
        refine mul_le_mul_of_nonneg_left ((abs_add_le _ _).trans (add_le_add le_rfl ?_)) (abs_nonneg _)
        rw [abs_mul]
        refine mul_le_of_le_one_right (abs_nonneg _) ?_
        have hb : 0 ≤ 1 - ((p.1 - x0) ^ 2 + (p.2 - y0) ^ 2) / pr ^ 2 := by
          rw [sub_nonneg, div_le_one (by positivity)]
          exact h
        rw [abs_of_nonneg (Real.rpow_nonneg hb _)]
        refine Real.rpow_le_one hb ?_ hq.le
        have : 0 ≤ ((p.1 - x0) ^ 2 + (p.2 - y0) ^ 2) / pr ^ 2 := by positivity
        linarith
      · dsimp only
        rw [outside p h, abs_zero]
        positivity
    · have hn : ∀ᵐ p : ℝ × ℝ, (p.1 - x0) ^ 2 + (p.2 - y0) ^ 2 ≠ pr ^ 2 := by
        rw [ae_iff]
        simpa using null_circle x0 y0 (pr ^ 2)
      filter_upwards [hn] with p hp
      have hcont : Continuous fun p : ℝ × ℝ => (p.1 - x0) ^ 2 + (p.2 - y0) ^ 2 := by fun_prop
      rcases lt_or_gt_of_ne hp with h | h
      · have ev : ∀ᶠ s : ℝ × ℝ in 𝓝 p, (s.1 - x0) ^ 2 + (s.2 - y0) ^ 2 < pr ^ 2 :=
          hcont.continuousAt.eventually (gt_mem_nhds h)
        have hf : ContinuousAt (fun p : ℝ × ℝ => i * (taper (.bare c) + (1 - taper (.bare c)) *
            (1 - ((p.1 - x0) ^ 2 + (p.2 - y0) ^ 2) / pr ^ 2) ^ q)) p := by
          refine continuousAt_const.mul (continuousAt_const.add (continuousAt_const.mul ?_))
          refine ContinuousAt.rpow_const ?_ (Or.inr hq.le)
          exact (by fun_prop : Continuous fun p : ℝ × ℝ => 1 - ((p.1 - x0) ^ 2 + (p.2 - y0) ^ 2) / pr ^ 2).continuousAt
        exact hf.congr (ev.mono fun s hs => (inside s hs.le).symm)
      · have ev : ∀ᶠ s : ℝ × ℝ in 𝓝 p, pr ^ 2 < (s.1 - x0) ^ 2 + (s.2 - y0) ^ 2 :=
          hcont.continuousAt.eventually (lt_mem_nhds h)
        exact continuousAt_const.congr (ev.mono fun s hs => (outside s hs).symm)

theorem polar_continuous : ∀ᵐ p : ℝ × ℝ, ContinuousAt (fun p : ℝ × ℝ => cart2pol p.1 p.2) p := by
  have hn : ∀ᵐ p : ℝ × ℝ, p.2 ≠ 0 := by
    rw [ae_iff]
    simpa using null_snd 0
  filter_upwards [hn] with p hp
  unfold cart2pol
  refine ContinuousAt.prodMk (by fun_prop) ?_
  unfold arctan2
  have hm : (⟨p.1, p.2⟩ : ℂ) ∈ Complex.slitPlane := Or.inr hp
  have hc : Continuous fun p : ℝ × ℝ => (⟨p.1, p.2⟩ : ℂ) := by
    have : (fun p : ℝ × ℝ => (⟨p.1, p.2⟩ : ℂ)) = fun p => (p.1 : ℂ) + (p.2 : ℂ) * Complex.I := by
      funext p
      exact Complex.mk_eq_add_mul_I _ _
    rw [this]
    fun_prop
  exact ContinuousAt.comp (f := fun p : ℝ × ℝ => (⟨p.1, p.2⟩ : ℂ)) (Complex.continuousAt_arg hm) hc.continuousAt

theorem wfVal_continuous (n : ℕ) (K : List ℝ) : Continuous fun p : ℝ × ℝ => wfVal n K p.1 p.2 := by
  unfold wfVal
  refine continuous_finset_sum _ fun i _ => continuous_finset_sum _ fun k hk => ?_
  exact continuous_const.mul (Uv_continuous i k (by have := Finset.mem_range.1 hk; omega))

theorem good_aperture (I K : List ℝ) (dz wavel pr bf : ℝ) (illum : ∀ ι : Type, Illum ι) (tel : ∀ ι : Type, TelGeo ι)
    (hbf : 1 ≤ bf) (h0 : 0 < pr) (hpr : ∀ ι, (tel ι).pr = pr) (n : ℕ) (hK : K.length = (n + 1) * (n + 2) / 2)
    (b e o : ℝ × ℝ → ℝ) (hb : GoodBlock b pr) (he : GoodIllum e pr) (ho : Continuous o)
    (hb' : ∀ (ι : Type) (x y : ι → ℝ), (tel ι).block x y = .ok fun q => b (x q, y q))
    (he' : ∀ (ι : Type) (x y : ι → ℝ), illum ι x y I pr = .ok fun q => e (x q, y q))
    (ho' : ∀ (ι : Type) (x y : ι → ℝ), (tel ι).opd x y dz = .ok fun q => o (x q, y q)) :
    ∃ A, Spec.IsAperture A I K dz wavel illum tel ∧ Spec.Piecewise A (pr * bf) := by
  have hK' : K.length = tri (n + 1) := by rw [hK, tri]
  refine ⟨fun p => ((b p * e p : ℝ) : ℂ) * Complex.exp ((((wfVal n K ((cart2pol p.1 p.2).1 / pr) (cart2pol p.1 p.2).2 +
    o p / wavel) * 2 * Real.pi : ℝ) : ℂ) * Complex.I), fun ι x y => ?_, ?_, ?_, ?_⟩
  · refine aperture_ok_iff.2 ⟨_, _, _, _, hb' ι x y, wavefront_ok _ _ K n hK', ho' ι x y, by rw [hpr]; exact he' ι x y, ?_⟩
    rw [hpr]
  · obtain ⟨M, hM⟩ := he.1
    refine ⟨max M 0, fun p => ?_⟩
    rw [norm_mul, Complex.norm_exp_ofReal_mul_I, mul_one, Complex.norm_real, Real.norm_eq_abs, abs_mul]
    rcases hb.1 p with h | h
    · rw [h, abs_zero, zero_mul]; exact le_max_right _ _
    · rw [h, abs_one, one_mul]
      have hd := hb.2.1 p (by rw [h]; exact one_ne_zero)
      refine (hM p ?_ ?_).trans (le_max_left _ _)
      · exact abs_le_of_sq_le_sq (by nlinarith [sq_nonneg p.2]) h0.le
      · exact abs_le_of_sq_le_sq (by nlinarith [sq_nonneg p.1]) h0.le
  · intro p hp
    have : b p = 0 := by
      by_contra hne
      have hd := hb.2.1 p hne
      have hle : pr ≤ pr * bf := le_mul_of_one_le_right h0.le hbf
      rcases hp with h | h
      · have := abs_le_of_sq_le_sq (a := p.1) (b := pr) (by nlinarith [sq_nonneg p.2]) h0.le
        linarith
      · have := abs_le_of_sq_le_sq (a := p.2) (b := pr) (by nlinarith [sq_nonneg p.1]) h0.le
        linarith
    simp [this]
  · filter_upwards [hb.2.2, he.2, polar_continuous] with p h1 h2 h3
    refine ContinuousAt.mul (Complex.continuous_ofReal.continuousAt.comp (h1.mul h2)) ?_
    refine Complex.continuous_exp.continuousAt.comp (ContinuousAt.mul (Complex.continuous_ofReal.continuousAt.comp ?_)
      continuousAt_const)
    refine ((ContinuousAt.add ?_ (ho.continuousAt.div_const _)).mul continuousAt_const).mul continuousAt_const
    have hpair : ContinuousAt (fun p : ℝ × ℝ => ((cart2pol p.1 p.2).1 / pr, (cart2pol p.1 p.2).2)) p :=
      ((continuous_fst.continuousAt.comp h3).div_const _).prodMk (continuous_snd.continuousAt.comp h3)
    exact ContinuousAt.comp (f := fun p : ℝ × ℝ => ((cart2pol p.1 p.2).1 / pr, (cart2pol p.1 p.2).2))
      (g := fun s : ℝ × ℝ => wfVal n K s.1 s.2) (wfVal_continuous n K).continuousAt hpair

/-- The telescopes and illuminations of the package, with coefficients for which they are defined. -/
inductive Spec.Shipped : ℝ → List ℝ → (∀ ι : Type, Illum ι) → (∀ ι : Type, TelGeo ι) → Prop
  | manualParabolic (pr sr a L Fp F i c q x0 y0 : ℝ) (hq : 0 < q) :
      Spec.Shipped pr [i, c, q, x0, y0] (fun _ => illumParabolic) fun _ => manualTel pr sr a L Fp F
  | manualGauss (pr sr a L Fp F i c x0 y0 : ℝ) (mid : List ℝ) :
      Spec.Shipped pr (i :: c :: (mid ++ [x0, y0])) (fun _ => illumGauss) fun _ => manualTel pr sr a L Fp F
  | effelsbergParabolic (alpha i c q x0 y0 : ℝ) (h0 : 0 < alpha) (h1 : alpha < Real.pi / 2) (hq : 0 < q) :
      Spec.Shipped 50 [i, c, q, x0, y0] (fun _ => illumParabolic) fun _ => ⟨blockEffelsberg alpha, opdEffelsberg, 50⟩
  | effelsbergGauss (alpha i c x0 y0 : ℝ) (mid : List ℝ) (h0 : 0 < alpha) (h1 : alpha < Real.pi / 2) :
      Spec.Shipped 50 (i :: c :: (mid ++ [x0, y0])) (fun _ => illumGauss) fun _ =>
        ⟨blockEffelsberg alpha, opdEffelsberg, 50⟩

theorem opdAt_continuous (Fp F dz : ℝ) : Continuous fun p : ℝ × ℝ => opdAt Fp F p.1 p.2 dz := by
  unfold opdAt
  refine continuous_const.mul (Continuous.add ?_ ?_)
  · refine Continuous.div (by fun_prop) (by fun_prop) fun p => ?_
    positivity
  · refine Continuous.div (by fun_prop) (by fun_prop) fun p => ?_
    positivity

/-- **C96** the apertures of the package have a Fourier integral: bounded, zero outside the box, and continuous but
for lines and circles. -/
theorem C96_shipped (I K : List ℝ) (dz wavel pr bf : ℝ) (illum : ∀ ι : Type, Illum ι) (tel : ∀ ι : Type, TelGeo ι)
    (h : Spec.Shipped pr I illum tel) (h0 : 0 < pr) (hbf : 1 ≤ bf) (n : ℕ) (hK : K.length = (n + 1) * (n + 2) / 2) :
    (∀ ι, (tel ι).pr = pr) ∧ ∃ A, Spec.IsAperture A I K dz wavel illum tel ∧ Spec.Piecewise A (pr * bf) := by
  have eff : ∀ (ι : Type) (x y : ι → ℝ), opdEffelsberg x y dz = .ok fun q => opdAt 30 387.39435 (x q) (y q) dz :=
    fun ι x y => rfl
  cases h with
  | manualParabolic pr sr a L Fp F i c q x0 y0 hq =>
    obtain ⟨b, hb, hb'⟩ := good_manual pr sr a L
    obtain ⟨e, he, he'⟩ := good_parabolic i c q x0 y0 pr h0 hq
    exact ⟨fun _ => rfl, good_aperture _ K dz wavel pr bf _ _ hbf h0 (fun _ => rfl) n hK b e _ hb he
      (opdAt_continuous Fp F dz) hb' he' fun ι x y => rfl⟩
  | manualGauss pr sr a L Fp F i c x0 y0 mid =>
    obtain ⟨b, hb, hb'⟩ := good_manual pr sr a L
    obtain ⟨e, he, he'⟩ := good_gauss i c x0 y0 pr mid
    exact ⟨fun _ => rfl, good_aperture _ K dz wavel pr bf _ _ hbf h0 (fun _ => rfl) n hK b e _ hb he
      (opdAt_continuous Fp F dz) hb' he' fun ι x y => rfl⟩
  | effelsbergParabolic alpha i c q x0 y0 ha0 ha1 hq =>
    obtain ⟨b, hb, hb'⟩ := good_effelsberg alpha ha0 ha1
    obtain ⟨e, he, he'⟩ := good_parabolic i c q x0 y0 50 h0 hq
    exact ⟨fun _ => rfl, good_aperture _ K dz wavel 50 bf _ _ hbf h0 (fun _ => rfl) n hK b e _ hb he
      (opdAt_continuous 30 387.39435 dz) hb' he' eff⟩
  | effelsbergGauss alpha i c x0 y0 mid ha0 ha1 =>
    obtain ⟨b, hb, hb'⟩ := good_effelsberg alpha ha0 ha1
    obtain ⟨e, he, he'⟩ := good_gauss i c x0 y0 50 mid
    exact ⟨fun _ => rfl, good_aperture _ K dz wavel 50 bf _ _ hbf h0 (fun _ => rfl) n hK b e _ hb he
      (opdAt_continuous 30 387.39435 dz) hb' he' eff⟩

/-- **C96** with the functions of the package: at every resolution of two or more there is a pattern, and the power
in the pixel `n` rows and `m` columns from the centre tends to that of the Fourier integral of the aperture. -/
theorem C96_package (I K : List ℝ) (dz wavel pr bf : ℝ) (illum : ∀ ι : Type, Illum ι) (tel : ∀ ι : Type, TelGeo ι)
    (h : Spec.Shipped pr I illum tel) (h0 : 0 < pr) (hbf : 1 ≤ bf) (hw : wavel ≠ 0) (o : ℕ)
    (hK : K.length = (o + 1) * (o + 2) / 2) :
    ∃ (A : ℝ × ℝ → ℂ) (P : ∀ N, Pattern (N + 2)), Spec.IsAperture A I K dz wavel illum tel ∧
      (∀ N, radiationPattern I K dz wavel (illum _) (tel _) bf = .ok (P N)) ∧
      ∀ (m n : ℤ) (i j : ∀ N, Fin (N + 2)) (N0 : ℕ), (∀ N ≥ N0, ((j N : ℕ) : ℤ) = ((N + 2) / 2 : ℕ) + m) →
        (∀ N ≥ N0, ((i N : ℕ) : ℤ) = ((N + 2) / 2 : ℕ) + n) →
        Tendsto (fun N => (2 * (pr * bf) / ((N + 2 : ℕ) - 1 : ℝ)) ^ 4 * ‖(P N).F (i N, j N)‖ ^ 2) atTop
          (𝓝 (‖Spec.fourierField A wavel (m * wavel / (2 * (pr * bf))) (n * wavel / (2 * (pr * bf)))‖ ^ 2)) := by
  obtain ⟨hpr, A, hA, hR⟩ := C96_shipped I K dz wavel pr bf illum tel h h0 hbf o hK
  have hex : ∀ N : ℕ, ∃ P : Pattern (N + 2), radiationPattern I K dz wavel (illum _) (tel _) bf = .ok P := fun N =>
    (C14_ok_iff I K dz wavel (N + 2) (by omega) (illum _) (tel _) bf).2 ⟨_, hA _ _ _⟩
  choose P hP using hex
  refine ⟨A, P, hA, hP, fun m n i j N0 hj hi => ?_⟩
  rw [← tendsto_add_atTop_iff_nat N0]
  exact C96_pixel I K dz wavel pr bf illum tel A h0 (by linarith) hw hpr hA hR (fun k => k + N0 + 2)
    (tendsto_atTop_mono (fun k => show k ≤ k + N0 + 2 by omega) tendsto_id) (fun k => P (k + N0)) (fun k => hP (k + N0))
    (fun k => i (k + N0)) (fun k => j (k + N0)) m n (fun k => hj _ (by omega)) fun k => hi _ (by omega)

/-! ## Cases -/

/-- The Effelsberg telescope of the scripts: 50 m, ten degrees of shade, order 5, a box of five radii, 9 mm. -/
example : ∃ (A : ℝ × ℝ → ℂ) (P : ∀ N, Pattern (N + 2)),
    (∀ N, radiationPattern [1, -14.5, 2, 0, 0] (List.replicate 21 0.1) 0.022 0.009 illumParabolic
      ⟨blockEffelsberg (Real.pi / 18), opdEffelsberg, 50⟩ 5 = .ok (P N)) ∧
    Tendsto (fun N => (2 * (50 * 5) / ((N + 2 : ℕ) - 1 : ℝ)) ^ 4 *
      ‖(P N).F (⟨(N + 2) / 2, by omega⟩, ⟨(N + 2) / 2, by omega⟩)‖ ^ 2) atTop (𝓝 (‖∫ p, A p‖ ^ 2)) := by
  obtain ⟨A, P, -, hP, h⟩ := C96_package [1, -14.5, 2, 0, 0] (List.replicate 21 0.1) 0.022 0.009 50 5
    (fun _ => illumParabolic) (fun _ => ⟨blockEffelsberg (Real.pi / 18), opdEffelsberg, 50⟩)
    (.effelsbergParabolic _ _ _ _ _ _ (by positivity) (by linarith [Real.pi_pos]) (by norm_num)) (by norm_num)
    (by norm_num) (by norm_num) 5 (by simp)
  refine ⟨A, P, hP, ?_⟩
  have := h 0 0 (fun N => ⟨(N + 2) / 2, by omega⟩) (fun N => ⟨(N + 2) / 2, by omega⟩) 0 (by simp) (by simp)
  simpa [Spec.fourierField] using this

/-- A disc without legs, without aberrations and in focus: the field on the axis is not zero, as `C96_beam` asks. -/
theorem disc_field : ∃ A, Spec.IsAperture A [1, -14, 0, 0] [0, 0, 0] 0 0.009 (fun _ => illumGauss)
      (fun _ => manualTel 50 0 0 0 30 387.39435) ∧ Spec.Piecewise A (50 * 5) ∧ Spec.fourierField A 0.009 0 0 ≠ 0 := by
  obtain ⟨-, A, hA, hR⟩ := C96_shipped [1, -14, 0, 0] [0, 0, 0] 0 0.009 50 5 (fun _ => illumGauss)
    (fun _ => manualTel 50 0 0 0 30 387.39435) (.manualGauss 50 0 0 0 30 387.39435 1 (-14) 0 0 []) (by norm_num)
    (by norm_num) 1 rfl
  refine ⟨A, hA, hR, ?_⟩
  let S : Set (ℝ × ℝ) := {p | 0 < p.1 ^ 2 + p.2 ^ 2} ∩ {p | p.1 ^ 2 + p.2 ^ 2 < 50 ^ 2}
  let g : ℝ × ℝ → ℝ := fun p => gaussAt 1 (.bare (-14)) (.bare 0) (.bare 0) 50 p.1 p.2
  have hS : IsOpen S := (isOpen_lt (by fun_prop) (by fun_prop)).inter (isOpen_lt (by fun_prop) (by fun_prop))
  have hg : Continuous g := by
    dsimp only [g]
    unfold gaussAt
    fun_prop
  have hpos : ∀ p, 0 < g p := fun p => (gauss_shape 1 (.bare (-14)) (.bare 0) (.bare 0) 50 one_pos (by norm_num)).1 p.1 p.2
  have hval : ∀ p, A p = ((S.indicator g p : ℝ) : ℂ) := by
    intro p
    have h1 := hA Unit (fun _ => p.1) fun _ => p.2
    obtain ⟨B, W, d, Ea, b1, b2, b3, b4, b5⟩ := aperture_ok_iff.1 h1
    obtain ⟨B', c1, c2⟩ := C24_value 50 0 0 0 (fun _ : Unit => p.1) fun _ => p.2
    have hB : B = B' := by
      have : blockManual 50 0 0 0 (fun _ : Unit => p.1) (fun _ => p.2) = .ok B := b1
      rw [c1, Except.ok.injEq] at this
      exact this.symm
    obtain ⟨o, ho, rfl⟩ := wavefront_ok_inv b2
    have hE : Ea = fun _ => g p := by
      have : illumGauss (fun _ : Unit => p.1) (fun _ => p.2) (1 :: -14 :: ([] ++ [0, 0])) 50 = .ok Ea := b4
      rw [gauss_ignores_middle, Except.ok.injEq] at this
      exact this.symm
    have hd : d = fun _ => 0 := by
      have : (.ok fun _ : Unit => opdAt 30 387.39435 p.1 p.2 0) = (.ok d : Py _) := b3
      rw [Except.ok.injEq] at this
      rw [← this]
      funext q
      simp [opdAt]
    have hW : ∀ r t, wfVal o [0, 0, 0] r t = 0 := by
      intro r t
      have := wfVal_smul o [0, 0, 0] 0 r t
      simpa using this
    have b6 := congrFun b5 ()
    have hAp : A p = ((B' () * g p : ℝ) : ℂ) := by
      show A (p.1, p.2) = _
      rw [show A (p.1, p.2) = _ from b6, hB, hE, hd]
      simp [hW]
    rw [hAp]
    by_cases hp : p ∈ S
    · rw [Set.indicator_of_mem hp, (c2 ()).1, one_mul]
      refine ⟨by simpa using hp.1, hp.2, fun h => ?_, fun h => ?_⟩
      · exact absurd h.2 (not_lt.2 (abs_nonneg _))
      · exact absurd h.2 (not_lt.2 (abs_nonneg _))
    · rw [Set.indicator_of_notMem hp, (c2 ()).2, zero_mul]
      intro h
      exact hp ⟨by simpa using h.1, h.2.1⟩
  have hfar : Spec.fourierField A 0.009 0 0 = ((∫ p, S.indicator g p : ℝ) : ℂ) := by
    unfold Spec.fourierField
    rw [← integral_complex_ofReal]
    refine integral_congr_ae (Eventually.of_forall fun p => ?_)
    simp [hval]
  rw [hfar, Complex.ofReal_ne_zero]
  refine ne_of_gt ((integral_pos_iff_support_of_nonneg (fun p => Set.indicator_nonneg (fun q _ => (hpos q).le) p) ?_).2 ?_)
  · rw [integrable_indicator_iff hS.measurableSet]
    refine IntegrableOn.mono_set (hg.continuousOn.integrableOn_compact
      ((isCompact_Icc (a := (-50 : ℝ)) (b := 50)).prod (isCompact_Icc (a := (-50 : ℝ)) (b := 50)))) ?_
    rintro p ⟨-, hp⟩
    have hp' : p.1 ^ 2 + p.2 ^ 2 < 50 ^ 2 := hp
    exact ⟨abs_le.1 (abs_le_of_sq_le_sq (by nlinarith [sq_nonneg p.2]) (by norm_num)),
      abs_le.1 (abs_le_of_sq_le_sq (by nlinarith [sq_nonneg p.1]) (by norm_num))⟩
  · have : Function.support (S.indicator g) = S := by
      rw [Set.support_indicator, Set.inter_eq_left]
      exact fun p _ => (hpos p).ne'
    rw [this]
    exact hS.measure_pos volume ⟨(1, 1), by show (0 : ℝ) < 1 ^ 2 + 1 ^ 2; norm_num,
      by show (1 : ℝ) ^ 2 + 1 ^ 2 < 50 ^ 2; norm_num⟩

end Verif.Props
