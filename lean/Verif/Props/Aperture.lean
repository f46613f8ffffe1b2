import Verif.Lemmas.Radiation
import Verif.Model.Illum
import Verif.Model.Telgeometry
import Verif.Props.Geometry
import Verif.Props.Wavefront
import Verif.Props.Zernike
import Verif.Lemmas.Fl

/-! # C13 - C19: aperture distribution and radiation pattern -/

namespace Verif.Props

open Verif Verif.Np Verif.Zernike Verif.Aperture Verif.Fourier Verif.Telgeometry Finset

theorem wavefront_ok_inv {ι : Type} {rho theta : ι → ℝ} {K : List ℝ} {W : ι → ℝ}
    (h : wavefront rho theta K = .ok W) :
    ∃ n : ℕ, K.length = tri (n + 1) ∧ W = fun q => wfVal n K (rho q) (theta q) := by
  have hne : K ≠ [] := by
    rintro rfl
    rw [wavefront_empty] at h
    cases h
  obtain ⟨n, h1, h2⟩ := exists_tri K.length (List.length_pos_of_ne_nil hne)
  rcases h1.lt_or_eq with h1 | h1
  · rw [wavefront_index rho theta K n h1 h2] at h
    cases h
  · rw [wavefront_ok rho theta K n h1.symm] at h
    exact ⟨n, h1.symm, (Except.ok.inj h).symm⟩

/-! ## C13 -/

/-- **C13** the amplitude is `|B Ea|`, whatever the coefficients, the offset, the wavelength; the
aperture vanishes where it is blocked. -/
theorem C13_amplitude {ι : Type} (x y : ι → ℝ) (I K : List ℝ) (dz wavel : ℝ)
    (illum : Illum ι) (tel : TelGeo ι) (E : ι → ℂ)
    (h : aperture x y I K dz wavel illum tel = .ok E) :
    ∃ B Ea, tel.block x y = .ok B ∧ illum x y I tel.pr = .ok Ea ∧
      ∀ q, ‖E q‖ = |B q * Ea q| ∧ (B q = 0 → E q = 0) := by
  obtain ⟨B, W, d, Ea, h1, -, -, h4, rfl⟩ := aperture_ok_iff.1 h
  refine ⟨B, Ea, h1, h4, fun q => ⟨?_, fun h0 => ?_⟩⟩
  · rw [norm_mul, Complex.norm_exp_ofReal_mul_I, mul_one, Complex.norm_real, Real.norm_eq_abs]
  · simp [h0]

/-- **C13** the value: amplitude `B Ea` and phase `2π (W + δ / λ)`, with `W` the wavefront at
`(sqrt(x² + y²)/pr, arctan2(y, x))`. -/
theorem C13_value {ι : Type} (x y : ι → ℝ) (I K : List ℝ) (dz wavel : ℝ)
    (illum : Illum ι) (tel : TelGeo ι) (B W delta Ea : ι → ℝ)
    (hB : tel.block x y = .ok B) (hd : tel.opd x y dz = .ok delta)
    (hE : illum x y I tel.pr = .ok Ea)
    (hW : wavefront (fun q => Real.sqrt (x q ^ 2 + y q ^ 2) / tel.pr)
      (fun q => arctan2 (y q) (x q)) K = .ok W) :
    ∃ E, aperture x y I K dz wavel illum tel = .ok E ∧ ∀ q,
      E q = ((B q * Ea q : ℝ) : ℂ) *
        (Real.cos (2 * Real.pi * (W q + delta q / wavel)) +
          Real.sin (2 * Real.pi * (W q + delta q / wavel)) * Complex.I) := by
  refine ⟨_, aperture_ok_iff.2 ⟨B, W, delta, Ea, hB, hW, hd, hE, rfl⟩, fun q => ?_⟩
  rw [Complex.exp_mul_I]
  congr 3
  · rw [← Complex.ofReal_cos]; congr 2; ring
  · rw [← Complex.ofReal_sin]; congr 2; ring

/-! ## C14 -/

/-- **C14** the coordinates of the pattern. -/
theorem C14_axes (I K : List ℝ) (dz wavel : ℝ) (N : ℕ)
    (illum : Illum (Fin N × Fin N)) (tel : TelGeo (Fin N × Fin N)) (bf : ℝ) (P : Pattern N)
    (hpr : 0 < tel.pr) (hbf : 0 < bf) (hw : 0 < wavel)
    (h : radiationPattern I K dz wavel illum tel bf = .ok P) :
    P.u = P.v ∧ StrictMono P.u ∧ (∀ i : Fin N, (i : ℕ) = N / 2 → P.u i = 0) ∧
      ∀ i j : Fin N, (j : ℕ) = (i : ℕ) + 1 →
        P.u j - P.u i = wavel / (N * (2 * tel.pr * bf / ((N : ℝ) - 1))) := by
  obtain ⟨hN, E, -, rfl⟩ := radiationPattern_ok h
  have hN1 : (0 : ℝ) < (N : ℝ) - 1 := by
    have : (2 : ℝ) ≤ N := by exact_mod_cast hN
    linarith
  have hN0 : (0 : ℝ) < N := by linarith
  refine ⟨rfl, fun i j hij => ?_, fun i hi => ?_, fun i j hij => ?_⟩
  · apply mul_lt_mul_of_pos_right _ hw
    apply div_lt_div_of_pos_right _ (by positivity)
    have : ((i : ℕ) : ℝ) < ((j : ℕ) : ℝ) := by exact_mod_cast hij
    linarith
  · simp [hi]
  · simp only [hij]
    push_cast
    field_simp
    ring

/-- **C14** fewer than two points per axis: `IndexError`. -/
theorem C14_indexError (I K : List ℝ) (dz wavel : ℝ) (N : ℕ) (hN : N < 2)
    (illum : Illum (Fin N × Fin N)) (tel : TelGeo (Fin N × Fin N)) (bf : ℝ) :
    radiationPattern I K dz wavel illum tel bf = .error .indexError :=
  radiationPattern_small I K dz wavel hN illum tel bf

/-- **C14** otherwise the pattern is returned exactly when the aperture on the grid is. -/
theorem C14_ok_iff (I K : List ℝ) (dz wavel : ℝ) (N : ℕ) (hN : 2 ≤ N)
    (illum : Illum (Fin N × Fin N)) (tel : TelGeo (Fin N × Fin N)) (bf : ℝ) :
    (∃ P, radiationPattern I K dz wavel illum tel bf = .ok P) ↔
      ∃ E, aperture (fun q => linspace (-(tel.pr * bf)) (tel.pr * bf) N q.2)
        (fun q => linspace (-(tel.pr * bf)) (tel.pr * bf) N q.1) I K dz wavel illum tel = .ok E := by
  constructor
  · rintro ⟨P, h⟩
    obtain ⟨-, E, hE, -⟩ := radiationPattern_ok h
    exact ⟨E, hE⟩
  · rintro ⟨E, hE⟩
    rw [radiationPattern_eq _ _ _ _ hN, hE]
    exact ⟨_, rfl⟩

/-! ## C15 -/

/-- The aperture grid: `N` points from `-pr * bf` in steps of `2 pr bf / (N - 1)`. -/
noncomputable def Spec.gridPoint (pr bf : ℝ) (N : ℕ) (i : Fin N) : ℝ :=
  -(pr * bf) + (i : ℕ) * (2 * pr * bf / ((N : ℝ) - 1))

theorem linspace_grid (pr bf : ℝ) (N : ℕ) :
    linspace (-(pr * bf)) (pr * bf) N = Spec.gridPoint pr bf N := by
  funext i
  unfold linspace Spec.gridPoint
  ring

/-- **C15** the pattern is the Fourier sum of the aperture on the grid, at the returned
coordinates; rows go with `v` and `y`, columns with `u` and `x`. -/
theorem C15_fourier_sum (I K : List ℝ) (dz wavel : ℝ) (N : ℕ)
    (illum : Illum (Fin N × Fin N)) (tel : TelGeo (Fin N × Fin N)) (bf : ℝ) (P : Pattern N)
    (hpr : tel.pr ≠ 0) (hbf : bf ≠ 0) (hw : wavel ≠ 0)
    (h : radiationPattern I K dz wavel illum tel bf = .ok P) :
    ∃ E, aperture (fun q => Spec.gridPoint tel.pr bf N q.2)
        (fun q => Spec.gridPoint tel.pr bf N q.1) I K dz wavel illum tel = .ok E ∧
      ∀ i j : Fin N, P.F (i, j) = ∑ a : Fin N, ∑ b : Fin N, E (a, b) *
        Complex.exp (-(2 * Real.pi * Complex.I) *
          (((((b : ℕ) * (2 * tel.pr * bf / ((N : ℝ) - 1))) * P.u j +
            ((a : ℕ) * (2 * tel.pr * bf / ((N : ℝ) - 1))) * P.v i) / wavel : ℝ) : ℂ)) := by
  obtain ⟨hN, E, hE, rfl⟩ := radiationPattern_ok h
  rw [linspace_grid] at hE
  refine ⟨E, hE, fun i j => ?_⟩
  have hN1 : (N : ℝ) - 1 ≠ 0 := by
    have : (2 : ℝ) ≤ N := by exact_mod_cast hN
    linarith
  have hN0 : (N : ℝ) ≠ 0 := by
    have : (2 : ℝ) ≤ N := by exact_mod_cast hN
    linarith
  simp only
  rw [shifted_eq]
  refine sum_congr rfl fun a _ => sum_congr rfl fun b _ => ?_
  unfold ew
  generalize N / 2 = m
  congr 3
  rw [show ∀ z : ℤ, (z : ℂ) / (N : ℂ) = ((z / N : ℝ) : ℂ) from fun z => by push_cast; rfl]
  congr 1
  push_cast
  field_simp
  ring

/-- **C15** the offsets used there are the grid distances to the first point. -/
theorem C15_offsets (pr bf : ℝ) (N : ℕ) (hN : 2 ≤ N) (b : Fin N) :
    Spec.gridPoint pr bf N b - Spec.gridPoint pr bf N ⟨0, by omega⟩ =
      (b : ℕ) * (2 * pr * bf / ((N : ℝ) - 1)) ∧
    Spec.gridPoint pr bf N ⟨0, by omega⟩ = -(pr * bf) ∧
    Spec.gridPoint pr bf N ⟨N - 1, by omega⟩ = pr * bf := by
  have hN1 : (N : ℝ) - 1 ≠ 0 := by
    have : (2 : ℝ) ≤ N := by exact_mod_cast hN
    linarith
  unfold Spec.gridPoint
  refine ⟨?_, ?_, ?_⟩
  · simp
  · simp
  · rw [Nat.cast_sub (by omega)]
    push_cast
    field_simp
    ring

/-! ## C16 -/

/-- **C16** total power. -/
theorem C16_power (I K : List ℝ) (dz wavel : ℝ) (N : ℕ)
    (illum : Illum (Fin N × Fin N)) (tel : TelGeo (Fin N × Fin N)) (bf : ℝ) (P : Pattern N)
    (h : radiationPattern I K dz wavel illum tel bf = .ok P) :
    ∃ B Ea, tel.block (fun q => Spec.gridPoint tel.pr bf N q.2)
        (fun q => Spec.gridPoint tel.pr bf N q.1) = .ok B ∧
      illum (fun q => Spec.gridPoint tel.pr bf N q.2)
        (fun q => Spec.gridPoint tel.pr bf N q.1) I tel.pr = .ok Ea ∧
      ∑ q, ‖P.F q‖ ^ 2 = (N : ℝ) ^ 2 * ∑ q, (B q * Ea q) ^ 2 := by
  obtain ⟨hN, E, hE, rfl⟩ := radiationPattern_ok h
  rw [linspace_grid] at hE
  obtain ⟨B, Ea, h1, h2, h3⟩ := C13_amplitude _ _ _ _ _ _ _ _ _ hE
  refine ⟨B, Ea, h1, h2, ?_⟩
  simp only
  rw [parseval_shift]
  congr 1
  exact sum_congr rfl fun q _ => by rw [(h3 q).1, sq_abs]

/-- **C16** the power does not depend on `K`, `d_z` or the wavelength. -/
theorem C16_independent (I K K' : List ℝ) (dz dz' wavel wavel' : ℝ) (N : ℕ)
    (illum : Illum (Fin N × Fin N)) (tel : TelGeo (Fin N × Fin N)) (bf : ℝ) (P P' : Pattern N)
    (h : radiationPattern I K dz wavel illum tel bf = .ok P)
    (h' : radiationPattern I K' dz' wavel' illum tel bf = .ok P') :
    ∑ q, ‖P.F q‖ ^ 2 = ∑ q, ‖P'.F q‖ ^ 2 := by
  obtain ⟨B, Ea, h1, h2, h3⟩ := C16_power _ _ _ _ _ _ _ _ _ h
  obtain ⟨B', Ea', h1', h2', h3'⟩ := C16_power _ _ _ _ _ _ _ _ _ h'
  rw [h1] at h1'
  rw [h2] at h2'
  cases h1'
  cases h2'
  rw [h3, h3']

/-! ## C17 -/

theorem Uv_zero (rho theta : ℝ) : Uv 0 0 rho theta = 1 := by
  apply Uv_of_ok
  have hR : R 0 0 rho = .ok 1 := by
    simp [R, rTerm, factorial, List.range_succ, bind, Except.bind, pure, Except.pure]
  simp [U, hR, bind, Except.bind, pure, Except.pure]

theorem wfVal_piston (n : ℕ) (k d : ℝ) (Ks : List ℝ) (rho theta : ℝ) :
    wfVal n ((k + d) :: Ks) rho theta = wfVal n (k :: Ks) rho theta + d := by
  unfold wfVal
  rw [sum_range_succ', sum_range_succ' (n := n)]
  have : ∀ K : List ℝ, ∀ i k', (i + 1 : ℕ) ≤ i + 1 → ∀ a b : ℝ, (a :: K).getD (tri (i + 1) + k') 0 =
      (b :: K).getD (tri (i + 1) + k') 0 := by
    intro K i k' _ a b
    rw [tri_succ, show tri i + (i + 1) + k' = (tri i + i + k') + 1 by ring]
    simp
  rw [show ∑ i ∈ range n, ∑ k' ∈ range (i + 1 + 1), ((k + d) :: Ks).getD (tri (i + 1) + k') 0 *
      Uv ((i + 1 : ℕ) : ℤ) (-((i + 1 : ℕ) : ℤ) + 2 * (k' : ℤ)) rho theta =
      ∑ i ∈ range n, ∑ k' ∈ range (i + 1 + 1), (k :: Ks).getD (tri (i + 1) + k') 0 *
      Uv ((i + 1 : ℕ) : ℤ) (-((i + 1 : ℕ) : ℤ) + 2 * (k' : ℤ)) rho theta from
    sum_congr rfl fun i _ => sum_congr rfl fun k' _ => by rw [this Ks i k' le_rfl (k + d) k]]
  simp [tri, Uv_zero]
  ring

/-- **C17** a piston `d` multiplies the aperture by `exp(2πi d)`. -/
theorem C17_aperture {ι : Type} (x y : ι → ℝ) (I Ks : List ℝ) (k d dz wavel : ℝ)
    (illum : Illum ι) (tel : TelGeo ι) (E : ι → ℂ)
    (h : aperture x y I (k :: Ks) dz wavel illum tel = .ok E) :
    aperture x y I ((k + d) :: Ks) dz wavel illum tel =
      .ok (fun q => Complex.exp (2 * Real.pi * d * Complex.I) * E q) := by
  obtain ⟨B, W, dl, Ea, h1, h2, h3, h4, rfl⟩ := aperture_ok_iff.1 h
  obtain ⟨n, hn, rfl⟩ := wavefront_ok_inv h2
  have h2' := wavefront_ok (fun q => (cart2pol (x q) (y q)).1 / tel.pr)
    (fun q => (cart2pol (x q) (y q)).2) ((k + d) :: Ks) n (by simpa using hn)
  refine aperture_ok_iff.2 ⟨B, _, dl, Ea, h1, h2', h3, h4, ?_⟩
  funext q
  simp only [wfVal_piston]
  rw [mul_left_comm, ← Complex.exp_add]
  congr 2
  push_cast
  ring

/-- **C17** a piston `d` multiplies the field pattern by `exp(2πi d)`, keeps the coordinates and
the power pattern. -/
theorem C17_pattern (I Ks : List ℝ) (k d dz wavel : ℝ) (N : ℕ)
    (illum : Illum (Fin N × Fin N)) (tel : TelGeo (Fin N × Fin N)) (bf : ℝ) (P : Pattern N)
    (h : radiationPattern I (k :: Ks) dz wavel illum tel bf = .ok P) :
    ∃ P', radiationPattern I ((k + d) :: Ks) dz wavel illum tel bf = .ok P' ∧
      P'.u = P.u ∧ P'.v = P.v ∧
      ∀ q, P'.F q = Complex.exp (2 * Real.pi * d * Complex.I) * P.F q ∧ ‖P'.F q‖ = ‖P.F q‖ := by
  obtain ⟨hN, E, hE, rfl⟩ := radiationPattern_ok h
  have hE' := C17_aperture _ _ I Ks k d dz wavel illum tel E hE
  rw [radiationPattern_eq _ _ _ _ hN, hE']
  refine ⟨_, rfl, rfl, rfl, fun q => ?_⟩
  have hF : fftshift2 (fft2 fun q => Complex.exp (2 * Real.pi * d * Complex.I) * E q) q =
      Complex.exp (2 * Real.pi * d * Complex.I) * fftshift2 (fft2 E) q := fft2_smul _ _ _
  refine ⟨hF, ?_⟩
  simp only
  rw [hF, norm_mul]
  rw [show (2 * Real.pi * d * Complex.I : ℂ) = ((2 * Real.pi * d : ℝ) : ℂ) * Complex.I by push_cast; ring,
    Complex.norm_exp_ofReal_mul_I, one_mul]

/-! ## C18 -/

/-- **C18** `illum_gauss` is proportional to the amplitude coefficient. -/
theorem C18_gauss {ι : Type} (x y : ι → ℝ) (s iAmp : ℝ) (rest : List ℝ) (pr : ℝ) (Ea : ι → ℝ)
    (hl : 3 ≤ rest.length) (h : illumGauss x y (iAmp :: rest) pr = .ok Ea) :
    illumGauss x y ((s * iAmp) :: rest) pr = .ok (fun q => s * Ea q) := by
  obtain ⟨c, r2, rfl⟩ : ∃ c r2, rest = c :: r2 := by
    cases rest with
    | nil => simp at hl
    | cons c r2 => exact ⟨c, r2, rfl⟩
  have hr2 : 2 ≤ r2.length := by simpa using hl
  obtain ⟨k, hk⟩ : ∃ k, r2.length = k + 2 := ⟨r2.length - 2, by omega⟩
  unfold illumGauss illumGaussQ at h ⊢
  simp only [List.map_cons, List.take_succ_cons, List.take_zero, List.length_cons, List.length_map,
    hk, show k + 2 + 1 + 1 - 2 = k + 2 by omega, List.drop_succ_cons] at h ⊢
  split at h
  · rename_i i c' x0 y0 e1 e2
    simp only [List.cons.injEq, and_true] at e1
    obtain ⟨rfl, rfl⟩ := e1
    rw [e2]
    simp only [Except.ok.injEq] at h ⊢
    subst h
    funext q
    simp only [gaussAt, offset]
    ring
  · cases h

theorem parabolicAt_smul (s i : ℝ) (c : QNum) (q : ℝ) (x0 y0 : QNum) (pr x y : ℝ) (hpr : pr ≠ 0)
    (hq : 0 ≤ q ∨ (x - offset x0) ^ 2 + (y - offset y0) ^ 2 ≠ pr ^ 2) :
    parabolicAt (s * i) c q x0 y0 pr x y = s * parabolicAt i c q x0 y0 pr x y := by
  set r := Real.sqrt ((x - offset x0) ^ 2 + (y - offset y0) ^ 2) with hr
  have hr0 : 0 ≤ r := Real.sqrt_nonneg _
  have hr2 : r ^ 2 = (x - offset x0) ^ 2 + (y - offset y0) ^ 2 := Real.sq_sqrt (by positivity)
  have hbase : ∃ b : ℝ, (b = 0 → 0 ≤ q) ∧
      Fl.sub (.fin 1) (Fl.pow (Fl.div (.fin r) (.fin pr)) 2) = .fin b := by
    refine ⟨1 - (r / pr) ^ 2, fun hb => ?_, ?_⟩
    · rcases hq with hq | hq
      · exact hq
      · exfalso
        apply hq
        rw [← hr2]
        field_simp at hb
        linarith
    · have h1 : Fl.div (.fin r) (.fin pr) = .fin (r / pr) := by simp [Fl.div, hpr]
      rw [h1]
      rw [Fl.pow_fin_two]
      simp [Fl.sub, Fl.add, Fl.neg, sub_eq_add_neg]
  obtain ⟨b, hb0, hb⟩ := hbase
  have hpow : Fl.pow (.fin b) q = .nan ∨ ∃ v, Fl.pow (.fin b) q = .fin v := by
    rw [Fl.pow_fin]
    split_ifs with h1 h2 h3
    · exact .inr ⟨_, rfl⟩
    · exact .inr ⟨_, rfl⟩
    · exact absurd (lt_of_le_of_ne (hb0 h2) (Ne.symm h1)) h3
    · exact .inl rfl
    · exact .inr ⟨_, rfl⟩
  unfold parabolicAt
  simp only [← hr, hb]
  rcases hpow with hp | ⟨v, hp⟩
  · rw [hp]
    simp [Fl.mul, Fl.add, Fl.nanToNum]
  · rw [hp]
    simp only [Fl.mul, Fl.add, Fl.nanToNum]
    ring

/-- **C18** `illum_parabolic` is proportional to the amplitude coefficient, when no infinity is
replaced (`q ≥ 0`; a nan is replaced by 0 on both sides). -/
theorem C18_parabolic {ι : Type} (x y : ι → ℝ) (s iAmp c q x0 y0 : ℝ) (pr : ℝ) (hpr : pr ≠ 0)
    (hq : 0 ≤ q) :
    ∃ Ea, illumParabolic x y [iAmp, c, q, x0, y0] pr = .ok Ea ∧
      illumParabolic x y [s * iAmp, c, q, x0, y0] pr = .ok (fun p => s * Ea p) := by
  refine ⟨_, rfl, ?_⟩
  unfold illumParabolic illumParabolicQ
  simp only [List.map]
  congr 1
  funext p
  exact parabolicAt_smul s iAmp _ _ _ _ pr _ _ hpr (.inl hq)

/-- **C18** scaling the illumination scales the aperture, the field and (squared) the power. -/
theorem C18_pattern (I I' K : List ℝ) (s dz wavel : ℝ) (N : ℕ)
    (illum : Illum (Fin N × Fin N)) (tel : TelGeo (Fin N × Fin N)) (bf : ℝ) (P : Pattern N)
    (hI : ∀ (x y : Fin N × Fin N → ℝ) Ea, illum x y I tel.pr = .ok Ea →
      illum x y I' tel.pr = .ok (fun q => s * Ea q))
    (h : radiationPattern I K dz wavel illum tel bf = .ok P) :
    ∃ P', radiationPattern I' K dz wavel illum tel bf = .ok P' ∧ P'.u = P.u ∧ P'.v = P.v ∧
      ∀ q, P'.F q = s * P.F q ∧ ‖P'.F q‖ ^ 2 = s ^ 2 * ‖P.F q‖ ^ 2 := by
  obtain ⟨hN, E, hE, rfl⟩ := radiationPattern_ok h
  obtain ⟨B, W, dl, Ea, h1, h2, h3, h4, hEq⟩ := aperture_ok_iff.1 hE
  have hE' := (aperture_ok_iff (I := I') (K := K) (dz := dz) (wavel := wavel) (illum := illum)
    (tel := tel)).2 ⟨B, W, dl, _, h1, h2, h3, hI _ _ _ h4, rfl⟩
  rw [radiationPattern_eq _ _ _ _ hN, hE']
  refine ⟨_, rfl, rfl, rfl, fun q => ?_⟩
  have hs : (fun q => ((B q * (s * Ea q) : ℝ) : ℂ) *
      Complex.exp ((((W q + dl q / wavel) * 2 * Real.pi : ℝ) : ℂ) * Complex.I)) =
      fun q => (s : ℂ) * E q := by
    funext q
    rw [hEq]
    push_cast
    ring
  simp only [hs]
  have hF : fftshift2 (fft2 fun q => (s : ℂ) * E q) q = s * fftshift2 (fft2 E) q := fft2_smul _ _ _
  refine ⟨hF, ?_⟩
  rw [hF, norm_mul, mul_pow, Complex.norm_real, Real.norm_eq_abs, sq_abs]

/-! ## C19 -/

theorem wfVal_neg (n : ℕ) (K : List ℝ) (rho theta : ℝ) :
    wfVal n (K.map (fun k => -k)) rho theta = -wfVal n K rho theta := by
  have := wfVal_smul n K (-1) rho theta
  rw [neg_one_mul] at this
  rw [← this]
  congr 2
  funext k
  ring

/-- **C19** negating coefficients and offset conjugates the aperture. -/
theorem C19_aperture {ι : Type} (x y : ι → ℝ) (I K : List ℝ) (dz wavel : ℝ)
    (illum : Illum ι) (tel : TelGeo ι) (E : ι → ℂ)
    (hodd : ∀ d, tel.opd x y dz = .ok d → tel.opd x y (-dz) = .ok (fun q => -d q))
    (h : aperture x y I K dz wavel illum tel = .ok E) :
    aperture x y I (K.map (fun k => -k)) (-dz) wavel illum tel =
      .ok (fun q => (starRingEnd ℂ) (E q)) := by
  obtain ⟨B, W, dl, Ea, h1, h2, h3, h4, rfl⟩ := aperture_ok_iff.1 h
  obtain ⟨n, hn, rfl⟩ := wavefront_ok_inv h2
  have h2' := wavefront_ok (fun q => (cart2pol (x q) (y q)).1 / tel.pr)
    (fun q => (cart2pol (x q) (y q)).2) (K.map (fun k => -k)) n (by simpa using hn)
  refine aperture_ok_iff.2 ⟨B, _, _, Ea, h1, h2', hodd _ h3, h4, ?_⟩
  funext q
  rw [map_mul, Complex.conj_ofReal, ← Complex.exp_conj, map_mul, Complex.conj_I, Complex.conj_ofReal]
  congr 2
  simp only [wfVal_neg]
  push_cast
  ring

/-- **C19** the beam of `(-K, -d_z)` is the beam of `(K, d_z)` reflected through the origin:
`i'`, `j'` are the reflections of `i`, `j` about the centre index modulo the grid size. -/
theorem C19_reflection (I K : List ℝ) (dz wavel : ℝ) (N : ℕ)
    (illum : Illum (Fin N × Fin N)) (tel : TelGeo (Fin N × Fin N)) (bf : ℝ) (P : Pattern N)
    (hodd : ∀ x y d, tel.opd x y dz = .ok d → tel.opd x y (-dz) = .ok (fun q => -d q))
    (h : radiationPattern I K dz wavel illum tel bf = .ok P) :
    ∃ P', radiationPattern I (K.map (fun k => -k)) (-dz) wavel illum tel bf = .ok P' ∧
      P'.u = P.u ∧ P'.v = P.v ∧
      ∀ i j i' j' : Fin N,
        (N : ℤ) ∣ (i : ℕ) + (i' : ℕ) - 2 * (N / 2 : ℕ) →
        (N : ℤ) ∣ (j : ℕ) + (j' : ℕ) - 2 * (N / 2 : ℕ) →
        P'.F (i, j) = (starRingEnd ℂ) (P.F (i', j')) ∧ ‖P'.F (i, j)‖ = ‖P.F (i', j')‖ := by
  obtain ⟨hN, E, hE, rfl⟩ := radiationPattern_ok h
  have hE' := C19_aperture _ _ I K dz wavel illum tel E (hodd _ _) hE
  rw [radiationPattern_eq _ _ _ _ hN, hE']
  refine ⟨_, rfl, rfl, rfl, fun i j i' j' hi hj => ?_⟩
  have hF : fftshift2 (fft2 fun q => (starRingEnd ℂ) (E q)) (i, j) =
      (starRingEnd ℂ) (fftshift2 (fft2 E) (i', j')) := by
    rw [shifted_eq, shifted_eq, map_sum]
    refine sum_congr rfl fun a _ => ?_
    rw [map_sum]
    refine sum_congr rfl fun b _ => ?_
    rw [map_mul, ew_conj]
    congr 1
    apply ew_congr (by omega)
    rw [Int.modEq_iff_dvd]
    obtain ⟨s, hs⟩ := hi
    obtain ⟨t, ht⟩ := hj
    refine ⟨-(s * ((a : ℕ) : ℤ) + t * ((b : ℕ) : ℤ)), ?_⟩
    linear_combination (-((a : ℕ) : ℤ)) * hs - ((b : ℕ) : ℤ) * ht
  refine ⟨hF, ?_⟩
  simp only
  rw [hF, Complex.norm_conj]

/-- **C19** every index has a unique reflection, which has the opposite coordinate, except that
on an even grid the first index (the Nyquist coordinate) is its own reflection. -/
theorem C19_index (I K : List ℝ) (dz wavel : ℝ) (N : ℕ)
    (illum : Illum (Fin N × Fin N)) (tel : TelGeo (Fin N × Fin N)) (bf : ℝ) (P : Pattern N)
    (h : radiationPattern I K dz wavel illum tel bf = .ok P) (i : Fin N) :
    ∃! i' : Fin N, (N : ℤ) ∣ (i : ℕ) + (i' : ℕ) - 2 * (N / 2 : ℕ) ∧
      (P.u i' = -P.u i ∨ (Even N ∧ (i : ℕ) = 0 ∧ i' = i)) := by
  obtain ⟨hN, E, hE, rfl⟩ := radiationPattern_ok h
  have hi := i.2
  have huniq : ∀ a b : Fin N, (N : ℤ) ∣ (i : ℕ) + (a : ℕ) - 2 * (N / 2 : ℕ) →
      (N : ℤ) ∣ (i : ℕ) + (b : ℕ) - 2 * (N / 2 : ℕ) → a = b := by
    intro a b ha hb
    have := dvd_sub ha hb
    have := Int.eq_zero_of_abs_lt_dvd this (by
      have := a.2; have := b.2
      rw [abs_lt]; constructor <;> omega)
    exact Fin.ext (by omega)
  by_cases hc : Even N ∧ (i : ℕ) = 0
  · refine ⟨i, ⟨?_, .inr ⟨hc.1, hc.2, rfl⟩⟩, fun b hb => huniq _ _ hb.1 ?_⟩
    all_goals
    · obtain ⟨m, hm⟩ := hc.1
      refine ⟨-1, ?_⟩
      omega
  · have hlt : 2 * (N / 2) - (i : ℕ) < N := by
      rcases Nat.even_or_odd N with he | ⟨m, hm⟩
      · have : (i : ℕ) ≠ 0 := fun h0 => hc ⟨he, h0⟩
        omega
      · omega
    have hle : (i : ℕ) ≤ 2 * (N / 2) := by omega
    refine ⟨⟨2 * (N / 2) - (i : ℕ), hlt⟩, ⟨?_, .inl ?_⟩, fun b hb => huniq _ _ hb.1 ?_⟩
    · refine ⟨0, ?_⟩
      simp only
      omega
    · simp only
      rw [Nat.cast_sub hle]
      push_cast
      ring
    · refine ⟨0, ?_⟩
      simp only
      omega

/-- **C19** in focus: when the path difference vanishes, `K` and `-K` give reflected beams. -/
theorem C19_infocus (I K : List ℝ) (wavel : ℝ) (N : ℕ)
    (illum : Illum (Fin N × Fin N)) (tel : TelGeo (Fin N × Fin N)) (bf : ℝ) (P : Pattern N)
    (h0 : ∀ x y d, tel.opd x y 0 = .ok d → d = fun _ => 0)
    (h : radiationPattern I K 0 wavel illum tel bf = .ok P) :
    ∃ P', radiationPattern I (K.map (fun k => -k)) 0 wavel illum tel bf = .ok P' ∧
      ∀ i j i' j' : Fin N,
        (N : ℤ) ∣ (i : ℕ) + (i' : ℕ) - 2 * (N / 2 : ℕ) →
        (N : ℤ) ∣ (j : ℕ) + (j' : ℕ) - 2 * (N / 2 : ℕ) →
        ‖P'.F (i, j)‖ = ‖P.F (i', j')‖ := by
  obtain ⟨P', hP', -, -, hF⟩ := C19_reflection I K 0 wavel N illum tel bf P (fun x y d hd => by
    have := h0 x y d hd
    subst this
    rw [neg_zero, hd]
    simp) h
  rw [neg_zero] at hP'
  exact ⟨P', hP', fun i j i' j' hi hj => (hF i j i' j' hi hj).2⟩

/-! ## The hypotheses are met -/

/-- A concrete set-up for which the pattern is returned: order 1 coefficients, Gaussian
illumination, manual geometry. -/
theorem pattern_example (N : ℕ) (hN : 2 ≤ N) :
    ∃ P, radiationPattern [1, -14, 0, 0] [0.1, 0.2, 0.3] 0.02 0.009 (N := N) illumGauss
      (manualTel 50 3.25 1 20 30 387.4) 5 = .ok P := by
  rw [C14_ok_iff _ _ _ _ _ hN]
  exact ⟨_, aperture_ok_iff.2 ⟨_, _, _, _, rfl, wavefront_ok _ _ _ 1 rfl, rfl, rfl, rfl⟩⟩

example : ∃ (P : Pattern 256) (B Ea : Fin 256 × Fin 256 → ℝ),
    ∑ q, ‖P.F q‖ ^ 2 = 256 ^ 2 * ∑ q, (B q * Ea q) ^ 2 ∧ StrictMono P.u := by
  obtain ⟨P, h⟩ := pattern_example 256 (by norm_num)
  obtain ⟨B, Ea, -, -, h'⟩ := C16_power _ _ _ _ _ _ _ _ _ h
  exact ⟨P, B, Ea, by exact_mod_cast h', (C14_axes _ _ _ _ _ _ _ _ _ (by norm_num [manualTel]) (by norm_num)
    (by norm_num) h).2.1⟩

example : ∃ P P' : Pattern 257, ∀ q, ‖P'.F q‖ = ‖P.F q‖ := by
  obtain ⟨P, h⟩ := pattern_example 257 (by norm_num)
  obtain ⟨P', -, -, -, h'⟩ := C17_pattern _ _ _ 0.7 _ _ _ _ _ _ _ h
  exact ⟨P, P', fun q => (h' q).2⟩

example : ∃ P P' : Pattern 256, ∀ i j i' j' : Fin 256,
    ((256 : ℕ) : ℤ) ∣ (i : ℕ) + (i' : ℕ) - 2 * (256 / 2 : ℕ) →
    ((256 : ℕ) : ℤ) ∣ (j : ℕ) + (j' : ℕ) - 2 * (256 / 2 : ℕ) →
    ‖P'.F (i, j)‖ = ‖P.F (i', j')‖ := by
  obtain ⟨P, h⟩ := pattern_example 256 (by norm_num)
  obtain ⟨P', -, -, -, h'⟩ := C19_reflection _ _ _ _ _ _ _ _ _
    (fun x y d hd => C23_odd _ _ x y _ d hd) h
  exact ⟨P, P', fun i j i' j' hi hj => (h' i j i' j' hi hj).2⟩

example : ∃ P P' : Pattern 128, ∀ q, ‖P'.F q‖ ^ 2 = 3 ^ 2 * ‖P.F q‖ ^ 2 := by
  obtain ⟨P, h⟩ := pattern_example 128 (by norm_num)
  obtain ⟨P', -, -, -, h'⟩ := C18_pattern _ [3 * 1, -14, 0, 0] _ 3 _ _ _ _ _ _ _
    (fun x y Ea hE => C18_gauss x y 3 1 [-14, 0, 0] _ Ea (by simp) hE) h
  exact ⟨P, P', fun q => (h' q).2⟩

end Verif.Props
