import Verif.Props.Aperture

/-!
# Tilt moves the beam (C69); phase errors lower the peak (C70)
-/

namespace Verif.Props

open Verif Verif.Np Verif.Zernike Verif.Aperture Verif.Fourier Verif.Telgeometry Finset

/-! ## C69 -/

theorem Uv_one (rho theta : ℝ) :
    Uv 1 (-1) rho theta = rho * Real.sin theta ∧ Uv 1 1 rho theta = rho * Real.cos theta := by
  have hR : R 1 1 rho = .ok rho := by
    simp [R, rTerm, factorial, List.range_succ, bind, Except.bind, pure, Except.pure]
  constructor <;> apply Uv_of_ok <;> simp [U, hR, bind, Except.bind, pure, Except.pure]

theorem wfVal_tilt (n : ℕ) (hn : 1 ≤ n) (k0 k1 k2 a b : ℝ) (Ks : List ℝ) (rho theta : ℝ) :
    wfVal n (k0 :: (k1 + b) :: (k2 + a) :: Ks) rho theta =
      wfVal n (k0 :: k1 :: k2 :: Ks) rho theta + a * (rho * Real.cos theta) +
        b * (rho * Real.sin theta) := by
  obtain ⟨m, rfl⟩ := Nat.exists_eq_add_of_le hn
  rw [Nat.add_comm]
  unfold wfVal
  rw [Finset.sum_range_succ', Finset.sum_range_succ', Finset.sum_range_succ' _ (m + 1),
    Finset.sum_range_succ' _ m]
  have hrest : ∀ i k : ℕ, (k0 :: (k1 + b) :: (k2 + a) :: Ks).getD (tri (i + 1 + 1) + k) 0 =
      (k0 :: k1 :: k2 :: Ks).getD (tri (i + 1 + 1) + k) 0 := by
    intro i k
    have : 3 ≤ tri (i + 1 + 1) + k := by
      have := tri_mono (show 2 ≤ i + 1 + 1 by omega)
      simp [tri] at this ⊢
      omega
    obtain ⟨d, hd⟩ := Nat.exists_eq_add_of_le this
    rw [hd, Nat.add_comm]
    rfl
  simp only [hrest]
  obtain ⟨h1, h2⟩ := Uv_one rho theta
  simp only [Finset.sum_range_succ, Finset.sum_range_zero, tri]
  norm_num
  rw [h1, h2]
  ring

/-- The far field of an aperture on the grid, at any direction `(u, v)`. -/
noncomputable def Spec.farField (pr bf wavel : ℝ) {N : ℕ} (E : Fin N × Fin N → ℂ) (u v : ℝ) : ℂ :=
  ∑ a : Fin N, ∑ b : Fin N, E (a, b) * Complex.exp (-(2 * Real.pi * Complex.I) *
    (((Spec.gridPoint pr bf N b * u + Spec.gridPoint pr bf N a * v) / wavel : ℝ) : ℂ))

/-- **C69.**  The pattern is the far field at the returned coordinates, up to a factor of modulus
one. -/
theorem C69_far_field (I K : List ℝ) (dz wavel : ℝ) (N : ℕ)
    (illum : Illum (Fin N × Fin N)) (tel : TelGeo (Fin N × Fin N)) (bf : ℝ) (P : Pattern N)
    (hpr : tel.pr ≠ 0) (hbf : bf ≠ 0) (hw : wavel ≠ 0)
    (h : radiationPattern I K dz wavel illum tel bf = .ok P) :
    ∃ E, aperture (fun q => Spec.gridPoint tel.pr bf N q.2)
        (fun q => Spec.gridPoint tel.pr bf N q.1) I K dz wavel illum tel = .ok E ∧
      ∀ i j, ‖P.F (i, j)‖ = ‖Spec.farField tel.pr bf wavel E (P.u j) (P.v i)‖ := by
  obtain ⟨E, hE, hF⟩ := C15_fourier_sum I K dz wavel N illum tel bf P hpr hbf hw h
  refine ⟨E, hE, fun i j => ?_⟩
  have : Spec.farField tel.pr bf wavel E (P.u j) (P.v i) =
      Complex.exp (((2 * Real.pi * (tel.pr * bf * (P.u j + P.v i) / wavel) : ℝ) : ℂ) * Complex.I) *
        P.F (i, j) := by
    rw [hF, Finset.mul_sum]
    refine sum_congr rfl fun a _ => ?_
    rw [Finset.mul_sum]
    refine sum_congr rfl fun b _ => ?_
    rw [mul_left_comm, ← Complex.exp_add]
    congr 2
    unfold Spec.gridPoint
    push_cast
    ring
  rw [this, norm_mul, Complex.norm_exp_ofReal_mul_I, one_mul]

/-- **C69.**  Tilt terms `a` (along x) and `b` (along y) multiply the aperture by a linear phase. -/
theorem C69_aperture {ι : Type} (x y : ι → ℝ) (I Ks : List ℝ) (k0 k1 k2 a b dz wavel : ℝ)
    (illum : Illum ι) (tel : TelGeo ι) (E : ι → ℂ) (hpr : tel.pr ≠ 0)
    (h : aperture x y I (k0 :: k1 :: k2 :: Ks) dz wavel illum tel = .ok E) :
    aperture x y I (k0 :: (k1 + b) :: (k2 + a) :: Ks) dz wavel illum tel =
      .ok (fun q => Complex.exp (2 * Real.pi * (((a * x q + b * y q) / tel.pr : ℝ) : ℂ) * Complex.I) *
        E q) := by
  obtain ⟨B, W, dl, Ea, h1, h2, h3, h4, rfl⟩ := aperture_ok_iff.1 h
  obtain ⟨n, hn, rfl⟩ := wavefront_ok_inv h2
  have hn1 : 1 ≤ n := by
    by_contra h0
    have : n = 0 := by omega
    subst this
    simp [tri] at hn
  have h2' := wavefront_ok (fun q => (cart2pol (x q) (y q)).1 / tel.pr)
    (fun q => (cart2pol (x q) (y q)).2) (k0 :: (k1 + b) :: (k2 + a) :: Ks) n (by simpa using hn)
  refine aperture_ok_iff.2 ⟨B, _, dl, Ea, h1, h2', h3, h4, ?_⟩
  funext q
  have hx : (cart2pol (x q) (y q)).1 / tel.pr * Real.cos (cart2pol (x q) (y q)).2 = x q / tel.pr := by
    have := Complex.norm_mul_cos_arg (⟨x q, y q⟩ : ℂ)
    rw [Complex.norm_eq_sqrt_sq_add_sq] at this
    rw [div_mul_eq_mul_div]
    exact congrArg (· / tel.pr) this
  have hy : (cart2pol (x q) (y q)).1 / tel.pr * Real.sin (cart2pol (x q) (y q)).2 = y q / tel.pr := by
    have := Complex.norm_mul_sin_arg (⟨x q, y q⟩ : ℂ)
    rw [Complex.norm_eq_sqrt_sq_add_sq] at this
    rw [div_mul_eq_mul_div]
    exact congrArg (· / tel.pr) this
  simp only [wfVal_tilt n hn1, hx, hy]
  rw [mul_left_comm, ← Complex.exp_add]
  congr 2
  push_cast
  ring

/-- **C69.**  Tilt moves the beam, without changing its shape: the pattern with the tilt terms is the
far field of the aperture without them at coordinates shifted by `a λ / pr` and `b λ / pr`. -/
theorem C69_shift (I Ks : List ℝ) (k0 k1 k2 a b dz wavel : ℝ) (N : ℕ)
    (illum : Illum (Fin N × Fin N)) (tel : TelGeo (Fin N × Fin N)) (bf : ℝ) (P : Pattern N)
    (hpr : tel.pr ≠ 0) (hbf : bf ≠ 0) (hw : wavel ≠ 0)
    (h : radiationPattern I (k0 :: k1 :: k2 :: Ks) dz wavel illum tel bf = .ok P) :
    ∃ P' E, radiationPattern I (k0 :: (k1 + b) :: (k2 + a) :: Ks) dz wavel illum tel bf = .ok P' ∧
      P'.u = P.u ∧ P'.v = P.v ∧
      aperture (fun q => Spec.gridPoint tel.pr bf N q.2)
        (fun q => Spec.gridPoint tel.pr bf N q.1) I (k0 :: k1 :: k2 :: Ks) dz wavel illum tel = .ok E ∧
      ∀ i j, ‖P'.F (i, j)‖ = ‖Spec.farField tel.pr bf wavel E
        (P.u j - a * wavel / tel.pr) (P.v i - b * wavel / tel.pr)‖ := by
  have hN : 2 ≤ N := (radiationPattern_ok h).1
  obtain ⟨E, hE, -⟩ := C69_far_field _ _ dz wavel N illum tel bf P hpr hbf hw h
  have hE' := C69_aperture _ _ I Ks k0 k1 k2 a b dz wavel illum tel E hpr hE
  have hP' : ∃ P', radiationPattern I (k0 :: (k1 + b) :: (k2 + a) :: Ks) dz wavel illum tel bf =
      .ok P' := by
    rw [C14_ok_iff _ _ _ _ _ hN, linspace_grid]
    exact ⟨_, hE'⟩
  obtain ⟨P', hP'⟩ := hP'
  obtain ⟨E', hE'', hF⟩ := C69_far_field _ _ dz wavel N illum tel bf P' hpr hbf hw hP'
  rw [hE'] at hE''
  cases hE''
  have huv : P'.u = P.u ∧ P'.v = P.v := by
    obtain ⟨-, -, -, rfl⟩ := radiationPattern_ok h
    obtain ⟨-, -, -, rfl⟩ := radiationPattern_ok hP'
    exact ⟨rfl, rfl⟩
  refine ⟨P', E, hP', huv.1, huv.2, hE, fun i j => ?_⟩
  rw [hF, huv.1, huv.2]
  congr 1
  unfold Spec.farField
  refine sum_congr rfl fun s _ => sum_congr rfl fun t _ => ?_
  simp only
  rw [mul_comm (Complex.exp _), mul_assoc, ← Complex.exp_add]
  congr 2
  have hpr' : (tel.pr : ℂ) ≠ 0 := by exact_mod_cast hpr
  have hw' : (wavel : ℂ) ≠ 0 := by exact_mod_cast hw
  push_cast
  field_simp
  ring

/-- **C69.**  When the shift is a whole number of pixels the beam map is moved by that many pixels
(cyclically). -/
theorem C69_pixels (I Ks : List ℝ) (k0 k1 k2 dz wavel : ℝ) (s t : ℤ) (N : ℕ)
    (illum : Illum (Fin N × Fin N)) (tel : TelGeo (Fin N × Fin N)) (bf : ℝ) (P : Pattern N)
    (hpr : tel.pr ≠ 0) (hbf : bf ≠ 0)
    (h : radiationPattern I (k0 :: k1 :: k2 :: Ks) dz wavel illum tel bf = .ok P) :
    ∃ P', radiationPattern I (k0 :: (k1 + t * ((N : ℝ) - 1) / (2 * N * bf)) ::
        (k2 + s * ((N : ℝ) - 1) / (2 * N * bf)) :: Ks) dz wavel illum tel bf = .ok P' ∧
      P'.u = P.u ∧ P'.v = P.v ∧
      ∀ i j i' j' : Fin N, (N : ℤ) ∣ (i' : ℕ) - (i : ℕ) - t → (N : ℤ) ∣ (j' : ℕ) - (j : ℕ) - s →
        ‖P'.F (i', j')‖ = ‖P.F (i, j)‖ := by
  obtain ⟨hN, E, hE, rfl⟩ := radiationPattern_ok h
  have hN1 : (N : ℝ) - 1 ≠ 0 := by
    have : (2 : ℝ) ≤ N := by exact_mod_cast hN
    linarith
  have hN0 : (N : ℝ) ≠ 0 := by
    have : (2 : ℝ) ≤ N := by exact_mod_cast hN
    linarith
  have hE' := C69_aperture _ _ I Ks k0 k1 k2 (s * ((N : ℝ) - 1) / (2 * N * bf))
    (t * ((N : ℝ) - 1) / (2 * N * bf)) dz wavel illum tel E hpr hE
  rw [radiationPattern_eq _ _ _ _ hN, hE']
  refine ⟨_, rfl, rfl, rfl, fun i j i' j' hi hj => ?_⟩
  simp only
  rw [shifted_eq, shifted_eq]
  set c : ℂ := Complex.exp ((((-(Real.pi * ((N : ℝ) - 1) / N) * (s + t)) : ℝ) : ℂ) * Complex.I) with hc
  have hcn : ‖c‖ = 1 := Complex.norm_exp_ofReal_mul_I _
  rw [show ∀ X Y : ℂ, ‖X‖ = ‖Y‖ ↔ ‖X‖ = ‖c * Y‖ from fun X Y => by rw [norm_mul, hcn, one_mul]]
  congr 1
  rw [Finset.mul_sum]
  refine sum_congr rfl fun a _ => ?_
  rw [Finset.mul_sum]
  refine sum_congr rfl fun b _ => ?_
  rw [linspace_grid] at *
  have hph : Complex.exp (2 * Real.pi * (((s * ((N : ℝ) - 1) / (2 * N * bf) *
      Spec.gridPoint tel.pr bf N b + t * ((N : ℝ) - 1) / (2 * N * bf) *
      Spec.gridPoint tel.pr bf N a) / tel.pr : ℝ) : ℂ) * Complex.I) =
      c * ew N (-(s * ((b : ℕ) : ℤ) + t * ((a : ℕ) : ℤ))) := by
    rw [hc]
    unfold ew Spec.gridPoint
    rw [← Complex.exp_add]
    congr 1
    have hpr' : (tel.pr : ℂ) ≠ 0 := by exact_mod_cast hpr
    have hbf' : (bf : ℂ) ≠ 0 := by exact_mod_cast hbf
    have hN0' : (N : ℂ) ≠ 0 := by exact_mod_cast hN0
    have hN1' : (N : ℂ) - 1 ≠ 0 := by exact_mod_cast hN1
    push_cast
    field_simp
    ring
  simp only at hph ⊢
  rw [hph, mul_assoc, mul_assoc, mul_left_comm (ew _ _), ← ew_add]
  congr 2
  obtain ⟨d, hd⟩ := hi
  obtain ⟨e, he⟩ := hj
  rw [show -(s * ((b : ℕ) : ℤ) + t * ((a : ℕ) : ℤ)) +
      ((((i' : ℕ) : ℤ) - ((N / 2 : ℕ) : ℤ)) * ((a : ℕ) : ℤ) +
        (((j' : ℕ) : ℤ) - ((N / 2 : ℕ) : ℤ)) * ((b : ℕ) : ℤ)) =
      ((((i : ℕ) : ℤ) - ((N / 2 : ℕ) : ℤ)) * ((a : ℕ) : ℤ) +
        (((j : ℕ) : ℤ) - ((N / 2 : ℕ) : ℤ)) * ((b : ℕ) : ℤ)) +
        (N : ℤ) * (d * ((a : ℕ) : ℤ) + e * ((b : ℕ) : ℤ)) by
      linear_combination ((a : ℕ) : ℤ) * hd + ((b : ℕ) : ℤ) * he,
    ew_add, ew_mul_period (by omega), mul_one]

/-! ## C70 -/

/-- What the aperture is made of on the grid: blockage times illumination `a` and phase `φ`. -/
def Spec.Parts (I K : List ℝ) (dz wavel : ℝ) {N : ℕ} (illum : Illum (Fin N × Fin N))
    (tel : TelGeo (Fin N × Fin N)) (bf : ℝ) (a phi : Fin N × Fin N → ℝ) : Prop :=
  ∃ B W delta Ea, tel.block (fun q => Spec.gridPoint tel.pr bf N q.2)
      (fun q => Spec.gridPoint tel.pr bf N q.1) = .ok B ∧
    illum (fun q => Spec.gridPoint tel.pr bf N q.2)
      (fun q => Spec.gridPoint tel.pr bf N q.1) I tel.pr = .ok Ea ∧
    tel.opd (fun q => Spec.gridPoint tel.pr bf N q.2)
      (fun q => Spec.gridPoint tel.pr bf N q.1) dz = .ok delta ∧
    wavefront (fun q => Real.sqrt (Spec.gridPoint tel.pr bf N q.2 ^ 2 +
        Spec.gridPoint tel.pr bf N q.1 ^ 2) / tel.pr)
      (fun q => arctan2 (Spec.gridPoint tel.pr bf N q.1) (Spec.gridPoint tel.pr bf N q.2)) K = .ok W ∧
    (∀ q, a q = B q * Ea q) ∧ ∀ q, phi q = 2 * Real.pi * (W q + delta q / wavel)

theorem parts_of_pattern {I K : List ℝ} {dz wavel : ℝ} {N : ℕ} {illum : Illum (Fin N × Fin N)}
    {tel : TelGeo (Fin N × Fin N)} {bf : ℝ} {P : Pattern N}
    (h : radiationPattern I K dz wavel illum tel bf = .ok P)
    {a phi : Fin N × Fin N → ℝ} (hp : Spec.Parts I K dz wavel illum tel bf a phi) :
    P.F = fftshift2 (fft2 fun q => (a q : ℂ) * Complex.exp ((phi q : ℂ) * Complex.I)) := by
  obtain ⟨B, W, delta, Ea, h1, h2, h3, h4, ha, hphi⟩ := hp
  obtain ⟨hN, E, hE, rfl⟩ := radiationPattern_ok h
  have hE2 := (aperture_ok_iff (wavel := wavel)).2 ⟨B, W, delta, Ea, h1, h4, h3, h2, rfl⟩
  rw [linspace_grid] at hE
  have := hE.symm.trans hE2
  cases this
  have hE3 : (fun q => (a q : ℂ) * Complex.exp ((phi q : ℂ) * Complex.I)) =
      fun q => ((B q * Ea q : ℝ) : ℂ) *
        Complex.exp ((((W q + delta q / wavel) * 2 * Real.pi : ℝ) : ℂ) * Complex.I) := by
    funext q
    rw [ha, hphi, show 2 * Real.pi * (W q + delta q / wavel) =
      (W q + delta q / wavel) * 2 * Real.pi by ring]
  rw [hE3]

/-- Every pattern that is returned has such parts. -/
theorem C70_parts (I K : List ℝ) (dz wavel : ℝ) (N : ℕ) (illum : Illum (Fin N × Fin N))
    (tel : TelGeo (Fin N × Fin N)) (bf : ℝ) (P : Pattern N)
    (h : radiationPattern I K dz wavel illum tel bf = .ok P) :
    ∃ a phi, Spec.Parts I K dz wavel illum tel bf a phi := by
  obtain ⟨hN, E, hE, rfl⟩ := radiationPattern_ok h
  rw [linspace_grid] at hE
  obtain ⟨B, W, delta, Ea, h1, h2, h3, h4, -⟩ := aperture_ok_iff.1 hE
  exact ⟨_, _, B, W, delta, Ea, h1, h4, h3, h2, fun _ => rfl, fun _ => rfl⟩

/-- **C70.**  No point of the beam is above the sum of the aperture amplitudes. -/
theorem C70_bound (I K : List ℝ) (dz wavel : ℝ) (N : ℕ) (illum : Illum (Fin N × Fin N))
    (tel : TelGeo (Fin N × Fin N)) (bf : ℝ) (P : Pattern N) (a phi : Fin N × Fin N → ℝ)
    (h : radiationPattern I K dz wavel illum tel bf = .ok P)
    (hp : Spec.Parts I K dz wavel illum tel bf a phi) (q : Fin N × Fin N) :
    ‖P.F q‖ ≤ ∑ i, ∑ j, |a (i, j)| := by
  rw [parts_of_pattern h hp, shifted_eq]
  refine (norm_sum_le _ _).trans (sum_le_sum fun i _ => (norm_sum_le _ _).trans
    (sum_le_sum fun j _ => ?_))
  rw [norm_mul, ew_norm, mul_one, norm_mul, Complex.norm_exp_ofReal_mul_I, mul_one,
    Complex.norm_real, Real.norm_eq_abs]

theorem centre_value {I K : List ℝ} {dz wavel : ℝ} {N : ℕ} {illum : Illum (Fin N × Fin N)}
    {tel : TelGeo (Fin N × Fin N)} {bf : ℝ} {P : Pattern N}
    (h : radiationPattern I K dz wavel illum tel bf = .ok P)
    {a phi : Fin N × Fin N → ℝ} (hp : Spec.Parts I K dz wavel illum tel bf a phi)
    (c : Fin N) (hc : (c : ℕ) = N / 2) :
    P.F (c, c) = ∑ i, ∑ j, (a (i, j) : ℂ) * Complex.exp ((phi (i, j) : ℂ) * Complex.I) := by
  rw [parts_of_pattern h hp, shifted_eq]
  refine sum_congr rfl fun i _ => sum_congr rfl fun j _ => ?_
  rw [hc, sub_self, zero_mul, zero_mul, add_zero, ew_zero, mul_one]

/-- **C70.**  A dish without phase errors has its beam maximum on axis: if the phase is the same at
every point with amplitude and amplitudes are not negative then the centre pixel attains the bound,
so no pixel is above it. -/
theorem C70_on_axis (I K : List ℝ) (dz wavel : ℝ) (N : ℕ) (illum : Illum (Fin N × Fin N))
    (tel : TelGeo (Fin N × Fin N)) (bf : ℝ) (P : Pattern N) (a phi : Fin N × Fin N → ℝ)
    (h : radiationPattern I K dz wavel illum tel bf = .ok P)
    (hp : Spec.Parts I K dz wavel illum tel bf a phi) (ha : ∀ q, 0 ≤ a q)
    (phi0 : ℝ) (hphi : ∀ q, a q ≠ 0 → phi q = phi0) (c : Fin N) (hc : (c : ℕ) = N / 2) :
    ‖P.F (c, c)‖ = ∑ i, ∑ j, a (i, j) ∧ ∀ q, ‖P.F q‖ ≤ ‖P.F (c, c)‖ := by
  have hv : ‖P.F (c, c)‖ = ∑ i, ∑ j, a (i, j) := by
    have hcv : P.F (c, c) = ((∑ i, ∑ j, a (i, j) : ℝ) : ℂ) * Complex.exp ((phi0 : ℂ) * Complex.I) := by
      rw [centre_value h hp c hc]
      push_cast
      rw [Finset.sum_mul]
      refine sum_congr rfl fun i _ => ?_
      rw [Finset.sum_mul]
      refine sum_congr rfl fun j _ => ?_
      by_cases h0 : a (i, j) = 0
      · simp [h0]
      · rw [hphi _ h0]
    rw [hcv, norm_mul, Complex.norm_exp_ofReal_mul_I, mul_one, Complex.norm_real, Real.norm_eq_abs,
      abs_of_nonneg (sum_nonneg fun i _ => sum_nonneg fun j _ => ha _)]
  refine ⟨hv, fun q => ?_⟩
  rw [hv]
  refine (C70_bound I K dz wavel N illum tel bf P a phi h hp q).trans (le_of_eq ?_)
  exact sum_congr rfl fun i _ => sum_congr rfl fun j _ => abs_of_nonneg (ha _)

/-- **C70.**  In particular with all aberration coefficients zero and no path difference. -/
theorem C70_perfect (I : List ℝ) (n : ℕ) (dz wavel : ℝ) (N : ℕ) (illum : Illum (Fin N × Fin N))
    (tel : TelGeo (Fin N × Fin N)) (bf : ℝ) (P : Pattern N) (B Ea : Fin N × Fin N → ℝ)
    (h : radiationPattern I (List.replicate ((n + 1) * (n + 2) / 2) 0) dz wavel illum tel bf = .ok P)
    (hB : tel.block (fun q => Spec.gridPoint tel.pr bf N q.2)
      (fun q => Spec.gridPoint tel.pr bf N q.1) = .ok B)
    (hI : illum (fun q => Spec.gridPoint tel.pr bf N q.2)
      (fun q => Spec.gridPoint tel.pr bf N q.1) I tel.pr = .ok Ea)
    (hopd : tel.opd (fun q => Spec.gridPoint tel.pr bf N q.2)
      (fun q => Spec.gridPoint tel.pr bf N q.1) dz = .ok fun _ => 0)
    (ha : ∀ q, 0 ≤ B q * Ea q) (c : Fin N) (hc : (c : ℕ) = N / 2) :
    ‖P.F (c, c)‖ = ∑ i, ∑ j, B (i, j) * Ea (i, j) ∧ ∀ q, ‖P.F q‖ ≤ ‖P.F (c, c)‖ := by
  have hW := wavefront_ok (fun q : Fin N × Fin N => Real.sqrt (Spec.gridPoint tel.pr bf N q.2 ^ 2 +
        Spec.gridPoint tel.pr bf N q.1 ^ 2) / tel.pr)
      (fun q => arctan2 (Spec.gridPoint tel.pr bf N q.1) (Spec.gridPoint tel.pr bf N q.2))
      (List.replicate ((n + 1) * (n + 2) / 2) 0) n (by simp [tri])
  refine C70_on_axis _ _ dz wavel N illum tel bf P (fun q => B q * Ea q) _ h
    ⟨B, _, _, Ea, hB, hI, hopd, hW, fun _ => rfl, fun _ => rfl⟩ ha 0 (fun q _ => ?_) c hc
  have : ∀ k : ℕ, (List.replicate ((n + 1) * (n + 2) / 2) (0 : ℝ)).getD k 0 = 0 := by
    intro k
    by_cases hk : k < (n + 1) * (n + 2) / 2
    · simp [List.getD_eq_getElem?_getD, List.getElem?_replicate, hk]
    · simp [List.getD_eq_getElem?_getD, List.getElem?_replicate, hk]
  simp only [wfVal, this]
  simp

/-- **C70.**  The lower bound of Maréchal: the on-axis amplitude loses at most half the weighted mean
square of the phase error about any reference phase. -/
theorem C70_marechal (I K : List ℝ) (dz wavel : ℝ) (N : ℕ) (illum : Illum (Fin N × Fin N))
    (tel : TelGeo (Fin N × Fin N)) (bf : ℝ) (P : Pattern N) (a phi : Fin N × Fin N → ℝ)
    (h : radiationPattern I K dz wavel illum tel bf = .ok P)
    (hp : Spec.Parts I K dz wavel illum tel bf a phi) (ha : ∀ q, 0 ≤ a q)
    (phi0 : ℝ) (c : Fin N) (hc : (c : ℕ) = N / 2) :
    ∑ i, ∑ j, a (i, j) - (∑ i, ∑ j, a (i, j) * (phi (i, j) - phi0) ^ 2) / 2 ≤ ‖P.F (c, c)‖ := by
  have hre : (Complex.exp (((-phi0 : ℝ) : ℂ) * Complex.I) * P.F (c, c)).re =
      ∑ i, ∑ j, a (i, j) * Real.cos (phi (i, j) - phi0) := by
    rw [centre_value h hp c hc, Finset.mul_sum, Complex.re_sum]
    refine sum_congr rfl fun i _ => ?_
    rw [Finset.mul_sum, Complex.re_sum]
    refine sum_congr rfl fun j _ => ?_
    rw [mul_left_comm, ← Complex.exp_add, ← add_mul, ← Complex.ofReal_add, Complex.re_ofReal_mul,
      Complex.exp_ofReal_mul_I_re]
    congr 2
    ring
  have hle : (Complex.exp (((-phi0 : ℝ) : ℂ) * Complex.I) * P.F (c, c)).re ≤ ‖P.F (c, c)‖ := by
    refine (Complex.re_le_norm _).trans (le_of_eq ?_)
    rw [norm_mul, Complex.norm_exp_ofReal_mul_I, one_mul]
  refine le_trans ?_ (hre ▸ hle)
  rw [Finset.sum_div, ← Finset.sum_sub_distrib]
  refine sum_le_sum fun i _ => ?_
  rw [Finset.sum_div, ← Finset.sum_sub_distrib]
  refine sum_le_sum fun j _ => ?_
  have := mul_le_mul_of_nonneg_left (Real.one_sub_sq_div_two_le_cos (x := phi (i, j) - phi0)) (ha (i, j))
  linarith

/-- **C70.**  The bound is attained on axis only without phase error: then the phases agree modulo a
turn wherever there is amplitude. -/
theorem C70_strict (I K : List ℝ) (dz wavel : ℝ) (N : ℕ) (illum : Illum (Fin N × Fin N))
    (tel : TelGeo (Fin N × Fin N)) (bf : ℝ) (P : Pattern N) (a phi : Fin N × Fin N → ℝ)
    (h : radiationPattern I K dz wavel illum tel bf = .ok P)
    (hp : Spec.Parts I K dz wavel illum tel bf a phi) (ha : ∀ q, 0 ≤ a q)
    (c : Fin N) (hc : (c : ℕ) = N / 2) (heq : ‖P.F (c, c)‖ = ∑ i, ∑ j, a (i, j)) :
    ∀ q q', a q ≠ 0 → a q' ≠ 0 → ∃ k : ℤ, phi q = phi q' + k * (2 * Real.pi) := by
  -- turn the on-axis value to the positive real axis
  set psi : ℝ := (P.F (c, c)).arg with hpsi
  have hturn : (Complex.exp (((-psi : ℝ) : ℂ) * Complex.I) * P.F (c, c)).re = ‖P.F (c, c)‖ := by
    conv_lhs => rw [← Complex.norm_mul_exp_arg_mul_I (P.F (c, c))]
    rw [← hpsi, mul_left_comm, ← Complex.exp_add, ← add_mul, ← Complex.ofReal_add, neg_add_cancel]
    simp
  have hre : (Complex.exp (((-psi : ℝ) : ℂ) * Complex.I) * P.F (c, c)).re =
      ∑ i, ∑ j, a (i, j) * Real.cos (phi (i, j) - psi) := by
    rw [centre_value h hp c hc, Finset.mul_sum, Complex.re_sum]
    refine sum_congr rfl fun i _ => ?_
    rw [Finset.mul_sum, Complex.re_sum]
    refine sum_congr rfl fun j _ => ?_
    rw [mul_left_comm, ← Complex.exp_add, ← add_mul, ← Complex.ofReal_add, Complex.re_ofReal_mul,
      Complex.exp_ofReal_mul_I_re]
    congr 2
    ring
  have hsum : ∑ q : Fin N × Fin N, a q * (1 - Real.cos (phi q - psi)) = 0 := by
    rw [Fintype.sum_prod_type]
    have : ∑ i, ∑ j, a (i, j) * Real.cos (phi (i, j) - psi) = ∑ i, ∑ j, a (i, j) := by
      rw [← hre, hturn, heq]
    simp only [mul_sub, mul_one, Finset.sum_sub_distrib]
    rw [this, sub_self]
  have hz := (Finset.sum_eq_zero_iff_of_nonneg (fun q _ => mul_nonneg (ha q)
    (by linarith [Real.cos_le_one (phi q - psi)]))).1 hsum
  have hone : ∀ q, a q ≠ 0 → ∃ k : ℤ, (k : ℝ) * (2 * Real.pi) = phi q - psi := by
    intro q hq
    rcases mul_eq_zero.1 (hz q (mem_univ q)) with h' | h'
    · exact absurd h' hq
    · exact (Real.cos_eq_one_iff _).1 (by linarith)
  intro q q' hq hq'
  obtain ⟨k, hk⟩ := hone q hq
  obtain ⟨k', hk'⟩ := hone q' hq'
  refine ⟨k - k', ?_⟩
  push_cast
  linarith

/-- **C70.**  A telescope of manual geometry with a gaussian illumination, in focus and without
aberrations, has its beam maximum on axis, wherever the illumination is centred. -/
theorem C70_gauss_in_focus (i c x0 y0 pr sr l L Fp F wavel bf : ℝ) (n N : ℕ) (hN : 2 ≤ N)
    (hi : 0 ≤ i) (m : Fin N) (hm : (m : ℕ) = N / 2) :
    ∃ P, radiationPattern [i, c, x0, y0] (List.replicate ((n + 1) * (n + 2) / 2) 0) 0 wavel (N := N)
        illumGauss (manualTel pr sr l L Fp F) bf = .ok P ∧
      ∀ q, ‖P.F q‖ ≤ ‖P.F (m, m)‖ := by
  have hP : ∃ P, radiationPattern [i, c, x0, y0] (List.replicate ((n + 1) * (n + 2) / 2) 0) 0 wavel
      (N := N) illumGauss (manualTel pr sr l L Fp F) bf = .ok P := by
    rw [C14_ok_iff _ _ _ _ _ hN]
    exact ⟨_, aperture_ok_iff.2 ⟨_, _, _, _, rfl, wavefront_ok _ _ _ n (by simp [tri]), rfl, rfl, rfl⟩⟩
  obtain ⟨P, hP⟩ := hP
  refine ⟨P, hP, (C70_perfect _ n 0 wavel N _ _ bf P _ _ hP rfl rfl ?_ ?_ m hm).2⟩
  · show Except.ok _ = Except.ok _
    congr 1
    funext q
    simp [opdAt]
  · intro q
    refine mul_nonneg ?_ ?_
    · simp only [setWhere]
      split_ifs <;> norm_num
    · simp only [gaussAt, offset]
      positivity

/-- The pattern of `pattern_example` with tilts of 3 pixels in u and −5 in v. -/
example : ∃ P P' : Pattern 256, ∀ i j i' j' : Fin 256, (256 : ℤ) ∣ (i' : ℕ) - (i : ℕ) - (-5) →
    (256 : ℤ) ∣ (j' : ℕ) - (j : ℕ) - 3 → ‖P'.F (i', j')‖ = ‖P.F (i, j)‖ := by
  obtain ⟨P, h⟩ := pattern_example 256 (by norm_num)
  obtain ⟨P', -, -, -, h'⟩ := C69_pixels _ [] _ _ _ _ _ 3 (-5) 256 _ _ 5 P
    (by norm_num [manualTel]) (by norm_num) h
  exact ⟨P, P', fun i j i' j' hi hj => h' i j i' j' (by exact_mod_cast hi) (by exact_mod_cast hj)⟩

/-- The same pattern is bounded by its aperture amplitudes. -/
example : ∃ (P : Pattern 256) (a phi : Fin 256 × Fin 256 → ℝ),
    Spec.Parts [1, -14, 0, 0] [0.1, 0.2, 0.3] 0.02 0.009 illumGauss (manualTel 50 3.25 1 20 30 387.4) 5
      a phi ∧ ∀ q, ‖P.F q‖ ≤ ∑ i, ∑ j, |a (i, j)| := by
  obtain ⟨P, h⟩ := pattern_example 256 (by norm_num)
  obtain ⟨a, phi, hp⟩ := C70_parts _ _ _ _ _ _ _ _ P h
  exact ⟨P, a, phi, hp, C70_bound _ _ _ _ _ _ _ _ P a phi h hp⟩

end Verif.Props
