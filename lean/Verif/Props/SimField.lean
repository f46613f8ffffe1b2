import Verif.Props.Field
import Verif.Props.BadPixel

/-!
# Which grids can fit a simulated observation (C150)
-/

namespace Verif.Props

open Verif Verif.Np Verif.MathFn Verif.Fs Verif.Aperture Verif.AuxFn Verif.Core Verif.Sim Verif.Telgeometry Verif.Zernike Finset

/-- A number is stored in single precision: 24 digits, and steps of `2^-149` next to zero. -/
def Spec.Single (f32 : ℝ → ℝ) : Prop :=
  ∀ y, |y| < 2 ^ 127 → |f32 y - y| ≤ max |y| ((1 / 2) ^ 126) / 2 ^ 24

/-- The coordinate of the pixel `k` of a grid of `N` pixels. -/
noncomputable def Spec.simNode (pr bf wavel : ℝ) (N k : ℕ) : ℝ := ((k : ℝ) - ((N / 2 : ℕ) : ℝ)) * Spec.beamPixel pr bf wavel N

/-- **C150** the coordinates in a simulated file are those of the pixels inside the limit, in single precision; all of
them are there. -/
theorem C150_coordinates {N : ℕ} (a : Sim.Input N) (fs fs' fs'' : FS File) (l : List Hdu)
    (hw : Spec.Proper a.workDir) (h : (simulate a).run fs = (.ok l, fs')) (i : ℕ)
    (hi : fs (Spec.simFile a.workDir i) = none) (hj : ∀ j < i, fs (Spec.simFile a.workDir j) ≠ none)
    (hsame : fs'' (Spec.simFile a.workDir i) = fs' (Spec.simFile a.workDir i))
    (hpr : 0 < a.tel.pr) (hbf : 0 < a.boxFactor) (hwl : 0 < a.wavel) :
    ∃ x M, extractPyoof (fitsOpen fs'') (pathStr (Spec.simFile a.workDir i)) = .ok x ∧ 0 < M ∧
      (∀ k : Fin 3, (x.beam.getD k []).length = M ∧ (x.u.getD k []).length = M ∧ (x.v.getD k []).length = M) ∧
      x.wavel = .fin a.wavel ∧ x.dz = [a.dz 0, a.dz 1, a.dz 2] ∧
      (∀ q, (∃ k < N, |Spec.simNode a.tel.pr a.boxFactor a.wavel N k| < Spec.limit a.wavel a.tel.pr ∧
          Spec.maps M x.u q = a.f32 (Spec.simNode a.tel.pr a.boxFactor a.wavel N k)) ∧
        ∃ k < N, |Spec.simNode a.tel.pr a.boxFactor a.wavel N k| < Spec.limit a.wavel a.tel.pr ∧
          Spec.maps M x.v q = a.f32 (Spec.simNode a.tel.pr a.boxFactor a.wavel N k)) ∧
      ∀ k < N, |Spec.simNode a.tel.pr a.boxFactor a.wavel N k| < Spec.limit a.wavel a.tel.pr → ∀ j, ∃ m,
        Spec.maps M x.u (j, m) = a.f32 (Spec.simNode a.tel.pr a.boxFactor a.wavel N k) := by
  obtain ⟨x, hx, -, -, -, -, hdz, hwv, -, -, -, -, hk⟩ := C57_extract a fs fs' fs'' l hw h i hi hj hsame
  choose P J hP hin hcol using hk
  have hN : 2 ≤ N := (radiationPattern_ok (hP 0)).1
  have hnode : ∀ (j : Fin 3) (k : Fin N), (P j).u k = Spec.simNode a.tel.pr a.boxFactor a.wavel N k ∧
      (P j).v k = Spec.simNode a.tel.pr a.boxFactor a.wavel N k := by
    intro j k
    obtain ⟨-, _, -, e⟩ := radiationPattern_ok (hP j)
    rw [e]
    exact ⟨axis_pixel _ _ _ hN hpr hbf _, axis_pixel _ _ _ hN hpr hbf _⟩
  have hu : ∀ k, (P k).u = (P 0).u := by
    intro k
    funext j
    rw [(hnode k j).1, (hnode 0 j).1]
  have hJ : ∀ k, J k = J 0 := fun k => inside_unique (hu k) (hin k) (hin 0)
  have hlim : 0 < Spec.limit a.wavel a.tel.pr := by unfold Spec.limit; positivity
  have hcen : (⟨N / 2, by omega⟩ : Fin N) ∈ J 0 := by
    rw [(hin 0).2, (hnode 0 _).1]
    simpa [Spec.simNode] using hlim
  obtain ⟨n, hn⟩ : ∃ n, n = (J 0).length := ⟨_, rfl⟩
  have hn0 : 0 < n := by rw [hn]; exact List.length_pos_of_mem hcen
  have hlen : ∀ k, (J k).length = n := fun k => by rw [hJ k, hn]
  have hval : ∀ (k : Fin 3) (r c : ℕ) (hr : r < (J k).length) (hc : c < (J k).length),
      (x.u.getD k []).getD (r * n + c) 0 = a.f32 ((P k).u (J k)[c]) ∧
      (x.v.getD k []).getD (r * n + c) 0 = a.f32 ((P k).v (J k)[r]) := by
    intro k r c hr hc
    obtain ⟨-, -, -, c4⟩ := hcol k
    have e := c4 r c hr hc
    rw [hlen] at e
    constructor
    · rw [List.getD, e.2.1]; rfl
    · rw [List.getD, e.2.2]; rfl
  refine ⟨x, n * n, hx, Nat.mul_pos hn0 hn0, fun k => ?_, hwv, hdz, ?_, ?_⟩
  · obtain ⟨c1, c2, c3, -⟩ := hcol k
    rw [hlen] at c1 c2 c3
    exact ⟨c1, c2, c3⟩
  · rintro ⟨k, m⟩
    have hd : (m : ℕ) / n < (J k).length := by rw [hlen]; exact Nat.div_lt_of_lt_mul m.isLt
    have hm : (m : ℕ) % n < (J k).length := by rw [hlen]; exact Nat.mod_lt _ hn0
    obtain ⟨e1, e2⟩ := hval k _ _ hd hm
    rw [Nat.div_add_mod'] at e1 e2
    have i1 := ((hin k).2 _).1 (List.getElem_mem hm)
    have i2 := ((hin k).2 _).1 (List.getElem_mem hd)
    rw [(hnode k _).1] at i1 i2 e1
    rw [(hnode k _).2] at e2
    exact ⟨⟨_, ((J k)[(m : ℕ) % n]).isLt, i1, e1⟩, _, ((J k)[(m : ℕ) / n]).isLt, i2, e2⟩
  · intro k hkN hk j
    have hmem : (⟨k, hkN⟩ : Fin N) ∈ J j := by
      rw [(hin j).2, (hnode j _).1]
      exact hk
    obtain ⟨c, hc, hce⟩ := List.getElem_of_mem hmem
    have h0 : 0 < (J j).length := by rw [hlen]; exact hn0
    obtain ⟨e1, -⟩ := hval j 0 c h0 hc
    rw [hce, (hnode j _).1] at e1
    have hcn : c < n := by rw [← hlen j]; exact hc
    refine ⟨⟨0 * n + c, ?_⟩, e1⟩
    calc 0 * n + c = c := by ring
      _ < n := hcn
      _ ≤ n * n := Nat.le_mul_of_pos_left _ hn0

/-- **C150** a simulated observation, with noise or without, is accepted by a fit with `N'` pixels and the box factor `bf'`
when `9.76 (1 + 2^-24) N' bf' ≤ ((N' - 1) // 2) (N' - 1)`, whatever the wavelength, the radius, the grid of the simulation,
the parameters of the fit and the excluded ones. -/
theorem C150_fit {N N' : ℕ} (a : Sim.Input N) (fs fs' fs'' : FS File) (l : List Hdu)
    (hw : Spec.Proper a.workDir) (h : (simulate a).run fs = (.ok l, fs')) (i : ℕ)
    (hi : fs (Spec.simFile a.workDir i) = none) (hj : ∀ j < i, fs (Spec.simFile a.workDir j) ≠ none)
    (hsame : fs'' (Spec.simFile a.workDir i) = fs' (Spec.simFile a.workDir i))
    (hpr : 0 < a.tel.pr) (hbf : 0 < a.boxFactor) (hwl : 0 < a.wavel) (hf32 : Spec.Single a.f32)
    (htiny : (1 / 2) ^ 126 ≤ Spec.limit a.wavel a.tel.pr) (hlarge : Spec.limit a.wavel a.tel.pr ≤ 2 ^ 127)
    (hN : 2 ≤ N') (bf' : ℝ) (hbf' : 0 < bf')
    (hgrid : 9.76 * (1 + 1 / 2 ^ 24) * N' * bf' ≤ (((N' - 1) / 2 : ℕ) : ℝ) * ((N' : ℝ) - 1)) :
    ∃ x M, extractPyoof (fitsOpen fs'') (pathStr (Spec.simFile a.workDir i)) = .ok x ∧ 0 < M ∧
      (∀ k : Fin 3, (x.beam.getD k []).length = M ∧ (x.u.getD k []).length = M ∧ (x.v.getD k []).length = M) ∧
      x.wavel = .fin a.wavel ∧
      ∀ (cfg : Config) (S : List ℕ) (_ : cfg.excluded = S.map (fun e : ℕ => (e : ℤ))) (_ : S.Pairwise (· < ·))
        (_ : ∀ e ∈ S, e ≤ 7) (_ : cfg.fixed.length = 8) (n : ℕ) (_ : 1 ≤ n) (p : List ℝ)
        (_ : p.length + S.length = 5 + tri (n + 1)) (illum : Illum (Fin N' × Fin N'))
        (_ : illum = illumGauss ∨ illum = illumParabolic) (tel : TelGeo (Fin N' × Fin N'))
        (_ : (∃ pr sr l L Fp F, tel = manualTel pr sr l L Fp F) ∨ ∃ alpha, tel = effelsbergTel alpha)
        (_ : tel.pr = a.tel.pr),
        ∃ r, Core.residual p (tri (n + 1)) (fun q => .fin (Spec.maps M x.beam q)) (Spec.maps M x.u) (Spec.maps M x.v)
          (fun k => x.dz.getD k 0) a.wavel illum tel bf' cfg = .ok r := by
  obtain ⟨x, M, hx, hM, hlen, hwv, -, hin, -⟩ := C150_coordinates a fs fs' fs'' l hw h i hi hj hsame hpr hbf hwl
  refine ⟨x, M, hx, hM, hlen, hwv, ?_⟩
  intro cfg S h1 h2 h3 h4 n h5 p h6 illum h7 tel h8 h9
  have hN0 : (2 : ℝ) ≤ N' := by exact_mod_cast hN
  have hfield : ∀ y, |y| < Spec.limit a.wavel a.tel.pr → Spec.InField tel.pr bf' a.wavel N' (a.f32 y) := by
    intro y hy
    rw [h9]
    refine (C149_edges a.tel.pr bf' a.wavel N' hN hpr hbf' hwl).1 _ ?_
    have e1 : |a.f32 y| ≤ Spec.limit a.wavel a.tel.pr * (1 + 1 / 2 ^ 24) := by
      have e2 := hf32 y (hy.trans_le hlarge)
      have e3 : max |y| ((1 / 2) ^ 126) ≤ Spec.limit a.wavel a.tel.pr := max_le hy.le htiny
      have e4 : max |y| ((1 / 2) ^ 126) / 2 ^ 24 ≤ Spec.limit a.wavel a.tel.pr / 2 ^ 24 := by gcongr
      have e5 : |a.f32 y| ≤ |y| + |a.f32 y - y| := by
        have := abs_add_le y (a.f32 y - y)
        rwa [add_sub_cancel] at this
      linarith
    refine e1.trans ?_
    have hc : 0 < a.wavel / (2 * a.tel.pr * bf' * N') := by positivity
    have := mul_le_mul_of_nonneg_right hgrid hc.le
    refine le_trans (le_of_eq ?_) (this.trans (le_of_eq ?_))
    · unfold Spec.limit
      field_simp
      norm_num
    · unfold Spec.beamPixel
      field_simp
  refine (C149_package hN hM cfg S h1 h2 h3 h4 n h5 p h6 _ _ _ _ a.wavel illum h7 tel h8 bf' (h9 ▸ hpr) hbf' hwl).1 fun q => ?_
  obtain ⟨⟨k, -, k1, k2⟩, k', -, k3, k4⟩ := hin q
  rw [k2, k4]
  exact ⟨hfield _ k1, hfield _ k3⟩

/-- **C150** and it is refused, whatever the parameters, when one of its coordinates is outside the field. -/
theorem C150_refused {N N' : ℕ} (a : Sim.Input N) (fs fs' fs'' : FS File) (l : List Hdu)
    (hw : Spec.Proper a.workDir) (h : (simulate a).run fs = (.ok l, fs')) (i : ℕ)
    (hi : fs (Spec.simFile a.workDir i) = none) (hj : ∀ j < i, fs (Spec.simFile a.workDir j) ≠ none)
    (hsame : fs'' (Spec.simFile a.workDir i) = fs' (Spec.simFile a.workDir i))
    (hpr : 0 < a.tel.pr) (hbf : 0 < a.boxFactor) (hwl : 0 < a.wavel) (hN : 2 ≤ N') (bf' : ℝ) (hbf' : 0 < bf')
    (k : ℕ) (hk : k < N) (hlim : |Spec.simNode a.tel.pr a.boxFactor a.wavel N k| < Spec.limit a.wavel a.tel.pr)
    (hout : ¬ Spec.InField a.tel.pr bf' a.wavel N' (a.f32 (Spec.simNode a.tel.pr a.boxFactor a.wavel N k))) :
    ∃ x M, extractPyoof (fitsOpen fs'') (pathStr (Spec.simFile a.workDir i)) = .ok x ∧ 0 < M ∧
      (∀ k : Fin 3, (x.beam.getD k []).length = M ∧ (x.u.getD k []).length = M ∧ (x.v.getD k []).length = M) ∧
      ∀ (cfg : Config) (S : List ℕ) (_ : cfg.excluded = S.map (fun e : ℕ => (e : ℤ))) (_ : S.Pairwise (· < ·))
        (_ : ∀ e ∈ S, e ≤ 7) (_ : cfg.fixed.length = 8) (n : ℕ) (_ : 1 ≤ n) (p : List ℝ)
        (_ : p.length + S.length = 5 + tri (n + 1)) (illum : Illum (Fin N' × Fin N'))
        (_ : illum = illumGauss ∨ illum = illumParabolic) (tel : TelGeo (Fin N' × Fin N'))
        (_ : (∃ pr sr l L Fp F, tel = manualTel pr sr l L Fp F) ∨ ∃ alpha, tel = effelsbergTel alpha)
        (_ : tel.pr = a.tel.pr),
        Core.residual p (tri (n + 1)) (fun q => .fin (Spec.maps M x.beam q)) (Spec.maps M x.u) (Spec.maps M x.v)
          (fun k => x.dz.getD k 0) a.wavel illum tel bf' cfg = .error .valueError := by
  obtain ⟨x, M, hx, hM, hlen, -, -, -, hall⟩ := C150_coordinates a fs fs' fs'' l hw h i hi hj hsame hpr hbf hwl
  refine ⟨x, M, hx, hM, hlen, ?_⟩
  intro cfg S h1 h2 h3 h4 n h5 p h6 illum h7 tel h8 h9
  obtain ⟨m, hm⟩ := hall k hk hlim 0
  refine (C149_package hN hM cfg S h1 h2 h3 h4 n h5 p h6 _ _ _ _ a.wavel illum h7 tel h8 bf' (h9 ▸ hpr) hbf' hwl).2
    ⟨(0, m), fun hc => hout ?_⟩
  rw [← hm, ← h9]
  exact hc.1

/-- With few pixels the map reaches the last pixel of the grid. -/
theorem edge_node {N : ℕ} (pr bf wavel : ℝ) (hN : 2 ≤ N) (hpr : 0 < pr) (hbf : 0 < bf) (hwl : 0 < wavel) (f32 : ℝ → ℝ)
    (hgrid : (((N - 1) / 2 : ℕ) : ℝ) * ((N : ℝ) - 1) < 9.76 * N * bf)
    (hup : Spec.simNode pr bf wavel N (N - 1) < f32 (Spec.simNode pr bf wavel N (N - 1))) :
    |Spec.simNode pr bf wavel N (N - 1)| < Spec.limit wavel pr ∧
      ¬ Spec.InField pr bf wavel N (f32 (Spec.simNode pr bf wavel N (N - 1))) := by
  have hN0 : (2 : ℝ) ≤ N := by exact_mod_cast hN
  have hp := beamPixel_pos pr bf wavel hN hpr hbf hwl
  have e : Spec.simNode pr bf wavel N (N - 1) = (((N - 1) / 2 : ℕ) : ℝ) * Spec.beamPixel pr bf wavel N := by
    have h : N - 1 = (N - 1) / 2 + N / 2 := by omega
    have e : ((N - 1 : ℕ) : ℝ) = (((N - 1) / 2 : ℕ) : ℝ) + ((N / 2 : ℕ) : ℝ) := by exact_mod_cast h
    unfold Spec.simNode
    rw [e]
    ring
  rw [e] at hup ⊢
  constructor
  · rw [abs_of_nonneg (by positivity)]
    have hc : 0 < wavel / (2 * pr * bf * N) := by positivity
    have := mul_lt_mul_of_pos_right hgrid hc
    refine lt_of_eq_of_lt ?_ (this.trans_eq ?_)
    · unfold Spec.beamPixel
      field_simp
    · unfold Spec.limit
      field_simp
      norm_num
  · rintro ⟨-, h⟩
    exact absurd h (not_le.2 hup)

/-- **C150** the grid of the simulation itself: with few pixels, `((N - 1) // 2) (N - 1) < 9.76 N box_factor`, the map
reaches the last pixel of the grid, and if its coordinate is rounded up in single precision, then a fit with the same grid
refuses the map, whatever the parameters. -/
theorem C150_own {N : ℕ} (a : Sim.Input N) (fs fs' fs'' : FS File) (l : List Hdu)
    (hw : Spec.Proper a.workDir) (h : (simulate a).run fs = (.ok l, fs')) (i : ℕ)
    (hi : fs (Spec.simFile a.workDir i) = none) (hj : ∀ j < i, fs (Spec.simFile a.workDir j) ≠ none)
    (hsame : fs'' (Spec.simFile a.workDir i) = fs' (Spec.simFile a.workDir i))
    (hpr : 0 < a.tel.pr) (hbf : 0 < a.boxFactor) (hwl : 0 < a.wavel) (hN : 2 ≤ N)
    (hgrid : (((N - 1) / 2 : ℕ) : ℝ) * ((N : ℝ) - 1) < 9.76 * N * a.boxFactor)
    (hup : Spec.simNode a.tel.pr a.boxFactor a.wavel N (N - 1) < a.f32 (Spec.simNode a.tel.pr a.boxFactor a.wavel N (N - 1))) :
    ∃ x M, extractPyoof (fitsOpen fs'') (pathStr (Spec.simFile a.workDir i)) = .ok x ∧ 0 < M ∧
      (∀ k : Fin 3, (x.beam.getD k []).length = M ∧ (x.u.getD k []).length = M ∧ (x.v.getD k []).length = M) ∧
      ∀ (cfg : Config) (S : List ℕ) (_ : cfg.excluded = S.map (fun e : ℕ => (e : ℤ))) (_ : S.Pairwise (· < ·))
        (_ : ∀ e ∈ S, e ≤ 7) (_ : cfg.fixed.length = 8) (n : ℕ) (_ : 1 ≤ n) (p : List ℝ)
        (_ : p.length + S.length = 5 + tri (n + 1)) (illum : Illum (Fin N × Fin N))
        (_ : illum = illumGauss ∨ illum = illumParabolic) (tel : TelGeo (Fin N × Fin N))
        (_ : (∃ pr sr l L Fp F, tel = manualTel pr sr l L Fp F) ∨ ∃ alpha, tel = effelsbergTel alpha)
        (_ : tel.pr = a.tel.pr),
        Core.residual p (tri (n + 1)) (fun q => .fin (Spec.maps M x.beam q)) (Spec.maps M x.u) (Spec.maps M x.v)
          (fun k => x.dz.getD k 0) a.wavel illum tel a.boxFactor cfg = .error .valueError := by
  obtain ⟨h1, h2⟩ := edge_node a.tel.pr a.boxFactor a.wavel hN hpr hbf hwl a.f32 hgrid hup
  exact C150_refused a fs fs' fs'' l hw h i hi hj hsame hpr hbf hwl hN a.boxFactor hbf (N - 1) (by omega) h1 h2

/-! ## Cases -/

/-- A telescope of radius 50 m. -/
noncomputable def Spec.dish50 (N : ℕ) : TelGeo (Fin N × Fin N) := manualTel 50 3.25 1 20 30 387.39435

/-- The maps simulated with 512 pixels and box factor 5 can be fitted with 128 pixels but not with 64. -/
example : ∃ fs' x M, 0 < M ∧ extractPyoof (fitsOpen fs') "/home/data_generated/test001.fits".toList = .ok x ∧
    ∀ p : List ℝ, p.length = 21 →
      (∃ r, Core.residual p 21 (fun q => .fin (Spec.maps M x.beam q)) (Spec.maps M x.u) (Spec.maps M x.v)
        (fun k => x.dz.getD k 0) 0.009 illumGauss (Spec.dish50 128) 5 defaultConfig = .ok r) ∧
      Core.residual p 21 (fun q => .fin (Spec.maps M x.beam q)) (Spec.maps M x.u) (Spec.maps M x.v)
        (fun k => x.dz.getD k 0) 0.009 illumGauss (Spec.dish50 64) 5 defaultConfig = .error .valueError := by
  have hz : Spec.DzOk (tieInput 512 5).dz := by
    refine ⟨?_, ?_, ?_⟩ <;> simp [tieInput] <;> norm_num
  obtain ⟨l, fs', h⟩ := C54_accepts (tieInput 512 5) hz sample_computes (by simp [tieInput])
    sampleSimFs (by decide) (.inr (by decide)) ⟨1, by norm_num, by decide⟩
  have hp : Spec.Proper (tieInput 512 5).workDir := by
    intro f hf
    simp only [tieInput, List.mem_singleton] at hf
    subst hf
    exact ⟨by decide, by decide⟩
  have h1 : sampleSimFs (Spec.simFile (tieInput 512 5).workDir 1) = none := by decide
  have h2 : ∀ j < 1, sampleSimFs (Spec.simFile (tieInput 512 5).workDir j) ≠ none := fun j hj => by
    have : j = 0 := by omega
    subst this
    decide
  have hS : ([1, 2, 3, 4, 5] : List ℕ).Pairwise (· < ·) := by decide
  have q1 : 0 < (tieInput 512 5).tel.pr := by norm_num [tieInput]
  have q2 : 0 < (tieInput 512 5).boxFactor := by norm_num [tieInput]
  have q3 : 0 < (tieInput 512 5).wavel := by norm_num [tieInput]
  obtain ⟨x, M, e1, e2, e3, -, e4⟩ := C150_fit (N' := 128) (tieInput 512 5) sampleSimFs fs' fs' l hp h 1 h1 h2 rfl q1 q2 q3
    (fun y _ => by simp only [tieInput, id, sub_self, abs_zero]; positivity) (by norm_num [tieInput, Spec.limit])
    (by norm_num [tieInput, Spec.limit]) (by norm_num) 5 (by norm_num) (by norm_num)
  obtain ⟨x', M', f1, f2, f3, f4⟩ := C150_refused (N' := 64) (tieInput 512 5) sampleSimFs fs' fs' l hp h 1 h1 h2 rfl q1 q2 q3
    (by norm_num) 5 (by norm_num) 296 (by norm_num)
    (by norm_num [tieInput, Spec.simNode, Spec.beamPixel, Spec.limit, abs_of_pos])
    (by
      rintro ⟨-, hc⟩
      norm_num [tieInput, Spec.simNode, Spec.beamPixel] at hc)
  have hxx : x' = x := by
    rw [e1] at f1
    cases f1
    rfl
  subst hxx
  have hMM : M' = M := by rw [← (f3 0).1, ← (e3 0).1]
  subst hMM
  refine ⟨fs', x', M', e2, e1, fun p hp => ⟨?_, ?_⟩⟩
  · exact e4 defaultConfig [1, 2, 3, 4, 5] rfl hS (by decide) rfl 5 (by norm_num) p (by simp [hp, tri]) illumGauss (Or.inl rfl)
      (Spec.dish50 128) (Or.inl ⟨_, _, _, _, _, _, rfl⟩) rfl
  · exact f4 defaultConfig [1, 2, 3, 4, 5] rfl hS (by decide) rfl 5 (by norm_num) p (by simp [hp, tri]) illumGauss (Or.inl rfl)
      (Spec.dish50 64) (Or.inl ⟨_, _, _, _, _, _, rfl⟩) rfl

/-- The wavelength of 32 GHz, a radius of 50 m, 64 pixels and box factor 5: single precision, with its spacing of `2^-34`
there, rounds the last coordinate up. -/
theorem edge_up (f32 : ℝ → ℝ) (hnear : ∀ y, (1 / 2) ^ 11 ≤ y → y < (1 / 2) ^ 10 → (∃ k : ℤ, f32 y = k * (1 / 2) ^ 34) ∧
      |f32 y - y| ≤ (1 / 2) ^ 35) : Spec.simNode 50 5 0.0093685 64 63 < f32 (Spec.simNode 50 5 0.0093685 64 63) := by
  have e : Spec.simNode 50 5 0.0093685 64 63 = 0.000571771265625 := by norm_num [Spec.simNode, Spec.beamPixel]
  rw [e]
  obtain ⟨⟨k, hk⟩, h⟩ := hnear 0.000571771265625 (by norm_num) (by norm_num)
  rw [hk] at h ⊢
  obtain ⟨h1, -⟩ := abs_le.1 h
  have h2 : (9822955 : ℝ) < k := by
    norm_num at h1
    linarith
  have h3 : (9822956 : ℤ) ≤ k := by
    have : (9822955 : ℤ) < k := by exact_mod_cast h2
    omega
  have h4 : (9822956 : ℝ) ≤ k := by exact_mod_cast h3
  norm_num
  linarith

/-- A simulation with 64 pixels; `up` stands for single precision. -/
noncomputable def Spec.coarse (up : ℝ → ℝ) : Sim.Input 64 := { tieInput 64 5 with wavel := 0.0093685, f32 := up }

example (up : ℝ → ℝ) (hnear : ∀ y, (1 / 2) ^ 11 ≤ y → y < (1 / 2) ^ 10 → (∃ k : ℤ, up y = k * (1 / 2) ^ 34) ∧
      |up y - y| ≤ (1 / 2) ^ 35) : ∃ fs' x M, 0 < M ∧
    extractPyoof (fitsOpen fs') "/home/data_generated/test001.fits".toList = .ok x ∧ ∀ p : List ℝ, p.length = 21 →
      Core.residual p 21 (fun q => .fin (Spec.maps M x.beam q)) (Spec.maps M x.u) (Spec.maps M x.v)
        (fun k => x.dz.getD k 0) 0.0093685 illumGauss (Spec.dish50 64) 5 defaultConfig = .error .valueError := by
  have hz : Spec.DzOk (Spec.coarse up).dz := by
    refine ⟨?_, ?_, ?_⟩ <;> simp [Spec.coarse, tieInput] <;> norm_num
  have hcomp : Spec.Computes (Spec.coarse up) := by
    intro i
    have hP : ∃ P, radiationPattern (Spec.coarse up).I (Spec.coarse up).K ((Spec.coarse up).dz i) (Spec.coarse up).wavel
        (Spec.coarse up).illum (Spec.coarse up).tel (Spec.coarse up).boxFactor = .ok P := by
      rw [C14_ok_iff _ _ _ _ _ (by norm_num)]
      exact ⟨_, aperture_ok_iff.2 ⟨_, _, _, _, rfl, wavefront_ok _ _ _ 1 rfl, rfl, rfl, rfl⟩⟩
    obtain ⟨P, hP⟩ := hP
    refine ⟨P, hP, fun k h => ?_⟩
    rw [C55_tie_iff _ _ _ _ _ _ _ P (by norm_num [Spec.coarse, tieInput]) (by norm_num [Spec.coarse, tieInput])
      (by norm_num [Spec.coarse, tieInput]) hP] at h
    have e : |((k : ℕ) : ℝ) - ((64 / 2 : ℕ) : ℝ)| = ((|((k : ℕ) : ℤ) - 32| : ℤ) : ℝ) := by
      push_cast
      norm_num
    rw [e] at h
    have h2 : |((k : ℕ) : ℤ) - 32| * 630 = 31232 := by
      have h3 : ((|((k : ℕ) : ℤ) - 32| * 630 : ℤ) : ℝ) = ((31232 : ℤ) : ℝ) := by
        rw [Int.cast_mul]
        simp only [Spec.coarse, tieInput] at h
        norm_num at h ⊢
        linarith
      exact_mod_cast h3
    omega
  obtain ⟨l, fs', h⟩ := C54_accepts (Spec.coarse up) hz hcomp (by simp [Spec.coarse, tieInput])
    sampleSimFs (show isDir sampleSimFs ["home".toList] by decide)
    (.inr (show isDir sampleSimFs ["data_generated".toList, "home".toList] by decide))
    ⟨1, by norm_num, show sampleSimFs (Spec.simFile ["home".toList] 1) = none by decide⟩
  obtain ⟨x, M, f1, f2, -, f4⟩ := C150_own (Spec.coarse up) sampleSimFs fs' fs' l (by
      intro f hf
      simp only [Spec.coarse, tieInput, List.mem_singleton] at hf
      subst hf
      exact ⟨by decide, by decide⟩) h 1 (show sampleSimFs (Spec.simFile ["home".toList] 1) = none by decide) (fun j hj => by
      have : j = 0 := by omega
      subst this
      exact show sampleSimFs (Spec.simFile ["home".toList] 0) ≠ none by decide) rfl (by norm_num [Spec.coarse, tieInput])
    (by norm_num [Spec.coarse, tieInput]) (by norm_num [Spec.coarse, tieInput]) (by norm_num)
    (by norm_num [Spec.coarse, tieInput]) (edge_up up hnear)
  exact ⟨fs', x, M, f2, f1, fun p hp => f4 defaultConfig [1, 2, 3, 4, 5] rfl (by decide) (by decide) rfl 5 (by norm_num) p
    (by simp [hp, tri]) illumGauss (Or.inl rfl) (Spec.dish50 64) (Or.inl ⟨_, _, _, _, _, _, rfl⟩) rfl⟩

end Verif.Props
