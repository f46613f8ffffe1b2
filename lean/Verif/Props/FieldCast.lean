import Verif.Model.ResidualCast
import Verif.Props.IntMaps
import Verif.Props.SimField

/-!
# The maps a fit accepts, for every data type of the maps (C149)

`residual_true` converts the model power to the data type of the maps, core.py:95.  Whether the residual is computed, and
the exception otherwise, do not depend on the conversion.
-/

namespace Verif.Props

open Verif Verif.Np Verif.MathFn Verif.Fs Verif.Aperture Verif.AuxFn Verif.Core Verif.Sim Verif.Telgeometry Verif.Zernike Finset

variable {N M : ℕ}

/-- **C149** the data type of the maps has no part in it: with any conversion the same calls raise, and the same
exception. -/
theorem C149_dtype (hM : 0 < M) (conv : ℝ → ℝ) (params : List ℝ) (beam : Fin 3 × Fin M → Fl) (u v : Fin 3 × Fin M → ℝ)
    (dz : Fin 3 → ℝ) (wavel : ℝ) (illum : Illum (Fin N × Fin N)) (tel : TelGeo (Fin N × Fin N)) (bf : ℝ) :
    (∀ e, residualTrueOf conv params beam u v dz wavel illum tel bf = .error e ↔
      residualTrue params beam u v dz wavel illum tel bf = .error e) ∧
    ((∃ r, residualTrueOf conv params beam u v dz wavel illum tel bf = .ok r) ↔
      ∃ r, residualTrue params beam u v dz wavel illum tel bf = .ok r) := by
  by_cases hb : ∃ b : Fin 3 → Fin M → ℝ, ∀ i, modelRow params u v dz wavel illum tel bf i = .ok (b i)
  · obtain ⟨b, hb⟩ := hb
    obtain ⟨nd, nm, h1, -, -⟩ := residualOf_rows conv hM (beam := beam) hb
    obtain ⟨nd', nm', h2, -, -⟩ := residualOf_rows id hM (beam := beam) hb
    rw [C85_float] at h2
    rw [h1, h2]
    simp
  · have key : ∃ e, residualTrueOf conv params beam u v dz wavel illum tel bf = .error e ∧
        residualTrueOf id params beam u v dz wavel illum tel bf = .error e := by
      unfold residualTrueOf
      match h0 : modelRow params u v dz wavel illum tel bf 0 with
      | .error e => exact ⟨e, by simp [bind, Except.bind], by simp [bind, Except.bind]⟩
      | .ok b0 =>
        match h1 : modelRow params u v dz wavel illum tel bf 1 with
        | .error e => exact ⟨e, by simp [bind, Except.bind], by simp [bind, Except.bind]⟩
        | .ok b1 =>
          match h2 : modelRow params u v dz wavel illum tel bf 2 with
          | .error e => exact ⟨e, by simp [bind, Except.bind], by simp [bind, Except.bind]⟩
          | .ok b2 =>
            refine absurd ⟨![b0, b1, b2], fun i => ?_⟩ hb
            match i with
            | 0 => exact h0
            | 1 => exact h1
            | 2 => exact h2
    obtain ⟨e, h1, h2⟩ := key
    rw [C85_float] at h2
    rw [h1, h2]
    simp

/-- With all parameters given, `residual` is `residual_true`. -/
theorem residual_none (p : List ℝ) (n : ℕ) (hn : p.length = 5 + n) (beam : Fin 3 × Fin M → Fl) (u v : Fin 3 × Fin M → ℝ)
    (dz : Fin 3 → ℝ) (wavel : ℝ) (illum : Illum (Fin N × Fin N)) (tel : TelGeo (Fin N × Fin N)) (bf : ℝ) :
    Core.residual p n beam u v dz wavel illum tel bf ⟨[], [0, 0, 0, 0, 0, 0, 0, 0], [], [], []⟩ =
      residualTrue p beam u v dz wavel illum tel bf := by
  unfold Core.residual paramsComplete
  simp [hn, bind, Except.bind]

/-- **C150** with the single precision of the file: the maps of a simulated file are single precision, and so is the model
power that is compared with them.  A grid wide enough accepts the file with all parameters. -/
theorem C150_single {N' : ℕ} (a : Sim.Input N) (fs fs' fs'' : FS File) (l : List Hdu)
    (hw : Spec.Proper a.workDir) (h : (simulate a).run fs = (.ok l, fs')) (i : ℕ)
    (hi : fs (Spec.simFile a.workDir i) = none) (hj : ∀ j < i, fs (Spec.simFile a.workDir j) ≠ none)
    (hsame : fs'' (Spec.simFile a.workDir i) = fs' (Spec.simFile a.workDir i))
    (hpr : 0 < a.tel.pr) (hbf : 0 < a.boxFactor) (hwl : 0 < a.wavel) (hf32 : Spec.Single a.f32)
    (htiny : (1 / 2) ^ 126 ≤ Spec.limit a.wavel a.tel.pr) (hlarge : Spec.limit a.wavel a.tel.pr ≤ 2 ^ 127)
    (hN : 2 ≤ N') (bf' : ℝ) (hbf' : 0 < bf')
    (hgrid : 9.76 * (1 + 1 / 2 ^ 24) * N' * bf' ≤ (((N' - 1) / 2 : ℕ) : ℝ) * ((N' : ℝ) - 1)) :
    ∃ x M, extractPyoof (fitsOpen fs'') (pathStr (Spec.simFile a.workDir i)) = .ok x ∧ 0 < M ∧
      (∀ k : Fin 3, (x.beam.getD k []).length = M ∧ (x.u.getD k []).length = M ∧ (x.v.getD k []).length = M) ∧
      ∀ (n : ℕ) (_ : 1 ≤ n) (p : List ℝ) (_ : p.length = 5 + tri (n + 1)) (illum : Illum (Fin N' × Fin N'))
        (_ : illum = illumGauss ∨ illum = illumParabolic) (tel : TelGeo (Fin N' × Fin N'))
        (_ : (∃ pr sr l L Fp F, tel = manualTel pr sr l L Fp F) ∨ ∃ alpha, tel = effelsbergTel alpha)
        (_ : tel.pr = a.tel.pr),
        ∃ r, residualTrueOf a.f32 p (fun q => .fin (Spec.maps M x.beam q)) (Spec.maps M x.u) (Spec.maps M x.v)
          (fun k => x.dz.getD k 0) a.wavel illum tel bf' = .ok r := by
  obtain ⟨x, M, hx, hM, hlen, -, hr⟩ :=
    C150_fit a fs fs' fs'' l hw h i hi hj hsame hpr hbf hwl hf32 htiny hlarge hN bf' hbf' hgrid
  refine ⟨x, M, hx, hM, hlen, fun n hn p hp illum h1 tel h2 h3 => ?_⟩
  obtain ⟨r, h4⟩ := hr ⟨[], [0, 0, 0, 0, 0, 0, 0, 0], [], [], []⟩ [] rfl List.Pairwise.nil (by simp) rfl n hn p (by simpa using hp)
    illum h1 tel h2 h3
  rw [residual_none p _ hp] at h4
  exact (C149_dtype hM a.f32 _ _ _ _ _ _ _ _ _).2.2 ⟨r, h4⟩

/-- **C150** and the grid of the simulation, with few pixels and the last coordinate rounded up, refuses the file. -/
theorem C150_single_own (a : Sim.Input N) (fs fs' fs'' : FS File) (l : List Hdu)
    (hw : Spec.Proper a.workDir) (h : (simulate a).run fs = (.ok l, fs')) (i : ℕ)
    (hi : fs (Spec.simFile a.workDir i) = none) (hj : ∀ j < i, fs (Spec.simFile a.workDir j) ≠ none)
    (hsame : fs'' (Spec.simFile a.workDir i) = fs' (Spec.simFile a.workDir i))
    (hpr : 0 < a.tel.pr) (hbf : 0 < a.boxFactor) (hwl : 0 < a.wavel) (hN : 2 ≤ N)
    (hgrid : (((N - 1) / 2 : ℕ) : ℝ) * ((N : ℝ) - 1) < 9.76 * N * a.boxFactor)
    (hup : Spec.simNode a.tel.pr a.boxFactor a.wavel N (N - 1) < a.f32 (Spec.simNode a.tel.pr a.boxFactor a.wavel N (N - 1))) :
    ∃ x M, extractPyoof (fitsOpen fs'') (pathStr (Spec.simFile a.workDir i)) = .ok x ∧ 0 < M ∧
      (∀ k : Fin 3, (x.beam.getD k []).length = M ∧ (x.u.getD k []).length = M ∧ (x.v.getD k []).length = M) ∧
      ∀ (n : ℕ) (_ : 1 ≤ n) (p : List ℝ) (_ : p.length = 5 + tri (n + 1)) (illum : Illum (Fin N × Fin N))
        (_ : illum = illumGauss ∨ illum = illumParabolic) (tel : TelGeo (Fin N × Fin N))
        (_ : (∃ pr sr l L Fp F, tel = manualTel pr sr l L Fp F) ∨ ∃ alpha, tel = effelsbergTel alpha)
        (_ : tel.pr = a.tel.pr),
        residualTrueOf a.f32 p (fun q => .fin (Spec.maps M x.beam q)) (Spec.maps M x.u) (Spec.maps M x.v)
          (fun k => x.dz.getD k 0) a.wavel illum tel a.boxFactor = .error .valueError := by
  obtain ⟨x, M, hx, hM, hlen, hr⟩ := C150_own a fs fs' fs'' l hw h i hi hj hsame hpr hbf hwl hN hgrid hup
  refine ⟨x, M, hx, hM, hlen, fun n hn p hp illum h1 tel h2 h3 => ?_⟩
  have h4 := hr ⟨[], [0, 0, 0, 0, 0, 0, 0, 0], [], [], []⟩ [] rfl List.Pairwise.nil (by simp) rfl n hn p (by simpa using hp)
    illum h1 tel h2 h3
  rw [residual_none p _ hp] at h4
  exact ((C149_dtype hM a.f32 _ _ _ _ _ _ _ _ _).1 _).2 h4

/-- Maps of integers on the default grid, sampled inside the field: the residual is computed. -/
example : ∃ r, residualTrueOf truncInt [1, -14, 2, 0, 0, 0, 0.1, 0.2] (fun q : Fin 3 × Fin 2 => Fl.fin ((q.2 : ℕ) : ℝ))
    (fun _ => 1 / 100000) (fun _ => -1 / 100000) ![-0.022, 0, 0.022] 0.009 (illumGauss (ι := Fin 256 × Fin 256))
    (effelsbergTel 0) 5 = .ok r := by
  refine (C149_dtype (by norm_num) truncInt _ _ _ _ _ _ _ _ _).2.2 ?_
  rw [← residual_none (n := tri 2) (hn := rfl)]
  refine (C149_package (by norm_num) (by norm_num) ⟨[], [0, 0, 0, 0, 0, 0, 0, 0], [], [], []⟩ [] rfl List.Pairwise.nil (by simp) rfl 1
    le_rfl _ rfl _ _ _ _ _ _ (Or.inl rfl) _ (Or.inr ⟨0, rfl⟩) 5 ?_ (by norm_num) (by norm_num)).1 fun q => ?_
  · show (0 : ℝ) < 50
    norm_num
  · show Spec.InField 50 5 0.009 256 _ ∧ Spec.InField 50 5 0.009 256 _
    unfold Spec.InField Spec.beamPixel
    norm_num

end Verif.Props
