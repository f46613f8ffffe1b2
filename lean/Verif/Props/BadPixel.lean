import Verif.Props.Simulate
import Verif.Props.Residual

/-!
# Bad pixels (C81); simulated maps are fitted by their own parameters (C82)
-/

namespace Verif.Props

open Verif Verif.Np Verif.MathFn Verif.Fs Verif.Aperture Verif.AuxFn Verif.Core Verif.Sim Finset

/-! ## C81 -/

/-- The entry of a map is not a finite number. -/
def Spec.Bad (x : Fl) : Prop := ∀ r, x ≠ .fin r

/-- **C81.**  One nan or infinite pixel in a map: no exception, and the residual of every pixel of that
map is minus the normalised model, whatever the data are. -/
theorem C81_value {N M : ℕ} (params : List ℝ) (beam : Fin 3 × Fin M → Fl) (u v : Fin 3 × Fin M → ℝ)
    (dz : Fin 3 → ℝ) (wavel : ℝ) (illum : Illum (Fin N × Fin N)) (tel : TelGeo (Fin N × Fin N)) (bf : ℝ)
    (r : List ℝ) (h : residualTrue params beam u v dz wavel illum tel bf = .ok r) (i : Fin 3)
    (z : Fin M) (hz : Spec.Bad (beam (i, z))) :
    ∃ b nm, Spec.Sampled params u v dz wavel illum tel bf i b ∧
      MathFn.norm (fun k => Fl.fin (b k)) = .ok nm ∧
      ∀ k : Fin M, r[(i : ℕ) * M + k]? = some (-nm k) := by
  obtain ⟨-, -, -, h4⟩ := residual_layout params beam u v dz wavel illum tel bf r h
  obtain ⟨b, nd, nm, h1, h2, h3, h5⟩ := h4 i
  rw [C27_bad (fun k => beam (i, k)) z hz] at h2
  cases h2
  exact ⟨b, nm, sampled_iff.2 h1, h3, fun k => by rw [h5 k, zero_sub]⟩

/-- **C81.**  Whether `residual_true` raises, and what, does not depend on the values in the maps. -/
theorem C81_raises {N M : ℕ} (params : List ℝ) (beam beam' : Fin 3 × Fin M → Fl) (u v : Fin 3 × Fin M → ℝ)
    (dz : Fin 3 → ℝ) (wavel : ℝ) (illum : Illum (Fin N × Fin N)) (tel : TelGeo (Fin N × Fin N)) (bf : ℝ)
    (hM : 0 < M) (e : PyErr) (h : residualTrue params beam u v dz wavel illum tel bf = .error e) :
    residualTrue params beam' u v dz wavel illum tel bf = .error e := by
  obtain ⟨nd, hd, -⟩ := C27_axis1 hM beam
  obtain ⟨nd', hd', -⟩ := C27_axis1 hM beam'
  unfold residualTrue at h ⊢
  rw [hd'] 
  rw [hd] at h
  cases h0 : modelRow params u v dz wavel illum tel bf 0 with
  | error e => rw [h0] at h; exact h
  | ok b0 =>
    cases h1 : modelRow params u v dz wavel illum tel bf 1 with
    | error e => rw [h0, h1] at h; exact h
    | ok b1 =>
      cases h2 : modelRow params u v dz wavel illum tel bf 2 with
      | error e => rw [h0, h1, h2] at h; exact h
      | ok b2 =>
        obtain ⟨nm, hm, -⟩ := C27_axis1 hM fun q : Fin 3 × Fin M => Fl.fin ((![b0, b1, b2] q.1) q.2)
        rw [h0, h1, h2] at h
        simp only [bind, Except.bind, hm] at h
        cases h

theorem residualTrue_rows {N M : ℕ} (params : List ℝ) (beam beam' : Fin 3 × Fin M → Fl)
    (u v : Fin 3 × Fin M → ℝ)
    (dz : Fin 3 → ℝ) (wavel : ℝ) (illum : Illum (Fin N × Fin N)) (tel : TelGeo (Fin N × Fin N)) (bf : ℝ)
    (hM : 0 < M)
    (hn : ∀ i, MathFn.norm (fun k => beam (i, k)) = MathFn.norm (fun k => beam' (i, k))) :
    residualTrue params beam u v dz wavel illum tel bf =
      residualTrue params beam' u v dz wavel illum tel bf := by
  have hb : normAxis1 beam = normAxis1 beam' := by
    obtain ⟨r, h1, h2⟩ := C27_axis1 hM beam
    obtain ⟨r', h1', h2'⟩ := C27_axis1 hM beam'
    rw [h1, h1']
    congr 1
    funext q
    obtain ⟨i, k⟩ := q
    have e := h2 i
    rw [hn i, h2' i] at e
    injection e with e
    exact (congrFun e k).symm
  unfold residualTrue
  rw [hb]

/-- **C81.**  The data of such a map are without any effect on the objective. -/
theorem C81_ignored {N M : ℕ} (params : List ℝ) (beam beam' : Fin 3 × Fin M → Fl)
    (u v : Fin 3 × Fin M → ℝ)
    (dz : Fin 3 → ℝ) (wavel : ℝ) (illum : Illum (Fin N × Fin N)) (tel : TelGeo (Fin N × Fin N)) (bf : ℝ)
    (i : Fin 3) (z z' : Fin M) (hz : Spec.Bad (beam (i, z))) (hz' : Spec.Bad (beam' (i, z')))
    (hsame : ∀ j k, j ≠ i → beam' (j, k) = beam (j, k)) :
    residualTrue params beam u v dz wavel illum tel bf =
      residualTrue params beam' u v dz wavel illum tel bf := by
  refine residualTrue_rows params beam beam' u v dz wavel illum tel bf z.pos fun j => ?_
  by_cases hj : j = i
  · subst hj
    rw [C27_bad (fun k => beam (j, k)) z hz, C27_bad (fun k => beam' (j, k)) z' hz']
  · simp only [hsame j _ hj]

/-- **C81.**  A constant map has the same effect as a bad one. -/
theorem C81_constant {N M : ℕ} (params : List ℝ) (beam beam' : Fin 3 × Fin M → Fl)
    (u v : Fin 3 × Fin M → ℝ)
    (dz : Fin 3 → ℝ) (wavel : ℝ) (illum : Illum (Fin N × Fin N)) (tel : TelGeo (Fin N × Fin N)) (bf : ℝ)
    (i : Fin 3) (z : Fin M) (hz : Spec.Bad (beam (i, z))) (c : ℝ) (hc : ∀ k, beam' (i, k) = .fin c)
    (hsame : ∀ j k, j ≠ i → beam' (j, k) = beam (j, k)) :
    residualTrue params beam u v dz wavel illum tel bf =
      residualTrue params beam' u v dz wavel illum tel bf := by
  have : Nonempty (Fin M) := ⟨z⟩
  refine residualTrue_rows params beam beam' u v dz wavel illum tel bf z.pos fun j => ?_
  by_cases hj : j = i
  · subst hj
    rw [C27_bad (fun k => beam (j, k)) z hz]
    simp only [hc]
    rw [C27_constant]
  · simp only [hsame j _ hj]

example (params : List ℝ) (u v : Fin 3 × Fin 2 → ℝ) (dz : Fin 3 → ℝ) (wavel : ℝ)
    (illum : Illum (Fin 256 × Fin 256)) (tel : TelGeo (Fin 256 × Fin 256)) (bf x y : ℝ) :
    residualTrue params (fun q => if q = (0, 0) then .nan else if q.1 = 0 then .fin x else .fin q.2.val)
        u v dz wavel illum tel bf =
      residualTrue params (fun q => if q = (0, 0) then .pinf else if q.1 = 0 then .fin y else .fin q.2.val)
        u v dz wavel illum tel bf :=
  C81_ignored _ _ _ _ _ _ _ _ _ _ 0 0 0 (fun r => by simp) (fun r => by simp) (fun j k hj => by
    have : (j, k) ≠ ((0 : Fin 3), (0 : Fin 2)) := fun h => hj (congrArg Prod.fst h)
    simp [this, hj])

/-! ## C82 -/

theorem inside_unique {N : ℕ} {P P' : Pattern N} {lim : ℝ} {J J' : List (Fin N)} (hu : P.u = P'.u)
    (h : Spec.Inside P lim J) (h' : Spec.Inside P' lim J') : J = J' := by
  have hp : J.Perm J' := by
    rw [List.perm_ext_iff_of_nodup (h.1.imp (fun h => h.ne)) (h'.1.imp (fun h => h.ne))]
    intro i
    rw [h.2, h'.2, hu]
  exact hp.eq_of_pairwise (fun a b _ _ h1 h2 => absurd h1 (asymm h2)) h.1 h'.1

/-- The numbers of the three maps as arrays. -/
def Spec.maps (M : ℕ) (l : List (List ℝ)) : Fin 3 × Fin M → ℝ := fun q => (l.getD q.1 []).getD q.2 0

/-- **C82.**  Simulated maps without noise, stored exactly and read with `extract_data_pyoof`: three maps
of equal size, and the residual of the fit for the parameters of the simulation is zero. -/
theorem C82_closed_loop {N : ℕ} (a : Sim.Input N) (fs fs' fs'' : FS File) (l : List Hdu)
    (hw : Spec.Proper a.workDir) (h : (simulate a).run fs = (.ok l, fs')) (i : ℕ)
    (hi : fs (Spec.simFile a.workDir i) = none) (hj : ∀ j < i, fs (Spec.simFile a.workDir j) ≠ none)
    (hsame : fs'' (Spec.simFile a.workDir i) = fs' (Spec.simFile a.workDir i))
    (hI : a.I.length = 5) (hnoise : a.noise = 0) (hf32 : ∀ x, a.f32 x = x)
    (hpr : 0 < a.tel.pr) (hbf : 0 < a.boxFactor) (hwl : 0 < a.wavel) :
    ∃ x M, extractPyoof (fitsOpen fs'') (pathStr (Spec.simFile a.workDir i)) = .ok x ∧ 0 < M ∧
      (∀ k : Fin 3, (x.beam.getD k []).length = M ∧ (x.u.getD k []).length = M ∧
        (x.v.getD k []).length = M) ∧
      x.wavel = .fin a.wavel ∧
      residualTrue (a.I ++ a.K) (fun q => .fin (Spec.maps M x.beam q)) (Spec.maps M x.u)
        (Spec.maps M x.v) (fun k => x.dz.getD k 0) a.wavel a.illum a.tel a.boxFactor =
        .ok (List.replicate (3 * M) 0) := by
  obtain ⟨x, hx, -, -, -, -, hdz, hwv, -, -, -, -, hk⟩ := C57_extract a fs fs' fs'' l hw h i hi hj hsame
  choose P J hP hin hcol using hk
  have hu : ∀ k, (P k).u = (P 0).u := by
    intro k
    obtain ⟨-, _, -, e1⟩ := radiationPattern_ok (hP k)
    obtain ⟨-, _, -, e2⟩ := radiationPattern_ok (hP 0)
    rw [e1, e2]
  have hJ : ∀ k, J k = J 0 := fun k => inside_unique (hu k) (hin k) (hin 0)
  have hN : 2 ≤ N := (radiationPattern_ok (hP 0)).1
  -- the centre of the grid is inside the limit
  have hlim : 0 < Spec.limit a.wavel a.tel.pr := by unfold Spec.limit; positivity
  have hcen : (⟨N / 2, by omega⟩ : Fin N) ∈ J 0 := by
    rw [(hin 0).2]
    obtain ⟨-, _, -, e2⟩ := radiationPattern_ok (hP 0)
    rw [e2]
    simpa using hlim
  set n := (J 0).length with hn
  have hn0 : 0 < n := List.length_pos_of_mem hcen
  have hlen : ∀ k, (J k).length = n := fun k => by rw [hJ k]
  have hdiv : ∀ m : Fin (n * n), (m : ℕ) / n < n := fun m => Nat.div_lt_of_lt_mul m.isLt
  have hmod : ∀ m : Fin (n * n), (m : ℕ) % n < n := fun m => Nat.mod_lt _ hn0
  refine ⟨x, n * n, hx, Nat.mul_pos hn0 hn0, fun k => ?_, hwv, ?_⟩
  · obtain ⟨c1, c2, c3, -⟩ := hcol k
    rw [hlen] at c1 c2 c3
    exact ⟨c1, c2, c3⟩
  · have hdz' : (fun k : Fin 3 => x.dz.getD k 0) = a.dz := by
      funext k
      rw [hdz]
      fin_cases k <;> rfl
    rw [hdz']
    have key := C41_nodes (Nat.mul_pos hn0 hn0) (a.I ++ a.K) a.dz a.wavel a.illum a.tel a.boxFactor hpr hbf
      hwl P (fun k => by
        rw [← hI, List.take_left, List.drop_left]
        exact hP k)
      (fun k m => (J k)[(m : ℕ) / n]'(by rw [hlen]; exact hdiv m))
      (fun k m => (J k)[(m : ℕ) % n]'(by rw [hlen]; exact hmod m)) (fun _ => 1) (fun _ => 0)
      (fun _ => one_pos)
    have hval : ∀ (k : Fin 3) (m : Fin (n * n)),
        Spec.maps (n * n) x.beam (k, m) = 1 * ‖(P k).F ((J k)[(m : ℕ) / n]'(by rw [hlen]; exact hdiv m),
          (J k)[(m : ℕ) % n]'(by rw [hlen]; exact hmod m))‖ ^ 2 + 0 ∧
        Spec.maps (n * n) x.u (k, m) = (P k).u ((J k)[(m : ℕ) % n]'(by rw [hlen]; exact hmod m)) ∧
        Spec.maps (n * n) x.v (k, m) = (P k).v ((J k)[(m : ℕ) / n]'(by rw [hlen]; exact hdiv m)) := by
      intro k m
      obtain ⟨-, -, -, c4⟩ := hcol k
      have c := c4 ((m : ℕ) / n) ((m : ℕ) % n) (by rw [hlen]; exact hdiv m) (by rw [hlen]; exact hmod m)
      have em : (m : ℕ) / n * (J k).length + (m : ℕ) % n = m := by
        rw [hlen, Nat.div_add_mod']
      rw [em, hnoise, hf32, hf32, hf32] at c
      refine ⟨?_, ?_, ?_⟩
      · show ((x.beam.getD k []).getD m 0) = _
        rw [List.getD, c.1]; simp
      · show ((x.u.getD k []).getD m 0) = _
        rw [List.getD, c.2.1]; simp
      · show ((x.v.getD k []).getD m 0) = _
        rw [List.getD, c.2.2]; simp
    have e1 : (fun q : Fin 3 × Fin (n * n) => Fl.fin (Spec.maps (n * n) x.beam q)) = _ :=
      funext fun q => congrArg Fl.fin (hval q.1 q.2).1
    have e2 : Spec.maps (n * n) x.u = _ := funext fun q => (hval q.1 q.2).2.1
    have e3 : Spec.maps (n * n) x.v = _ := funext fun q => (hval q.1 q.2).2.2
    rw [e1, e2, e3]
    exact key

example : ∃ fs' x M, 0 < M ∧
    extractPyoof (fitsOpen fs') "/home/data_generated/test001.fits".toList = .ok x ∧
    residualTrue ((tieInput 512 5).I ++ (tieInput 512 5).K) (fun q => .fin (Spec.maps M x.beam q))
      (Spec.maps M x.u) (Spec.maps M x.v) (fun k => x.dz.getD k 0) (tieInput 512 5).wavel
      (tieInput 512 5).illum (tieInput 512 5).tel (tieInput 512 5).boxFactor =
      .ok (List.replicate (3 * M) 0) := by
  have hz : Spec.DzOk (tieInput 512 5).dz := by
    refine ⟨?_, ?_, ?_⟩ <;> simp [tieInput] <;> norm_num
  obtain ⟨l, fs', h⟩ := C54_accepts (tieInput 512 5) hz sample_computes (by simp [tieInput])
    sampleSimFs (by decide) (.inr (by decide)) ⟨1, by norm_num, by decide⟩
  obtain ⟨x, M, h1, h2, -, -, h3⟩ := C82_closed_loop (tieInput 512 5) sampleSimFs fs' fs' l (by
    intro f hf
    simp only [tieInput, List.mem_singleton] at hf
    subst hf
    exact ⟨by decide, by decide⟩) h 1 (by decide) (fun j hj => by
      have : j = 0 := by omega
      subst this
      decide) rfl rfl rfl (fun x => rfl) (by norm_num [tieInput]) (by norm_num [tieInput])
      (by norm_num [tieInput])
  exact ⟨fs', x, M, h2, h1, h3⟩

end Verif.Props
