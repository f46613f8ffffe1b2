import Verif.Lemmas.Fourier
import Verif.Lemmas.Wavefront

/-! # The radiation pattern as a function of the aperture -/

namespace Verif.Aperture

open Verif Verif.Np Verif.Fourier Finset

/-- What a successful aperture evaluation consists of. -/
theorem aperture_ok_iff {ι : Type} {x y : ι → ℝ} {I K : List ℝ} {dz wavel : ℝ}
    {illum : Illum ι} {tel : TelGeo ι} {E : ι → ℂ} :
    aperture x y I K dz wavel illum tel = .ok E ↔
      ∃ B W delta Ea, tel.block x y = .ok B ∧
        wavefront (fun q => (cart2pol (x q) (y q)).1 / tel.pr)
          (fun q => (cart2pol (x q) (y q)).2) K = .ok W ∧
        tel.opd x y dz = .ok delta ∧ illum x y I tel.pr = .ok Ea ∧
        E = fun q => ((B q * Ea q : ℝ) : ℂ) *
          Complex.exp ((((W q + delta q / wavel) * 2 * Real.pi : ℝ) : ℂ) * Complex.I) := by
  unfold aperture
  cases hB : tel.block x y with
  | error e => simp [bind, Except.bind]
  | ok B =>
    cases hW : wavefront (fun q => (cart2pol (x q) (y q)).1 / tel.pr)
          (fun q => (cart2pol (x q) (y q)).2) K with
    | error e => simp [bind, Except.bind]
    | ok W =>
      cases hd : tel.opd x y dz with
      | error e => simp [bind, Except.bind]
      | ok d =>
        cases hE : illum x y I tel.pr with
        | error e => simp [bind, Except.bind]
        | ok Ea =>
          simp only [bind, Except.bind, pure, Except.pure, Except.ok.injEq, exists_eq_left',
            exists_and_left]
          exact eq_comm

theorem pyIdx_ofFn {α : Type} {N : ℕ} (x : Fin N → α) (i : ℕ) (h : i < N) :
    pyIdx (List.ofFn x) i = .ok (x ⟨i, h⟩) := by
  unfold pyIdx
  rw [List.getElem?_ofFn]
  simp [h]

/-- The pattern for at least two grid points per axis. -/
theorem radiationPattern_eq (I K : List ℝ) (dz wavel : ℝ) {N : ℕ} (hN : 2 ≤ N)
    (illum : Illum (Fin N × Fin N)) (tel : TelGeo (Fin N × Fin N)) (bf : ℝ) :
    radiationPattern I K dz wavel illum tel bf =
      (aperture (fun q => linspace (-(tel.pr * bf)) (tel.pr * bf) N q.2)
        (fun q => linspace (-(tel.pr * bf)) (tel.pr * bf) N q.1) I K dz wavel illum tel).map
      fun E => ⟨fun i => (((i : ℕ) : ℝ) - ((N / 2 : ℕ) : ℝ)) /
          (N * (2 * (tel.pr * bf) / ((N : ℝ) - 1))) * wavel,
        fun i => (((i : ℕ) : ℝ) - ((N / 2 : ℕ) : ℝ)) /
          (N * (2 * (tel.pr * bf) / ((N : ℝ) - 1))) * wavel, fftshift2 (fft2 E)⟩ := by
  have hdx : linspace (-(tel.pr * bf)) (tel.pr * bf) N ⟨1, by omega⟩ -
      linspace (-(tel.pr * bf)) (tel.pr * bf) N ⟨0, by omega⟩ =
      2 * (tel.pr * bf) / ((N : ℝ) - 1) := by
    unfold linspace
    simp only
    push_cast
    ring
  unfold radiationPattern
  simp only [pyIdx_ofFn _ 1 (by omega : 1 < N), pyIdx_ofFn _ 0 (by omega : 0 < N), bind,
    Except.bind, hdx, fftshift1, fftfreq_shift]
  have hX : ∀ L : Fin N → ℝ, meshX L L = fun q => L q.2 := fun _ => rfl
  have hY : ∀ L : Fin N → ℝ, meshY L L = fun q => L q.1 := fun _ => rfl
  rw [hX, hY]
  cases aperture (fun q : Fin N × Fin N => linspace (-(tel.pr * bf)) (tel.pr * bf) N q.2)
        (fun q => linspace (-(tel.pr * bf)) (tel.pr * bf) N q.1) I K dz wavel illum tel <;> rfl

theorem radiationPattern_small (I K : List ℝ) (dz wavel : ℝ) {N : ℕ} (hN : N < 2)
    (illum : Illum (Fin N × Fin N)) (tel : TelGeo (Fin N × Fin N)) (bf : ℝ) :
    radiationPattern I K dz wavel illum tel bf = .error .indexError := by
  have : ∀ x : Fin N → ℝ, pyIdx (List.ofFn x) 1 = .error .indexError := by
    intro x
    unfold pyIdx
    rw [List.getElem?_ofFn]
    simp [show ¬ 1 < N by omega]
  unfold radiationPattern
  simp only [this, bind, Except.bind]

/-- A returned pattern comes from a returned aperture on at least two points per axis. -/
theorem radiationPattern_ok {I K : List ℝ} {dz wavel : ℝ} {N : ℕ}
    {illum : Illum (Fin N × Fin N)} {tel : TelGeo (Fin N × Fin N)} {bf : ℝ} {P : Pattern N}
    (h : radiationPattern I K dz wavel illum tel bf = .ok P) :
    2 ≤ N ∧ ∃ E, aperture (fun q => linspace (-(tel.pr * bf)) (tel.pr * bf) N q.2)
        (fun q => linspace (-(tel.pr * bf)) (tel.pr * bf) N q.1) I K dz wavel illum tel = .ok E ∧
      P = ⟨fun i => (((i : ℕ) : ℝ) - ((N / 2 : ℕ) : ℝ)) /
          (N * (2 * (tel.pr * bf) / ((N : ℝ) - 1))) * wavel,
        fun i => (((i : ℕ) : ℝ) - ((N / 2 : ℕ) : ℝ)) /
          (N * (2 * (tel.pr * bf) / ((N : ℝ) - 1))) * wavel, fftshift2 (fft2 E)⟩ := by
  rcases Nat.lt_or_ge N 2 with hN | hN
  · rw [radiationPattern_small _ _ _ _ hN] at h
    exact absurd h (by simp)
  · refine ⟨hN, ?_⟩
    rw [radiationPattern_eq _ _ _ _ hN] at h
    cases hE : aperture (fun q : Fin N × Fin N => linspace (-(tel.pr * bf)) (tel.pr * bf) N q.2)
        (fun q => linspace (-(tel.pr * bf)) (tel.pr * bf) N q.1) I K dz wavel illum tel with
    | error e =>
      rw [hE] at h
      exact absurd h (by simp [Except.map])
    | ok E =>
      rw [hE] at h
      simp only [Except.map, Except.ok.injEq] at h
      exact ⟨E, rfl, h.symm⟩

end Verif.Aperture
