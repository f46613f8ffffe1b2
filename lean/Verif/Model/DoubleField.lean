import Verif.Model.DoublePhase

/-!
# The aperture, the radiation pattern and the power pattern in the arithmetic of doubles

`aperture` and `radiation_pattern` (`pyoof/aperture/aperture.py`:351-556) and `np.abs(F) ** 2`
(`pyoof/core.py`:108), with the rounding `rnd` after every operation.  Lengths are numbers of one unit.  The
blockage, the path difference and the illumination are functions of the user, on arrays of doubles.  Functions of the
libraries are parameters: the exponential of an imaginary number, the absolute value of a complex number and the
Fourier transform.
-/

namespace Verif.Dbl

open Verif Verif.Np Verif.Aperture

/-- A complex number of two doubles. -/
abbrev Cx := Fl × Fl

/-- The mathematical library with `np.exp(phi * 1j)` for a real `phi` and `np.abs` of a complex number. -/
structure LibmC extends LibmA where
  expI : Fl → Cx
  cabs : Cx → Fl

/-- `telgeo = [block_dist, opd_func, pr]` on doubles. -/
structure TelGeo (ι : Type) where
  block : (ι → Fl) → (ι → Fl) → Py (ι → Fl)
  opd : (ι → Fl) → (ι → Fl) → Fl → Py (ι → Fl)
  pr : Fl

/-- `illum_func(x, y, I_coeff, pr)` on doubles. -/
abbrev Illum (ι : Type) := (ι → Fl) → (ι → Fl) → List Fl → Fl → Py (ι → Fl)

/-- A real number times a complex one.  In numpy the real number becomes a complex one with imaginary part 0; for a
finite second factor this gives the two products. -/
noncomputable def rmul (rnd : ℝ → Fl) (a : Fl) (z : Cx) : Cx := (mul rnd a z.1, mul rnd a z.2)

/-- `(W + delta / wavel) * 2 * np.pi`, aperture.py:430. -/
noncomputable def phasePt (rnd : ℝ → Fl) (W delta wavel : Fl) : Fl :=
  mul rnd (mul rnd (add rnd W (div rnd delta wavel)) (ofInt rnd 2)) (rnd Real.pi)

/-- `B * Ea * np.exp(phi * 1j)`, aperture.py:434. -/
noncomputable def fieldPt (rnd : ℝ → Fl) (L : LibmC) (B Ea phi : Fl) : Cx :=
  rmul rnd (mul rnd B Ea) (L.expI phi)

/-- `aperture(x, y, I_coeff, K_coeff, d_z, wavel, illum_func, telgeo)`, aperture.py:416-436. -/
noncomputable def aperture (rnd : ℝ → Fl) (L : LibmC) {ι : Type} (x y : ι → Fl) (I K : List Fl) (dz wavel : Fl)
    (illum : Illum ι) (tel : TelGeo ι) : Py (ι → Cx) := do
  let r := fun q => sqrt rnd (sumSq rnd (x q) (y q))
  let t := fun q => L.arctan2 (y q) (x q)
  let B ← tel.block x y
  let W ← seqArr fun q => wavefront rnd L.toLibm (div rnd (r q) tel.pr) (t q) K
  let delta ← tel.opd x y dz
  let Ea ← illum x y I tel.pr
  return fun q => fieldPt rnd L (B q) (Ea q) (phasePt rnd (W q) (delta q) wavel)

/-- `np.fft.fftfreq(n, d)[i]` (`numpy/fft/_helper.py`): an array of integers times `1.0 / (n * d)`. -/
noncomputable def fftfreq (rnd : ℝ → Fl) (n : ℕ) (d : Fl) (i : Fin n) : Fl :=
  let N := (n - 1) / 2 + 1
  let k : ℤ := if (i : ℕ) < N then ((i : ℕ) : ℤ) else -((n / 2 : ℕ) : ℤ) + (((i : ℕ) - N : ℕ) : ℤ)
  mul rnd (ofInt rnd k) (div rnd (.fin 1) (mul rnd (ofInt rnd n) d))

/-- Result of `radiation_pattern`. -/
structure Pattern (N : ℕ) where
  u : Fin N → Fl
  v : Fin N → Fl
  F : Fin N × Fin N → Cx

/-- `radiation_pattern(...)`, aperture.py:515-556.  `fft` is `np.fft.fft2`. -/
noncomputable def radiationPattern (rnd : ℝ → Fl) (L : LibmC) {N : ℕ}
    (fft : (Fin N × Fin N → Cx) → Fin N × Fin N → Cx) (I K : List Fl) (dz wavel : Fl)
    (illum : Illum (Fin N × Fin N)) (tel : TelGeo (Fin N × Fin N)) (boxFactor : Fl) : Py (Pattern N) := do
  let boxSize := mul rnd tel.pr boxFactor
  let x := linspace rnd (Fl.neg boxSize) boxSize N
  let y := x
  let x1 ← pyIdx (List.ofFn x) 1
  let x0 ← pyIdx (List.ofFn x) 0
  let y1 ← pyIdx (List.ofFn y) 1
  let y0 ← pyIdx (List.ofFn y) 0
  let dx := sub rnd x1 x0
  let dy := sub rnd y1 y0
  let E ← aperture rnd L (meshX x y) (meshY x y) I K dz wavel illum tel
  return ⟨fun i => mul rnd (fftshift1 (fftfreq rnd N dx) i) wavel,
    fun i => mul rnd (fftshift1 (fftfreq rnd N dy) i) wavel, fftshift2 (fft E)⟩

/-- `np.abs(F) ** 2`, core.py:108, at one element. -/
noncomputable def power (rnd : ℝ → Fl) (L : LibmC) (z : Cx) : Fl := mul rnd (L.cabs z) (L.cabs z)

end Verif.Dbl
