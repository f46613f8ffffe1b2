import Verif.Model.Numpy
import Verif.Model.Zernike

/-!
# Model of `pyoof/aperture/aperture.py`: wavefront, phase, aperture, radiation pattern

Arrays are functions on an index type `ι` (any shape).  Lengths are real numbers in metres,
angles real numbers in radians.  `rho`, `theta`, `x`, `y` are astropy Quantities in the code (this
is what the attribute access `.value` in `wavefront` needs); units are not modelled here.
-/

namespace Verif.Aperture

open Verif Verif.Np Verif.Zernike

/-- `int((np.sqrt(1 + 8 * K_coeff.size) - 3) / 2)`, aperture.py:242.  The square root is exact. -/
noncomputable def orderOf (size : ℕ) : ℤ := pyInt ((Real.sqrt (1 + 8 * (size : ℝ)) - 3) / 2)

/-- `[(i, j) for i in range(0, n + 1) for j in range(-i, i + 1, 2)]`, aperture.py:245
(the same comprehension is in aux_functions.py, plot_routines.py and core.py). -/
def nlList (n : ℤ) : List (ℤ × ℤ) :=
  (pyRange 0 (n + 1) 1).flatMap fun i => (pyRange (-i) (i + 1) 2).map fun j => (i, j)

/-- `math_functions.cart2pol`, math_functions.py:60-63. -/
noncomputable def cart2pol (x y : ℝ) : ℝ × ℝ := (Real.sqrt (x ^ 2 + y ^ 2), arctan2 y x)

/-- One summand `K_coeff[i] * U(*nl[i], rho, theta)` of `wavefront`, aperture.py:249, on an array
of points with index set `ι`. -/
noncomputable def wfTerm {ι : Type} (rho theta : ι → ℝ) (K : List ℝ) (nl : List (ℤ × ℤ)) (i : ℕ) :
    Py (ι → ℝ) := do
  let k ← pyIdx K i
  let p ← pyIdx nl i
  let u ← seqArr fun q => U (.int p.1) (.int p.2) (rho q) (theta q)
  return fun q => k * u q

/-- `wavefront(rho, theta, K_coeff)`, aperture.py:203-253.  The sum over an empty generator is the
`int` 0, which has no attribute `value`. -/
noncomputable def wavefront {ι : Type} (rho theta : ι → ℝ) (K : List ℝ) : Py (ι → ℝ) := do
  let n := orderOf K.length
  let nl := nlList n
  let terms ← (List.range K.length).mapM (wfTerm rho theta K nl)
  if terms.isEmpty then .error .attributeError
  else return fun q => (terms.map fun t => t q).sum

/-- Result of `phase`. -/
structure PhaseMap (N : ℕ) where
  x : Fin N → ℝ
  y : Fin N → ℝ
  phi : Fin N × Fin N → ℝ

/-- The assignments to the copy of the coefficients, aperture.py:324-332. -/
noncomputable def maskCoeff (K : List ℝ) (piston tilt : Bool) : Py (List ℝ) := do
  let K1 ← if !piston then pySet K 0 0 else .ok K
  if !tilt then do
    let K2 ← pySet K1 1 0
    pySet K2 2 0
  else .ok K1

/-- `phase(K_coeff, pr, piston, tilt, resolution)`, aperture.py:256-348.  `phi[i][j]` is
`phi (i, j)`.  The model is a pure function of `K`: the code works on `K_coeff.copy()`. -/
noncomputable def phase (K : List ℝ) (pr : ℝ) (piston tilt : Bool) (N : ℕ) : Py (PhaseMap N) := do
  let K' ← maskCoeff K piston tilt
  let x := linspace (-pr) pr N
  let y := linspace (-pr) pr N
  let xg := meshX x y
  let yg := meshY x y
  let W ← wavefront (fun q => (cart2pol (xg q) (yg q)).1 / pr)
    (fun q => (cart2pol (xg q) (yg q)).2) K'
  let W' := fun q => open Classical in if xg q ^ 2 + yg q ^ 2 > pr ^ 2 then 0 else W q
  return ⟨x, y, fun q => W' q * 2 * Real.pi⟩

/-! ### `phase` with an explicit heap of numpy buffers (aliasing) -/

/-- A heap of one dimensional float buffers; `next` is the first unused address. -/
structure Heap where
  cell : ℕ → List ℝ
  next : ℕ

/-- Programs that read and write buffers and may raise; the heap survives an exception. -/
abbrev HeapM := ExceptT PyErr (StateM Heap)

/-- `arr.copy()`: a new buffer with the same content. -/
def copyArr (a : ℕ) : HeapM ℕ := do
  let h ← get
  set (⟨Function.update h.cell h.next (h.cell a), h.next + 1⟩ : Heap)
  return h.next

/-- `arr[i] = v` in place. -/
def setArr (a i : ℕ) (v : ℝ) : HeapM Unit := do
  let h ← get
  if i < (h.cell a).length then
    set (⟨Function.update h.cell a ((h.cell a).set i v), h.next⟩ : Heap)
  else throw .indexError

/-- Reading the whole buffer. -/
def readArr (a : ℕ) : HeapM (List ℝ) := do
  let h ← get
  return h.cell a

/-- The assignments to the local buffer `k`, aperture.py:327-332. -/
noncomputable def maskInPlace (k : ℕ) (piston tilt : Bool) : HeapM Unit := do
  if !piston then setArr k 0 0           -- :327-328
  if !tilt then                          -- :330-332
    setArr k 1 0
    setArr k 2 0

/-- `phase`, aperture.py:324-348, where `K_coeff` is the buffer with address `a`. -/
noncomputable def phaseM (a : ℕ) (pr : ℝ) (piston tilt : Bool) (N : ℕ) : HeapM (PhaseMap N) := do
  let k ← copyArr a                      -- :324  _K_coeff = K_coeff.copy()
  maskInPlace k piston tilt              -- :327-332
  let K' ← readArr k
  let x := linspace (-pr) pr N           -- :335-336
  let y := linspace (-pr) pr N
  let xg := meshX x y
  let yg := meshY x y
  let W ← liftM (m := Py) (wavefront (fun q => (cart2pol (xg q) (yg q)).1 / pr)
    (fun q => (cart2pol (xg q) (yg q)).2) K')
  let W' := fun q => open Classical in if xg q ^ 2 + yg q ^ 2 > pr ^ 2 then 0 else W q
  return ⟨x, y, fun q => W' q * 2 * Real.pi⟩

/-- `telgeo = [block_dist, opd_func, pr]`: user supplied (pure, possibly raising) array functions
on arrays of shape `ι`. -/
structure TelGeo (ι : Type) where
  block : (ι → ℝ) → (ι → ℝ) → Py (ι → ℝ)
  opd : (ι → ℝ) → (ι → ℝ) → ℝ → Py (ι → ℝ)
  pr : ℝ

/-- A user supplied illumination function `illum_func(x, y, I_coeff, pr)`. -/
abbrev Illum (ι : Type) := (ι → ℝ) → (ι → ℝ) → List ℝ → ℝ → Py (ι → ℝ)

/-- `aperture(x, y, I_coeff, K_coeff, d_z, wavel, illum_func, telgeo)`, aperture.py:351-436. -/
noncomputable def aperture {ι : Type} (x y : ι → ℝ) (I K : List ℝ) (dz wavel : ℝ)
    (illum : Illum ι) (tel : TelGeo ι) : Py (ι → ℂ) := do
  let B ← tel.block x y
  let W ← wavefront (fun q => (cart2pol (x q) (y q)).1 / tel.pr)
    (fun q => (cart2pol (x q) (y q)).2) K
  let delta ← tel.opd x y dz
  let Ea ← illum x y I tel.pr
  let phi : ι → ℝ := fun q => (W q + delta q / wavel) * 2 * Real.pi
  return fun q => ((B q * Ea q : ℝ) : ℂ) * Complex.exp ((phi q : ℂ) * Complex.I)

/-- Result of `radiation_pattern`. -/
structure Pattern (N : ℕ) where
  u : Fin N → ℝ
  v : Fin N → ℝ
  F : Fin N × Fin N → ℂ

/-- `radiation_pattern(I_coeff, K_coeff, d_z, wavel, illum_func, telgeo, resolution, box_factor)`,
aperture.py:439-556.  `u_shift` is in radians.  The branch on the astropy version is a unit
workaround and not modelled.  Reading `x[1]` raises `IndexError` for `resolution < 2`.
Division by `dx = 0` (a zero primary radius or box factor) is not modelled. -/
noncomputable def radiationPattern (I K : List ℝ) (dz wavel : ℝ) {N : ℕ}
    (illum : Illum (Fin N × Fin N)) (tel : TelGeo (Fin N × Fin N)) (boxFactor : ℝ) :
    Py (Pattern N) := do
  let boxSize := tel.pr * boxFactor
  let x := linspace (-boxSize) boxSize N
  let y := x
  let xg := meshX x y
  let yg := meshY x y
  let x1 ← pyIdx (List.ofFn x) 1
  let x0 ← pyIdx (List.ofFn x) 0
  let y1 ← pyIdx (List.ofFn y) 1
  let y0 ← pyIdx (List.ofFn y) 0
  let dx := x1 - x0
  let dy := y1 - y0
  let E ← aperture xg yg I K dz wavel illum tel
  let F := fft2 E
  let Fs := fftshift2 F
  let u := fftfreq N dx
  let v := fftfreq N dy
  return ⟨fun i => fftshift1 u i * wavel, fun i => fftshift1 v i * wavel, Fs⟩

end Verif.Aperture
