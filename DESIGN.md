# Formal model of pyoof in Lean 4

## Layout
* `lean/Verif/Model/*.lean` - the model, function by function; every definition cites file and lines in /repo.
* `lean/Verif/Spec/*.lean` and the definitions `Spec.*` in `Props` - specifications that do not use the helpers of
  the model.
* `lean/Verif/Lemmas/*.lean` - lemmas.
* `lean/Verif/Props/*.lean` - the theorems `Cnn_*` of property Cnn, each with an `example` that meets its hypotheses.
* `MANIFEST.json` - property to theorem names, made by `tools/mkmanifest.py`.
* `seeded/LOG.jsonl` - wrong programs the theorems were tried against (`tools/mutate.py`, `tools/mklog.py`).

## Trusted base
1. Lean's kernel and the axioms `propext`, `Classical.choice`, `Quot.sound`. `#print axioms` gives all three for every
   theorem of the manifest except `C07_prefix` and `C61_index`, which need `propext` and `Quot.sound` only. No axiom
   is added, nothing is left unproved, no `native_decide`, no `bv_decide`.
2. The reading of the code: that the definitions in `Model` do what the cited lines do.
3. The semantics given to numpy, scipy, astropy, `os` and matplotlib: for what is *defined* in the model see
   "Modelled"; what is a *parameter* has the contract stated below, and every contract is shown satisfiable.

## Numbers, arrays, exceptions
* A `float` is an exact real: no rounding, no overflow, one zero (except in C94, C99, C120, C124, C125, C126, C127, C128, C131, C132, C145, C147, C151 and C152, where every operation is rounded). Where nan or infinities matter, the type `Fl`
  (nan, +inf, -inf, finite real) is used with the IEEE rules.
* Quantities: lengths in metres, angles in radians (displacements of the actuators in micrometres); where the code
  asks whether something is a Quantity, both answers are modelled (illumination coefficients, elevations). `Model/Units.lean`
  has the beam model once more on Quantities with arbitrary units; C87 shows that it agrees with the one in metres and radians.
  `Model/ActUnits.lean` has the actuators on Quantities, C109 compares them; `Model/SimUnits.lean`
  has `block_effelsberg` and the simulation, C110 compares them; `Model/MathUnits.lean` has `rms`, `e_rs`, `snr` and `uv_ratio` (C153).  Units are not modelled for the plots and the files of the fit
  (all convert with `to_value` first).
* Arrays are functions on `Fin n` or pairs, lists, or records with a shape where the shape can go wrong.
* `Py a = Except PyErr a` for exceptions. The file system survives an exception (`Fs.Prog`).
* Aliasing is modelled where the code mutates a caller's array: `phase` (heap of buffers, C10), `rms` (C34),
  `table_pyoof_out` (C53), `generate_phase_pr` (C63).

## Modelled
| file | functions |
|---|---|
| zernike.py | `R`, `U` |
| aperture.py | `e_rs`, `illum_parabolic`, `illum_gauss`, `wavefront`, `phase`, `aperture`, `radiation_pattern` |
| telgeometry.py | all |
| math_functions.py | all |
| core.py | `residual_true` (both modes), `residual`, `params_complete`, `fit_zpoly` with all its files |
| aux_functions.py | all |
| simulate_data.py | all |
| plot_routines.py | all: the arrays, extents, limits, levels, labels handed to matplotlib; files written |
| actuator.py | all |
| scripts | `pyoof_simulate_data.py` but for its figure; distribution of the files in `pyoof_effelsberg_mpi.py`; the loops of `pyoof_effelsberg.py` and of the ranks of the former, all ranks at the same time (C93); `create_lookup.py`, with its figures (C114) |

numpy and others by definition: `linspace`, `meshgrid`, `fft2` (as the double sum), `fftfreq`, `fftshift`, `min`/`max` with nan
propagation, `nan_to_num`, `delete`, `insert`, `rot90`, `array_split`, `around`, `reshape`, boolean masks,
`RegularGridInterpolator(method='linear')`, `os.path.split/splitext/join`, `os.makedirs`, decimal text of integers, the look-up file;
from PyYAML what configuration files use: keys with lists of plain or quoted scalars, comments, the resolver of integers and floats (`Model/Yaml.lean`;
dates, booleans and the like are decided by an arbitrary function that must not take a numeral for them; any other text is outside); PyYAML's writer for dictionaries of ASCII strings, numbers and lists of them, and astropy's csv
tables (`Model/InfoText.lean`).

Parameters with a contract:
* the optimiser of `fit_zpoly`: any function that returns a vector within the bounds (scipy raises otherwise); the
  numbers it returns are arbitrary. For the recovery theorems of C65 it is assumed to find a zero residual where there is one
  (`Spec.Exact`, satisfiable by `exact_exists`); for C83 that the Jacobian it returns is the one of the residual
  (`Spec.TrueJac`, satisfiable by `derivSolver`);
* `RectBivariateSpline` with degree five: linear, interpolating, reproduces quintic polynomials (`Spec.Quintic`, satisfiable
  by `lagrange_quintic`);
* `griddata`: arbitrary, except where a theorem states what it assumes (`snr`, `read_lookup(True)`, `plot_beam_data`);
* `fits.open`: what it returns for a path; float32 columns of the Effelsberg files: an arbitrary rounding function;
* the conversion of decimal text to doubles: any function that returns a nearest double (C92);
* the digits of Python's `repr` of a double: any digits that are read as this double (C106, `Spec.ReprDigits`, satisfiable by
  `digits_exist`);
* `np.power`, `np.sin`, `np.cos` of doubles: within four units in the last place, exact powers of 0 and ±1, `np.arctan2` within 2^-50 (C99, C120, C124, C125, C126, C127, C128 and C131 only,
  `Spec.Accurate`, `Spec.AccurateA`; elsewhere they are the real functions). Python integers are exact, which with arrays holds up to order 20;
* `np.sum`: the additions in any order (C131 and C147 only; elsewhere sums are exact);
* `np.exp` of an imaginary double within 2^-51 in each part, `np.abs` of a complex one within 2^-50 of its value, `np.fft.fft2` with a relative error η in the
  root mean square (C124, C125, C126 and C127 only, `Spec.AccurateC`, `Spec.FourierAccurate`; elsewhere they are the exact functions);
* `np.power` with a real exponent and `np.exp` of a real double: within four units in the last place for positive bases, first powers, squares and
  exponents that are not positive; nan or finite for other powers of small negative numbers (C126 and C127 only, `Spec.AccurateP`); `np.tan` within 2^-50 of its value from 2^-10 to 5/4, `np.sin(0.)` is 0 and `0.**-2` infinite (C127 only, `Spec.AccurateT`, `Spec.ShadeAngle`);
* `np.dot` in doubles: any order of the additions, with or without fused operations; `np.linalg.inv` in doubles: columns that are exact for
  matrices near by (C145 only, `Spec.DotAccurate`, `Spec.InvAccurate`, satisfiable by `Spec.roundedOnce`);
* `np.random.normal`: arbitrary numbers; the clock and `os.getcwd`: arbitrary.

Not modelled: rounding errors (but for C94, C99, C120, C124, C125, C126, C127, C128, C131, C132, C145, C147, C151 and C152); printing; in the yaml file: strings with
characters outside printable ASCII, and strings with blanks in lines of more than 80 characters, which PyYAML breaks; the sign of zero (it does not matter to the wavefront and the aperture, C122); concurrent processes other than as interleavings of atomic file operations (C46);
matplotlib itself; the notebooks.
In `Model/Fit.lean` the figures are taken to succeed; `Model/FitPlots.lean` has them in the loop, with their exceptions, and C84
carries the statements over.

## What was found in the code
These are the places where the property one expects does not hold; the theorems state what does.
* `generate_phase_pr(eac=True)` multiplies the whole stack in each round: map a of N gets the correction N - a times (C63).
* `rms(circ=True)` (and so `e_rs`, `table_pyoof_out`) overwrites the caller's array outside the disc with nan (C34, C53).
* `norm` takes out the illumination amplitude, so the residual does not depend on it although the shipped configuration fits
  it: J^T J is singular (C18). In doubles J^T J can be singular for a Jacobian of full rank: `co_matrices` loses the square of the condition number (C145). A zero residual is a LinAlgError or nan as well (C31).
* `residual_true(interp=False)` always ends in ValueError (C44).
* `co_matrices` counts every pixel of a map as a measurement: oversampled or interpolated maps have smaller formal errors (C104).
* `residual_true` stores the model in an array of the data type of the maps: with integer maps the model is cut to whole
  numbers and can vanish from the residual (C85).
* With all lines of `excluded` commented out, or with `None` (core.py:472 says that this includes all parameters), the fit ends
  in an IndexError and leaves an empty run directory; `excluded: []` includes all (C105).
* The comments of config_params.yml, core.py:470 name parameter 6 `K(1, 1)` and 7 `K(1, -1)`; it is the other way round (C105).
* `params_complete` is right only for ascending `excluded` within 0..7 (C36, C37).
* `fit_zpoly`: number 100 and above reuses a directory (C45); two runs with equal names can share one (C46_race);
  `beam_data.csv` says "Normalized beam" and holds the maps as they are (C67).
* `illum_parabolic` with a fitted centre (`x0`, `y0` not excluded) makes the residual discontinuous: outside its own rim the
  illumination is nan, replaced by 0, inside it is at least the pedestal, so a pixel near the edge of the dish switches when
  the centre moves (C98_rim).  Within the default configuration, where the centre is excluded, a best fit exists (C98_fit).
* `simulate_data_pyoof`: `noise` is added to the pattern before normalisation, so its size relative to the peak depends on the
  resolution (fourth power) and on the amplitude (C97).
* `simulate_data_pyoof`: trimming can leave maps of different lengths, a ValueError (C55_tie); after 101 files UnboundLocalError (C56).
* `simulate_data_pyoof`: two calls in one directory can both return although only the data of one are stored, or one of them can end in OSError at `os.makedirs` (C95_race, C95_directory).
* `scripts/pyoof_simulate_data.py` always shows `test000.fits`: from the second run on these are the data of the first run, not those just simulated (C95_script_again).
* `fit_zpoly` multiplies limits in radians by the unit of `u_data`: for other units the figures of the fitted beam have wrong
  limits (C88). `Model/FitPlots.lean` has the limits for radians.
* `EffelsbergActuator.plot` has the factor 4 pi of two reflections in its contour levels, whatever `n_reflections` is (C86).
* `U` accepts |l| > n (and returns 0) and odd n - l (C01).
* `illum_parabolic` with an integer order is not cut off outside the dish (C20).
* `itransform`/`write_lookup`: nan passes the limits and is written as -9223372036854775808 (C59). A table with fewer than 96
  columns leaves a truncated file, one line is read as 96 (C60).
* `EffelsbergActuator.fit_zpoly`: with `fem=False` the piston is not determined; order 0 with `fem=True` is a ValueError (C65).
* every rank of the MPI script lists the files itself; with different orders files are lost or done twice (C66_order). The script
  takes the files of several directories; files of the same name on two ranks can share one result directory (C93_race).
* `plot_variance(diag=False)` has one tick more than labels on y: ValueError in matplotlib >= 3.3, labels off by one before
  (C71_no_diagonal, C71_no_diagonal_old); a matrix of one parameter is a TypeError (C71_single, C73_single).
* without LaTeX `pyoof.mplstyle` is not applied and the images are upside down with respect to their axes (C72 has both cases).
* the outermost ring of actuators lies on the rim, where `read_lookup(True)` sets the map to 0 (C74_read).
* a wrong sign of `d_z` is not detected: the fit is perfect with the sign of all even orders changed (C77_wrong_sign).
* one nan pixel makes the fit ignore its whole map without a message (C81).
* with the shipped configuration, which fits the amplitude, the covariance of a fit does not exist; what is stored is rounding
  noise (C83_default). A perfect fit ends in LinAlgError (C82_perfect_fit).
* `create_lookup.py` reads the coefficients from the directory that the stored name gives, not from the one the row came from; its
  fallback for the sorting has no effect; without a used observation it ends in ValueError (C89).
  From order six on it always ends in IndexError, since the figure of the fit has eighteen panels (C114_order).
* `scripts/pyoof_effelsberg_mpi.py` uses `aperture.illum_pedestal`, which does not exist; `np.float`, `np.string_`,
  `np.int` are gone from newer numpy (read only, no theorem).
* Documentation: docs/zernike has cos for U(4, -4) and says that R vanishes for odd n - m; docs/aperture calls
  `radiation_pattern` with `box_factor=5 * pr`, which raises (C119). The README passes `block_effelsberg` without its
  parentheses and `illum_pedestal`, a name the package does not have (read only).

## Properties
All are proved; none is partial.

| id | property | model and proof |
|---|---|---|
| C01 | Zernike argument validation | Model `Py`-style dynamic args (int/float), `U` returning `Except`. Case analysis. |
| C02 | Radial polynomials are the Born & Wolf (Rodrigues) ones | `R` as the code's finite sum over reals; spec = iterated `Polynomial.derivative`. Binomial expansion. |
| C03 | Radial normalisation at the rim | Finite differences of a degree-b polynomial (Mathlib `fwdDiff`). |
| C04 | Zernike polynomials bounded by one on the aperture | Matrix coefficients of Sym^n of rotations are bounded by 1; Leibniz form of C02 identifies R as a diagonal one. |
| C05 | Zernike polynomials are orthogonal on the unit disc | Interval integrals over [0,1]x[0,2pi]; radial part by finite differences, angular part by trig integrals. |
| C06 | Zernike parity symmetries | Algebra on the finite sum, trig periodicity. |
| C07 | Enumeration of (n, l) | `nl` list as the code's comprehension; membership, nodup, length, getElem by induction on n. |
| C08 | Wavefront accepts exactly triangular coefficient counts | `wavefront` in `Except`; integer square root of 1+8*size; case analysis for all sizes. |
| C09 | Wavefront is linear and stable under order extension | Induction over coefficient lists. |
| C10 | Phase map semantics | `phase` as the code: copy, zeroing with IndexError, grid, mask. |
| C11 | Phase map is linear and bounded | From C09 and C04. |
| C12 | Phase map grid | `linspace` model; algebra. |
| C13 | Aperture amplitude is set by blockage and illumination only | `aperture` as a complex function of a point; norm of exp(i t). |
| C14 | Radiation pattern coordinates | `fftfreq`, `fftshift`, `linspace` models of the numpy definitions; case analysis, mod arithmetic. |
| C15 | Radiation pattern is the Fourier sum of the aperture at those coordinates | `fft2` by definition, shift permutation, exp periodicity. |
| C16 | Total radiated power is conserved | Parseval for the finite 2-d DFT, roots of unity orthogonality. |
| C17 | Piston invariance | U(0,0)=1, linearity; norm of product. |
| C18 | Illumination amplitude scaling | Linearity of DFT and interpolation; `norm` scale invariance; singular J^T J from a zero column. |
| C19 | Conjugation (sign) degeneracy | Conjugation of the DFT sum, index reflection mod N. |
| C20 | Parabolic illumination | Extended-real float model `Fl` (nan, +-inf, finite reals), real power. |
| C21 | Gaussian illumination | exp monotonicity. |
| C22 | Ruze efficiency range | exp monotonicity on top of C33. |
| C23 | OPD function | Field arithmetic. |
| C24 | Manual blockage | Sequential mask assignments, then iff characterisation. |
| C25 | Effelsberg blockage | Same with `Fl` values, real algebra for the wedge geometry, spec with |x|,|y| folding. |
| C26 | Effelsberg blockage at zero shade angle | `Fl` nan propagation. |
| C27 | norm always returns finite values in [0,1] | `norm` over `Fl`, min/max with numpy nan propagation, 3 axis modes. |
| C28 | norm is invariant under positive affine calibration and idempotent | Field arithmetic on list min/max. |
| C29 | cart2pol round trip | `Complex.arg`. |
| C30 | Covariance and correlation matrices | Mathlib matrices, PosDef, Cauchy-Schwarz for the inverse Gram matrix. |
| C31 | co_matrices failure modes | det = 0 from a kernel vector; zero diagonal. |
| C32 | line_equation interpolates its two points | Field arithmetic. |
| C33 | rms: region, homogeneity, bounds | Shaped arrays of `Fl`; sums. |
| C34 | rms(circ=True) mutates its argument: history dependence | State passing model of the mutated array, histories as lists of calls. |
| C35 | snr is scale invariant | Finite sums; the value is the peak over the standard deviation of the selected samples. |
| C36 | params_complete inverts the exclusion | `np.insert`/`np.delete` list models; induction over ascending exclusion lists. |
| C37 | params_complete preconditions and failures | Case analysis plus counterexamples. |
| C38 | Fit covariance header row matches the Jacobian columns | Corollary of the C36 development. |
| C39 | Stored parameter names match the polynomials | String model of names; injectivity of integer formatting. |
| C40 | Fit iterations are well formed and feasible | Order loop with the optimiser as an arbitrary function satisfying the scipy contract; induction on order. |
| C41 | Residual vanishes for perfect data | Composition of C15/C43/C28 models. |
| C42 | Residual layout and range | List lengths, C27. |
| C43 | Interpolation orientation | `RegularGridInterpolator` (linear, bounds_error) as index search plus bilinear weights. |
| C44 | interp=False cannot be used | numpy broadcasting rules on shapes. |
| C45 | Run directories are never reused (while numbers last) | File system as a finite map; effects log; crash = prefix of log. |
| C46 | Concurrent fits: distinct names never share a directory | Small-step interleaving model of check-then-create; induction over schedules; counterexample for equal names. |
| C47 | Files produced by a fit | File system model; injectivity of names. |
| C48 | FITS path handling | posix `splitext`/`split` on character lists. |
| C49 | FITS header validation | HDU list model with key/value headers. |
| C50 | str2LaTeX | List of characters; induction. |
| C51 | store_data_csv file selection | zip of three lists as in the code. |
| C52 | uv_ratio | Field arithmetic. |
| C53 | table_pyoof_out rows | List map with the mutated array state. |
| C54 | simulate_data d_z validation | Order comparison logic, reals. |
| C55 | simulate_data trimming | Boolean masks over the grid, counting; explicit tie witness over the reals. |
| C56 | simulate_data never overwrites | Same file system model. |
| C57 | simulate then extract | Composition; float32 storage is an uninterpreted rounding function. |
| C58 | transform and itransform are inverse up to the stroke limits | `rot90` by numpy's flip/transpose cases, k mod 4. |
| C59 | Actuator commands never exceed the stroke | Clip logic, half-even rounding monotone on integers. |
| C60 | Look-up table file round trip | Text file as characters; decimal printer/parser round trip; whitespace tokeniser. |
| C61 | Actuator positions | Exact cos/sin of reals; injectivity of (R,theta). |
| C62 | Gravitational model | Linearity; list map. |
| C63 | Ellipsoidal correction is applied once per map (it is not) | Loop model with the in-place stack product: the expected property is refuted by a witness and the true exponent law is proved. |
| C64 | Ellipsoidal correction range | `Fl` with inf at r=0; sin(arctan m). |
| C65 | Phase map fit is consistent | C10 model; least squares as arbitrary function. |
| C66 | Work distribution over MPI ranks | `array_split` as numpy's division points; induction. |
| C67 | Stored results belong together | The file system after a fit: each stored file as a function of the solution of its order. |
| C68 | Coefficients are identifiable | Orthogonality (C05) gives projections; vanishing on a fine grid by zeros of trigonometric polynomials. |
| C69 | Tilt moves the beam | Shift theorem on the Fourier sum of C15. |
| C70 | Phase errors lower the peak | Triangle inequality, strict version, variance expansion. |
| C71 | Covariance figures | `imshow` pixel geometry, tick positions; off by one in the rows refuted. |
| C72 | Beam and phase figures | Extents, limits and levels as real arithmetic; total correctness. |
| C73 | Plotting a stored fit | Composition of the file system after `fit_zpoly` with `plot_fit_path`. |
| C74 | Surface maps and actuators | Spline contract; polynomial maps, rotation of the grid. |
| C75 | New look-up table | Composition of C58, C60, C63, C74. |
| C76 | Turning maps and coefficients | Angle addition on each pair of coefficients; `rot90` cases on the grid. |
| C77 | Sign of the even orders | Conjugation and reflection of the grid; symmetry of the geometries. |
| C78 | Unit of length | Homogeneity of each factor of the aperture. |
| C79 | Wavelength scaling | The same, with the far-field grid and the interpolation. |
| C80 | Stability | C04 bounds the wavefront; Lipschitz bound of exp(it); triangle inequality. |
| C81 | Bad pixels | C27 for one row of the data. |
| C82 | Simulated maps | C57 and C41 composed; C31 for the perfect fit. |
| C83 | Undetermined parameters | Optimiser contract (zero column), C17 and C18 on the completed vector, C31. |
| C84 | Figures that fail | `fit_zpoly` with the model of `plot_fit_path` in its loop; programs that look only at the files with numbers agree on file systems that differ in `plots`. |
| C85 | Beam maps must hold floats | `residual_true` with the conversion of the rows as an argument; truncation of a row within [n, n + 1) is constant, so its `norm` is 0; the power scales with the square of the amplitude; the error bound from the monotony of the conversion |
| C86 | The figure of the look-up table | what is handed to matplotlib, panel by panel; pixel geometry as in C72; the sorted levels as a set compared with the factor of `transform` |
| C87 | Units of length and angle | a model of astropy Quantity arithmetic (numbers with a scale and a dimension, conversion on addition and comparison, UnitConversionError); each function run on Quantities is related to the model in metres and radians |
| C88 | Limits of the fitted beam | the limits as Quantities (model of C87), handed to the model of `plot_beam` (C72) |
| C89 | From the stored fits to the table | the script as a program on the file system; selection of rows characterised by the stored information, rows paired with fits through the sorting, then C53, C65, C75 |
| C90 | From the observations to the table | composition of C40, C45, C46, C67 (each fit as if alone) with C89; progress because a run that raises would raise alone |
| C91 | A batch of FITS files: one directory per fit, each with its own observation | Model of `scripts/pyoof_effelsberg.py` (`Model/Batch.lean`): loops over files and configurations around the models of `extract_data_effelsberg` and `fit_zpoly`. `C91_complete`: induction over the chain of runs with the invariant on the numbers that are free; `C91_numbers`; `C91_observation` from C48, C49, C67; `C91_stopped` for every exception; `C91_completes` from C40. Simplified: columns of different lengths, `OBJECT` or `DATE_OBS` that are no strings and a frequency of zero are a `ValueError` before the fit |
| C92 | The csv files keep numbers exactly | Model of the text of `np.savetxt` (`'%.18e'`, comments, lines) and of `np.genfromtxt` (`Model/Csv.lean`). The relative error of nineteen digits, 10⁻¹⁸/2, is less than half the distance of a double to any other (`double_apart`, 2⁻⁵⁴); the conversion is any function that returns a nearest double (`Spec.Reader`, shown to exist). `C92_exact` for all tables; `C92_observation` with C67 for the files of a run. Not modelled: the sign of zero, a carriage return in the header |
| C93 | An MPI run leaves what the batch without MPI leaves | Ranks as interleaved programs (`rankProgram`, `Sys.Step`), each operation on the disk atomic as in C46. Invariant of C46 for arbitrary programs that first see to `pyoof_out` (`Ghosts`); the ranks one after the other are one of the interleavings (`ranks_in_turn`), so `C93_sequential` and `C93_completes` follow from the uniqueness of the final disk (`ghosts_unique`). `C93_rank`, `C93_names` (different names suffice), `C93_race` (C46_race inside the loops). All ranks see the same list of files (C66_order is about the other case) |
| C94 | The normalisation and the residual in the arithmetic of doubles | `Dbl.norm`, `Dbl.normAxis1`, `Dbl.difference`: the operations of the code, each followed by a rounding; without rounding they are `MathFn.norm` and `MathFn.normAxis1` (`normD_exact`, `normAxis1D_exact`). Rounding is the contract `Spec.Rounding` (nearest double, infinity beyond the range; it exists: `rounding_exists`). Error of a rounding from the spacing of the doubles (`double_near`), of a difference also in the range of the subnormal numbers (`sub_spec`: doubles are multiples of the smallest one). The signs of zeros, and the rounding inside the model beam (Fourier transform, interpolation) are not modelled |
| C95 | Simulations at the same time, and the script that simulates and reads | System of programs of `Model/Fs` (as for C33). Nothing old is changed: a program that puts only where it has seen that nothing was stays so against any other one (`Safe`), induction over the steps. Calls apart: non-interference of programs whose places meet only in directories that are there (`apart_steps`). The races are executions built from the runs alone: both look for a number, then both store |
| C96 | Finer grids converge to the Fourier integral of the aperture | `C15_fourier_sum` makes the value a Riemann sum; the step functions of the grids converge where the aperture is continuous and dominated convergence gives the limit (`Lemmas/Riemann`). For the shipped telescopes the points where the aperture is not continuous lie on finitely many circles and lines in each column, so that their area is zero (Fubini); the wavefront is continuous away from the negative half axis |
| C97 | Small errors of maps, coordinates and coefficients change the residual little | The difference of two normalised values is a difference of pixels and of a convex mean of the differences of the extreme values. The change of the model from `C80_power`; bilinear interpolation is monotone and 1-Lipschitz in the values, and near a node changes by at most distance over step times the largest power. The stored maps from `C57_extract`. The scale of the noise from `C96_pixel` |
| C98 | No flat model map; existence of a best fit | `BestFit`: the correlation of the aperture with itself from the power pattern (orthogonality of the characters); extreme lit pixels; continuity of the model map in the parameters, of the normalised map at a map that is not flat (C97_norm), compactness of the box; amplitude zero and C18 treated apart; completion of the fitted parameters (C36) |
| C99 | The Zernike polynomials and the wavefront in the arithmetic of doubles | `Dbl.R`, `Dbl.U`, `Dbl.wavefront`: the operations of the code, each followed by a rounding; the contracts of the rounding (C94) and of the mathematical library (`Spec.Accurate`, met by `bestLibm_accurate`). The divisors of 20! are doubles (odd part below 2^53); the sum of the sizes of the terms is at most (1+sqrt 2)^n, by its recurrence; at the rim all partial sums are integers below 2^53 |
| C100 | Ruze's efficiency and the computed on-axis gain | `Ruze`: C70's value of the centre pixel as a sum of phasors; cos d >= 1 - d^2/2 below, the double sum over pairs of pixels with cos d <= 1 - d^2/2 + d^4/24 above; exp(-t) <= 1 - t + t^2/2; the phase map and the aperture have the same phase at the pixels of the disc up to the piston |
| C101 | A higher order never fits worse | C09 (zero coefficients of higher order do not change the wavefront) carried through radiation_pattern, the interpolation, the normalisation and params_complete (`C101_nested`); bounds of a higher order extend those of a lower one; C67 links the stored residual file to the optimiser's result (`C101_run`). The optimiser is outside the model: that it finds a best point is a hypothesis (`Spec.FindsBest`), met by a solver in the example. |
| C102 | The rms of a phase map and Ruze's efficiency follow from the coefficients | `RmsLimit`: sums over the pixels of the disc as Riemann sums (`Lemmas/Riemann`, the rim and the negative half axis have area zero), numerator and number of pixels separately; the integral of the squared wavefront by the orthogonality C05; `C102_rms`, `C102_ruze`, `C102_square` (circ=False), `C102_mean` |
| C103 | Turned or mirrored maps have the turned or mirrored solution | `residual_true` with moved coordinates and coefficients equals the original; from the C76 rules, the Fourier sum of C15/C69, a mirror lemma for the linear interpolation on the uneven even grid, and the symmetry of the blockages; inverse coefficients constructed, so minimisers are carried over |
| C104 | The covariance matrix is, on average, the covariance of the fitted parameters | `Errors`: normal equations from the minimum; the residual is the projection of the errors, whose squared length has mean (m - p) sigma^2 (trace); the fitted parameters are a linear image of the errors. Units, permutation and copies from the closed form of the matrices (C30). Linear model: the curvature of the pyoof residual over the size of the errors is outside |
| C105 | The configuration file means what its lines say | `Config`: text to lines to keys (`Model/Yaml`, the part of PyYAML that such files use; anything else is outside), resolver of integers and floats, `float()` of text; then the fit is `fitZpoly` with the entries, so C39 and C40 apply. The shipped file is transcribed and read |
| C106 | The information file and the tables of parameters keep what is written | `InfoText`: `repr` of a double from its digits (contract: they are read as this double; nineteen digits show that such a choice exists), PyYAML's writer for ASCII strings, integers, floats and lists of them, csv with minimal quotes; read by `Yaml` (C105) and `parseFloat` (C92). `C106_stored` is about the tables after a run |
| C107 | The fits of the active surface are linear, local and do not amplify errors | The phase is a linear map of the coefficients (C11), so a minimum exists (projection on a finite-dimensional subspace) and any minimum is the projection; uniqueness of the coefficients from C68 (`2 n + 2` points across) and C62 (three elevations). The optimiser is any function with the contract of C65 |
| C108 | The path difference is that of a real telescope with its sub-reflector moved | The mirrors as surfaces in Euclidean space (`Spec.primary`, `Spec.OnEllipsoid`, `Spec.OnHyperboloid`, `Spec.way`); derivative of the distances, stationarity along the surface (Fermat), cosines at both foci by algebra; bounds from Cauchy-Schwarz |
| C109 | The active surface in any unit | methods of the class on Quantities (`Model/ActUnits`), compared with the model in micrometres, metres and radians; refusals by the dimension |
| C110 | The Effelsberg geometry and the simulation in any unit | floats with units (`FVal`) where `block_effelsberg` divides by zero: every operation commutes with positive scaling, nan and infinities included; equality of the programs on the file system |
| C111 | A fit that is killed | every file is written by one `writeFile` only, at a place where nothing was: invariant `Between` of all states of a program, closed under sequencing; loop invariant for the orders; simulation of the run in one directory by the run in another; prefix of the batch with the chain of C91 |
| C112 | The coefficients describe every smooth surface | Dimension: the polynomials up to an order are independent (C68), lie in the space of polynomials in x, y up to this degree and are as many as its monomials (`Lemmas/ZernikeSpan`). Continuous surfaces by the theorem of Stone and Weierstrass on the disc; the beam as in C80, with the deformation in the path difference of the telescope (`Spec.deformed`) |
| C113 | Excluding parameters from a fit | Both configurations mean complete vectors (`complete_full`, `full_vector`), so the points of the one are points of the other; the run through C67 with an optimiser that finds best points (C101). Formal errors by a variational inequality on the inverse of the Gram matrix (C30) |
| C114 | The figures of the script that makes a look-up table | The script with its figures as a program on files; `C114_gravfit` by the loops of the panels with the names of C07/C61, the maps through C74, the model through C65 and C89, `C114_after` over all prefixes of the trace |
| C115 | What can still be read and done after a program was killed | `C115_readers`: the programs of the readers read only the files of their order (`Reads`), which by C111 are those of the complete fit or absent; `C115_simulation` over all prefixes of the trace of a simulation; `C115_simulate_again` on what it left; `C115_script_never` over all histories of later simulations |
| C116 | Reading and plotting while a fit is running | `C116_undisturbed`: invariant over all interleavings: the fit sees the files as if alone (it never looks at the directory of the plots), a reader has seen only complete files (`Calm`), since each file is absent, half-written or final (C111); `C116_race` constructs the interleaving in which the fit raises |
| C117 | The model beam between the nodes of its grid | `C117_nodes`, `C117_between` (each pair of aperture points contributes an oscillation; second-order Taylor bound on its bilinear interpolation, `power_bilinear`), `C117_dark`, `C117_residual` (with C97_norm), `C117_persists`/`C117_in_focus` (cos t - cos^2 t termwise), `C117_limit` (C96 at the four nodes) |
| C118 | Corrections of the look-up table add up | The displacements of a model at the actuators are a relation (`Spec.Displaces`): phases of the model, displacements with these phases, all in reach, and the spline at the rings. `C118_unique`: at most one; `C118_linear`: linear in the model (through C11, C58, C74); `C118_exists`, `C118_small`: they exist for every model of a size below the limits. `C118_step` characterises the new table; the rest is arithmetic of rounded integers: `C118_cancels`, `C118_sum`, `C118_order`, `C118_undo`, `C118_twice`. |
| C119 | What the documentation says | table: the nine radial polynomials evaluated by the model for all rho; odd n - m: polynomial with leading coefficient n!/(a! b!); y=0: astropy lets a plain zero go with every unit, the lemmas of C87 once more with that; box factor with a unit: piston and tilt get different dimensions and cannot be added, `block_manual` compares r^2 with pr^2 |
| C120 | The phase map in the arithmetic of doubles | `Dbl.phase`: linspace, squares, root, quotient, arctan2, wavefront, cut and factor of the code, each followed by a rounding. Doubles have gaps, so the rounded root of the rounded square of pr is at most pr and kept pixels have a normalised radius of at most 1, where C99 holds; in Cartesian coordinates the polynomials are Lipschitz with constant n (1+sqrt 2)^n (monomials abs(z)^(2k) z^m), which bounds what the rounded coordinates do |
| C121 | The model beam is differentiable, and finite differences are near its slope | The remainder of the exponential on the imaginary axis is at most the square of the argument (mean value inequality); the change of the phase is 2πt times the wavefront of D (linearity, C09), which is at most Σ|D| in the dish; sums over the pixels. Power: the conjugated field times the remainder plus the square of the change of the field (C80), so that the quotient converges. Exact numbers: the rounding in the quotient is not included |
| C122 | The wavefront depends on the place, not on the angle that names it | The wavefront of order n is a polynomial in ρ cos θ and ρ sin θ (`C112_converse`), so equal points give equal values; the exceptions depend on the number of coefficients alone. `Spec.ieeeArctan2` is arctan2 with signed zeros, an independent definition. Smoothness of the polynomial |
| C123 | Better maps give better fits | The residuals of two observations differ by the difference of the normalised maps, whatever the parameters; triangle inequality and C97_norm. For the parameters: the cost is continuous on the slices of constant amplitude (`box_maps`, from C98), so that on the compact part of the box away from the perfect fits it has a positive minimum; amplitude zero costs at least one, other amplitudes do not matter (C18). The optimiser is not modelled: the statement is about every point that is no worse than the true one |
| C124 | The aperture, the radiation pattern and the power in the arithmetic of doubles | `Dbl.aperture`, `Dbl.radiationPattern`, `Dbl.power`: the operations of the code, each followed by a rounding; contracts of the rounding (C94), the library (C99, C120, `Spec.AccurateC`: `exp` of an imaginary number, `abs` of a complex one) and of the transform (`Spec.FourierAccurate`). Nodes as in C120; the wavefront at a moved node from C99 and the Lipschitz bound of C120, outside the dish only bounded (times a dark pixel gives zero); a change of the phase changes the exponential by at most as much; the transform of a difference is at most its sum, the transform error by Parseval and Minkowski. The user's functions enter through `Spec.SameOptics`: a pixel within rounding of an edge is excluded. `DoublePatternCase` shows a correctly rounded library and transform and a telescope that meet the assumptions |
| C125 | The residual of the fit in the arithmetic of doubles | `Dbl.residualTrue` with `Dbl.interpolator` (search, distances, four corners, each operation rounded), `Dbl.difference` of C94. The pattern and power from C124. The rounded search finds the cell of the sample in the rounded axis; the interpolant as a function of the place is continuous and piecewise bilinear, so that moving the nodes by N 2^-49 and the distances by a rounding changes it by a multiple of the largest power even across a grid line (`lin_path`, `bilin_path`); the normalised beam by dividing two near numbers (C94). `DoubleResidualCase` has a telescope and maps that meet the assumptions and an error of at most 10^-10 |
| C126 | The package's own telescope and illuminations in the arithmetic of doubles | `Model/DoubleOptics`: each function with every operation rounded; the library through `Spec.AccurateP` (powers and the exponential within four units in the last place). The map r -> (1 - r^2/4F^2)/(1 + r^2/4F^2) and the bell curve have bounded slopes, the exponential forgives relative errors (`exp_near`), the power of the taper is Lipschitz where it is used (`rpow_lip`); a comparison with a margin is decided alike by near numbers (`lt_stable`). `C126_parabolic`, `C126_gauss` give the hypotheses of C124 and C125, `C126_pattern` and `C126_residual` draw the conclusions. `DoubleOwnCase` has a correctly rounded library and a dish with secondary and struts on 6 by 6 pixels whose pattern is right to 10^-8 |
| C127 | The Effelsberg telescope in the arithmetic of doubles | `Model/DoubleEffelsberg`: every operation rounded, degrees turned into radians by the rounded pi/180; the library through `Spec.AccurateT` (the tangent within 2^-50 as well). Relative errors go through the cosecant, the root and the quotient (`csc2D_near`, `shadeBase_near`, `cornerD_near`), the lines are near the exact ones on the dish (`lineD_near`), and each of the eight masks is decided alike (`wedgeD_pos`, `wedgeD_neg`, `circD_inside`, `beyondD`): `C127_block`. `C127_zero` follows nan through all lines. `C127_opd`, `C127_pattern` and `C127_residual` as in C126. `DoubleEffelsbergCase`: a shade of 45 degrees on 6 by 6 pixels that darkens some of them, pattern right to 10^-8, and a fit without shade |
| C128 | The commands of the active surface in the arithmetic of doubles | `Model/DoubleActuator`: every operation rounded, the wavelength in millimetres and astropy's conversion factors as attributes (`Spec.NearAct`: right to 2^-50). Relative errors with signs go through product, reciprocal and rounding (`fac_mul`, `fac_inv`, `fac_rnd`, `fac_step`); the limits do not enlarge them (`clamp_near`). `C128_factor`, `C128_transform`, `C128_itransform`, `C128_stroke`, `C128_round_trip`, `C128_file`, `C128_commands`, `C128_gravity`. Cases: the default object (`effelsberg_near`), a table up to 4.75 mm, a map with an infinite phase, the numbers for 96 phases at 11 elevations, an elevation of 32 degrees |
| C129 | How fast finer grids converge | `Spec.Jumps` says what an aperture may do: change in proportion to the step but for an area in proportion to it. `Lemmas/RiemannRate`: the sum over the grid is the integral of a step function. `Lemmas/FineEdge`: discs, strips and wedges have edges whose area is proportional to their width, also their intersections and complements; smooth functions are Lipschitz on the square. `C129_rate` (any such aperture, explicit constant), `C129_shipped` (the shipped ones are such), `C129_package`, `C129_pixel`. Cases: the telescope of the scripts on the axis; a disc, which needs the area |
| C130 | The model beam at any sample against the Fourier integral | `Lemmas/RiemannBox`: for a function that vanishes outside a square inside the box the distance of sum and integral does not know the box. `C130_beam` (any aperture with `Spec.Jumps`, explicit constants) joins it to `C117_between`; `C130_package` (shipped telescopes), `C130_residual`, `C130_evaluable` (maps inside the field of view), `C130_limit`, `C130_contrast` (by Riemann-Lebesgue an ideal beam is not flat). Case: a disc in focus, boxes of m diameters, m^2 + 1 points |
| C131 | rms and e_rs in doubles | `Model/DoubleRms.lean` with a tree of additions as parameter; sums of doubles have a purely relative error, so any tree of depth D has the factor (1 ± 2^-53)^D; the squared distances from the circle are integers over (N-1)^2, so the rounded comparison errs at most on the circle itself, and parity excludes that for even N; composed with C120 for the table |
| C132 | Half-written csv files | `Model/CsvShape.lean`: numpy's removal of dimensions of length one, the columns from the text; induction over the text of the words of a line, the lines, the comment; a table with fewer rows is not square, so the mask has the wrong shape; the corner of the grid is masked in doubles |
| C133 | Half-written look-up tables | `fileRows` of `Model/Actuator.lean`; a first part of the lines is some complete lines and a first part of the next (`rows_cut`), whose words are some words and a first part of the next (`words_prefix`); a first part of a decimal number is the number without its last digits (`decNat_prefix`); then C60 and C74 for the table that is left |
| C134 | The pixels of the power pattern determine the beam | The correlation of the aperture with itself has lags of at most (N-1)/box_factor steps, fewer than half the grid, so the inverse transform of the powers at the pixels gives it without wrap-around (`power_corr` of C98, `beam_of_power`); `C134_pixels` ties the spec to C15; a larger box with the same step holds the same samples (`grid_pad`, `sum_pad`); the counterexample has two of three points lit |
| C135 | In focus the even orders show only in second order | The step in the even orders is the flip of C77 with `t` negated, so power in focus is an even function of `t` and its derivative (C121) is zero; the bounds are those of C121; `C135_difference` composes the two offsets; `C135_jacobian` uses C77 for the residual and `C31_zero_column`; closed form `C135_slit` |
| C136 | The in-focus map alone settles the odd orders | Without even orders the field is conjugate at opposite points, so the transform is real up to a known phase (`fft_hermitian`) and equal powers make the product of the transforms of `E - E'` and `E + E'` zero at each pixel. The lit part is within half of the grid, so the product of the transforms is that of a convolution without wrap-around, which has no zero divisors (`fft_domain`: the last lit points of both). Coefficients from the lit points by C68's polynomial argument (`block_zero`). `C136_slope`: the same with the derivative of C121 for the second factor |
| C137 | A wrong focus offset looks like rotation-symmetric coefficients | `geom_near`: the fraction `(1 - s) / (1 + s)` against its geometric series; the series is a polynomial, so C112's spanning gives the coefficients and the projection of C68 shows that those of nonzero angular frequency are zero (`round_of_radial`); `exp_lipschitz` of C80 carries the difference of the phases to the beam |
| C138 | The order of maps and samples does not matter, and repeated samples count again | minimum and maximum of a map depend on the set of its values (`norm_surj`, nan included), the interpolation is sample by sample (`interpolator_surj`, with the same errors), so the residual of the arranged maps is the arranged residual (`C138_residual`, iff); sums over samples by fibres (`C138_cost`, `sum_used`); `C138_best` compares costs; `C138_repeated` scales the matrices through `inv` |
| C139 | At almost every state one map determines the coefficients near by | equal powers are equal autocorrelations (`corr_relation`, the light is within half of the grid); the step from the first to the last lit point has one pair, and from it the phases follow from the outside inwards, two points at a time (`outside_in`); sums of two unit vectors (`two_dirs`); `block_const`: a constant wavefront on a block is the piston; `skew_open`, and `C139_generic` with the deformation (x + N y)^2, whose phases grow with the number of the point, and a step that avoids countably many values |
| C140 | A pointing error common to the three maps goes into the tilts and nowhere else | a linear phase moves the power of the aperture (`exactPower_tilt`); the rows of the model are the piecewise bilinear function of that power at the whole multiples of the step (`sampled_lerp`, whatever cell the interpolation takes), which moves with it; other shifts with the bound of C117 on both sides and C97 for the normalised rows; `C140_phase` from the masked coefficients |
| C141 | What a reader gets from a half-written pyoof_info.yml | the lines of a first part of the text are the lines of complete entries and of one cut entry (`prefix_lines`, `flatMap_cut`, `split_cut`); a cut entry gives nothing, an error, or one entry with its own key (`entry_cut`); the order of the keys from `mergeSort`; for the wrong wavelength the cut is after the first digit, which is an integer to YAML |
| C142 | A slightly wrong Jacobian changes the stored errors and correlations little | the squared lengths of the images of a parameter change under both Jacobians are within (1±κ)² (Cauchy–Schwarz); the quadratic form of the covariance is antitone in that of JᵀJ (`cov_mono`); all entries from the diagonal forms by polarisation (`quad_polar`); sharpness by removing Jv vᵀ and C31 |
| C143 | The residual has slopes, and the errors from finite differences tend to those from the slopes | powers of the field as squared norms of sums of differentiable exponentials, bilinear interpolation with fixed weights, `norm` as a quotient near a point with single extremes (`norm_differentiable`); existence of all residuals along the line from the first one (`sampled_other`); limit by C142 with κ → 0 |
| C144 | Samples left out of the maps, and single samples that stick out | the normalised part is an affine image of the normalised whole, within δ of it (`norm_part`); the interpolation is sample by sample (`modelRow_part`); outliers by the value of `norm` with the outlier as an extreme (C27_value) |
| C145 | The covariance and correlation matrices in the arithmetic of doubles | model `Dbl.coMatrices` with rounded operations; BLAS and LAPACK are parameters with the contracts `Spec.DotAccurate`, `Spec.InvAccurate` (columnwise backward error), which the exact results rounded once meet (`roundedOnce_dot`, `roundedOnce_inv`); a column exact for a matrix near `Jᵀ J` is near in the norm of the covariance itself (`backward_near`, by Cauchy-Schwarz), then rounding by rounding; Läuchli's matrix for the converse |
| C146 | A wrong blockage or illumination | two geometries with the same radius and path difference share the phase (`phases_unique`); the shifted transform is linear, Parseval for the sum of squares; the residual as in C97; for `block_manual` the amplitudes differ by the illumination on the symmetric difference of the visible regions of C24, and the centre is the sum of the amplitudes (C70) |
| C147 | The signal-to-noise ratio in the arithmetic of doubles | model `Dbl.snr` with rounded operations and any order of addition; the rounded mean is near the mean, a deviation from another centre changes the root mean square by at most the shift, the rounded square of the distance decides the disc away from the rim (`nearCentre_iff`); `C147_equal` by evaluation for every rounding |
| C148 | A small focus offset leaves the even orders with large errors | in focus the power is even in the step along an even direction (C77), so its slope is zero; a path difference that is constant but for a part of size dz changes the slope by the bound of `product_turned`; the normalised residual by `slope_le`; `C148_variance` from the inverse relation of C30 by Cauchy's inequality; a case in closed form with a 3 by 3 grid |
| C149 | Which maps a fit accepts | the axes of the model beam in closed form (C14), the interpolator's range check (C43) and `params_complete` (C36); a larger grid by induction on the number of pixels, since (m-1)/m is at most m/(m+1) and neither end moves inwards; the data type of the maps through `residualTrueOf` (`Props/FieldCast.lean`) |
| C150 | Which grids can fit a simulated observation | the columns of a simulated file (C57) with the axes in closed form, the field of a fit (C149) and the relative error of single precision; the refused case from the last pixel, which lies on the edge of the field; single precision of the model power through C149_dtype |
| C151 | Polar coordinates and straight lines in the arithmetic of doubles | `Dbl.cart2pol` (`Model/DoublePolar.lean`) and `Dbl.lineEquation`: the rounded root of the rounded square is the number itself (`sqrt_sq_double`: below a double that is no power of two the gap is at least its (2^53 - 1)th part, `double_below`; the square of a power of two is exact); order from the monotony of rounding; differences and sums of doubles are rounded with a relative error even when subnormal (`sub_spec`) |
| C152 | The size of the figures in the arithmetic of doubles | `Dbl.uvRatio` (`Model/DoubleRatio.lean`): one rounding after every operation; differences of doubles have a relative error even when subnormal (`sub_spec`), a number divided by itself is exact, order from the monotony of rounding. Axes of single precision (as read from a FITS file) and of two different units are not modelled |
| C153 | The rms, the efficiency, the signal-to-noise ratio and the figure size in any unit | `Model/MathUnits.lean`: the functions on Quantities with the rules of `Model/Units.lean` (C87), related to the models in metres and radians; homogeneity of the rms, positive factors in maxima, minima and inequalities. `griddata`, a parameter, is assumed not to depend on the scale of the plane (Delaunay triangulation and the cubic interpolant on it do not, for one factor on both axes; for axes in two different units nothing is claimed) |

## Mutation testing
`tools/mutate.py` edits the model in a copy outside /verif like a programming error would, rebuilds and records which theorems
fail; `seeded/LOG.jsonl` has one line per attempt. Where the English claim was broken and its theorem still proved, the theorem was
tightened (`tools/tightened.json`).
