{"id": "C01", "title": "Zernike argument validation", "statement": "zernike.U(n, l, rho, theta) raises TypeError exactly when l is not an int or n is not an int >= 0; in every other case it returns R(n,|l|,rho)*sin(|l|theta) for l<0 and R(n,|l|,rho)*cos(|l|theta) for l>=0. It never rejects |l|>n, for which it silently returns 0.", "quantifier": "all n, l (ints of either sign or floats), all rho, theta", "why_tests_cant": "two sampled bad arguments say nothing about the rest of the integers", "anchors": ["pyoof/zernike/zernike.py:U", "pyoof/zernike/zernike.py:R"]}
{"id": "C02", "title": "Radial polynomials are the Born & Wolf (Rodrigues) ones", "statement": "For n>=m>=0 with n-m even, R(n,m,rho)*((n-m)/2)!*rho^m equals the ((n-m)/2)-th derivative with respect to t of t^((n+m)/2)*(t-1)^((n-m)/2) at t=rho^2, the formula in the docstring.", "quantifier": "all orders n, all m of the same parity with m<=n, all real rho", "why_tests_cant": "the orders are unbounded and rho is continuous; a test compares one (n,m)", "anchors": ["pyoof/zernike/zernike.py:R"]}
{"id": "C03", "title": "Radial normalisation at the rim", "statement": "R(n,m,1)=1 for every allowed (n,m).", "quantifier": "all n>=m>=0, n-m even", "why_tests_cant": "alternating factorial sums can only be sampled by tests", "anchors": ["pyoof/zernike/zernike.py:R"]}
{"id": "C04", "title": "Zernike polynomials bounded by one on the aperture", "statement": "|R(n,m,rho)|<=1 for |rho|<=1, hence |U(n,l,rho,theta)|<=1 on the unit disc.", "quantifier": "all allowed (n,l), all rho in [-1,1], all theta", "why_tests_cant": "continuous domain, unbounded order", "anchors": ["pyoof/zernike/zernike.py:R", "pyoof/zernike/zernike.py:U"]}
{"id": "C05", "title": "Zernike polynomials are orthogonal on the unit disc", "statement": "The integral over the unit disc of U(n,l)*U(n',l') is 0 unless (n,l)=(n',l'), and is pi*eps/(2(n+1)) (eps=2 for l=0, 1 otherwise) when they are equal; so the set is orthogonal, but not orthonormal as the docstring says.", "quantifier": "all pairs of allowed (n,l), (n',l')", "why_tests_cant": "integrals over a continuum for an infinite family", "anchors": ["pyoof/zernike/zernike.py:U", "pyoof/zernike/zernike.py:R"]}
{"id": "C06", "title": "Zernike parity symmetries", "statement": "R(n,m,-rho)=(-1)^n R(n,m,rho); U at theta+pi is (-1)^n times U for allowed (n,l); U at -theta is U for l>=0 and -U for l<0; U(n,l) is 2pi-periodic in theta.", "quantifier": "all allowed (n,l), all rho and theta", "why_tests_cant": "continuous domain, unbounded order", "anchors": ["pyoof/zernike/zernike.py:R", "pyoof/zernike/zernike.py:U"]}
{"id": "C07", "title": "Enumeration of (n, l)", "statement": "For order n the coefficient order used by wavefront, store_data_ascii and plot_variance is the list of all (i,j) with 0<=i<=n, |j|<=i, i-j even, without repetition, of length (n+1)(n+2)/2; pair (i,j) is at position i(i+1)/2+(i+j)/2, and the list for order n is a prefix of the one for order n+1.", "quantifier": "all orders n, all (i,j)", "why_tests_cant": "unbounded orders", "anchors": ["pyoof/aperture/aperture.py:wavefront", "pyoof/aux_functions.py:store_data_ascii", "pyoof/plot_routines.py:plot_variance"]}
{"id": "C08", "title": "Wavefront accepts exactly triangular coefficient counts", "statement": "wavefront(rho,theta,K) returns sum_i K[i]*U(n_i,l_i) when K.size=(n+1)(n+2)/2 for some n>=0, raises AttributeError for an empty K and IndexError for every other size.", "quantifier": "all coefficient arrays of every size", "why_tests_cant": "every size must be covered, tests use 21", "anchors": ["pyoof/aperture/aperture.py:wavefront"]}
{"id": "C09", "title": "Wavefront is linear and stable under order extension", "statement": "wavefront is additive and homogeneous in K for a fixed order, and appending zero coefficients up to a higher order does not change it.", "quantifier": "all K of all orders, all scalars, all rho, theta", "why_tests_cant": "all coefficient vectors", "anchors": ["pyoof/aperture/aperture.py:wavefront"]}
{"id": "C10", "title": "Phase map semantics", "statement": "phase(K,pr,piston,tilt,resolution) returns phi with phi[i][j]=0 wherever x[j]^2+y[i]^2>pr^2 and 2*pi*W(r/pr,theta) elsewhere, W computed with K[0] zeroed unless piston and K[1],K[2] zeroed unless tilt; so without piston and tilt it does not depend on K[0..2]; the caller's K is not modified; fewer than 3 coefficients raise IndexError when tilt is False.", "quantifier": "all coefficient arrays, radii, flags, resolutions, grid points", "why_tests_cant": "all grid points at all resolutions and all coefficient values", "anchors": ["pyoof/aperture/aperture.py:phase", "pyoof/aperture/aperture.py:wavefront"]}
{"id": "C11", "title": "Phase map is linear and bounded", "statement": "For fixed flags phase is linear in K, and |phi|<=2*pi*sum|K_i| everywhere.", "quantifier": "all K of all orders, pr>0, all resolutions", "why_tests_cant": "continuous inputs, unbounded order", "anchors": ["pyoof/aperture/aperture.py:phase"]}
{"id": "C12", "title": "Phase map grid", "statement": "The axes returned by phase have resolution points, start at -pr, end at pr (resolution>=2), are uniformly spaced and antisymmetric (x[N-1-k]=-x[k]).", "quantifier": "all pr, all resolutions", "why_tests_cant": "all sizes", "anchors": ["pyoof/aperture/aperture.py:phase"]}
{"id": "C13", "title": "Aperture amplitude is set by blockage and illumination only", "statement": "|aperture(x,y)|=|B(x,y)*Ea(x,y)| for all K, d_z, wavelength; it is 0 wherever blocked.", "quantifier": "all points, coefficients, offsets, wavelengths, illumination and geometry functions", "why_tests_cant": "all real inputs and all user supplied functions", "anchors": ["pyoof/aperture/aperture.py:aperture"]}
{"id": "C14", "title": "Radiation pattern coordinates", "statement": "radiation_pattern returns u,v axes of length resolution that are strictly increasing, uniformly spaced by wavel/(resolution*dx), with 0 at index resolution//2, where dx=2*pr*box_factor/(resolution-1); resolution<2 raises IndexError.", "quantifier": "all resolutions (even and odd), radii, box factors, wavelengths", "why_tests_cant": "every resolution", "anchors": ["pyoof/aperture/aperture.py:radiation_pattern"]}
{"id": "C15", "title": "Radiation pattern is the Fourier sum of the aperture at those coordinates", "statement": "F[i][j] equals sum over grid points (a,b) of E(x_b,y_a)*exp(-2*pi*i*((x_b-x_0)*u_j+(y_a-y_0)*v_i)/wavel): row index goes with v, column index with u.", "quantifier": "all resolutions, all aperture inputs, all indices", "why_tests_cant": "index/shift conventions must hold at each index of each size", "anchors": ["pyoof/aperture/aperture.py:radiation_pattern"]}
{"id": "C16", "title": "Total radiated power is conserved", "statement": "sum |F|^2 = resolution^2 * sum (B*Ea)^2; it does not depend on K, d_z or wavel.", "quantifier": "all inputs, all resolutions", "why_tests_cant": "sum over all grids and coefficients", "anchors": ["pyoof/aperture/aperture.py:radiation_pattern", "pyoof/aperture/aperture.py:aperture"]}
{"id": "C17", "title": "Piston invariance", "statement": "Changing K[0] multiplies the aperture and the field pattern by a unit complex number exp(2*pi*i*dK0) and leaves |F|^2 unchanged, hence the residuals of the fit do not depend on K[0].", "quantifier": "all inputs and all piston values", "why_tests_cant": "continuous parameter; all inputs", "anchors": ["pyoof/aperture/aperture.py:aperture", "pyoof/aperture/aperture.py:radiation_pattern", "pyoof/core.py:residual_true"]}
{"id": "C18", "title": "Illumination amplitude scaling", "statement": "With illum_gauss (and illum_parabolic when no nan/overflow replacement occurs) multiplying i_amp by s multiplies E and F by s and |F|^2 by s^2, so residual_true is the same for all non-zero i_amp: i_amp cannot be determined by the fit although the default configuration fits it, and the exact Jacobian has a zero column.", "quantifier": "all inputs, all non-zero scalings", "why_tests_cant": "continuous parameter; all inputs", "anchors": ["pyoof/aperture/aperture.py:illum_parabolic", "pyoof/aperture/aperture.py:illum_gauss", "pyoof/core.py:residual_true", "pyoof/core.py:fit_zpoly", "pyoof/data/config_params.yml"]}
{"id": "C19", "title": "Conjugation (sign) degeneracy", "statement": "The beam of (-K,-d_z) is the beam of (K,d_z) reflected through the origin: |F_{-K,-dz}[i][j]|=|F_{K,dz}[i'][j']| with (u,v)->(-u,-v) modulo the grid; in particular the in-focus map alone cannot tell K from -K up to reflection.", "quantifier": "all K, d_z linear OPDs, all grid indices, all resolutions", "why_tests_cant": "all coefficients", "anchors": ["pyoof/aperture/aperture.py:radiation_pattern", "pyoof/telgeometry/telgeometry.py:opd_manual"]}
{"id": "C20", "title": "Parabolic illumination", "statement": "illum_parabolic equals i_amp at (x0,y0), i_amp*C at distance pr (q>0), lies between i_amp*C and i_amp on the disc of radius pr around (x0,y0) for 0<C<=1, q>0, i_amp>=0 and is non-increasing with distance there; outside that disc with non-integer q (a nan) it is 0; it is always finite; bare numbers and Quantities (dB, m) give the same value.", "quantifier": "all positions, coefficients, radii", "why_tests_cant": "continuous inputs and nan paths", "anchors": ["pyoof/aperture/aperture.py:illum_parabolic"]}
{"id": "C21", "title": "Gaussian illumination", "statement": "illum_gauss uses only the first two and last two coefficients (so a 4 or 5 long list gives the same result), is positive for i_amp>0, maximal at (x0,y0) with value i_amp*sqrt(2 pi)*sigma, strictly decreasing with the distance to it and radially symmetric about it.", "quantifier": "all positions, coefficients, radii", "why_tests_cant": "continuous inputs", "anchors": ["pyoof/aperture/aperture.py:illum_gauss"]}
{"id": "C22", "title": "Ruze efficiency range", "statement": "e_rs(phase)=exp(-rms^2) is in (0,1], is 1 exactly when every phase value inside the considered region is zero, and decreases strictly when the rms grows.", "quantifier": "all finite phase maps, both circ modes", "why_tests_cant": "all arrays", "anchors": ["pyoof/aperture/aperture.py:e_rs", "pyoof/math_functions.py:rms"]}
{"id": "C23", "title": "OPD function", "statement": "opd_manual(Fp,F)(x,y,d_z) is d_z*((1-a^2)/(1+a^2)+(1-b^2)/(1+b^2)): linear in d_z (0 for d_z=0), depends only on x^2+y^2, equals 2*d_z at the centre, is bounded by 2|d_z|, strictly decreasing in r for d_z>0; opd_effelsberg is opd_manual(30, 387.39435).", "quantifier": "all positions, offsets and foci", "why_tests_cant": "continuous inputs", "anchors": ["pyoof/telgeometry/telgeometry.py:opd_manual", "pyoof/telgeometry/telgeometry.py:opd_effelsberg"]}
{"id": "C24", "title": "Manual blockage", "statement": "block_manual returns only 0 or 1; it is 1 exactly at sr^2<x^2+y^2<pr^2 outside both open support-leg rectangles; it is symmetric under x->-x, y->-y and x<->y; with sr=a=L=0 it is 1 exactly for 0<x^2+y^2<pr^2.", "quantifier": "all points and dimensions", "why_tests_cant": "boundary cases of a continuum", "anchors": ["pyoof/telgeometry/telgeometry.py:block_manual"]}
{"id": "C25", "title": "Effelsberg blockage", "statement": "block_effelsberg(alpha) returns only 0 or 1; it is 0 wherever block_manual with Effelsberg dimensions is 0; for 0<alpha<90deg it is 1 exactly in that region minus the four shade wedges/outer caps, so it has the full symmetry of the square despite the asymmetric last condition; the wedge corner (C,D) is on the rim C^2+D^2=pr^2.", "quantifier": "all points, all shade angles in (0,90) deg", "why_tests_cant": "boundaries in a continuum; 12 overlapping masks", "anchors": ["pyoof/telgeometry/telgeometry.py:block_effelsberg", "pyoof/math_functions.py:line_equation"]}
{"id": "C26", "title": "Effelsberg blockage at zero shade angle", "statement": "block_effelsberg(alpha=0) (used in scripts) goes through inf/nan, all shade masks are false and the result equals block_manual(50,3.25,1,20).", "quantifier": "all points", "why_tests_cant": "nan propagation at every point", "anchors": ["pyoof/telgeometry/telgeometry.py:block_effelsberg", "scripts/pyoof_effelsberg_mpi.py"]}
{"id": "C27", "title": "norm always returns finite values in [0,1]", "statement": "norm(P) (axis None, 0 or 1) returns only finite numbers in [0,1] for every non-empty array, including arrays with nan or inf; for finite non-constant data the minimum maps to 0 and the maximum to 1 and order is preserved; a constant line maps to 0; an array containing nan or inf in the line maps to all zeros; an empty array raises ValueError.", "quantifier": "all arrays of all sizes with arbitrary (nan, inf, finite) entries", "why_tests_cant": "special values in any position", "anchors": ["pyoof/math_functions.py:norm"]}
{"id": "C28", "title": "norm is invariant under positive affine calibration and idempotent", "statement": "norm(a*P+b)=norm(P) for a>0; norm(norm(P))=norm(P); norm(-P)=1-norm(P) for non-constant P.", "quantifier": "all finite arrays, all a>0, b", "why_tests_cant": "all arrays and scalars", "anchors": ["pyoof/math_functions.py:norm"]}
{"id": "C29", "title": "cart2pol round trip", "statement": "cart2pol returns rho>=0, theta in (-pi,pi] with rho*cos(theta)=x and rho*sin(theta)=y, and recovers (rho,theta) from rho*cos, rho*sin for rho>0, theta in (-pi,pi].", "quantifier": "all real x, y", "why_tests_cant": "continuous inputs", "anchors": ["pyoof/math_functions.py:cart2pol"]}
{"id": "C30", "title": "Covariance and correlation matrices", "statement": "With m>n_pars and J full column rank and non-zero residual, co_matrices returns cov = RSS/(m-n_pars)*(J^T J)^-1, symmetric positive definite, and corr symmetric with unit diagonal and entries in [-1,1]; scaling the residual by c scales cov by c^2 and leaves corr unchanged.", "quantifier": "all residual vectors, Jacobians, sizes", "why_tests_cant": "all matrices of all sizes", "anchors": ["pyoof/math_functions.py:co_matrices"]}
{"id": "C31", "title": "co_matrices failure modes", "statement": "A rank deficient Jacobian (e.g. a zero column) raises LinAlgError; a zero residual with full rank Jacobian also raises LinAlgError (inverse of a zero diagonal).", "quantifier": "all matrices of all sizes", "why_tests_cant": "all matrices", "anchors": ["pyoof/math_functions.py:co_matrices"]}
{"id": "C32", "title": "line_equation interpolates its two points", "statement": "For x1!=x2, line_equation(P1,P2,.) takes y1 at x1, y2 at x2, is affine, does not depend on the order of the points, and is the only affine function through them.", "quantifier": "all points", "why_tests_cant": "continuous inputs", "anchors": ["pyoof/math_functions.py:line_equation"]}
{"id": "C33", "title": "rms: region, homogeneity, bounds", "statement": "rms(phase,circ=False) is sqrt(sum of squares of the non-nan entries/size of the array); rms(circ=True) for an n x n array is the rms over the non-nan entries in the closed inscribed disc; rms>=0, rms(c*phase)=|c|rms(phase), bounded by max|phase|; circ on a non-square or one dimensional array raises IndexError.", "quantifier": "all arrays", "why_tests_cant": "all arrays, all sizes", "anchors": ["pyoof/math_functions.py:rms"]}
{"id": "C34", "title": "rms(circ=True) mutates its argument: history dependence", "statement": "rms(circ=True) overwrites the entries outside the disc of the caller's array with nan; repeating it gives the same value, so table_pyoof_out's e_rs equals exp(-rms^2) of its phase-rms column; a later rms(circ=False) differs from one made before: it divides the in-disc sum by the full size.", "quantifier": "all histories of rms/e_rs calls on one array", "why_tests_cant": "call histories", "anchors": ["pyoof/math_functions.py:rms", "pyoof/aperture/aperture.py:e_rs", "pyoof/aux_functions.py:table_pyoof_out"]}
{"id": "C35", "title": "snr is scale invariant", "statement": "snr(c*beam)=snr(beam) for c>0 for a gridded beam with non-constant samples in the selected circle; only samples with (u-centre)^2+(v-centre)^2<radius^2 enter the noise estimate.", "quantifier": "all beams, grids, c>0", "why_tests_cant": "all arrays", "anchors": ["pyoof/math_functions.py:snr"]}
{"id": "C36", "title": "params_complete inverts the exclusion", "statement": "For a strictly ascending 'excluded' list within 0..7 and any full parameter vector p of length 5+N, params_complete(np.delete(p,excluded)) is p with the excluded positions replaced by the configured fixed values, and np.delete of the result gives back the fitted values; with an unsorted list this is false.", "quantifier": "all parameter vectors, all fixed values, all ascending exclusion lists, all orders", "why_tests_cant": "2^8 exclusion sets times all values and orders", "anchors": ["pyoof/core.py:params_complete", "pyoof/core.py:residual", "pyoof/core.py:fit_zpoly"]}
{"id": "C37", "title": "params_complete preconditions and failures", "statement": "If params already has 5+N entries it is returned unchanged whatever is excluded; indices above 7 are silently ignored so the result is short; an index beyond the current size raises IndexError; a 'fixed' list that has not 8 entries raises ValueError.", "quantifier": "all inputs", "why_tests_cant": "all lists", "anchors": ["pyoof/core.py:params_complete"]}
{"id": "C38", "title": "Fit covariance header row matches the Jacobian columns", "statement": "The first row stored with cov/corr gives, for each fitted parameter, its index in the complete parameter vector, i.e. params_complete(x)[header[c]]=x[c].", "quantifier": "all ascending exclusion lists, all orders", "why_tests_cant": "all exclusion lists", "anchors": ["pyoof/core.py:fit_zpoly", "pyoof/core.py:params_complete", "pyoof/plot_routines.py:plot_variance"]}
{"id": "C39", "title": "Stored parameter names match the polynomials", "statement": "In fitpar_n{n}.csv row 5+i is named K(n_i, l_i) where U(n_i,l_i) is the polynomial wavefront multiplies by K_coeff[i]; the 5+(n+1)(n+2)/2 names are distinct.", "quantifier": "all orders n and all indices", "why_tests_cant": "all orders", "anchors": ["pyoof/aux_functions.py:store_data_ascii", "pyoof/aperture/aperture.py:wavefront"]}
{"id": "C40", "title": "Fit iterations are well formed and feasible", "statement": "For every order up to order_max, initial vector and bounds have 5+N entries before exclusion; with the default configuration the start vector is within bounds at each order (so scipy never rejects it), given an optimiser that returns in-bounds vectors; the next order starts from the previous solution extended by 0.1s; excluded parameters have their fixed value in every stored solution.", "quantifier": "all order_max, all in-bounds optimiser behaviours, both fit_previous modes", "why_tests_cant": "all optimiser outcomes and orders", "anchors": ["pyoof/core.py:fit_zpoly", "pyoof/data/config_params.yml"]}
{"id": "C41", "title": "Residual vanishes for perfect data", "statement": "If the observed maps are the model power patterns of (I,K) (up to a positive affine calibration per map) sampled at nodes of the model grid, residual_true at those parameters is identically zero.", "quantifier": "all parameters, resolutions, sampled nodes, calibrations", "why_tests_cant": "all inputs", "anchors": ["pyoof/core.py:residual_true", "pyoof/math_functions.py:norm"]}
{"id": "C42", "title": "Residual layout and range", "statement": "residual_true is a flat vector of 3*M entries, map after map, each in [-1,1].", "quantifier": "all inputs", "why_tests_cant": "all inputs", "anchors": ["pyoof/core.py:residual_true"]}
{"id": "C43", "title": "Interpolation orientation", "statement": "Evaluating the model beam at a grid node (u_j,v_i) gives power_pattern[i][j], at any point inside a cell the bilinear mean of its four corners (hence between their min and max), and any point outside the grid raises ValueError.", "quantifier": "all grids, all points", "why_tests_cant": "continuous query points", "anchors": ["pyoof/core.py:residual_true"]}
{"id": "C44", "title": "interp=False cannot be used", "statement": "residual_true(interp=False) raises ValueError for every shape of beam_data (3,M) or (3,N,N) when resolution>=2.", "quantifier": "all shapes and resolutions", "why_tests_cant": "all shapes", "anchors": ["pyoof/core.py:residual_true", "pyoof/math_functions.py:norm"]}
{"id": "C45", "title": "Run directories are never reused (while numbers last)", "statement": "fit_zpoly stores its output in pyoof_out/name-NNN with the least NNN in 000..100 not yet in use; as long as one of the 101 numbers is free no file that existed before is changed, whatever the point at which the run stops; if all are used the run overwrites name-100.", "quantifier": "all initial file system contents, all stop points", "why_tests_cant": "crash points and directory histories", "anchors": ["pyoof/core.py:fit_zpoly"]}
{"id": "C46", "title": "Concurrent fits: distinct names never share a directory", "statement": "Two concurrent fit_zpoly runs with different names never get the same directory in any interleaving; two concurrent runs with the same name can get the same directory.", "quantifier": "all schedules, any number of processes", "why_tests_cant": "interleavings", "anchors": ["pyoof/core.py:fit_zpoly", "scripts/pyoof_effelsberg_mpi.py"]}
{"id": "C47", "title": "Files produced by a fit", "statement": "After a run with order_max=n>=1 the run directory has exactly fitpar/res/jac/grad/phase/cov/corr_n{k}.csv for k=1..n plus beam_data, u_data, v_data .csv and pyoof_info.yml, no order overwrites another order's files.", "quantifier": "all order_max", "why_tests_cant": "all orders", "anchors": ["pyoof/core.py:fit_zpoly", "pyoof/aux_functions.py:store_data_csv", "pyoof/aux_functions.py:store_data_ascii"]}
{"id": "C48", "title": "FITS path handling", "statement": "extract_data_pyoof and extract_data_effelsberg raise ValueError unless os.path.splitext gives '.fits'; for accepted paths name is the non-empty base name without '.fits' and directory/name.fits is the input path (up to repeated slashes between the two).", "quantifier": "all path strings", "why_tests_cant": "all strings", "anchors": ["pyoof/aux_functions.py:extract_data_pyoof", "pyoof/aux_functions.py:extract_data_effelsberg"]}
{"id": "C49", "title": "FITS header validation", "statement": "extract_data_pyoof raises ValueError iff one of FREQ, WAVEL, MEANEL, OBJECT, DATE_OBS is missing (path being fine), else the three maps are those of HDU 1,2,3 in that order; extract_data_effelsberg returns HDU 3,1,2 in that order for d_z, beam, u and v alike.", "quantifier": "all headers and tables", "why_tests_cant": "all files", "anchors": ["pyoof/aux_functions.py:extract_data_pyoof", "pyoof/aux_functions.py:extract_data_effelsberg"]}
{"id": "C50", "title": "str2LaTeX", "statement": "str2LaTeX replaces each underscore with backslash-underscore and keeps all other characters: it distributes over concatenation, is injective, lengthens by the number of underscores, is the identity iff there is none.", "quantifier": "all strings", "why_tests_cant": "all strings", "anchors": ["pyoof/aux_functions.py:str2LaTeX"]}
{"id": "C51", "title": "store_data_csv file selection", "statement": "For order 1 nine files are written and for any other order exactly the six order dependent ones, every file with its own data and header.", "quantifier": "all orders and data", "why_tests_cant": "all orders", "anchors": ["pyoof/aux_functions.py:store_data_csv"]}
{"id": "C52", "title": "uv_ratio", "statement": "uv_ratio returns (11.25*(umax-umin)/(vmax-vmin),5): invariant under a common rescaling and under shifts, and width(u,v)*width(v,u)=11.25^2.", "quantifier": "all non-degenerate axes", "why_tests_cant": "all arrays", "anchors": ["pyoof/aux_functions.py:uv_ratio"]}
{"id": "C53", "title": "table_pyoof_out rows", "statement": "table_pyoof_out returns one row per path in the given order with e_rs=exp(-phase_rms^2) and the first three fitted illumination parameters.", "quantifier": "all lists of outputs", "why_tests_cant": "all lists", "anchors": ["pyoof/aux_functions.py:table_pyoof_out"]}
{"id": "C54", "title": "simulate_data d_z validation", "statement": "simulate_data_pyoof rejects every d_z without d_z[0]<=0, d_z[1]=0, d_z[2]>=0 with ValueError and then writes nothing; it accepts every other d_z: if the patterns can be computed, no grid coordinate lies on the trimming limit, the noise is not negative and a file number is free, the call returns.", "quantifier": "all d_z triples", "why_tests_cant": "all reals", "anchors": ["pyoof/simulate_data.py:simulate_data_pyoof"]}
{"id": "C55", "title": "simulate_data trimming", "statement": "If no grid coordinate falls exactly on the limit +-8*1.22*wavel/(2pr), the trimmed power, u and v maps are square, of equal size and aligned (power[k] belongs to u[k],v[k]) and u ranges over exactly the coordinates inside the limit; on an exact tie (e.g. resolution 550, box_factor 9) the reshape of u fails with ValueError.", "quantifier": "all resolutions, box factors, wavelengths, radii", "why_tests_cant": "boundary coincidences", "anchors": ["pyoof/simulate_data.py:simulate_data_pyoof"]}
{"id": "C56", "title": "simulate_data never overwrites", "statement": "Each call that returns has stored its result in data_generated/testNNN.fits with the least free NNN in 000..100; no existing file is changed by a call, at whatever point it stops; after any sequence of calls all results are still there, in different files; if all 101 exist it raises UnboundLocalError and writes nothing.", "quantifier": "all initial directory contents and call histories", "why_tests_cant": "histories", "anchors": ["pyoof/simulate_data.py:simulate_data_pyoof"]}
{"id": "C57", "title": "simulate then extract", "statement": "extract_data_pyoof of a file written by simulate_data_pyoof (and not changed since) returns the test name, the directory, d_z, the wavelength, c/wavel and the three trimmed maps (plus noise, in single precision) in the order minus, zero, plus.", "quantifier": "all inputs", "why_tests_cant": "all inputs", "anchors": ["pyoof/simulate_data.py:simulate_data_pyoof", "pyoof/aux_functions.py:extract_data_pyoof"]}
{"id": "C58", "title": "transform and itransform are inverse up to the stroke limits", "statement": "itransform(transform(a)) is a clipped to limits_amplitude, for 2-d and 3-d input, every nrot (of either sign), sign=+-1, every wavelength; transform(itransform(p))=p when p corresponds to displacements within the limits; transform is linear.", "quantifier": "all maps, shapes, nrot, limits", "why_tests_cant": "all maps and rotations", "anchors": ["pyoof/actuator/actuator.py:EffelsbergActuator.transform", "pyoof/actuator/actuator.py:EffelsbergActuator.itransform"]}
{"id": "C59", "title": "Actuator commands never exceed the stroke", "statement": "Every number returned by itransform lies in limits_amplitude and every whole number written by write_lookup lies between the rounded limits, whatever finite phase map or displacement is given; a nan is not caught by the clipping: itransform passes it on and write_lookup writes the least 64-bit integer.", "quantifier": "all phase maps / displacements", "why_tests_cant": "all arrays", "anchors": ["pyoof/actuator/actuator.py:EffelsbergActuator.itransform", "pyoof/actuator/actuator.py:EffelsbergActuator.write_lookup"]}
{"id": "C60", "title": "Look-up table file round trip", "statement": "read_lookup(interp=False) of a file written by write_lookup from an (11,96) table returns exactly the values clipped to limits_amplitude and rounded to integer um, for all tables; writing what was read reproduces the file. With fewer than 96 columns write_lookup raises IndexError and leaves a truncated file without the end marker, which read_lookup refuses (an empty one with FileNotFoundError, any other with ValueError) unless it has exactly one line; then it is accepted and the first actuator is taken for all 96.", "quantifier": "all tables", "why_tests_cant": "all integers and table contents", "anchors": ["pyoof/actuator/actuator.py:EffelsbergActuator.write_lookup", "pyoof/actuator/actuator.py:EffelsbergActuator.read_lookup"]}
{"id": "C61", "title": "Actuator positions", "statement": "The 96 actuators are distinct; actuator 24*i+j has radius R[i] and angle 7.5+15j deg; all are within sr=3.25 m.", "quantifier": "all 96 actuators", "why_tests_cant": "exact trigonometric values", "anchors": ["pyoof/actuator/actuator.py:EffelsbergActuator.__init__"]}
{"id": "C62", "title": "Gravitational model", "statement": "grav_deformation is linear in g_coeff and equals g0*sin(alpha)+g1*cos(alpha)+g2, degrees and radians being treated consistently; without eac generate_phase_pr at a list of elevations is elementwise: map a depends only on alpha[a].", "quantifier": "all coefficients and elevation lists", "why_tests_cant": "all lists", "anchors": ["pyoof/actuator/actuator.py:EffelsbergActuator.grav_deformation", "pyoof/actuator/actuator.py:EffelsbergActuator.generate_phase_pr"]}
{"id": "C63", "title": "Ellipsoidal correction is applied once per map", "statement": "generate_phase_pr(eac=True) multiplies map a of N by correction^(N-a) (the whole stack is multiplied inside the loop), so only the last map is corrected once; that every map is corrected exactly once, as documented, is refuted.", "quantifier": "all elevation lists, all correction maps", "why_tests_cant": "list lengths; no test covers it", "anchors": ["pyoof/actuator/actuator.py:EffelsbergActuator.generate_phase_pr"]}
{"id": "C64", "title": "Ellipsoidal correction range", "statement": "ellipsoidal_actuator_correction(r) equals |m|/sqrt(1+m^2), is in [0,1], is 1 at r=0 (through inf), decreasing with r and 0 at r=b.", "quantifier": "all r in [0,b], all axes", "why_tests_cant": "continuous inputs, division by zero", "anchors": ["pyoof/actuator/actuator.py:EffelsbergActuator.ellipsoidal_actuator_correction"]}
{"id": "C65", "title": "Phase map fit is consistent", "statement": "For phase maps produced by phase() from coefficients without piston and tilt, the residual used by EffelsbergActuator.fit_zpoly vanishes at those coefficients and, conversely, where it vanishes the map is reproduced; returned rows have N_K_coeff entries with the first three zero when fem is True; with an optimiser that finds the minimum fit_zpoly reproduces such maps, fit_grav_deformation recovers the g coefficients exactly from three different elevations, and fit_all recovers them from the maps of generate_phase_pr (eac=False) when the maps resolve the polynomials.", "quantifier": "all coefficients and orders, all optimiser results", "why_tests_cant": "all inputs", "anchors": ["pyoof/actuator/actuator.py:EffelsbergActuator.fit_zpoly"]}
{"id": "C66", "title": "Work distribution over MPI ranks", "statement": "np.array_split over ranks as used in the MPI script gives each file to exactly one rank, in order, with loads differing by at most one, provided all ranks see the same list; the script globs on every rank, and with lists in different order a file can be left out.", "quantifier": "all file lists, all numbers of ranks", "why_tests_cant": "all sizes", "anchors": ["scripts/pyoof_effelsberg_mpi.py"]}
{"id": "C67", "title": "Stored results belong together", "statement": "All files of one order of a fit (fitpar, res, jac, grad, phase, cov, corr) stem from one and the same optimiser result: the stored solution is that result completed by the fixed parameters, phase_n{k}.csv is the phase map (without piston and tilt) of exactly the stored solution, residuals, Jacobian, gradient and covariance are those of that result, and the observation and its description are stored exactly as given to fit_zpoly (the beam maps not normalised, in spite of their header).", "quantifier": "all inputs, configurations, optimiser results, initial file systems", "why_tests_cant": "A test sees one run of one optimiser; a mix up of orders or a phase map of other coefficients shows only in some runs.", "anchors": ["pyoof/core.py:fit_zpoly", "pyoof/aux_functions.py:store_data_csv", "pyoof/aux_functions.py:store_data_ascii"]}
{"id": "C68", "title": "Coefficients are identifiable", "statement": "Every Zernike coefficient is the normalised projection of wavefront() on its polynomial over the unit disc, so different coefficients give different wavefronts; and two coefficient vectors of order n>=1 whose phase() maps agree on a grid of at least 2n+2 points across agree in every coefficient that takes part (piston and tilt only where they are asked for). On too coarse a grid this fails (3 points, order 2).", "quantifier": "all coefficient vectors, orders, aperture radii and resolutions", "why_tests_cant": "injectivity over a continuum of coefficients and all orders", "anchors": ["pyoof/aperture/aperture.py:wavefront", "pyoof/aperture/aperture.py:phase", "pyoof/zernike/zernike.py:U"]}
{"id": "C69", "title": "Tilt coefficients move the beam without changing its shape", "statement": "Adding a to the third and b to the second aberration coefficient (the x and y tilts) multiplies the aperture by exp(2*pi*i*(a*x+b*y)/pr), so |F| of radiation_pattern at (u,v) becomes the modulus of the far field of the original aperture at (u-a*wavel/pr, v-b*wavel/pr); the coordinates returned do not change; when the shift is a whole number of pixels, the beam map is the original moved (cyclically) by that number of columns/rows.", "quantifier": "all coefficients, tilts, resolutions, geometries, illuminations, wavelengths, box factors", "why_tests_cant": "sign, axis and size of the shift have to hold for each tilt and each grid", "anchors": ["pyoof/aperture/aperture.py:radiation_pattern", "pyoof/aperture/aperture.py:aperture", "pyoof/aperture/aperture.py:wavefront"]}
{"id": "C70", "title": "Phase errors only lower the on-axis peak", "statement": "|F| of radiation_pattern is nowhere above sum |B*Ea|; with constant phase (in particular zero coefficients and no path difference) and non-negative amplitudes the pixel [resolution//2, resolution//2] attains it, so the beam maximum is on axis; equality on axis forces the phases to agree modulo 2*pi wherever there is amplitude; in general |F| on axis is at least sum a*(1-(phi-phi0)^2/2) for every reference phase phi0 (Marechal).", "quantifier": "all coefficients, defocus, wavelengths, geometries, illuminations and resolutions", "why_tests_cant": "an inequality over all aperture phases", "anchors": ["pyoof/aperture/aperture.py:radiation_pattern", "pyoof/aperture/aperture.py:aperture"]}
{"id": "C71", "title": "The covariance and correlation figures label each cell with the right parameters", "statement": "plot_variance (with the diagonal) puts the label of the parameter whose index is stored in the header over each column and row, and the pixel at the crossing of two ticks shows the entry of the matrix for these two parameters, once per pair, the rest masked. The colours run from the smallest to the largest entry of the matrix, without the header row. Without the diagonal the labels do not fit: current matplotlib raises ValueError, an older one shifts the labels of the rows by one parameter. A fit with a single parameter ends in TypeError.", "quantifier": "all matrix sizes, header indices and polynomial orders", "why_tests_cant": "a label shifted by one gives a plausible figure; the match has to hold for every subset of fitted parameters", "anchors": ["pyoof/plot_routines.py:plot_variance", "pyoof/aux_functions.py:store_data_csv"]}
{"id": "C72", "title": "Beam and phase figures show the computed maps at their coordinates", "statement": "plot_beam has one panel for each of the first three offsets, in order, with the power of radiation_pattern normalised to [0, 1], the pixel over each sample (u, v) showing the power of that sample (mirrored in v when image.origin is 'upper'), colour range 0 to 1 and ten even levels; without limits the axes are centred on a maximum of the second map with half width 8*1.22*wavel/(2 pr), in the unit of the axes; it raises ValueError exactly when one of the three maps is flat, and an error for fewer than three offsets. plot_beam_data shows each map, normalised on its own unless res_mode, over the range of its own positions. plot_phase shows phase() and its title names the terms left out; plot_phase_data refuses arrays that are not square.", "quantifier": "all coefficients, offsets, geometries, resolutions, units and limits", "why_tests_cant": "figures are not compared pixel by pixel and the axes have to agree for every grid", "anchors": ["pyoof/plot_routines.py:plot_beam", "pyoof/plot_routines.py:plot_beam_data", "pyoof/plot_routines.py:plot_phase", "pyoof/plot_routines.py:plot_phase_data"]}
{"id": "C73", "title": "Plotting a stored fit shows that fit and touches only the plots directory", "statement": "After fit_zpoly, plot_fit_path on its output directory with the same telescope and illumination function makes the figures of that fit and order: the beam and the phase of the stored solution with the offsets, wavelength, box factor and resolution of the fit, the stored residual, for order 1 only the observed maps, and the two stored matrices, whose columns and rows are labelled with exactly the fitted parameters. Nothing outside the plots directory changes, also when it raises; with save exactly the figures of the order are written. An order that was not fitted gives FileNotFoundError and leaves an empty plots directory; a fit of one parameter cannot be plotted; with two or more parameters only a flat beam map or an uninterpolable map can prevent it.", "quantifier": "all fits that complete, orders, excluded parameters, initial file systems, telescopes and solvers", "why_tests_cant": "ties the figures to what a separate run stored on disk, for every order, parameter subset and state of the directory", "anchors": ["pyoof/plot_routines.py:plot_fit_path", "pyoof/core.py:fit_zpoly", "pyoof/aux_functions.py:store_data_csv"]}
{"id": "C74", "title": "Surface maps and actuator tables agree in place, orientation and scale", "statement": "interp_surface2rings gives, for each of the eleven elevations and each of the 96 actuators, the value at the position of that actuator (ring i, angle of actuator j, columns of the map along x and rows along y) of every displacement map that is a polynomial of degree at most five in x and y; it is linear in the maps; fewer than eleven maps give IndexError, maps of another shape ValueError. For such phase maps on the primary dish within the limits, itransform followed by write_lookup writes for each actuator the phase at its place, scaled to the primary dish and turned by nrot quarter turns, divided by the phase per micrometre and rounded. read_lookup(True) makes map e from column e alone, with finite numbers everywhere, 0 on and outside the rim and where the interpolation is undefined, and refuses files without exactly 96 rows; from phase_pr_lookup itransform gets these maps back, clipped to the limits.", "quantifier": "all maps, resolutions of at least 6, radii, numbers of rotations, signs, frequencies and limits; all splines that are linear, interpolate, and reproduce quintic polynomials", "why_tests_cant": "an exchange of axes, a rotation in the wrong sense or an offset in the ring index is invisible on symmetric maps and must be excluded for every map and every actuator", "anchors": ["pyoof/actuator/actuator.py:interp_surface2rings", "pyoof/actuator/actuator.py:read_lookup", "pyoof/actuator/actuator.py:itransform", "pyoof/actuator/actuator.py:write_lookup"]}
{"id": "C75", "title": "A new look-up table is the present one less the model, within the stroke", "statement": "The table created from fitted gravitational coefficients by the create_lookup script has for each elevation and actuator the present command minus the displacement at that actuator of the surface whose phase is the gravitational model at that elevation, clipped and rounded; no command is outside the limits, whatever the model and the present table; the script does not stop for a sub-reflector radius up to 5.2 m; and when only piston and tilt coefficients are not zero the new file equals the present one.", "quantifier": "all coefficients, present tables, orders, resolutions of at least 6, frequencies, rotations, signs and integer limits", "why_tests_cant": "a command beyond the stroke or with the wrong sign depends on the combination of table and model, and there are unboundedly many of them", "anchors": ["scripts/create_lookup.py", "pyoof/actuator/actuator.py:generate_phase_pr", "pyoof/actuator/actuator.py:write_lookup"]}
{"id": "C76", "title": "Turning a map is turning its coefficients", "statement": "Turning a phase map by quarter turns (np.rot90, with or without piston and tilt) gives exactly the phase map of the coefficients turned by the same angle: each pair K(n, l), K(n, -l) is rotated by l times the angle. For any angle the wavefront of the turned coefficients at a point is the wavefront of the original ones at the turned point, and the mirrored coefficients belong to the mirrored points. itransform of the actuator object with nrot quarter turns equals itransform without turning of the map of the coefficients turned back. A half turn changes exactly the signs of the odd orders.", "quantifier": "all coefficient lists, orders, angles, numbers of quarter turns, resolutions of at least 2, radii, flags", "why_tests_cant": "a rotation in the wrong sense agrees with the right one on every symmetric map; the relation is between two infinite families", "anchors": ["pyoof/zernike/zernike.py:74-152", "pyoof/aperture/aperture.py:256-348", "pyoof/aperture/aperture.py:203-253", "pyoof/actuator/actuator.py:itransform"]}
{"id": "C77", "title": "The sign of the even orders is fixed by the defocus alone", "statement": "For a telescope and illumination that are symmetric about the centre, changing the sign of all even order coefficients together with the sign of the radial offset d_z leaves the beam map as it is. So in-focus maps cannot tell the two sets apart, the objective of the fit with all maps in focus is equal for both, and maps analysed with the sign of d_z wrong are fitted perfectly by the coefficients with the sign of the even orders changed. The geometries and centred illuminations of the package are symmetric in this sense.", "quantifier": "all coefficients, orders, offsets, wavelengths, resolutions, box factors, beam data and coordinates", "why_tests_cant": "a sign error in d_z shows up as no error at all: the fit converges with zero residual to a wrong answer for every data set", "anchors": ["pyoof/aperture/aperture.py:439-556", "pyoof/core.py:residual_true", "pyoof/telgeometry/telgeometry.py:65-100", "pyoof/telgeometry/telgeometry.py:103-177"]}
{"id": "C78", "title": "The unit of length does not matter", "statement": "With every length (dish and sub-reflector radii, leg, foci, illumination offsets, radial offset, wavelength) multiplied by the same positive number, radiation_pattern returns the same coordinates and field and residual_true the same residual.", "quantifier": "all positive factors, geometries, coefficients, resolutions, box factors, data", "why_tests_cant": "a quantity taken in the wrong unit is invisible when all test inputs use one unit", "anchors": ["pyoof/aperture/aperture.py:439-556", "pyoof/telgeometry/telgeometry.py:180-215", "pyoof/telgeometry/telgeometry.py:65-100", "pyoof/aperture/aperture.py:142-200"]}
{"id": "C79", "title": "Wavelength scaling", "statement": "Multiplying the wavelength and the radial offset by the same number stretches the far-field coordinates by that number and leaves the field values as they are; the residual is unchanged when the wavelength, the radial offsets and the angles of the data are multiplied by the same positive number.", "quantifier": "all factors, parameters, illuminations, blockages, path differences proportional to the offset (those of the package are), data", "why_tests_cant": "the relation is between runs at different frequencies, for a continuum of frequencies", "anchors": ["pyoof/aperture/aperture.py:439-556", "pyoof/core.py:residual_true", "pyoof/telgeometry/telgeometry.py:12-62"]}
{"id": "C80", "title": "The beam depends on the coefficients in a stable way", "statement": "For an aperture that is dark outside the dish each point of the far field changes by at most 2 pi times the sum of the amplitudes times (the sum of the changes of the coefficients plus c times the change of the radial offset in wavelengths), and the power by at most twice that times the sum of the amplitudes; c = 2 for opd_manual.", "quantifier": "all coefficients, pairs of offsets, geometries, illuminations, resolutions", "why_tests_cant": "an error bound between all pairs of inputs cannot be sampled", "anchors": ["pyoof/aperture/aperture.py:439-556", "pyoof/aperture/aperture.py:203-253", "pyoof/telgeometry/telgeometry.py:65-100"]}
{"id": "C81", "title": "One bad pixel makes the fit ignore a whole map", "statement": "If one pixel of one of the three maps is nan or infinite, residual_true raises nothing and the residual of every pixel of that map is minus the normalised model: the other pixels of the map have no effect at all, and the map counts as if it were constant.", "quantifier": "all parameters, data, positions and kinds of the bad pixel, coordinates, geometries", "why_tests_cant": "the failure is silent and depends on the content of the data", "anchors": ["pyoof/core.py:residual_true", "pyoof/math_functions.py:norm"]}
{"id": "C82", "title": "Simulated maps are fitted by their own parameters", "statement": "Maps written by simulate_data_pyoof without noise and read back by extract_data_pyoof are three maps of equal size, and the residual of the fit at the parameters of the simulation is zero at every pixel. A fit that reaches zero residual has no correlation matrix: fit_zpoly then ends in an exception and has stored no file.", "quantifier": "all parameters, geometries, directory contents, file numbers; exact storage and no noise; all optimisers", "why_tests_cant": "an exchange of u and v, of the order of the maps or of the sign of d_z between writer and reader can cancel in each test of one function", "anchors": ["pyoof/simulate_data.py:simulate_data_pyoof", "pyoof/aux_functions.py:extract_data_pyoof", "pyoof/core.py:residual_true", "pyoof/math_functions.py:co_matrices", "pyoof/core.py:fit_zpoly"]}
{"id": "C83", "title": "Amplitude or piston among the fitted parameters", "statement": "If the illumination amplitude (as in the configuration that comes with the package) or the piston is not excluded from the fit, then, for every optimiser whose Jacobian has a zero column for a parameter without influence and in exact arithmetic, fit_zpoly ends in an exception at the first order and stores no file, because the covariance of the fit does not exist.", "quantifier": "all data, geometries, configurations with feasible bounds, optimisers of that kind, file systems", "why_tests_cant": "with rounding the Jacobian column is noise instead of zero and a test sees a covariance that looks like a number", "anchors": ["pyoof/core.py:fit_zpoly", "pyoof/data/config_params.yml", "pyoof/math_functions.py:co_matrices"]}
{"id": "C84", "title": "Figures that fail do not cost the numbers", "statement": "If fit_zpoly with make_plots=True ends in an exception, then either the same call without figures ends in the same exception, or the figures of some order k could not be made, and then every file with numbers of the orders up to k is on the disk exactly as after a fit of k orders without figures; nothing else differs outside the directory plots. In a new directory a run with figures ends normally exactly when the fit without figures does and the figures of every order can be made from its files, and then the stored numbers are the same. With a single free parameter at the first order a run with figures always ends in an exception.", "quantifier": "all data, geometries, configurations, optimisers, interpolations, file systems, exceptions", "why_tests_cant": "a test runs a fit whose figures succeed; the claim is about every exception at every order", "anchors": ["pyoof/core.py:fit_zpoly", "pyoof/plot_routines.py:plot_fit_path"]}
{"id": "C85", "title": "Beam maps must hold floats", "statement": "residual_true converts the model power to the data type of the observed maps. For float maps this changes nothing. For integer maps (counts, say) the power is cut to whole numbers: where the model power of each map stays between two consecutive integers the residual is the normalised data and ignores every parameter; for an illumination proportional to its amplitude this is so for all amplitudes below a positive bound, although the float residual does not depend on the amplitude at all. If the power of a map ranges over an interval of length R, each entry of the residual of that map is off by at most 2/R.", "quantifier": "all maps, samples, offsets, geometries, illuminations, parameter lists, grid sizes", "why_tests_cant": "a test has one data set, in practice of floats; the claim is about every amplitude and every map", "anchors": ["pyoof/core.py:residual_true"]}
{"id": "C86", "title": "The figure of the look-up table", "statement": "EffelsbergActuator.plot succeeds exactly when it is given at least eleven maps on the grid of the object (two points or more along a side), so always for the table of the object itself. It then has eleven panels; the panel labelled with elevation number e shows map e, the pixel over each grid point of the dish (phases: primary; displacements: sub-reflector) holding the value of that point, and all panels share one colour range, the least and greatest value of the whole stack. The contour lines of a phase map are at -2, -1.5, ..., 2 rad. For displacements they are where transform gives these phases exactly if n_reflections is 2; for any other number they are not.", "quantifier": "all objects, stacks, resolutions, radii, frequencies, signs, numbers of reflections, image origins", "why_tests_cant": "figures are looked at, not tested; the claim covers every grid and every parameter of the class", "anchors": ["pyoof/actuator/actuator.py:EffelsbergActuator.plot"]}
{"id": "C87", "title": "Lengths and angles may be given in any unit", "statement": "phase, radiation_pattern and the residual of a fit give the same numbers whatever unit of length the radius, the wavelength, the radial offset and the dimensions of the telescope are given in, and whatever unit of angle the sky coordinates are given in; each input may have its own unit. This holds for the manual and the Effelsberg path difference, the manual blockage (with plain zeros for the parts left out) and both illumination functions (amplitude plain, taper in dB, offsets in a length or plain zero). A wavelength of another dimension (for example a frequency) never gives a pattern, and a radius without a unit never gives a phase map: the call raises.", "quantifier": "all units of the right dimension (any positive size), all values, coefficients, resolutions", "why_tests_cant": "a test uses one or two units; the claim covers every combination of units of every argument", "anchors": ["pyoof/aperture/aperture.py:256-348", "pyoof/aperture/aperture.py:439-556", "pyoof/aperture/aperture.py:351-436", "pyoof/aperture/aperture.py:72-139", "pyoof/aperture/aperture.py:142-200", "pyoof/telgeometry/telgeometry.py", "pyoof/core.py:residual_true"]}
{"id": "C88", "title": "Limits of the figure of the fitted beam", "statement": "In the figures fit_zpoly makes of the fitted beam, each of the three panels ends at the least and greatest coordinate of the first observed map, times the size of the unit of u_data in radians. So the panels show the observed field exactly if u_data is in radians (for a field of non-zero width); for coordinates in degrees they show a field pi/180 times as wide.", "quantifier": "all maps, all units of angle of u_data and v_data, all figure units, telescopes, coefficients", "why_tests_cant": "figures are not tested, and the limits are right for the unit the examples use", "anchors": ["pyoof/core.py:fit_zpoly", "pyoof/plot_routines.py:plot_beam"]}
{"id": "C89", "title": "From the stored fits to the new look-up table", "statement": "scripts/create_lookup.py uses an observation exactly when the signal-to-noise ratio in focus stored with it is above 200 (infinity counts, nan does not) and its name is not 'offset' and does not end in '-offset'. The elevations and coefficients that enter the gravitational model are those of the used observations, each once, however the directories are listed and sorted; the coefficients are read from the directory that the stored name and the run number give. When they follow a gravitational model, three of them at different elevations, and the optimiser finds the minimum, the script writes the table of that model and changes nothing else. When no observation is used it ends in an exception and writes nothing. Whatever the input and wherever it is stopped, nothing that was there before is changed except the file of the new table.", "quantifier": "all sets of stored fits, orders of directories, names, elevations, models, present tables, points of interruption", "why_tests_cant": "the script has no tests; the claim is about every collection of observations and every listing order, and about files left alone", "anchors": ["scripts/create_lookup.py", "pyoof/aux_functions.py:table_pyoof_out", "pyoof/actuator/actuator.py:EffelsbergActuator.fit_grav_deformation", "pyoof/actuator/actuator.py:EffelsbergActuator.write_lookup"]}
{"id": "C90", "title": "From observations fitted at the same time to the look-up table", "statement": "When any number of observations with different names are fitted at the same time in a working directory without earlier results for them, then in every interleaving: fits that would complete alone can always still complete, and all have completed when nothing is left to do; the directory of a completed fit is name-000, with the name, elevation, signal-to-noise ratio, parameters and phase map of that observation; files outside pyoof_out stay as they were. If the coefficients stored for the good observations follow a gravitational model, create_lookup.py, given the directories in any order, then writes the table of that model.", "quantifier": "any number of observations, all interleavings of their file operations, all orders of the directories, all contents", "why_tests_cant": "interleavings cannot be enumerated by tests; the claim spans fit_zpoly, the stored files, table_pyoof_out and the actuator code", "anchors": ["pyoof/core.py:fit_zpoly", "scripts/pyoof_effelsberg_mpi.py", "scripts/create_lookup.py", "pyoof/aux_functions.py:table_pyoof_out"]}
{"id": "C91", "title": "A batch of FITS files: one directory per fit, each with its own observation", "statement": "The batch script, given FITS files and configurations of the telescope, makes one result directory for each file and configuration, in this order. Files of the same name from different directories, and the configurations of one file, get the numbers name-000, name-001, … that were free, in their order. Each directory holds what that fit alone leaves there: object, date, frequency, elevation of the header, the wavelength c/f, the defocus and the maps of the HDUs 3, 1, 2 in this order, and the own configuration. Nothing that existed before is changed. If a file or a fit raises, the batch stops with that exception: the earlier results are complete, and nothing is made for the names of later files. If all files have an observation and all fits can be done, the batch completes.", "quantifier": "all lists of files and configurations, all contents of the FITS files, all file systems with enough free numbers", "why_tests_cant": "any number of files, names that coincide, results of earlier runs and any point of failure", "anchors": ["scripts/pyoof_effelsberg.py", "scripts/pyoof_effelsberg_mpi.py", "pyoof/aux_functions.py:extract_data_effelsberg", "pyoof/core.py:fit_zpoly"]}
{"id": "C92", "title": "The csv files keep numbers exactly", "statement": "What a fit stores in its csv files is read back without any change: for every table of doubles, nan and infinities, of the smallest and of the largest magnitude, and every header, also with several lines and with comment characters. In particular the maps and coordinates read from the result directory are the ones that were given to the fit, bit by bit.", "quantifier": "all tables of doubles, nan and infinities with at least one column, all headers without carriage return, all correct conversions of decimal text to doubles", "why_tests_cant": "2^64 values per number; a format that is too short fails on few of them", "anchors": ["pyoof/aux_functions.py:store_data_csv", "pyoof/plot_routines.py:plot_fit_path", "pyoof/aux_functions.py:table_pyoof_out"]}
{"id": "C93", "title": "An MPI run leaves what the batch without MPI leaves", "statement": "When no two ranks have files of the same name, then in every interleaving of the ranks: a rank ends as its part of the files would alone on the disk, with the same directories or the same exception, whatever becomes of the other ranks; when all ranks have completed, the directories they report, in the order of the ranks, and the whole disk are those of the batch over all files without MPI; when that batch completes, no rank ever raises, and every execution that comes to an end ends in its disk. Files of the same name on two ranks (the script takes the files of several directories) can end up in one directory.", "quantifier": "all lists of files and configurations, all numbers of ranks, all file systems, all interleavings of the file operations", "why_tests_cant": "the interleavings of concurrent processes are not reproducible and their number grows without bound", "anchors": ["scripts/pyoof_effelsberg_mpi.py", "pyoof/core.py:fit_zpoly"]}
{"id": "C94", "title": "The normalisation and the residual in the arithmetic of doubles", "statement": "With the rounding of IEEE 754 after every operation (to a nearest double, ties as one likes): norm of a map of doubles, nan and infinities included, gives doubles in [0, 1]; for a map that is not constant and whose range does not overflow the smallest entries give exactly 0 and the largest exactly 1, a pixel that is not smaller gives a value that is not smaller, and every value is within 2^-51 of the exact one; normalising twice changes no bit. The entries of the residual are doubles in [-1, 1], an entry is 0 exactly where the two normalised maps have the same double, and it is within 2^-49 of the exact difference of the normalised maps.", "quantifier": "all maps of doubles of all shapes, all roundings to a nearest double", "why_tests_cant": "rounding errors depend on the values of all 2^64 doubles per pixel; tests compare a few maps with a tolerance", "anchors": ["pyoof/math_functions.py:norm", "pyoof/core.py:residual_true"]}
{"id": "C95", "title": "Simulations at the same time, and the script that simulates and reads", "statement": "Whatever calls of simulate_data_pyoof run at the same time, no entry that was on the disk before is changed, at any moment. Calls in different existing directories, none of whose data_generated lies inside that of another, end each as they would alone, with the same files. In one directory they do not: for any two calls that would return alone there is an interleaving in which both return but the disk is as after the second alone, so that the data of the first are lost; and if data_generated does not exist yet, one in which one of them ends in OSError though it would return alone. scripts/pyoof_simulate_data.py shows its own simulation only if there was no test000.fits in data_generated: otherwise it shows the data of the old file whatever it has simulated.", "quantifier": "all numbers of calls, all inputs, all states of the disk, all interleavings", "why_tests_cant": "the interleavings of file operations are not under the control of a test, and a test starts from an empty directory", "anchors": ["pyoof/simulate_data.py:simulate_data_pyoof", "scripts/pyoof_simulate_data.py"]}
{"id": "C96", "title": "Finer grids converge to the Fourier integral of the aperture", "statement": "With aperture, illumination and aberrations fixed, the field that radiation_pattern returns on finer and finer grids converges. At pixels whose reported coordinates u, v tend to a direction, the value, multiplied by the area of an aperture pixel and by the phase of the corner of the box, tends to the Fourier integral of what aperture returns, taken over the whole plane in that direction. The power at the pixel m, n steps from the centre tends to that of the direction m*wavel/(2*pr*box_factor), n*wavel/(2*pr*box_factor), and so does the power relative to the centre. This holds for each telescope and illumination shipped with the package (parabolic with exponent q > 0, Gauss), all Zernike coefficients, all defocus and box_factor >= 1; the error of the discretisation goes to zero though the blockage is not continuous.", "quantifier": "all sequences of resolutions that grow without bound, all directions, all shipped telescopes and illuminations, all coefficients, all wavelengths other than zero", "why_tests_cant": "a limit over resolutions cannot be observed, and the integral has no closed form to compare with", "anchors": ["pyoof/aperture/aperture.py:radiation_pattern", "pyoof/aperture/aperture.py:aperture", "pyoof/telgeometry/telgeometry.py:block_effelsberg", "pyoof/telgeometry/telgeometry.py:block_manual", "pyoof/aperture/aperture.py:illum_parabolic"]}
{"id": "C97", "title": "Small errors of maps, coordinates and coefficients change the residual little", "statement": "Two maps that differ by at most e at every pixel have normalised maps that differ by at most 2e over the spread (largest minus smallest value) of one of them, and 2 is the best factor. So an error e in an observed map changes its residuals by at most 2e over the spread of the map, and whether the residual can be computed does not depend on it; a change of the Zernike coefficients changes the residuals of a map by at most 8*pi*S^2 times the sum of the changes over the spread of the model map, S being the sum of the amplitudes in the aperture. Maps simulated with noise, stored in single precision (power and coordinates) and read back have at the parameters of the simulation a residual that, times the spread, is at most a sum of terms linear in the noise and in the rounding errors. The noise argument of simulate_data_pyoof is on the scale of the computed pattern: relative to the peak it falls with the fourth power of the resolution.", "quantifier": "all maps, coefficients, telescopes dark outside the dish, noise values, roundings with bounded error, directory contents; resolution at least 20*box_factor+4 for the stored maps", "why_tests_cant": "a bound for all perturbations; a test with random noise observes one draw", "anchors": ["pyoof/math_functions.py:norm", "pyoof/core.py:residual_true", "pyoof/simulate_data.py:simulate_data_pyoof", "pyoof/aux_functions.py:extract_data_pyoof"]}
{"id": "C98", "title": "No model map is flat and a best fit within the bounds exists", "statement": "With a box of at least twice the dish, the power pattern takes the same value in all pixels exactly when at most one pixel of the aperture is lit, whatever the phase, the defocus and the illumination.  If the residual can be evaluated at one point within the bounds, the light in each pixel depends continuously on the illumination coefficients and no point with a non-zero amplitude has a flat model map, then there is a point within the bounds with the smallest sum of squares; the amplitude zero, which the default bounds allow and where the model map is flat, does no harm.  For the telescopes of the package with the Gaussian illumination, or the parabolic one centred on the axis as in the default configuration, and maps that contain every pixel of the model grid, of which at least two in the aperture are not blocked, these conditions hold by themselves.  The same holds for the residual that is handed to the optimiser, with any set of parameters taken out of the fit.  The condition on the centre cannot be left out: when the centre of the parabolic illumination is fitted, the light of a pixel jumps to zero as the rim passes it.", "quantifier": "all bounds, orders, maps (values that are not numbers included), coordinates, defocus values, wavelengths, box factors from 2, dish geometries and sets of fitted parameters", "why_tests_cant": "That an infimum over a box of real vectors is attained, and that no phase at all makes the beam flat, are statements about all real parameter vectors; a run of the optimiser shows only the points it visited.", "anchors": ["pyoof/core.py:25-132", "pyoof/core.py:135-240", "pyoof/aperture/aperture.py:72-200", "pyoof/math_functions.py:12-40"]}
{"id": "C99", "title": "How far rounding moves the Zernike polynomials and the wavefront", "statement": "In double precision, for orders n up to 20 and points of the unit disc, the radial polynomial returned by R differs from the exact one by at most (1+sqrt 2)^n / 2^47 although it is an alternating sum of large terms, the circle polynomial returned by U by at most (1+sqrt 2)^n / 2^45 for angles up to 4, and the wavefront of a set of coefficients K of order n by at most (1+sqrt 2)^n / 2^43 times the sum of |K|, up to 2^-1065.  The results are finite.  At the rim rho = 1 the radial polynomial is 1 to the last bit and at the centre it is exact.", "quantifier": "all orders up to 20, all angular orders of the same parity, all double points of the disc and angles up to 4 in size, all double coefficients of total size up to 2^200, every nearest rounding and every mathematical library accurate to four units in the last place", "why_tests_cant": "A test compares a few values with a tolerance; the bound has to hold at each of the 2^62 doubles of the interval, for any library within its documented accuracy, and cancellation grows with the order.", "anchors": ["pyoof/zernike/zernike.py:14-71", "pyoof/zernike/zernike.py:74-152", "pyoof/aperture/aperture.py:203-253"]}
{"id": "C100", "title": "Ruze's efficiency against the on-axis gain of the computed beam", "statement": "e_rs of a phase map and the loss of on-axis power that radiation_pattern computes for the same phase errors are two different numbers; they are close in a definite sense. For an evenly lit dish in focus on the grid of the phase map, e_rs(phase(K), circ=True) exceeds the on-axis power relative to the dish without errors by at most rms^4/4, for every set of coefficients, and falls below it by at most the square of the mean phase plus M^2 rms^2/3 when no phase is above M. It does not matter whether the map is taken with or without the piston term. For any illumination the same bounds hold with means weighted by the aperture amplitude and the phase counted from any reference.", "quantifier": "all coefficients and orders, wavelengths, resolutions from 3, dish radii, illuminations and geometries with non-negative amplitude, reference phases", "why_tests_cant": "An inequality between two outputs over all phase maps; the documented value is one number for one map, and large phases, where the two differ most, are not sampled.", "anchors": ["pyoof/aperture/aperture.py:18-69", "pyoof/aperture/aperture.py:256-348", "pyoof/aperture/aperture.py:439-556", "pyoof/math_functions.py:132-157"]}
{"id": "C101", "title": "A higher order never fits worse", "statement": "Take a run of fit_zpoly whose optimiser returns, for every order, the parameters within the bounds that give the smallest sum of squared residuals. Then the sum of the squares of the stored residuals res_nK.csv does not grow with the order n: for k <= n <= order_max the residuals of order n are at most those of order k. The reason holds for any optimiser: fitted parameters of order k, followed by zero coefficients, are within the bounds of order n and have exactly the same residual.", "quantifier": "every configuration in the form the package accepts (excluded parameters among the first eight), every telescope, illumination, grid, data set and defocus, every pair of orders 1 <= k <= n, every vector of fitted parameters", "why_tests_cant": "a test compares two orders of one data set; that the larger model contains the smaller one for each excluded set, each data set and each pair of orders needs a proof", "anchors": ["pyoof/core.py:432-613", "pyoof/core.py:134-242", "pyoof/core.py:245-303", "pyoof/aperture/aperture.py:203-253"]}
{"id": "C102", "title": "The rms of a phase map and Ruze's efficiency follow from the coefficients", "statement": "For the phase map that phase() draws from K_coeff, rms(phi, circ=True) tends, as the resolution grows, to 2 pi times the square root of the sum of K_nl^2 w_nl over the coefficients that are kept (piston and tilt as asked for), with w_n0 = 1/(n+1) and w_nl = 1/(2(n+1)) for l != 0; it does not depend on pr. e_rs(phi, circ=True) tends to exp(-(2 pi)^2 sum K^2 w). With circ=False, which is the default, the zeros in the corners of the square count as well and the limit is smaller by sqrt(pi/4). The mean of the map over the disc tends to 2 pi times the piston coefficient, and to zero when the piston is left out.", "quantifier": "every coefficient vector of a complete order, every radius pr > 0, both flags, every sequence of resolutions that tends to infinity", "why_tests_cant": "a limit over all resolutions; a test compares one map with one number, and the rms of a map at a finite resolution is not given by the coefficients", "anchors": ["pyoof/aperture/aperture.py:18-69", "pyoof/aperture/aperture.py:256-348", "pyoof/math_functions.py:132-157"]}
{"id": "C103", "title": "Turned or mirrored maps have the turned or mirrored solution", "statement": "Turn the coordinates of the three observed beam maps by quarter turns or mirror them in an axis, in any combination. If the Zernike coefficients and the centre of the illumination are turned or mirrored in the same way, the residual of the fit is the same list of numbers, error included. So coefficients that are best for the maps (for any loss made of the residuals), moved, are best for the moved maps. The simulated beam itself is the moved beam, pixel by pixel and, through the linear interpolation, between the pixels, although an even map has one more row and column on the negative side. This holds for block_manual with opd_manual, for the Effelsberg telescope with any inclination of the shade of the legs, and for both illuminations, centred or not.", "quantifier": "every resolution from 2, even or odd, every order, coefficients, offsets of the illumination, wavelength, box factor, telescope dimensions, radial offsets, number of samples, beam values (nan included), coordinates within the reach of the map on both sides, and every sequence of turns and mirrorings", "why_tests_cant": "A test checks a few turned maps up to rounding; that no combination of even grid, off-centre illumination, leg shade and order prefers a direction needs the symmetry of every part, of the Fourier transform and of the interpolation.", "anchors": ["pyoof/core.py:24-132", "pyoof/aperture/aperture.py:72-556", "pyoof/telgeometry/telgeometry.py:88-216"]}
{"id": "C104", "title": "The covariance matrix is, on average, the covariance of the fitted parameters", "statement": "Near the solution the residual is linear in the parameters. For a linear model with errors of the pixels that have no bias, are not correlated and share one unknown variance, the least-squares parameters have no bias, and the matrix that co_matrices returns (with the fitted number of parameters) has exactly the covariance of the fitted parameters as its mean. Given in other units of the parameters, the covariance is converted and the correlation is the same. The order of the pixels does not matter. If each pixel is given c times, the covariance shrinks by (m - p)/(cm - p), although nothing was measured in addition, and the correlation stays: pixels made by interpolation count as measurements.", "quantifier": "every number of pixels and parameters with a Jacobian of full rank and more pixels than parameters, every parameter vector, every distribution of the errors with these two moments (normal or not), every positive change of units, every permutation of the pixels, every number of copies", "why_tests_cant": "A mean over all draws of the errors is not seen in a run; a simulation only approaches it and cannot tell a divisor m from m - p on big maps.", "anchors": ["pyoof/math_functions.py:66-100", "pyoof/core.py:509-527"]}
{"id": "C105", "title": "The configuration file means what its lines say", "statement": "fit_zpoly with a configuration file runs exactly the fit of the numbers on the lines of that file: an entry on a line that is not commented out counts, in the order of the lines, whatever comment follows it; a commented line counts for nothing; if a key is given twice the last one holds. Numbers may be written as integers, with a point at either end, with a sign or an exponent, also where YAML takes them for text; each is the number written, rounded as float() rounds it. The excluded parameters of the stored solution are the numbers of fixed at the same places, and place 6 is K(1, -1) and 7 is K(1, 1), against the comments of the file. The file of the package gives the default configuration. To include all parameters the list has to be [] : with all lines commented out, or None, the fit ends in an IndexError and leaves an empty directory.", "quantifier": "every file of keys with lists of entries (any words of letters, digits, signs and points; any comments, empty lines and blanks), every numeral, every input, optimiser and state of the disk", "why_tests_cant": "A test reads the shipped file and a few variants; it cannot settle every way of writing a number or of commenting lines out.", "anchors": ["pyoof/core.py:392-399", "pyoof/core.py:463-476", "pyoof/core.py:272-303", "pyoof/data/config_params.yml:1-51"]}
{"id": "C106", "title": "The information file and the tables of parameters keep what is written", "statement": "pyoof_info.yml gives back what fit_zpoly puts into it, entry by entry and with the same type: a name, an object or a date is read as the same text also where YAML would take it for a number, a date, a list or a comment (it is then in quotes), and every frequency, wavelength, elevation, signal-to-noise ratio and axial shift is the same double, nan and infinity included, also where it has an exponent. fitpar_n{k}.csv, the table that the next order and every plot read, gives back the names in their order, with the comma in K(n, l), and every double of the solution and of the starting vector.", "quantifier": "every text of printable ASCII characters (with blanks: if the line fits in 80 columns), every list of doubles, every order, every choice of digits that Python's repr may make, every state of the disk", "why_tests_cant": "A round trip of a few files does not settle all doubles, nor all names an observer may give to a source.", "anchors": ["pyoof/core.py:557-583", "pyoof/core.py:457", "pyoof/aux_functions.py:265-286", "pyoof/aux_functions.py:355-371", "pyoof/plot_routines.py:649-654"]}
{"id": "C107", "title": "The fits of the active surface are linear, local and do not amplify errors", "statement": "For any phase maps, also ones that no set of coefficients gives, fit_zpoly returns the coefficients of the orthogonal projection of each map on the phase maps of the order: no other set is nearer, and the distance to any other follows Pythagoras. The coefficients of a combination of maps are the combination of the coefficients (with enough points across), each row depends on its own map only, pixels outside the dish play no part, and a map with an error gives a fitted map no further from the true one than the error is large. The gravitational model is fitted in the same way to each coefficient, linearly, and fit_all is linear in the maps and gives the same model for the same observations in any order.", "quantifier": "all maps, orders from 1, elevations (three different ones where the coefficients of the model are compared), combinations, every optimiser that finds a minimum where there is one", "why_tests_cant": "Tests fit maps made from coefficients; what happens to maps with errors is a claim about all of them.", "anchors": ["pyoof/actuator/actuator.py:358-428", "pyoof/actuator/actuator.py:430-478", "pyoof/actuator/actuator.py:480-513"]}
{"id": "C108", "title": "The path difference is that of a real telescope with its sub-reflector moved", "statement": "opd_manual(Fp, F) and opd_effelsberg describe geometry: for a paraboloid of focal length Fp and an ellipsoidal (Gregory) or hyperboloidal (Cassegrain) sub-reflector with effective focal length F, all ways from a plane over the dish to the secondary focus are equally long in focus, and after the sub-reflector has moved by d_z along the axis, away from the primary, the way over (x, y) is longer by opd(x, y, d_z) up to terms of higher order in d_z, wherever the ray now meets the sub-reflector. Over the old point of the sub-reflector the excess is between 0 and the sum of d_z^2/2 over the two distances of the sub-reflector (to the primary and to the focus), each less the offset. The sign and both focal lengths are those of the documentation.", "quantifier": "all focal lengths, sub-reflectors, points of the aperture, offsets, and all differentiable motions of the point of reflection", "why_tests_cant": "Tests compare the formula with itself; that it is the path of light through the two mirrors is geometry.", "anchors": ["pyoof/telgeometry/telgeometry.py:26-62", "pyoof/telgeometry/telgeometry.py:65-100"]}
{"id": "C109", "title": "The active surface does not depend on units, and refuses arrays without one", "statement": "An EffelsbergActuator made with the same frequency, radii and stroke limits in other units, and given the same displacements, phases or elevations in other units, gives the same results: transform returns the same phases in radians, itransform the same limited displacements in micrometres, interp_surface2rings the same table, write_lookup the same text of the file (or the same exception), read_lookup the same maps, ellipsoidal_actuator_correction, generate_phase_pr, fit_zpoly, fit_grav_deformation and fit_all the same numbers. Displacements, tables or phases without a unit, or with a unit that is no length (no angle), are refused with an exception, and write_lookup raises it before it opens the file; a frequency that is none is refused when the object is made.", "quantifier": "for all objects, all units of length, angle and frequency, all shapes and values (nan and infinities included), all optimisers", "why_tests_cant": "tests use one combination of units; the conversions are spread over eight methods, and a wrong factor in one of them shows only for units that no test uses; that a bare array can never reach the file is a statement about all arrays", "anchors": ["pyoof/actuator/actuator.py:57-100", "pyoof/actuator/actuator.py:205-320", "pyoof/actuator/actuator.py:340-356", "pyoof/actuator/actuator.py:387-429", "pyoof/actuator/actuator.py:541-606"]}
{"id": "C110", "title": "The Effelsberg geometry and the simulated observation do not depend on units", "statement": "block_effelsberg blocks exactly the same points of the aperture for coordinates in any unit of length and an inclination of the shade in any unit of angle (or a plain number of radians), infinities and nan of its line equations included. simulate_data_pyoof called with wavelength, offsets and telescope in other units of length makes the same calls on the file system, writes the same file (tables in radians, header with hertz and metres) and raises the same exceptions as for the same lengths in metres; a wavelength that is a plain number or no length (a frequency) is refused before anything is written.", "quantifier": "all units of length and angle, all coordinates, inclinations, telescopes and illuminations that do not depend on units themselves, all coefficients, offsets, noise, resolutions, file systems", "why_tests_cant": "A test calls the functions with one unit; a conversion that is missing in one branch of the blockage or in one header keyword shows only for the units not tried.", "anchors": ["pyoof/telgeometry/telgeometry.py:103-177", "pyoof/simulate_data.py:87-210"]}
{"id": "C111", "title": "A fit that is killed", "statement": "A fit_zpoly that is stopped at any moment (kill, power failure, exception) leaves every place on the disk either as it was before or as the complete run leaves it, but for at most one file that is half-written; nothing that was there before is changed and nothing is made that the complete run would not make. The orders are stored one after the other: all files of the orders before some order k, figures included, are complete and equal to those of the complete run, and of the orders after k there is nothing. The same call on the disk that is left behind ends well, in the next free directory, and leaves there exactly the files with exactly the contents of the run that was not killed; what a fit leaves in its directory depends neither on the number, nor on the working directory, nor on what else is on the disk. A run that is not killed leaves no half-written file, even if it raises. A killed batch has completed the fits of a first part of its list and begun at most one more.", "quantifier": "all inputs, optimisers, configurations and orders, all file systems with a free number, every point of time between two file operations, all batches", "why_tests_cant": "A test can kill a process at a few moments of one run; which files are then half-written or missing depends on the moment, the order and the optimiser.", "anchors": ["pyoof/core.py:378-616", "pyoof/aux_functions.py:192-239", "pyoof/aux_functions.py:242-286", "pyoof/plot_routines.py:642-754", "scripts/pyoof_effelsberg.py:48-82"]}
{"id": "C112", "title": "The coefficients describe every smooth surface", "statement": "Every polynomial in x/pr and y/pr of degree at most n is the wavefront of exactly one K_coeff of order n, and every wavefront of order n is such a polynomial. A telescope whose opd_func contains such a deformation of the surface has exactly the beam of the undeformed telescope with some K_coeff, the same for every focus, wavelength, grid, illumination and geometry. For a continuous deformation there are, from some order on, coefficients of every order whose wavefront and phase() map are within any given error at every point of the dish, and whose beam differs from the beam of the deformed telescope by at most 2 pi times the error times the sum of the amplitudes. A step is not reached: every wavefront is wrong by half its height somewhere.", "quantifier": "all orders, polynomials, continuous surfaces, errors, coefficients, geometries that are dark outside the dish, grids, focus offsets", "why_tests_cant": "Existence of coefficients for every surface; a test has finitely many surfaces.", "anchors": ["pyoof/aperture/aperture.py:203-253", "pyoof/aperture/aperture.py:256-348", "pyoof/aperture/aperture.py:351-436", "pyoof/zernike/zernike.py:14-152"]}
{"id": "C113", "title": "Excluding parameters from a fit", "statement": "With more entries in `excluded`, the same bounds and data and fixed values within the bounds: for every vector of fitted parameters within the bounds there is one of the fit with fewer exclusions, within the bounds, with the same complete parameters and the same residual. So the best fit is never better, and if the optimiser finds best points the residual stored by fit_zpoly at every order is not smaller. Parameters that are excluded at the values the best fit gave them leave the other ones a best fit with the same residual. For the same residual co_matrices gives the remaining parameters, and every combination of them, no larger variance when columns of the Jacobian are left out; the variance of a parameter is never below the one it would have alone; it changes only by the degrees of freedom if the columns that are left out are orthogonal to the remaining ones.", "quantifier": "all configurations with ascending exclusions below 8, all orders, data, telescopes, optimisers, all residuals and Jacobians of full rank, all subsets of columns", "why_tests_cant": "Compares two minima over a continuum of parameters; a test has one data set and the result of a numerical optimiser.", "anchors": ["pyoof/core.py:245-303", "pyoof/core.py:24-242", "pyoof/core.py:306-616", "pyoof/math_functions.py:66-100"]}
{"id": "C114", "title": "The figures of the script that makes a look-up table", "statement": "create_lookup.py with its figures, up to order five, under the conditions of C89: it ends well and writes the table of the model and four figures into the save directory; everything else stays as it was. The panels of the first three figures show the phases of the gravitational model, of the present table and of the new table at the eleven elevations. Panel j of the figure of the fit is labelled with the name that coefficient j + 3 has in the parameter tables; it shows every used observation once, at its elevation in degrees, with that coefficient in radians of phase and with a marker of a hundredth of its signal-to-noise ratio in focus, on the curve of the model of that coefficient from the smallest to the largest elevation; the remaining panels are empty. From order six on the script ends in an exception, whatever the observations, and writes nothing, no table either. Wherever it is stopped, nothing that was there is changed but the five files, and the figures are as before unless the complete table is there.", "quantifier": "all actuator objects, optimisers, sets of stored fits, file systems, tables, save directories, dates, interruption points", "why_tests_cant": "No test runs the script; a figure that shows the wrong coefficient looks like a right one; the interruptions are unbounded in number.", "anchors": ["scripts/create_lookup.py:20-184", "pyoof/actuator/actuator.py:608-670"]}
{"id": "C115", "title": "What can still be read and done after a program was killed", "statement": "A fit into a new directory that is killed at any moment: there is an order k such that the files of the orders before k are complete and those of the later orders are not there; for each order before k table_pyoof_out and plot_fit_path give exactly what they give for the complete fit, and for each later order they raise an exception: plot_fit_path a FileNotFoundError once the directory exists, table_pyoof_out as well unless pyoof_info.yml is the half-written file. A call of simulate_data_pyoof that is killed at any moment leaves every place as it was or as the complete call leaves it, except for one file at most, the one with the least free number, which may be half-written; the same call on what it left returns the same data but for the name of the object, stores them in a new file and changes nothing that was there, as long as a number is free. But pyoof_simulate_data.py, killed while the first file of a directory is being written, raises an exception at every later run there, whatever is simulated in between: it always reads test000.fits, which stays half-written.", "quantifier": "all inputs, file systems, moments of interruption, orders, numbers of later simulations", "why_tests_cant": "A test does not kill the program; the moments and the later histories are unbounded in number.", "anchors": ["pyoof/core.py:306-616", "pyoof/aux_functions.py:321-389", "pyoof/plot_routines.py:580-754", "pyoof/simulate_data.py:16-210", "scripts/pyoof_simulate_data.py:1-59"]}
{"id": "C116", "title": "Reading and plotting while a fit is running", "statement": "A fit into a new directory is running. At any moment others start to call table_pyoof_out on any directories, and, if the fit itself makes no plots and its directory exists already, plot_fit_path on that directory, any number of them and each step in any order between the steps of the fit. Then the fit is not disturbed: it does not raise, it ends with the same directory, and everything it leaves is what it would have left alone (except that there may be an empty directory for the plots); and whatever one of the readers returns is exactly what it would return after the end of the fit; it never returns a mixture or values of a half-written file. But if the fit makes plots, then a single plot_fit_path on its directory, for any order and even if it fails itself, can make the fit fail with an OSError before it makes the first plots, so that the files of the first order are complete and those of the higher orders are never written: both test whether the directory for the plots exists and both then create it.", "quantifier": "all inputs, file systems, moments, numbers of readers, arguments of the readers and interleavings; for the failure, all fits with plots", "why_tests_cant": "The interleavings of several programs are unbounded in number, and the failure needs one of them.", "anchors": ["pyoof/core.py:306-616", "pyoof/aux_functions.py:321-389", "pyoof/plot_routines.py:580-754"]}
{"id": "C117", "title": "The model beam between the nodes of its grid", "statement": "residual_true reads the model beam off at the directions of the observed pixels by bilinear interpolation of the FFT. At a node of the grid that is exactly the power of the Fourier sum of the aperture in that direction. Anywhere else in the grid it misses it by at most pi^2/(4*box_factor^2) times the sum of the amplitudes times their sum weighted with (x^2+y^2)/pr^2, which for a telescope that is dark outside the dish is at most pi^2/(4*box_factor^2) of the largest power the aperture can have. So maps measured without error and in any linear calibration have, at the true parameters, residuals that times the spread of the true map are at most twice that. The error does not go away with a finer resolution: as the resolution grows the model beam tends to the bilinear mean of the power of the Fourier integral at the four multiples of wavel/(2*pr*box_factor) around the direction; and for an aperture without phase errors and box_factor >= 2 the model beam halfway between the axis and the next node is too low by at least cos(pi/box_factor)/box_factor^2*((N-1)/N)^2 times the variance of the amplitude along u in units of pr^2. Only a larger box_factor helps.", "quantifier": "all coefficients, telescopes, illuminations, wavelengths, resolutions, box factors, directions in the grid, data maps and calibrations", "why_tests_cant": "An inequality for all apertures and directions, and a limit; a test sees one beam at a few pixels.", "anchors": ["pyoof/core.py:24-131", "pyoof/aperture/aperture.py:351-540"]}
{"id": "C118", "title": "Corrections of the look-up table add up", "statement": "Making a new look-up table from the present one with a gravitational model changes every command by the displacement that the model asks for there, to half a micrometre, unless the actuator is sent to a limit. These displacements are linear in the model. So, for actuators that are never sent to a limit, two corrections one after the other give, to one micrometre, the table of the sum of the two models; their order does not matter at all (except for displacements exactly half way between two commands); and correcting with the opposite model brings back the present table (to one micrometre, exactly when there is no tie). Running the script again on its own output is not harmless: it corrects twice, and leaves an error as large as the displacement, to one micrometre.", "quantifier": "for all objects with a sub-reflector of at most 5.2 m and any spline that keeps its contract, all models with enough coefficients whose displacements at the points of the grid are within the limits, all present tables, all eleven elevations, all 96 actuators", "why_tests_cant": "The commands come from a rounding after a clip after a spline on two rings after a power of a correction of a phase; a test compares a few tables, and that no composition of corrections drifts needs the linearity of the whole chain for every model.", "anchors": ["scripts/create_lookup.py", "pyoof/actuator/actuator.py:generate_phase_pr", "pyoof/actuator/actuator.py:itransform", "pyoof/actuator/actuator.py:write_lookup"]}
{"id": "C119", "title": "What the documentation says about the functions", "statement": "The table of Zernike circle polynomials in the documentation is what U returns, for every radius and angle, in the order of the coefficients, but for (4, -4), where the table has a cosine and U returns the sine. Where the documentation says that the radial polynomial vanishes (n - m odd) it does not: it is zero for finitely many radii only. The aperture functions can be used along a line with y=0, as the documentation says: for lengths in any unit the blockage, the path difference, both illuminations and the aperture distribution are the values at (x, 0 m); any other plain number for y raises TypeError. The radiation pattern with box_factor=5 * pr, as in the documentation, never returns: a box factor with a unit raises, TypeError with block_manual.", "quantifier": "for all radii and angles, all n >= m, all arrays x in any length unit, all telescope sizes, illumination and phase coefficients, all units and values of the box factor, all resolutions; the last for all telescope and illumination functions and two and more coefficients", "why_tests_cant": "A test evaluates the table at some points and calls the functions with one unit; that the plain zero stands for zero metres in every comparison, sum and arctan2, and that no box factor with a unit gets through, is about all units and shapes of input.", "anchors": ["docs/zernike/index.rst", "docs/aperture/index.rst", "docs/telgeometry/index.rst", "pyoof/zernike/zernike.py:R", "pyoof/zernike/zernike.py:U", "pyoof/aperture/aperture.py:aperture", "pyoof/aperture/aperture.py:radiation_pattern", "pyoof/telgeometry/telgeometry.py:block_manual", "pyoof/telgeometry/telgeometry.py:opd_manual"]}
{"id": "C120", "title": "The phase map in the arithmetic of doubles", "statement": "The phase map computed in doubles for coefficients of order 1 to 20 never raises and has no nan and no infinity. The nodes of its axes are within 6 * 2^-53 of the radius of the exact ones, the first and the last are exactly -pr and pr. Inside the rim every pixel is within (1 + sqrt 2)^n / 2^38 times the sum of the absolute values of the coefficients (and 2^-1060) of the exact phase; outside it is exactly zero. Rounding can move a pixel from one side of the rim to the other only where r^2 is within 2^-47 of pr^2; there the pixel is zero or the phase of the wavefront at that point, with the same accuracy.", "quantifier": "for all double coefficients of order 1 to 20 (sum of sizes up to 2^200), all double radii from 2^-100 to 2^100, all resolutions from 2 to 2^30, all pixels, with and without piston and tilt, every rounding to nearest and every library with powers, sines, cosines and arctan2 within four units in the last place", "why_tests_cant": "A test compares a few maps with a few reference numbers; the loss of digits depends on all pixels and on the cancellation within polynomials up to order 20, and whether rounding lets a pixel beyond the rim through, with a radius above one, on every pair of nodes.", "anchors": ["pyoof/aperture/aperture.py:phase", "pyoof/aperture/aperture.py:wavefront", "pyoof/math_functions.py:cart2pol", "pyoof/zernike/zernike.py:U"]}
{"id": "C121", "title": "The model beam is differentiable, and finite differences are near its slope", "statement": "Let radiation_pattern return for coefficients K, and let D be a direction (a list as long as K). Then it returns for K + t D for every t; at every pixel the far field differs from the one of K plus t times a slope by at most (2 pi t sum|D|)^2 times the sum of the amplitudes, the slope being the far field of the aperture times 2 pi i times the wavefront of D. The power has a derivative along D, and the quotient of differences that least_squares forms with step t is within 3 |t| (2 pi sum|D| sum|a|)^2 of it.", "quantifier": "all coefficients, directions, steps, radial offsets, wavelengths, resolutions, illuminations, box factors and telescopes that are dark outside the dish, all pixels", "why_tests_cant": "A derivative is a limit; a test compares two steps at one set of coefficients and cannot bound the error of the quotient for all of them.", "anchors": ["pyoof/aperture/aperture.py:radiation_pattern", "pyoof/aperture/aperture.py:wavefront", "pyoof/core.py:residual"]}
{"id": "C122", "title": "The wavefront depends on the place, not on the angle that names it", "statement": "wavefront gives the same values, or the same exception, for any two arrays of polar coordinates of the same points: other turns of the angle, a negative radius with the angle turned by pi, any angle at the origin. In particular the sign of a zero coordinate, on which numpy's arctan2 depends, changes neither the wavefront nor the aperture, and the wavefront is a smooth function of x and y across the half axis where the angle jumps.", "quantifier": "all arrays of coordinates, all angles of their points, all signs of zeros, all lists of coefficients, radii, illuminations and telescopes", "why_tests_cant": "Which zero a grid contains depends on the resolution and the box; a test sees one sign at a few points, and no test shows smoothness.", "anchors": ["pyoof/math_functions.py:cart2pol", "pyoof/zernike/zernike.py:U", "pyoof/aperture/aperture.py:wavefront", "pyoof/aperture/aperture.py:aperture"]}
{"id": "C123", "title": "Better maps give better fits", "statement": "Parameters that fit maps with errors of at most eps no worse than the true parameters do, a best fit for example, fit the maps without errors as well as the true ones up to 4 eps over the contrast of the maps, in the root mean square over the pixels. And if the true parameters fit the maps without errors perfectly, then for every delta there is an eps such that all such fits lie within delta, in each parameter, of parameters within the bounds that fit the maps without errors perfectly: with decreasing errors the fits approach the set of perfect fits (one point, if the solution is unique).", "quantifier": "all observed and true maps, all errors, coordinates, offsets, wavelengths, configurations with ascending excluded parameters, bounds, telescopes and illuminations (for the distance of the parameters: those of the package, the parabola centred and with a positive exponent, excluded parameters among the first eight, maps with the pixels of the model, at least two pixels not blocked)", "why_tests_cant": "A test fits a few noisy maps; that no map near the true one has a best fit far from all solutions is a statement about all maps and all parameters within the bounds.", "anchors": ["pyoof/core.py:residual", "pyoof/core.py:residual_true", "pyoof/core.py:fit_zpoly", "pyoof/math_functions.py:norm"]}
{"id": "C124", "title": "The aperture, the radiation pattern and the power in the arithmetic of doubles", "statement": "Let aperture, radiation_pattern and np.abs(F) ** 2 be computed in doubles, with a mathematical library that is right to a few units in the last place, a Fourier transform with relative error eta, and blockage, path difference and illumination of the user that light the same pixels as the exact ones, all inside the dish, with errors epsilon. Then no exception occurs and no number overflows or is nan; dark pixels of the aperture are exactly zero; a lit one is right to (1 + sqrt 2)^n 2^-34 sum|K| + D 2^-45 + 8 epsilon_d + 2^-48 of its amplitude plus 2 epsilon_a and one underflow; the axes u, v are right to N 2^-49 of their value, the far field in each pixel to the sum of the errors in the aperture plus eta N times the length of the aperture field; the power is not negative and is right to e (2|F| + e) + (|F| + e)^2 2^-48 and 2^-600, where e is the error of the field.", "quantifier": "all roundings to nearest, accurate libraries and transforms, orders up to 20, coefficients with sum|K| up to 2^200, resolutions from 2 to 2^30, box factors from 1 to 50, dishes from 2^-90 to 2^90, wavelengths from 2^-100 to 2^100, radial offsets, illuminations, telescopes, all pixels", "why_tests_cant": "A test compares a few beams with other computations that are rounded in the same way; a bound for all coefficients, grids and pixels needs an analysis of every operation.", "anchors": ["pyoof/aperture/aperture.py:aperture", "pyoof/aperture/aperture.py:radiation_pattern", "pyoof/core.py:residual", "pyoof/simulate_data.py:simulate_data_pyoof"]}
{"id": "C125", "title": "The residual of the fit in the arithmetic of doubles", "statement": "Let the residual that the fit minimises be computed in doubles from the radiation pattern to the flattened differences: power, interpolation to the places of the samples, normalisation of data and model, difference. With the library, transform and telescope of C124 and samples that lie in the model beam (but for a margin of N 2^-48 of its half width), neither the exact nor the rounded program raises; each of the 3 M numbers is a finite double between -1 and 1; and in every map whose data are not constant and whose exact model beam rises by R, more than twice the error e of the beam, each number is right to 2 e / R + 2^-49. Here e is twice the error of the power plus (sum of the amplitudes)^2 N^2 2^-46 for the interpolation.", "quantifier": "all roundings to nearest, accurate libraries and transforms, orders up to 20, coefficients with sum|K| up to 2^200, resolutions from 2 to 2^20, box factors from 1 to 50, dishes from 2^-90 to 2^90, wavelengths from 2^-100 to 2^100, maps of data up to 2^900, numbers and places of samples, offsets, all positions", "why_tests_cant": "A test compares a few residuals with the same program; that neither a sample near a grid line (where the rounded search may choose the neighbouring cell) nor an underflow spoils the cost for any data and parameters needs a proof over all of them.", "anchors": ["pyoof/core.py:residual_true", "pyoof/core.py:residual", "pyoof/aperture/aperture.py:radiation_pattern", "pyoof/math_functions.py:norm"]}
{"id": "C126", "title": "The package's own telescope and illuminations in the arithmetic of doubles", "statement": "Let block_manual, opd_manual, illum_parabolic and illum_gauss be computed in doubles, on the grid of the radiation pattern, for a telescope with sizes and focal lengths from 2^-90 to 2^90 units, tapers from 0 to -100 dB, the centre of the illumination inside the square around the dish, and (parabolic) exponents from 1 to 2. If no pixel is nearer than 2^-43 of the radius (or 2^-40 of its square) to an edge of the dish, of the secondary or of a strut, both programs light exactly the same pixels. There the path difference is right to |d_z| (128 + 896 (pr/Fp + pr/F)) 2^-53; the Gaussian illumination to 2^-40 and the parabolic one to 2^-35 of the amplitude, the latter where the exponent is 1 or 2 or the pixel lies inside the circle of the taper. In all other pixels the numbers are finite. Hence the radiation pattern and the residual of the fit with these functions are right to the bounds of C124 and C125, with nothing assumed of the functions of the user.", "quantifier": "all roundings to nearest, accurate libraries and transforms, telescopes, coefficients and offsets in these ranges (the error of the path difference at most half a wavelength), resolutions from 2 to 2^30 (2^20 for the residual), box factors from 1 to 50, wavelengths from 2^-100 to 2^100, orders up to 20, all pixels", "why_tests_cant": "A test compares one telescope with stored values; whether rounding can light a pixel behind a strut, turn the power of the taper into nan inside the dish, or be amplified by a strong taper depends on every size, offset and coefficient.", "anchors": ["pyoof/telgeometry/telgeometry.py:block_manual", "pyoof/telgeometry/telgeometry.py:opd_manual", "pyoof/aperture/aperture.py:illum_parabolic", "pyoof/aperture/aperture.py:illum_gauss", "pyoof/aperture/aperture.py:radiation_pattern", "pyoof/core.py:residual_true"]}
{"id": "C127", "title": "The Effelsberg telescope in the arithmetic of doubles", "statement": "Let block_effelsberg and opd_effelsberg be computed in doubles on the grid of the radiation pattern. With a shade angle of 0 degrees (as in scripts/pyoof_effelsberg_mpi.py) the program divides by zero, its corner is nan and its blockage is that of block_manual with the sizes of Effelsberg, bit for bit. With an angle from 1 to 60 degrees the corner of the shade is right to 2^-34 m; if no pixel is within 2^-20 m of an edge of the shade (or so near to the rim, the secondary or a leg as in C126), both programs light exactly the same pixels. In all of them the path difference is right to |d_z| 2^-42. Hence the radiation pattern and the residual of the fit with the Effelsberg telescope and either illumination of the package are right to the bounds of C124 and C125.", "quantifier": "all roundings to nearest, accurate libraries and transforms, shade angles 0 and from 1 to 60 degrees, coefficients, offsets and wavelengths as in C126 with |d_z| at most 2^41 wavelengths, resolutions from 2 to 2^30 (2^20 for the residual), box factors from 1 to 50, all pixels", "why_tests_cant": "A test compares a few pixels at one angle. Whether the rounded cosecant, root, tangent and eight rounded lines can light or darken another pixel depends on every angle, and the nan of the angle 0 is silent: only a proof shows that it never reaches the blockage.", "anchors": ["pyoof/telgeometry/telgeometry.py:block_effelsberg", "pyoof/telgeometry/telgeometry.py:opd_effelsberg", "pyoof/math_functions.py:line_equation", "pyoof/aperture/aperture.py:radiation_pattern", "pyoof/core.py:residual_true", "scripts/pyoof_effelsberg_mpi.py:telescope"]}
{"id": "C128", "title": "The commands of the active surface in the arithmetic of doubles", "statement": "Let transform, itransform and grav_deformation of EffelsbergActuator be computed in doubles. The factor between displacement and phase is right to 2^-49. Every phase from transform and every displacement from itransform, after the limits, is right to 2^-48 of itself; a nan is a nan. Whatever the phases are, infinite ones and those that overflow included, no displacement is beyond the stroke limits by even one unit in the last place. There and back, a displacement returns, within the limits, to 2^-47 of itself. Hence a look-up table of whole micrometres within the limits that is transformed to a phase and back is written digit by digit as it was. For any map of phases every number of the written table is the exact one or a neighbour of it, and the exact one unless the exact displacement is within 2^-24 micrometres of the middle between two whole numbers. The gravitational model at an elevation up to 90 degrees is right to (|g0|+|g1|+|g2|) 2^-49.", "quantifier": "all roundings to nearest, all objects whose frequency, sign, reflections and limits are in range with astropy's factors right to 2^-50, all arrays of two or three dimensions and any shape, entries nan or up to 2^300 (2^90 for there and back; any value for the limits), all tables of whole numbers within the limits, all coefficients up to 2^300 and elevations up to 90 degrees", "why_tests_cant": "A test compares a few displacements up to a tolerance. That rounding never changes a digit of a file that goes there and back, and never lets a command pass the stroke limit of the hardware, is a statement about every double and every frequency.", "anchors": ["pyoof/actuator/actuator.py:transform", "pyoof/actuator/actuator.py:itransform", "pyoof/actuator/actuator.py:write_lookup", "pyoof/actuator/actuator.py:grav_deformation", "pyoof/actuator/actuator.py:__init__"]}
{"id": "C129", "title": "How fast finer grids converge", "statement": "With aperture, illumination and aberrations fixed there is one constant such that at every resolution N >= 2 and at every pixel the field that radiation_pattern returns, multiplied by the area of an aperture pixel and by the phase of the corner of the box, differs from the Fourier integral of what aperture returns, in the direction of that pixel, by at most the constant times (1 + (|u|+|v|)/wavel)/(N-1). The power at the pixel m, n steps from the centre differs from that of the direction m*wavel/(2*pr*box_factor), n*wavel/(2*pr*box_factor) by at most another such constant times (1+|m|+|n|)/(N-1). This holds for each telescope shipped with the package (Effelsberg without shade included), for the Gaussian illumination and the parabolic one with exponent q >= 1, all Zernike coefficients, all defocus and box_factor >= 1, though the blockage jumps at the rim, the sub-reflector, the legs and the shades. For any aperture bounded by M that changes by at most L d over a step d but for an area kappa d, the constant is explicit in M, L and kappa.", "quantifier": "all resolutions of two or more, all pixels, all shipped telescopes and illuminations with q >= 1, all coefficients, all wavelengths other than zero, box_factor >= 1", "why_tests_cant": "One constant for all resolutions and all pixels cannot be observed, and the integral has no closed form to compare with. A test sees two or three resolutions and guesses.", "anchors": ["pyoof/aperture/aperture.py:radiation_pattern", "pyoof/aperture/aperture.py:aperture", "pyoof/telgeometry/telgeometry.py:block_effelsberg", "pyoof/telgeometry/telgeometry.py:block_manual", "pyoof/telgeometry/telgeometry.py:opd_manual", "pyoof/aperture/aperture.py:illum_parabolic", "pyoof/aperture/aperture.py:illum_gauss"]}
{"id": "C130", "title": "The model beam at any sample against the Fourier integral: resolution and box factor", "statement": "residual_true reads the model beam off between the nodes of the grid. With telescope, coefficients, wavelength and defocus fixed there is one constant C such that, for every box_factor >= 1, every resolution N with box_factor <= N-1 and every sample (u, v) of a map inside the grid, that model beam times the fourth power of the step of the aperture grid differs from the power of the Fourier integral of the aperture in the direction (u, v) by at most C ((1 + (|u|+|v|)/wavel) box_factor/(N-1) + 1/box_factor^2). Each entry of the residual, for any data, differs from the normalised data less the normalised ideal beam by at most such a bound over the spread of the ideal beam in that map. As box_factor grows and resolution grows faster, every map is in the end inside the grid, the residual is returned without error, and it converges entry by entry to the normalised data less the normalised ideal beam. With box_factor fixed it does not (C117).", "quantifier": "all shipped telescopes, both illuminations (parabolic with q >= 1), all coefficients of a full order, all wavelengths > 0, all defocus, all maps of any size, all box factors >= 1 and all resolutions with box_factor <= N-1; all sequences of grids in the limit", "why_tests_cant": "The constant holds over all grids, all boxes and all directions together, and the ideal beam has no closed form to compare with. A test that doubles the resolution at a fixed box factor sees a residual that settles, at the wrong place.", "anchors": ["pyoof/core.py:residual_true", "pyoof/aperture/aperture.py:radiation_pattern", "pyoof/aperture/aperture.py:aperture", "pyoof/math_functions.py:norm"]}
{"id": "C131", "title": "The rms of a phase map and Ruze's efficiency in the arithmetic of doubles", "statement": "In IEEE doubles, and in whatever order the sum is taken, rms(phase) of a one or two dimensional array of numbers and nan is the root of the mean of the squares, nan counting as zero, with a relative error of about 1.01 units of 2^-53 per addition that an entry goes through and 4 more. With circ=True on an N by N map (2 <= N <= 2^22) it takes every entry inside the circle that is not nan and none outside it, in spite of the rounding of the grid; of pixels exactly on the circle the ends of the axes are taken; nan is returned when nothing is left; a second call on the same array gives the same result. A map with an even number of pixels has no pixel on the circle, so nothing is left to chance. e_rs has an absolute error of at most (9 D + 80) 2^-53 for a sum of depth D. From the coefficients on, the columns phase-rms and e_rs of the table, computed in doubles from the map that phase computes in doubles, differ from the exact ones by at most the error of the phase map and these few units.", "quantifier": "for every rounding to nearest, every order of the additions up to depth 2^40, every array of numbers up to 2^300 and nan; for the table: every order up to 20, doubles as coefficients, radius between 2^-100 and 2^100, even N from 4 to 2^22, mathematical library accurate to a few units", "why_tests_cant": "A test sees the order of additions of one build of numpy and a few maps; whether a pixel next to the circle may fall on the wrong side, for some size of the map, is a question about all sizes.", "anchors": ["pyoof/math_functions.py:132-157", "pyoof/aperture/aperture.py:66-69", "pyoof/aperture/aperture.py:324-348", "pyoof/aux_functions.py:358-362"]}
{"id": "C132", "title": "What a reader gets from a half-written csv file", "statement": "A fit that is killed, or still running, leaves a first part of the text of a csv file. A complete file gives back its table exactly, as a two-dimensional array if it has two rows and two columns at least, otherwise with the dimensions of length one removed. Of an incomplete one: np.genfromtxt refuses it with ValueError, or returns the first rows of the table exactly, or the first rows and one more row of which only the last entry is another number; that row is complete unless it is the first one. For the phase map, which is square: the columns phase-rms and e_rs that table_pyoof_out computes from a half-written phase file are exactly those of the complete file as soon as the first character of the last number is there (that number may then be read wrongly, but it is a corner outside the circle and does not count); before that there is an exception, ValueError or IndexError; wrong values never occur. For other tables this protection is missing: whenever the last number is not zero there is a first part of the file that is accepted with all rows and columns and in which the last number is read as one of absolute value at least one. And whatever the last number is, some first part is accepted with all rows and columns and with nan in its place.", "quantifier": "for every header, every table of doubles, nan and infinities, every first part of its text, every correct conversion of decimal numbers, every rounding, order of additions and mathematical library; for the phase: every square map of at least two by two", "why_tests_cant": "A file can be cut at any of millions of characters; most cuts raise an exception, and the few that do not look like a success.", "anchors": ["pyoof/aux_functions.py:192-239", "pyoof/aux_functions.py:354-385", "pyoof/math_functions.py:146-153", "pyoof/aperture/aperture.py:66-69", "pyoof/plot_routines.py:658-678"]}
{"id": "C133", "title": "A look-up table that was not written to its end", "statement": "write_lookup is stopped while it writes, so that the file holds a first part of the text. read_lookup(interp=False) of it raises an exception (FileNotFoundError as long as the first line is not complete, since astropy takes a text without a line break for a file name; otherwise ValueError, or TypeError if the last number is only a minus sign); or it returns the table, exactly from the moment the last number is complete (with a part of the end mark it is refused again), or with a last number, that of actuator 96 at the zenith, that has lost its last digits; or, if the file ends just after the first line, the displacements of the first actuator for all 96. Making an Actuator object of it (interp=True) raises an exception or gives the maps of the complete table or of the one in which that last number has lost digits; nothing else. A number that has lost digits lies between zero and the right one, so limits that contain zero are kept; every loss of digits that leaves one occurs for some moment.", "quantifier": "every table of 11 times 96 integers, every first part of the text of its file, every Actuator object", "why_tests_cant": "A table has some thousands of characters and may be cut after each; nearly all cuts raise an exception, and the few that do not command the telescope.", "anchors": ["pyoof/actuator/actuator.py:103-171", "pyoof/actuator/actuator.py:340-356"]}
{"id": "C134", "title": "The pixels of the power pattern determine the beam in every direction", "statement": "With a box_factor of at least 2 nothing of the model beam is lost between the pixels of the far field: the power that the sampled aperture radiates in any direction, pixel or not, is a fixed weighted sum of the powers |F|^2 at the pixels that radiation_pattern returns, with weights (products of two Dirichlet kernels) that depend only on the grid. So two telescopes with dishes of the same size, whatever their blockage, illumination, aberrations and defocus, whose power patterns agree at all pixels radiate the same power in every direction, and conversely. A larger box at the same step of the aperture grid (box_factor and resolution raised together) gives a finer map of the far field and nothing new: each of its pixels follows from those of the smaller box. With box_factor = 1 this is false: two apertures are given whose powers agree at all pixels and are 0 and 4 in a direction between them.", "quantifier": "all aperture functions that are dark outside the square around the dish, in particular all shipped telescopes and illuminations with all coefficients of a full order; all defocus, all wavelengths other than zero, all resolutions >= 2, all box factors >= 2, all directions, all larger boxes with the same step", "why_tests_cant": "It is a statement about all directions, of which a test can look at finitely many, and about all pairs of apertures; whether a smaller box would do as well is settled only by an aperture that tests with smooth dishes do not contain.", "anchors": ["pyoof/aperture/aperture.py:439-556"]}
{"id": "C135", "title": "In focus the even orders show only in second order, and the two out-of-focus maps answer to them oppositely", "statement": "Start from aberrations without even orders (all zero, as fit_zpoly starts, or tilts, coma, ...), with a centred illumination and a blockage and defocus that do not change when the aperture is turned by half a turn. A step t in coefficients of even orders changes the in-focus power at every pixel by at most a constant times t squared: the derivative is zero. At opposite radial offsets the first order changes of the two maps are opposite, so their difference is, up to a constant times t squared, twice the first order change; steps in odd orders change both maps alike and their difference stays exactly zero. With all three maps in focus the residual of fit_zpoly is the same for t and -t, whatever the data, so an exact Jacobian has a zero column and co_matrices ends in LinAlgError. That the out-of-focus derivative is not zero too is seen on an aperture where the power is 5 + 4 cos(4 pi t + dz pi/2).", "quantifier": "all coefficients without even orders, all directions in the even (odd) orders, all steps t, all radial offsets, all wavelengths > 0, box factors other than zero, resolutions, pixels and data; the manual and the Effelsberg telescopes with both illuminations, and any other with the same symmetry", "why_tests_cant": "A derivative that is exactly zero at every pixel and a bound for every step are not observable from finitely many evaluations with rounding; a test sees a small difference quotient and cannot tell it from a small derivative.", "anchors": ["pyoof/aperture/aperture.py:439-556", "pyoof/core.py:24-131", "pyoof/math_functions.py:66-120"]}
{"id": "C136", "title": "The in-focus map alone settles the odd orders", "statement": "For a dish whose aberrations have no even orders, with a centred illumination, a blockage that does not change when turned by half a turn and a box_factor of at least 2: the power at the pixels of the in-focus map is the same for two such dishes if and only if the fields in their apertures, where there is light, are the same or opposite. So two sets of odd-order coefficients (tilts, comas, trefoils, ...) that differ by less than half a wavelength in all (sum of the absolute differences) and give the same in-focus power at all pixels are the same set, if there is light at the crossings of n + 1 rows with n + 1 columns of the grid for order n. To first order too: a change of odd orders whose first order effect on the in-focus power is zero at every pixel is zero. The defocused maps are thus needed for the even orders only (see C77, C135).", "quantifier": "all coefficients without even orders of any order n, all wavelengths (> 0 for the derivative), resolutions and box factors >= 2, all telescopes and illuminations with the symmetry that are dark outside the dish, in particular the manual and Effelsberg telescopes", "why_tests_cant": "It is a uniqueness statement over all pairs of coefficient vectors, and a statement that a linear map has no kernel at any state; trying pairs cannot show that no other pair gives the same map.", "anchors": ["pyoof/aperture/aperture.py:439-556", "pyoof/aperture/aperture.py:351-436", "pyoof/core.py:24-131"]}
{"id": "C137", "title": "A wrong focus offset looks like rotation-symmetric coefficients", "statement": "If the radial offset passed for a map is wrong by e, the beam is, to the precision of a geometric series, that of the stated offset with other Zernike coefficients: for a telescope with the path difference of opd_manual(Fp, F) or opd_effelsberg and every order n >= 2m there is one list of coefficients Z, all of them zero except those of angular frequency 0, such that the beam at offset d_z + e with coefficients K and the beam at offset d_z with coefficients K + (e / wavelength) Z differ at each pixel by at most 2 pi * 2 (|e| / wavelength) * ((pr / 2Fp)^(2m+2) + (pr / 2F)^(2m+2)) times the sum of the aperture amplitudes. Z depends on the order, the radius and the focal lengths only, so an error common to all three offsets goes into the rotation-symmetric coefficients of the fit and leaves the others alone. If the radius is below twice the focal lengths, the difference can be made as small as wanted by the order. For order 2, Z is written out: the constant term and U(2, 0).", "quantifier": "all offsets and errors, all coefficients of any order n >= 2m, all wavelengths > 0, illuminations, resolutions and box factors, all radii > 0 and focal lengths, all telescopes with that path difference that are dark outside the dish", "why_tests_cant": "It compares two families of beams over all offsets, coefficients and orders, and needs the existence of one list of coefficients that serves all of them; a test can try one list on one beam.", "anchors": ["pyoof/telgeometry/telgeometry.py:12-100", "pyoof/aperture/aperture.py:229-322", "pyoof/aperture/aperture.py:439-556"]}
{"id": "C138", "title": "The order of maps and samples does not matter, and repeated samples count again", "statement": "If the three maps are given to residual (and so to fit_zpoly) in another order, together with their radial offsets, and the samples within each map in any order, the residual is the former one in the new order, it can be evaluated exactly when the former one can, the sum of squares is the same, the best fits within any set of parameters are the same, and co_matrices gives the same covariance and correlation for the residual and the Jacobian rows in the new order. If in addition each sample is given c times (a regridded or oversampled map), the sum of squares is c times as large and the best fits and the correlations are still the same, but the covariance is multiplied by (m - n) / (c m - n) for m residuals and n parameters: the stored errors shrink although nothing new was measured.", "quantifier": "all maps (nan and infinities included), coordinates, offsets, telescopes, illuminations, configurations and parameters, all permutations of the maps and, for each map on its own, all selections of samples that use each sample the same number of times c >= 1; all residuals and Jacobians with m > n", "why_tests_cant": "It quantifies over all permutations and repetitions of arbitrary many samples, and over all parameter vectors for the best fit; a test can compare a few shuffles.", "anchors": ["pyoof/core.py:24-131", "pyoof/core.py:134-240", "pyoof/math_functions.py:12-38", "pyoof/math_functions.py:66-100"]}
{"id": "C139", "title": "At almost every state one map determines the coefficients near by", "statement": "Call a state skew if for no two lit grid points opposite to each other about the middle between the last and the first lit point the sum of the two phases is, up to multiples of pi, the sum of the phases of these two. If K and K' (less than half a wavelength apart in all) give the same map at the same radial offset, up to a gain and an offset, and the state half way between them is skew, then K and K' differ in the first coefficient (the piston) only. Hence, at a skew state, all coefficients but the first are determined by one normalised map among those near by, and a change of coefficients whose first order effect on the power is only a gain and an offset is a change of the piston. With the second order among the coefficients, skew states are found as near to any state as one likes. So the failure of one in-focus map to tell the sign of the even orders (a state with a symmetric aperture) is the exception; what the two out-of-focus maps add are the states far away and the exceptions.", "quantifier": "all coefficients, orders, radial offsets, wavelengths, telescopes and illuminations whose aperture is dark outside of the primary and lit on a block of n + 1 rows and n + 1 columns, all grids with a box factor of at least 2, all directions of change; the last part for all orders of at least 2 and all distances eps > 0", "why_tests_cant": "That no other coefficients near by give the same map is a statement about a continuum of coefficients; a test can compare a few of them, and a fit that converges to the right values says nothing about the existence of other ones.", "anchors": ["pyoof/aperture/aperture.py:203-253", "pyoof/aperture/aperture.py:351-436", "pyoof/aperture/aperture.py:439-537", "pyoof/math_functions.py:12-38"]}
{"id": "C140", "title": "A pointing error common to the three maps goes into the tilts and nowhere else", "statement": "If all samples of the three maps are moved by the same whole number of steps of the far-field grid, s along u and t along v, and stay within the grid, then the residual at coefficients whose two tilts are changed by t (N - 1) / (2 N box_factor) and s (N - 1) / (2 N box_factor) is the same list of numbers as before. So a best fit of the moved maps is, with any loss, the best fit of the maps with these other tilts, and all other coefficients and the illumination parameters are the same. For a pointing error (du, dv) that is not a whole number of steps and tilts changed by dv pr / wavel and du pr / wavel, each sample of the model changes by at most twice the interpolation error pi^2 / (4 box_factor^2) (sum |E|) (sum |E| r^2 / pr^2), and each residual, times the spread of the model map, by at most four times it. The phase error computed without tilt does not depend on the tilts at all.", "quantifier": "all coefficients of order 1 or more, illumination parameters, telescopes, illuminations, radial offsets, wavelengths, box factors, grids, maps (with nan and inf) and samples, all whole shifts that keep the samples on the grid, all real pointing errors for the bounds, all loss functions", "why_tests_cant": "That the fit is not biased by the pointing of the telescope is a statement on all residuals and all competing coefficients; a test moves one map by one amount and sees the optimiser end near the same place.", "anchors": ["pyoof/core.py:24-131", "pyoof/aperture/aperture.py:256-348", "pyoof/aperture/aperture.py:351-436", "pyoof/aperture/aperture.py:439-537"]}
{"id": "C141", "title": "What a reader gets from a half-written pyoof_info.yml", "statement": "The run may be killed while pyoof_info.yml is written, so that only a first part of its text is in the file. Whenever yaml.load accepts such a part: every key that is found is a key of the run; every entry whose key is, in the order of the letters, before a key that is found has exactly the value the run gave it; so at most one of the entries that are found is not exact. Hence if table_pyoof_out finds the telescope name, then the name, the object, the date, the elevation and the signal-to-noise ratios it puts in the row are exact, and if plot_fit_path finds the wavelength, the thirteen other entries are exact. Without the last line feed alone, all entries are exact. But the last one cannot be trusted: for every wavelength below one metre there is a part of the file that is accepted with all fourteen keys, thirteen of them exact, and in which the wavelength is an integer.", "quantifier": "all observations inside the model of the writer (C106), all first parts of the text, all readers that round correctly, all shortest-repr digit generators", "why_tests_cant": "A test would have to cut the file after each of its characters for each observation; the claim is on all texts, all doubles and all places of the cut.", "anchors": ["pyoof/core.py:557-582", "pyoof/aux_functions.py:354-379", "pyoof/plot_routines.py:653-672"]}
{"id": "C142", "title": "A slightly wrong Jacobian changes the stored errors and correlations little", "statement": "The Jacobian that fit_zpoly hands to co_matrices comes from finite differences, so it is not the exact one. If its distance from another Jacobian (the root of the sum of the squares of all differences) is at most a part kappa < 1 of the smallest singular value of that one, then both give a covariance and a correlation; each standard error is the same up to factors between 1/(1+kappa) and 1/(1-kappa); the covariances differ by at most 1/(1-kappa)^2 - 1 in units of the standard errors, and the correlations by at most ((1+kappa)/(1-kappa))^2 - 1. If each entry is off by a part u of itself, kappa is u times the norm over the smallest singular value. The limit on the distance cannot be relaxed: for every unit change v of the parameters there is a Jacobian at the distance |Jv| for which co_matrices raises LinAlgError.", "quantifier": "all residuals that are not zero, all Jacobians of any size with full rank and all disturbances of them below the smallest singular value, all numbers of fitted parameters below the number of samples", "why_tests_cant": "A test computes the errors for one Jacobian; the claim bounds them for all Jacobians near any other, and that no wider bound is possible.", "anchors": ["pyoof/math_functions.py:66-100", "pyoof/core.py:505-526"]}
{"id": "C143", "title": "The residual has slopes, and the errors from finite differences tend to those from the slopes", "statement": "Where in each of the three model maps one sample is the largest and one the smallest, the residual of the fit has a slope along every direction of the Zernike coefficients, with any illumination function, with illum_parabolic along every direction of the amplitude, the taper and the coefficients (among them all that the configuration of the package fits), and with illum_gauss along every direction of all parameters; along such a line every residual can be evaluated if the one at its start can. So for fitted parameters which these slopes tell apart, and any eps > 0, there is a size of the finite-difference steps below which co_matrices gives covariance and correlation for the finite differences, each standard error within a part eps of the one from the slopes, and each correlation within eps.", "quantifier": "all telescopes, grids, apertures, wavelengths, defocuses, observed maps (nan and infinities included), sample positions, parameters and directions; all steps below the size", "why_tests_cant": "A slope is a limit: a test only compares a few steps, for a few parameters and maps.", "anchors": ["pyoof/core.py:24-131", "pyoof/core.py:505-526", "pyoof/math_functions.py:66-100", "pyoof/math_functions.py:12-38", "pyoof/aperture/aperture.py:142-200", "pyoof/aperture/aperture.py:351-530"]}
{"id": "C144", "title": "Samples left out of the maps, and single samples that stick out", "statement": "If samples are left out of the maps before a fit, and what is kept of each observed map and of each model map reaches over the range of the whole map but for a part delta < 1/2 of it at either end, then the residual of the kept samples can be evaluated too and each entry changes by at most 2 delta; if the largest and the smallest samples of each map and model map are kept, no entry changes. A single sample that sticks out of a map acts on the whole map: if one sample is above all others, the normalised data of the others are those without it times rho = (range of the others) / (range with it), while the model is not scaled, so that their residual is within rho of minus the model; if one is below all others, what the others lack to one is scaled by the same ratio and their residual is within it of one minus the model. The stronger the outlier, the less the map counts.", "quantifier": "all maps with finite values, all choices of kept samples per map, all telescopes, grids, parameters for which the residual can be evaluated, all heights of the outlier", "why_tests_cant": "The claim is on every choice of samples and every height of the outlier, for maps of any size and any telescope.", "anchors": ["pyoof/core.py:24-131", "pyoof/math_functions.py:12-38"]}
{"id": "C145", "title": "The covariance and correlation matrices in the arithmetic of doubles", "statement": "With sums of products as accurate as any order of the additions makes them, and an inverse whose columns are exact for matrices within a part epsilon of the given one, the covariance matrix, the standard errors and the correlations computed in doubles are those of exact arithmetic but for 3, 3 and 19 times the loss ((m + n + 1) 2^-52 + 2 epsilon) (|J| / sigma)^2, where |J| is the root of the sum of the squares of the Jacobian and sigma its smallest singular value (entries of the covariance relative to the two standard errors, correlations in absolute terms), whenever this loss is at most 1/64. The square of the condition number is lost, not the condition number, and a Jacobian of full rank is not enough: with columns that differ by 2^-27, exact arithmetic gives the matrices while in doubles the product of the Jacobian with itself is singular and an exception is raised, even if every sum and the inverse are rounded only once.", "quantifier": "all residuals and Jacobians of doubles with sums of squares between 2^-200 and 2^200 and smallest singular value at least 2^-100, up to 2^40 residuals, all numbers of parameters below the number of residuals, all correct roundings, all products and inverses within their accuracy", "why_tests_cant": "A run shows one order of the additions, one LAPACK and one Jacobian; the bound is on all of them, and the loss for badly determined parameters cannot be seen without exact arithmetic to compare with.", "anchors": ["pyoof/math_functions.py:66-100"]}
{"id": "C146", "title": "A wrong blockage or illumination", "statement": "With the same dish, coefficients and focus, the fields of two apertures that differ in the blockage or in the illumination superpose: an aperture with amplitude alpha a + beta a' has the field alpha F + beta F' at the same coordinates, so the beam of the blocked dish is that of the open dish less that of the shadow alone. No point of the field differs by more than the sum of the differences of the amplitudes, the squares of the differences add up to exactly N^2 times the sum of the squares of the differences of the amplitudes, and a residual changes by at most 2 (S + S') D over the spread of the map, where S, S' are the sums of the amplitudes and D the sum of their differences. For two telescopes made with block_manual, D is the sum of the illumination over the pixels that one of them sees and the other does not; in focus and without aberrations, larger legs or a larger sub-reflector reduce the power on the axis by exactly the square of the part of the field that is lost.", "quantifier": "all coefficients, focus offsets, wavelengths, box factors, resolutions, illuminations and blockages, all data and pixels", "why_tests_cant": "A run compares two geometries at one set of coefficients; the statement is about every pair of geometries, whatever the aberrations are.", "anchors": ["pyoof/aperture/aperture.py:351-556", "pyoof/telgeometry/telgeometry.py:180-215", "pyoof/core.py:24-131"]}
{"id": "C147", "title": "The signal-to-noise ratio in the arithmetic of doubles", "statement": "Computed in doubles, the signal-to-noise ratio of a gridded map is finite and differs from the exact ratio of the largest sample and the standard deviation of the samples in the disc by at most the relative error 3 delta/sigma (and 2^-1075), where delta is (1.02 depth + 6)/2^53 times the sum of the standard deviation and the largest magnitude of a sample in the disc (and 2^-490), and depth that of the order in which the samples are added, whatever that order is. This holds if no sample lies within a part 2^-50 of the rim of the disc and delta is at most half of the standard deviation. The last condition is needed: three equal samples 2^53 - 2 have no noise and an infinite ratio in exact arithmetic, but in doubles, added from left to right, their mean is another number and the ratio is finite.", "quantifier": "all correctly rounding arithmetics, orders of addition, maps with nan samples, coordinates, centres and radii", "why_tests_cant": "A test compares one map with one tolerance; the statement bounds the error for every map, every order of addition and every rounding of ties, and names the maps for which the result has no correct digit.", "anchors": ["pyoof/math_functions.py:160-216"]}
{"id": "C148", "title": "A small focus offset leaves the even orders with large errors", "statement": "Take a telescope with blockage and illumination that are the same at opposite points, with the path difference of two mirrors, and an aberration of odd orders only. Along any direction of even orders the slope of the power at each pixel of the beam is at most 32 pi^2 (|dz|/wavelength) ((pr/2Fp)^2 + (pr/2F)^2) times the sum of the magnitudes of the direction times the square of the sum of the aperture amplitudes: it vanishes with the radial offset dz, and what is left is of second order. The telescopes of the package with either centred illumination are of this kind, and the sum of the amplitudes is then at most that of the illumination over the pixels that see the sky. The slope of each residual of the fit is at most twice that over the spread of the sampled model map. The variance that is stored for a fitted coefficient is at least the reduced sum of squares of the residual over the sum of the squares of its column of the Jacobian. So for an even coefficient it grows at least as the inverse square of the largest |dz|.", "quantifier": "all such telescopes, sizes of the grid, radial offsets, wavelengths, illumination parameters, odd aberrations, even directions, observed maps and fits whose covariance can be computed", "why_tests_cant": "A test fits one pair of out-of-focus maps; the statement bounds the slopes and the stored errors for every telescope and every offset, with explicit constants.", "anchors": ["pyoof/aperture/aperture.py:351-556", "pyoof/telgeometry/telgeometry.py:12-100", "pyoof/core.py:24-131", "pyoof/math_functions.py:66-100"]}
{"id": "C149", "title": "Which maps a fit accepts", "statement": "With N pixels (at least 2), the residual of maps with at least one sample is computed without an exception if every coordinate u and v of every sample lies between -(N//2) and (N-1)//2 times wavel (N-1)/(2 pr box_factor N), and is refused with ValueError if one does not. The maps, the offsets, the fitted parameters and, for the telescopes and illuminations of the package, the excluded ones play no part: what the optimiser calls is computed at every vector of parameters or at none, so a fit that passes the first evaluation is never stopped later by the residual. What is accepted is also accepted with more pixels (any number), a smaller box factor and a longer wavelength. With an even N the field reaches one pixel further to the negative side: a sample at -(N//2) pixels is taken and its mirror image is refused. The data type of the maps plays no part either: with the model power converted to it in any way, the same calls raise the same exceptions.", "quantifier": "all telescopes, numbers of pixels, box factors, wavelengths, coordinates, maps, offsets, orders, configurations with sorted excluded indices up to 7 and vectors of parameters", "why_tests_cant": "A test tries a few maps with a few parameters; that no vector of parameters makes the residual raise, and the exact edge of the field for every grid, needs a proof.", "anchors": ["pyoof/core.py:24-131", "pyoof/core.py:134-303", "pyoof/aperture/aperture.py:439-556"]}
{"id": "C150", "title": "Which grids can fit a simulated observation", "statement": "A file written by the simulation, with noise or without, holds in u and v the coordinates of all pixels of the simulation's grid strictly inside 4.88 wavel/pr in absolute value, in single precision, and no others. Read back and given to a fit with N' pixels and the box factor bf' for a telescope of the same radius, it is accepted at every vector of parameters whenever 9.76 (1 + 2^-24) N' bf' is at most ((N'-1)//2)(N'-1), whatever the grid of the simulation, the wavelength and the radius (with the limit in the range of normal single-precision numbers); and it is refused with ValueError at every vector if the stored coordinate of one pixel inside the limit lies outside the field of the fit's grid. The simulation's own grid is not always enough: with ((N-1)//2)(N-1) < 9.76 N box_factor the map reaches the last pixel, and if single precision rounds its coordinate up, a fit with the very grid that made the file refuses it (for instance 64 pixels, box factor 5, a radius of 50 m and a wavelength of 9.3685 mm). Both hold also with the model power converted to the single precision of the file.", "quantifier": "all simulations that succeed, prior files, telescopes, wavelengths, both grids and box factors, orders, configurations with sorted excluded indices up to 7 and vectors of parameters", "why_tests_cant": "A test simulates and fits with one grid; whether a file is accepted depends on the last bit of one coordinate, and that no vector of parameters changes it needs a proof.", "anchors": ["pyoof/simulate_data.py:87-210", "pyoof/aux_functions.py:22-110", "pyoof/core.py:24-131", "pyoof/aperture/aperture.py:439-556"]}
{"id": "C151", "title": "Polar coordinates and straight lines in the arithmetic of doubles", "statement": "cart2pol in doubles: for coordinates up to 2^511 of which one is at least 2^-511 in absolute value, the relative error of the radius is at most 3 2^-53, and rho cos(theta), rho sin(theta) give the point back within 11 2^-53 times its distance from the origin; on the axes the radius is the absolute value of the coordinate to the last bit; the radius never falls below the absolute value of a coordinate (of at least 2^-511), so that no pixel beyond the rim along an axis is taken for one inside; it never decreases when both coordinates move away from the axes, and does not depend on their signs or order. Beyond 2^512 the radius is infinite, and for coordinates below 2^-538 it is zero also away from the origin. line_equation in doubles passes through its first point to the last bit if the slope is finite, has no finite value anywhere if the two abscissae are equal, and for coordinates up to 2^200 and abscissae at least 2^-200 apart is finite and within (7 |slope (x - x1)| + |y1|) 2^-53 + 2^-860 of the exact line.", "quantifier": "all doubles in the stated ranges, every rounding to a nearest double, every library whose angle is within 2^-50", "why_tests_cant": "A test compares a few points with a tolerance; exact equality on the axes for every double, monotony and the error bounds need a proof about all doubles.", "anchors": ["pyoof/math_functions.py:41-63", "pyoof/math_functions.py:103-129"]}
{"id": "C152", "title": "The size of the figures in the arithmetic of doubles", "statement": "uv_ratio in doubles, for axes in the same unit: two axes of the same non-zero extent give the width 11.25 to the last bit, wherever they lie; for extents between 2^-100 and 2^100 the width is finite and within 5.01 2^-53 times itself of 11.25 times the ratio of the extents, and a wider axis u or a narrower axis v never gives a narrower figure. With a single value on the axis v the width is not finite, whatever u; with a single value on the axis u alone it is zero. The height is 5.", "quantifier": "all axes of doubles in the stated ranges, of any lengths, and every rounding to a nearest double", "why_tests_cant": "A test compares one ratio with a tolerance; exact equality for square maps, monotony and the error bound for all doubles need a proof.", "anchors": ["pyoof/aux_functions.py:289-318"]}
{"id": "C153", "title": "The rms, the efficiency, the signal-to-noise ratio and the figure size in any unit", "statement": "rms of a Quantity has the dimension of the phase and, in reference units (metres, radians), the value for the phase in reference units; what it leaves in the caller's array is the same. e_rs of a phase in any unit of angle is that of the phase in radians, the numbers of a plain array are taken for radians, and any other dimension raises TypeError whenever the rms exists, after the caller's array has been masked. snr of a two dimensional map does not depend on the units of the two axes, the centre and the radius, which may all differ; an axis without a unit that is not all zero, or a first axis of lengths, raises TypeError. snr of a flat map does not depend on the common unit of its axes, nor on those of the centre and the radius, provided the interpolation onto the grid does not depend on the scale of the plane. uv_ratio does not depend on the units of its two axes and refuses no dimension: lengths against angles give a width without an exception.", "quantifier": "all arrays with or without nan, positive scales of units, dimensions, axes, centres, radii and both modes of rms", "why_tests_cant": "A test uses one unit; independence of all combinations of units needs a proof.", "anchors": ["pyoof/math_functions.py:132-214", "pyoof/aperture/aperture.py:18-69", "pyoof/aux_functions.py:289-318"]}
