{
 "C63": {
  "note": "The power law is proved for every list of elevations; the documented behaviour (once per map) is refuted by C63_refuted and C63_not_once."
 },
 "C65": {
  "note": "The optimiser is a parameter; statements about recovered coefficients assume that it finds the global minimum where one exists (Spec.Exact, shown satisfiable by exact_exists)."
 },
 "C66": {
  "note": "C66_order shows that equal lists on all ranks are necessary."
 },
 "C59": {
  "note": "nan is the one exception (C59_nan, C59_nan_written)."
 },
 "C74": {
  "note": "The spline is a parameter with the contract Spec.Quintic, which lagrange_quintic shows to be satisfiable; griddata is an arbitrary parameter."
 },
 "C75": {
  "note": "The model of generate_phase_pr has the powers of the correction that C63 describes; the spline is a parameter as in C74."
 },
 "C77": {
  "note": "The symmetry of the geometry is a hypothesis (Spec.Central); C77_manual and C77_effelsberg prove it for the geometries of the package, C77_illumination for illuminations without offset."
 },
 "C78": {
  "note": "Proved for block_manual/opd_manual with both illumination functions; the Effelsberg geometry has built-in lengths."
 },
 "C79": {
  "note": "Proportionality of the path difference to the offset is a hypothesis; C79_package proves it for the package."
 },
 "C82": {
  "note": "float32 storage is taken as exact here; C57 has the statement with rounding. Hypothesis of C57: the file is the one written."
 },
 "C83": {
  "note": "Contract of the optimiser: Spec.TrueJac (strictly above lower bounds, zero column for a parameter without influence near the solution); derivSolver is an instance. Exact arithmetic: with floating point the column is rounding noise."
 },
 "C84": {
  "note": "Model/FitPlots.lean is fit_zpoly with plot_fit_path called in the loop. C84_same carries every statement about a complete run over to it."
 },
 "C85": {
  "note": "residual_true with the conversion to the data type of beam_data; integer range not modelled"
 },
 "C86": {
  "note": "what is handed to matplotlib; sign = 0 not modelled"
 },
 "C101": {
  "note": "The optimiser's result is a best point by hypothesis (scipy's least_squares is a local method and guarantees less); with fit_previous the new coefficients start at 0.1, so the start of an order may be worse than the end of the one before."
 },
 "C115": {
  "note": "A half-written FITS file stands for one that cannot be opened; astropy opens some truncated files with a warning. For the order that was under way nothing is claimed about the readers. plot_fit_path is taken with save=False."
 },
 "C116": {
  "note": "A half-written file stands for one the reader refuses; what numpy really makes of a csv file that was cut is C132: for the phase file of table_pyoof_out never a wrong value, for the tables of plot_fit_path perhaps a wrong last number or missing last rows. plot_fit_path is taken with save=False, and each operation on the disk is one step."
 },
 "C132": {
  "note": "numpy's genfromtxt as modelled for C92 and the shape of what it returns as in Model/CsvShape.lean; a file is cut between two characters."
 },
 "C133": {
  "note": "A text without a line break is assumed not to be the name of a file; the ascii reader of astropy is modelled for words separated by blanks."
 }
}