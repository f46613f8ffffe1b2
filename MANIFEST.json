{
 "claims": [
  {
   "property": "C01",
   "status": "proved",
   "theorems": [
    "Verif.Props.C01_typeError_iff",
    "Verif.Props.C01_value",
    "Verif.Props.C01_silent_zero"
   ],
   "note": ""
  },
  {
   "property": "C02",
   "status": "proved",
   "theorems": [
    "Verif.Props.C02_rodrigues",
    "Verif.Props.C02_centre"
   ],
   "note": ""
  },
  {
   "property": "C03",
   "status": "proved",
   "theorems": [
    "Verif.Props.C03_rim"
   ],
   "note": ""
  },
  {
   "property": "C04",
   "status": "proved",
   "theorems": [
    "Verif.Props.C04_radial_bound",
    "Verif.Props.C04_circle_bound"
   ],
   "note": ""
  },
  {
   "property": "C05",
   "status": "proved",
   "theorems": [
    "Verif.Props.C05_polar",
    "Verif.Props.C05_disc"
   ],
   "note": ""
  },
  {
   "property": "C06",
   "status": "proved",
   "theorems": [
    "Verif.Props.C06_radial_parity",
    "Verif.Props.C06_angular"
   ],
   "note": ""
  },
  {
   "property": "C07",
   "status": "proved",
   "theorems": [
    "Verif.Props.C07_mem",
    "Verif.Props.C07_nodup",
    "Verif.Props.C07_length",
    "Verif.Props.C07_position",
    "Verif.Props.C07_prefix"
   ],
   "note": ""
  },
  {
   "property": "C08",
   "status": "proved",
   "theorems": [
    "Verif.Props.C08_value",
    "Verif.Props.C08_empty",
    "Verif.Props.C08_nontriangular"
   ],
   "note": ""
  },
  {
   "property": "C09",
   "status": "proved",
   "theorems": [
    "Verif.Props.C09_additive",
    "Verif.Props.C09_homogeneous",
    "Verif.Props.C09_extension"
   ],
   "note": ""
  },
  {
   "property": "C10",
   "status": "proved",
   "theorems": [
    "Verif.Props.C10_phase",
    "Verif.Props.C10_independent",
    "Verif.Props.C10_indexError",
    "Verif.Props.C10_no_mutation"
   ],
   "note": ""
  },
  {
   "property": "C11",
   "status": "proved",
   "theorems": [
    "Verif.Props.C11_additive",
    "Verif.Props.C11_homogeneous",
    "Verif.Props.C11_bound"
   ],
   "note": ""
  },
  {
   "property": "C12",
   "status": "proved",
   "theorems": [
    "Verif.Props.C12_axes"
   ],
   "note": ""
  },
  {
   "property": "C13",
   "status": "proved",
   "theorems": [
    "Verif.Props.C13_amplitude",
    "Verif.Props.C13_value"
   ],
   "note": ""
  },
  {
   "property": "C14",
   "status": "proved",
   "theorems": [
    "Verif.Props.C14_axes",
    "Verif.Props.C14_indexError",
    "Verif.Props.C14_ok_iff"
   ],
   "note": ""
  },
  {
   "property": "C15",
   "status": "proved",
   "theorems": [
    "Verif.Props.C15_fourier_sum",
    "Verif.Props.C15_offsets"
   ],
   "note": ""
  },
  {
   "property": "C16",
   "status": "proved",
   "theorems": [
    "Verif.Props.C16_power",
    "Verif.Props.C16_independent"
   ],
   "note": ""
  },
  {
   "property": "C17",
   "status": "proved",
   "theorems": [
    "Verif.Props.C17_aperture",
    "Verif.Props.C17_pattern",
    "Verif.Props.C17_residual"
   ],
   "note": ""
  },
  {
   "property": "C18",
   "status": "proved",
   "theorems": [
    "Verif.Props.C18_gauss",
    "Verif.Props.C18_parabolic",
    "Verif.Props.C18_pattern",
    "Verif.Props.C18_residual",
    "Verif.Props.C18_illum",
    "Verif.Props.C18_residual_fitted",
    "Verif.Props.C18_singular"
   ],
   "note": ""
  },
  {
   "property": "C19",
   "status": "proved",
   "theorems": [
    "Verif.Props.C19_aperture",
    "Verif.Props.C19_reflection",
    "Verif.Props.C19_index",
    "Verif.Props.C19_infocus"
   ],
   "note": ""
  },
  {
   "property": "C20",
   "status": "proved",
   "theorems": [
    "Verif.Props.C20_value",
    "Verif.Props.C20_centre_and_edge",
    "Verif.Props.C20_range_and_monotone",
    "Verif.Props.C20_outside",
    "Verif.Props.C20_outside_integer",
    "Verif.Props.C20_units"
   ],
   "note": ""
  },
  {
   "property": "C21",
   "status": "proved",
   "theorems": [
    "Verif.Props.C21_ignores_middle",
    "Verif.Props.C21_short",
    "Verif.Props.C21_shape"
   ],
   "note": ""
  },
  {
   "property": "C22",
   "status": "proved",
   "theorems": [
    "Verif.Props.C22_range",
    "Verif.Props.C22_one_circ",
    "Verif.Props.C22_one_flat",
    "Verif.Props.C22_decreasing"
   ],
   "note": ""
  },
  {
   "property": "C23",
   "status": "proved",
   "theorems": [
    "Verif.Props.C23_value",
    "Verif.Props.C23_linear",
    "Verif.Props.C23_bounds",
    "Verif.Props.C23_decreasing",
    "Verif.Props.C23_effelsberg",
    "Verif.Props.C23_odd"
   ],
   "note": ""
  },
  {
   "property": "C24",
   "status": "proved",
   "theorems": [
    "Verif.Props.C24_value",
    "Verif.Props.C24_symmetric",
    "Verif.Props.C24_symmetric_values",
    "Verif.Props.C24_empty"
   ],
   "note": ""
  },
  {
   "property": "C25",
   "status": "proved",
   "theorems": [
    "Verif.Props.C25_corner",
    "Verif.Props.C25_value",
    "Verif.Props.C25_symmetric",
    "Verif.Props.C25_below_manual"
   ],
   "note": ""
  },
  {
   "property": "C26",
   "status": "proved",
   "theorems": [
    "Verif.Props.C26_zero_angle"
   ],
   "note": ""
  },
  {
   "property": "C27",
   "status": "proved",
   "theorems": [
    "Verif.Props.C27_range",
    "Verif.Props.C27_order",
    "Verif.Props.C27_value",
    "Verif.Props.C27_constant",
    "Verif.Props.C27_bad",
    "Verif.Props.C27_empty",
    "Verif.Props.C27_axis0",
    "Verif.Props.C27_axis1"
   ],
   "note": ""
  },
  {
   "property": "C28",
   "status": "proved",
   "theorems": [
    "Verif.Props.C28_affine",
    "Verif.Props.C28_idempotent",
    "Verif.Props.C28_neg"
   ],
   "note": ""
  },
  {
   "property": "C29",
   "status": "proved",
   "theorems": [
    "Verif.Props.C29_polar",
    "Verif.Props.C29_inverse"
   ],
   "note": ""
  },
  {
   "property": "C30",
   "status": "proved",
   "theorems": [
    "Verif.Props.C30_matrices",
    "Verif.Props.C30_scaling"
   ],
   "note": ""
  },
  {
   "property": "C31",
   "status": "proved",
   "theorems": [
    "Verif.Props.C31_rank_deficient",
    "Verif.Props.C31_zero_column",
    "Verif.Props.C31_zero_residual"
   ],
   "note": ""
  },
  {
   "property": "C32",
   "status": "proved",
   "theorems": [
    "Verif.Props.C32_line",
    "Verif.Props.C32_vertical"
   ],
   "note": ""
  },
  {
   "property": "C33",
   "status": "proved",
   "theorems": [
    "Verif.Props.C33_flat",
    "Verif.Props.C33_flat1",
    "Verif.Props.C33_circ",
    "Verif.Props.C33_circ_nan",
    "Verif.Props.C33_indexError",
    "Verif.Props.C33_isRms_facts",
    "Verif.Props.C33_homogeneous"
   ],
   "note": ""
  },
  {
   "property": "C34",
   "status": "proved",
   "theorems": [
    "Verif.Props.C34_state",
    "Verif.Props.C34_overwrite",
    "Verif.Props.C34_repeat",
    "Verif.Props.C34_history",
    "Verif.Props.C34_order_matters"
   ],
   "note": ""
  },
  {
   "property": "C35",
   "status": "proved",
   "theorems": [
    "Verif.Props.C35_scale",
    "Verif.Props.C35_local",
    "Verif.Props.C35_scale_list",
    "Verif.Props.C35_value",
    "Verif.Props.C35_none"
   ],
   "note": ""
  },
  {
   "property": "C36",
   "status": "proved",
   "theorems": [
    "Verif.Props.C36_round_trip",
    "Verif.Props.C36_complete",
    "Verif.Props.C36_unsorted"
   ],
   "note": ""
  },
  {
   "property": "C37",
   "status": "proved",
   "theorems": [
    "Verif.Props.C37_full",
    "Verif.Props.C37_fixed_length",
    "Verif.Props.C37_ignored",
    "Verif.Props.C37_short",
    "Verif.Props.C37_indexError"
   ],
   "note": ""
  },
  {
   "property": "C38",
   "status": "proved",
   "theorems": [
    "Verif.Props.C38_stored",
    "Verif.Props.C38_header"
   ],
   "note": ""
  },
  {
   "property": "C39",
   "status": "proved",
   "theorems": [
    "Verif.Props.C39_stored",
    "Verif.Props.C39_meaning",
    "Verif.Props.C39_first",
    "Verif.Props.C39_distinct"
   ],
   "note": ""
  },
  {
   "property": "C40",
   "status": "proved",
   "theorems": [
    "Verif.Props.C40_feasible",
    "Verif.Props.C40_completes",
    "Verif.Props.C40_stored",
    "Verif.Props.C40_chain",
    "Verif.Props.C40_shipped"
   ],
   "note": ""
  },
  {
   "property": "C41",
   "status": "proved",
   "theorems": [
    "Verif.Props.C41_affine",
    "Verif.Props.C41_nodes"
   ],
   "note": ""
  },
  {
   "property": "C42",
   "status": "proved",
   "theorems": [
    "Verif.Props.C42_layout"
   ],
   "note": ""
  },
  {
   "property": "C43",
   "status": "proved",
   "theorems": [
    "Verif.Props.C43_model",
    "Verif.Props.C43_outside"
   ],
   "note": ""
  },
  {
   "property": "C44",
   "status": "proved",
   "theorems": [
    "Verif.Props.C44_valueError"
   ],
   "note": ""
  },
  {
   "property": "C45",
   "status": "proved",
   "theorems": [
    "Verif.Props.C45_overflow",
    "Verif.Props.C45_directory",
    "Verif.Props.C45_preserved"
   ],
   "note": ""
  },
  {
   "property": "C46",
   "status": "proved",
   "theorems": [
    "Verif.Props.C46_distinct",
    "Verif.Props.C46_no_interference",
    "Verif.Props.C46_race"
   ],
   "note": ""
  },
  {
   "property": "C47",
   "status": "proved",
   "theorems": [
    "Verif.Props.C47_files",
    "Verif.Props.C47_no_overwrite"
   ],
   "note": ""
  },
  {
   "property": "C48",
   "status": "proved",
   "theorems": [
    "Verif.Props.C48_rejected",
    "Verif.Props.C48_name"
   ],
   "note": ""
  },
  {
   "property": "C49",
   "status": "proved",
   "theorems": [
    "Verif.Props.C49_pyoof_error",
    "Verif.Props.C49_pyoof",
    "Verif.Props.C49_effelsberg",
    "Verif.Props.C49_pyoof_returns"
   ],
   "note": ""
  },
  {
   "property": "C50",
   "status": "proved",
   "theorems": [
    "Verif.Props.C50_replaces",
    "Verif.Props.C50_length",
    "Verif.Props.C50_injective"
   ],
   "note": ""
  },
  {
   "property": "C51",
   "status": "proved",
   "theorems": [
    "Verif.Props.C51_files"
   ],
   "note": ""
  },
  {
   "property": "C52",
   "status": "proved",
   "theorems": [
    "Verif.Props.C52_value",
    "Verif.Props.C52_invariant",
    "Verif.Props.C52_exchange",
    "Verif.Props.C52_empty"
   ],
   "note": ""
  },
  {
   "property": "C53",
   "status": "proved",
   "theorems": [
    "Verif.Props.C53_after_fit",
    "Verif.Props.C53_rows",
    "Verif.Props.C53_missing"
   ],
   "note": ""
  },
  {
   "property": "C54",
   "status": "proved",
   "theorems": [
    "Verif.Props.C54_rejects",
    "Verif.Props.C54_accepts"
   ],
   "note": ""
  },
  {
   "property": "C55",
   "status": "proved",
   "theorems": [
    "Verif.Props.C55_trim",
    "Verif.Props.C55_tie",
    "Verif.Props.C55_tie_iff"
   ],
   "note": ""
  },
  {
   "property": "C56",
   "status": "proved",
   "theorems": [
    "Verif.Props.C56_file",
    "Verif.Props.C56_preserved",
    "Verif.Props.C56_full",
    "Verif.Props.C56_history"
   ],
   "note": ""
  },
  {
   "property": "C57",
   "status": "proved",
   "theorems": [
    "Verif.Props.C57_extract"
   ],
   "note": ""
  },
  {
   "property": "C58",
   "status": "proved",
   "theorems": [
    "Verif.Props.C58_inverse",
    "Verif.Props.C58_forward",
    "Verif.Props.C58_value",
    "Verif.Props.C58_stack",
    "Verif.Props.C58_linear"
   ],
   "note": ""
  },
  {
   "property": "C59",
   "status": "proved",
   "theorems": [
    "Verif.Props.C59_itransform",
    "Verif.Props.C59_nan",
    "Verif.Props.C59_written",
    "Verif.Props.C59_nan_written"
   ],
   "note": "nan is the one exception (C59_nan, C59_nan_written)."
  },
  {
   "property": "C60",
   "status": "proved",
   "theorems": [
    "Verif.Props.C60_file",
    "Verif.Props.C60_read",
    "Verif.Props.C60_round_trip",
    "Verif.Props.C60_rewrite",
    "Verif.Props.C60_truncated",
    "Verif.Props.C60_truncated_read",
    "Verif.Props.C60_one_line",
    "Verif.Props.C60_wrong_width",
    "Verif.Props.C60_stack"
   ],
   "note": ""
  },
  {
   "property": "C61",
   "status": "proved",
   "theorems": [
    "Verif.Props.C61_position",
    "Verif.Props.C61_distinct",
    "Verif.Props.C61_within",
    "Verif.Props.C61_index"
   ],
   "note": ""
  },
  {
   "property": "C62",
   "status": "proved",
   "theorems": [
    "Verif.Props.C62_value",
    "Verif.Props.C62_short",
    "Verif.Props.C62_linear",
    "Verif.Props.C62_determined",
    "Verif.Props.C62_maps",
    "Verif.Props.C62_elementwise"
   ],
   "note": ""
  },
  {
   "property": "C63",
   "status": "proved",
   "theorems": [
    "Verif.Props.C63_power",
    "Verif.Props.C63_last",
    "Verif.Props.C63_not_once",
    "Verif.Props.C63_defined",
    "Verif.Props.C63_refuted"
   ],
   "note": "The power law is proved for every list of elevations; the documented behaviour (once per map) is refuted by C63_refuted and C63_not_once."
  },
  {
   "property": "C64",
   "status": "proved",
   "theorems": [
    "Verif.Props.C64_value",
    "Verif.Props.C64_normal",
    "Verif.Props.C64_ends",
    "Verif.Props.C64_decreasing"
   ],
   "note": ""
  },
  {
   "property": "C65",
   "status": "proved",
   "theorems": [
    "Verif.Props.C65_residual",
    "Verif.Props.C65_vanishes",
    "Verif.Props.C65_rows",
    "Verif.Props.C65_order_zero",
    "Verif.Props.C65_reproduced",
    "Verif.Props.C65_gravity",
    "Verif.Props.C65_determined",
    "Verif.Props.C65_recovered",
    "Verif.Props.C65_recovered_tilt",
    "Verif.Props.C65_piston_free",
    "Verif.Props.C65_fit_all"
   ],
   "note": "The optimiser is a parameter; statements about recovered coefficients assume that it finds the global minimum where one exists (Spec.Exact, shown satisfiable by exact_exists)."
  },
  {
   "property": "C66",
   "status": "proved",
   "theorems": [
    "Verif.Props.C66_partition",
    "Verif.Props.C66_load",
    "Verif.Props.C66_balanced",
    "Verif.Props.C66_exactly_one",
    "Verif.Props.C66_rejects",
    "Verif.Props.C66_order"
   ],
   "note": "C66_order shows that equal lists on all ranks are necessary."
  },
  {
   "property": "C67",
   "status": "proved",
   "theorems": [
    "Verif.Props.C67_provenance",
    "Verif.Props.C67_observation"
   ],
   "note": ""
  },
  {
   "property": "C68",
   "status": "proved",
   "theorems": [
    "Verif.Props.C68_projection",
    "Verif.Props.C68_wavefront",
    "Verif.Props.C68_phase",
    "Verif.Props.C68_all",
    "Verif.Props.C68_coarse"
   ],
   "note": ""
  },
  {
   "property": "C69",
   "status": "proved",
   "theorems": [
    "Verif.Props.C69_far_field",
    "Verif.Props.C69_aperture",
    "Verif.Props.C69_shift",
    "Verif.Props.C69_pixels"
   ],
   "note": ""
  },
  {
   "property": "C70",
   "status": "proved",
   "theorems": [
    "Verif.Props.C70_parts",
    "Verif.Props.C70_bound",
    "Verif.Props.C70_on_axis",
    "Verif.Props.C70_perfect",
    "Verif.Props.C70_marechal",
    "Verif.Props.C70_strict",
    "Verif.Props.C70_gauss_in_focus"
   ],
   "note": ""
  },
  {
   "property": "C71",
   "status": "proved",
   "theorems": [
    "Verif.Props.C71_cells",
    "Verif.Props.C71_scale",
    "Verif.Props.C71_no_diagonal",
    "Verif.Props.C71_no_diagonal_old",
    "Verif.Props.C71_single"
   ],
   "note": ""
  },
  {
   "property": "C72",
   "status": "proved",
   "theorems": [
    "Verif.Props.C72_panels",
    "Verif.Props.C72_limits",
    "Verif.Props.C72_total",
    "Verif.Props.C72_short",
    "Verif.Props.C72_data",
    "Verif.Props.C72_phase",
    "Verif.Props.C72_phase_data"
   ],
   "note": ""
  },
  {
   "property": "C73",
   "status": "proved",
   "theorems": [
    "Verif.Props.C73_files",
    "Verif.Props.C73_as_in_fit",
    "Verif.Props.C73_missing",
    "Verif.Props.C73_shows",
    "Verif.Props.C73_matrices",
    "Verif.Props.C73_single",
    "Verif.Props.C73_total"
   ],
   "note": ""
  },
  {
   "property": "C74",
   "status": "proved",
   "theorems": [
    "Verif.Props.C74_rings_polynomial",
    "Verif.Props.C74_rings_linear",
    "Verif.Props.C74_rings_errors",
    "Verif.Props.C74_commands",
    "Verif.Props.C74_read",
    "Verif.Props.C74_read_rows",
    "Verif.Props.C74_lookup_phase"
   ],
   "note": "The spline is a parameter with the contract Spec.Quintic, which lagrange_quintic shows to be satisfiable; griddata is an arbitrary parameter."
  },
  {
   "property": "C75",
   "status": "proved",
   "theorems": [
    "Verif.Props.C75_commands",
    "Verif.Props.C75_stroke",
    "Verif.Props.C75_unchanged"
   ],
   "note": "The model of generate_phase_pr has the powers of the correction that C63 describes; the spline is a parameter as in C74."
  },
  {
   "property": "C76",
   "status": "proved",
   "theorems": [
    "Verif.Props.C76_wavefront",
    "Verif.Props.C76_mirror",
    "Verif.Props.C76_rot90",
    "Verif.Props.C76_itransform",
    "Verif.Props.C76_half"
   ],
   "note": ""
  },
  {
   "property": "C77",
   "status": "proved",
   "theorems": [
    "Verif.Props.C77_pattern",
    "Verif.Props.C77_in_focus",
    "Verif.Props.C77_residual",
    "Verif.Props.C77_no_defocus",
    "Verif.Props.C77_illumination",
    "Verif.Props.C77_manual",
    "Verif.Props.C77_effelsberg",
    "Verif.Props.C77_wrong_sign"
   ],
   "note": "The symmetry of the geometry is a hypothesis (Spec.Central); C77_manual and C77_effelsberg prove it for the geometries of the package, C77_illumination for illuminations without offset."
  },
  {
   "property": "C78",
   "status": "proved",
   "theorems": [
    "Verif.Props.C78_units",
    "Verif.Props.C78_residual"
   ],
   "note": "Proved for block_manual/opd_manual with both illumination functions; the Effelsberg geometry has built-in lengths."
  },
  {
   "property": "C79",
   "status": "proved",
   "theorems": [
    "Verif.Props.C79_pattern",
    "Verif.Props.C79_residual",
    "Verif.Props.C79_package"
   ],
   "note": "Proportionality of the path difference to the offset is a hypothesis; C79_package proves it for the package."
  },
  {
   "property": "C80",
   "status": "proved",
   "theorems": [
    "Verif.Props.C80_field",
    "Verif.Props.C80_power",
    "Verif.Props.C80_manual"
   ],
   "note": ""
  },
  {
   "property": "C81",
   "status": "proved",
   "theorems": [
    "Verif.Props.C81_value",
    "Verif.Props.C81_raises",
    "Verif.Props.C81_ignored",
    "Verif.Props.C81_constant"
   ],
   "note": ""
  },
  {
   "property": "C82",
   "status": "proved",
   "theorems": [
    "Verif.Props.C82_closed_loop",
    "Verif.Props.C82_perfect_fit"
   ],
   "note": "float32 storage is taken as exact here; C57 has the statement with rounding. Hypothesis of C57: the file is the one written."
  },
  {
   "property": "C83",
   "status": "proved",
   "theorems": [
    "Verif.Props.C83_amplitude",
    "Verif.Props.C83_piston",
    "Verif.Props.C83_default"
   ],
   "note": "Contract of the optimiser: Spec.TrueJac (strictly above lower bounds, zero column for a parameter without influence near the solution); derivSolver is an instance. Exact arithmetic: with floating point the column is rounding noise."
  },
  {
   "property": "C84",
   "status": "proved",
   "theorems": [
    "Verif.Props.C84_same",
    "Verif.Props.C84_failure",
    "Verif.Props.C84_off",
    "Verif.Props.C84_figures",
    "Verif.Props.C84_single",
    "Verif.Props.C84_iff"
   ],
   "note": "Model/FitPlots.lean is fit_zpoly with plot_fit_path called in the loop. C84_same carries every statement about a complete run over to it."
  },
  {
   "property": "C85",
   "status": "proved",
   "theorems": [
    "Verif.Props.C85_float",
    "Verif.Props.C85_flat",
    "Verif.Props.C85_amplitude",
    "Verif.Props.C85_error"
   ],
   "note": "residual_true with the conversion to the data type of beam_data; integer range not modelled"
  },
  {
   "property": "C86",
   "status": "proved",
   "theorems": [
    "Verif.Props.C86_levels",
    "Verif.Props.C86_contours",
    "Verif.Props.C86_panels",
    "Verif.Props.C86_ok_iff",
    "Verif.Props.C86_default"
   ],
   "note": "what is handed to matplotlib; sign = 0 not modelled"
  },
  {
   "property": "C87",
   "status": "proved",
   "theorems": [
    "Verif.Props.C87_pattern",
    "Verif.Props.C87_residual",
    "Verif.Props.C87_phase",
    "Verif.Props.C87_manual",
    "Verif.Props.C87_effelsberg",
    "Verif.Props.C87_parabolic",
    "Verif.Props.C87_gauss",
    "Verif.Props.C87_illum",
    "Verif.Props.C87_fit",
    "Verif.Props.C87_wavelength",
    "Verif.Props.C87_plain"
   ],
   "note": ""
  },
  {
   "property": "C88",
   "status": "proved",
   "theorems": [
    "Verif.Props.C88_limits",
    "Verif.Props.C88_empty",
    "Verif.Props.C88_figure",
    "Verif.Props.C88_radians_iff"
   ],
   "note": ""
  },
  {
   "property": "C89",
   "status": "proved",
   "theorems": [
    "Verif.Props.C89_selected",
    "Verif.Props.C89_observations",
    "Verif.Props.C89_table",
    "Verif.Props.C89_untouched",
    "Verif.Props.C89_none"
   ],
   "note": ""
  },
  {
   "property": "C90",
   "status": "proved",
   "theorems": [
    "Verif.Props.C90_stored",
    "Verif.Props.C90_complete",
    "Verif.Props.C90_table"
   ],
   "note": ""
  },
  {
   "property": "C91",
   "status": "proved",
   "theorems": [
    "Verif.Props.C91_complete",
    "Verif.Props.C91_observation",
    "Verif.Props.C91_numbers",
    "Verif.Props.C91_stopped",
    "Verif.Props.C91_completes"
   ],
   "note": ""
  },
  {
   "property": "C92",
   "status": "proved",
   "theorems": [
    "Verif.Props.C92_exact",
    "Verif.Props.C92_observation"
   ],
   "note": ""
  },
  {
   "property": "C93",
   "status": "proved",
   "theorems": [
    "Verif.Props.C93_rank",
    "Verif.Props.C93_sequential",
    "Verif.Props.C93_completes",
    "Verif.Props.C93_names",
    "Verif.Props.C93_race"
   ],
   "note": ""
  },
  {
   "property": "C94",
   "status": "proved",
   "theorems": [
    "Verif.Props.C94_range",
    "Verif.Props.C94_values",
    "Verif.Props.C94_idempotent",
    "Verif.Props.C94_residual"
   ],
   "note": ""
  },
  {
   "property": "C95",
   "status": "proved",
   "theorems": [
    "Verif.Props.C95_kept",
    "Verif.Props.C95_apart",
    "Verif.Props.C95_race",
    "Verif.Props.C95_directory",
    "Verif.Props.C95_script_first",
    "Verif.Props.C95_script_again"
   ],
   "note": ""
  },
  {
   "property": "C96",
   "status": "proved",
   "theorems": [
    "Verif.Props.C96_converges",
    "Verif.Props.C96_pixel",
    "Verif.Props.C96_beam",
    "Verif.Props.C96_shipped",
    "Verif.Props.C96_package"
   ],
   "note": ""
  },
  {
   "property": "C97",
   "status": "proved",
   "theorems": [
    "Verif.Props.C97_norm",
    "Verif.Props.C97_factor",
    "Verif.Props.C97_data",
    "Verif.Props.C97_model",
    "Verif.Props.C97_coefficients",
    "Verif.Props.C97_loop",
    "Verif.Props.C97_resolution",
    "Verif.Props.C97_single"
   ],
   "note": ""
  },
  {
   "property": "C98",
   "status": "proved",
   "theorems": [
    "Verif.Props.C98_flat",
    "Verif.Props.C98_best",
    "Verif.Props.C98_package",
    "Verif.Props.C98_rim",
    "Verif.Props.C98_fit"
   ],
   "note": ""
  },
  {
   "property": "C99",
   "status": "proved",
   "theorems": [
    "Verif.Props.C99_radial",
    "Verif.Props.C99_exact",
    "Verif.Props.C99_circle",
    "Verif.Props.C99_wavefront"
   ],
   "note": ""
  },
  {
   "property": "C100",
   "status": "proved",
   "theorems": [
    "Verif.Props.C100_weighted",
    "Verif.Props.C100_ruze"
   ],
   "note": ""
  },
  {
   "property": "C101",
   "status": "proved",
   "theorems": [
    "Verif.Props.C101_nested",
    "Verif.Props.C101_best",
    "Verif.Props.C101_run"
   ],
   "note": "The optimiser's result is a best point by hypothesis (scipy's least_squares is a local method and guarantees less); with fit_previous the new coefficients start at 0.1, so the start of an order may be worse than the end of the one before."
  },
  {
   "property": "C102",
   "status": "proved",
   "theorems": [
    "Verif.Props.C102_rms",
    "Verif.Props.C102_ruze",
    "Verif.Props.C102_square",
    "Verif.Props.C102_mean"
   ],
   "note": ""
  },
  {
   "property": "C103",
   "status": "proved",
   "theorems": [
    "Verif.Props.C103_pattern",
    "Verif.Props.C103_residual",
    "Verif.Props.C103_all",
    "Verif.Props.C103_best",
    "Verif.Props.C103_manual",
    "Verif.Props.C103_effelsberg"
   ],
   "note": ""
  },
  {
   "property": "C104",
   "status": "proved",
   "theorems": [
    "Verif.Props.C104_unbiased",
    "Verif.Props.C104_units",
    "Verif.Props.C104_pixels",
    "Verif.Props.C104_copies"
   ],
   "note": ""
  },
  {
   "property": "C105",
   "status": "proved",
   "theorems": [
    "Verif.Props.C105_read",
    "Verif.Props.C105_fit",
    "Verif.Props.C105_none",
    "Verif.Props.C105_stored",
    "Verif.Props.C105_shipped"
   ],
   "note": ""
  },
  {
   "property": "C106",
   "status": "proved",
   "theorems": [
    "Verif.Props.C106_yaml",
    "Verif.Props.C106_info",
    "Verif.Props.C106_table",
    "Verif.Props.C106_stored"
   ],
   "note": ""
  },
  {
   "property": "C107",
   "status": "proved",
   "theorems": [
    "Verif.Props.C107_best",
    "Verif.Props.C107_separate",
    "Verif.Props.C107_linear",
    "Verif.Props.C107_linear_maps",
    "Verif.Props.C107_outside",
    "Verif.Props.C107_noise",
    "Verif.Props.C107_gravity_best",
    "Verif.Props.C107_gravity",
    "Verif.Props.C107_fit_all",
    "Verif.Props.C107_order"
   ],
   "note": ""
  },
  {
   "property": "C108",
   "status": "proved",
   "theorems": [
    "Verif.Props.C108_focus_gregory",
    "Verif.Props.C108_focus_cassegrain",
    "Verif.Props.C108_gregory",
    "Verif.Props.C108_cassegrain",
    "Verif.Props.C108_error_gregory",
    "Verif.Props.C108_error_cassegrain",
    "Verif.Props.C108_meets",
    "Verif.Props.C108_effelsberg"
   ],
   "note": ""
  },
  {
   "property": "C109",
   "status": "proved",
   "theorems": [
    "Verif.Props.C109_transform",
    "Verif.Props.C109_itransform",
    "Verif.Props.C109_interp",
    "Verif.Props.C109_write",
    "Verif.Props.C109_read",
    "Verif.Props.C109_lookup",
    "Verif.Props.C109_correction",
    "Verif.Props.C109_generate",
    "Verif.Props.C109_fit",
    "Verif.Props.C109_fit_grav",
    "Verif.Props.C109_fit_all",
    "Verif.Props.C109_transform_refused",
    "Verif.Props.C109_itransform_refused",
    "Verif.Props.C109_write_refused",
    "Verif.Props.C109_fit_refused",
    "Verif.Props.C109_frequency_refused"
   ],
   "note": ""
  },
  {
   "property": "C110",
   "status": "proved",
   "theorems": [
    "Verif.Props.C110_block",
    "Verif.Props.C110_effelsberg",
    "Verif.Props.C110_simulate",
    "Verif.Props.C110_wavelength_refused"
   ],
   "note": ""
  },
  {
   "property": "C111",
   "status": "proved",
   "theorems": [
    "Verif.Props.C111_snapshot",
    "Verif.Props.C111_orders",
    "Verif.Props.C111_same",
    "Verif.Props.C111_again",
    "Verif.Props.C111_whole",
    "Verif.Props.C111_batch"
   ],
   "note": ""
  },
  {
   "property": "C112",
   "status": "proved",
   "theorems": [
    "Verif.Props.C112_exact",
    "Verif.Props.C112_converse",
    "Verif.Props.C112_beam_exact",
    "Verif.Props.C112_dense",
    "Verif.Props.C112_map",
    "Verif.Props.C112_beam",
    "Verif.Props.C112_step"
   ],
   "note": ""
  },
  {
   "property": "C113",
   "status": "proved",
   "theorems": [
    "Verif.Props.C113_reached",
    "Verif.Props.C113_never_better",
    "Verif.Props.C113_at_best",
    "Verif.Props.C113_run",
    "Verif.Props.C113_errors",
    "Verif.Props.C113_alone",
    "Verif.Props.C113_orthogonal"
   ],
   "note": ""
  },
  {
   "property": "C114",
   "status": "proved",
   "theorems": [
    "Verif.Props.C114_gravfit",
    "Verif.Props.C114_order",
    "Verif.Props.C114_untouched",
    "Verif.Props.C114_after",
    "Verif.Props.C114_script"
   ],
   "note": ""
  },
  {
   "property": "C115",
   "status": "proved",
   "theorems": [
    "Verif.Props.C115_readers",
    "Verif.Props.C115_simulation",
    "Verif.Props.C115_simulate_again",
    "Verif.Props.C115_script_never",
    "Verif.Props.C115_script_killed"
   ],
   "note": "A half-written FITS file stands for one that cannot be opened; astropy opens some truncated files with a warning. For the order that was under way nothing is claimed about the readers. plot_fit_path is taken with save=False."
  },
  {
   "property": "C116",
   "status": "proved",
   "theorems": [
    "Verif.Props.C116_undisturbed",
    "Verif.Props.C116_race"
   ],
   "note": "A half-written file stands for one the reader refuses; what numpy really makes of a csv file that was cut is C132: for the phase file of table_pyoof_out never a wrong value, for the tables of plot_fit_path perhaps a wrong last number or missing last rows. plot_fit_path is taken with save=False, and each operation on the disk is one step."
  },
  {
   "property": "C117",
   "status": "proved",
   "theorems": [
    "Verif.Props.C117_between",
    "Verif.Props.C117_nodes",
    "Verif.Props.C117_dark",
    "Verif.Props.C117_residual",
    "Verif.Props.C117_persists",
    "Verif.Props.C117_in_focus",
    "Verif.Props.C117_limit"
   ],
   "note": ""
  },
  {
   "property": "C118",
   "status": "proved",
   "theorems": [
    "Verif.Props.C118_unique",
    "Verif.Props.C118_linear",
    "Verif.Props.C118_step",
    "Verif.Props.C118_cancels",
    "Verif.Props.C118_sum",
    "Verif.Props.C118_order",
    "Verif.Props.C118_twice",
    "Verif.Props.C118_undo",
    "Verif.Props.C118_exists",
    "Verif.Props.C118_small"
   ],
   "note": ""
  },
  {
   "property": "C119",
   "status": "proved",
   "theorems": [
    "Verif.Props.C119_table",
    "Verif.Props.C119_misprint",
    "Verif.Props.C119_odd",
    "Verif.Props.C119_line",
    "Verif.Props.C119_aperture",
    "Verif.Props.C119_plain",
    "Verif.Props.C119_box",
    "Verif.Props.C119_boxManual"
   ],
   "note": ""
  },
  {
   "property": "C120",
   "status": "proved",
   "theorems": [
    "Verif.Props.C120_phase",
    "Verif.Props.C120_ends"
   ],
   "note": ""
  },
  {
   "property": "C121",
   "status": "proved",
   "theorems": [
    "Verif.Props.C121_field",
    "Verif.Props.C121_power"
   ],
   "note": ""
  },
  {
   "property": "C122",
   "status": "proved",
   "theorems": [
    "Verif.Props.C122_point",
    "Verif.Props.C122_zeros",
    "Verif.Props.C122_aperture",
    "Verif.Props.C122_smooth"
   ],
   "note": ""
  },
  {
   "property": "C123",
   "status": "proved",
   "theorems": [
    "Verif.Props.C123_error",
    "Verif.Props.C123_stable",
    "Verif.Props.C123_fit"
   ],
   "note": ""
  },
  {
   "property": "C124",
   "status": "proved",
   "theorems": [
    "Verif.Props.C124_aperture",
    "Verif.Props.C124_pattern",
    "Verif.Props.C124_power"
   ],
   "note": ""
  },
  {
   "property": "C125",
   "status": "proved",
   "theorems": [
    "Verif.Props.C125_residual"
   ],
   "note": ""
  },
  {
   "property": "C126",
   "status": "proved",
   "theorems": [
    "Verif.Props.C126_parabolic",
    "Verif.Props.C126_gauss",
    "Verif.Props.C126_pattern",
    "Verif.Props.C126_residual"
   ],
   "note": ""
  },
  {
   "property": "C127",
   "status": "proved",
   "theorems": [
    "Verif.Props.C127_block",
    "Verif.Props.C127_zero",
    "Verif.Props.C127_opd",
    "Verif.Props.C127_pattern",
    "Verif.Props.C127_residual"
   ],
   "note": ""
  },
  {
   "property": "C128",
   "status": "proved",
   "theorems": [
    "Verif.Props.C128_factor",
    "Verif.Props.C128_transform",
    "Verif.Props.C128_itransform",
    "Verif.Props.C128_stroke",
    "Verif.Props.C128_round_trip",
    "Verif.Props.C128_file",
    "Verif.Props.C128_commands",
    "Verif.Props.C128_gravity"
   ],
   "note": ""
  },
  {
   "property": "C129",
   "status": "proved",
   "theorems": [
    "Verif.Props.C129_shipped",
    "Verif.Props.C129_package",
    "Verif.Props.C129_pixel",
    "Verif.Props.C129_rate"
   ],
   "note": ""
  },
  {
   "property": "C130",
   "status": "proved",
   "theorems": [
    "Verif.Props.C130_beam",
    "Verif.Props.C130_package",
    "Verif.Props.C130_residual",
    "Verif.Props.C130_evaluable",
    "Verif.Props.C130_limit",
    "Verif.Props.C130_contrast"
   ],
   "note": ""
  },
  {
   "property": "C131",
   "status": "proved",
   "theorems": [
    "Verif.Props.C131_rms",
    "Verif.Props.C131_line",
    "Verif.Props.C131_even",
    "Verif.Props.C131_circle",
    "Verif.Props.C131_efficiency",
    "Verif.Props.C131_again",
    "Verif.Props.C131_table"
   ],
   "note": ""
  },
  {
   "property": "C132",
   "status": "proved",
   "theorems": [
    "Verif.Props.C132_rows",
    "Verif.Props.C132_phase",
    "Verif.Props.C132_shape",
    "Verif.Props.C132_wrong",
    "Verif.Props.C132_nan"
   ],
   "note": "numpy's genfromtxt as modelled for C92 and the shape of what it returns as in Model/CsvShape.lean; a file is cut between two characters."
  },
  {
   "property": "C133",
   "status": "proved",
   "theorems": [
    "Verif.Props.C133_read",
    "Verif.Props.C133_first",
    "Verif.Props.C133_surface",
    "Verif.Props.C133_between",
    "Verif.Props.C133_end",
    "Verif.Props.C133_wrong"
   ],
   "note": "A text without a line break is assumed not to be the name of a file; the ascii reader of astropy is modelled for words separated by blanks."
  },
  {
   "property": "C134",
   "status": "proved",
   "theorems": [
    "Verif.Props.C134_formula",
    "Verif.Props.C134_pixels",
    "Verif.Props.C134_determined",
    "Verif.Props.C134_padding",
    "Verif.Props.C134_package",
    "Verif.Props.C134_alias"
   ],
   "note": ""
  },
  {
   "property": "C135",
   "status": "proved",
   "theorems": [
    "Verif.Props.C135_pair",
    "Verif.Props.C135_focus",
    "Verif.Props.C135_difference",
    "Verif.Props.C135_jacobian",
    "Verif.Props.C135_slit"
   ],
   "note": ""
  },
  {
   "property": "C136",
   "status": "proved",
   "theorems": [
    "Verif.Props.C136_aperture",
    "Verif.Props.C136_unique",
    "Verif.Props.C136_slope"
   ],
   "note": ""
  },
  {
   "property": "C137",
   "status": "proved",
   "theorems": [
    "Verif.Props.C137_field",
    "Verif.Props.C137_limit",
    "Verif.Props.C137_defocus",
    "Verif.Props.C137_mirrors"
   ],
   "note": ""
  },
  {
   "property": "C138",
   "status": "proved",
   "theorems": [
    "Verif.Props.C138_residual",
    "Verif.Props.C138_cost",
    "Verif.Props.C138_best",
    "Verif.Props.C138_matrices",
    "Verif.Props.C138_repeated"
   ],
   "note": ""
  },
  {
   "property": "C139",
   "status": "proved",
   "theorems": [
    "Verif.Props.C139_midway",
    "Verif.Props.C139_local",
    "Verif.Props.C139_norm",
    "Verif.Props.C139_slope",
    "Verif.Props.C139_generic"
   ],
   "note": ""
  },
  {
   "property": "C140",
   "status": "proved",
   "theorems": [
    "Verif.Props.C140_row",
    "Verif.Props.C140_residual",
    "Verif.Props.C140_best",
    "Verif.Props.C140_near",
    "Verif.Props.C140_near_residual",
    "Verif.Props.C140_phase"
   ],
   "note": ""
  },
  {
   "property": "C141",
   "status": "proved",
   "theorems": [
    "Verif.Props.C141_before",
    "Verif.Props.C141_one",
    "Verif.Props.C141_complete",
    "Verif.Props.C141_wrong",
    "Verif.Props.C141_table",
    "Verif.Props.C141_plot",
    "Verif.Props.C141_wavel"
   ],
   "note": ""
  },
  {
   "property": "C142",
   "status": "proved",
   "theorems": [
    "Verif.Props.C142_near",
    "Verif.Props.C142_sharp",
    "Verif.Props.C142_rounded"
   ],
   "note": ""
  },
  {
   "property": "C143",
   "status": "proved",
   "theorems": [
    "Verif.Props.C143_residual",
    "Verif.Props.C143_params",
    "Verif.Props.C143_coefficients",
    "Verif.Props.C143_gauss",
    "Verif.Props.C143_parabolic",
    "Verif.Props.C143_limit",
    "Verif.Props.C143_errors",
    "Verif.Props.C143_errors_parabolic"
   ],
   "note": ""
  },
  {
   "property": "C144",
   "status": "proved",
   "theorems": [
    "Verif.Props.C144_cut",
    "Verif.Props.C144_kept",
    "Verif.Props.C144_spike",
    "Verif.Props.C144_dip"
   ],
   "note": ""
  },
  {
   "property": "C145",
   "status": "proved",
   "theorems": [
    "Verif.Props.C145_matrices",
    "Verif.Props.C145_lost"
   ],
   "note": ""
  },
  {
   "property": "C146",
   "status": "proved",
   "theorems": [
    "Verif.Props.C146_superposition",
    "Verif.Props.C146_field",
    "Verif.Props.C146_residual",
    "Verif.Props.C146_axis",
    "Verif.Props.C146_manual",
    "Verif.Props.C146_gauss"
   ],
   "note": ""
  },
  {
   "property": "C147",
   "status": "proved",
   "theorems": [
    "Verif.Props.C147_snr",
    "Verif.Props.C147_equal"
   ],
   "note": ""
  },
  {
   "property": "C148",
   "status": "proved",
   "theorems": [
    "Verif.Props.C148_slope",
    "Verif.Props.C148_residual",
    "Verif.Props.C148_variance",
    "Verif.Props.C148_errors",
    "Verif.Props.C148_package"
   ],
   "note": ""
  },
  {
   "property": "C149",
   "status": "proved",
   "theorems": [
    "Verif.Props.C149_accepts",
    "Verif.Props.C149_package",
    "Verif.Props.C149_wider",
    "Verif.Props.C149_edges",
    "Verif.Props.C149_dtype"
   ],
   "note": ""
  },
  {
   "property": "C150",
   "status": "proved",
   "theorems": [
    "Verif.Props.C150_single",
    "Verif.Props.C150_single_own",
    "Verif.Props.C150_coordinates",
    "Verif.Props.C150_fit",
    "Verif.Props.C150_refused",
    "Verif.Props.C150_own"
   ],
   "note": ""
  },
  {
   "property": "C151",
   "status": "proved",
   "theorems": [
    "Verif.Props.C151_axis",
    "Verif.Props.C151_lower",
    "Verif.Props.C151_mono",
    "Verif.Props.C151_near",
    "Verif.Props.C151_roundtrip",
    "Verif.Props.C151_limits",
    "Verif.Props.C151_line_exact",
    "Verif.Props.C151_line"
   ],
   "note": ""
  },
  {
   "property": "C152",
   "status": "proved",
   "theorems": [
    "Verif.Props.C152_square",
    "Verif.Props.C152_single",
    "Verif.Props.C152_near",
    "Verif.Props.C152_mono"
   ],
   "note": ""
  },
  {
   "property": "C153",
   "status": "proved",
   "theorems": [
    "Verif.Props.C153_rms",
    "Verif.Props.C153_efficiency",
    "Verif.Props.C153_snr",
    "Verif.Props.C153_snr_refused",
    "Verif.Props.C153_snr_second",
    "Verif.Props.C153_snr_flat",
    "Verif.Props.C153_ratio"
   ],
   "note": ""
  }
 ]
}