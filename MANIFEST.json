{
 "claims": [
  {
   "property": "C01",
   "status": "proved",
   "theorems": [
    "PySLM2.Backend.C01_observations",
    "PySLM2.Backend.C01_frozen",
    "PySLM2.Backend.C01_reads_agree",
    "PySLM2.Backend.C01_rejected_changes_nothing"
   ],
   "note": ""
  },
  {
   "property": "C02",
   "status": "proved",
   "theorems": [
    "PySLM2.Backend.C02_consistent_triple"
   ],
   "note": ""
  },
  {
   "property": "C03",
   "status": "proved",
   "theorems": [
    "PySLM2.Backend.C03_fft_selector",
    "PySLM2.Backend.C03_in_force",
    "PySLM2.Backend.C03_fft_irrelevant_for_precision"
   ],
   "note": ""
  },
  {
   "property": "C04",
   "status": "proved",
   "theorems": [
    "PySLM2.C04_index_roundtrip",
    "PySLM2.C04_coord_roundtrip"
   ],
   "note": ""
  },
  {
   "property": "C05",
   "status": "proved",
   "theorems": [
    "PySLM2.C05_fourier_grid"
   ],
   "note": ""
  },
  {
   "property": "C06",
   "status": "proved",
   "theorems": [
    "PySLM2.C06_image_grid",
    "PySLM2.C06_image_padded_grid"
   ],
   "note": ""
  },
  {
   "property": "C07",
   "status": "proved",
   "theorems": [
    "PySLM2.C07_padding_extends"
   ],
   "note": ""
  },
  {
   "property": "C08",
   "status": "proved",
   "theorems": [
    "PySLM2.C08_padding_refines",
    "PySLM2.C08_matching_pixel"
   ],
   "note": ""
  },
  {
   "property": "C09",
   "status": "proved",
   "theorems": [
    "PySLM2.C09_pixel_areas"
   ],
   "note": ""
  },
  {
   "property": "C10",
   "status": "proved",
   "theorems": [
    "PySLM2.Sim.C10_fraunhofer",
    "PySLM2.Sim.C10_intensity",
    "PySLM2.Sim.C10_slm_planes"
   ],
   "note": ""
  },
  {
   "property": "C11",
   "status": "proved",
   "theorems": [
    "PySLM2.Sim.C11_padding_invariance"
   ],
   "note": ""
  },
  {
   "property": "C12",
   "status": "proved",
   "theorems": [
    "PySLM2.Sim.C12_energy"
   ],
   "note": ""
  },
  {
   "property": "C13",
   "status": "proved",
   "theorems": [
    "PySLM2.Sim.C13_padding_power"
   ],
   "note": ""
  },
  {
   "property": "C14",
   "status": "proved",
   "theorems": [
    "PySLM2.Sim.C14_passive"
   ],
   "note": ""
  },
  {
   "property": "C15",
   "status": "proved",
   "theorems": [
    "PySLM2.Sim.C15_lossless",
    "PySLM2.Sim.C15_two_pi"
   ],
   "note": ""
  },
  {
   "property": "C16",
   "status": "proved",
   "theorems": [
    "PySLM2.Sim.C16_superposition"
   ],
   "note": ""
  },
  {
   "property": "C17",
   "status": "proved",
   "theorems": [
    "PySLM2.Sim.C17_blocks_disc",
    "PySLM2.Sim.C17_default_radius",
    "PySLM2.Sim.C17_idempotent",
    "PySLM2.Sim.C17_power",
    "PySLM2.Sim.C17_reachable"
   ],
   "note": ""
  },
  {
   "property": "C18",
   "status": "proved",
   "theorems": [
    "PySLM2.Sim.C18_first_order_spared"
   ],
   "note": ""
  },
  {
   "property": "C19",
   "status": "proved",
   "theorems": [
    "PySLM2.Sim.C19_lifecycle",
    "PySLM2.Sim.C19_history_forgotten",
    "PySLM2.Sim.C19_state_change",
    "PySLM2.Sim.C19_clear"
   ],
   "note": ""
  },
  {
   "property": "C20",
   "status": "partial",
   "theorems": [
    "PySLM2.Sim.C20_partial",
    "PySLM2.Sim.C20_refuted"
   ],
   "note": "False of the code as stated: a propagation that fails in the multiplication has already replaced the input field (C20_refuted). Proved: output and image plane results and powers survive every failure; everything survives a failed conversion."
  },
  {
   "property": "C21",
   "status": "proved",
   "theorems": [
    "PySLM2.Sim.C21_slm",
    "PySLM2.Sim.C21_dmd"
   ],
   "note": ""
  },
  {
   "property": "C22",
   "status": "proved",
   "theorems": [
    "PySLM2.DMD.C22_ideal_range",
    "PySLM2.DMD.C22_unit_range"
   ],
   "note": ""
  },
  {
   "property": "C29",
   "status": "proved",
   "theorems": [
    "PySLM2.DMD.C29_simple_threshold",
    "PySLM2.DMD.C29_consequences"
   ],
   "note": ""
  },
  {
   "property": "C30",
   "status": "proved",
   "theorems": [
    "PySLM2.DMD.C30_random",
    "PySLM2.DMD.C30_probability"
   ],
   "note": ""
  },
  {
   "property": "C31",
   "status": "proved",
   "theorems": [
    "PySLM2.DMD.C31_monotone"
   ],
   "note": ""
  },
  {
   "property": "C32",
   "status": "proved",
   "theorems": [
    "PySLM2.DMD.C32_phase_difference"
   ],
   "note": ""
  },
  {
   "property": "C33",
   "status": "proved",
   "theorems": [
    "PySLM2.DMD.C33_periodic"
   ],
   "note": ""
  },
  {
   "property": "C23",
   "status": "proved",
   "theorems": [
    "PySLM2.DMD.C23_interp",
    "PySLM2.DMD.C23_orders",
    "PySLM2.DMD.C23_first_order"
   ],
   "note": ""
  },
  {
   "property": "C24",
   "status": "proved",
   "theorems": [
    "PySLM2.DMD.C24_negative_order",
    "PySLM2.DMD.C24_theta_plus_pi"
   ],
   "note": ""
  },
  {
   "property": "C25",
   "status": "proved",
   "theorems": [
    "PySLM2.DMD.C25_normalised",
    "PySLM2.DMD.C25_spectrum_ne_zero"
   ],
   "note": ""
  },
  {
   "property": "C26",
   "status": "proved",
   "theorems": [
    "PySLM2.DMD.C26_scaling"
   ],
   "note": ""
  },
  {
   "property": "C27",
   "status": "partial",
   "theorems": [
    "PySLM2.DMD.C27_partial",
    "PySLM2.DMD.C27_refuted",
    "PySLM2.DMD.C27_refuted_methods"
   ],
   "note": "False of the code as stated: for a target that is zero everywhere the exception is raised after dmd_state has been replaced by all mirrors off (C27_refuted). Proved: an exception is always raised."
  },
  {
   "property": "C28",
   "status": "partial",
   "theorems": [
    "PySLM2.DMD.C28_partial",
    "PySLM2.DMD.C28_refuted"
   ],
   "note": "False of the code as stated: calculate_dmd_state returns normally with all mirrors off (C28_refuted). Proved: the returned eta is 0 exactly in this case."
  },
  {
   "property": "C34",
   "status": "proved",
   "theorems": [
    "PySLM2.DMD.C34_ifta",
    "PySLM2.DMD.C34_calculate"
   ],
   "note": ""
  },
  {
   "property": "C35",
   "status": "proved",
   "theorems": [
    "PySLM2.DMD.C35_degenerate",
    "PySLM2.DMD.C35_simple"
   ],
   "note": ""
  },
  {
   "property": "C36",
   "status": "proved",
   "theorems": [
    "PySLM2.DMD.C36_binarize",
    "PySLM2.DMD.C36_schedule"
   ],
   "note": ""
  },
  {
   "property": "C37",
   "status": "proved",
   "theorems": [
    "PySLM2.DMD.C37_shape",
    "PySLM2.DMD.C37_dtype"
   ],
   "note": ""
  },
  {
   "property": "C38",
   "status": "proved",
   "theorems": [
    "PySLM2.DMD.C38_patch",
    "PySLM2.DMD.C38_mixed",
    "PySLM2.DMD.C38_commute",
    "PySLM2.DMD.C38_disjoint"
   ],
   "note": ""
  },
  {
   "property": "C39",
   "status": "partial",
   "theorems": [
    "PySLM2.DMD.C39_partial",
    "PySLM2.DMD.C39_refuted"
   ],
   "note": "False of the code as stated: on a boolean state the grey values are cast to True (C39_refuted). Proved for DMDs already holding a grey-scale state."
  },
  {
   "property": "C40",
   "status": "proved",
   "theorems": [
    "PySLM2.DMD.C40_failed_updates",
    "PySLM2.DMD.C40_unknown_method",
    "PySLM2.DMD.C40_missing_window"
   ],
   "note": "One documented exception, stated in C40_failed_updates: the ZeroDivisionError of calculate_dmd_state for an all-zero target (C27)."
  },
  {
   "property": "C41",
   "status": "proved",
   "theorems": [
    "PySLM2.DMD.C41_pack",
    "PySLM2.DMD.C41_injective"
   ],
   "note": ""
  },
  {
   "property": "C42",
   "status": "proved",
   "theorems": [
    "PySLM2.DMD.C42_type_error"
   ],
   "note": ""
  },
  {
   "property": "C43",
   "status": "proved",
   "theorems": [
    "PySLM2.DMD.C43_call",
    "PySLM2.DMD.C43_history",
    "PySLM2.DMD.C43_refines",
    "PySLM2.DMD.C43_patches_shared"
   ],
   "note": ""
  },
  {
   "property": "C44",
   "status": "proved",
   "theorems": [
    "PySLM2.LCOS.C44_monotone"
   ],
   "note": ""
  },
  {
   "property": "C45",
   "status": "partial",
   "theorems": [
    "PySLM2.LCOS.C45_partial",
    "PySLM2.LCOS.C45_refuted"
   ],
   "note": "False of the code as stated: for every unit-amplitude input with non-uniform phase one iteration can destroy a perfect hologram (C45_refuted). Proved for inputs of uniform phase."
  },
  {
   "property": "C46",
   "status": "partial",
   "theorems": [
    "PySLM2.LCOS.C46_partial",
    "PySLM2.LCOS.C46_refuted"
   ],
   "note": "False of the code as stated: the simulation applies exp(-1j*phase), the algorithms exp(+1j*phase), so the simulated image is point-reflected (C46_refuted). Proved: the simulated modulus is the prediction for the conjugate input at the opposite pixel."
  },
  {
   "property": "C47",
   "status": "proved",
   "theorems": [
    "PySLM2.LCOS.C47_phase_range",
    "PySLM2.LCOS.C47_initial"
   ],
   "note": ""
  },
  {
   "property": "C48",
   "status": "proved",
   "theorems": [
    "PySLM2.LCOS.C48_full_window"
   ],
   "note": ""
  },
  {
   "property": "C49",
   "status": "proved",
   "theorems": [
    "PySLM2.LCOS.C49_region_weighting"
   ],
   "note": ""
  },
  {
   "property": "C50",
   "status": "proved",
   "theorems": [
    "PySLM2.LCOS.C50_unknown_method",
    "PySLM2.LCOS.C50_missing_window",
    "PySLM2.LCOS.C50_failed"
   ],
   "note": ""
  },
  {
   "property": "C51",
   "status": "proved",
   "theorems": [
    "PySLM2.Profile.C51_expressions",
    "PySLM2.Profile.C51_supported",
    "PySLM2.Profile.C51_unsupported"
   ],
   "note": ""
  },
  {
   "property": "C52",
   "status": "proved",
   "theorems": [
    "PySLM2.Profile.C52_dtype",
    "PySLM2.Profile.C52_natural",
    "PySLM2.Profile.C52_real",
    "PySLM2.Profile.C52_complex"
   ],
   "note": ""
  },
  {
   "property": "C53",
   "status": "proved",
   "theorems": [
    "PySLM2.Profile.C53_formulas",
    "PySLM2.Profile.C53_compose",
    "PySLM2.Profile.C53_undo",
    "PySLM2.Profile.C53_distribute"
   ],
   "note": ""
  },
  {
   "property": "C54",
   "status": "proved",
   "theorems": [
    "PySLM2.Profile.C54_phase_factor",
    "PySLM2.Profile.C54_homomorphism"
   ],
   "note": ""
  },
  {
   "property": "C55",
   "status": "proved",
   "theorems": [
    "PySLM2.Profile.C55_live",
    "PySLM2.Profile.C55_local",
    "PySLM2.Profile.C55_get",
    "PySLM2.Profile.C55_samples"
   ],
   "note": ""
  },
  {
   "property": "C56",
   "status": "proved",
   "theorems": [
    "PySLM2.Profile.C56_formula",
    "PySLM2.Profile.C56_current",
    "PySLM2.Profile.C56_parity"
   ],
   "note": ""
  },
  {
   "property": "C57",
   "status": "proved",
   "theorems": [
    "PySLM2.Profile.C57_fundamental",
    "PySLM2.Profile.C57_super"
   ],
   "note": ""
  },
  {
   "property": "C58",
   "status": "proved",
   "theorems": [
    "PySLM2.Profile.C58_symmetry",
    "PySLM2.Profile.C58_rotation"
   ],
   "note": ""
  },
  {
   "property": "C59",
   "status": "proved",
   "theorems": [
    "PySLM2.Profile.C59_first_order"
   ],
   "note": ""
  },
  {
   "property": "C60",
   "status": "proved",
   "theorems": [
    "PySLM2.Profile.C60_formula",
    "PySLM2.Profile.C60_edge",
    "PySLM2.Profile.C60_support"
   ],
   "note": ""
  },
  {
   "property": "C61",
   "status": "proved",
   "theorems": [
    "PySLM2.Profile.C61_orthonormal"
   ],
   "note": ""
  },
  {
   "property": "C62",
   "status": "partial",
   "theorems": [
    "PySLM2.Profile.C62_partial",
    "PySLM2.Profile.C62_refuted"
   ],
   "note": "False of the code as stated: only m > n is checked, so pairs with m < -n are accepted (C62_refuted). Proved: the exact set of rejected pairs, and that an accepted invalid pair gives the zero profile."
  },
  {
   "property": "C63",
   "status": "proved",
   "theorems": [
    "PySLM2.Profile.C63_rectangle",
    "PySLM2.Profile.C63_disc",
    "PySLM2.Profile.C63_algebra",
    "PySLM2.Profile.C63_shift"
   ],
   "note": ""
  },
  {
   "property": "C64",
   "status": "partial",
   "theorems": [
    "PySLM2.C64_profile_partial",
    "PySLM2.C64_array_partial",
    "PySLM2.C64_refuted"
   ],
   "note": "False of the code as stated: constants (numbers, ConstantProfile and anything built from them only) give rank-0 tensors, arrays keep their own shape unchecked, and a python complex asked as real raises TypeError (C64_refuted, C64_array_partial). Proved: sampling at the right coordinates in the right dtype for everything else."
  },
  {
   "property": "C65",
   "status": "proved",
   "theorems": [
    "PySLM2.Cache.C65_transparent",
    "PySLM2.Cache.C65_bounded"
   ],
   "note": ""
  },
  {
   "property": "C66",
   "status": "proved",
   "theorems": [
    "PySLM2.Analysis.C66_bijection",
    "PySLM2.Analysis.C66_accepted"
   ],
   "note": ""
  },
  {
   "property": "C67",
   "status": "proved",
   "theorems": [
    "PySLM2.Analysis.C67_double_precision"
   ],
   "note": ""
  },
  {
   "property": "C68",
   "status": "proved",
   "theorems": [
    "PySLM2.Analysis.C68_mean_zero",
    "PySLM2.Analysis.C68_constant"
   ],
   "note": ""
  },
  {
   "property": "C69",
   "status": "proved",
   "theorems": [
    "PySLM2.Analysis.C69_linear",
    "PySLM2.Analysis.C69_local",
    "PySLM2.Analysis.C69_outside"
   ],
   "note": ""
  },
  {
   "property": "C70",
   "status": "partial",
   "theorems": [
    "PySLM2.Analysis.C70_partial",
    "PySLM2.Analysis.C70_square_partial",
    "PySLM2.Analysis.C70_limit",
    "PySLM2.Analysis.C70_refuted"
   ],
   "note": "False of the code as stated: the sampled tilt modes are not normalised on the pixel grid, so a residual tilt is left (C70_refuted; on a 1x2 array it grows). Proved: the exact residual, strict decrease on square arrays, and that it vanishes in the limit of large apertures."
  },
  {
   "property": "C71",
   "status": "proved",
   "theorems": [
    "PySLM2.Analysis.C71_structure",
    "PySLM2.Analysis.C71_prefix",
    "PySLM2.Analysis.C71_extrapolate",
    "PySLM2.Analysis.C71_linear"
   ],
   "note": ""
  },
  {
   "property": "C72",
   "status": "partial",
   "theorems": [
    "PySLM2.Analysis.C72_partial",
    "PySLM2.Analysis.C72_limit",
    "PySLM2.Analysis.C72_refuted"
   ],
   "note": "False of the code as stated: on a 3x3 array a pure tilt of coefficient 1 is decomposed into 32/27 (C72_refuted). Proved: the exact relation through the Gram matrix of the sampled modes, and convergence to the original coefficients for large apertures."
  },
  {
   "property": "C73",
   "status": "proved",
   "theorems": [
    "PySLM2.Controller.C73_alp",
    "PySLM2.Controller.C73_luxbeam"
   ],
   "note": ""
  },
  {
   "property": "C74",
   "status": "partial",
   "theorems": [
    "PySLM2.Controller.C74_partial",
    "PySLM2.Controller.C74_refuted"
   ],
   "note": "False of the code: close() does not reset the initialized flag, so loads after close() go through to the released device (C74_refuted). Proved: close() stops the projection and releases the device."
  },
  {
   "property": "C75",
   "status": "partial",
   "theorems": [
    "PySLM2.Controller.C75_partial",
    "PySLM2.Controller.C75_refuted"
   ],
   "note": "False of the code after load_multiple: it sets slave mode and nothing resets it (C75_refuted). Proved for histories without load_multiple since the last completed initialize()."
  },
  {
   "property": "C76",
   "status": "proved",
   "theorems": [
    "PySLM2.Controller.C76_single",
    "PySLM2.Controller.C76_multiple"
   ],
   "note": ""
  },
  {
   "property": "C77",
   "status": "partial",
   "theorems": [
    "PySLM2.Controller.C77_partial",
    "PySLM2.Controller.C77_refuted",
    "PySLM2.Controller.C77_exact"
   ],
   "note": "False of the code: n+1 loads and a close() leave n sequences allocated (C77_refuted). Proved when there is at most one load since the last initialize(); C77_exact gives the number left in every history."
  },
  {
   "property": "C78",
   "status": "proved",
   "theorems": [
    "PySLM2.Controller.C78_cyclic",
    "PySLM2.Controller.C78_no_leftover"
   ],
   "note": ""
  },
  {
   "property": "C79",
   "status": "partial",
   "theorems": [
    "PySLM2.Controller.C79_partial",
    "PySLM2.Controller.C79_refuted"
   ],
   "note": "False of the code: a re-initialization that raises between its two vendor calls leaves inversion off and the controller still initialized, so the next load is shown un-inverted (C79_refuted). Proved when the last initialize() returned."
  },
  {
   "property": "C80",
   "status": "proved",
   "theorems": [
    "PySLM2.Controller.C80_failed_load"
   ],
   "note": ""
  },
  {
   "property": "C81",
   "status": "proved",
   "theorems": [
    "PySLM2.Controller.C81_in_order"
   ],
   "note": ""
  },
  {
   "property": "C82",
   "status": "proved",
   "theorems": [
    "PySLM2.Controller.C82_failed_load"
   ],
   "note": ""
  },
  {
   "property": "C83",
   "status": "partial",
   "theorems": [
    "PySLM2.Controller.C83_partial",
    "PySLM2.Controller.C83_refuted"
   ],
   "note": "False of the code: if lowering the sync line fails, the next fire_software_trigger() returns but produces no edge (C83_refuted). Proved when no earlier software trigger raised."
  },
  {
   "property": "C84",
   "status": "proved",
   "theorems": [
    "PySLM2.Sim.C84_tilt"
   ],
   "note": ""
  },
  {
   "property": "C85",
   "status": "proved",
   "theorems": [
    "PySLM2.Sim.C85_real_field",
    "PySLM2.Sim.C85_half_turn"
   ],
   "note": ""
  },
  {
   "property": "C86",
   "status": "proved",
   "theorems": [
    "PySLM2.Sim.C86_overlap"
   ],
   "note": ""
  },
  {
   "property": "C87",
   "status": "proved",
   "theorems": [
    "PySLM2.DMD.C87_ifta"
   ],
   "note": ""
  },
  {
   "property": "C88",
   "status": "proved",
   "theorems": [
    "PySLM2.LCOS.C88_gs",
    "PySLM2.LCOS.C88_mraf"
   ],
   "note": ""
  },
  {
   "property": "C89",
   "status": "proved",
   "theorems": [
    "PySLM2.LCOS.C89_fixed_point"
   ],
   "note": ""
  },
  {
   "property": "C90",
   "status": "proved",
   "theorems": [
    "PySLM2.DMD.C90_ideal",
    "PySLM2.DMD.C90_random",
    "PySLM2.DMD.C90_simple"
   ],
   "note": ""
  },
  {
   "property": "C91",
   "status": "proved",
   "theorems": [
    "PySLM2.Profile.C91_hermite"
   ],
   "note": ""
  },
  {
   "property": "C92",
   "status": "proved",
   "theorems": [
    "PySLM2.Profile.C92_laguerre"
   ],
   "note": ""
  },
  {
   "property": "C93",
   "status": "proved",
   "theorems": [
    "PySLM2.Sim.C93_continuum"
   ],
   "note": ""
  },
  {
   "property": "C94",
   "status": "proved",
   "theorems": [
    "PySLM2.Sim.C94_gaussian_spot"
   ],
   "note": ""
  },
  {
   "property": "C95",
   "status": "proved",
   "theorems": [
    "PySLM2.Sim.C95_gaussian_power"
   ],
   "note": ""
  },
  {
   "property": "C96",
   "status": "proved",
   "theorems": [
    "PySLM2.C96_geometry",
    "PySLM2.C96_field",
    "PySLM2.C96_rows"
   ],
   "note": ""
  },
  {
   "property": "C97",
   "status": "proved",
   "theorems": [
    "PySLM2.DMD.C97_random_image"
   ],
   "note": ""
  },
  {
   "property": "C98",
   "status": "proved",
   "theorems": [
    "PySLM2.DMD.C98_brightest"
   ],
   "note": ""
  },
  {
   "property": "C99",
   "status": "proved",
   "theorems": [
    "PySLM2.DMD.C99_random_orders",
    "PySLM2.DMD.C99_order_amplitudes"
   ],
   "note": ""
  },
  {
   "property": "C100",
   "status": "proved",
   "theorems": [
    "PySLM2.Profile.C100_formula",
    "PySLM2.Profile.C100_top_hat",
    "PySLM2.Profile.C100_power"
   ],
   "note": ""
  },
  {
   "property": "C101",
   "status": "proved",
   "theorems": [
    "PySLM2.DMD.C101_patches"
   ],
   "note": ""
  },
  {
   "property": "C102",
   "status": "proved",
   "theorems": [
    "PySLM2.SLM.C102_accuracy",
    "PySLM2.SLM.C102_order",
    "PySLM2.SLM.C102_round_trip"
   ],
   "note": ""
  },
  {
   "property": "C103",
   "status": "proved",
   "theorems": [
    "PySLM2.C103_simple",
    "PySLM2.C103_float32"
   ],
   "note": ""
  },
  {
   "property": "C104",
   "status": "proved",
   "theorems": [
    "PySLM2.C104_random"
   ],
   "note": ""
  },
  {
   "property": "C105",
   "status": "proved",
   "theorems": [
    "PySLM2.DMD.C105_last_writer",
    "PySLM2.DMD.C105_overwrite"
   ],
   "note": ""
  },
  {
   "property": "C106",
   "status": "proved",
   "theorems": [
    "PySLM2.LCOS.C106_converges",
    "PySLM2.LCOS.C106_settles"
   ],
   "note": ""
  },
  {
   "property": "C107",
   "status": "proved",
   "theorems": [
    "PySLM2.DMD.C107_sharp",
    "PySLM2.DMD.C107_limit",
    "PySLM2.DMD.C107_flat"
   ],
   "note": ""
  },
  {
   "property": "C108",
   "status": "proved",
   "theorems": [
    "PySLM2.DMD.C108_grating",
    "PySLM2.DMD.C108_state",
    "PySLM2.DMD.C108_plain",
    "PySLM2.DMD.C108_methods",
    "PySLM2.DMD.C108_hologram"
   ],
   "note": ""
  },
  {
   "property": "C109",
   "status": "proved",
   "theorems": [
    "PySLM2.Sim.C109_mirror",
    "PySLM2.Sim.C109_dark"
   ],
   "note": ""
  },
  {
   "property": "C110",
   "status": "proved",
   "theorems": [
    "PySLM2.C110_dmd",
    "PySLM2.C110_others"
   ],
   "note": ""
  },
  {
   "property": "C111",
   "status": "proved",
   "theorems": [
    "PySLM2.C111_dmd",
    "PySLM2.C111_lcos",
    "PySLM2.C111_simulation",
    "PySLM2.C111_block"
   ],
   "note": ""
  },
  {
   "property": "C112",
   "status": "proved",
   "theorems": [
    "PySLM2.Sim.C112_hermite_spot"
   ],
   "note": ""
  },
  {
   "property": "C113",
   "status": "proved",
   "theorems": [
    "PySLM2.Profile.C113_formula",
    "PySLM2.Profile.C113_rodrigues"
   ],
   "note": ""
  },
  {
   "property": "C114",
   "status": "proved",
   "theorems": [
    "PySLM2.Sim.C114_laguerre_spot"
   ],
   "note": ""
  },
  {
   "property": "C115",
   "status": "proved",
   "theorems": [
    "PySLM2.LCOS.C115_gs",
    "PySLM2.LCOS.C115_mraf"
   ],
   "note": ""
  },
  {
   "property": "C116",
   "status": "proved",
   "theorems": [
    "PySLM2.LCOS.C116_moved"
   ],
   "note": ""
  },
  {
   "property": "C117",
   "status": "proved",
   "theorems": [
    "PySLM2.Sim.C117_rectangle",
    "PySLM2.Sim.C117_dark_lines",
    "PySLM2.Sim.C117_single_pixel"
   ],
   "note": ""
  },
  {
   "property": "C118",
   "status": "proved",
   "theorems": [
    "PySLM2.Controller.C118_alp_single",
    "PySLM2.Controller.C118_alp_multiple",
    "PySLM2.Controller.C118_alp_refused",
    "PySLM2.Controller.C118_lux",
    "PySLM2.Controller.C118_number_image"
   ],
   "note": "what the font paints is a parameter"
  },
  {
   "property": "C119",
   "status": "proved",
   "theorems": [
    "PySLM2.DMD.C119_same_eta",
    "PySLM2.DMD.C119_correction",
    "PySLM2.DMD.C119_random",
    "PySLM2.DMD.C119_strehl"
   ],
   "note": ""
  },
  {
   "property": "C120",
   "status": "proved",
   "theorems": [
    "PySLM2.DMD.C120_dark",
    "PySLM2.DMD.C120_ideal",
    "PySLM2.DMD.C120_random",
    "PySLM2.DMD.C120_gain"
   ],
   "note": "The docstring of calculate_dmd_state says that the window is applied to input_profile; the code multiplies the transform of the target by it, and that is what is modelled."
  },
  {
   "property": "C121",
   "status": "proved",
   "theorems": [
    "PySLM2.DMD.C121_efficiency",
    "PySLM2.DMD.C121_first_order"
   ],
   "note": ""
  },
  {
   "property": "C122",
   "status": "proved",
   "theorems": [
    "PySLM2.DMD.C122_exposure"
   ],
   "note": ""
  },
  {
   "property": "C123",
   "status": "proved",
   "theorems": [
    "PySLM2.DMD.C123_random",
    "PySLM2.DMD.C123_ideal",
    "PySLM2.DMD.C123_donut",
    "PySLM2.DMD.C123_spots"
   ],
   "note": ""
  },
  {
   "property": "C124",
   "status": "partial",
   "theorems": [
    "PySLM2.LCOS.C124_partial",
    "PySLM2.LCOS.C124_refuted"
   ],
   "note": "Proved for targets of one sign. False for targets of both signs: the loop multiplies the signed target by the phase of the image, so negative pixels flip the phase in every iteration; for every device with more than 4 pixels there are a target and a draw for which the error is 0 after every even number of iterations and 4/(Nx Ny) after every odd number (C124_refuted)."
  },
  {
   "property": "C125",
   "status": "proved",
   "theorems": [
    "PySLM2.LCOS.C125_lcos",
    "PySLM2.LCOS.C125_hermite",
    "PySLM2.DMD.C125_aberration"
   ],
   "note": ""
  },
  {
   "property": "C126",
   "status": "proved",
   "theorems": [
    "PySLM2.DMD.C126_concentration"
   ],
   "note": ""
  },
  {
   "property": "C127",
   "status": "proved",
   "theorems": [
    "PySLM2.LCOS.C127_monotone",
    "PySLM2.LCOS.C127_fixed"
   ],
   "note": ""
  },
  {
   "property": "C128",
   "status": "partial",
   "theorems": [
    "PySLM2.LCOS.C128_partial",
    "PySLM2.LCOS.C128_refuted"
   ],
   "note": "Proved for mixing factor 1/2. False for every other mixing factor between 0 and 1 (the default is 0.4), because the iteration works towards m/(1-m) times the target (C127): on every device with an even number of columns there are a target, a window and a draw for which the image in the window is perfect before the first iteration and imperfect after it (C128_refuted)."
  },
  {
   "property": "C129",
   "status": "proved",
   "theorems": [
    "PySLM2.Sim.C129_difference",
    "PySLM2.DMD.C129_mirrors",
    "PySLM2.LCOS.C129_phases"
   ],
   "note": ""
  },
  {
   "property": "C130",
   "status": "proved",
   "theorems": [
    "PySLM2.Controller.C130_luxbeam",
    "PySLM2.Controller.C130_luxbeam_runs",
    "PySLM2.Controller.C130_master"
   ],
   "note": ""
  },
  {
   "property": "C131",
   "status": "proved",
   "theorems": [
    "PySLM2.Profile.C131_zernike_rotate",
    "PySLM2.Profile.C131_zernike_mirror",
    "PySLM2.Profile.C131_hermite",
    "PySLM2.Profile.C131_laguerre",
    "PySLM2.Profile.C131_round"
   ],
   "note": ""
  },
  {
   "property": "C132",
   "status": "proved",
   "theorems": [
    "PySLM2.Sim.C132_overlap",
    "PySLM2.Sim.C132_power",
    "PySLM2.Sim.C132_hermite_power",
    "PySLM2.Sim.C132_laguerre_power"
   ],
   "note": ""
  },
  {
   "property": "C133",
   "status": "proved",
   "theorems": [
    "PySLM2.Profile.C133_bound",
    "PySLM2.Profile.C133_attained"
   ],
   "note": ""
  },
  {
   "property": "C134",
   "status": "proved",
   "theorems": [
    "PySLM2.Sim.C134_limit",
    "PySLM2.Sim.C134_strehl",
    "PySLM2.Sim.C134_attained"
   ],
   "note": ""
  },
  {
   "property": "C135",
   "status": "proved",
   "theorems": [
    "PySLM2.LCOS.C135_speckle"
   ],
   "note": ""
  },
  {
   "property": "C136",
   "status": "proved",
   "theorems": [
    "PySLM2.DMD.C136_round_trip",
    "PySLM2.DMD.C136_perfect"
   ],
   "note": ""
  },
  {
   "property": "C137",
   "status": "proved",
   "theorems": [
    "PySLM2.Sim.C137_field",
    "PySLM2.Sim.C137_power",
    "PySLM2.Sim.C137_double",
    "PySLM2.Sim.C137_padding",
    "PySLM2.Sim.C137_grid",
    "PySLM2.Sim.C137_block"
   ],
   "note": "Rounding is modelled as any function with relative error at most u: overflow and underflow are left out, and the accuracy tau of the library FFT is a hypothesis."
  },
  {
   "property": "C138",
   "status": "proved",
   "theorems": [
    "PySLM2.DMD.C138_binary",
    "PySLM2.DMD.C138_window",
    "PySLM2.DMD.C138_orders",
    "PySLM2.DMD.C138_calculate"
   ],
   "note": ""
  },
  {
   "property": "C139",
   "status": "partial",
   "theorems": [
    "PySLM2.DMD.C139_partial",
    "PySLM2.DMD.C139_refuted"
   ],
   "note": "Proved without iterations and for signal windows that are 1 everywhere or 0 everywhere. False in general: with two mirrors, uniform illumination and one iteration, a mirror that is on for s = 1.1 is off for s = 20 (C139_refuted)."
  },
  {
   "property": "C140",
   "status": "partial",
   "theorems": [
    "PySLM2.DMD.C140_partial",
    "PySLM2.DMD.C140_refuted"
   ],
   "note": "Proved without iterations, for signal windows that are 1 everywhere or 0 everywhere, and for ideal gratings that are 0 or 1 where there is light. False in general: four mirrors, uniform illumination, a window of one pixel and two iterations (C140_refuted)."
  },
  {
   "property": "C141",
   "status": "proved",
   "theorems": [
    "PySLM2.Sim.C141_aberration",
    "PySLM2.Sim.C141_tilt"
   ],
   "note": ""
  },
  {
   "property": "C142",
   "status": "proved",
   "theorems": [
    "PySLM2.Sim.C142_never",
    "PySLM2.Sim.C142_grids",
    "PySLM2.Sim.C142_empty"
   ],
   "note": ""
  },
  {
   "property": "C143",
   "status": "partial",
   "theorems": [
    "PySLM2.Precision.C143_partial",
    "PySLM2.Precision.C143_exact",
    "PySLM2.Precision.C143_stable",
    "PySLM2.Precision.C143_refuted"
   ],
   "note": "False for other spellings of the precision: the setter accepts \"float64\" or np.float32 because they compare equal, but _make_attribute_func (profile.py:24-26) tests identity and then does not cast, so an operator with a real and a complex operand fails when called. Proved: the property for tf.float32 and tf.float64, and for every spelling exactly which profiles can be called."
  },
  {
   "property": "C144",
   "status": "proved",
   "theorems": [
    "PySLM2.DMD.C144_range",
    "PySLM2.DMD.C144_simple",
    "PySLM2.DMD.C144_random",
    "PySLM2.DMD.C144_float32",
    "PySLM2.DMD.C144_eta",
    "PySLM2.DMD.C144_fft",
    "PySLM2.DMD.C144_dark",
    "PySLM2.DMD.C144_dim"
   ],
   "note": ""
  },
  {
   "property": "C145",
   "status": "proved",
   "theorems": [
    "PySLM2.Ranks.C145_broadcast",
    "PySLM2.Ranks.C145_replace",
    "PySLM2.Ranks.C145_keep",
    "PySLM2.Ranks.C145_patch",
    "PySLM2.Ranks.C145_history",
    "PySLM2.Ranks.C145_stack",
    "PySLM2.Ranks.C145_hologram",
    "PySLM2.Ranks.C145_propagate",
    "PySLM2.Ranks.C145_agree_grating",
    "PySLM2.Ranks.C145_agree",
    "PySLM2.Ranks.C145_agree_hologram",
    "PySLM2.Ranks.C145_agree_propagate"
   ],
   "note": ""
  },
  {
   "property": "C146",
   "status": "proved",
   "theorems": [
    "PySLM2.Threads.C146_schedules",
    "PySLM2.Threads.C146_independent",
    "PySLM2.Threads.C146_sequential",
    "PySLM2.Threads.C146_progress",
    "PySLM2.Threads.C146_bounded"
   ],
   "note": ""
  },
  {
   "property": "C147",
   "status": "partial",
   "theorems": [
    "PySLM2.Threads.C147_partial",
    "PySLM2.Threads.C147_refuted",
    "PySLM2.Threads.C147_torn"
   ],
   "note": "False of the code as stated: the setter tests and then writes, so an assignment under way during the first use takes effect after it (C147_refuted), which can even leave a grid of mixed precision in the cache (C147_torn). Proved: later the precision is the one in force or one that a thread was already about to write; assignments that begin later raise."
  },
  {
   "property": "C148",
   "status": "proved",
   "theorems": [
    "PySLM2.LCOS.C148_empty",
    "PySLM2.LCOS.C148_random",
    "PySLM2.LCOS.C148_one"
   ],
   "note": ""
  },
  {
   "property": "C149",
   "status": "partial",
   "theorems": [
    "PySLM2.Benchmarks.C149_gs_partial",
    "PySLM2.Benchmarks.C149_dmd_partial",
    "PySLM2.Benchmarks.C149_mraf_cpu",
    "PySLM2.Benchmarks.C149_mraf_gpu",
    "PySLM2.Benchmarks.C149_refuted"
   ],
   "note": "False of the code for mraf: slm_mraf_cpu.py calls task('gs', N) (C149_mraf_cpu), and in slm_mraf_gpu.py the signal window is centred at (960 m, 540 m), so that the hologram is the random draw (C149_mraf_gpu); the two differ for some draw and the latter does not depend on the target (C149_refuted). For the other cases both scripts run the same calculation, which succeeds (the _partial theorems)."
  },
  {
   "property": "C150",
   "status": "proved",
   "theorems": [
    "PySLM2.LCOS.C150_unreachable"
   ],
   "note": ""
  },
  {
   "property": "C151",
   "status": "proved",
   "theorems": [
    "PySLM2.LCOS.C151_gs",
    "PySLM2.LCOS.C151_exact"
   ],
   "note": ""
  },
  {
   "property": "C152",
   "status": "proved",
   "theorems": [
    "PySLM2.LCOS.C152_mraf",
    "PySLM2.LCOS.C152_exact"
   ],
   "note": ""
  },
  {
   "property": "C153",
   "status": "partial",
   "theorems": [
    "PySLM2.Sim.C153_partial",
    "PySLM2.Sim.C153_clear",
    "PySLM2.Sim.C153_repair",
    "PySLM2.Sim.C153_device",
    "PySLM2.Sim.C153_refuted"
   ],
   "note": "Missing: that the three fields always belong to one propagation. This is false of the code, which assigns them one after the other (C153_refuted)."
  },
  {
   "property": "C154",
   "status": "proved",
   "theorems": [
    "PySLM2.Profile.C154_laguerre",
    "PySLM2.Profile.C154_hermite"
   ],
   "note": ""
  },
  {
   "property": "C155",
   "status": "proved",
   "theorems": [
    "PySLM2.Lifetime.C155_lifetime"
   ],
   "note": ""
  },
  {
   "property": "C156",
   "status": "partial",
   "theorems": [
    "PySLM2.Lifetime.C156_partial",
    "PySLM2.Lifetime.C156_refuted"
   ],
   "note": "Missing: that nothing stays in memory. This is false of the code, whose grid caches keep their objects alive (C156_refuted)."
  },
  {
   "property": "C157",
   "status": "proved",
   "theorems": [
    "PySLM2.Profile.C157_hermite",
    "PySLM2.Profile.C157_gaussian"
   ],
   "note": ""
  },
  {
   "property": "C158",
   "status": "proved",
   "theorems": [
    "PySLM2.Profile.C158_superGaussian",
    "PySLM2.Profile.C158_rectangle",
    "PySLM2.Profile.C158_circle"
   ],
   "note": ""
  },
  {
   "property": "C159",
   "status": "proved",
   "theorems": [
    "PySLM2.Profile.C159_laguerre"
   ],
   "note": ""
  },
  {
   "property": "C160",
   "status": "proved",
   "theorems": [
    "PySLM2.Profile.C160_zernike"
   ],
   "note": "Stated off the origin unless the azimuthal frequency is 0: the angle at the origin depends on the signs of zeros."
  },
  {
   "property": "C161",
   "status": "proved",
   "theorems": [
    "PySLM2.Controller.C161_load",
    "PySLM2.Controller.C161_failed_load",
    "PySLM2.Controller.C161_restart",
    "PySLM2.Controller.C161_needs_initialize"
   ],
   "note": "C161_needs_initialize shows that the condition on the last initialize() cannot be dropped."
  },
  {
   "property": "C162",
   "status": "proved",
   "theorems": [
    "PySLM2.Controller.C162_single",
    "PySLM2.Controller.C162_multiple",
    "PySLM2.Controller.C162_failed_load"
   ],
   "note": ""
  },
  {
   "property": "C163",
   "status": "partial",
   "theorems": [
    "PySLM2.Profile.C163_partial",
    "PySLM2.Profile.C163_readonly",
    "PySLM2.Profile.C163_laguerre",
    "PySLM2.Profile.C163_refuted_laguerre",
    "PySLM2.Profile.C163_refuted_zernike"
   ],
   "note": "False of LaguerreGaussian, which has no properties: x0, y0, a, w, l, p cannot be read, and assigning them is silently ignored although the attribute reads back as assigned. False of Zernike: n and m call .value() on constants and raise AttributeError, normalize and extrapolate can be assigned without effect. Proved: the property for every other class and argument, exactly which assignments raise, and that a LaguerreGaussian never changes."
  },
  {
   "property": "C164",
   "status": "proved",
   "theorems": [
    "PySLM2.Traced.C164_fresh",
    "PySLM2.Traced.C164_same",
    "PySLM2.Traced.C164_pure",
    "PySLM2.Traced.C164_once"
   ],
   "note": ""
  },
  {
   "property": "C165",
   "status": "partial",
   "theorems": [
    "PySLM2.SharedDmd.C165_threads_partial",
    "PySLM2.SharedDmd.C165_whole",
    "PySLM2.SharedDmd.C165_mirrors",
    "PySLM2.SharedDmd.C165_ends",
    "PySLM2.SharedDmd.C165_refuted"
   ],
   "note": "False for overlapping patches of different threads (C165_refuted: two patches can be mixed); proved if patches of different threads have no mirror in common, in particular for threads without patches. For overlapping patches C165_mirrors says what each single mirror shows."
  },
  {
   "property": "C166",
   "status": "partial",
   "theorems": [
    "PySLM2.SharedSim.C166_fields_partial",
    "PySLM2.SharedSim.C166_one_user",
    "PySLM2.SharedSim.C166_refuted"
   ],
   "note": "False in general (C166_refuted: input of one propagation with the image of the other); proved: each field on its own, and the full property if one thread uses the simulation while the others only update the SLM."
  },
  {
   "property": "C167",
   "status": "partial",
   "theorems": [
    "PySLM2.SharedRead.C167_pack_partial",
    "PySLM2.SharedRead.C167_mirrors",
    "PySLM2.SharedRead.C167_patches",
    "PySLM2.SharedRead.C167_ends",
    "PySLM2.SharedRead.C167_refuted"
   ],
   "note": "False if a patch is made meanwhile (C167_refuted: bytes of a state that the device never showed); proved for threads without patches, and bit by bit in general."
  },
  {
   "property": "C168",
   "status": "proved",
   "theorems": [
    "PySLM2.DMD.C168_exact",
    "PySLM2.DMD.C168_patch",
    "PySLM2.DMD.C168_edge"
   ],
   "note": ""
  },
  {
   "property": "C169",
   "status": "partial",
   "theorems": [
    "PySLM2.Profile.C169_others",
    "PySLM2.Profile.C169_once_partial",
    "PySLM2.Profile.C169_one_setter_partial",
    "PySLM2.Profile.C169_refuted",
    "PySLM2.Profile.C169_difference_refuted"
   ],
   "note": "false of the code for parameters that one evaluation reads twice: C169_refuted and C169_difference_refuted; proved for parameters that are read once"
  },
  {
   "property": "C170",
   "status": "proved",
   "theorems": [
    "PySLM2.Sim.C170_spot",
    "PySLM2.Sim.C170_power",
    "PySLM2.Sim.C170_tail"
   ],
   "note": ""
  },
  {
   "property": "C171",
   "status": "proved",
   "theorems": [
    "PySLM2.Sim.C171_input_power",
    "PySLM2.Sim.C171_scaling",
    "PySLM2.Sim.C171_padded_grid",
    "PySLM2.Sim.C171_pixel_area",
    "PySLM2.Sim.C171_energy",
    "PySLM2.DMD.C171_pack",
    "PySLM2.Profile.C171_zernike"
   ],
   "note": ""
  },
  {
   "property": "C172",
   "status": "partial",
   "theorems": [
    "PySLM2.Profile.C172_zero",
    "PySLM2.Profile.C172_near",
    "PySLM2.Profile.C172_finite",
    "PySLM2.DMD.C172_dark",
    "PySLM2.DMD.C172_refuted",
    "PySLM2.DMD.C172_partial"
   ],
   "note": "False of the code when a pixel is 11 waists or more from the centre of the beam (C172_refuted: beams of 0.9 mm or less on a DLP9500 in single precision); proved when all pixels are within sqrt(80) waists."
  },
  {
   "property": "C173",
   "status": "partial",
   "theorems": [
    "PySLM2.Profile.C173_nan",
    "PySLM2.Profile.C173_refuted",
    "PySLM2.Profile.C173_partial"
   ],
   "note": "False of the code when |l| is large (C173_refuted: |l| of 33 or more on a DLP9500 in single precision); proved for all l and p when the powers and the radial polynomial stay in the range."
  },
  {
   "property": "C174",
   "status": "proved",
   "theorems": [
    "PySLM2.DMD.C174_target",
    "PySLM2.DMD.C174_pixel",
    "PySLM2.DMD.C174_eta",
    "PySLM2.DMD.C174_masked",
    "PySLM2.DMD.C174_agree"
   ],
   "note": ""
  },
  {
   "property": "C175",
   "status": "proved",
   "theorems": [
    "PySLM2.LCOS.C175_gs",
    "PySLM2.LCOS.C175_mraf"
   ],
   "note": ""
  },
  {
   "property": "C176",
   "status": "partial",
   "theorems": [
    "PySLM2.Analysis.C176_square_partial",
    "PySLM2.Analysis.C176_exact",
    "PySLM2.Analysis.C176_defocus",
    "PySLM2.Analysis.C176_limit_partial",
    "PySLM2.Analysis.C176_refuted"
   ],
   "note": "False of the code for elongated arrays, and with remove_defocus also for very small apertures of square arrays (C176_refuted). Proved: square arrays without defocus, all large apertures, and the exact mean square in every case."
  },
  {
   "property": "C177",
   "status": "proved",
   "theorems": [
    "PySLM2.Analysis.C177_repeat",
    "PySLM2.Analysis.C177_rate",
    "PySLM2.Analysis.C177_defined"
   ],
   "note": ""
  },
  {
   "property": "C178",
   "status": "proved",
   "theorems": [
    "PySLM2.Analysis.C178_coefficients",
    "PySLM2.Analysis.C178_residual",
    "PySLM2.Analysis.C178_complete",
    "PySLM2.Analysis.C178_best"
   ],
   "note": ""
  },
  {
   "property": "C179",
   "status": "partial",
   "theorems": [
    "PySLM2.SimRead.C179_whole_partial",
    "PySLM2.SimRead.C179_mirrors",
    "PySLM2.SimRead.C179_patches",
    "PySLM2.SimRead.C179_ends",
    "PySLM2.SimRead.C179_refuted"
   ],
   "note": "False of the code if a thread makes circular patches (C179_refuted); proved for all other updates, and mirror by mirror with patches."
  },
  {
   "property": "C180",
   "status": "proved",
   "theorems": [
    "PySLM2.Analysis.C180_aperture",
    "PySLM2.Analysis.C180_clear",
    "PySLM2.Analysis.C180_remove",
    "PySLM2.Analysis.C180_outside",
    "PySLM2.Analysis.C180_coefficients",
    "PySLM2.Analysis.C180_reconstruct"
   ],
   "note": "At pixels exactly on the edge of the aperture rounding decides whether a mode counts; they are excluded. The reconstruction is compared inside the aperture."
  },
  {
   "property": "C181",
   "status": "proved",
   "theorems": [
    "PySLM2.DMD.C181_exact",
    "PySLM2.DMD.C181_error",
    "PySLM2.DMD.C181_dark",
    "PySLM2.DMD.C181_mirrors",
    "PySLM2.DMD.C181_pattern",
    "PySLM2.DMD.C181_start",
    "PySLM2.DMD.C181_binary"
   ],
   "note": "Quotients by the input field and the transforms are library functions with a relative error; mirrors near a clipping level are counted in the bound."
  },
  {
   "property": "C182",
   "status": "proved",
   "theorems": [
    "PySLM2.DMD.C182_set",
    "PySLM2.DMD.C182_calculate",
    "PySLM2.DMD.C182_finite",
    "PySLM2.DMD.C182_silent",
    "PySLM2.DMD.C182_agree",
    "PySLM2.DMD.C182_agree_set"
   ],
   "note": "Finding: one NaN turns the DMD off without an error, and the efficiency may look normal."
  },
  {
   "property": "C183",
   "status": "proved",
   "theorems": [
    "PySLM2.Sim.C183_history",
    "PySLM2.Sim.C183_largest",
    "PySLM2.Sim.C183_nothing_blocked"
   ],
   "note": ""
  },
  {
   "property": "C184",
   "status": "proved",
   "theorems": [
    "PySLM2.SharedLcos.C184_linearizable",
    "PySLM2.SharedLcos.C184_ended",
    "PySLM2.SharedLcos.C184_whole",
    "PySLM2.SharedLcos.C184_ends",
    "PySLM2.SharedLcos.C184_lost_update"
   ],
   "note": "Arguments are not changed by other threads during a call."
  },
  {
   "property": "C185",
   "status": "partial",
   "theorems": [
    "PySLM2.Controller.SharedLux.C185_in_order_partial",
    "PySLM2.Controller.SharedLux.C185_frozen",
    "PySLM2.Controller.SharedLux.C185_refuted",
    "PySLM2.Controller.SharedLux.C185_trigger_lost"
   ],
   "note": "False of the code for overlapping loads (C185_refuted): the controller takes no lock. Proved for loads that do not overlap with other loads."
  },
  {
   "property": "C186",
   "status": "proved",
   "theorems": [
    "PySLM2.DMD.C186_exact",
    "PySLM2.DMD.C186_start",
    "PySLM2.DMD.C186_error",
    "PySLM2.DMD.C186_pattern"
   ],
   "note": ""
  },
  {
   "property": "C187",
   "status": "partial",
   "theorems": [
    "PySLM2.Controller.SharedAlp.C187_exclusive_partial",
    "PySLM2.Controller.SharedAlp.C187_finished",
    "PySLM2.Controller.SharedAlp.C187_singles",
    "PySLM2.Controller.SharedAlp.C187_refuted",
    "PySLM2.Controller.SharedAlp.C187_blank"
   ],
   "note": "False of the code for overlapping loads (C187_refuted, C187_blank): the controller takes no lock, and the library has one current sequence for all threads. Proved for loads that do not overlap, and for overlapping ones what is left when all have finished."
  },
  {
   "property": "C188",
   "status": "partial",
   "theorems": [
    "PySLM2.DMD.C188_refuted",
    "PySLM2.DMD.C188_hologram",
    "PySLM2.DMD.C188_partial"
   ],
   "note": "False of the code for charges of 33 or more (C188_refuted, C188_hologram for LCOS SLMs): the power overflows at the edge of the image plane, infinity times 0 is NaN, and the Fourier transform spreads it to every mirror. Proved for targets within the range of the format. Infinite entries count as NaN."
  },
  {
   "property": "C189",
   "status": "partial",
   "theorems": [
    "PySLM2.Controller.OpenAlp.C189_guard",
    "PySLM2.Controller.OpenAlp.C189_open",
    "PySLM2.Controller.OpenAlp.C189_inverted",
    "PySLM2.Controller.OpenAlp.C189_close_partial",
    "PySLM2.Controller.OpenAlp.C189_close_refuted",
    "PySLM2.Controller.OpenAlp.C189_use_refuted"
   ],
   "note": "False of the code: the controller takes no lock, so a load goes on after another thread has closed the controller (C189_use_refuted), and two threads that close it may both free the last sequence (C189_close_refuted). The guard, the inversion, and closing by one thread are proved."
  },
  {
   "property": "C190",
   "status": "partial",
   "theorems": [
    "PySLM2.Controller.OpenLux.C190_guard",
    "PySLM2.Controller.OpenLux.C190_open",
    "PySLM2.Controller.OpenLux.C190_dark",
    "PySLM2.Controller.OpenLux.C190_programmed",
    "PySLM2.Controller.OpenLux.C190_refuted"
   ],
   "note": "False of the code for loads that overlap with an initialize() of another thread (C190_refuted): the controller takes no lock, and initialize() sets the number of images to 1. The guard, the program and the display before the first load are proved; C185 is about loads after all initialize() calls are done."
  },
  {
   "property": "C191",
   "status": "proved",
   "theorems": [
    "PySLM2.Profile.C191_finite",
    "PySLM2.Profile.C191_zero",
    "PySLM2.Profile.C191_bright",
    "PySLM2.DMD.C191_target",
    "PySLM2.DMD.C191_hologram"
   ],
   "note": ""
  },
  {
   "property": "C192",
   "status": "partial",
   "theorems": [
    "PySLM2.Profile.C192_refuted",
    "PySLM2.Profile.C192_partial",
    "PySLM2.DMD.C192_target",
    "PySLM2.DMD.C192_hologram"
   ],
   "note": "False of the code for high orders (C192_refuted, n = 28 in single precision): the polynomial overflows where the exponential underflows. Proved for orders, waists and distances whose intermediate values stay in the range."
  }
 ]
}