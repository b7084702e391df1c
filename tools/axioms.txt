PySLM2.Backend.C01_observations: propext, Quot.sound
PySLM2.Backend.C01_frozen: propext, Quot.sound
PySLM2.Backend.C01_reads_agree: propext, Quot.sound
PySLM2.Backend.C01_rejected_changes_nothing: propext
PySLM2.Backend.C02_consistent_triple: propext, Quot.sound
PySLM2.Backend.C03_fft_selector: propext
PySLM2.Backend.C03_in_force: propext, Classical.choice, Quot.sound
PySLM2.Backend.C03_fft_irrelevant_for_precision: propext, Quot.sound
PySLM2.C04_index_roundtrip: propext, Classical.choice, Quot.sound
PySLM2.C04_coord_roundtrip: propext, Classical.choice, Quot.sound
PySLM2.C05_fourier_grid: propext, Classical.choice, Quot.sound
PySLM2.C06_image_grid: propext, Classical.choice, Quot.sound
PySLM2.C06_image_padded_grid: propext, Classical.choice, Quot.sound
PySLM2.C07_padding_extends: propext, Classical.choice, Quot.sound
PySLM2.C08_padding_refines: propext, Classical.choice, Quot.sound
PySLM2.C08_matching_pixel: propext, Classical.choice, Quot.sound
PySLM2.C09_pixel_areas: propext, Classical.choice, Quot.sound
PySLM2.Sim.C10_fraunhofer: propext, Classical.choice, Quot.sound
PySLM2.Sim.C10_intensity: propext, Classical.choice, Quot.sound
PySLM2.Sim.C10_slm_planes: propext, Classical.choice, Quot.sound
PySLM2.Sim.C11_padding_invariance: propext, Classical.choice, Quot.sound
PySLM2.Sim.C12_energy: propext, Classical.choice, Quot.sound
PySLM2.Sim.C13_padding_power: propext, Classical.choice, Quot.sound
PySLM2.Sim.C14_passive: propext, Classical.choice, Quot.sound
PySLM2.Sim.C15_lossless: propext, Classical.choice, Quot.sound
PySLM2.Sim.C15_two_pi: propext, Classical.choice, Quot.sound
PySLM2.Sim.C16_superposition: propext, Classical.choice, Quot.sound
PySLM2.Sim.C17_blocks_disc: propext, Classical.choice, Quot.sound
PySLM2.Sim.C17_default_radius: propext, Classical.choice, Quot.sound
PySLM2.Sim.C17_idempotent: propext, Classical.choice, Quot.sound
PySLM2.Sim.C17_power: propext, Classical.choice, Quot.sound
PySLM2.Sim.C17_reachable: propext, Classical.choice, Quot.sound
PySLM2.Sim.C18_first_order_spared: propext, Classical.choice, Quot.sound
PySLM2.Sim.C19_lifecycle: propext, Classical.choice, Quot.sound
PySLM2.Sim.C19_history_forgotten: propext, Classical.choice, Quot.sound
PySLM2.Sim.C19_state_change: propext, Classical.choice, Quot.sound
PySLM2.Sim.C19_clear: propext, Classical.choice, Quot.sound
PySLM2.Sim.C20_partial: propext, Classical.choice, Quot.sound
PySLM2.Sim.C20_refuted: propext, Classical.choice, Quot.sound
PySLM2.Sim.C21_slm: propext, Classical.choice, Quot.sound
PySLM2.Sim.C21_dmd: propext, Classical.choice, Quot.sound
PySLM2.DMD.C22_ideal_range: propext, Classical.choice, Quot.sound
PySLM2.DMD.C22_unit_range: propext, Classical.choice, Quot.sound
PySLM2.DMD.C29_simple_threshold: propext, Classical.choice, Quot.sound
PySLM2.DMD.C29_consequences: propext, Classical.choice, Quot.sound
PySLM2.DMD.C30_random: propext, Classical.choice, Quot.sound
PySLM2.DMD.C30_probability: propext, Classical.choice, Quot.sound
PySLM2.DMD.C31_monotone: propext, Classical.choice, Quot.sound
PySLM2.DMD.C32_phase_difference: propext, Classical.choice, Quot.sound
PySLM2.DMD.C33_periodic: propext, Classical.choice, Quot.sound
PySLM2.DMD.C23_interp: propext, Classical.choice, Quot.sound
PySLM2.DMD.C23_orders: propext, Classical.choice, Quot.sound
PySLM2.DMD.C23_first_order: propext, Classical.choice, Quot.sound
PySLM2.DMD.C24_negative_order: propext, Classical.choice, Quot.sound
PySLM2.DMD.C24_theta_plus_pi: propext, Classical.choice, Quot.sound
PySLM2.DMD.C25_normalised: propext, Classical.choice, Quot.sound
PySLM2.DMD.C25_spectrum_ne_zero: propext, Classical.choice, Quot.sound
PySLM2.DMD.C26_scaling: propext, Classical.choice, Quot.sound
PySLM2.DMD.C27_partial: propext, Classical.choice, Quot.sound
PySLM2.DMD.C27_refuted: propext, Classical.choice, Quot.sound
PySLM2.DMD.C27_refuted_methods: propext, Classical.choice, Quot.sound
PySLM2.DMD.C28_partial: propext, Classical.choice, Quot.sound
PySLM2.DMD.C28_refuted: propext, Classical.choice, Quot.sound
PySLM2.DMD.C34_ifta: propext, Classical.choice, Quot.sound
PySLM2.DMD.C34_calculate: propext, Classical.choice, Quot.sound
PySLM2.DMD.C35_degenerate: propext, Classical.choice, Quot.sound
PySLM2.DMD.C35_simple: propext, Classical.choice, Quot.sound
PySLM2.DMD.C36_binarize: propext, Classical.choice, Quot.sound
PySLM2.DMD.C36_schedule: propext, Classical.choice, Quot.sound
PySLM2.DMD.C37_shape: propext, Classical.choice, Quot.sound
PySLM2.DMD.C37_dtype: propext, Classical.choice, Quot.sound
PySLM2.DMD.C38_patch: propext, Classical.choice, Quot.sound
PySLM2.DMD.C38_mixed: propext, Classical.choice, Quot.sound
PySLM2.DMD.C38_commute: propext, Classical.choice, Quot.sound
PySLM2.DMD.C38_disjoint: propext, Classical.choice, Quot.sound
PySLM2.DMD.C39_partial: propext, Classical.choice, Quot.sound
PySLM2.DMD.C39_refuted: propext, Classical.choice, Quot.sound
PySLM2.DMD.C40_failed_updates: propext, Classical.choice, Quot.sound
PySLM2.DMD.C40_unknown_method: propext, Classical.choice, Quot.sound
PySLM2.DMD.C40_missing_window: propext, Classical.choice, Quot.sound
PySLM2.DMD.C41_pack: propext, Classical.choice, Quot.sound
PySLM2.DMD.C41_injective: propext, Classical.choice, Quot.sound
PySLM2.DMD.C42_type_error: propext, Classical.choice, Quot.sound
PySLM2.DMD.C43_call: propext, Classical.choice, Quot.sound
PySLM2.DMD.C43_history: propext, Classical.choice, Quot.sound
PySLM2.DMD.C43_refines: propext, Classical.choice, Quot.sound
PySLM2.DMD.C43_patches_shared: propext, Classical.choice, Quot.sound
PySLM2.LCOS.C44_monotone: propext, Classical.choice, Quot.sound
PySLM2.LCOS.C45_partial: propext, Classical.choice, Quot.sound
PySLM2.LCOS.C45_refuted: propext, Classical.choice, Quot.sound
PySLM2.LCOS.C46_partial: propext, Classical.choice, Quot.sound
PySLM2.LCOS.C46_refuted: propext, Classical.choice, Quot.sound
PySLM2.LCOS.C47_phase_range: propext, Classical.choice, Quot.sound
PySLM2.LCOS.C47_initial: propext, Classical.choice, Quot.sound
PySLM2.LCOS.C48_full_window: propext, Classical.choice, Quot.sound
PySLM2.LCOS.C49_region_weighting: propext, Classical.choice, Quot.sound
PySLM2.LCOS.C50_unknown_method: propext, Classical.choice, Quot.sound
PySLM2.LCOS.C50_missing_window: propext, Classical.choice, Quot.sound
PySLM2.LCOS.C50_failed: propext, Classical.choice, Quot.sound
PySLM2.Profile.C51_expressions: propext, Classical.choice, Quot.sound
PySLM2.Profile.C51_supported: propext, Classical.choice, Quot.sound
PySLM2.Profile.C51_unsupported: propext, Classical.choice, Quot.sound
PySLM2.Profile.C52_dtype: propext, Classical.choice, Quot.sound
PySLM2.Profile.C52_natural: propext, Classical.choice, Quot.sound
PySLM2.Profile.C52_real: propext, Classical.choice, Quot.sound
PySLM2.Profile.C52_complex: propext, Classical.choice, Quot.sound
PySLM2.Profile.C53_formulas: propext, Classical.choice, Quot.sound
PySLM2.Profile.C53_compose: propext, Classical.choice, Quot.sound
PySLM2.Profile.C53_undo: propext, Classical.choice, Quot.sound
PySLM2.Profile.C53_distribute: propext, Classical.choice, Quot.sound
PySLM2.Profile.C54_phase_factor: propext, Classical.choice, Quot.sound
PySLM2.Profile.C54_homomorphism: propext, Classical.choice, Quot.sound
PySLM2.Profile.C55_live: propext, Classical.choice, Quot.sound
PySLM2.Profile.C55_local: propext, Classical.choice, Quot.sound
PySLM2.Profile.C55_get: propext, Classical.choice, Quot.sound
PySLM2.Profile.C55_samples: propext, Classical.choice, Quot.sound
PySLM2.Profile.C56_formula: propext, Classical.choice, Quot.sound
PySLM2.Profile.C56_current: propext, Classical.choice, Quot.sound
PySLM2.Profile.C56_parity: propext, Classical.choice, Quot.sound
PySLM2.Profile.C57_fundamental: propext, Classical.choice, Quot.sound
PySLM2.Profile.C57_super: propext, Classical.choice, Quot.sound
PySLM2.Profile.C58_symmetry: propext, Classical.choice, Quot.sound
PySLM2.Profile.C58_rotation: propext, Classical.choice, Quot.sound
PySLM2.Profile.C59_first_order: propext, Classical.choice, Quot.sound
PySLM2.Profile.C60_formula: propext, Classical.choice, Quot.sound
PySLM2.Profile.C60_edge: propext, Classical.choice, Quot.sound
PySLM2.Profile.C60_support: propext, Classical.choice, Quot.sound
PySLM2.Profile.C61_orthonormal: propext, Classical.choice, Quot.sound
PySLM2.Profile.C62_partial: propext, Classical.choice, Quot.sound
PySLM2.Profile.C62_refuted: propext, Classical.choice, Quot.sound
PySLM2.Profile.C63_rectangle: propext, Classical.choice, Quot.sound
PySLM2.Profile.C63_disc: propext, Classical.choice, Quot.sound
PySLM2.Profile.C63_algebra: propext, Classical.choice, Quot.sound
PySLM2.Profile.C63_shift: propext, Classical.choice, Quot.sound
PySLM2.C64_profile_partial: propext, Classical.choice, Quot.sound
PySLM2.C64_array_partial: propext, Classical.choice, Quot.sound
PySLM2.C64_refuted: propext, Classical.choice, Quot.sound
PySLM2.Cache.C65_transparent: propext
PySLM2.Cache.C65_bounded: propext, Quot.sound
PySLM2.Analysis.C66_bijection: propext, Classical.choice, Quot.sound
PySLM2.Analysis.C66_accepted: propext, Classical.choice, Quot.sound
PySLM2.Analysis.C67_double_precision: propext, Classical.choice, Quot.sound
PySLM2.Analysis.C68_mean_zero: propext, Classical.choice, Quot.sound
PySLM2.Analysis.C68_constant: propext, Classical.choice, Quot.sound
PySLM2.Analysis.C69_linear: propext, Classical.choice, Quot.sound
PySLM2.Analysis.C69_local: propext, Classical.choice, Quot.sound
PySLM2.Analysis.C69_outside: propext, Classical.choice, Quot.sound
PySLM2.Analysis.C70_partial: propext, Classical.choice, Quot.sound
PySLM2.Analysis.C70_square_partial: propext, Classical.choice, Quot.sound
PySLM2.Analysis.C70_limit: propext, Classical.choice, Quot.sound
PySLM2.Analysis.C70_refuted: propext, Classical.choice, Quot.sound
PySLM2.Analysis.C71_structure: propext, Classical.choice, Quot.sound
PySLM2.Analysis.C71_prefix: propext, Classical.choice, Quot.sound
PySLM2.Analysis.C71_extrapolate: propext, Classical.choice, Quot.sound
PySLM2.Analysis.C71_linear: propext, Classical.choice, Quot.sound
PySLM2.Analysis.C72_partial: propext, Classical.choice, Quot.sound
PySLM2.Analysis.C72_limit: propext, Classical.choice, Quot.sound
PySLM2.Analysis.C72_refuted: propext, Classical.choice, Quot.sound
PySLM2.Controller.C73_alp: propext, Classical.choice, Quot.sound
PySLM2.Controller.C73_luxbeam: propext, Classical.choice, Quot.sound
PySLM2.Controller.C74_partial: propext, Quot.sound
PySLM2.Controller.C74_refuted: propext, Classical.choice, Quot.sound
PySLM2.Controller.C75_partial: propext, Quot.sound
PySLM2.Controller.C75_refuted: propext, Quot.sound
PySLM2.Controller.C76_single: propext, Quot.sound
PySLM2.Controller.C76_multiple: propext, Classical.choice, Quot.sound
PySLM2.Controller.C77_partial: propext, Classical.choice, Quot.sound
PySLM2.Controller.C77_refuted: propext, Quot.sound
PySLM2.Controller.C77_exact: propext, Classical.choice, Quot.sound
PySLM2.Controller.C78_cyclic: propext, Classical.choice, Quot.sound
PySLM2.Controller.C78_no_leftover: propext, Classical.choice, Quot.sound
PySLM2.Controller.C79_partial: propext, Quot.sound
PySLM2.Controller.C79_refuted: propext, Classical.choice, Quot.sound
PySLM2.Controller.C80_failed_load: propext, Classical.choice, Quot.sound
PySLM2.Controller.C81_in_order: propext, Classical.choice, Quot.sound
PySLM2.Controller.C82_failed_load: propext, Classical.choice, Quot.sound
PySLM2.Controller.C83_partial: propext, Classical.choice, Quot.sound
PySLM2.Controller.C83_refuted: propext, Classical.choice, Quot.sound
PySLM2.Sim.C84_tilt: propext, Classical.choice, Quot.sound
PySLM2.Sim.C85_real_field: propext, Classical.choice, Quot.sound
PySLM2.Sim.C85_half_turn: propext, Classical.choice, Quot.sound
PySLM2.Sim.C86_overlap: propext, Classical.choice, Quot.sound
PySLM2.DMD.C87_ifta: propext, Classical.choice, Quot.sound
PySLM2.LCOS.C88_gs: propext, Classical.choice, Quot.sound
PySLM2.LCOS.C88_mraf: propext, Classical.choice, Quot.sound
PySLM2.LCOS.C89_fixed_point: propext, Classical.choice, Quot.sound
PySLM2.DMD.C90_ideal: propext, Classical.choice, Quot.sound
PySLM2.DMD.C90_random: propext, Classical.choice, Quot.sound
PySLM2.DMD.C90_simple: propext, Classical.choice, Quot.sound
PySLM2.Profile.C91_hermite: propext, Classical.choice, Quot.sound
PySLM2.Profile.C92_laguerre: propext, Classical.choice, Quot.sound
PySLM2.Sim.C93_continuum: propext, Classical.choice, Quot.sound
PySLM2.Sim.C94_gaussian_spot: propext, Classical.choice, Quot.sound
PySLM2.Sim.C95_gaussian_power: propext, Classical.choice, Quot.sound
PySLM2.C96_geometry: propext, Classical.choice, Quot.sound
PySLM2.C96_field: propext, Classical.choice, Quot.sound
PySLM2.C96_rows: propext, Classical.choice, Quot.sound
PySLM2.DMD.C97_random_image: propext, Classical.choice, Quot.sound
PySLM2.DMD.C98_brightest: propext, Classical.choice, Quot.sound
PySLM2.DMD.C99_random_orders: propext, Classical.choice, Quot.sound
PySLM2.DMD.C99_order_amplitudes: propext, Classical.choice, Quot.sound
PySLM2.Profile.C100_formula: propext, Classical.choice, Quot.sound
PySLM2.Profile.C100_top_hat: propext, Classical.choice, Quot.sound
PySLM2.Profile.C100_power: propext, Classical.choice, Quot.sound
PySLM2.DMD.C101_patches: propext, Classical.choice, Quot.sound
PySLM2.SLM.C102_accuracy: propext, Classical.choice, Quot.sound
PySLM2.SLM.C102_order: propext, Classical.choice, Quot.sound
PySLM2.SLM.C102_round_trip: propext, Classical.choice, Quot.sound
PySLM2.C103_simple: propext, Classical.choice, Quot.sound
PySLM2.C103_float32: propext, Classical.choice, Quot.sound
PySLM2.C104_random: propext, Classical.choice, Quot.sound
PySLM2.DMD.C105_last_writer: propext, Classical.choice, Quot.sound
PySLM2.DMD.C105_overwrite: propext, Classical.choice, Quot.sound
PySLM2.LCOS.C106_converges: propext, Classical.choice, Quot.sound
PySLM2.LCOS.C106_settles: propext, Classical.choice, Quot.sound
PySLM2.DMD.C107_sharp: propext, Classical.choice, Quot.sound
PySLM2.DMD.C107_limit: propext, Classical.choice, Quot.sound
PySLM2.DMD.C107_flat: propext, Classical.choice, Quot.sound
PySLM2.DMD.C108_grating: propext, Classical.choice, Quot.sound
PySLM2.DMD.C108_state: propext, Classical.choice, Quot.sound
PySLM2.DMD.C108_plain: propext, Classical.choice, Quot.sound
PySLM2.DMD.C108_methods: propext, Classical.choice, Quot.sound
PySLM2.DMD.C108_hologram: propext, Classical.choice, Quot.sound
PySLM2.Sim.C109_mirror: propext, Classical.choice, Quot.sound
PySLM2.Sim.C109_dark: propext, Classical.choice, Quot.sound
PySLM2.C110_dmd: propext, Classical.choice, Quot.sound
PySLM2.C110_others: propext, Classical.choice, Quot.sound
PySLM2.C111_dmd: propext, Classical.choice, Quot.sound
PySLM2.C111_lcos: propext, Classical.choice, Quot.sound
PySLM2.C111_simulation: propext, Classical.choice, Quot.sound
PySLM2.C111_block: propext, Classical.choice, Quot.sound
PySLM2.Sim.C112_hermite_spot: propext, Classical.choice, Quot.sound
PySLM2.Profile.C113_formula: propext, Classical.choice, Quot.sound
PySLM2.Profile.C113_rodrigues: propext, Classical.choice, Quot.sound
PySLM2.Sim.C114_laguerre_spot: propext, Classical.choice, Quot.sound
PySLM2.LCOS.C115_gs: propext, Classical.choice, Quot.sound
PySLM2.LCOS.C115_mraf: propext, Classical.choice, Quot.sound
PySLM2.LCOS.C116_moved: propext, Classical.choice, Quot.sound
PySLM2.Sim.C117_rectangle: propext, Classical.choice, Quot.sound
PySLM2.Sim.C117_dark_lines: propext, Classical.choice, Quot.sound
PySLM2.Sim.C117_single_pixel: propext, Classical.choice, Quot.sound
PySLM2.Controller.C118_alp_single: propext, Classical.choice, Quot.sound
PySLM2.Controller.C118_alp_multiple: propext, Classical.choice, Quot.sound
PySLM2.Controller.C118_alp_refused: propext, Classical.choice, Quot.sound
PySLM2.Controller.C118_lux: propext, Classical.choice, Quot.sound
PySLM2.Controller.C118_number_image: propext
PySLM2.DMD.C119_same_eta: propext, Classical.choice, Quot.sound
PySLM2.DMD.C119_correction: propext, Classical.choice, Quot.sound
PySLM2.DMD.C119_random: propext, Classical.choice, Quot.sound
PySLM2.DMD.C119_strehl: propext, Classical.choice, Quot.sound
PySLM2.DMD.C120_dark: propext, Classical.choice, Quot.sound
PySLM2.DMD.C120_ideal: propext, Classical.choice, Quot.sound
PySLM2.DMD.C120_random: propext, Classical.choice, Quot.sound
PySLM2.DMD.C120_gain: propext, Classical.choice, Quot.sound
PySLM2.DMD.C121_efficiency: propext, Classical.choice, Quot.sound
PySLM2.DMD.C121_first_order: propext, Classical.choice, Quot.sound
PySLM2.DMD.C122_exposure: propext, Classical.choice, Quot.sound
PySLM2.DMD.C123_random: propext, Classical.choice, Quot.sound
PySLM2.DMD.C123_ideal: propext, Classical.choice, Quot.sound
PySLM2.DMD.C123_donut: propext, Classical.choice, Quot.sound
PySLM2.DMD.C123_spots: propext, Classical.choice, Quot.sound
PySLM2.LCOS.C124_partial: propext, Classical.choice, Quot.sound
PySLM2.LCOS.C124_refuted: propext, Classical.choice, Quot.sound
PySLM2.LCOS.C125_lcos: propext, Classical.choice, Quot.sound
PySLM2.LCOS.C125_hermite: propext, Classical.choice, Quot.sound
PySLM2.DMD.C125_aberration: propext, Classical.choice, Quot.sound
PySLM2.DMD.C126_concentration: propext, Classical.choice, Quot.sound
PySLM2.LCOS.C127_monotone: propext, Classical.choice, Quot.sound
PySLM2.LCOS.C127_fixed: propext, Classical.choice, Quot.sound
PySLM2.LCOS.C128_partial: propext, Classical.choice, Quot.sound
PySLM2.LCOS.C128_refuted: propext, Classical.choice, Quot.sound
PySLM2.Sim.C129_difference: propext, Classical.choice, Quot.sound
PySLM2.DMD.C129_mirrors: propext, Classical.choice, Quot.sound
PySLM2.LCOS.C129_phases: propext, Classical.choice, Quot.sound
PySLM2.Controller.C130_luxbeam: propext, Classical.choice, Quot.sound
PySLM2.Controller.C130_luxbeam_runs: propext, Quot.sound
PySLM2.Controller.C130_master: propext, Classical.choice, Quot.sound
PySLM2.Profile.C131_zernike_rotate: propext, Classical.choice, Quot.sound
PySLM2.Profile.C131_zernike_mirror: propext, Classical.choice, Quot.sound
PySLM2.Profile.C131_hermite: propext, Classical.choice, Quot.sound
PySLM2.Profile.C131_laguerre: propext, Classical.choice, Quot.sound
PySLM2.Profile.C131_round: propext, Classical.choice, Quot.sound
PySLM2.Sim.C132_overlap: propext, Classical.choice, Quot.sound
PySLM2.Sim.C132_power: propext, Classical.choice, Quot.sound
PySLM2.Sim.C132_hermite_power: propext, Classical.choice, Quot.sound
PySLM2.Sim.C132_laguerre_power: propext, Classical.choice, Quot.sound
PySLM2.Profile.C133_bound: propext, Classical.choice, Quot.sound
PySLM2.Profile.C133_attained: propext, Classical.choice, Quot.sound
PySLM2.Sim.C134_limit: propext, Classical.choice, Quot.sound
PySLM2.Sim.C134_strehl: propext, Classical.choice, Quot.sound
PySLM2.Sim.C134_attained: propext, Classical.choice, Quot.sound
PySLM2.LCOS.C135_speckle: propext, Classical.choice, Quot.sound
PySLM2.DMD.C136_round_trip: propext, Classical.choice, Quot.sound
PySLM2.DMD.C136_perfect: propext, Classical.choice, Quot.sound
PySLM2.Sim.C137_field: propext, Classical.choice, Quot.sound
PySLM2.Sim.C137_power: propext, Classical.choice, Quot.sound
PySLM2.Sim.C137_double: propext, Classical.choice, Quot.sound
PySLM2.Sim.C137_padding: propext, Classical.choice, Quot.sound
PySLM2.Sim.C137_grid: propext, Classical.choice, Quot.sound
PySLM2.Sim.C137_block: propext, Classical.choice, Quot.sound
PySLM2.DMD.C138_binary: propext, Classical.choice, Quot.sound
PySLM2.DMD.C138_window: propext, Classical.choice, Quot.sound
PySLM2.DMD.C138_orders: propext, Classical.choice, Quot.sound
PySLM2.DMD.C138_calculate: propext, Classical.choice, Quot.sound
PySLM2.DMD.C139_partial: propext, Classical.choice, Quot.sound
PySLM2.DMD.C139_refuted: propext, Classical.choice, Quot.sound
PySLM2.DMD.C140_partial: propext, Classical.choice, Quot.sound
PySLM2.DMD.C140_refuted: propext, Classical.choice, Quot.sound
PySLM2.Sim.C141_aberration: propext, Classical.choice, Quot.sound
PySLM2.Sim.C141_tilt: propext, Classical.choice, Quot.sound
PySLM2.Sim.C142_never: propext, Classical.choice, Quot.sound
PySLM2.Sim.C142_grids: propext, Classical.choice, Quot.sound
PySLM2.Sim.C142_empty: propext, Classical.choice, Quot.sound
PySLM2.Precision.C143_partial: propext, Classical.choice, Quot.sound
PySLM2.Precision.C143_exact: propext, Classical.choice, Quot.sound
PySLM2.Precision.C143_stable: propext, Quot.sound
PySLM2.Precision.C143_refuted: propext
PySLM2.DMD.C144_range: propext, Classical.choice, Quot.sound
PySLM2.DMD.C144_simple: propext, Classical.choice, Quot.sound
PySLM2.DMD.C144_random: propext, Classical.choice, Quot.sound
PySLM2.DMD.C144_float32: propext, Classical.choice, Quot.sound
PySLM2.DMD.C144_eta: propext, Classical.choice, Quot.sound
PySLM2.DMD.C144_fft: propext, Classical.choice, Quot.sound
PySLM2.DMD.C144_dark: propext, Classical.choice, Quot.sound
PySLM2.DMD.C144_dim: propext, Classical.choice, Quot.sound
PySLM2.Ranks.C145_broadcast: propext, Classical.choice, Quot.sound
PySLM2.Ranks.C145_replace: propext, Classical.choice, Quot.sound
PySLM2.Ranks.C145_keep: propext, Quot.sound
PySLM2.Ranks.C145_patch: propext, Classical.choice, Quot.sound
PySLM2.Ranks.C145_history: propext, Classical.choice, Quot.sound
PySLM2.Ranks.C145_stack: propext, Classical.choice, Quot.sound
PySLM2.Ranks.C145_hologram: propext, Classical.choice, Quot.sound
PySLM2.Ranks.C145_propagate: propext, Classical.choice, Quot.sound
PySLM2.Ranks.C145_agree_grating: propext, Classical.choice, Quot.sound
PySLM2.Ranks.C145_agree: propext, Classical.choice, Quot.sound
PySLM2.Ranks.C145_agree_hologram: propext, Classical.choice, Quot.sound
PySLM2.Ranks.C145_agree_propagate: propext, Classical.choice, Quot.sound
PySLM2.Threads.C146_schedules: propext, Quot.sound
PySLM2.Threads.C146_independent: propext, Quot.sound
PySLM2.Threads.C146_sequential: propext, Quot.sound
PySLM2.Threads.C146_progress: propext, Quot.sound
PySLM2.Threads.C146_bounded: propext, Quot.sound
PySLM2.Threads.C147_partial: propext, Quot.sound
PySLM2.Threads.C147_refuted: propext
PySLM2.Threads.C147_torn: propext, Classical.choice, Quot.sound
PySLM2.LCOS.C148_empty: propext, Classical.choice, Quot.sound
PySLM2.LCOS.C148_random: propext, Classical.choice, Quot.sound
PySLM2.LCOS.C148_one: propext, Classical.choice, Quot.sound
PySLM2.Benchmarks.C149_gs_partial: propext, Classical.choice, Quot.sound
PySLM2.Benchmarks.C149_dmd_partial: propext, Classical.choice, Quot.sound
PySLM2.Benchmarks.C149_mraf_cpu: propext, Classical.choice, Quot.sound
PySLM2.Benchmarks.C149_mraf_gpu: propext, Classical.choice, Quot.sound
PySLM2.Benchmarks.C149_refuted: propext, Classical.choice, Quot.sound
PySLM2.LCOS.C150_unreachable: propext, Classical.choice, Quot.sound
PySLM2.LCOS.C151_gs: propext, Classical.choice, Quot.sound
PySLM2.LCOS.C151_exact: propext, Classical.choice, Quot.sound
PySLM2.LCOS.C152_mraf: propext, Classical.choice, Quot.sound
PySLM2.LCOS.C152_exact: propext, Classical.choice, Quot.sound
PySLM2.Sim.C153_partial: propext, Classical.choice, Quot.sound
PySLM2.Sim.C153_clear: propext, Classical.choice, Quot.sound
PySLM2.Sim.C153_repair: propext, Classical.choice, Quot.sound
PySLM2.Sim.C153_device: propext, Classical.choice, Quot.sound
PySLM2.Sim.C153_refuted: propext, Classical.choice, Quot.sound
PySLM2.Profile.C154_laguerre: propext, Classical.choice, Quot.sound
PySLM2.Profile.C154_hermite: propext, Classical.choice, Quot.sound
PySLM2.Lifetime.C155_lifetime: propext, Classical.choice, Quot.sound
PySLM2.Lifetime.C156_partial: propext, Classical.choice, Quot.sound
PySLM2.Lifetime.C156_refuted: propext, Classical.choice, Quot.sound
PySLM2.Profile.C157_hermite: propext, Classical.choice, Quot.sound
PySLM2.Profile.C157_gaussian: propext, Classical.choice, Quot.sound
PySLM2.Profile.C158_superGaussian: propext, Classical.choice, Quot.sound
PySLM2.Profile.C158_rectangle: propext, Classical.choice, Quot.sound
PySLM2.Profile.C158_circle: propext, Classical.choice, Quot.sound
PySLM2.Profile.C159_laguerre: propext, Classical.choice, Quot.sound
PySLM2.Profile.C160_zernike: propext, Classical.choice, Quot.sound
PySLM2.Controller.C161_load: propext, Classical.choice, Quot.sound
PySLM2.Controller.C161_failed_load: propext, Classical.choice, Quot.sound
PySLM2.Controller.C161_restart: propext
PySLM2.Controller.C161_needs_initialize: propext, Quot.sound
PySLM2.Controller.C162_single: propext, Quot.sound
PySLM2.Controller.C162_multiple: propext, Quot.sound
PySLM2.Controller.C162_failed_load: propext, Quot.sound
PySLM2.Profile.C163_partial: propext, Classical.choice, Quot.sound
PySLM2.Profile.C163_readonly: propext, Classical.choice, Quot.sound
PySLM2.Profile.C163_laguerre: propext, Classical.choice, Quot.sound
PySLM2.Profile.C163_refuted_laguerre: propext, Classical.choice, Quot.sound
PySLM2.Profile.C163_refuted_zernike: propext, Classical.choice, Quot.sound
PySLM2.Traced.C164_fresh: propext, Classical.choice, Quot.sound
PySLM2.Traced.C164_same: propext, Classical.choice, Quot.sound
PySLM2.Traced.C164_pure: propext, Classical.choice, Quot.sound
PySLM2.Traced.C164_once: propext, Classical.choice, Quot.sound
PySLM2.SharedDmd.C165_threads_partial: propext, Classical.choice, Quot.sound
PySLM2.SharedDmd.C165_whole: propext, Classical.choice, Quot.sound
PySLM2.SharedDmd.C165_mirrors: propext, Classical.choice, Quot.sound
PySLM2.SharedDmd.C165_ends: propext, Classical.choice, Quot.sound
PySLM2.SharedDmd.C165_refuted: propext, Classical.choice, Quot.sound
PySLM2.SharedSim.C166_fields_partial: propext, Classical.choice, Quot.sound
PySLM2.SharedSim.C166_one_user: propext, Classical.choice, Quot.sound
PySLM2.SharedSim.C166_refuted: propext, Classical.choice, Quot.sound
PySLM2.SharedRead.C167_pack_partial: propext, Classical.choice, Quot.sound
PySLM2.SharedRead.C167_mirrors: propext, Classical.choice, Quot.sound
PySLM2.SharedRead.C167_patches: propext, Classical.choice, Quot.sound
PySLM2.SharedRead.C167_ends: propext, Classical.choice, Quot.sound
PySLM2.SharedRead.C167_refuted: propext, Classical.choice, Quot.sound
PySLM2.DMD.C168_exact: propext, Classical.choice, Quot.sound
PySLM2.DMD.C168_patch: propext, Classical.choice, Quot.sound
PySLM2.DMD.C168_edge: propext, Classical.choice, Quot.sound
PySLM2.Profile.C169_others: propext, Classical.choice, Quot.sound
PySLM2.Profile.C169_once_partial: propext, Classical.choice, Quot.sound
PySLM2.Profile.C169_one_setter_partial: propext, Classical.choice, Quot.sound
PySLM2.Profile.C169_refuted: propext, Classical.choice, Quot.sound
PySLM2.Profile.C169_difference_refuted: propext, Classical.choice, Quot.sound
PySLM2.Sim.C170_spot: propext, Classical.choice, Quot.sound
PySLM2.Sim.C170_power: propext, Classical.choice, Quot.sound
PySLM2.Sim.C170_tail: propext, Classical.choice, Quot.sound
PySLM2.Sim.C171_input_power: propext, Classical.choice, Quot.sound
PySLM2.Sim.C171_scaling: propext, Classical.choice, Quot.sound
PySLM2.Sim.C171_padded_grid: propext, Classical.choice, Quot.sound
PySLM2.Sim.C171_pixel_area: propext, Classical.choice, Quot.sound
PySLM2.Sim.C171_energy: propext, Classical.choice, Quot.sound
PySLM2.DMD.C171_pack: propext, Classical.choice, Quot.sound
PySLM2.Profile.C171_zernike: propext, Classical.choice, Quot.sound
PySLM2.Profile.C172_zero: propext, Classical.choice, Quot.sound
PySLM2.Profile.C172_near: propext, Classical.choice, Quot.sound
PySLM2.Profile.C172_finite: propext, Classical.choice, Quot.sound
PySLM2.DMD.C172_dark: propext, Classical.choice, Quot.sound
PySLM2.DMD.C172_refuted: propext, Classical.choice, Quot.sound
PySLM2.DMD.C172_partial: propext, Classical.choice, Quot.sound
PySLM2.Profile.C173_nan: propext, Classical.choice, Quot.sound
PySLM2.Profile.C173_refuted: propext, Classical.choice, Quot.sound
PySLM2.Profile.C173_partial: propext, Classical.choice, Quot.sound
PySLM2.DMD.C174_target: propext, Classical.choice, Quot.sound
PySLM2.DMD.C174_pixel: propext, Classical.choice, Quot.sound
PySLM2.DMD.C174_eta: propext, Classical.choice, Quot.sound
PySLM2.DMD.C174_masked: propext, Classical.choice, Quot.sound
PySLM2.DMD.C174_agree: propext, Classical.choice, Quot.sound
PySLM2.LCOS.C175_gs: propext, Classical.choice, Quot.sound
PySLM2.LCOS.C175_mraf: propext, Classical.choice, Quot.sound
PySLM2.Analysis.C176_square_partial: propext, Classical.choice, Quot.sound
PySLM2.Analysis.C176_exact: propext, Classical.choice, Quot.sound
PySLM2.Analysis.C176_defocus: propext, Classical.choice, Quot.sound
PySLM2.Analysis.C176_limit_partial: propext, Classical.choice, Quot.sound
PySLM2.Analysis.C176_refuted: propext, Classical.choice, Quot.sound
PySLM2.Analysis.C177_repeat: propext, Classical.choice, Quot.sound
PySLM2.Analysis.C177_rate: propext, Classical.choice, Quot.sound
PySLM2.Analysis.C177_defined: propext, Classical.choice, Quot.sound
PySLM2.Analysis.C178_coefficients: propext, Classical.choice, Quot.sound
PySLM2.Analysis.C178_residual: propext, Classical.choice, Quot.sound
PySLM2.Analysis.C178_complete: propext, Classical.choice, Quot.sound
PySLM2.Analysis.C178_best: propext, Classical.choice, Quot.sound
PySLM2.SimRead.C179_whole_partial: propext, Classical.choice, Quot.sound
PySLM2.SimRead.C179_mirrors: propext, Classical.choice, Quot.sound
PySLM2.SimRead.C179_patches: propext, Classical.choice, Quot.sound
PySLM2.SimRead.C179_ends: propext, Classical.choice, Quot.sound
PySLM2.SimRead.C179_refuted: propext, Classical.choice, Quot.sound
PySLM2.Analysis.C180_aperture: propext, Classical.choice, Quot.sound
PySLM2.Analysis.C180_clear: propext, Classical.choice, Quot.sound
PySLM2.Analysis.C180_remove: propext, Classical.choice, Quot.sound
PySLM2.Analysis.C180_outside: propext, Classical.choice, Quot.sound
PySLM2.Analysis.C180_coefficients: propext, Classical.choice, Quot.sound
PySLM2.Analysis.C180_reconstruct: propext, Classical.choice, Quot.sound
PySLM2.DMD.C181_exact: propext, Classical.choice, Quot.sound
PySLM2.DMD.C181_error: propext, Classical.choice, Quot.sound
PySLM2.DMD.C181_dark: propext, Classical.choice, Quot.sound
PySLM2.DMD.C181_mirrors: propext, Classical.choice, Quot.sound
PySLM2.DMD.C181_pattern: propext, Classical.choice, Quot.sound
PySLM2.DMD.C181_start: propext, Classical.choice, Quot.sound
PySLM2.DMD.C181_binary: propext, Classical.choice, Quot.sound
PySLM2.DMD.C182_set: propext, Classical.choice, Quot.sound
PySLM2.DMD.C182_calculate: propext, Classical.choice, Quot.sound
PySLM2.DMD.C182_finite: propext, Classical.choice, Quot.sound
PySLM2.DMD.C182_silent: propext, Classical.choice, Quot.sound
PySLM2.DMD.C182_agree: propext, Classical.choice, Quot.sound
PySLM2.DMD.C182_agree_set: propext, Classical.choice, Quot.sound
PySLM2.Sim.C183_history: propext, Classical.choice, Quot.sound
PySLM2.Sim.C183_largest: propext, Classical.choice, Quot.sound
PySLM2.Sim.C183_nothing_blocked: propext, Classical.choice, Quot.sound
PySLM2.SharedLcos.C184_linearizable: propext, Classical.choice, Quot.sound
PySLM2.SharedLcos.C184_ended: propext, Classical.choice, Quot.sound
PySLM2.SharedLcos.C184_whole: propext, Classical.choice, Quot.sound
PySLM2.SharedLcos.C184_ends: propext, Classical.choice, Quot.sound
PySLM2.SharedLcos.C184_lost_update: propext, Classical.choice, Quot.sound
PySLM2.Controller.SharedLux.C185_in_order_partial: propext, Classical.choice, Quot.sound
PySLM2.Controller.SharedLux.C185_frozen: propext, Classical.choice, Quot.sound
PySLM2.Controller.SharedLux.C185_refuted: propext, Classical.choice, Quot.sound
PySLM2.Controller.SharedLux.C185_trigger_lost: propext, Classical.choice, Quot.sound
PySLM2.DMD.C186_exact: propext, Classical.choice, Quot.sound
PySLM2.DMD.C186_start: propext, Classical.choice, Quot.sound
PySLM2.DMD.C186_error: propext, Classical.choice, Quot.sound
PySLM2.DMD.C186_pattern: propext, Classical.choice, Quot.sound
PySLM2.Controller.SharedAlp.C187_exclusive_partial: propext, Classical.choice, Quot.sound
PySLM2.Controller.SharedAlp.C187_finished: propext, Classical.choice, Quot.sound
PySLM2.Controller.SharedAlp.C187_singles: propext, Classical.choice, Quot.sound
PySLM2.Controller.SharedAlp.C187_refuted: propext, Classical.choice, Quot.sound
PySLM2.Controller.SharedAlp.C187_blank: propext, Classical.choice, Quot.sound
PySLM2.DMD.C188_refuted: propext, Classical.choice, Quot.sound
PySLM2.DMD.C188_hologram: propext, Classical.choice, Quot.sound
PySLM2.DMD.C188_partial: propext, Classical.choice, Quot.sound
PySLM2.Controller.OpenAlp.C189_guard: propext, Quot.sound
PySLM2.Controller.OpenAlp.C189_open: propext, Quot.sound
PySLM2.Controller.OpenAlp.C189_inverted: propext, Quot.sound
PySLM2.Controller.OpenAlp.C189_close_partial: propext, Quot.sound
PySLM2.Controller.OpenAlp.C189_close_refuted: propext, Classical.choice, Quot.sound
PySLM2.Controller.OpenAlp.C189_use_refuted: propext, Classical.choice, Quot.sound
PySLM2.Controller.OpenLux.C190_guard: propext, Quot.sound
PySLM2.Controller.OpenLux.C190_open: propext, Quot.sound
PySLM2.Controller.OpenLux.C190_dark: propext, Quot.sound
PySLM2.Controller.OpenLux.C190_programmed: propext, Quot.sound
PySLM2.Controller.OpenLux.C190_refuted: propext, Classical.choice, Quot.sound
PySLM2.Profile.C191_finite: propext, Classical.choice, Quot.sound
PySLM2.Profile.C191_zero: propext, Classical.choice, Quot.sound
PySLM2.Profile.C191_bright: propext, Classical.choice, Quot.sound
PySLM2.DMD.C191_target: propext, Classical.choice, Quot.sound
PySLM2.DMD.C191_hologram: propext, Classical.choice, Quot.sound
PySLM2.Profile.C192_refuted: propext, Classical.choice, Quot.sound
PySLM2.Profile.C192_partial: propext, Classical.choice, Quot.sound
PySLM2.DMD.C192_target: propext, Classical.choice, Quot.sound
PySLM2.DMD.C192_hologram: propext, Classical.choice, Quot.sound
