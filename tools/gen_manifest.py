#!/usr/bin/env python3
"""Write MANIFEST.json from the table below (property -> status, theorems, note)."""
import json

C = []

def c(prop, status, theorems, note=""):
    C.append({"property": prop, "status": status, "theorems": theorems, "note": note})

B = "PySLM2.Backend."
c("C01", "proved", [B + "C01_observations", B + "C01_frozen", B + "C01_reads_agree", B + "C01_rejected_changes_nothing"])
c("C02", "proved", [B + "C02_consistent_triple"])
c("C03", "proved", [B + "C03_fft_selector", B + "C03_in_force", B + "C03_fft_irrelevant_for_precision"])

P = "PySLM2."
c("C04", "proved", [P + "C04_index_roundtrip", P + "C04_coord_roundtrip"])
c("C05", "proved", [P + "C05_fourier_grid"])
c("C06", "proved", [P + "C06_image_grid", P + "C06_image_padded_grid"])
c("C07", "proved", [P + "C07_padding_extends"])
c("C08", "proved", [P + "C08_padding_refines", P + "C08_matching_pixel"])
c("C09", "proved", [P + "C09_pixel_areas"])

S = "PySLM2.Sim."
c("C10", "proved", [S + "C10_fraunhofer", S + "C10_intensity", S + "C10_slm_planes"])
c("C11", "proved", [S + "C11_padding_invariance"])
c("C12", "proved", [S + "C12_energy"])
c("C13", "proved", [S + "C13_padding_power"])
c("C14", "proved", [S + "C14_passive"])
c("C15", "proved", [S + "C15_lossless", S + "C15_two_pi"])
c("C16", "proved", [S + "C16_superposition"])
c("C17", "proved", [S + "C17_blocks_disc", S + "C17_default_radius", S + "C17_idempotent", S + "C17_power", S + "C17_reachable"])
c("C18", "proved", [S + "C18_first_order_spared"])
c("C19", "proved", [S + "C19_lifecycle", S + "C19_history_forgotten", S + "C19_state_change", S + "C19_clear"])
c("C20", "partial", [S + "C20_partial", S + "C20_refuted"],
  "False of the code as stated: a propagation that fails in the multiplication has already replaced the input field (C20_refuted). Proved: output and image plane results and powers survive every failure; everything survives a failed conversion.")
c("C21", "proved", [S + "C21_slm", S + "C21_dmd"])

D = "PySLM2.DMD."
NOTE39 = "False of the code as stated: on a boolean state the grey values are cast to True (C39_refuted). Proved for DMDs already holding a grey-scale state."
NOTE27 = "False of the code as stated: for a target that is zero everywhere the exception is raised after dmd_state has been replaced by all mirrors off (C27_refuted). Proved: an exception is always raised."
NOTE28 = "False of the code as stated: calculate_dmd_state returns normally with all mirrors off (C28_refuted). Proved: the returned eta is 0 exactly in this case."
c("C22", "proved", [D + "C22_ideal_range", D + "C22_unit_range"])
c("C29", "proved", [D + "C29_simple_threshold", D + "C29_consequences"])
c("C30", "proved", [D + "C30_random", D + "C30_probability"])
c("C31", "proved", [D + "C31_monotone"])
c("C32", "proved", [D + "C32_phase_difference"])
c("C33", "proved", [D + "C33_periodic"])

c("C23", "proved", [D + "C23_interp", D + "C23_orders", D + "C23_first_order"])
c("C24", "proved", [D + "C24_negative_order", D + "C24_theta_plus_pi"])
c("C25", "proved", [D + "C25_normalised", D + "C25_spectrum_ne_zero"])
c("C26", "proved", [D + "C26_scaling"])
c("C27", "partial", [D + "C27_partial", D + "C27_refuted", D + "C27_refuted_methods"], NOTE27)
c("C28", "partial", [D + "C28_partial", D + "C28_refuted"], NOTE28)
c("C34", "proved", [D + "C34_ifta", D + "C34_calculate"])
c("C35", "proved", [D + "C35_degenerate", D + "C35_simple"])
c("C36", "proved", [D + "C36_binarize", D + "C36_schedule"])

c("C37", "proved", [D + "C37_shape", D + "C37_dtype"])
c("C38", "proved", [D + "C38_patch", D + "C38_mixed", D + "C38_commute", D + "C38_disjoint"])
c("C39", "partial", [D + "C39_partial", D + "C39_refuted"], NOTE39)
c("C40", "proved", [D + "C40_failed_updates", D + "C40_unknown_method", D + "C40_missing_window"],
  "One documented exception, stated in C40_failed_updates: the ZeroDivisionError of calculate_dmd_state for an all-zero target (C27).")
c("C41", "proved", [D + "C41_pack", D + "C41_injective"])
c("C42", "proved", [D + "C42_type_error"])
c("C43", "proved", [D + "C43_call", D + "C43_history", D + "C43_refines", D + "C43_patches_shared"])

L = "PySLM2.LCOS."
c("C44", "proved", [L + "C44_monotone"])
c("C45", "partial", [L + "C45_partial", L + "C45_refuted"],
  "False of the code as stated: for every unit-amplitude input with non-uniform phase one iteration can destroy a perfect hologram (C45_refuted). Proved for inputs of uniform phase.")
c("C46", "partial", [L + "C46_partial", L + "C46_refuted"],
  "False of the code as stated: the simulation applies exp(-1j*phase), the algorithms exp(+1j*phase), so the simulated image is point-reflected (C46_refuted). Proved: the simulated modulus is the prediction for the conjugate input at the opposite pixel.")
c("C47", "proved", [L + "C47_phase_range", L + "C47_initial"])
c("C48", "proved", [L + "C48_full_window"])
c("C49", "proved", [L + "C49_region_weighting"])
c("C50", "proved", [L + "C50_unknown_method", L + "C50_missing_window", L + "C50_failed"])

F = "PySLM2.Profile."
c("C51", "proved", [F + "C51_expressions", F + "C51_supported", F + "C51_unsupported"])
c("C52", "proved", [F + "C52_dtype", F + "C52_natural", F + "C52_real", F + "C52_complex"])
c("C53", "proved", [F + "C53_formulas", F + "C53_compose", F + "C53_undo", F + "C53_distribute"])
c("C54", "proved", [F + "C54_phase_factor", F + "C54_homomorphism"])
c("C55", "proved", [F + "C55_live", F + "C55_local", F + "C55_get", F + "C55_samples"])

c("C56", "proved", [F + "C56_formula", F + "C56_current", F + "C56_parity"])
c("C57", "proved", [F + "C57_fundamental", F + "C57_super"])
c("C58", "proved", [F + "C58_symmetry", F + "C58_rotation"])
c("C59", "proved", [F + "C59_first_order"])
c("C60", "proved", [F + "C60_formula", F + "C60_edge", F + "C60_support"])
c("C61", "proved", [F + "C61_orthonormal"])
c("C62", "partial", [F + "C62_partial", F + "C62_refuted"],
  "False of the code as stated: only m > n is checked, so pairs with m < -n are accepted (C62_refuted). Proved: the exact set of rejected pairs, and that an accepted invalid pair gives the zero profile.")
c("C63", "proved", [F + "C63_rectangle", F + "C63_disc", F + "C63_algebra", F + "C63_shift"])

c("C64", "partial", ["PySLM2.C64_profile_partial", "PySLM2.C64_array_partial", "PySLM2.C64_refuted"],
  "False of the code as stated: constants (numbers, ConstantProfile and anything built from them only) give rank-0 tensors, arrays keep their own shape unchecked, and a python complex asked as real raises TypeError (C64_refuted, C64_array_partial). Proved: sampling at the right coordinates in the right dtype for everything else.")
K = "PySLM2.Cache."
c("C65", "proved", [K + "C65_transparent", K + "C65_bounded"])
A = "PySLM2.Analysis."
c("C66", "proved", [A + "C66_bijection", A + "C66_accepted"])
c("C67", "proved", [A + "C67_double_precision"])
c("C68", "proved", [A + "C68_mean_zero", A + "C68_constant"])
c("C69", "proved", [A + "C69_linear", A + "C69_local", A + "C69_outside"])
c("C70", "partial", [A + "C70_partial", A + "C70_square_partial", A + "C70_limit", A + "C70_refuted"],
  "False of the code as stated: the sampled tilt modes are not normalised on the pixel grid, so a residual tilt is left (C70_refuted; on a 1x2 array it grows). Proved: the exact residual, strict decrease on square arrays, and that it vanishes in the limit of large apertures.")
c("C71", "proved", [A + "C71_structure", A + "C71_prefix", A + "C71_extrapolate", A + "C71_linear"])
c("C72", "partial", [A + "C72_partial", A + "C72_limit", A + "C72_refuted"],
  "False of the code as stated: on a 3x3 array a pure tilt of coefficient 1 is decomposed into 32/27 (C72_refuted). Proved: the exact relation through the Gram matrix of the sampled modes, and convergence to the original coefficients for large apertures.")

T = "PySLM2.Controller."
c("C73", "proved", [T + "C73_alp", T + "C73_luxbeam"])
c("C74", "partial", [T + "C74_partial", T + "C74_refuted"],
  "False of the code: close() does not reset the initialized flag, so loads after close() go through to the released device (C74_refuted). Proved: close() stops the projection and releases the device.")
c("C75", "partial", [T + "C75_partial", T + "C75_refuted"],
  "False of the code after load_multiple: it sets slave mode and nothing resets it (C75_refuted). Proved for histories without load_multiple since the last completed initialize().")
c("C76", "proved", [T + "C76_single", T + "C76_multiple"])
c("C77", "partial", [T + "C77_partial", T + "C77_refuted", T + "C77_exact"],
  "False of the code: n+1 loads and a close() leave n sequences allocated (C77_refuted). Proved when there is at most one load since the last initialize(); C77_exact gives the number left in every history.")
c("C78", "proved", [T + "C78_cyclic", T + "C78_no_leftover"])

c("C79", "partial", [T + "C79_partial", T + "C79_refuted"],
  "False of the code: a re-initialization that raises between its two vendor calls leaves inversion off and the controller still initialized, so the next load is shown un-inverted (C79_refuted). Proved when the last initialize() returned.")
c("C80", "proved", [T + "C80_failed_load"])
c("C81", "proved", [T + "C81_in_order"])
c("C82", "proved", [T + "C82_failed_load"])
c("C83", "partial", [T + "C83_partial", T + "C83_refuted"],
  "False of the code: if lowering the sync line fails, the next fire_software_trigger() returns but produces no edge (C83_refuted). Proved when no earlier software trigger raised.")

c("C84", "proved", [S + "C84_tilt"])
c("C85", "proved", [S + "C85_real_field", S + "C85_half_turn"])
c("C86", "proved", [S + "C86_overlap"])

c("C87", "proved", [D + "C87_ifta"])
c("C88", "proved", [L + "C88_gs", L + "C88_mraf"])
c("C89", "proved", [L + "C89_fixed_point"])
c("C90", "proved", [D + "C90_ideal", D + "C90_random", D + "C90_simple"])
c("C91", "proved", [F + "C91_hermite"])
c("C92", "proved", [F + "C92_laguerre"])
c("C93", "proved", [S + "C93_continuum"])
c("C94", "proved", [S + "C94_gaussian_spot"])
c("C95", "proved", [S + "C95_gaussian_power"])
c("C96", "proved", [P + "C96_geometry", P + "C96_field", P + "C96_rows"])
c("C97", "proved", [D + "C97_random_image"])
c("C98", "proved", [D + "C98_brightest"])
c("C99", "proved", [D + "C99_random_orders", D + "C99_order_amplitudes"])
c("C100", "proved", [F + "C100_formula", F + "C100_top_hat", F + "C100_power"])
c("C101", "proved", [D + "C101_patches"])
c("C102", "proved", [P + "SLM.C102_accuracy", P + "SLM.C102_order", P + "SLM.C102_round_trip"])
c("C103", "proved", [P + "C103_simple", P + "C103_float32"])
c("C104", "proved", [P + "C104_random"])
c("C105", "proved", [D + "C105_last_writer", D + "C105_overwrite"])
c("C106", "proved", [L + "C106_converges", L + "C106_settles"])
c("C107", "proved", [D + "C107_sharp", D + "C107_limit", D + "C107_flat"])
c("C108", "proved", [D + "C108_grating", D + "C108_state", D + "C108_plain", D + "C108_methods", D + "C108_hologram"])
c("C109", "proved", [S + "C109_mirror", S + "C109_dark"])
c("C110", "proved", [P + "C110_dmd", P + "C110_others"])
c("C111", "proved", [P + "C111_dmd", P + "C111_lcos", P + "C111_simulation", P + "C111_block"])
c("C112", "proved", [S + "C112_hermite_spot"])
c("C113", "proved", [F + "C113_formula", F + "C113_rodrigues"])
c("C114", "proved", [S + "C114_laguerre_spot"])
c("C115", "proved", [L + "C115_gs", L + "C115_mraf"])
c("C116", "proved", [L + "C116_moved"])
c("C117", "proved", [S + "C117_rectangle", S + "C117_dark_lines", S + "C117_single_pixel"])
c("C118", "proved", [T + "C118_alp_single", T + "C118_alp_multiple", T + "C118_alp_refused", T + "C118_lux", T + "C118_number_image"], "what the font paints is a parameter")
c("C119", "proved", [D + "C119_same_eta", D + "C119_correction", D + "C119_random", D + "C119_strehl"])
c("C120", "proved", [D + "C120_dark", D + "C120_ideal", D + "C120_random", D + "C120_gain"], "The docstring of calculate_dmd_state says that the window is applied to input_profile; the code multiplies the transform of the target by it, and that is what is modelled.")
c("C121", "proved", [D + "C121_efficiency", D + "C121_first_order"])
c("C122", "proved", [D + "C122_exposure"])
c("C123", "proved", [D + "C123_random", D + "C123_ideal", D + "C123_donut", D + "C123_spots"])
c("C124", "partial", [L + "C124_partial", L + "C124_refuted"], "Proved for targets of one sign. False for targets of both signs: the loop multiplies the signed target by the phase of the image, so negative pixels flip the phase in every iteration; for every device with more than 4 pixels there are a target and a draw for which the error is 0 after every even number of iterations and 4/(Nx Ny) after every odd number (C124_refuted).")
c("C125", "proved", [L + "C125_lcos", L + "C125_hermite", D + "C125_aberration"])
c("C126", "proved", [D + "C126_concentration"])
c("C127", "proved", [L + "C127_monotone", L + "C127_fixed"])
c("C128", "partial", [L + "C128_partial", L + "C128_refuted"], "Proved for mixing factor 1/2. False for every other mixing factor between 0 and 1 (the default is 0.4), because the iteration works towards m/(1-m) times the target (C127): on every device with an even number of columns there are a target, a window and a draw for which the image in the window is perfect before the first iteration and imperfect after it (C128_refuted).")
c("C129", "proved", [S + "C129_difference", D + "C129_mirrors", L + "C129_phases"])
c("C130", "proved", [T + "C130_luxbeam", T + "C130_luxbeam_runs", T + "C130_master"])
c("C131", "proved", [F + "C131_zernike_rotate", F + "C131_zernike_mirror", F + "C131_hermite", F + "C131_laguerre", F + "C131_round"])
c("C132", "proved", [S + "C132_overlap", S + "C132_power", S + "C132_hermite_power", S + "C132_laguerre_power"])
c("C133", "proved", [F + "C133_bound", F + "C133_attained"])
c("C134", "proved", [S + "C134_limit", S + "C134_strehl", S + "C134_attained"])
c("C135", "proved", [L + "C135_speckle"])
c("C136", "proved", [D + "C136_round_trip", D + "C136_perfect"])
c("C137", "proved", [S + "C137_field", S + "C137_power", S + "C137_double", S + "C137_padding", S + "C137_grid", S + "C137_block"], "Rounding is modelled as any function with relative error at most u: overflow and underflow are left out, and the accuracy tau of the library FFT is a hypothesis.")
c("C138", "proved", [D + "C138_binary", D + "C138_window", D + "C138_orders", D + "C138_calculate"])
c("C139", "partial", [D + "C139_partial", D + "C139_refuted"], "Proved without iterations and for signal windows that are 1 everywhere or 0 everywhere. False in general: with two mirrors, uniform illumination and one iteration, a mirror that is on for s = 1.1 is off for s = 20 (C139_refuted).")
c("C140", "partial", [D + "C140_partial", D + "C140_refuted"], "Proved without iterations, for signal windows that are 1 everywhere or 0 everywhere, and for ideal gratings that are 0 or 1 where there is light. False in general: four mirrors, uniform illumination, a window of one pixel and two iterations (C140_refuted).")
c("C141", "proved", [S + "C141_aberration", S + "C141_tilt"])
c("C142", "proved", [S + "C142_never", S + "C142_grids", S + "C142_empty"])
c("C143", "partial", [P + "Precision.C143_partial", P + "Precision.C143_exact", P + "Precision.C143_stable", P + "Precision.C143_refuted"], "False for other spellings of the precision: the setter accepts \"float64\" or np.float32 because they compare equal, but _make_attribute_func (profile.py:24-26) tests identity and then does not cast, so an operator with a real and a complex operand fails when called. Proved: the property for tf.float32 and tf.float64, and for every spelling exactly which profiles can be called.")
c("C144", "proved", [D + "C144_range", D + "C144_simple", D + "C144_random", D + "C144_float32", D + "C144_eta", D + "C144_fft", D + "C144_dark", D + "C144_dim"])
c("C145", "proved", [P + "Ranks.C145_broadcast", P + "Ranks.C145_replace", P + "Ranks.C145_keep", P + "Ranks.C145_patch", P + "Ranks.C145_history", P + "Ranks.C145_stack", P + "Ranks.C145_hologram", P + "Ranks.C145_propagate", P + "Ranks.C145_agree_grating", P + "Ranks.C145_agree", P + "Ranks.C145_agree_hologram", P + "Ranks.C145_agree_propagate"])
c("C146", "proved", [P + "Threads.C146_schedules", P + "Threads.C146_independent", P + "Threads.C146_sequential", P + "Threads.C146_progress", P + "Threads.C146_bounded"])
c("C147", "partial", [P + "Threads.C147_partial", P + "Threads.C147_refuted", P + "Threads.C147_torn"], "False of the code as stated: the setter tests and then writes, so an assignment under way during the first use takes effect after it (C147_refuted), which can even leave a grid of mixed precision in the cache (C147_torn). Proved: later the precision is the one in force or one that a thread was already about to write; assignments that begin later raise.")
c("C148", "proved", [L + "C148_empty", L + "C148_random", L + "C148_one"])
c("C149", "partial", [P + "Benchmarks.C149_gs_partial", P + "Benchmarks.C149_dmd_partial", P + "Benchmarks.C149_mraf_cpu", P + "Benchmarks.C149_mraf_gpu", P + "Benchmarks.C149_refuted"], "False of the code for mraf: slm_mraf_cpu.py calls task('gs', N) (C149_mraf_cpu), and in slm_mraf_gpu.py the signal window is centred at (960 m, 540 m), so that the hologram is the random draw (C149_mraf_gpu); the two differ for some draw and the latter does not depend on the target (C149_refuted). For the other cases both scripts run the same calculation, which succeeds (the _partial theorems).")
c("C150", "proved", [L + "C150_unreachable"])
c("C151", "proved", [L + "C151_gs", L + "C151_exact"])
c("C152", "proved", [L + "C152_mraf", L + "C152_exact"])
c("C153", "partial", [S + "C153_partial", S + "C153_clear", S + "C153_repair", S + "C153_device", S + "C153_refuted"], "Missing: that the three fields always belong to one propagation. This is false of the code, which assigns them one after the other (C153_refuted).")
c("C154", "proved", [F + "C154_laguerre", F + "C154_hermite"])
c("C155", "proved", ["PySLM2.Lifetime.C155_lifetime"])
c("C156", "partial", ["PySLM2.Lifetime.C156_partial", "PySLM2.Lifetime.C156_refuted"], "Missing: that nothing stays in memory. This is false of the code, whose grid caches keep their objects alive (C156_refuted).")
c("C157", "proved", [F + "C157_hermite", F + "C157_gaussian"])
c("C158", "proved", [F + "C158_superGaussian", F + "C158_rectangle", F + "C158_circle"])
c("C159", "proved", [F + "C159_laguerre"])
c("C160", "proved", [F + "C160_zernike"], "Stated off the origin unless the azimuthal frequency is 0: the angle at the origin depends on the signs of zeros.")
c("C161", "proved", [T + "C161_load", T + "C161_failed_load", T + "C161_restart", T + "C161_needs_initialize"], "C161_needs_initialize shows that the condition on the last initialize() cannot be dropped.")
c("C162", "proved", [T + "C162_single", T + "C162_multiple", T + "C162_failed_load"])
c("C163", "partial", [F + "C163_partial", F + "C163_readonly", F + "C163_laguerre", F + "C163_refuted_laguerre", F + "C163_refuted_zernike"],
  "False of LaguerreGaussian, which has no properties: x0, y0, a, w, l, p cannot be read, and assigning them is silently ignored although the attribute reads back as assigned. False of Zernike: n and m call .value() on constants and raise AttributeError, normalize and extrapolate can be assigned without effect. Proved: the property for every other class and argument, exactly which assignments raise, and that a LaguerreGaussian never changes.")
c("C164", "proved", [P + "Traced.C164_fresh", P + "Traced.C164_same", P + "Traced.C164_pure", P + "Traced.C164_once"])
c("C165", "partial", [P + "SharedDmd.C165_threads_partial", P + "SharedDmd.C165_whole", P + "SharedDmd.C165_mirrors", P + "SharedDmd.C165_ends", P + "SharedDmd.C165_refuted"], "False for overlapping patches of different threads (C165_refuted: two patches can be mixed); proved if patches of different threads have no mirror in common, in particular for threads without patches. For overlapping patches C165_mirrors says what each single mirror shows.")
c("C166", "partial", [P + "SharedSim.C166_fields_partial", P + "SharedSim.C166_one_user", P + "SharedSim.C166_refuted"], "False in general (C166_refuted: input of one propagation with the image of the other); proved: each field on its own, and the full property if one thread uses the simulation while the others only update the SLM.")
c("C167", "partial", [P + "SharedRead.C167_pack_partial", P + "SharedRead.C167_mirrors", P + "SharedRead.C167_patches", P + "SharedRead.C167_ends", P + "SharedRead.C167_refuted"], "False if a patch is made meanwhile (C167_refuted: bytes of a state that the device never showed); proved for threads without patches, and bit by bit in general.")
c("C168", "proved", [D + "C168_exact", D + "C168_patch", D + "C168_edge"])
c("C169", "partial", [F + "C169_others", F + "C169_once_partial", F + "C169_one_setter_partial", F + "C169_refuted", F + "C169_difference_refuted"], "false of the code for parameters that one evaluation reads twice: C169_refuted and C169_difference_refuted; proved for parameters that are read once")
c("C170", "proved", [S + "C170_spot", S + "C170_power", S + "C170_tail"])
c("C171", "proved", [S + "C171_input_power", S + "C171_scaling", S + "C171_padded_grid", S + "C171_pixel_area", S + "C171_energy", D + "C171_pack", F + "C171_zernike"])
c("C172", "partial", [F + "C172_zero", F + "C172_near", F + "C172_finite", D + "C172_dark", D + "C172_refuted", D + "C172_partial"], "False of the code when a pixel is 11 waists or more from the centre of the beam (C172_refuted: beams of 0.9 mm or less on a DLP9500 in single precision); proved when all pixels are within sqrt(80) waists.")
c("C173", "partial", [F + "C173_nan", F + "C173_refuted", F + "C173_partial"], "False of the code when |l| is large (C173_refuted: |l| of 33 or more on a DLP9500 in single precision); proved for all l and p when the powers and the radial polynomial stay in the range.")
c("C174", "proved", [D + "C174_target", D + "C174_pixel", D + "C174_eta", D + "C174_masked", D + "C174_agree"])
c("C175", "proved", [L + "C175_gs", L + "C175_mraf"])
c("C176", "partial", [A + "C176_square_partial", A + "C176_exact", A + "C176_defocus", A + "C176_limit_partial", A + "C176_refuted"], "False of the code for elongated arrays, and with remove_defocus also for very small apertures of square arrays (C176_refuted). Proved: square arrays without defocus, all large apertures, and the exact mean square in every case.")
c("C177", "proved", [A + "C177_repeat", A + "C177_rate", A + "C177_defined"])
c("C178", "proved", [A + "C178_coefficients", A + "C178_residual", A + "C178_complete", A + "C178_best"])
c("C179", "partial", [P + "SimRead.C179_whole_partial", P + "SimRead.C179_mirrors", P + "SimRead.C179_patches", P + "SimRead.C179_ends", P + "SimRead.C179_refuted"], "False of the code if a thread makes circular patches (C179_refuted); proved for all other updates, and mirror by mirror with patches.")
c("C180", "proved", [A + "C180_aperture", A + "C180_clear", A + "C180_remove", A + "C180_outside", A + "C180_coefficients", A + "C180_reconstruct"], "At pixels exactly on the edge of the aperture rounding decides whether a mode counts; they are excluded. The reconstruction is compared inside the aperture.")
c("C181", "proved", [D + "C181_exact", D + "C181_error", D + "C181_dark", D + "C181_mirrors", D + "C181_pattern", D + "C181_start", D + "C181_binary"], "Quotients by the input field and the transforms are library functions with a relative error; mirrors near a clipping level are counted in the bound.")
c("C182", "proved", [D + "C182_set", D + "C182_calculate", D + "C182_finite", D + "C182_silent", D + "C182_agree", D + "C182_agree_set"], "Finding: one NaN turns the DMD off without an error, and the efficiency may look normal.")
c("C183", "proved", [S + "C183_history", S + "C183_largest", S + "C183_nothing_blocked"])
c("C184", "proved", ["PySLM2.SharedLcos.C184_linearizable", "PySLM2.SharedLcos.C184_ended", "PySLM2.SharedLcos.C184_whole", "PySLM2.SharedLcos.C184_ends", "PySLM2.SharedLcos.C184_lost_update"], "Arguments are not changed by other threads during a call.")
c("C185", "partial", ["PySLM2.Controller.SharedLux.C185_in_order_partial", "PySLM2.Controller.SharedLux.C185_frozen", "PySLM2.Controller.SharedLux.C185_refuted", "PySLM2.Controller.SharedLux.C185_trigger_lost"], "False of the code for overlapping loads (C185_refuted): the controller takes no lock. Proved for loads that do not overlap with other loads.")
c("C186", "proved", ["PySLM2.DMD.C186_exact", "PySLM2.DMD.C186_start", "PySLM2.DMD.C186_error", "PySLM2.DMD.C186_pattern"])
c("C187", "partial", ["PySLM2.Controller.SharedAlp.C187_exclusive_partial", "PySLM2.Controller.SharedAlp.C187_finished", "PySLM2.Controller.SharedAlp.C187_singles", "PySLM2.Controller.SharedAlp.C187_refuted", "PySLM2.Controller.SharedAlp.C187_blank"], "False of the code for overlapping loads (C187_refuted, C187_blank): the controller takes no lock, and the library has one current sequence for all threads. Proved for loads that do not overlap, and for overlapping ones what is left when all have finished.")
c("C188", "partial", ["PySLM2.DMD.C188_refuted", "PySLM2.DMD.C188_hologram", "PySLM2.DMD.C188_partial"], "False of the code for charges of 33 or more (C188_refuted, C188_hologram for LCOS SLMs): the power overflows at the edge of the image plane, infinity times 0 is NaN, and the Fourier transform spreads it to every mirror. Proved for targets within the range of the format. Infinite entries count as NaN.")
c("C189", "partial", ["PySLM2.Controller.OpenAlp.C189_guard", "PySLM2.Controller.OpenAlp.C189_open", "PySLM2.Controller.OpenAlp.C189_inverted", "PySLM2.Controller.OpenAlp.C189_close_partial", "PySLM2.Controller.OpenAlp.C189_close_refuted", "PySLM2.Controller.OpenAlp.C189_use_refuted"], "False of the code: the controller takes no lock, so a load goes on after another thread has closed the controller (C189_use_refuted), and two threads that close it may both free the last sequence (C189_close_refuted). The guard, the inversion, and closing by one thread are proved.")
c("C190", "partial", ["PySLM2.Controller.OpenLux.C190_guard", "PySLM2.Controller.OpenLux.C190_open", "PySLM2.Controller.OpenLux.C190_dark", "PySLM2.Controller.OpenLux.C190_programmed", "PySLM2.Controller.OpenLux.C190_refuted"], "False of the code for loads that overlap with an initialize() of another thread (C190_refuted): the controller takes no lock, and initialize() sets the number of images to 1. The guard, the program and the display before the first load are proved; C185 is about loads after all initialize() calls are done.")
c("C191", "proved", ["PySLM2.Profile.C191_finite", "PySLM2.Profile.C191_zero", "PySLM2.Profile.C191_bright", "PySLM2.DMD.C191_target", "PySLM2.DMD.C191_hologram"])
c("C192", "partial", ["PySLM2.Profile.C192_refuted", "PySLM2.Profile.C192_partial", "PySLM2.DMD.C192_target", "PySLM2.DMD.C192_hologram"], "False of the code for high orders (C192_refuted, n = 28 in single precision): the polynomial overflows where the exponential underflows. Proved for orders, waists and distances whose intermediate values stay in the range.")

json.dump({"claims": C}, open("/verif/MANIFEST.json", "w"), indent=1)
