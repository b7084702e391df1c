{"id": "C01", "title": "Precision is frozen by its first use", "statement": "In any program that interleaves reads of BACKEND.dtype / dtype_complex / dtype_int with attempts to set BACKEND.dtype, all reads ever made agree on one precision; a set attempted after any read raises AssertionError and changes nothing; a set with a value other than float32/float64 is rejected and changes nothing; before the first read the last accepted set wins.", "quantifier": "every finite history of reads and sets, with every value", "why_tests_cant": "The library caches tensors and variables of the precision it saw; a test fixes one order of calls, the claim is about every interleaving.", "anchors": ["pySLM2/_backend.py:_BackEnd.dtype", "pySLM2/_backend.py:_BackEnd.dtype_complex", "pySLM2/_backend.py:_BackEnd.dtype_int"]}
{"id": "C02", "title": "Real, complex and integer precisions always match", "statement": "Whatever was configured and whenever they are read, BACKEND.dtype, dtype_complex and dtype_int are either (float32, complex64, int32) or (float64, complex128, int64).", "quantifier": "every history of configuration and reads", "why_tests_cant": "Needs all histories, including rejected configuration attempts.", "anchors": ["pySLM2/_backend.py:_BackEnd"]}
{"id": "C03", "title": "The FFT backend selector never changes what is computed or locked", "statement": "Assigning BACKEND.fft_backend is possible at any time, never affects the precision or its lock, and a value equal to FFT_BACKEND_NUMPY selects the numpy transform while every other value selects the tensorflow one. Until the first assignment it is the tensorflow one on a machine with a GPU and the numpy one otherwise.", "quantifier": "every history, every assigned integer", "why_tests_cant": "The selector is a mutable runtime switch; tests run with one value.", "anchors": ["pySLM2/_backend.py:_BackEnd.fft_backend", "pySLM2/_lib.py:_fourier_transform", "pySLM2/_lib.py:_inverse_fourier_transform"]}
{"id": "C04", "title": "Pixel index and SLM coordinate conversions are mutual inverses", "statement": "Converting a (possibly fractional) pixel index to an SLM coordinate and back returns the same index, and converting a coordinate to a pixel index and back returns the same coordinate, for every SLM with non-zero pixel size.", "quantifier": "all device sizes, pixel sizes, real indices and real coordinates", "why_tests_cant": "Infinite domain; tests check none of it.", "anchors": ["pySLM2/slm.py:SLM._convert_pixel_index_to_dmd_coordinate", "pySLM2/slm.py:SLM._convert_slm_coordinate_to_pixel_index"]}
{"id": "C05", "title": "Orientation and spacing of the Fourier plane grid", "statement": "fourier_plane_grid has shape (Ny, Nx); x depends only on the column and grows by pixel_size per column, y depends only on the row and falls by pixel_size per row, and pixel (Ny/2, Nx/2) is the origin when Nx, Ny are even.", "quantifier": "all device sizes and pixel sizes", "why_tests_cant": "Holds per pixel for every device; tests only compare two grids of one device.", "anchors": ["pySLM2/slm.py:SLM._fourier_plane_grid", "pySLM2/slm.py:SLM.fourier_plane_grid"]}
{"id": "C06", "title": "Orientation, spacing and origin of the image plane grid", "statement": "image_plane_grid (and image_plane_padded_grid with the padded sizes) has the grid shape, x depends only on the column and grows by wavelength*focal_length/(Nx*pixel_size) per column, y depends only on the row and falls by wavelength*focal_length/(Ny*pixel_size) per row, with the optical axis at pixel (Ny//2, Nx//2) for both parities of Nx and Ny.", "quantifier": "all sizes (both parities), pixel sizes, wavelengths, focal lengths, paddings", "why_tests_cant": "fftfreq/fftshift parity cases; tests use even sizes only.", "anchors": ["pySLM2/slm.py:SLM._image_plane_grid", "pySLM2/simulation.py:SLMSimulation._image_plane_padded_grid"]}
{"id": "C07", "title": "Padding extends the Fourier plane grid without moving it", "statement": "Cropping padding_y rows and padding_x columns from each side of fourier_plane_padded_grid gives exactly fourier_plane_grid, and the padded grid continues it with the same spacing.", "quantifier": "all device sizes and paddings", "why_tests_cant": "Tests check one device with padding N/2.", "anchors": ["pySLM2/simulation.py:SLMSimulation._fourier_plane_padded_grid", "pySLM2/slm.py:SLM._fourier_plane_grid"]}
{"id": "C08", "title": "Padding refines the image plane grid", "statement": "If the padded size is an integer multiple c of the device size in a direction, the padded image plane coordinates taken every c pixels (starting so that the axis pixels coincide) are exactly the unpadded image plane coordinates.", "quantifier": "all sizes, all integer refinement factors", "why_tests_cant": "Tests check factor 2 on one even device.", "anchors": ["pySLM2/simulation.py:SLMSimulation._image_plane_padded_grid", "pySLM2/slm.py:SLM._image_plane_grid"]}
{"id": "C09", "title": "Reported pixel areas are the areas of a grid cell", "statement": "fourier_plane_pixel_area and image_plane_pixel_area equal the product of the horizontal and vertical spacings of fourier_plane_padded_grid and image_plane_padded_grid, for every device and padding.", "quantifier": "all devices and paddings", "why_tests_cant": "Tests check one device.", "anchors": ["pySLM2/simulation.py:SLMSimulation.fourier_plane_pixel_area", "pySLM2/simulation.py:SLMSimulation.image_plane_pixel_area"]}
{"id": "C10", "title": "propagate_to_image computes Fraunhofer diffraction on the advertised grids", "statement": "After propagate_to_image(input), the image plane field at every pixel equals pixel_size^2/(wavelength*focal_length) times the sum over SLM pixels of input * modulation * exp(2*pi*i*(x*X + y*Y)/(wavelength*focal_length)), with (x,y) taken from image_plane_padded_grid and (X,Y) from fourier_plane_grid, for even device sizes; for odd sizes the same holds for the intensity.", "quantifier": "all devices, states, input fields, paddings, pixels", "why_tests_cant": "Ties the FFT, both fftshifts, the sign of y and the normalisation together for every field; a test compares one Gaussian within 1%.", "anchors": ["pySLM2/simulation.py:SLMSimulation.propagate_to_image", "pySLM2/_lib.py:_inverse_fourier_transform", "pySLM2/slm.py:SLM._image_plane_grid"]}
{"id": "C11", "title": "Padding does not change the simulated field", "statement": "The image plane field of a padded simulation is a finer sampling of one and the same function of the image plane position: any two simulations of the same SLM and input, whatever their paddings, agree wherever their grids share a point.", "quantifier": "all pairs of paddings, devices, inputs, pixels", "why_tests_cant": "Quantifies over pairs of runs.", "anchors": ["pySLM2/simulation.py:SLMSimulation.propagate_to_image"]}
{"id": "C12", "title": "Energy conservation from SLM to image plane", "statement": "get_image_plane_power() equals get_output_power() after every propagate_to_image.", "quantifier": "all devices, states, inputs, paddings", "why_tests_cant": "Parseval identity for all fields; test checks one Gaussian approximately.", "anchors": ["pySLM2/simulation.py:SLMSimulation.get_image_plane_power", "pySLM2/simulation.py:SLMSimulation.get_output_power"]}
{"id": "C13", "title": "Padding does not change the power", "statement": "get_input_power() and get_output_power() (and hence get_image_plane_power()) do not depend on padding_x, padding_y.", "quantifier": "all devices, states, inputs and paddings", "why_tests_cant": "Quantifies over pairs of simulations.", "anchors": ["pySLM2/simulation.py:SLMSimulation.get_input_power", "pySLM2/simulation.py:SLMSimulation.propagate_to_image"]}
{"id": "C14", "title": "A binary DMD is passive and complementary states split the power", "statement": "For every boolean DMD state the output power is at most the input power, equals it for the all-on state, is zero for the all-off state, and the output powers of a state and of its complement add up to the input power.", "quantifier": "all states, inputs, devices, paddings", "why_tests_cant": "Holds for every one of 2^(Nx*Ny) states.", "anchors": ["pySLM2/slm.py:DMD._state_tensor", "pySLM2/slm.py:DMD.set_dmd_state_on", "pySLM2/slm.py:DMD.set_dmd_state_off", "pySLM2/simulation.py:SLMSimulation.get_output_power"]}
{"id": "C15", "title": "An LCOS SLM with a real phase hologram is lossless", "statement": "For every real-valued slm_state, output and image plane power equal the input power, pixel by pixel intensity is unchanged, and adding 2*pi to any pixel changes nothing.", "quantifier": "all phase holograms, inputs, devices, paddings", "why_tests_cant": "All real phase maps.", "anchors": ["pySLM2/slm.py:LCOS_SLM._state_tensor", "pySLM2/simulation.py:SLMSimulation.propagate_to_image"]}
{"id": "C16", "title": "Superposition", "statement": "For a fixed SLM state the simulated fields are linear in the input field: propagating a*u + b*v gives a times the field of u plus b times the field of v in every plane.", "quantifier": "all inputs, complex coefficients, devices, states, paddings", "why_tests_cant": "Universal algebraic law.", "anchors": ["pySLM2/simulation.py:SLMSimulation.propagate_to_image"]}
{"id": "C17", "title": "block_zeroth_order blanks exactly a disc around the axis", "statement": "block_zeroth_order(r) sets the image plane field to zero exactly at the pixels strictly closer than |r| to the optical axis and leaves every other pixel and both Fourier plane fields unchanged; it is idempotent and never increases the image plane power.", "quantifier": "all fields, radii, devices, paddings", "why_tests_cant": "Per-pixel claim for all radii and grids.", "anchors": ["pySLM2/simulation.py:DMDSimulation.block_zeroth_order"]}
{"id": "C18", "title": "Blocking the zeroth order spares the first order", "statement": "With the default radius the blocked disc never reaches a pixel located at (or beyond) the first order origin, or at its mirror image, for every periodicity and angle.", "quantifier": "all periodicities, angles, devices", "why_tests_cant": "All periodicities and angles.", "anchors": ["pySLM2/simulation.py:DMDSimulation.block_zeroth_order", "pySLM2/slm.py:DMD.first_order_origin"]}
{"id": "C19", "title": "Simulation lifecycle", "statement": "In any history of propagate_to_image, block_zeroth_order and clear: the output and image plane results are None until the first successful propagation and after clear (so is the input field until a propagation is attempted); block_zeroth_order raises TypeError exactly when there is no propagated result; power queries raise TypeError exactly when there is no result; after a successful propagation all results depend only on that input, the SLM state at that time and later block calls.", "quantifier": "every history of calls on a simulation with non-negative paddings (negative ones: C142)", "why_tests_cant": "Property of histories.", "anchors": ["pySLM2/simulation.py:SLMSimulation.clear", "pySLM2/simulation.py:SLMSimulation.propagate_to_image", "pySLM2/simulation.py:DMDSimulation.block_zeroth_order"]}
{"id": "C20", "title": "A failed propagation leaves the previous simulation result intact", "statement": "If propagate_to_image raises because the input does not fit the SLM, the results of the previous propagation are all still available and mutually consistent.", "quantifier": "all inputs of any shape, all earlier histories", "why_tests_cant": "Needs every failure point.", "anchors": ["pySLM2/simulation.py:SLMSimulation.propagate_to_image"]}
{"id": "C21", "title": "Simulation constructor argument checks", "statement": "SLMSimulation / DMDSimulation can be constructed exactly when the paddings are ints and the device is an SLM (a DMD for DMDSimulation); otherwise TypeError is raised.", "quantifier": "all argument kinds", "why_tests_cant": "All combinations of argument kinds.", "anchors": ["pySLM2/simulation.py:SLMSimulation.__init__", "pySLM2/simulation.py:DMDSimulation.__init__"]}
{"id": "C22", "title": "The ideal grating is a transmission between 0 and amp", "statement": "Method 'ideal' yields at each pixel a value between 0 and the amplitude requested there, so for amplitudes in [0,1] the state is in [0,1]; the value equals amp exactly where the grating phase matches the requested phase difference modulo 2*pi.", "quantifier": "all amplitudes, phases, positions, periods, angles", "why_tests_cant": "Continuous domain.", "anchors": ["pySLM2/_lib.py:_calculate_dmd_grating_ideal"]}
{"id": "C23", "title": "The ideal hologram reproduces the target exactly in the first order", "statement": "calculate_dmd_state(input, target, method='ideal') followed by propagate_to_image(input) (even device, no padding) gives an image plane field that is the sum of three terms, one of which is exactly eta/4 times the target's band-limited interpolation displaced by first_order_origin, where eta is the returned value; at grid points the interpolation is the target itself. The other two terms are the zeroth order and the opposite order.", "quantifier": "all input profiles non-vanishing where needed, all targets, periods, angles, devices", "why_tests_cant": "Exact identity for all inputs; the test checks one target to 5%.", "anchors": ["pySLM2/slm.py:DMD.calculate_dmd_state", "pySLM2/slm.py:DMD._calc_amp_phase", "pySLM2/_lib.py:_calculate_dmd_grating_ideal", "pySLM2/slm.py:DMD.first_order_origin", "pySLM2/simulation.py:SLMSimulation.propagate_to_image"]}
{"id": "C24", "title": "negative_order puts the target in the opposite order", "statement": "With negative_order=True the same statement holds with the target displaced by minus first_order_origin; and negative_order=True gives the same DMD state as negative_order=False with theta increased by pi (for every method, same random draw).", "quantifier": "all inputs, targets, angles, methods", "why_tests_cant": "All inputs.", "anchors": ["pySLM2/_lib.py:_calculate_dmd_grating_ideal", "pySLM2/_lib.py:_calculate_dmd_grating_random", "pySLM2/_lib.py:_grating_phase"]}
{"id": "C25", "title": "Mode matching amplitudes are normalised", "statement": "Whenever the target is non-zero and the input does not vanish where the target's Fourier transform does not, the requested grating amplitude is in [0,1] at every pixel, reaches 1 at some pixel, is 0 exactly where the target's transform is 0, and eta is positive and finite.", "quantifier": "all inputs, targets, windows, devices", "why_tests_cant": "All fields.", "anchors": ["pySLM2/slm.py:DMD._calc_amp_phase", "pySLM2/slm.py:DMD.calculate_dmd_state"]}
{"id": "C26", "title": "Scaling of target or input intensity rescales eta only", "statement": "Multiplying the target by a positive constant leaves the computed DMD state unchanged and divides eta by it; multiplying the input by a positive constant leaves the state unchanged and multiplies eta by it; a global phase on both input and target changes nothing.", "quantifier": "all inputs, targets, constants, methods, draws", "why_tests_cant": "Metamorphic law over all inputs.", "anchors": ["pySLM2/slm.py:DMD._calc_amp_phase", "pySLM2/slm.py:DMD.calculate_dmd_state"]}
{"id": "C27", "title": "A vanishing target is rejected without touching the DMD", "statement": "calculate_dmd_state with a target that is zero everywhere raises an exception and leaves dmd_state as it was.", "quantifier": "all inputs, methods, previous states", "why_tests_cant": "Exceptional path after a state update.", "anchors": ["pySLM2/slm.py:DMD.calculate_dmd_state"]}
{"id": "C28", "title": "An input beam that is dark where light is needed is reported, not silently accepted", "statement": "If the input field is exactly zero at a pixel where the target's transform is not, calculate_dmd_state does not silently return a useless hologram.", "quantifier": "all inputs and targets with this defect, all binary methods", "why_tests_cant": "Division by zero path over all inputs.", "anchors": ["pySLM2/slm.py:DMD._calc_amp_phase", "pySLM2/_lib.py:_calculate_dmd_grating_random", "pySLM2/_lib.py:_calculate_dmd_grating_simple"]}
{"id": "C29", "title": "The simple method is the 0.5 threshold of the ideal grating", "statement": "Method 'simple' switches a mirror on exactly when the 'ideal' value for the same arguments exceeds 0.5; consequently no mirror is on where the amplitude is at most 0.5 and for amplitude 1 exactly the mirrors with cos(phase) > 0 are on.", "quantifier": "all arguments, all pixels", "why_tests_cant": "All amplitudes and phases.", "anchors": ["pySLM2/_lib.py:_calculate_dmd_grating_simple", "pySLM2/_lib.py:_calculate_dmd_grating_ideal"]}
{"id": "C30", "title": "The random method is an unbiased dither of a well-defined duty function", "statement": "With method 'random' and r > 0, a mirror is on exactly when its uniform draw is below the duty value, which for amplitudes in [0,1] lies in [0,1); the probability of being on equals the duty value; amplitude 0 or outside [-1,1] (asin undefined) never switches a mirror on.", "quantifier": "all amplitudes, phases, steepness r > 0, all random draws", "why_tests_cant": "Quantifies over all random draws.", "anchors": ["pySLM2/_lib.py:_calculate_dmd_grating_random"]}
{"id": "C31", "title": "More requested amplitude never switches mirrors off", "statement": "For methods 'ideal', 'simple' and 'random' (same draw), increasing the amplitude within [0,1] at a pixel never decreases the value / never switches the mirror off.", "quantifier": "all pairs of amplitudes, phases, draws", "why_tests_cant": "Monotonicity over all pairs.", "anchors": ["pySLM2/_lib.py:_calculate_dmd_grating_ideal", "pySLM2/_lib.py:_calculate_dmd_grating_simple", "pySLM2/_lib.py:_calculate_dmd_grating_random"]}
{"id": "C32", "title": "Only the phase difference modulo 2*pi matters", "statement": "For 'ideal', 'simple', 'random': adding the same phase to phase_in and phase_out, or any integer multiple of 2*pi to either, leaves the DMD state unchanged.", "quantifier": "all phases, integers, methods, draws", "why_tests_cant": "Universal invariance.", "anchors": ["pySLM2/_lib.py:_calculate_dmd_grating_ideal", "pySLM2/_lib.py:_calculate_dmd_grating_random"]}
{"id": "C33", "title": "The grating is periodic with the requested periodicity along theta", "statement": "For uniform amplitude and phases the ideal grating value is invariant under moving by periodicity*pixel_size along the direction theta and under any displacement perpendicular to it; between two such points it passes through the full range.", "quantifier": "all positions, periods, angles", "why_tests_cant": "Universal invariance.", "anchors": ["pySLM2/_lib.py:_grating_phase", "pySLM2/slm.py:DMD.__init__"]}
{"id": "C34", "title": "IFTA leaves dark input pixels off and returns a boolean state", "statement": "For N >= 1 the IFTA result is boolean and every mirror on which the input field is zero is off.", "quantifier": "all inputs, targets, windows, N, s", "why_tests_cant": "All inputs and iteration counts.", "anchors": ["pySLM2/_lib.py:_calculate_dmd_grating_ifta"]}
{"id": "C35", "title": "IFTA degenerates to the simple method when it has nothing to do", "statement": "With N=0, or with a signal window that is 1 everywhere, or with a signal window that is 0 everywhere, the IFTA result equals the threshold at 0.5 of s times the ideal grating on every illuminated mirror.", "quantifier": "all inputs, N, s in the stated cases", "why_tests_cant": "Fixed-point property for all N.", "anchors": ["pySLM2/_lib.py:_calculate_dmd_grating_ifta", "pySLM2/_lib.py:_ifta_correct_profile", "pySLM2/_lib.py:_ifta_binarize_hologram"]}
{"id": "C36", "title": "IFTA binarisation step", "statement": "For thresholds in [0, 1/2] the partial binarisation is idempotent, keeps values in [0,1], moves only values outside [t, 1-t], is absorbed by later (larger) thresholds, and the schedule of thresholds used is strictly increasing and ends at exactly 1/2.", "quantifier": "all values, thresholds, iteration counts", "why_tests_cant": "All reals and all N.", "anchors": ["pySLM2/_lib.py:_ifta_binarize_hologram", "pySLM2/_lib.py:_calculate_dmd_grating_ifta"]}
{"id": "C37", "title": "DMD state shape and dtype over any history", "statement": "In every history of successful set_dmd_state_on/off, set_dmd_grating_state, circular_patch and calculate_dmd_state calls on a device with Nx, Ny > 1, dmd_state has shape (Ny, Nx); it is boolean unless the last whole-array update used method 'ideal', in which case it is float.", "quantifier": "every history of calls with every number, profile or two-dimensional array as an argument (arrays of other ranks: C145)", "why_tests_cant": "Property of histories.", "anchors": ["pySLM2/slm.py:DMD.set_dmd_grating_state", "pySLM2/slm.py:DMD.circular_patch", "pySLM2/slm.py:DMD.calculate_dmd_state"]}
{"id": "C38", "title": "circular_patch changes only the disc", "statement": "circular_patch(i, j, ..., d) changes no mirror at distance >= |d|/2 from (i, j); inside the disc the new state is that of set_dmd_grating_state with the same arguments (when dtypes agree; a binary patch on a grey state writes 0 and 1, a grey patch on a binary state switches on the mirrors whose value is not 0); patches on disjoint discs commute.", "quantifier": "all centres, diameters, previous states, arguments", "why_tests_cant": "Frame property for all pixels.", "anchors": ["pySLM2/slm.py:DMD.circular_patch", "pySLM2/slm.py:DMD._circular_mask"]}
{"id": "C39", "title": "A grey-scale patch shows the requested grey values", "statement": "circular_patch(..., method='ideal') writes the ideal grating values into the disc, whatever state the DMD had before.", "quantifier": "all previous states, arguments", "why_tests_cant": "Depends on the dtype produced by the whole history.", "anchors": ["pySLM2/slm.py:DMD.circular_patch"]}
{"id": "C40", "title": "Failed DMD updates leave the state alone", "statement": "If set_dmd_grating_state, circular_patch or calculate_dmd_state raises because of an unknown method, a missing signal window or ill-shaped arguments, dmd_state is unchanged; an unknown method always raises ValueError.", "quantifier": "all method strings other than the four, all arguments, states", "why_tests_cant": "All failure points.", "anchors": ["pySLM2/_lib.py:calculate_dmd_grating", "pySLM2/slm.py:DMD.calculate_dmd_state"]}
{"id": "C41", "title": "pack_dmd_state is a faithful bit packing", "statement": "For every boolean state, pack_dmd_state returns ceil(Nx*Ny/8) bytes holding the mirrors in row-major order, most significant bit first, padded with zero bits; the state can be recovered from the bytes and different states of the same device give different bytes.", "quantifier": "all states and device sizes", "why_tests_cant": "2^(Nx*Ny) states.", "anchors": ["pySLM2/slm.py:DMD.pack_dmd_state"]}
{"id": "C42", "title": "pack_dmd_state refuses grey-scale states", "statement": "pack_dmd_state raises TypeError exactly when the state is not boolean; in any history of successful calls this happens exactly when the last whole-array update used method 'ideal'.", "quantifier": "every history", "why_tests_cant": "Property of histories.", "anchors": ["pySLM2/slm.py:DMD.pack_dmd_state"]}
{"id": "C43", "title": "Assigned arrays are shared: in-place and rebinding updates", "statement": "circular_patch updates the array object in place (so every other holder of that array sees it), whereas all other updates replace the array and leave previously obtained arrays unchanged.", "quantifier": "every history and every set of alias holders", "why_tests_cant": "Aliasing over histories.", "anchors": ["pySLM2/slm.py:DMD.circular_patch", "pySLM2/slm.py:DMD.set_dmd_grating_state", "pySLM2/slm.py:DMD.set_dmd_state_off"]}
{"id": "C44", "title": "Gerchberg-Saxton never makes the image worse", "statement": "For a non-negative real input amplitude and non-negative target amplitude, the squared error between the modulus of the image the algorithm's own propagation gives and the target never increases with the number of iterations N, for every random initial phase.", "quantifier": "all non-negative inputs, targets, sizes, N, initial phases", "why_tests_cant": "Convergence monotonicity for all inputs and all N.", "anchors": ["pySLM2/_lib.py:_calculate_lcos_slm_hologram_gs"]}
{"id": "C45", "title": "Gerchberg-Saxton corrects aberrated input beams", "statement": "The error monotonicity of the gs method also holds for complex-valued input profiles (input beams with phase aberration), which the API accepts.", "quantifier": "all complex inputs", "why_tests_cant": "All inputs.", "anchors": ["pySLM2/_lib.py:_calculate_lcos_slm_hologram_gs", "pySLM2/slm.py:LCOS_SLM.calculate_hologram"]}
{"id": "C46", "title": "The simulated LCOS image is the image the hologram was computed for", "statement": "Simulating the SLM with the computed hologram shows, at every image plane pixel, the modulus that the hologram algorithm's own forward propagation predicts there.", "quantifier": "all devices, inputs, holograms", "why_tests_cant": "Sign convention shared by two modules, all fields.", "anchors": ["pySLM2/slm.py:LCOS_SLM._state_tensor", "pySLM2/_lib.py:_calculate_lcos_slm_hologram_gs", "pySLM2/simulation.py:SLMSimulation.propagate_to_image"]}
{"id": "C47", "title": "Hologram phase range", "statement": "calculate_hologram leaves a real slm_state of the grid shape; for N >= 1 every phase is in (-pi, pi], for N = 0 in [0, 2*pi).", "quantifier": "all inputs, targets, N, methods, initial phases", "why_tests_cant": "All inputs.", "anchors": ["pySLM2/_lib.py:_calculate_lcos_slm_hologram_gs", "pySLM2/_lib.py:_calculate_lcos_slm_hologram_mraf", "pySLM2/slm.py:LCOS_SLM.calculate_hologram"]}
{"id": "C48", "title": "MRAF with a full signal window is Gerchberg-Saxton", "statement": "For signal window 1 everywhere and any mixing factor > 0, method 'mraf' gives exactly the hologram of method 'gs' for the same random initial phase and N.", "quantifier": "all inputs, targets, N, mixing factors > 0, initial phases", "why_tests_cant": "Equality of two iterations for all N.", "anchors": ["pySLM2/_lib.py:_calculate_lcos_slm_hologram_mraf", "pySLM2/_lib.py:_calculate_lcos_slm_hologram_gs"]}
{"id": "C49", "title": "MRAF region weighting", "statement": "In each MRAF iteration, with mixing factor m and a 0/1 signal window, the corrected field has modulus m*target inside the window and (1-m) times the propagated field outside; with m=1 nothing outside the window is kept.", "quantifier": "all inputs, windows, m", "why_tests_cant": "All inputs.", "anchors": ["pySLM2/_lib.py:_calculate_lcos_slm_hologram_mraf"]}
{"id": "C50", "title": "Failed hologram calculations leave the SLM state alone", "statement": "calculate_hologram with an unknown method raises ValueError, with method 'mraf' and no signal_window raises KeyError, and in both cases slm_state is unchanged.", "quantifier": "all method strings, states, inputs", "why_tests_cant": "All failure points.", "anchors": ["pySLM2/slm.py:LCOS_SLM.calculate_hologram", "pySLM2/_lib.py:calculate_lcos_slm_hologram"]}
{"id": "C51", "title": "Profile arithmetic is pointwise arithmetic", "statement": "For all profiles f, g built by the API and numbers c: (f+g), (f-g), (f*g), (f/g), (-f), c+f, f+c, f-c, c*f, f*c, f/c evaluated at (x,y) equal the same operation on the values; the result is complex exactly when an operand is complex.", "quantifier": "all expression trees over profiles, all points", "why_tests_cant": "Structural induction over arbitrarily nested expressions.", "anchors": ["pySLM2/profile.py:FunctionProfile._make_attribute_func", "pySLM2/profile.py:FunctionProfile.__add__"]}
{"id": "C52", "title": "Profile powers", "statement": "f ** k evaluates to the k-th power of the value for integer k >= 0 and for real exponents on positive values; exponents that are complex turn the result complex. (Complex-dtype profiles: at points where the value is not zero.)", "quantifier": "all profiles, exponents, points", "why_tests_cant": "All exponents.", "anchors": ["pySLM2/profile.py:FunctionProfile.__pow__"]}
{"id": "C53", "title": "Geometric transformations compose", "statement": "shift, rotate, rescale_x, rescale_y satisfy their documented pointwise formula; shift(a).shift(b) = shift(a+b), rotate(s).rotate(t) = rotate(s+t), rotate(0) and shift(0,0) are identities, shift and rotation can be undone, rescaling by m then 1/m is the identity for m != 0, and transformations distribute over profile arithmetic.", "quantifier": "all profiles, offsets, angles, factors, points", "why_tests_cant": "Universal laws over nested expressions.", "anchors": ["pySLM2/profile.py:FunctionProfile.shift", "pySLM2/profile.py:FunctionProfile.rotate", "pySLM2/profile.py:FunctionProfile.rescale_x", "pySLM2/profile.py:FunctionProfile.rescale_y"]}
{"id": "C54", "title": "as_complex_profile is a unit-modulus phase factor", "statement": "For a real profile f, f.as_complex_profile() has modulus 1 everywhere, equals exp(i f), turns sums into products, and its product with (-f).as_complex_profile() is 1.", "quantifier": "all real profiles and points", "why_tests_cant": "Universal law.", "anchors": ["pySLM2/profile.py:FunctionProfile.as_complex_profile"]}
{"id": "C55", "title": "Composed profiles are live views of their parts", "statement": "Assigning a parameter (x0, y0, a, w, p, c, ...) of a profile changes the value of every profile composed from it exactly as if it had been composed after the assignment, and changes no profile that does not contain it; holograms computed earlier are not affected.", "quantifier": "every history of compositions and assignments", "why_tests_cant": "Histories with aliasing.", "anchors": ["pySLM2/profile.py:FunctionProfile._make_attribute_func", "pySLM2/profile.py:HermiteGaussian", "pySLM2/window.py:RectangularWindowRectangle"]}
{"id": "C56", "title": "HermiteGaussian follows its documented formula", "statement": "HermiteGaussian(x0,y0,a,w,n,m)(x,y) equals a*H_n(sqrt2 (x-x0)/w)*H_m(sqrt2 (y-y0)/w)*exp(-((x-x0)^2+(y-y0)^2)/w^2) with H_n the physicists' Hermite polynomial given by the Rodrigues formula of the docstring; mirroring x about x0 multiplies it by (-1)^n.", "quantifier": "all orders n, m, parameters with w != 0, points", "why_tests_cant": "All orders and points.", "anchors": ["pySLM2/profile.py:HermiteGaussian"]}
{"id": "C57", "title": "The fundamental modes coincide", "statement": "HermiteGaussian(n=m=0), SuperGaussian(p=1) and LaguerreGaussian(l=p=0) with the same x0,y0,a,w are the same function; it is bounded by a, attained only at the centre, and equals a/e at distance w.", "quantifier": "all parameters and points", "why_tests_cant": "Continuous domain.", "anchors": ["pySLM2/profile.py:HermiteGaussian", "pySLM2/profile.py:SuperGaussian", "pySLM2/profile.py:LaguerreGaussian"]}
{"id": "C58", "title": "Laguerre-Gaussian vortex symmetry", "statement": "LaguerreGaussian with index -l is the complex conjugate of the one with index l; rotating the profile about its own centre by t multiplies it by exp(-i l t); its modulus is rotationally symmetric; for l != 0 it vanishes at the centre.", "quantifier": "all l, p, parameters, points, angles", "why_tests_cant": "All orders and points.", "anchors": ["pySLM2/profile.py:LaguerreGaussian"]}
{"id": "C59", "title": "First-order Laguerre and Hermite modes are related", "statement": "-1j*(HG01 + 1j*HG10) with amplitude a equals LaguerreGaussian(l=1,p=0) with amplitude 2a at every point.", "quantifier": "all parameters and points", "why_tests_cant": "Test checks one grid.", "anchors": ["pySLM2/profile.py:LaguerreGaussian", "pySLM2/profile.py:HermiteGaussian"]}
{"id": "C60", "title": "Zernike radial polynomials are normalised at the edge and bounded support", "statement": "For valid indices (|m| <= n, n-m even), the radial polynomial used equals 1 at rho=1; without extrapolation the profile is 0 beyond the radius and agrees with the extrapolated one inside.", "quantifier": "all valid (n, m), points, radii > 0", "why_tests_cant": "All orders.", "anchors": ["pySLM2/profile.py:Zernike"]}
{"id": "C61", "title": "Zernike modes are orthonormal over the aperture", "statement": "For normalised Zernike profiles with a=1 and valid indices, the average over the aperture disc of the product of two modes is 1 if the indices agree and 0 otherwise.", "quantifier": "all pairs of valid indices, all radii > 0", "why_tests_cant": "Integral identity for infinitely many pairs.", "anchors": ["pySLM2/profile.py:Zernike"]}
{"id": "C62", "title": "Zernike rejects invalid indices", "statement": "Zernike(a, radius, n, m) raises ValueError for every index pair that is not a Zernike mode (|m| > n or n-m odd).", "quantifier": "all integer pairs", "why_tests_cant": "Infinite domain.", "anchors": ["pySLM2/profile.py:Zernike.__init__"]}
{"id": "C63", "title": "Windows are exact indicator functions", "statement": "RectangularWindowRectangle is 1 exactly on the open rectangle of widths wx, wy around (x0,y0) and 0 elsewhere; RectangularWindowCircular is 1 exactly on the closed disc of radius |r|; hence windows are idempotent under multiplication and translate with shift.", "quantifier": "all parameters and points", "why_tests_cant": "Boundary points.", "anchors": ["pySLM2/window.py:RectangularWindowRectangle", "pySLM2/window.py:RectangularWindowCircular"]}
{"id": "C64", "title": "profile_to_tensor yields the grid shape and requested dtype", "statement": "profile_to_tensor returns a tensor of the requested kind (real or complex) whose shape is that of fourier_plane_grid, sampling profiles at the coordinates of the requested plane; complex values asked as real keep their real part.", "quantifier": "all profiles, arrays, numbers, devices", "why_tests_cant": "All kinds of arguments.", "anchors": ["pySLM2/slm.py:SLM.profile_to_tensor"]}
{"id": "C65", "title": "Cached grids are transparent", "statement": "In any history of grid queries over any number of SLM objects (more than the cache size included), a grid query returns the same value as an uncached computation for that object.", "quantifier": "every query history and any number of objects", "why_tests_cant": "Eviction histories.", "anchors": ["pySLM2/slm.py:SLM._fourier_plane_grid", "pySLM2/slm.py:SLM._image_plane_grid", "pySLM2/simulation.py:SLMSimulation._image_plane_padded_grid"]}
{"id": "C66", "title": "ansi_j_to_n_m enumerates the Zernike modes", "statement": "ansi_j_to_n_m is a bijection from the natural numbers to the valid index pairs (|m| <= n, n-m even), ordered by n then m, with inverse (n(n+2)+m)/2; so Zernike never rejects its output.", "quantifier": "all indices", "why_tests_cant": "Infinite domain with a square root and a ceiling.", "anchors": ["pySLM2/analysis.py:ansi_j_to_n_m", "pySLM2/profile.py:Zernike.__init__"]}
{"id": "C67", "title": "ansi_j_to_n_m is exact in double precision", "statement": "Evaluated in IEEE double precision (square root rounded to nearest or in any monotone way), ansi_j_to_n_m gives the exact result for every index below 2^50.", "quantifier": "all indices below 2^50, all monotone roundings", "why_tests_cant": "10^15 inputs and rounding at perfect squares.", "anchors": ["pySLM2/analysis.py:ansi_j_to_n_m"]}
{"id": "C68", "title": "remove_trivial_phase removes the mean", "statement": "After remove_trivial_phase (without defocus) the average of the returned phase map over the aperture is exactly zero, for every phase map, and adding a constant to the phase map does not change the result inside the aperture.", "quantifier": "all phase maps, sizes, radii with non-empty aperture", "why_tests_cant": "All phase maps.", "anchors": ["pySLM2/analysis.py:remove_trivial_phase"]}
{"id": "C69", "title": "remove_trivial_phase is linear and local", "statement": "remove_trivial_phase is linear in the phase map, its result depends only on pixels inside the aperture plus the pixel itself, and pixels outside the radius are returned unchanged.", "quantifier": "all phase maps, sizes, radii, with and without defocus", "why_tests_cant": "All phase maps.", "anchors": ["pySLM2/analysis.py:remove_trivial_phase"]}
{"id": "C70", "title": "remove_trivial_phase removes tilt completely", "statement": "Applied to a pure tilt (and hence to any map), remove_trivial_phase leaves no tilt component: the projections on both tilt modes vanish.", "quantifier": "all phase maps, sizes, radii", "why_tests_cant": "Discretisation of the aperture for all sizes.", "anchors": ["pySLM2/analysis.py:remove_trivial_phase"]}
{"id": "C71", "title": "zernike_decomposition structure", "statement": "zernike_decomposition returns num_terms coefficients; asking for fewer terms returns a prefix; it is linear in the phase map; the coefficients do not depend on extrapolate; the reconstructed profile is the sum of coefficient times mode.", "quantifier": "all phase maps, sizes, radii, num_terms", "why_tests_cant": "All inputs.", "anchors": ["pySLM2/analysis.py:zernike_decomposition"]}
{"id": "C72", "title": "zernike_decomposition recovers the coefficients", "statement": "Decomposing a phase map synthesised from num_terms Zernike coefficients returns those coefficients.", "quantifier": "all coefficient vectors, sizes, radii", "why_tests_cant": "Tests check one random vector at 3 decimals.", "anchors": ["pySLM2/analysis.py:zernike_decomposition", "pySLM2/profile.py:Zernike"]}
{"id": "C73", "title": "No device access before initialization", "statement": "In any history, load_single, load_multiple, Nx, Ny and number_image of a controller raise and send nothing to the device unless initialize() has completed before.", "quantifier": "every call history", "why_tests_cant": "Property of histories.", "anchors": ["pySLM2/util/controller.py:_check_initialization", "pySLM2/util/controller.py:DMDControllerBase", "pySLM2/util/controller.py:ALPController", "pySLM2/util/controller.py:LuxbeamController"]}
{"id": "C74", "title": "No device access after close", "statement": "After close() a controller refuses further load calls until it is initialized again.", "quantifier": "every call history", "why_tests_cant": "Property of histories.", "anchors": ["pySLM2/util/controller.py:ALPController.close", "pySLM2/util/controller.py:DMDControllerBase.close"]}
{"id": "C75", "title": "ALP load_single shows the image at once", "statement": "After a successful ALPController.load_single the device is free-running and displaying that image without needing a trigger, whatever was loaded before.", "quantifier": "every call history", "why_tests_cant": "Mode left behind by earlier calls.", "anchors": ["pySLM2/util/controller.py:ALPController.load_single", "pySLM2/util/controller.py:ALPController.load_multiple"]}
{"id": "C76", "title": "ALP frames are transferred in order and as full black/white levels", "statement": "load_single and load_multiple send exactly the given images, in order, row-major, each mirror as 255 (on) or 0 (off), into a sequence allocated for exactly that many pictures, which is the one started.", "quantifier": "all image lists and sizes", "why_tests_cant": "All images.", "anchors": ["pySLM2/util/controller.py:ALPController.load_single", "pySLM2/util/controller.py:ALPController.load_multiple"]}
{"id": "C77", "title": "ALP on-board memory is released on close", "statement": "After any number of loads and a close, no sequence is left allocated by the controller's own frees.", "quantifier": "every call history", "why_tests_cant": "Leaks depend on the history.", "anchors": ["pySLM2/util/controller.py:ALPController.close", "pySLM2/util/controller.py:ALPController.load_single"]}
{"id": "C78", "title": "Luxbeam steps cyclically through the last loaded images", "statement": "After any history of loads and triggers in which no software trigger raised, once load_multiple(images) (or load_single) returned with at least one image, k further triggers leave image k mod len(images) displayed; images left over from earlier loads are never displayed.", "quantifier": "every history of loads and triggers, every k and number of images", "why_tests_cant": "Sequencer program executed for unbounded trigger sequences.", "anchors": ["pySLM2/util/controller.py:LuxbeamController.initialize", "pySLM2/util/controller.py:LuxbeamController.load_multiple", "pySLM2/util/controller.py:LuxbeamController.load_single", "pySLM2/util/controller.py:LuxbeamController.fire_software_trigger"]}
{"id": "C79", "title": "ALP inversion follows the constructor argument", "statement": "Whenever an ALP load succeeds, the device inverts the mirrors exactly when the controller was built with invert=True, whatever calls, failures, closes and re-initializations came before.", "quantifier": "every call history and every choice of failing vendor calls", "why_tests_cant": "Crash points and histories.", "anchors": ["pySLM2/util/controller.py:ALPController.initialize", "pySLM2/util/controller.py:DMDControllerBase.is_initialized"]}
{"id": "C80", "title": "A failed Luxbeam load never shows a mixture", "statement": "If load_single or load_multiple of an initialized Luxbeam controller raises, at whatever device call, then either the request to stop the sequencer was itself refused and the device just runs on with the old images, or the display stays frozen on what it showed before, whatever triggers follow, until the next load or initialize.", "quantifier": "every history, crash point, sequencer timing and trigger sequence", "why_tests_cant": "Crash points.", "anchors": ["pySLM2/util/controller.py:LuxbeamController.load_multiple", "pySLM2/util/controller.py:LuxbeamController.load_single"]}
{"id": "C81", "title": "Luxbeam shows the images in order whatever the trigger timing", "statement": "After a load, triggers arriving at any time (also while the sequencer is busy) and failing calls never make the display skip or reorder images: each call advances it by at most one image, and it never advances more often than there were triggers.", "quantifier": "every trigger timing and call sequence", "why_tests_cant": "Concurrency of the sequencer with triggers.", "anchors": ["pySLM2/util/controller.py:LuxbeamController.initialize", "pySLM2/util/controller.py:LuxbeamController.load_multiple", "pySLM2/util/controller.py:LuxbeamController.fire_software_trigger"]}
{"id": "C82", "title": "A failed ALP load never shows a wrong image", "statement": "If load_single or load_multiple of an ALP controller raises, at whatever device call, then either nothing happened to the device at all or it projects nothing.", "quantifier": "every history and crash point", "why_tests_cant": "Crash points.", "anchors": ["pySLM2/util/controller.py:ALPController.load_single", "pySLM2/util/controller.py:ALPController.load_multiple"]}
{"id": "C83", "title": "Each software trigger advances the display", "statement": "After a load, fire_software_trigger() that returns, given time, moves the Luxbeam display to the next image, whatever happened before.", "quantifier": "every history and crash point", "why_tests_cant": "Crash points leave the sync line in a state the next call depends on.", "anchors": ["pySLM2/util/controller.py:LuxbeamController.fire_software_trigger"]}
{"id": "C84", "title": "A tilted field shifts the image", "statement": "Multiplying the field behind the SLM by a linear phase exp(2 pi i (x0 X + y0 Y)/(wavelength f)) shifts the simulated image by exactly (x0, y0): the field (for odd sizes, the intensity) at every image plane pixel is that of the untilted field at the displaced point.", "quantifier": "every field, tilt, padding and device", "why_tests_cant": "All fields and tilts.", "anchors": ["pySLM2/simulation.py:SLMSimulation.propagate_to_image", "pySLM2/slm.py:SLM.fourier_plane_grid"]}
{"id": "C85", "title": "Symmetries of the simulated image", "statement": "A real field behind the SLM gives an image whose opposite pixels are complex conjugates, so both first orders carry the same intensity; turning the field behind the SLM by 180 degrees turns the image intensity by 180 degrees.", "quantifier": "every field, padding and device", "why_tests_cant": "All fields.", "anchors": ["pySLM2/simulation.py:SLMSimulation.propagate_to_image"]}
{"id": "C86", "title": "Propagation preserves overlaps", "statement": "The overlap (sum of img * conj(img') times the pixel area) of two simulated images equals the overlap of the fields behind the SLM times the SLM pixel area; mode overlaps can be computed in either plane.", "quantifier": "every two fields, every padding and device", "why_tests_cant": "All fields.", "anchors": ["pySLM2/simulation.py:SLMSimulation.propagate_to_image", "pySLM2/simulation.py:SLMSimulation.image_plane_pixel_area"]}
{"id": "C87", "title": "What method ifta computes", "statement": "Method ifta starts from s times the ideal grating; in each of N iterations it clips values below the threshold to 0 and above one minus the threshold to 1 (threshold rising linearly to 1/2), replaces the image by the wanted image to the extent given by the signal window in image plane pixels, goes back to the SLM, divides by the input field (0 where the input is dark) and keeps the real part; mirrors whose final value exceeds 1/2 are on.", "quantifier": "all devices, inputs, windows, amplitudes, phases, N and s", "why_tests_cant": "The iteration is compared with its definition on all arrays, including the order of pixels of the window.", "anchors": ["pySLM2/_lib.py:_calculate_dmd_grating_ifta", "pySLM2/_lib.py:_ifta_correct_profile", "pySLM2/_lib.py:_ifta_binarize_hologram", "pySLM2/slm.py:DMD.set_dmd_grating_state"]}
{"id": "C88", "title": "Units of the input and target do not matter to holograms", "statement": "Multiplying the input field and the target of calculate_hologram by positive numbers leaves the gs hologram unchanged; multiplying both by the same number leaves the mraf hologram unchanged (same random draw).", "quantifier": "all devices, inputs, targets, windows, draws and iteration numbers", "why_tests_cant": "All arrays and scale factors.", "anchors": ["pySLM2/_lib.py:_calculate_lcos_slm_hologram_gs", "pySLM2/_lib.py:_calculate_lcos_slm_hologram_mraf", "pySLM2/slm.py:LCOS_SLM.calculate_hologram"]}
{"id": "C89", "title": "A perfect hologram is a fixed point of gs", "statement": "If after some number of iterations the predicted image of the gs hologram has exactly the target modulus, further iterations leave the hologram unchanged (modulo 2 pi), for real positive inputs.", "quantifier": "all devices, inputs, targets, draws and iteration numbers", "why_tests_cant": "Unbounded number of iterations.", "anchors": ["pySLM2/_lib.py:_calculate_lcos_slm_hologram_gs", "pySLM2/slm.py:LCOS_SLM.calculate_hologram"]}
{"id": "C90", "title": "First order amplitude of the grating methods", "statement": "Averaged over the grating phase (and the draws), the first diffraction order of a pixel with requested amplitude a has amplitude a/4 for method ideal, tends to a/pi for method random as r grows, and is sqrt(1-(1/a-1)^2)/pi for a in (1/2, 1] and 0 for a up to 1/2 for method simple; so ideal and random are linear in the request and simple is not.", "quantifier": "all devices, pixels, amplitudes and input phases; limit in r", "why_tests_cant": "Averages over continuous parameters and a limit.", "anchors": ["pySLM2/_lib.py:_calculate_dmd_grating_ideal", "pySLM2/_lib.py:_calculate_dmd_grating_random", "pySLM2/_lib.py:_calculate_dmd_grating_simple", "pySLM2/slm.py:DMD.set_dmd_grating_state"]}
{"id": "C91", "title": "Hermite-Gaussian modes are orthogonal and have a known power", "statement": "For two HermiteGaussian profiles with the same centre and waist the integral of E conj(E') over the plane is a a' 2^(n+m) n! m! pi w^2/2 if both indices agree and 0 otherwise.", "quantifier": "all indices, amplitudes, centres and waists", "why_tests_cant": "An integral over the whole plane for all indices.", "anchors": ["pySLM2/profile.py:HermiteGaussian"]}
{"id": "C92", "title": "Laguerre-Gaussian modes are orthogonal and have a known power", "statement": "For two LaguerreGaussian profiles with the same centre and waist the integral of E conj(E') over the plane is a a' (p+|l|)!/p! pi w^2/2 if both indices agree and 0 otherwise.", "quantifier": "all indices (l of either sign), amplitudes, centres and waists", "why_tests_cant": "An integral over the whole plane for all indices.", "anchors": ["pySLM2/profile.py:LaguerreGaussian"]}
{"id": "C93", "title": "The simulated image approximates the diffraction integral", "statement": "If the field behind the SLM consists of samples of a field bounded by B that changes by at most L per unit length, every pixel of the image field differs from the Fraunhofer integral of that field over the area of the SLM by at most area/(lambda f) * pixel_size * (2L + 2 pi B (|xi|+|eta|)/(lambda f)); for even sizes this holds for the complex field, for all sizes for its modulus.", "quantifier": "all devices, paddings, image pixels, bounded Lipschitz fields", "why_tests_cant": "A statement about integrals and all smooth fields; tests compare with one analytic case at a tolerance.", "anchors": ["pySLM2/simulation.py:SLMSimulation.propagate_to_image", "pySLM2/slm.py:SLM.fourier_plane_grid"]}
{"id": "C94", "title": "A Gaussian beam is focused to the waist of Gaussian optics", "statement": "HermiteGaussian(x0, y0, a, w) sent to an SLM that does not modulate it gives an image field pi w^2 a/(lambda f) exp(-(xi^2+eta^2)/(lambda f/(pi w))^2) times the phase factor of the displacement, up to an explicit error of order pixel size and exp(-T^2/w^2), where T is the distance from the beam centre to the edges of the SLM.", "quantifier": "all devices, paddings, image pixels, beams that fit on the SLM", "why_tests_cant": "All beam parameters and image positions, explicit error bound.", "anchors": ["pySLM2/simulation.py:SLMSimulation.propagate_to_image", "pySLM2/profile.py:HermiteGaussian"]}
{"id": "C95", "title": "The input power of a Gaussian beam", "statement": "For the same beam get_input_power() differs from pi w^2 a^2/2 by at most a^2 ((sqrt(pi/2) w + e)^2 - pi w^2/2), e = 2 pixel_size + sqrt(pi/2) w exp(-2T^2/w^2).", "quantifier": "all devices, paddings, beams that fit on the SLM", "why_tests_cant": "All beam parameters, explicit error bound.", "anchors": ["pySLM2/simulation.py:SLMSimulation.get_input_power", "pySLM2/profile.py:HermiteGaussian"]}
{"id": "C96", "title": "The device models have the geometry of the devices", "statement": "DLP9500, DLP7000, DLP9000 and PLUTO_2 keep the given wavelength and focal length, are wider than tall, and the diagonal of the pixel array is the nominal diagonal (0.95, 0.7, 0.9, 0.7 inch) within 2 percent; their sizes are even, so the simulated complex field is exact on the advertised coordinates; each row of mirrors occupies whole bytes of pack_dmd_state.", "quantifier": "all device models, wavelengths, focal lengths, inputs and states", "why_tests_cant": "The consequences range over all inputs and states; the constants are checked against independent data.", "anchors": ["pySLM2/slm.py:DLP9500", "pySLM2/slm.py:DLP7000", "pySLM2/slm.py:DLP9000", "pySLM2/slm.py:PLUTO_2", "pySLM2/slm.py:DMD.pack_dmd_state"]}
{"id": "C97", "title": "The random method adds white noise to the image of the grey grating", "statement": "With independent uniform draws, the expected simulated image field of a state set with method random is the image of the grey state with the duty values, and the mean squared deviation from it is the same number (pixel_size^2/(lambda f))^2 sum q(1-q)|u|^2 at every image pixel.", "quantifier": "all devices, gratings with amplitudes in [0,1], inputs, paddings, image pixels, probability spaces of draws", "why_tests_cant": "Expectations over a continuous probability space, all inputs.", "anchors": ["pySLM2/_lib.py:_calculate_dmd_grating_random", "pySLM2/slm.py:DMD.set_dmd_grating_state", "pySLM2/simulation.py:SLMSimulation.propagate_to_image"]}
{"id": "C98", "title": "Mode matching gives the brightest hologram", "statement": "When calculate_dmd_state succeeds, no other choice of grating amplitudes between -1 and 1 that has the wanted field up to a factor has a larger factor than the returned eta.", "quantifier": "all devices, inputs, targets, windows, methods, keyword arguments and draws for which the call succeeds, and all competing amplitude patterns", "why_tests_cant": "An optimality statement over all amplitude patterns.", "anchors": ["pySLM2/slm.py:DMD.calculate_dmd_state", "pySLM2/slm.py:DMD._calc_amp_phase"]}
{"id": "C99", "title": "The random method puts the target into the first order", "statement": "With uniform draws, the image field of calculate_dmd_state(method='random') averaged over the draws is the sum over all integers n of the image of diffraction order n displaced by n times the first order origin (with the sign of negative_order); as the steepness r grows the first order tends to eta/pi times the target. eta does not depend on the draws.", "quantifier": "all devices, inputs, targets that are not zero and lit, steepnesses, probability spaces of uniform draws, paddings and image pixels", "why_tests_cant": "An infinite sum of orders and a limit, for all inputs.", "anchors": ["pySLM2/_lib.py:_calculate_dmd_grating_random", "pySLM2/slm.py:DMD.calculate_dmd_state", "pySLM2/slm.py:DMD.first_order_origin", "pySLM2/simulation.py:SLMSimulation.propagate_to_image"]}
{"id": "C100", "title": "The super-Gaussian tends to a top hat and has a known power", "statement": "SuperGaussian(x0, y0, a, w, p) follows its documented formula for every p > 0; as p grows it tends to a inside the circle of radius |w| and to 0 outside, and is a/e on the circle; its power is a^2 pi w^2 2^(-1/p) Gamma(1+1/p).", "quantifier": "all centres, amplitudes, non-zero widths, powers and points", "why_tests_cant": "A limit and an integral over the plane.", "anchors": ["pySLM2/profile.py:SuperGaussian"]}
{"id": "C101", "title": "Separate patches superpose", "statement": "On a DMD that is off, any number of circular_patch calls whose discs have no mirror in common gives a simulated image field that is the sum of the image fields each patch alone would give, whatever the methods; a call that raises contributes nothing.", "quantifier": "all lists of patch calls with disjoint discs, all devices, inputs, paddings and image pixels", "why_tests_cant": "Histories of any length, all arguments.", "anchors": ["pySLM2/slm.py:DMD.circular_patch", "pySLM2/simulation.py:SLMSimulation.propagate_to_image"]}
{"id": "C102", "title": "Pixel coordinates survive rounding", "statement": "In arithmetic with t significant bits (float32: 24, float64: 53), on an array of at most 2^(t-4) pixels per side, the coordinates of the pixels are within a relative error of 3/2^t of the exact ones, different columns (rows) keep different coordinates in the right order, and converting the coordinates back and rounding to the nearest integer gives the pixel index.", "quantifier": "all precisions t >= 4, all roundings with relative error 2^-t that keep representable numbers, all array sizes up to the bound, pixel sizes and pixels", "why_tests_cant": "All roundings and all pixels; a failure would depend on the pixel size.", "anchors": ["pySLM2/slm.py:SLM._convert_pixel_index_to_dmd_coordinate", "pySLM2/slm.py:SLM._convert_slm_coordinate_to_pixel_index", "pySLM2/slm.py:SLM.fourier_plane_grid", "pySLM2/_backend.py:_BackEnd.dtype"]}
{"id": "C103", "title": "Rounding changes the simple pattern only near the threshold", "statement": "A mirror of the pattern of method 'simple', computed with every operation rounded to t significant bits and library functions within v of the exact ones, is in the state the exact formula gives unless its exact grey value is within |A| (v + 3/2^t + (2v + 16/2^t) K + 3/2^t |phase_out - phase_in|) of 1/2, K being the radians of carrier between the centre and the pixel. In float32 on every device of the library, with a period of at least two pixels, amplitudes up to 1 and phase differences up to 100 radians, this is less than 0.01.", "quantifier": "all precisions t >= 4, roundings, library errors v <= 1/16, devices, periods, angles, amplitudes, phases, pixels", "why_tests_cant": "All roundings and inputs.", "anchors": ["pySLM2/_lib.py:_grating_phase", "pySLM2/_lib.py:_calculate_dmd_grating_ideal", "pySLM2/_lib.py:_calculate_dmd_grating_simple", "pySLM2/_backend.py:_BackEnd.dtype"]}
{"id": "C104", "title": "Rounding changes the random pattern with small probability", "statement": "With the same draw, a mirror of the pattern of method 'random' computed with every operation rounded to t significant bits and library functions within v of the exact ones differs from the exactly computed one only for draws in a set of measure at most |r| (2 (E + 2v + 3 sqrt v) + 16/2^t) + 2v + 3/2^t, E being the error of the phase.", "quantifier": "all precisions t >= 4, roundings, library errors v <= 1/16, devices, periods, angles, steepnesses, amplitudes in [-1, 1], phases, pixels", "why_tests_cant": "All roundings and inputs, and a measure over draws.", "anchors": ["pySLM2/_lib.py:_calculate_dmd_grating_random", "pySLM2/_lib.py:_grating_phase", "pySLM2/_backend.py:_BackEnd.dtype"]}
{"id": "C105", "title": "The last writer wins", "statement": "After any history of calls that use binary methods, every mirror shows what the last call that wrote to it wrote; failed calls write nothing and a circular patch writes only inside its circle. Repeating a call changes nothing, and calls before one that writes the whole array have no effect.", "quantifier": "all devices with more than one row and column, all histories of state-setting calls, all mirrors", "why_tests_cant": "Histories of arbitrary length with failures and overlapping patches.", "anchors": ["pySLM2/slm.py:DMD.set_dmd_state_on", "pySLM2/slm.py:DMD.set_dmd_state_off", "pySLM2/slm.py:DMD.set_dmd_grating_state", "pySLM2/slm.py:DMD.circular_patch"]}
{"id": "C106", "title": "Gerchberg-Saxton settles", "statement": "For a non-negative input amplitude and a non-negative target amplitude the image error of method 'gs' converges as the number of iterations grows; among the first K iterations one improves it by at most a K-th part of the initial error. Every iteration improves it at least by the mean squared change of the phase factors, weighted by the input amplitude and the field of the corrected image, so these weighted changes tend to zero at every pixel.", "quantifier": "all sizes, amplitudes, initial phases and numbers of iterations", "why_tests_cant": "A limit over the number of iterations.", "anchors": ["pySLM2/slm.py:LCOS_SLM.calculate_hologram", "pySLM2/_lib.py:_calculate_lcos_slm_hologram_gs"]}
{"id": "C107", "title": "The steepness of the random method", "statement": "With method 'random' and steepness r, a mirror whose carrier phase is inside a grating line (half width asin(amp)) by at least e is on unless its draw is among the top 2 exp(-2 r e) of the unit interval, and a mirror outside all lines by at least e is off unless its draw is below exp(-2 r e). As r grows the pattern tends to the binary grating with sharp lines of that width, for every draw; with r not positive all mirrors are off.", "quantifier": "all devices, amplitudes in [0, 1], phases, draws, steepnesses and distances from the edges", "why_tests_cant": "A limit over real steepness, for all amplitudes, phases and draws.", "anchors": ["pySLM2/_lib.py:_calculate_dmd_grating_random", "pySLM2/slm.py:DMD.set_dmd_grating_state"]}
{"id": "C108", "title": "Omitted arguments", "statement": "Leaving out r, N, s or mixing_factor is the same as passing 10, 200, 1 and 0.4; r matters to method 'random' only, N, s, input_profile and signal_window to 'ifta' only, mixing_factor and signal_window to 'mraf' only. The method is 'random' on a DMD and 'gs' on an LCOS SLM, the order positive and the padding 0 if not given. set_dmd_grating_state() shows the plain grating with lines half a period wide.", "quantifier": "all devices, arguments (valid or not), methods and keyword arguments", "why_tests_cant": "The equality must hold for all other arguments, including those with which the call fails.", "anchors": ["pySLM2/_lib.py:calculate_dmd_grating", "pySLM2/_lib.py:calculate_lcos_slm_hologram", "pySLM2/slm.py:DMD.set_dmd_grating_state", "pySLM2/slm.py:DMD.circular_patch", "pySLM2/slm.py:DMD.calculate_dmd_state", "pySLM2/slm.py:LCOS_SLM.calculate_hologram", "pySLM2/simulation.py:SLMSimulation.__init__"]}
{"id": "C109", "title": "Devices without a hologram", "statement": "A new or reset LCOS SLM and a DMD switched on are plain mirrors in the simulation: the output field is the input field, the image is the diffraction pattern of the input (its modulus, and its phase too if both sides of the array have an even number of pixels) and no power is lost. A new DMD and a DMD switched off give a dark image with zero power.", "quantifier": "all devices, paddings and input fields", "why_tests_cant": "All sizes and input fields.", "anchors": ["pySLM2/slm.py:LCOS_SLM.reset_slm_state", "pySLM2/slm.py:DMD.set_dmd_state_on", "pySLM2/slm.py:DMD.set_dmd_state_off", "pySLM2/simulation.py:SLMSimulation.propagate_to_image"]}
{"id": "C110", "title": "Profiles and their samples are interchangeable", "statement": "Replacing any profile argument of a method of a DMD, of calculate_hologram or of propagate_to_image by a tensor or numpy array with the samples of the profile on the matching grid (profile_to_tensor with complex=True) changes nothing: every call has the same effect, result or exception, and so has every history of calls.", "quantifier": "all devices, profiles with defined samples, other arguments, methods and histories", "why_tests_cant": "For every profile, argument position, dtype and history.", "anchors": ["pySLM2/slm.py:SLM.profile_to_tensor", "pySLM2/slm.py:DMD.calculate_dmd_state", "pySLM2/slm.py:DMD.set_dmd_grating_state", "pySLM2/slm.py:DMD.circular_patch", "pySLM2/slm.py:LCOS_SLM.calculate_hologram", "pySLM2/simulation.py:SLMSimulation.propagate_to_image"]}
{"id": "C111", "title": "The choice of length units does not matter", "statement": "Giving wavelength, focal length and pixel size in units c times smaller, and magnifying every profile argument by c with rescale, leaves all results unchanged: the same DMD states over every history, the same eta, the same holograms, the same simulated fields and the same blocked part of the image; image and Fourier coordinates and first_order_origin are multiplied by c, and the powers by c squared.", "quantifier": "all devices, unit ratios other than 0, arguments, methods and histories", "why_tests_cant": "All devices, unit ratios, profiles and histories.", "anchors": ["pySLM2/slm.py:SLM.__init__", "pySLM2/slm.py:DMD.calculate_dmd_state", "pySLM2/slm.py:DMD.first_order_origin", "pySLM2/slm.py:LCOS_SLM.calculate_hologram", "pySLM2/simulation.py:SLMSimulation.propagate_to_image", "pySLM2/simulation.py:DMDSimulation.block_zeroth_order", "pySLM2/_lib.py:calculate_dmd_grating"]}
{"id": "C112", "title": "Hermite-Gaussian beams keep their shape in the focal plane", "statement": "A beam HermiteGaussian(x0, y0, a, w, n, m) on an SLM that does not modulate it is focused to the Hermite-Gaussian mode of the same order with waist wavelength*f/(pi*w), amplitude pi*w^2*a/(wavelength*f), phase i^(n+m) and a tilt given by the displacement. For every accuracy and every bounded part of the image plane, all simulations with small enough pixels and a large enough SLM show its modulus with that accuracy, and its phase too if both sides of the array have an even number of pixels.", "quantifier": "all orders n, m, centres, waists, amplitudes, accuracies, parts of the image plane, devices and paddings", "why_tests_cant": "A limit of pixel size and extent, for all orders; a test sees one order on one grid.", "anchors": ["pySLM2/simulation.py:SLMSimulation.propagate_to_image", "pySLM2/profile.py:HermiteGaussian"]}
{"id": "C113", "title": "LaguerreGaussian follows the textbook formula", "statement": "A LaguerreGaussian(x0, y0, a, w, l, p) has at (x, y) the value a (sqrt(2) r/w)^|l| L_p^|l|(2 r^2/w^2) exp(-r^2/w^2) exp(-i l phi), where r, phi are polar coordinates around (x0, y0) and L is the generalized Laguerre polynomial, that is, t^k L_p^k(t) = e^t/p! (d/dt)^p (e^-t t^(k+p)).", "quantifier": "all centres, amplitudes, waists other than 0, indices l of either sign and p >= 0, and points", "why_tests_cant": "An identity of functions for all indices; a test evaluates a few modes at a few points.", "anchors": ["pySLM2/profile.py:LaguerreGaussian"]}
{"id": "C114", "title": "Laguerre-Gaussian beams keep their shape in the focal plane", "statement": "A beam LaguerreGaussian(x0, y0, a, w, l, p) on an SLM that does not modulate it is focused to the Laguerre-Gaussian mode with the same indices (the same topological charge) with waist wavelength*f/(pi*w), amplitude pi*w^2*a/(wavelength*f), phase i^(2p+|l|) and a tilt given by the displacement. For every accuracy and every bounded part of the image plane, all simulations with small enough pixels and a large enough SLM show its modulus with that accuracy, and its phase too if both sides of the array have an even number of pixels.", "quantifier": "all indices l, p, centres, waists, amplitudes, accuracies, parts of the image plane, devices and paddings", "why_tests_cant": "A limit of pixel size and extent, for all indices; a test sees one mode on one grid.", "anchors": ["pySLM2/simulation.py:SLMSimulation.propagate_to_image", "pySLM2/profile.py:LaguerreGaussian"]}
{"id": "C115", "title": "Twin images", "statement": "calculate_hologram for the complex conjugate input field, the target turned by 180 degrees about the origin of the image plane (for mraf also the signal window turned and conjugated) and the opposite random draw shows the opposite phases, up to multiples of 2 pi, at every pixel, with the methods gs and mraf and every number of iterations, and the predicted image is the conjugate of the other one turned by 180 degrees.", "quantifier": "all devices, inputs, targets, signal windows, mixing factors, draws and numbers of iterations", "why_tests_cant": "A symmetry of an iteration of any length; a test runs a few iterations on one target.", "anchors": ["pySLM2/slm.py:LCOS_SLM.calculate_hologram", "pySLM2/_lib.py:gerchberg_saxton, mraf"]}
{"id": "C116", "title": "Moving the target moves the image", "statement": "calculate_hologram with method gs for a target moved (cyclically) by (p, q) image plane pixels, with the phase ramp that moves an image by (p, q) added to the random draw, shows the phases of the other hologram plus this ramp (up to multiples of 2 pi, on the illuminated pixels), for every number of iterations, and the predicted image is the other one moved by (p, q); provided that in no iteration the field from which a new phase is taken vanishes at an illuminated pixel.", "quantifier": "all devices, inputs, targets, displacements, draws and numbers of iterations", "why_tests_cant": "A symmetry of an iteration of any length; a test runs a few iterations on one target.", "anchors": ["pySLM2/slm.py:LCOS_SLM.calculate_hologram", "pySLM2/_lib.py:gerchberg_saxton"]}
{"id": "C117", "title": "Diffraction by a rectangle of mirrors", "statement": "If the field behind the SLM is a constant c on a rectangle of M x N pixels anywhere on the device and zero elsewhere, propagate_to_image gives, for every padding, a field of modulus |c| ps^2/(wavelength f) |sin(N pi ps x/(wavelength f))/sin(pi ps x/(wavelength f))| |sin(M pi ps y/(wavelength f))/sin(pi ps y/(wavelength f))| at the advertised coordinates (x, y). It is largest on the axis, |c| times the area of the rectangle over wavelength f, and vanishes where N ps x or M ps y is a multiple of wavelength f (other than those of the whole diffraction orders). Without padding a uniformly illuminated plain mirror gives a single bright pixel, the one at (Ny//2, Nx//2).", "quantifier": "all devices, rectangles, fields, paddings and image plane pixels", "why_tests_cant": "A formula over all rectangles and positions; a test evaluates a few on one grid.", "anchors": ["pySLM2/simulation.py:SLMSimulation.propagate_to_image"]}
{"id": "C118", "title": "From arrays of mirrors to the device", "statement": "After a successful load_single(dmd_state) on the ALP controller the device projects one picture in which the mirror in row i and column j of the array has the level 255 if it is on and 0 otherwise; after load_multiple(dmd_states) the pictures are the arrays, in order. Arrays of different widths (or none) are refused and nothing is projected any more. On the Luxbeam controller the display shows, after k triggers, array k (cyclically), mirror by mirror. number_image(i) needs an initialized controller, changes nothing on the device and returns an array of the shape of the device.", "quantifier": "all arrays, numbers of frames, mirrors, histories of calls and vendor failures", "why_tests_cant": "Every array size, every history and every failing vendor call; tests need the hardware and use one image.", "anchors": ["pySLM2/util/controller.py:ALPController.load_single, load_multiple, LuxbeamController.load_multiple, DMDControllerBase.number_image", "pySLM2/util/sample.py:number_image"]}
{"id": "C119", "title": "Aberrations and their correction", "statement": "Let the actual illumination be the assumed input times exp(i Phi) for an arbitrary aberration Phi. calculate_dmd_state returns the same eta with or without the aberration in input_profile. With it, the first order in the image is the target with the same factor as without aberration. Without it, the first order is the target in which every pixel is replaced by the point spread function of the aberration; this function is at most 1, and it is 1 at the centre exactly if the aberration is constant up to whole turns. The same holds for the average over the draws of method random, with sharp edges.", "quantifier": "all aberrations, inputs, targets, devices, paddings, signs of the order; for random the average over uniform draws in the limit of steep edges", "why_tests_cant": "The aberration is an arbitrary function on the pixels; the example script shows one Zernike term as a picture.", "anchors": ["pySLM2/slm.py:DMD.calculate_dmd_state", "pySLM2/simulation.py:SLMSimulation.propagate_to_image", "examples/aberration_correction.py"]}
{"id": "C120", "title": "The window of calculate_dmd_state", "statement": "The window multiplies the transform of the target. Where it is zero the mirrors are off: transmission 0 for method ideal, off for simple and random. The first order in the image is eta / 4 times (ideal; eta / pi for the average of random with sharp edges) the target in which every pixel is replaced by the point spread function of the window. A window of modulus at most 1 never lowers eta.", "quantifier": "all windows, inputs, targets, devices, paddings, signs of the order, draws", "why_tests_cant": "The window is an arbitrary function on the mirrors and the image depends on all of them; no test in the project looks at an image made with a window.", "anchors": ["pySLM2/slm.py:DMD.calculate_dmd_state", "pySLM2/simulation.py:SLMSimulation.propagate_to_image", "pySLM2/window.py:RectangularWindowRectangle", "pySLM2/window.py:RectangularWindowCircular"]}
{"id": "C121", "title": "What eta says about power", "statement": "For every method, eta squared times the power of the target is at most the power of the input. They are equal exactly if the modulus of the input is proportional to that of the transform of the target. The field that makes up the first order of an ideal hologram carries (eta / 4) squared times the power of the target, hence at most one sixteenth of the input.", "quantifier": "all inputs, targets, devices, methods, draws", "why_tests_cant": "An inequality over all fields with the case of equality; a test compares two numbers for one target.", "anchors": ["pySLM2/slm.py:DMD.calculate_dmd_state", "pySLM2/simulation.py:SLMSimulation.propagate_to_image"]}
{"id": "C122", "title": "Averaging over random holograms", "statement": "The same grating is computed with method random again and again with independent uniform draws and the holograms are shown one after the other. Almost surely, at every image pixel, the average of the fields tends to the image of the grey pattern with the duty values, and the average of the intensities (a long exposure) tends to the intensity of that image plus a background that is the same at every pixel. The mean squared deviation of the average of n fields is 1/n of that of one.", "quantifier": "all gratings, illuminations, devices, paddings; all sequences of independent uniform draws", "why_tests_cant": "A statement about infinite random sequences.", "anchors": ["pySLM2/slm.py:DMD.set_dmd_grating_state", "pySLM2/simulation.py:SLMSimulation.propagate_to_image"]}
{"id": "C123", "title": "A Gaussian beam can be turned into any target, and the example scripts do", "statement": "With a HermiteGaussian(n=0, m=0) of non-zero amplitude and waist as input - whatever its current parameters - mode matching succeeds with a finite non-zero eta for every target profile that is defined at the image plane pixels and not zero at all of them. A new DMDSimulation with any paddings propagates the input and blocks the zeroth order without an error, and near the first order (closer than half its distance from the axis) the image is untouched by the blocking: for method ideal it is eta/4 times the target plus the tails of the other two orders, for method random its mean over the draws is the sum of the diffraction orders, of which the first is eta/pi times the target for sharp edges. In particular this holds for the scripts create_donut_beam.py and create_multiple_gaussian_beam.py on a DLP9500, for any wavelength, focal length and waists.", "quantifier": "all DMDs, Gaussian beams, target profiles, keyword arguments, paddings; all uniform draws; all numbers in the two scripts", "why_tests_cant": "The scripts are run for one set of numbers and looked at; nothing checks that no beam and target make the ratio of the fields undefined.", "anchors": ["pySLM2/slm.py:DMD.calculate_dmd_state", "pySLM2/slm.py:SLM.profile_to_tensor", "pySLM2/simulation.py:DMDSimulation.block_zeroth_order", "pySLM2/profile.py:HermiteGaussian", "examples/create_donut_beam.py", "examples/create_multiple_gaussian_beam.py"]}
{"id": "C124", "title": "Gerchberg-Saxton improves the image also for targets with negative amplitudes", "statement": "For an input beam of uniform phase and any real target (positive, negative or of both signs, as the Hermite-Gaussian mode of the example scripts), more iterations of calculate_hologram with method gs, with the same random draw, never increase the squared error between the modulus of the predicted image and the modulus of the target.", "quantifier": "all LCOS devices, beams, targets, draws, iteration counts", "why_tests_cant": "One target, one seed and one iteration count show a single error; oscillation appears only for particular draws.", "anchors": ["pySLM2/_lib.py:_calculate_lcos_slm_hologram_gs", "pySLM2/slm.py:LCOS_SLM.calculate_hologram", "examples/create_gaussian_11_lcos_slm_gs.py", "examples/create_gaussian_11_lcos_slm_mraf.py"]}
{"id": "C125", "title": "The other example scripts work for all their numbers", "statement": "Under a HermiteGaussian(n=0, m=0) beam of non-zero waist, calculate_hologram succeeds with method gs, and with method mraf and a signal window profile, for every real target profile that is defined at the image plane pixels; the phases are in (-pi, pi] after at least one iteration, a new SLMSimulation with any paddings propagates the beam to an image of the padded shape, and this image holds all the power of the beam. In particular this holds for create_gaussian_11_lcos_slm_gs.py and create_gaussian_11_lcos_slm_mraf.py on a PLUTO_2 for all wavelengths, focal lengths, waists, windows, mixing factors and iteration counts. For aberration_correction.py on a DLP9500 (spherical aberration of any strength and radius): the hologram calculated for the aberrated beam shows the Gaussian target in the first order on average, the one calculated for the beam without the aberration shows the target blurred by the point spread function of the aberration, and blocking the zeroth order leaves the neighbourhood of the first order as it is.", "quantifier": "all wavelengths, focal lengths, waists, aberration strengths, window sizes, iteration counts, paddings, draws", "why_tests_cant": "The scripts are run for one set of numbers and looked at.", "anchors": ["pySLM2/slm.py:LCOS_SLM.calculate_hologram", "pySLM2/simulation.py:SLMSimulation.propagate_to_image", "pySLM2/profile.py:Zernike", "examples/create_gaussian_11_lcos_slm_gs.py", "examples/create_gaussian_11_lcos_slm_mraf.py", "examples/aberration_correction.py"]}
{"id": "C126", "title": "Random holograms are close to what was asked for, with explicit probability", "statement": "A grating with amplitudes in [0, 1] is set with method random with independent uniform draws, n times. At every pixel of the padded image, the probability that the average of the n image fields (for n = 1, the image of the hologram) differs from the image of a grey state with the duty values by eps or more is at most 4 exp(-n eps^2 / E), where E is (pixel_size^2 / (wavelength focal_length))^2 times the sum of the squared input field over the mirrors. The probability that it differs by eps or more anywhere in the image is at most the number of pixels times this.", "quantifier": "all DMDs, gratings, duty parameters, beams, paddings, frame counts, deviations and image pixels", "why_tests_cant": "A probability of a deviation over all draws cannot be seen from a few runs with few seeds.", "anchors": ["pySLM2/_lib.py:calculate_dmd_grating", "pySLM2/slm.py:DMD.set_dmd_grating_state", "pySLM2/simulation.py:SLMSimulation.propagate_to_image"]}
{"id": "C127", "title": "What method mraf works towards", "statement": "For an input beam of uniform phase, a non-negative target, a signal window that is 0 or 1 and a mixing factor m strictly between 0 and 1, more iterations of calculate_hologram with method mraf, with the same random draw, never increase the squared error, over the pixels of the signal window, between the modulus of the predicted image and m/(1-m) times the target; this error converges with the number of iterations. For a positive input amplitude, a hologram whose image is m/(1-m) times the target in the window, and anything outside, is left unchanged by further iterations.", "quantifier": "all LCOS devices, beams, targets, windows, mixing factors in (0, 1), draws, iteration counts", "why_tests_cant": "A monotone quantity of an iteration from a random start cannot be established from finitely many runs.", "anchors": ["pySLM2/_lib.py:_calculate_lcos_slm_hologram_mraf", "pySLM2/slm.py:LCOS_SLM.calculate_hologram"]}
{"id": "C128", "title": "More iterations of method mraf never make the image in the signal window worse", "statement": "For an input beam of uniform phase, a non-negative target, a signal window that is 0 or 1 and a mixing factor between 0 and 1, more iterations of calculate_hologram with method mraf, with the same random draw, never increase the squared error over the signal window between the modulus of the predicted image and the target.", "quantifier": "all LCOS devices, beams, targets, windows, mixing factors in (0, 1), draws, iteration counts", "why_tests_cant": "A monotone quantity of an iteration from a random start cannot be established from finitely many runs.", "anchors": ["pySLM2/_lib.py:_calculate_lcos_slm_hologram_mraf", "pySLM2/slm.py:LCOS_SLM.calculate_hologram"]}
{"id": "C129", "title": "Small faults of the SLM have small effects on the image", "statement": "For two propagations on SLMs of the same geometry with the same padding, the power of the difference of the two image fields is the power of the difference of the fields behind the SLMs, and at no image pixel do the fields differ by more than ps^2/(lambda f) times the sum of the differences on the SLM. So wrong mirrors of a DMD (stuck mirrors, a changed threshold) make an error of power equal to the beam's power on exactly these mirrors, and phase errors of at most delta, modulo whole turns, at the pixels of an LCOS SLM an error of power at most delta^2 times the input power.", "quantifier": "all devices, beams, SLM states, sets of wrong pixels, paddings", "why_tests_cant": "A bound on the effect of every set of faults cannot be established from finitely many fault patterns.", "anchors": ["pySLM2/simulation.py:SLMSimulation.propagate_to_image", "pySLM2/simulation.py:SLMSimulation.image_plane_pixel_area", "pySLM2/slm.py:SLM._state_tensor"]}
{"id": "C130", "title": "The scripts that drive a device show what they say", "statement": "load_images_luxbeam.py, for all failures of vendor calls, all timings and whatever the font paints: if the script is still running after Enter was pressed k times, not faster than the sequencer can follow, the display shows the image of the number 1 if k is even and of the number 2 if k is odd; without failures the script never stops. master_example.py: if it gets to its prompt, the device is in master mode and projects the images of 1 and 2 in turn; if it then gets to its end, the device is dark, released and holds no images.", "quantifier": "all numbers of presses, pauses, failures of vendor calls, sequencer timings, fonts, device sizes (Luxbeam)", "why_tests_cant": "The loop of the script is endless and the schedule of the sequencer is not under the control of a test.", "anchors": ["examples/load_images_luxbeam.py", "pySLM2/util/master_example.py", "pySLM2/util/controller.py:LuxbeamController.load_multiple", "pySLM2/util/sample.py:number_image"]}
{"id": "C131", "title": "Modes under rotations and reflections", "statement": "Zernike(n, m).rotate(t) with m > 0 is cos(m t) Zernike(n, m) - sin(m t) Zernike(n, -m), Zernike(n, -m).rotate(t) is cos(m t) Zernike(n, -m) + sin(m t) Zernike(n, m), and Zernike(n, 0) does not change. rescale_y(-1) keeps the modes with m >= 0 and negates the others, rescale_x(-1) does the same with a factor (-1)^m. A HermiteGaussian(n, m) on the axis becomes (-1)^n times HermiteGaussian(m, n) under rotate(pi/2), (-1)^(n+m) times itself under rotate(pi), and is multiplied by (-1)^n and (-1)^m by rescale_x(-1) and rescale_y(-1). Reflections turn LaguerreGaussian(l, p) on the axis into LaguerreGaussian(-l, p), with a factor (-1)^l for rescale_x(-1). Centred HermiteGaussian(0, 0), SuperGaussian and circular windows do not change under rotate.", "quantifier": "all valid indices, amplitudes, radii and waists, angles, points", "why_tests_cant": "Identities between functions of the plane for every index cannot be settled at sample points.", "anchors": ["pySLM2/profile.py:FunctionProfile.rotate", "pySLM2/profile.py:FunctionProfile.rescale_x", "pySLM2/profile.py:Zernike", "pySLM2/profile.py:HermiteGaussian", "pySLM2/profile.py:LaguerreGaussian"]}
{"id": "C132", "title": "Powers and overlaps of simulated beams are those of the modes", "statement": "For every accuracy there are a pixel size and an extent such that in every simulation with pixels at most that large and an SLM at least that large: get_input_power() of a HermiteGaussian(a, w, n, m) or LaguerreGaussian(a, w, l, p) beam is with that accuracy the power of the mode, a^2 2^(n+m) n! m! pi w^2/2 or a^2 (p+|l|)!/p! pi w^2/2, whatever the SLM shows; and without modulation the overlap of the image fields of two such beams with the same centre and waist is with that accuracy the overlap integral of the modes, so that different modes of a family have orthogonal images.", "quantifier": "all accuracies, modes, amplitudes, waists, centres, devices, states and paddings", "why_tests_cant": "A limit over pixel sizes and extents cannot be established from finitely many simulations.", "anchors": ["pySLM2/simulation.py:SLMSimulation.propagate_to_image", "pySLM2/simulation.py:SLMSimulation.get_input_power", "pySLM2/profile.py:HermiteGaussian", "pySLM2/profile.py:LaguerreGaussian"]}
{"id": "C133", "title": "The stroke of a Zernike mode", "statement": "For every valid pair of indices (n, m), amplitude a and positive radius R, the value of Zernike(a, R, n, m) at every point within the radius, and at every point if it is not extrapolated, is real and at most |a| in modulus, times the normalisation factor if it is normalised; at some point of the edge it equals a times that factor.", "quantifier": "all indices, amplitudes, radii, points and both settings of normalize and extrapolate", "why_tests_cant": "A bound at every point for every order cannot be established from finitely many evaluations.", "anchors": ["pySLM2/profile.py:Zernike"]}
{"id": "C134", "title": "The brightest possible pixel", "statement": "No state of a binary DMD and no hologram of an LCOS SLM makes the modulus of the image field at a pixel larger than if all the light of the beam arrived there in phase, ps^2/(lambda f) times the sum of the field amplitudes on the SLM. An LCOS SLM that shows the phases that steer the beam to a pixel reaches it. If the phases differ from these, after removing a constant and whole turns, by an amplitude-weighted mean square of sigma^2, the field there is at least 1 - sigma^2/2 of it.", "quantifier": "all devices, states, beams, paddings, pixels and phase errors", "why_tests_cant": "A bound over every possible hologram cannot be established from finitely many simulations.", "anchors": ["pySLM2/simulation.py:SLMSimulation.propagate_to_image", "pySLM2/slm.py:LCOS_SLM", "pySLM2/slm.py:DMD"]}
{"id": "C135", "title": "The speckle of the random start", "statement": "Before the first iteration (N = 0) of calculate_hologram, with either method and independent uniform draws, the simulated image is uniform speckle: at every pixel of the image plane the expected field is zero and the expected intensity is the same, (ps^2/(lambda f))^2 times the sum of the squared field amplitudes on the SLM, whatever the target.", "quantifier": "all LCOS devices, input beams, targets, paddings and image pixels", "why_tests_cant": "An expectation over continuous draws at every pixel cannot be established from finitely many runs.", "anchors": ["pySLM2/_lib.py:_calculate_lcos_slm_hologram_gs", "pySLM2/_lib.py:_calculate_lcos_slm_hologram_mraf", "pySLM2/simulation.py:SLMSimulation.propagate_to_image"]}
{"id": "C136", "title": "A simulated image as the target: perfect mode matching", "statement": "If the target of calculate_dmd_state is the image the simulation (without padding) computes for the same input beam, times any non-zero complex constant c, and every pixel of the simulated device either blocks the light or passes it with modulus one, then the returned eta is 1/|c|, the amplitude hologram is 1 exactly at the illuminated open pixels and 0 elsewhere, and its phase is the phase of the simulated field times c. In particular the image of the bare, everywhere non-zero beam times c > 0 gives eta = 1/c and, for methods ideal, simple and random, the mirrors of the plain grating set_dmd_grating_state(1, 0, 0).", "quantifier": "all DMDs, input beams, simulated devices and states, constants c, methods, keyword arguments and draws", "why_tests_cant": "The round trip through two Fourier transforms with every beam and every pattern is sampled by a test for one Gaussian beam and one device only.", "anchors": ["pySLM2/slm.py:DMD.calculate_dmd_state", "pySLM2/slm.py:DMD.set_dmd_grating_state", "pySLM2/simulation.py:SLMSimulation.propagate_to_image", "pySLM2/_lib.py:calculate_dmd_grating"]}
{"id": "C137", "title": "Rounding in the simulation", "statement": "If every elementary operation of propagate_to_image has a relative error of at most u <= 1/100 and the inverse FFT of the library is within tau of the exact transform (relative, in the root of the sum of squares), the computed image field is the exact one up to a relative error of exp(tau + 13 u) - 1, and the powers reported by get_input_power, get_output_power and get_image_plane_power are the exact ones up to exp((k+5) u) - 1, exp((k+11) u) - 1 and exp(2 tau + (k+39) u) - 1, where k is the longest chain of additions in np.sum, whatever the order. In double precision energy conservation and the independence of the padding therefore hold to the relative tolerance 1e-6 of the test suite for every input. The coordinates of the image plane grid have a relative error of at most exp(8 u) - 1, and block_zeroth_order misplaces only pixels whose squared distance from the axis is within a factor exp(45 u) of the squared radius.", "quantifier": "all devices, states, paddings, input fields, arithmetics of relative precision u, FFTs of accuracy tau, orders of summation and blocking radii", "why_tests_cant": "Rounding errors depend on every sample of every input; a test sees one input on one platform.", "anchors": ["pySLM2/simulation.py:SLMSimulation.propagate_to_image", "pySLM2/simulation.py:SLMSimulation.get_image_plane_power", "pySLM2/simulation.py:SLMSimulation.get_output_power", "pySLM2/simulation.py:SLMSimulation.get_input_power", "pySLM2/simulation.py:DMDSimulation.block_zeroth_order"]}
{"id": "C138", "title": "Binary holograms and the signal window of ifta", "statement": "With method 'ifta': (1) if s times the ideal grating is 0 or 1 at every illuminated mirror, the illuminated mirrors that are on are exactly those where it is 1, for every number of iterations and every signal window. (2) If the input field has the same phase everywhere (for instance a real one), only the symmetric part of the signal window matters: two windows whose sums with their own conjugate, turned by 180 degrees about the origin of the image plane, agree give the same mirrors (and, in calculate_dmd_state, the same efficiency). So a window around the one first order, around the other, and half of each are equivalent.", "quantifier": "all DMDs, amplitudes, phases, signal windows, input fields (of one phase in (2)), N and s", "why_tests_cant": "Equality of the results of all iterations for all pairs of windows cannot be shown by running some of them.", "anchors": ["pySLM2/_lib.py:_calculate_dmd_grating_ifta", "pySLM2/slm.py:DMD.set_dmd_grating_state", "pySLM2/slm.py:DMD.calculate_dmd_state"]}
{"id": "C139", "title": "A larger scale of method ifta never switches mirrors off", "statement": "With method 'ifta' and non-negative amplitudes, increasing the scale s (documented as the way to increase the diffraction efficiency), with all other arguments unchanged, never switches an illuminated mirror off.", "quantifier": "all DMDs, non-negative amplitudes, phases, inputs, signal windows, N and pairs s <= s'", "why_tests_cant": "Monotonicity in a real parameter for all inputs cannot be established from samples.", "anchors": ["pySLM2/_lib.py:_calculate_dmd_grating_ifta", "pySLM2/slm.py:DMD.set_dmd_grating_state"]}
{"id": "C140", "title": "Method ifta is never worse than method simple", "statement": "With s = 1, the squared error of the image over the signal window, against the image of the ideal grating, is not larger for the mirrors chosen by method 'ifta' than for those chosen by method 'simple'.", "quantifier": "all DMDs, amplitudes, phases, inputs, signal windows that are 0 or 1 and N", "why_tests_cant": "A comparison of two algorithms for all inputs cannot be established from samples.", "anchors": ["pySLM2/_lib.py:_calculate_dmd_grating_ifta", "pySLM2/_lib.py:_calculate_dmd_grating_simple", "pySLM2/slm.py:DMD.set_dmd_grating_state"]}
{"id": "C141", "title": "Adding an aberration to an LCOS hologram corrects it", "statement": "If the input beam has the phase aberration Phi, an LCOS SLM that shows the phases of a hologram plus Phi (plus a constant, plus whole turns per pixel) gives the image of the hologram with the beam without aberration: same intensities, same powers, and the field only multiplied by a constant phase. Subtracting the phase ramp 2 pi (x0 X + y0 Y)/(wavelength f) moves the image intensity by (x0, y0).", "quantifier": "all LCOS SLMs, paddings, input fields, holograms, aberrations, constants and displacements", "why_tests_cant": "The identity must hold for every beam and every aberration; a simulated example shows one of each.", "anchors": ["pySLM2/simulation.py:SLMSimulation.propagate_to_image", "pySLM2/slm.py:LCOS_SLM"]}
{"id": "C142", "title": "Negative paddings give no results, and grids of either sign are consistent", "statement": "The simulation constructors accept negative paddings. With one, no history of calls ever produces a result: all fields stay None and every propagation, blocking and power query raises. The padded grids and the pixel area nevertheless describe the plane of Nx + 2 padding_x by Ny + 2 padding_y pixels, cropped or extended, and raise if nothing is left of it.", "quantifier": "all devices, paddings of either sign, and histories of calls", "why_tests_cant": "Property of all histories and all integers as paddings.", "anchors": ["pySLM2/simulation.py:SLMSimulation.__init__", "pySLM2/simulation.py:SLMSimulation.propagate_to_image", "pySLM2/simulation.py:SLMSimulation.image_plane_padded_grid", "pySLM2/simulation.py:SLMSimulation.image_plane_pixel_area"]}
{"id": "C143", "title": "Precisions never mix", "statement": "In any program that configures the backend, makes profiles, composes them and calls them, all in any order, the values of a profile have the precision in force, they are complex exactly if a complex constituent occurs in the profile, a call fails only if the plain FunctionProfile occurs in it, and nothing done later changes the dtype of the values of a profile.", "quantifier": "all programs (finite sequences of backend accesses, constructions, compositions and calls), every accepted value of the precision", "why_tests_cant": "Property of all histories; a test fixes the precision once at the beginning.", "anchors": ["pySLM2/profile.py:FunctionProfile._make_attribute_func", "pySLM2/profile.py:FunctionProfile.__call__", "pySLM2/profile.py:ConstantProfile", "pySLM2/_backend.py:_BackEnd.dtype"]}
{"id": "C144", "title": "Rounding in mode matching", "statement": "calculate_dmd_state computed with every operation rounded to t significant bits, library functions within v of the exact ones and a transform of the target within delta of the exact one, relative to the largest ratio of transform to input: the amplitudes stay between 0 and 1 and reach 1; method 'simple' sets every mirror as the exact computation does unless its grey value is within 2g + 2v + 28/2^t + (2v + 16/2^t) K of 1/2, g = delta + 3 (v + 2^-t)(1 + delta), K being the radians of carrier between the centre and the pixel (0.0125 for float32 and delta = 1/1000 on every device of the library with a period of at least two pixels); method 'random' switches it on with the exact probability up to a similar bound; eta has a relative error of at most exp(2g + 9e) - 1. An FFT with relative error tau in the Euclidean norm satisfies the condition on delta if the input is nowhere too dim; without that condition the pattern can be wrong however small tau is, and one dark input pixel with a non-zero computed transform makes the whole pattern dark.", "quantifier": "all precisions t >= 4, monotone roundings, library errors v <= 1/16, FFT errors, devices, periods, angles, inputs, targets, windows, random draws, pixels", "why_tests_cant": "Tests compare a few patterns in one precision; the claim is about all roundings and all fields, and about which mirrors can differ.", "anchors": ["pySLM2/slm.py:DMD.calculate_dmd_state", "pySLM2/_lib.py:_fourier_transform", "pySLM2/_lib.py:calculate_dmd_grating"]}
{"id": "C145", "title": "Array arguments of any rank", "statement": "For array arguments of any rank and shape: a call of set_dmd_grating_state or calculate_dmd_state that succeeds leaves dmd_state with the smallest shape that all its array arguments and the grid fit by broadcasting, so it has the shape (Ny, Nx) exactly if every array argument fits (Ny, Nx); circular_patch and calls that raise never change the shape; on a dmd_state of the shape of the device circular_patch succeeds only with array arguments that fit this shape; in every history the last two axes of dmd_state have the lengths Ny and Nx (for Nx, Ny > 1), but a stack of k arrays is accepted and makes dmd_state a stack of k patterns; propagate_to_image succeeds only with a dmd_state of the shape of the device and a two-dimensional input, and then the output and image fields have the padded shape; calculate_hologram returns a hologram of the shape of the input, whatever the device.", "quantifier": "all ranks and shapes of all array arguments, all methods, all histories of calls, device sizes, paddings", "why_tests_cant": "Property of all shapes and histories; tests pass arrays of the shape of the device.", "anchors": ["pySLM2/slm.py:DMD.set_dmd_grating_state", "pySLM2/slm.py:DMD.circular_patch", "pySLM2/slm.py:DMD.calculate_dmd_state", "pySLM2/slm.py:LCOS_SLM.calculate_hologram", "pySLM2/simulation.py:SLMSimulation.propagate_to_image", "pySLM2/_lib.py:calculate_dmd_grating"]}
{"id": "C146", "title": "Several threads can share the library", "statement": "If the precision has been used before the threads start, or no thread assigns it, then however the threads of a program are scheduled: every read of a precision in any thread shows the one configured at start-up, every grid query returns the grid an uncached computation at that precision gives, every assignment of the precision raises AssertionError, and what a thread computes from this with its own objects does not depend on the other threads or the schedule (fft_backend left alone) and is what the single-threaded program computes; no thread ever waits for another; no grid cache ever exceeds its size or holds an object twice.", "quantifier": "any number of threads, all their programs, all schedules, cache sizes, start-up histories", "why_tests_cant": "Property of every interleaving; a test sees a few of them.", "anchors": ["pySLM2/_backend.py:_BackEnd.dtype", "pySLM2/slm.py:SLM._fourier_plane_pixel_grid", "pySLM2/slm.py:SLM._fourier_plane_grid", "pySLM2/slm.py:SLM._image_plane_grid", "pySLM2/simulation.py:SLMSimulation._image_plane_padded_grid", "pySLM2/simulation.py:SLMSimulation._fourier_plane_padded_grid"]}
{"id": "C147", "title": "The precision is frozen by its first use in any thread", "statement": "However the threads of a program are scheduled, once one of them has read a precision, all later reads in all threads show the same one, and all assignments raise AssertionError.", "quantifier": "any number of threads, all their programs, all schedules", "why_tests_cant": "Property of every interleaving; the failing one needs a switch between two lines of the setter.", "anchors": ["pySLM2/_backend.py:_BackEnd.dtype", "pySLM2/slm.py:SLM._fourier_plane_pixel_grid"]}
{"id": "C148", "title": "MRAF with a signal window that misses the image plane", "statement": "If the signal window is 0 at all pixels of the image plane, calculate_hologram with method 'mraf' succeeds and ignores the target: each illuminated pixel shows its random initial phase plus N times the phase of the input there (plus N times \u03c0 for a mixing factor above 1), so under a positive beam exactly the random draw, whatever N; with mixing factor 1 the hologram is 0 everywhere.", "quantifier": "all inputs, targets, random draws, mixing factors, numbers of iterations, device sizes", "why_tests_cant": "The call gives no error and a plausible-looking phase pattern; only the algebra shows that nothing was computed.", "anchors": ["pySLM2/slm.py:LCOS_SLM.calculate_hologram", "pySLM2/_lib.py:_calculate_lcos_slm_hologram_mraf"]}
{"id": "C149", "title": "CPU and GPU benchmark of a case calculate the same hologram for its target", "statement": "The two scripts of each benchmark case (gs, mraf, ifta, random) calculate, from the same random numbers, the same hologram, which depends on the target, for any constants in the scripts.", "quantifier": "all random draws, wavelengths, focal lengths, waists, window sizes, numbers of iterations", "why_tests_cant": "The scripts only print times; they never look at the holograms.", "anchors": ["pySLM2/runtime_benchmark/slm_mraf_cpu.py:task", "pySLM2/runtime_benchmark/slm_mraf_gpu.py:task", "pySLM2/runtime_benchmark/slm_gs_cpu.py:task", "pySLM2/runtime_benchmark/dmd_ifta_cpu.py:task", "pySLM2/runtime_benchmark/dmd_random_cpu.py:task"]}
{"id": "C150", "title": "Holograms that Gerchberg-Saxton never produces", "statement": "For a target that vanishes at some pixel, the phase patterns that calculate_hologram with method 'gs' cannot produce, with any input beam, random draw and positive number of iterations, are dense: there is one arbitrarily near to every phase pattern.", "quantifier": "all targets with a dark pixel, inputs, random draws, numbers of iterations, phase patterns, distances", "why_tests_cant": "A statement about all outputs of an iteration.", "anchors": ["pySLM2/slm.py:LCOS_SLM.calculate_hologram", "pySLM2/_lib.py:_calculate_lcos_slm_hologram_gs"]}
{"id": "C151", "title": "Rounding in Gerchberg-Saxton holograms", "statement": "In an arithmetic with relative error u per operation, complex exponentials and angles within v of the exact ones and Fourier transforms within \u03c4 of the exact ones, each further iteration of calculate_hologram with method 'gs' under a beam of uniform phase raises the root of the squared error between the modulus of the exact image of the computed phases and the target by at most 7u+4v+3\u03c4 times (root of the power in the image plus root of the sum of squares of the target): the error of N' iterations is at most the error of N iterations plus N'-N times that. In exact arithmetic the phases are those shown by the device.", "quantifier": "all roundings, transforms and library functions of the given accuracy, inputs of uniform phase, non-negative targets, random draws, numbers of iterations, device sizes", "why_tests_cant": "Rounding differs between CPU, GPU and library versions, and angles jump by whole turns; one run shows one rounding.", "anchors": ["pySLM2/slm.py:LCOS_SLM.calculate_hologram", "pySLM2/_lib.py:_calculate_lcos_slm_hologram_gs"]}
{"id": "C152", "title": "Rounding in MRAF holograms", "statement": "The same for method 'mraf' with a signal window and a mixing factor 0 < m < 1: each further iteration raises the root of the squared error, over the signal window, between the modulus of the exact image of the computed phases and m/(1-m) times the target by at most 28u+6v+5\u03c4 times (root of the power in the image plus root of the sum of squares of that multiple of the target in the window). In exact arithmetic the phases are those shown by the device.", "quantifier": "all roundings, transforms and library functions of the given accuracy, inputs of uniform phase, non-negative targets, windows, mixing factors between 0 and 1, random draws, numbers of iterations, device sizes", "why_tests_cant": "As for C151.", "anchors": ["pySLM2/slm.py:LCOS_SLM.calculate_hologram", "pySLM2/_lib.py:_calculate_lcos_slm_hologram_mraf"]}
{"id": "C153", "title": "Propagations that are cut short", "statement": "If a call on a simulation is cut short at any point (interrupted, or out of memory), the results it then reports belong to one propagation: either to the previous one or to the new one. Proved: the SLM and the paddings are untouched, every field is the old or the new one and a new image only appears with all other results new; a clear that is cut short has dropped the results in the order input, output, image; and the next propagation that succeeds makes the object the same as without the interruptions, also for every later call. False: that the fields belong together; a propagation cut short before its last assignment reports the input and output of the new propagation with the image of the previous one, so that there can be power in the image plane of a dark input, and on a fresh simulation block_zeroth_order no longer raises the TypeError that asks for a propagation.", "quantifier": "all simulations, inputs, histories of complete and interrupted calls, points of interruption", "why_tests_cant": "Interruptions between two statements cannot be timed by a test.", "anchors": ["pySLM2/simulation.py:SLMSimulation.propagate_to_image", "pySLM2/simulation.py:SLMSimulation.clear", "pySLM2/simulation.py:DMDSimulation.block_zeroth_order"]}
{"id": "C154", "title": "Conversion between Hermite-Gaussian and Laguerre-Gaussian modes", "statement": "At every point a LaguerreGaussian beam (l, p) equals the sum over k of explicit coefficients times the HermiteGaussian beams (2p+|l|-k, k) with the same centre, amplitude and waist, and a HermiteGaussian beam (n, m) equals the sum over k of explicit coefficients times the LaguerreGaussian beams with l = n+m-2k and p = min(k, n+m-k).", "quantifier": "all mode indices (l of either sign), centres, amplitudes, waists and points", "why_tests_cant": "The project tests only the first order mode at some points; the coefficients are alternating sums that grow with the order.", "anchors": ["pySLM2/profile.py:HermiteGaussian", "pySLM2/profile.py:LaguerreGaussian"]}
{"id": "C155", "title": "Objects that come and go", "statement": "Every device and simulation gets its own grids although the caches of the grid methods are keyed by object identity and the interpreter reuses the addresses of freed objects: each statement of a program that makes, copies, rebinds and deletes devices and simulations and asks for grids shows what it shows when variables hold the objects themselves, nothing is freed and every grid is computed afresh.", "quantifier": "all programs, all cache sizes, all placements of new objects and all moments at which unreferenced objects are freed", "why_tests_cant": "Address reuse depends on the allocator and on when objects die; a test sees one allocation pattern.", "anchors": ["pySLM2/slm.py:SLM._fourier_plane_grid", "pySLM2/slm.py:SLM._image_plane_grid", "pySLM2/simulation.py:SLMSimulation._image_plane_padded_grid", "pySLM2/simulation.py:SLMSimulation._fourier_plane_padded_grid"]}
{"id": "C156", "title": "Memory of dropped devices", "statement": "A device or simulation the program has dropped is freed. This is false of the code: one that was asked for a grid stays in memory. What is true: after any program at most seven times the cache size (7 * 128) objects the program cannot reach are still in memory, and each is one a grid was computed for or the device of such a simulation.", "quantifier": "all programs, all cache sizes, all placements of new objects, for an interpreter that frees unreferenced objects at once", "why_tests_cant": "The number of devices a program makes and drops is unbounded, and the project tests make only a few.", "anchors": ["pySLM2/slm.py:SLM._fourier_plane_grid", "pySLM2/slm.py:SLM._image_plane_grid", "pySLM2/simulation.py:SLMSimulation._image_plane_padded_grid", "pySLM2/simulation.py:SLMSimulation._fourier_plane_padded_grid"]}
{"id": "C157", "title": "Hermite-Gaussian profiles in floating point", "statement": "A Hermite-Gaussian profile evaluated in floating point differs from the mode it stands for by at most (exp(k) - 1) times the mode with its polynomials replaced by their majorants, where k is the error of the coefficients plus a few units of rounding per polynomial order, plus a few units of rounding times the squared distance from the centre in units of the width. For the fundamental Gaussian the error is relative to the value itself.", "quantifier": "all arithmetics with relative error at most u per operation and v per library function, all parameters with non-zero width, all orders, coefficients and points", "why_tests_cant": "the error has to stay small at every point and for every order, width and amplitude", "anchors": ["pySLM2/profile.py:HermiteGaussian", "pySLM2/profile.py:HermiteGaussian._func"]}
{"id": "C158", "title": "Super-Gaussian profiles and windows in floating point", "statement": "A super-Gaussian profile with non-negative power evaluated in floating point has a relative error of a few units of rounding plus the error of the exponent. Rectangular and circular windows evaluated in floating point are exactly 0 or 1 as they should be, except at points within a few units of rounding of an edge.", "quantifier": "all arithmetics with relative error at most u per operation and v per library function, all parameters and all points", "why_tests_cant": "edges can be tested at a few points only, and rounding decides differently at each", "anchors": ["pySLM2/profile.py:SuperGaussian._func", "pySLM2/window.py:RectangularWindowRectangle", "pySLM2/window.py:RectangularWindowCircular"]}
{"id": "C159", "title": "Laguerre-Gaussian profiles in floating point", "statement": "A Laguerre-Gaussian profile of positive width evaluated in floating point differs from the mode it stands for, as a complex number, by at most (exp(k) - 1) times the mode's amplitude with the polynomial replaced by its majorant, where k grows by a few units of rounding per radial order and per unit of azimuthal charge. This includes its centre and the branch cut of the angle, where the phase does not jump.", "quantifier": "all arithmetics with relative error at most u per operation and v per library function, all positive widths, all charges and orders, all points", "why_tests_cant": "the phase has to be right around the whole vortex and across the cut of the angle", "anchors": ["pySLM2/profile.py:LaguerreGaussian._func"]}
{"id": "C160", "title": "Zernike profiles in floating point", "statement": "A Zernike polynomial evaluated in floating point differs from its exact value by at most (exp(k) - 1) times the normalised amplitude with the radial polynomial replaced by its majorant, where k grows by a few units of rounding per radial order and azimuthal frequency. Unless it is extrapolated this holds except within a few units of rounding of the edge of its disc, where the value can be cut off wrongly.", "quantifier": "all arithmetics with relative error at most u per operation and v per library function, all orders and frequencies, all points off the edge and the origin", "why_tests_cant": "the error has to stay small at every point and order, and the cut at the edge depends on rounding", "anchors": ["pySLM2/profile.py:Zernike._func"]}
{"id": "C161", "title": "Luxbeam: calls that fail half-way, and programs that die", "statement": "Suppose any request to a Luxbeam may return, fail without effect, take effect although it fails, or be cut off in the middle of a transfer, and the program may die at any point and be started again while the device keeps its state. If the last initialize() returned, then a load that returns makes the display go through exactly its images in order, whatever was left on the device. A load that does not return leaves the device running on as before (its stop request was not carried out), or the display frozen on what it showed until the next initialize() or load, or, if only the reply to its last request was lost, going through exactly the new images. A controller made by a new program sends nothing before its own initialize().", "quantifier": "all histories of calls, failures of each of the four kinds, restarts of the program at any point, sequencer speeds, triggers and images", "why_tests_cant": "a failure can strike at every request of every history, and what a half-finished transfer leaves behind is arbitrary", "anchors": ["pySLM2/util/controller.py:LuxbeamController.initialize", "pySLM2/util/controller.py:LuxbeamController.load_single", "pySLM2/util/controller.py:LuxbeamController.load_multiple", "pySLM2/util/controller.py:LuxbeamController.fire_software_trigger"]}
{"id": "C162", "title": "ALP: calls that fail half-way", "statement": "Suppose any request to an ALP device may return, fail without effect, take effect although it fails, or be cut off in the middle of a transfer. A load_single or load_multiple that returns leaves the device running a sequence of exactly the given images. One that does not return leaves the device as it was (its stop request was not carried out), or projecting nothing, or, if only the reply to its last request was lost, projecting exactly the new images; a picture cut off in transfer is never projected.", "quantifier": "all histories of calls, failures of each of the four kinds at every request, and images", "why_tests_cant": "a failure can strike at every request of every history, and what a half-finished transfer leaves behind is arbitrary", "anchors": ["pySLM2/util/controller.py:ALPController.load_single", "pySLM2/util/controller.py:ALPController.load_multiple"]}
{"id": "C163", "title": "Attributes of profiles say and set what the profile is", "statement": "In any program that makes, composes and transforms profiles and assigns attributes, every constructor argument of a profile can be read back as an attribute of the same name, and an assignment to it either raises and changes nothing or makes the profile behave exactly like one constructed with the new value; the other objects keep their values.", "quantifier": "all programs (finite sequences of constructions, compositions and attribute assignments), all profile and window classes, all parameter names, all values", "why_tests_cant": "A test tries single assignments; this is about any interleaving of assignments to any number of objects, and the failing cases are silent.", "anchors": ["pySLM2/profile.py:LaguerreGaussian", "pySLM2/profile.py:Zernike", "pySLM2/profile.py:HermiteGaussian", "pySLM2/profile.py:SuperGaussian", "pySLM2/profile.py:ConstantProfile", "pySLM2/window.py:RectangularWindowRectangle", "pySLM2/window.py:RectangularWindowCircular"]}
{"id": "C164", "title": "Compiling profiles is invisible", "statement": "Profiles are compiled on their first call and the compiled code is reused. Whatever a program did before - profiles made, composed, attributes assigned, profiles called with arguments of any shapes - calling a profile gives the values it has with its parameters as they are now, never those at the time of compilation; the result, errors included, is the same as if nothing had been called before, calls change no profile, and after a successful call the profile is not compiled again for arguments of the same shapes, in particular not because a parameter was assigned.", "quantifier": "all programs (finite sequences of constructions, compositions, attribute assignments and calls), all profiles and windows, all argument tensors", "why_tests_cant": "Stale compiled code only shows for particular orders of compiling, assigning and calling, and composed profiles share the code of their parts; a test tries one order.", "anchors": ["pySLM2/profile.py:FunctionProfile", "pySLM2/profile.py:HermiteGaussian", "pySLM2/profile.py:LaguerreGaussian", "pySLM2/profile.py:SuperGaussian", "pySLM2/profile.py:Zernike", "pySLM2/profile.py:ConstantProfile", "pySLM2/window.py:RectangularWindowRectangle", "pySLM2/window.py:RectangularWindowCircular"]}
{"id": "C165", "title": "Threads that update one DMD", "statement": "Any number of threads call set_dmd_state_off, set_dmd_state_on, set_dmd_grating_state, circular_patch and calculate_dmd_state on one DMD, in any interleaving, where circular_patch writes its mirrors one after the other. dmd_state is what the calls begun so far give one after the other, the calls of each thread in their order, at every mirror that no patch under way has still to write; when all threads have ended it is so at every mirror; in any case a mirror then shows what a call wrote to it after which only patches of other threads wrote to it; no thread ever waits for another one.", "quantifier": "all numbers of threads, all programs of binary-method calls of the threads (successful or not), all schedules and moments of them, all devices and arguments", "why_tests_cant": "Which mirror is written before and after a switch between threads depends on timing; a test sees one of astronomically many interleavings, and rarely a bad one.", "anchors": ["pySLM2/slm.py:DMD.circular_patch", "pySLM2/slm.py:DMD.set_dmd_grating_state", "pySLM2/slm.py:DMD.calculate_dmd_state", "pySLM2/slm.py:DMD.set_dmd_state_on", "pySLM2/slm.py:DMD.set_dmd_state_off"]}
{"id": "C166", "title": "Threads that use one simulation", "statement": "Any number of threads call propagate_to_image, block_zeroth_order and clear on one simulation and update its SLM, in any interleaving. The simulation is as if the calls had been made one after the other; in any case each of input_field, output_field and image_plane_field is one that a single propagation of one thread gives, with one state the SLM has had, never a mixture.", "quantifier": "all numbers of threads, all programs of calls of the threads, all schedules and moments of them, all simulations, inputs and SLM states", "why_tests_cant": "The three fields are assigned one after the other and read again in between; whether they fit together depends on timing, which tests do not control.", "anchors": ["pySLM2/simulation.py:SLMSimulation.propagate_to_image", "pySLM2/simulation.py:SLMSimulation.clear", "pySLM2/simulation.py:DMDSimulation.block_zeroth_order"]}
{"id": "C167", "title": "Reading a DMD while other threads update it", "statement": "A thread calls pack_dmd_state while any number of other threads update the DMD, in any interleaving. What it returns or raises is what pack_dmd_state of the state at one moment of the call gives; in any case every bit is what the array that the device showed at one moment of the call had at this mirror at a moment of the call, and the call never waits for other threads.", "quantifier": "all numbers of threads that read and update, all programs of calls (successful or not, binary or grey), all schedules, all devices and arguments", "why_tests_cant": "The state is looked up twice and read mirror by mirror; the bad interleavings are rare and depend on timing that tests do not control.", "anchors": ["pySLM2/slm.py:DMD.pack_dmd_state", "pySLM2/slm.py:DMD.circular_patch", "pySLM2/slm.py:DMD.set_dmd_grating_state"]}
{"id": "C168", "title": "The disc of circular_patch in floating point", "statement": "In floating point the disc of circular_patch still has exactly the mirrors closer to the centre than half the diameter, if the centre is on a multiple of half a pixel (or any power of two fraction) and the diameter a whole number of pixels, up to 2048 in single precision; for any centre and diameter rounding can only matter at mirrors within a relative distance of a few units of rounding from the edge.", "quantifier": "all devices, centres, diameters, mirrors, previous states and patterns, all roundings with t significant bits (or relative error u)", "why_tests_cant": "Mirrors on the edge are decided by comparing two rounded squares; tests compare a few discs with a formula that rounds in the same way.", "anchors": ["pySLM2/slm.py:DMD._circular_mask", "pySLM2/slm.py:DMD.circular_patch", "pySLM2/slm.py:SLM._fourier_plane_pixel_grid"]}
{"id": "C169", "title": "A profile that is evaluated while other threads set its parameters", "statement": "If a thread evaluates a profile while others set parameters of other profiles, it gets the values of the profile. If one parameter of the profile is set meanwhile, it should get the values before or those after at all points. That holds for parameters that the expression reads once, and more generally a profile that reads every parameter once is evaluated with parameters each of which was current during the evaluation; it is false for the waist of a HermiteGaussian, which is read for x and for y (the result can be an elliptical beam that no parameters describe), and for a profile that occurs twice in an expression (f - f need not be 0).", "quantifier": "all profile expressions, contents of the variables at every read, points", "why_tests_cant": "The outcome depends on where a setter falls between the reads of one evaluation; tests use one thread.", "anchors": ["pySLM2/profile.py:HermiteGaussian", "pySLM2/profile.py:LaguerreGaussian", "pySLM2/profile.py:SuperGaussian", "pySLM2/profile.py:ConstantProfile", "pySLM2/profile.py:Zernike", "pySLM2/window.py:RectangularWindowRectangle", "pySLM2/window.py:RectangularWindowCircular"]}
{"id": "C170", "title": "The sampling errors of simulated Gaussian beams are exponentially small", "statement": "If a Gaussian beam of waist w (HermiteGaussian, n = m = 0) with its centre x0, y0 lies on a DMD with all mirrors on, then the simulated image is the ideal Gaussian spot of waist lambda f / (pi w) up to an error with two parts: what the Gaussian has outside the SLM, and aliases of the order exp(-(pi w / (2 ps))^2) for pixels of size ps. The input power is likewise amp^2 pi w^2 / 2 up to such an error.", "quantifier": "all SLM sizes, pixel sizes, wavelengths, focal lengths, paddings, waists, amplitudes, centres, pixels", "why_tests_cant": "A test compares a few beams with a tolerance; the error for other waists and pixel sizes cannot be read off it.", "anchors": ["pySLM2/simulation.py:SLMSimulation.propagate_to_image", "pySLM2/simulation.py:SLMSimulation.get_input_power", "pySLM2/profile.py:HermiteGaussian"]}
{"id": "C171", "title": "What the tests of the package check holds in exact arithmetic for all parameters", "statement": "The input power of a Gaussian beam on a DLP9500 is within 1e-3 of amp^2 pi w^2 / 2 for all waists between 0.1 mm and 3 mm; a beam of waist w_i on a DLP7000 gives the spot of waist w_f between 1 and 2 um within 1.5 % at every pixel, with the scaling of amplitudes of the test; paddings of half the size refine the image grid by two and divide the pixel area by four; with all mirrors on the energy is conserved for all inputs and paddings; uniform DMD states pack to uniform bytes; the Zernike modes up to n = 3 are those of Thibos et al. at all points.", "quantifier": "all waists of the ranges, amplitudes, paddings, fields, sizes, radii, points", "why_tests_cant": "The tests of the package check these for one or two waists, sizes and grids in floating point.", "anchors": ["pySLM2/simulation.py:SLMSimulation.get_input_power", "pySLM2/simulation.py:SLMSimulation.propagate_to_image", "pySLM2/slm.py:DLP7000", "pySLM2/slm.py:DLP9500", "pySLM2/slm.py:DMD.pack_dmd_state", "pySLM2/profile.py:Zernike"]}
{"id": "C172", "title": "Mode matching works for Gaussian beams also with the range of floating point numbers", "statement": "With a HermiteGaussian (n = m = 0) as input profile, numbers below about 1e-38 underflowing as in single precision (the default), calculate_dmd_state scales the amplitudes so that they lie in [0, 1] and reach 1. False: the beam is exactly 0 at every pixel that is 11 waists or more from its centre, so that one such pixel (a waist of 0.9 mm or less on a DLP9500) with a target that is not exactly 0 there makes eta = 0 and turns all mirrors off, without an exception. True when all pixels are within sqrt(80) waists.", "quantifier": "all arithmetics with that range, rounding and library accuracy, all SLM sizes, centres, waists, amplitudes, targets, windows, coordinates, random draws", "why_tests_cant": "Whether a mirror is on depends on an underflow at some far pixel; tests use beams that are wide compared with the device.", "anchors": ["pySLM2/profile.py:HermiteGaussian", "pySLM2/slm.py:DMD.calculate_dmd_state", "pySLM2/_backend.py:_BackEnd.dtype"]}
{"id": "C173", "title": "Vortex beams have finite values", "statement": "A LaguerreGaussian with finite parameters has finite values at all points. False in floating point: at 11 waists or more the exponential factor is 0, and if the power of the radius overflows there (|l| of 33 or more in single precision) the value is NaN for every amplitude and radial index. True as long as 4 max(|a|, 1) (1.5 R / w)^|l| times the radial polynomial at 2.1 (R / w)^2, with its coefficients made positive and at least 1, stays in the range, R being the largest distance from the centre.", "quantifier": "all arithmetics with the given range, rounding and library accuracy, all centres, waists, amplitudes, l, p, points", "why_tests_cant": "The NaN appears only for large l and far pixels.", "anchors": ["pySLM2/profile.py:LaguerreGaussian", "pySLM2/_backend.py:_BackEnd.dtype"]}
{"id": "C174", "title": "A NaN in the beams never gives a wrong pattern", "statement": "If the target of calculate_dmd_state has a NaN anywhere, every mirror is off (methods simple and random; every value is NaN for ideal), whatever the other arguments are. A NaN of the input or of the window turns off its own mirror. The call returns normally; with a maximum that is NaN for an array with NaN, the returned efficiency is NaN exactly if the target or the window has a NaN, or the input at a pixel where the windowed spectrum of the target is not 0, and then all mirrors are off. A NaN of the input where that spectrum is 0 changes nothing but its own mirror.", "quantifier": "all inputs, targets and windows with NaN at any pixels, all gratings, random draws, and every behaviour of the maximum on arrays with NaN", "why_tests_cant": "Tests do not pass NaN, and one cannot try all the places where it can be.", "anchors": ["pySLM2/slm.py:DMD.calculate_dmd_state", "pySLM2/slm.py:DMD._calc_amp_phase", "pySLM2/_lib.py:_fourier_transform", "pySLM2/_lib.py:calculate_dmd_grating"]}
{"id": "C175", "title": "A hologram has a NaN everywhere or nowhere", "statement": "calculate_hologram with one iteration or more gives a NaN at every pixel if the input, the target or (for mraf) the signal window has a NaN anywhere, and otherwise no NaN.", "quantifier": "all inputs, targets, signal windows with NaN at any pixels, mixing factors, numbers of iterations, random initial phases", "why_tests_cant": "The number of iterations and the places of the NaN are arbitrary.", "anchors": ["pySLM2/slm.py:LCOS_SLM.calculate_hologram", "pySLM2/_lib.py:_calculate_lcos_slm_hologram_gs", "pySLM2/_lib.py:_calculate_lcos_slm_hologram_mraf"]}
{"id": "C176", "title": "remove_trivial_phase never makes a phase map rougher", "statement": "The mean square of the phase map that remove_trivial_phase returns, taken over the aperture, is at most that of the given map, with and without remove_defocus; without remove_defocus it is equal only if the map is returned unchanged.", "quantifier": "all phase maps, sizes, radii", "why_tests_cant": "An inequality over all maps and apertures; small or elongated apertures are exceptions that a test on a large square array does not meet.", "anchors": ["pySLM2/analysis.py:remove_trivial_phase"]}
{"id": "C177", "title": "Repeating remove_trivial_phase removes piston and tilt completely", "statement": "If remove_trivial_phase is applied again and again to a phase map on a square array, the maps converge at every pixel of the aperture to the given map minus its best fitting plane (least squares), without any piston or tilt; what is left of each tilt after k calls is a geometric sequence.", "quantifier": "all phase maps, square arrays of any size, all radii with a non-empty aperture, any number of calls", "why_tests_cant": "It is a statement about limits of arbitrarily many calls.", "anchors": ["pySLM2/analysis.py:remove_trivial_phase"]}
{"id": "C178", "title": "zernike_decomposition computes Zernike series", "statement": "For every bounded phase on the disc that is continuous up to a set of measure zero (so also wrapped phases and masks), sampled on an array that contains the aperture: as the number of pixels grows, the coefficients of zernike_decomposition tend to the Zernike coefficients of the phase, and the mean square of the phase minus the reconstructed map tends to the smallest that combinations of these modes can have. With enough terms, and then enough pixels, it is as small as one likes.", "quantifier": "all such phases, all numbers of terms, all sequences of arrays and radii, with and without extrapolate", "why_tests_cant": "It is a statement about limits in the number of pixels and of terms, for all phases.", "anchors": ["pySLM2/analysis.py:zernike_decomposition", "pySLM2/analysis.py:ansi_j_to_n_m", "pySLM2/profile.py:Zernike"]}
{"id": "C179", "title": "A simulation of a DMD while other threads update the device", "statement": "If a thread calls propagate_to_image while others update the DMD, the three fields are those for the state that the device shows at one moment of the call. That holds if the others replace the state; if they make circular patches, the fields can be those of a state that the device never shows, each mirror of which is, however, one that the state looked up has at some moment of the call. The call never waits for the others.", "quantifier": "all programs of the threads, interleavings, inputs, paddings, orders in which the mirrors are copied", "why_tests_cant": "It depends on the interleaving of the copy made by tf.constant with masked assignments in other threads.", "anchors": ["pySLM2/simulation.py:propagate_to_image", "pySLM2/slm.py:_state_tensor", "pySLM2/slm.py:circular_patch"]}
{"id": "C180", "title": "Rounding in the analysis of phase maps", "statement": "In floating point, the aperture of remove_trivial_phase and zernike_decomposition consists of exactly the pixels inside the circle, provided that none lies almost on it (which holds for diameters of a whole number of pixels up to a bound of the order of the inverse root of the precision). The phase map returned by remove_trivial_phase, the coefficients and the reconstruction of zernike_decomposition are those of exact arithmetic up to an explicit bound relative to the largest phase: proportional to the precision, and to the longest chain of additions in the mean. Outside the aperture remove_trivial_phase returns the phase map unchanged, and the reconstruction is exactly zero unless it is extrapolated.", "quantifier": "all phase maps, array sizes, radii, numbers of terms, arithmetics of the stated accuracy, orders of summation", "why_tests_cant": "A bound of the rounding error for all inputs cannot be sampled, and one pixel on the wrong side of the edge changes every result.", "anchors": ["pySLM2/analysis.py:remove_trivial_phase", "pySLM2/analysis.py:zernike_decomposition", "pySLM2/profile.py:Zernike"]}
{"id": "C181", "title": "Rounding in method ifta", "statement": "In floating point, the holograms of method 'ifta' differ from those of exact arithmetic, weighted with the input field, by an explicit bound: each iteration adds at most the error of the starting hologram, a multiple of the precision times the root of the power of the beam, and the root of the power on mirrors whose value lies so close to a clipping level that the error may carry it across. As long as no mirror is near a level the error grows at most linearly with the number of iterations, and every illuminated mirror whose final value is not near 1/2 is in the state of the exact algorithm. The error of the starting hologram is bounded as for the grey grating. Mirrors without light are off whatever the rounding. For a binary target the computed pattern is the exact one.", "quantifier": "all targets, phases, beams, signal windows with values in the disc around 1/2, numbers of iterations up to a quarter of the inverse precision, arithmetics and transforms of the stated accuracy", "why_tests_cant": "How errors of two hundred transforms and clippings add up depends on every pixel of every iteration; runs on one machine show one arithmetic.", "anchors": ["pySLM2/slm.py:DMD.set_dmd_grating_state", "pySLM2/_lib.py:_ifta_binarize_hologram", "pySLM2/_lib.py:_calculate_dmd_grating_ifta", "pySLM2/_lib.py:_ifta_correct_profile"]}
{"id": "C182", "title": "NaN in method ifta", "statement": "With method 'ifta' and at least one iteration, a single NaN anywhere in the amplitudes or phases (set_dmd_grating_state), in the target or the window (calculate_dmd_state), in the input profile or in the signal window switches off every mirror of the DMD, and no exception is raised. The returned efficiency need not show it: if the NaN are only in the signal window, or in the input where the windowed spectrum of the target vanishes, the efficiency is that of the calculation without them. The ideal grating that the iteration starts from never holds an infinite value. Without NaN the patterns are those of the other properties.", "quantifier": "all DMDs, amplitudes, phases, targets, windows, inputs, signal windows, positions of the NaN, numbers of iterations and scales", "why_tests_cant": "How a NaN spreads depends on its position, on every transform in the loop and on the zeros of the input; tests place a few.", "anchors": ["pySLM2/slm.py:DMD.set_dmd_grating_state", "pySLM2/slm.py:DMD.calculate_dmd_state", "pySLM2/_lib.py:_calculate_dmd_grating_ifta", "pySLM2/_lib.py:_ifta_binarize_hologram", "pySLM2/_lib.py:_ifta_correct_profile"]}
{"id": "C183", "title": "Repeated blocking of the zeroth order", "statement": "After a propagation followed by any number of block_zeroth_order calls with any radii, mixed with changes of the DMD, the two fields at the SLM are still those of the propagation, and the image is that of the propagation except that it is zero inside the discs of all the calls. Order and repetition do not matter: only the largest disc counts. Calls with radius 0 change nothing.", "quantifier": "all histories of block_zeroth_order calls and DMD updates after a propagation, all radii including the default, fields, devices and paddings", "why_tests_cant": "The result depends on the whole sequence of calls; tests block once.", "anchors": ["pySLM2/simulation.py:DMDSimulation.block_zeroth_order", "pySLM2/simulation.py:SLMSimulation.propagate_to_image"]}
{"id": "C184", "title": "Threads that share one LCOS SLM", "statement": "Any number of threads call calculate_hologram and reset_slm_state on one LCOS SLM and read and assign slm_state, with programs that may depend on what they get. Whatever the schedule, the SLM and everything the threads have read and got back are as if the calls had been made one after the other in an order that respects time. At every moment the SLM shows one whole state, that of the start or of one call, never a mixture of holograms. No thread ever waits for another. Not promised: a thread that reads the state, adds a correction and assigns the sum may undo such a change of another thread.", "quantifier": "all LCOS SLMs, numbers of threads, client programs, arguments, schedules and moments of them", "why_tests_cant": "Schedules cannot be enumerated, and the ones that tests meet depend on the machine.", "anchors": ["pySLM2/slm.py:LCOS_SLM.calculate_hologram", "pySLM2/slm.py:LCOS_SLM.reset_slm_state"]}
{"id": "C185", "title": "Threads that share a Luxbeam controller", "statement": "Any number of threads load images into one initialized Luxbeam controller and fire software triggers, requests of the others may raise, and external triggers arrive at any moment. If no other thread is inside a load while one is made, the display stands still during it, and afterwards goes from what it showed to the first image, and then through the images in order, cyclically, leaving none out, and moves on at most once per trigger. This should hold for overlapping loads as well, but does not: then the display may go through images of different loads, although all calls return. Two software triggers fired at the same time may count as one.", "quantifier": "all initialized devices, numbers of threads, calls, images, interleavings of requests, sequencer instructions and external triggers, and failing requests of the other threads", "why_tests_cant": "Interleavings of threads with a sequencer that runs by itself cannot be enumerated.", "anchors": ["pySLM2/util/controller.py:LuxbeamController.load_multiple", "pySLM2/util/controller.py:LuxbeamController.load_single", "pySLM2/util/controller.py:LuxbeamController.fire_software_trigger"]}
{"id": "C186", "title": "Rounding in calculate_dmd_state with method ifta", "statement": "calculate_dmd_state(..., method='ifta') starts its iterations from s times the grey values that the same call with method 'ideal' stores, returns the same eta, and switches on the mirrors whose value exceeds 1/2 after N iterations. In floating point, with an FFT of given accuracy, the starting hologram (weighted with the input field) is off by at most an explicit bound in the resolution of the FFT, the precision, s and the number of radians of carrier; the error after each iteration is bounded explicitly by those before, the accuracy of the transforms and the power on mirrors that sit within the error of a clipping level; and a mirror whose exact final value is further from 1/2 than the bound is in the state that exact arithmetic gives. If no value comes that close to a clipping level or to 1/2, the whole pattern is the exact one.", "quantifier": "all input and target fields with the input lit where the target transform is not zero, amplitude and signal windows, devices, N, s, precisions from 10 bits, and FFTs of the given relative accuracy", "why_tests_cant": "Rounding errors depend on every input, and iterations propagate them.", "anchors": ["pySLM2/slm.py:DMD.calculate_dmd_state", "pySLM2/_lib.py:_calculate_dmd_grating_ifta"]}
{"id": "C187", "title": "Threads that share an ALP controller", "statement": "Any number of threads load images into one initialized ALP controller and query it, and vendor calls may raise. If no other thread is inside a load while one is made, then, when it returns, the device runs exactly the given images, until some thread begins another load, whatever happened before. If no vendor call raises and all threads have finished, the device runs a sequence with the number of pictures of one of the loads and the data of one of the loads; if only load_single was called, exactly one of the images. For overlapping loads these should be the number and the data of the same load, but they need not be: a load of one image that overlaps with a load of two may leave a sequence of two pictures that holds the data of one. A load_single may also return while the device runs a sequence to which nothing was transferred yet.", "quantifier": "all histories of the controller, numbers of threads, calls, images and interleavings of vendor calls, and failing vendor calls (of the other threads, or before)", "why_tests_cant": "Interleavings of threads cannot be enumerated.", "anchors": ["pySLM2/util/controller.py:ALPController.load_multiple", "pySLM2/util/controller.py:ALPController.load_single"]}
{"id": "C188", "title": "Vortex beams of high charge as targets", "statement": "Computing the state of a DMD for a Laguerre-Gaussian target returns an efficiency and turns mirrors on for every charge. It does so as long as the largest intermediate value of the profile stays within the range of the number format on the whole image plane: the target is then free of NaN, and the efficiency is NaN only if the input or the window is NaN somewhere. It is false of targets beyond: in single precision, a target of charge 33 or more whose waist is below 1/22 of the width of the image plane is NaN at a pixel of the image plane, and then, whatever the input, the window and the method, no mirror is turned on, and the efficiency that is returned is NaN, without an error; for an LCOS SLM, the hologram is NaN at every pixel from the first iteration on.", "quantifier": "all devices, positions, amplitudes, waists, charges, coefficients, inputs, windows, methods, random draws, and arithmetics with the range of single precision", "why_tests_cant": "The range of charges, waists and devices cannot be enumerated, and tests use small charges.", "anchors": ["pySLM2/profile.py:LaguerreGaussian", "pySLM2/slm.py:DMD.calculate_dmd_state", "pySLM2/slm.py:LCOS_SLM.calculate_hologram"]}
{"id": "C189", "title": "Threads that open, use and close an ALP controller", "statement": "Any number of threads call initialize(), close(), loads and queries of one new ALP controller, and vendor calls may raise. A vendor call of a load or a query of any thread comes after an initialize() of some thread has returned, all of whose vendor calls went through; and once an initialize() has returned, no call of any thread is refused. If the controller inverts and no vendor call raises, then, once an initialize() has returned and whenever no thread is inside one, the mirrors are inverted. If only one thread calls close(), it frees a sequence only if there is one. After a close() nothing reaches the device before the next initialize(): this is false, as a load of another thread that is under way goes on. Several threads may call close(): also false, as two of them may free the same sequence.", "quantifier": "all numbers of threads, calls, images, devices, interleavings of the steps of the calls, and failing vendor calls", "why_tests_cant": "Interleavings of threads cannot be enumerated.", "anchors": ["pySLM2/util/controller.py:ALPController.initialize", "pySLM2/util/controller.py:ALPController.close", "pySLM2/util/controller.py:ALPController.load_single"]}
{"id": "C190", "title": "Threads that initialize and use a Luxbeam controller", "statement": "Any number of threads initialize and use one new Luxbeam controller, requests may raise, and external triggers arrive at any moment. A request of a load or a software trigger of any thread comes after an initialize() of some thread has returned, all of whose requests went through; once an initialize() has returned, no call of any thread is refused, and the sequencer of the device holds the program of the controller. Until a load has made its last request, the display does not change. A load that returns should be shown if every initialize() began before it, but this is false: an initialize() of another thread that is still under way may make the device go through the first image only.", "quantifier": "all numbers of threads, calls, images, devices, interleavings of the steps of the calls, sequencer instructions and external triggers, and failing requests", "why_tests_cant": "Interleavings of threads cannot be enumerated.", "anchors": ["pySLM2/util/controller.py:LuxbeamController.initialize", "pySLM2/util/controller.py:LuxbeamController.load_multiple"]}
{"id": "C191", "title": "Super-Gaussian beams with the range of floating point numbers", "statement": "With overflow and underflow, a SuperGaussian of any positive order is a finite number at every point, has the sign of its amplitude or is 0, and does not exceed its amplitude by more than the rounding of one product: a power that overflows gives 0, not NaN. For orders of 1 and more it is exactly 0 from 11 waists on in x or in y, and within w/\u221a2 of its centre it is at least a third of its amplitude and the flatter the higher the order. So a super-Gaussian target of a DMD is free of NaN, and the efficiency is NaN only if the input or the window is NaN somewhere; the same holds for the hologram of an LCOS SLM.", "quantifier": "all positive orders, centres, amplitudes, waists, points, pixel counts, and all arithmetics with the given ranges and accuracies", "why_tests_cant": "Overflow depends on the order, the waist and the point together; tests evaluate a few points at moderate orders.", "anchors": ["pySLM2/profile.py:SuperGaussian", "pySLM2/slm.py:DMD.calculate_dmd_state"]}
{"id": "C192", "title": "Hermite-Gaussian beams have finite values", "statement": "A HermiteGaussian with finite parameters has finite values at all points. False in floating point: from 11 waists on the exponential factor is 0, and with n = 28 in single precision the polynomial is infinite there, so that the profile is NaN for every m and amplitude at all points 11 waists or more to the right of the centre; as a target of a DMD it turns all mirrors off and the efficiency is NaN, and the hologram of an LCOS SLM is NaN everywhere. True as long as 4 max(|a|, 1) times the two polynomials at 1.5 R / w, with their coefficients made positive and at least 1, stays in the range, R being the largest distance from the centre in x or in y.", "quantifier": "all centres, amplitudes, waists, points, orders in the positive part, pixel counts, and all arithmetics with the given ranges and accuracies", "why_tests_cant": "Overflow depends on the orders, the waist and the point together; tests evaluate low orders near the centre.", "anchors": ["pySLM2/profile.py:HermiteGaussian", "pySLM2/slm.py:DMD.calculate_dmd_state"]}
