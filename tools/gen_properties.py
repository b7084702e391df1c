#!/usr/bin/env python3
"""Source of /verif/properties.jsonl (kept as python for readability)."""
import json, os
P = []
def p(id, title, statement, quantifier, why, *anchors):
    P.append(dict(id=id, title=title, statement=statement, quantifier=quantifier,
                  why_tests_cant=why, anchors=list(anchors)))

B = "pySLM2/_backend.py"; S = "pySLM2/slm.py"; L = "pySLM2/_lib.py"; SIM = "pySLM2/simulation.py"
PR = "pySLM2/profile.py"; W = "pySLM2/window.py"; A = "pySLM2/analysis.py"; C = "pySLM2/util/controller.py"

# ---------------------------------------------------------------- backend
p("C01", "Precision is frozen by its first use",
  "In any program that interleaves reads of BACKEND.dtype / dtype_complex / dtype_int with attempts to set BACKEND.dtype, all reads ever made agree on one precision; a set attempted after any read raises AssertionError and changes nothing; a set with a value other than float32/float64 is rejected and changes nothing; before the first read the last accepted set wins.",
  "every finite history of reads and sets, with every value",
  "The library caches tensors and variables of the precision it saw; a test fixes one order of calls, the claim is about every interleaving.",
  f"{B}:_BackEnd.dtype", f"{B}:_BackEnd.dtype_complex", f"{B}:_BackEnd.dtype_int")
p("C02", "Real, complex and integer precisions always match",
  "Whatever was configured and whenever they are read, BACKEND.dtype, dtype_complex and dtype_int are either (float32, complex64, int32) or (float64, complex128, int64).",
  "every history of configuration and reads", "Needs all histories, including rejected configuration attempts.",
  f"{B}:_BackEnd")
p("C03", "The FFT backend selector never changes what is computed or locked",
  "Assigning BACKEND.fft_backend is possible at any time, never affects the precision or its lock, and a value equal to FFT_BACKEND_NUMPY selects the numpy transform while every other value selects the tensorflow one. Until the first assignment it is the tensorflow one on a machine with a GPU and the numpy one otherwise.",
  "every history, every assigned integer", "The selector is a mutable runtime switch; tests run with one value.",
  f"{B}:_BackEnd.fft_backend", f"{L}:_fourier_transform", f"{L}:_inverse_fourier_transform")
# ---------------------------------------------------------------- geometry
p("C04", "Pixel index and SLM coordinate conversions are mutual inverses",
  "Converting a (possibly fractional) pixel index to an SLM coordinate and back returns the same index, and converting a coordinate to a pixel index and back returns the same coordinate, for every SLM with non-zero pixel size.",
  "all device sizes, pixel sizes, real indices and real coordinates", "Infinite domain; tests check none of it.",
  f"{S}:SLM._convert_pixel_index_to_dmd_coordinate", f"{S}:SLM._convert_slm_coordinate_to_pixel_index")
p("C05", "Orientation and spacing of the Fourier plane grid",
  "fourier_plane_grid has shape (Ny, Nx); x depends only on the column and grows by pixel_size per column, y depends only on the row and falls by pixel_size per row, and pixel (Ny/2, Nx/2) is the origin when Nx, Ny are even.",
  "all device sizes and pixel sizes", "Holds per pixel for every device; tests only compare two grids of one device.",
  f"{S}:SLM._fourier_plane_grid", f"{S}:SLM.fourier_plane_grid")
p("C06", "Orientation, spacing and origin of the image plane grid",
  "image_plane_grid (and image_plane_padded_grid with the padded sizes) has the grid shape, x depends only on the column and grows by wavelength*focal_length/(Nx*pixel_size) per column, y depends only on the row and falls by wavelength*focal_length/(Ny*pixel_size) per row, with the optical axis at pixel (Ny//2, Nx//2) for both parities of Nx and Ny.",
  "all sizes (both parities), pixel sizes, wavelengths, focal lengths, paddings", "fftfreq/fftshift parity cases; tests use even sizes only.",
  f"{S}:SLM._image_plane_grid", f"{SIM}:SLMSimulation._image_plane_padded_grid")
p("C07", "Padding extends the Fourier plane grid without moving it",
  "Cropping padding_y rows and padding_x columns from each side of fourier_plane_padded_grid gives exactly fourier_plane_grid, and the padded grid continues it with the same spacing.",
  "all device sizes and paddings", "Tests check one device with padding N/2.",
  f"{SIM}:SLMSimulation._fourier_plane_padded_grid", f"{S}:SLM._fourier_plane_grid")
p("C08", "Padding refines the image plane grid",
  "If the padded size is an integer multiple c of the device size in a direction, the padded image plane coordinates taken every c pixels (starting so that the axis pixels coincide) are exactly the unpadded image plane coordinates.",
  "all sizes, all integer refinement factors", "Tests check factor 2 on one even device.",
  f"{SIM}:SLMSimulation._image_plane_padded_grid", f"{S}:SLM._image_plane_grid")
p("C09", "Reported pixel areas are the areas of a grid cell",
  "fourier_plane_pixel_area and image_plane_pixel_area equal the product of the horizontal and vertical spacings of fourier_plane_padded_grid and image_plane_padded_grid, for every device and padding.",
  "all devices and paddings", "Tests check one device.",
  f"{SIM}:SLMSimulation.fourier_plane_pixel_area", f"{SIM}:SLMSimulation.image_plane_pixel_area")
# ---------------------------------------------------------------- simulation
p("C10", "propagate_to_image computes Fraunhofer diffraction on the advertised grids",
  "After propagate_to_image(input), the image plane field at every pixel equals pixel_size^2/(wavelength*focal_length) times the sum over SLM pixels of input * modulation * exp(2*pi*i*(x*X + y*Y)/(wavelength*focal_length)), with (x,y) taken from image_plane_padded_grid and (X,Y) from fourier_plane_grid, for even device sizes; for odd sizes the same holds for the intensity.",
  "all devices, states, input fields, paddings, pixels", "Ties the FFT, both fftshifts, the sign of y and the normalisation together for every field; a test compares one Gaussian within 1%.",
  f"{SIM}:SLMSimulation.propagate_to_image", f"{L}:_inverse_fourier_transform", f"{S}:SLM._image_plane_grid")
p("C11", "Padding does not change the simulated field",
  "The image plane field of a padded simulation is a finer sampling of one and the same function of the image plane position: any two simulations of the same SLM and input, whatever their paddings, agree wherever their grids share a point.",
  "all pairs of paddings, devices, inputs, pixels", "Quantifies over pairs of runs.",
  f"{SIM}:SLMSimulation.propagate_to_image")
p("C12", "Energy conservation from SLM to image plane",
  "get_image_plane_power() equals get_output_power() after every propagate_to_image.",
  "all devices, states, inputs, paddings", "Parseval identity for all fields; test checks one Gaussian approximately.",
  f"{SIM}:SLMSimulation.get_image_plane_power", f"{SIM}:SLMSimulation.get_output_power")
p("C13", "Padding does not change the power",
  "get_input_power() and get_output_power() (and hence get_image_plane_power()) do not depend on padding_x, padding_y.",
  "all devices, states, inputs and paddings", "Quantifies over pairs of simulations.",
  f"{SIM}:SLMSimulation.get_input_power", f"{SIM}:SLMSimulation.propagate_to_image")
p("C14", "A binary DMD is passive and complementary states split the power",
  "For every boolean DMD state the output power is at most the input power, equals it for the all-on state, is zero for the all-off state, and the output powers of a state and of its complement add up to the input power.",
  "all states, inputs, devices, paddings", "Holds for every one of 2^(Nx*Ny) states.",
  f"{S}:DMD._state_tensor", f"{S}:DMD.set_dmd_state_on", f"{S}:DMD.set_dmd_state_off", f"{SIM}:SLMSimulation.get_output_power")
p("C15", "An LCOS SLM with a real phase hologram is lossless",
  "For every real-valued slm_state, output and image plane power equal the input power, pixel by pixel intensity is unchanged, and adding 2*pi to any pixel changes nothing.",
  "all phase holograms, inputs, devices, paddings", "All real phase maps.",
  f"{S}:LCOS_SLM._state_tensor", f"{SIM}:SLMSimulation.propagate_to_image")
p("C16", "Superposition",
  "For a fixed SLM state the simulated fields are linear in the input field: propagating a*u + b*v gives a times the field of u plus b times the field of v in every plane.",
  "all inputs, complex coefficients, devices, states, paddings", "Universal algebraic law.",
  f"{SIM}:SLMSimulation.propagate_to_image")
p("C17", "block_zeroth_order blanks exactly a disc around the axis",
  "block_zeroth_order(r) sets the image plane field to zero exactly at the pixels strictly closer than |r| to the optical axis and leaves every other pixel and both Fourier plane fields unchanged; it is idempotent and never increases the image plane power.",
  "all fields, radii, devices, paddings", "Per-pixel claim for all radii and grids.",
  f"{SIM}:DMDSimulation.block_zeroth_order")
p("C18", "Blocking the zeroth order spares the first order",
  "With the default radius the blocked disc never reaches a pixel located at (or beyond) the first order origin, or at its mirror image, for every periodicity and angle.",
  "all periodicities, angles, devices", "All periodicities and angles.",
  f"{SIM}:DMDSimulation.block_zeroth_order", f"{S}:DMD.first_order_origin")
p("C19", "Simulation lifecycle",
  "In any history of propagate_to_image, block_zeroth_order and clear: the output and image plane results are None until the first successful propagation and after clear (so is the input field until a propagation is attempted); block_zeroth_order raises TypeError exactly when there is no propagated result; power queries raise TypeError exactly when there is no result; after a successful propagation all results depend only on that input, the SLM state at that time and later block calls.",
  "every history of calls on a simulation with non-negative paddings (negative ones: C142)", "Property of histories.",
  f"{SIM}:SLMSimulation.clear", f"{SIM}:SLMSimulation.propagate_to_image", f"{SIM}:DMDSimulation.block_zeroth_order")
p("C20", "A failed propagation leaves the previous simulation result intact",
  "If propagate_to_image raises because the input does not fit the SLM, the results of the previous propagation are all still available and mutually consistent.",
  "all inputs of any shape, all earlier histories", "Needs every failure point.",
  f"{SIM}:SLMSimulation.propagate_to_image")
p("C21", "Simulation constructor argument checks",
  "SLMSimulation / DMDSimulation can be constructed exactly when the paddings are ints and the device is an SLM (a DMD for DMDSimulation); otherwise TypeError is raised.",
  "all argument kinds", "All combinations of argument kinds.",
  f"{SIM}:SLMSimulation.__init__", f"{SIM}:DMDSimulation.__init__")
# ---------------------------------------------------------------- DMD gratings
p("C22", "The ideal grating is a transmission between 0 and amp",
  "Method 'ideal' yields at each pixel a value between 0 and the amplitude requested there, so for amplitudes in [0,1] the state is in [0,1]; the value equals amp exactly where the grating phase matches the requested phase difference modulo 2*pi.",
  "all amplitudes, phases, positions, periods, angles", "Continuous domain.",
  f"{L}:_calculate_dmd_grating_ideal")
p("C23", "The ideal hologram reproduces the target exactly in the first order",
  "calculate_dmd_state(input, target, method='ideal') followed by propagate_to_image(input) (even device, no padding) gives an image plane field that is the sum of three terms, one of which is exactly eta/4 times the target's band-limited interpolation displaced by first_order_origin, where eta is the returned value; at grid points the interpolation is the target itself. The other two terms are the zeroth order and the opposite order.",
  "all input profiles non-vanishing where needed, all targets, periods, angles, devices", "Exact identity for all inputs; the test checks one target to 5%.",
  f"{S}:DMD.calculate_dmd_state", f"{S}:DMD._calc_amp_phase", f"{L}:_calculate_dmd_grating_ideal", f"{S}:DMD.first_order_origin", f"{SIM}:SLMSimulation.propagate_to_image")
p("C24", "negative_order puts the target in the opposite order",
  "With negative_order=True the same statement holds with the target displaced by minus first_order_origin; and negative_order=True gives the same DMD state as negative_order=False with theta increased by pi (for every method, same random draw).",
  "all inputs, targets, angles, methods", "All inputs.",
  f"{L}:_calculate_dmd_grating_ideal", f"{L}:_calculate_dmd_grating_random", f"{L}:_grating_phase")
p("C25", "Mode matching amplitudes are normalised",
  "Whenever the target is non-zero and the input does not vanish where the target's Fourier transform does not, the requested grating amplitude is in [0,1] at every pixel, reaches 1 at some pixel, is 0 exactly where the target's transform is 0, and eta is positive and finite.",
  "all inputs, targets, windows, devices", "All fields.",
  f"{S}:DMD._calc_amp_phase", f"{S}:DMD.calculate_dmd_state")
p("C26", "Scaling of target or input intensity rescales eta only",
  "Multiplying the target by a positive constant leaves the computed DMD state unchanged and divides eta by it; multiplying the input by a positive constant leaves the state unchanged and multiplies eta by it; a global phase on both input and target changes nothing.",
  "all inputs, targets, constants, methods, draws", "Metamorphic law over all inputs.",
  f"{S}:DMD._calc_amp_phase", f"{S}:DMD.calculate_dmd_state")
p("C27", "A vanishing target is rejected without touching the DMD",
  "calculate_dmd_state with a target that is zero everywhere raises an exception and leaves dmd_state as it was.",
  "all inputs, methods, previous states", "Exceptional path after a state update.",
  f"{S}:DMD.calculate_dmd_state")
p("C28", "An input beam that is dark where light is needed is reported, not silently accepted",
  "If the input field is exactly zero at a pixel where the target's transform is not, calculate_dmd_state does not silently return a useless hologram.",
  "all inputs and targets with this defect, all binary methods", "Division by zero path over all inputs.",
  f"{S}:DMD._calc_amp_phase", f"{L}:_calculate_dmd_grating_random", f"{L}:_calculate_dmd_grating_simple")
p("C29", "The simple method is the 0.5 threshold of the ideal grating",
  "Method 'simple' switches a mirror on exactly when the 'ideal' value for the same arguments exceeds 0.5; consequently no mirror is on where the amplitude is at most 0.5 and for amplitude 1 exactly the mirrors with cos(phase) > 0 are on.",
  "all arguments, all pixels", "All amplitudes and phases.",
  f"{L}:_calculate_dmd_grating_simple", f"{L}:_calculate_dmd_grating_ideal")
p("C30", "The random method is an unbiased dither of a well-defined duty function",
  "With method 'random' and r > 0, a mirror is on exactly when its uniform draw is below the duty value, which for amplitudes in [0,1] lies in [0,1); the probability of being on equals the duty value; amplitude 0 or outside [-1,1] (asin undefined) never switches a mirror on.",
  "all amplitudes, phases, steepness r > 0, all random draws", "Quantifies over all random draws.",
  f"{L}:_calculate_dmd_grating_random")
p("C31", "More requested amplitude never switches mirrors off",
  "For methods 'ideal', 'simple' and 'random' (same draw), increasing the amplitude within [0,1] at a pixel never decreases the value / never switches the mirror off.",
  "all pairs of amplitudes, phases, draws", "Monotonicity over all pairs.",
  f"{L}:_calculate_dmd_grating_ideal", f"{L}:_calculate_dmd_grating_simple", f"{L}:_calculate_dmd_grating_random")
p("C32", "Only the phase difference modulo 2*pi matters",
  "For 'ideal', 'simple', 'random': adding the same phase to phase_in and phase_out, or any integer multiple of 2*pi to either, leaves the DMD state unchanged.",
  "all phases, integers, methods, draws", "Universal invariance.",
  f"{L}:_calculate_dmd_grating_ideal", f"{L}:_calculate_dmd_grating_random")
p("C33", "The grating is periodic with the requested periodicity along theta",
  "For uniform amplitude and phases the ideal grating value is invariant under moving by periodicity*pixel_size along the direction theta and under any displacement perpendicular to it; between two such points it passes through the full range.",
  "all positions, periods, angles", "Universal invariance.",
  f"{L}:_grating_phase", f"{S}:DMD.__init__")
p("C34", "IFTA leaves dark input pixels off and returns a boolean state",
  "For N >= 1 the IFTA result is boolean and every mirror on which the input field is zero is off.",
  "all inputs, targets, windows, N, s", "All inputs and iteration counts.",
  f"{L}:_calculate_dmd_grating_ifta")
p("C35", "IFTA degenerates to the simple method when it has nothing to do",
  "With N=0, or with a signal window that is 1 everywhere, or with a signal window that is 0 everywhere, the IFTA result equals the threshold at 0.5 of s times the ideal grating on every illuminated mirror.",
  "all inputs, N, s in the stated cases", "Fixed-point property for all N.",
  f"{L}:_calculate_dmd_grating_ifta", f"{L}:_ifta_correct_profile", f"{L}:_ifta_binarize_hologram")
p("C36", "IFTA binarisation step",
  "For thresholds in [0, 1/2] the partial binarisation is idempotent, keeps values in [0,1], moves only values outside [t, 1-t], is absorbed by later (larger) thresholds, and the schedule of thresholds used is strictly increasing and ends at exactly 1/2.",
  "all values, thresholds, iteration counts", "All reals and all N.",
  f"{L}:_ifta_binarize_hologram", f"{L}:_calculate_dmd_grating_ifta")
p("C37", "DMD state shape and dtype over any history",
  "In every history of successful set_dmd_state_on/off, set_dmd_grating_state, circular_patch and calculate_dmd_state calls on a device with Nx, Ny > 1, dmd_state has shape (Ny, Nx); it is boolean unless the last whole-array update used method 'ideal', in which case it is float.",
  "every history of calls with every number, profile or two-dimensional array as an argument (arrays of other ranks: C145)", "Property of histories.",
  f"{S}:DMD.set_dmd_grating_state", f"{S}:DMD.circular_patch", f"{S}:DMD.calculate_dmd_state")
p("C38", "circular_patch changes only the disc",
  "circular_patch(i, j, ..., d) changes no mirror at distance >= |d|/2 from (i, j); inside the disc the new state is that of set_dmd_grating_state with the same arguments (when dtypes agree; a binary patch on a grey state writes 0 and 1, a grey patch on a binary state switches on the mirrors whose value is not 0); patches on disjoint discs commute.",
  "all centres, diameters, previous states, arguments", "Frame property for all pixels.",
  f"{S}:DMD.circular_patch", f"{S}:DMD._circular_mask")
p("C39", "A grey-scale patch shows the requested grey values",
  "circular_patch(..., method='ideal') writes the ideal grating values into the disc, whatever state the DMD had before.",
  "all previous states, arguments", "Depends on the dtype produced by the whole history.",
  f"{S}:DMD.circular_patch")
p("C40", "Failed DMD updates leave the state alone",
  "If set_dmd_grating_state, circular_patch or calculate_dmd_state raises because of an unknown method, a missing signal window or ill-shaped arguments, dmd_state is unchanged; an unknown method always raises ValueError.",
  "all method strings other than the four, all arguments, states", "All failure points.",
  f"{L}:calculate_dmd_grating", f"{S}:DMD.calculate_dmd_state")
p("C41", "pack_dmd_state is a faithful bit packing",
  "For every boolean state, pack_dmd_state returns ceil(Nx*Ny/8) bytes holding the mirrors in row-major order, most significant bit first, padded with zero bits; the state can be recovered from the bytes and different states of the same device give different bytes.",
  "all states and device sizes", "2^(Nx*Ny) states.",
  f"{S}:DMD.pack_dmd_state")
p("C42", "pack_dmd_state refuses grey-scale states",
  "pack_dmd_state raises TypeError exactly when the state is not boolean; in any history of successful calls this happens exactly when the last whole-array update used method 'ideal'.",
  "every history", "Property of histories.",
  f"{S}:DMD.pack_dmd_state")
p("C43", "Assigned arrays are shared: in-place and rebinding updates",
  "circular_patch updates the array object in place (so every other holder of that array sees it), whereas all other updates replace the array and leave previously obtained arrays unchanged.",
  "every history and every set of alias holders", "Aliasing over histories.",
  f"{S}:DMD.circular_patch", f"{S}:DMD.set_dmd_grating_state", f"{S}:DMD.set_dmd_state_off")
# ---------------------------------------------------------------- LCOS
p("C44", "Gerchberg-Saxton never makes the image worse",
  "For a non-negative real input amplitude and non-negative target amplitude, the squared error between the modulus of the image the algorithm's own propagation gives and the target never increases with the number of iterations N, for every random initial phase.",
  "all non-negative inputs, targets, sizes, N, initial phases", "Convergence monotonicity for all inputs and all N.",
  f"{L}:_calculate_lcos_slm_hologram_gs")
p("C45", "Gerchberg-Saxton corrects aberrated input beams",
  "The error monotonicity of the gs method also holds for complex-valued input profiles (input beams with phase aberration), which the API accepts.",
  "all complex inputs", "All inputs.",
  f"{L}:_calculate_lcos_slm_hologram_gs", f"{S}:LCOS_SLM.calculate_hologram")
p("C46", "The simulated LCOS image is the image the hologram was computed for",
  "Simulating the SLM with the computed hologram shows, at every image plane pixel, the modulus that the hologram algorithm's own forward propagation predicts there.",
  "all devices, inputs, holograms", "Sign convention shared by two modules, all fields.",
  f"{S}:LCOS_SLM._state_tensor", f"{L}:_calculate_lcos_slm_hologram_gs", f"{SIM}:SLMSimulation.propagate_to_image")
p("C47", "Hologram phase range",
  "calculate_hologram leaves a real slm_state of the grid shape; for N >= 1 every phase is in (-pi, pi], for N = 0 in [0, 2*pi).",
  "all inputs, targets, N, methods, initial phases", "All inputs.",
  f"{L}:_calculate_lcos_slm_hologram_gs", f"{L}:_calculate_lcos_slm_hologram_mraf", f"{S}:LCOS_SLM.calculate_hologram")
p("C48", "MRAF with a full signal window is Gerchberg-Saxton",
  "For signal window 1 everywhere and any mixing factor > 0, method 'mraf' gives exactly the hologram of method 'gs' for the same random initial phase and N.",
  "all inputs, targets, N, mixing factors > 0, initial phases", "Equality of two iterations for all N.",
  f"{L}:_calculate_lcos_slm_hologram_mraf", f"{L}:_calculate_lcos_slm_hologram_gs")
p("C49", "MRAF region weighting",
  "In each MRAF iteration, with mixing factor m and a 0/1 signal window, the corrected field has modulus m*target inside the window and (1-m) times the propagated field outside; with m=1 nothing outside the window is kept.",
  "all inputs, windows, m", "All inputs.",
  f"{L}:_calculate_lcos_slm_hologram_mraf")
p("C50", "Failed hologram calculations leave the SLM state alone",
  "calculate_hologram with an unknown method raises ValueError, with method 'mraf' and no signal_window raises KeyError, and in both cases slm_state is unchanged.",
  "all method strings, states, inputs", "All failure points.",
  f"{S}:LCOS_SLM.calculate_hologram", f"{L}:calculate_lcos_slm_hologram")
# ---------------------------------------------------------------- profiles
p("C51", "Profile arithmetic is pointwise arithmetic",
  "For all profiles f, g built by the API and numbers c: (f+g), (f-g), (f*g), (f/g), (-f), c+f, f+c, f-c, c*f, f*c, f/c evaluated at (x,y) equal the same operation on the values; the result is complex exactly when an operand is complex.",
  "all expression trees over profiles, all points", "Structural induction over arbitrarily nested expressions.",
  f"{PR}:FunctionProfile._make_attribute_func", f"{PR}:FunctionProfile.__add__")
p("C52", "Profile powers",
  "f ** k evaluates to the k-th power of the value for integer k >= 0 and for real exponents on positive values; exponents that are complex turn the result complex. (Complex-dtype profiles: at points where the value is not zero.)",
  "all profiles, exponents, points", "All exponents.",
  f"{PR}:FunctionProfile.__pow__")
p("C53", "Geometric transformations compose",
  "shift, rotate, rescale_x, rescale_y satisfy their documented pointwise formula; shift(a).shift(b) = shift(a+b), rotate(s).rotate(t) = rotate(s+t), rotate(0) and shift(0,0) are identities, shift and rotation can be undone, rescaling by m then 1/m is the identity for m != 0, and transformations distribute over profile arithmetic.",
  "all profiles, offsets, angles, factors, points", "Universal laws over nested expressions.",
  f"{PR}:FunctionProfile.shift", f"{PR}:FunctionProfile.rotate", f"{PR}:FunctionProfile.rescale_x", f"{PR}:FunctionProfile.rescale_y")
p("C54", "as_complex_profile is a unit-modulus phase factor",
  "For a real profile f, f.as_complex_profile() has modulus 1 everywhere, equals exp(i f), turns sums into products, and its product with (-f).as_complex_profile() is 1.",
  "all real profiles and points", "Universal law.",
  f"{PR}:FunctionProfile.as_complex_profile")
p("C55", "Composed profiles are live views of their parts",
  "Assigning a parameter (x0, y0, a, w, p, c, ...) of a profile changes the value of every profile composed from it exactly as if it had been composed after the assignment, and changes no profile that does not contain it; holograms computed earlier are not affected.",
  "every history of compositions and assignments", "Histories with aliasing.",
  f"{PR}:FunctionProfile._make_attribute_func", f"{PR}:HermiteGaussian", f"{W}:RectangularWindowRectangle")
p("C56", "HermiteGaussian follows its documented formula",
  "HermiteGaussian(x0,y0,a,w,n,m)(x,y) equals a*H_n(sqrt2 (x-x0)/w)*H_m(sqrt2 (y-y0)/w)*exp(-((x-x0)^2+(y-y0)^2)/w^2) with H_n the physicists' Hermite polynomial given by the Rodrigues formula of the docstring; mirroring x about x0 multiplies it by (-1)^n.",
  "all orders n, m, parameters with w != 0, points", "All orders and points.",
  f"{PR}:HermiteGaussian")
p("C57", "The fundamental modes coincide",
  "HermiteGaussian(n=m=0), SuperGaussian(p=1) and LaguerreGaussian(l=p=0) with the same x0,y0,a,w are the same function; it is bounded by a, attained only at the centre, and equals a/e at distance w.",
  "all parameters and points", "Continuous domain.",
  f"{PR}:HermiteGaussian", f"{PR}:SuperGaussian", f"{PR}:LaguerreGaussian")
p("C58", "Laguerre-Gaussian vortex symmetry",
  "LaguerreGaussian with index -l is the complex conjugate of the one with index l; rotating the profile about its own centre by t multiplies it by exp(-i l t); its modulus is rotationally symmetric; for l != 0 it vanishes at the centre.",
  "all l, p, parameters, points, angles", "All orders and points.",
  f"{PR}:LaguerreGaussian")
p("C59", "First-order Laguerre and Hermite modes are related",
  "-1j*(HG01 + 1j*HG10) with amplitude a equals LaguerreGaussian(l=1,p=0) with amplitude 2a at every point.",
  "all parameters and points", "Test checks one grid.",
  f"{PR}:LaguerreGaussian", f"{PR}:HermiteGaussian")
p("C60", "Zernike radial polynomials are normalised at the edge and bounded support",
  "For valid indices (|m| <= n, n-m even), the radial polynomial used equals 1 at rho=1; without extrapolation the profile is 0 beyond the radius and agrees with the extrapolated one inside.",
  "all valid (n, m), points, radii > 0", "All orders.",
  f"{PR}:Zernike")
p("C61", "Zernike modes are orthonormal over the aperture",
  "For normalised Zernike profiles with a=1 and valid indices, the average over the aperture disc of the product of two modes is 1 if the indices agree and 0 otherwise.",
  "all pairs of valid indices, all radii > 0", "Integral identity for infinitely many pairs.",
  f"{PR}:Zernike")
p("C62", "Zernike rejects invalid indices",
  "Zernike(a, radius, n, m) raises ValueError for every index pair that is not a Zernike mode (|m| > n or n-m odd).",
  "all integer pairs", "Infinite domain.",
  f"{PR}:Zernike.__init__")
p("C63", "Windows are exact indicator functions",
  "RectangularWindowRectangle is 1 exactly on the open rectangle of widths wx, wy around (x0,y0) and 0 elsewhere; RectangularWindowCircular is 1 exactly on the closed disc of radius |r|; hence windows are idempotent under multiplication and translate with shift.",
  "all parameters and points", "Boundary points.",
  f"{W}:RectangularWindowRectangle", f"{W}:RectangularWindowCircular")
# ---------------------------------------------------------------- profile_to_tensor
p("C64", "profile_to_tensor yields the grid shape and requested dtype",
  "profile_to_tensor returns a tensor of the requested kind (real or complex) whose shape is that of fourier_plane_grid, sampling profiles at the coordinates of the requested plane; complex values asked as real keep their real part.",
  "all profiles, arrays, numbers, devices", "All kinds of arguments.",
  f"{S}:SLM.profile_to_tensor")
p("C65", "Cached grids are transparent",
  "In any history of grid queries over any number of SLM objects (more than the cache size included), a grid query returns the same value as an uncached computation for that object.",
  "every query history and any number of objects", "Eviction histories.",
  f"{S}:SLM._fourier_plane_grid", f"{S}:SLM._image_plane_grid", f"{SIM}:SLMSimulation._image_plane_padded_grid")
# ---------------------------------------------------------------- analysis
p("C66", "ansi_j_to_n_m enumerates the Zernike modes",
  "ansi_j_to_n_m is a bijection from the natural numbers to the valid index pairs (|m| <= n, n-m even), ordered by n then m, with inverse (n(n+2)+m)/2; so Zernike never rejects its output.",
  "all indices", "Infinite domain with a square root and a ceiling.",
  f"{A}:ansi_j_to_n_m", f"{PR}:Zernike.__init__")
p("C67", "ansi_j_to_n_m is exact in double precision",
  "Evaluated in IEEE double precision (square root rounded to nearest or in any monotone way), ansi_j_to_n_m gives the exact result for every index below 2^50.",
  "all indices below 2^50, all monotone roundings", "10^15 inputs and rounding at perfect squares.",
  f"{A}:ansi_j_to_n_m")
p("C68", "remove_trivial_phase removes the mean",
  "After remove_trivial_phase (without defocus) the average of the returned phase map over the aperture is exactly zero, for every phase map, and adding a constant to the phase map does not change the result inside the aperture.",
  "all phase maps, sizes, radii with non-empty aperture", "All phase maps.",
  f"{A}:remove_trivial_phase")
p("C69", "remove_trivial_phase is linear and local",
  "remove_trivial_phase is linear in the phase map, its result depends only on pixels inside the aperture plus the pixel itself, and pixels outside the radius are returned unchanged.",
  "all phase maps, sizes, radii, with and without defocus", "All phase maps.",
  f"{A}:remove_trivial_phase")
p("C70", "remove_trivial_phase removes tilt completely",
  "Applied to a pure tilt (and hence to any map), remove_trivial_phase leaves no tilt component: the projections on both tilt modes vanish.",
  "all phase maps, sizes, radii", "Discretisation of the aperture for all sizes.",
  f"{A}:remove_trivial_phase")
p("C71", "zernike_decomposition structure",
  "zernike_decomposition returns num_terms coefficients; asking for fewer terms returns a prefix; it is linear in the phase map; the coefficients do not depend on extrapolate; the reconstructed profile is the sum of coefficient times mode.",
  "all phase maps, sizes, radii, num_terms", "All inputs.",
  f"{A}:zernike_decomposition")
p("C72", "zernike_decomposition recovers the coefficients",
  "Decomposing a phase map synthesised from num_terms Zernike coefficients returns those coefficients.",
  "all coefficient vectors, sizes, radii", "Tests check one random vector at 3 decimals.",
  f"{A}:zernike_decomposition", f"{PR}:Zernike")
# ---------------------------------------------------------------- controllers
p("C73", "No device access before initialization",
  "In any history, load_single, load_multiple, Nx, Ny and number_image of a controller raise and send nothing to the device unless initialize() has completed before.",
  "every call history", "Property of histories.",
  f"{C}:_check_initialization", f"{C}:DMDControllerBase", f"{C}:ALPController", f"{C}:LuxbeamController")
p("C74", "No device access after close",
  "After close() a controller refuses further load calls until it is initialized again.",
  "every call history", "Property of histories.",
  f"{C}:ALPController.close", f"{C}:DMDControllerBase.close")
p("C75", "ALP load_single shows the image at once",
  "After a successful ALPController.load_single the device is free-running and displaying that image without needing a trigger, whatever was loaded before.",
  "every call history", "Mode left behind by earlier calls.",
  f"{C}:ALPController.load_single", f"{C}:ALPController.load_multiple")
p("C76", "ALP frames are transferred in order and as full black/white levels",
  "load_single and load_multiple send exactly the given images, in order, row-major, each mirror as 255 (on) or 0 (off), into a sequence allocated for exactly that many pictures, which is the one started.",
  "all image lists and sizes", "All images.",
  f"{C}:ALPController.load_single", f"{C}:ALPController.load_multiple")
p("C77", "ALP on-board memory is released on close",
  "After any number of loads and a close, no sequence is left allocated by the controller's own frees.",
  "every call history", "Leaks depend on the history.",
  f"{C}:ALPController.close", f"{C}:ALPController.load_single")
p("C78", "Luxbeam steps cyclically through the last loaded images",
  "After any history of loads and triggers in which no software trigger raised, once load_multiple(images) (or load_single) returned with at least one image, k further triggers leave image k mod len(images) displayed; images left over from earlier loads are never displayed.",
  "every history of loads and triggers, every k and number of images", "Sequencer program executed for unbounded trigger sequences.",
  f"{C}:LuxbeamController.initialize", f"{C}:LuxbeamController.load_multiple", f"{C}:LuxbeamController.load_single", f"{C}:LuxbeamController.fire_software_trigger")

p("C79", "ALP inversion follows the constructor argument",
  "Whenever an ALP load succeeds, the device inverts the mirrors exactly when the controller was built with invert=True, whatever calls, failures, closes and re-initializations came before.",
  "every call history and every choice of failing vendor calls", "Crash points and histories.",
  f"{C}:ALPController.initialize", f"{C}:DMDControllerBase.is_initialized")
p("C80", "A failed Luxbeam load never shows a mixture",
  "If load_single or load_multiple of an initialized Luxbeam controller raises, at whatever device call, then either the request to stop the sequencer was itself refused and the device just runs on with the old images, or the display stays frozen on what it showed before, whatever triggers follow, until the next load or initialize.",
  "every history, crash point, sequencer timing and trigger sequence", "Crash points.",
  f"{C}:LuxbeamController.load_multiple", f"{C}:LuxbeamController.load_single")
p("C81", "Luxbeam shows the images in order whatever the trigger timing",
  "After a load, triggers arriving at any time (also while the sequencer is busy) and failing calls never make the display skip or reorder images: each call advances it by at most one image, and it never advances more often than there were triggers.",
  "every trigger timing and call sequence", "Concurrency of the sequencer with triggers.",
  f"{C}:LuxbeamController.initialize", f"{C}:LuxbeamController.load_multiple", f"{C}:LuxbeamController.fire_software_trigger")
p("C82", "A failed ALP load never shows a wrong image",
  "If load_single or load_multiple of an ALP controller raises, at whatever device call, then either nothing happened to the device at all or it projects nothing.",
  "every history and crash point", "Crash points.",
  f"{C}:ALPController.load_single", f"{C}:ALPController.load_multiple")
p("C83", "Each software trigger advances the display",
  "After a load, fire_software_trigger() that returns, given time, moves the Luxbeam display to the next image, whatever happened before.",
  "every history and crash point", "Crash points leave the sync line in a state the next call depends on.",
  f"{C}:LuxbeamController.fire_software_trigger")

p("C84", "A tilted field shifts the image",
  "Multiplying the field behind the SLM by a linear phase exp(2 pi i (x0 X + y0 Y)/(wavelength f)) shifts the simulated image by exactly (x0, y0): the field (for odd sizes, the intensity) at every image plane pixel is that of the untilted field at the displaced point.",
  "every field, tilt, padding and device", "All fields and tilts.",
  "pySLM2/simulation.py:SLMSimulation.propagate_to_image", "pySLM2/slm.py:SLM.fourier_plane_grid")
p("C85", "Symmetries of the simulated image",
  "A real field behind the SLM gives an image whose opposite pixels are complex conjugates, so both first orders carry the same intensity; turning the field behind the SLM by 180 degrees turns the image intensity by 180 degrees.",
  "every field, padding and device", "All fields.",
  "pySLM2/simulation.py:SLMSimulation.propagate_to_image")
p("C86", "Propagation preserves overlaps",
  "The overlap (sum of img * conj(img') times the pixel area) of two simulated images equals the overlap of the fields behind the SLM times the SLM pixel area; mode overlaps can be computed in either plane.",
  "every two fields, every padding and device", "All fields.",
  "pySLM2/simulation.py:SLMSimulation.propagate_to_image", "pySLM2/simulation.py:SLMSimulation.image_plane_pixel_area")

p("C87", "What method ifta computes",
  "Method ifta starts from s times the ideal grating; in each of N iterations it clips values below the threshold to 0 and above one minus the threshold to 1 (threshold rising linearly to 1/2), replaces the image by the wanted image to the extent given by the signal window in image plane pixels, goes back to the SLM, divides by the input field (0 where the input is dark) and keeps the real part; mirrors whose final value exceeds 1/2 are on.",
  "all devices, inputs, windows, amplitudes, phases, N and s", "The iteration is compared with its definition on all arrays, including the order of pixels of the window.",
  f"{L}:_calculate_dmd_grating_ifta", f"{L}:_ifta_correct_profile", f"{L}:_ifta_binarize_hologram", f"{S}:DMD.set_dmd_grating_state")
p("C88", "Units of the input and target do not matter to holograms",
  "Multiplying the input field and the target of calculate_hologram by positive numbers leaves the gs hologram unchanged; multiplying both by the same number leaves the mraf hologram unchanged (same random draw).",
  "all devices, inputs, targets, windows, draws and iteration numbers", "All arrays and scale factors.",
  f"{L}:_calculate_lcos_slm_hologram_gs", f"{L}:_calculate_lcos_slm_hologram_mraf", f"{S}:LCOS_SLM.calculate_hologram")
p("C89", "A perfect hologram is a fixed point of gs",
  "If after some number of iterations the predicted image of the gs hologram has exactly the target modulus, further iterations leave the hologram unchanged (modulo 2 pi), for real positive inputs.",
  "all devices, inputs, targets, draws and iteration numbers", "Unbounded number of iterations.",
  f"{L}:_calculate_lcos_slm_hologram_gs", f"{S}:LCOS_SLM.calculate_hologram")
p("C90", "First order amplitude of the grating methods",
  "Averaged over the grating phase (and the draws), the first diffraction order of a pixel with requested amplitude a has amplitude a/4 for method ideal, tends to a/pi for method random as r grows, and is sqrt(1-(1/a-1)^2)/pi for a in (1/2, 1] and 0 for a up to 1/2 for method simple; so ideal and random are linear in the request and simple is not.",
  "all devices, pixels, amplitudes and input phases; limit in r", "Averages over continuous parameters and a limit.",
  f"{L}:_calculate_dmd_grating_ideal", f"{L}:_calculate_dmd_grating_random", f"{L}:_calculate_dmd_grating_simple", f"{S}:DMD.set_dmd_grating_state")
p("C91", "Hermite-Gaussian modes are orthogonal and have a known power",
  "For two HermiteGaussian profiles with the same centre and waist the integral of E conj(E') over the plane is a a' 2^(n+m) n! m! pi w^2/2 if both indices agree and 0 otherwise.",
  "all indices, amplitudes, centres and waists", "An integral over the whole plane for all indices.",
  f"{PR}:HermiteGaussian")
p("C92", "Laguerre-Gaussian modes are orthogonal and have a known power",
  "For two LaguerreGaussian profiles with the same centre and waist the integral of E conj(E') over the plane is a a' (p+|l|)!/p! pi w^2/2 if both indices agree and 0 otherwise.",
  "all indices (l of either sign), amplitudes, centres and waists", "An integral over the whole plane for all indices.",
  "pySLM2/profile.py:LaguerreGaussian")
p("C93", "The simulated image approximates the diffraction integral",
  "If the field behind the SLM consists of samples of a field bounded by B that changes by at most L per unit length, every pixel of the image field differs from the Fraunhofer integral of that field over the area of the SLM by at most area/(lambda f) * pixel_size * (2L + 2 pi B (|xi|+|eta|)/(lambda f)); for even sizes this holds for the complex field, for all sizes for its modulus.",
  "all devices, paddings, image pixels, bounded Lipschitz fields", "A statement about integrals and all smooth fields; tests compare with one analytic case at a tolerance.",
  f"{SIM}:SLMSimulation.propagate_to_image", f"{S}:SLM.fourier_plane_grid")
p("C94", "A Gaussian beam is focused to the waist of Gaussian optics",
  "HermiteGaussian(x0, y0, a, w) sent to an SLM that does not modulate it gives an image field pi w^2 a/(lambda f) exp(-(xi^2+eta^2)/(lambda f/(pi w))^2) times the phase factor of the displacement, up to an explicit error of order pixel size and exp(-T^2/w^2), where T is the distance from the beam centre to the edges of the SLM.",
  "all devices, paddings, image pixels, beams that fit on the SLM", "All beam parameters and image positions, explicit error bound.",
  f"{SIM}:SLMSimulation.propagate_to_image", f"{PR}:HermiteGaussian")
p("C95", "The input power of a Gaussian beam",
  "For the same beam get_input_power() differs from pi w^2 a^2/2 by at most a^2 ((sqrt(pi/2) w + e)^2 - pi w^2/2), e = 2 pixel_size + sqrt(pi/2) w exp(-2T^2/w^2).",
  "all devices, paddings, beams that fit on the SLM", "All beam parameters, explicit error bound.",
  f"{SIM}:SLMSimulation.get_input_power", f"{PR}:HermiteGaussian")
p("C96", "The device models have the geometry of the devices",
  "DLP9500, DLP7000, DLP9000 and PLUTO_2 keep the given wavelength and focal length, are wider than tall, and the diagonal of the pixel array is the nominal diagonal (0.95, 0.7, 0.9, 0.7 inch) within 2 percent; their sizes are even, so the simulated complex field is exact on the advertised coordinates; each row of mirrors occupies whole bytes of pack_dmd_state.",
  "all device models, wavelengths, focal lengths, inputs and states", "The consequences range over all inputs and states; the constants are checked against independent data.",
  f"{S}:DLP9500", f"{S}:DLP7000", f"{S}:DLP9000", f"{S}:PLUTO_2", f"{S}:DMD.pack_dmd_state")
p("C97", "The random method adds white noise to the image of the grey grating",
  "With independent uniform draws, the expected simulated image field of a state set with method random is the image of the grey state with the duty values, and the mean squared deviation from it is the same number (pixel_size^2/(lambda f))^2 sum q(1-q)|u|^2 at every image pixel.",
  "all devices, gratings with amplitudes in [0,1], inputs, paddings, image pixels, probability spaces of draws", "Expectations over a continuous probability space, all inputs.",
  f"{L}:_calculate_dmd_grating_random", f"{S}:DMD.set_dmd_grating_state", f"{SIM}:SLMSimulation.propagate_to_image")
p("C98", "Mode matching gives the brightest hologram",
  "When calculate_dmd_state succeeds, no other choice of grating amplitudes between -1 and 1 that has the wanted field up to a factor has a larger factor than the returned eta.",
  "all devices, inputs, targets, windows, methods, keyword arguments and draws for which the call succeeds, and all competing amplitude patterns", "An optimality statement over all amplitude patterns.",
  f"{S}:DMD.calculate_dmd_state", f"{S}:DMD._calc_amp_phase")
p("C99", "The random method puts the target into the first order",
  "With uniform draws, the image field of calculate_dmd_state(method='random') averaged over the draws is the sum over all integers n of the image of diffraction order n displaced by n times the first order origin (with the sign of negative_order); as the steepness r grows the first order tends to eta/pi times the target. eta does not depend on the draws.",
  "all devices, inputs, targets that are not zero and lit, steepnesses, probability spaces of uniform draws, paddings and image pixels", "An infinite sum of orders and a limit, for all inputs.",
  f"{L}:_calculate_dmd_grating_random", f"{S}:DMD.calculate_dmd_state", f"{S}:DMD.first_order_origin", f"{SIM}:SLMSimulation.propagate_to_image")
p("C100", "The super-Gaussian tends to a top hat and has a known power",
  "SuperGaussian(x0, y0, a, w, p) follows its documented formula for every p > 0; as p grows it tends to a inside the circle of radius |w| and to 0 outside, and is a/e on the circle; its power is a^2 pi w^2 2^(-1/p) Gamma(1+1/p).",
  "all centres, amplitudes, non-zero widths, powers and points", "A limit and an integral over the plane.",
  "pySLM2/profile.py:SuperGaussian")
p("C101", "Separate patches superpose",
  "On a DMD that is off, any number of circular_patch calls whose discs have no mirror in common gives a simulated image field that is the sum of the image fields each patch alone would give, whatever the methods; a call that raises contributes nothing.",
  "all lists of patch calls with disjoint discs, all devices, inputs, paddings and image pixels", "Histories of any length, all arguments.",
  f"{S}:DMD.circular_patch", f"{SIM}:SLMSimulation.propagate_to_image")
p("C102", "Pixel coordinates survive rounding",
  "In arithmetic with t significant bits (float32: 24, float64: 53), on an array of at most 2^(t-4) pixels per side, the coordinates of the pixels are within a relative error of 3/2^t of the exact ones, different columns (rows) keep different coordinates in the right order, and converting the coordinates back and rounding to the nearest integer gives the pixel index.",
  "all precisions t >= 4, all roundings with relative error 2^-t that keep representable numbers, all array sizes up to the bound, pixel sizes and pixels", "All roundings and all pixels; a failure would depend on the pixel size.",
  f"{S}:SLM._convert_pixel_index_to_dmd_coordinate", f"{S}:SLM._convert_slm_coordinate_to_pixel_index", f"{S}:SLM.fourier_plane_grid", f"{B}:_BackEnd.dtype")
p("C103", "Rounding changes the simple pattern only near the threshold",
  "A mirror of the pattern of method 'simple', computed with every operation rounded to t significant bits and library functions within v of the exact ones, is in the state the exact formula gives unless its exact grey value is within |A| (v + 3/2^t + (2v + 16/2^t) K + 3/2^t |phase_out - phase_in|) of 1/2, K being the radians of carrier between the centre and the pixel. In float32 on every device of the library, with a period of at least two pixels, amplitudes up to 1 and phase differences up to 100 radians, this is less than 0.01.",
  "all precisions t >= 4, roundings, library errors v <= 1/16, devices, periods, angles, amplitudes, phases, pixels", "All roundings and inputs.",
  f"{L}:_grating_phase", f"{L}:_calculate_dmd_grating_ideal", f"{L}:_calculate_dmd_grating_simple", f"{B}:_BackEnd.dtype")
p("C104", "Rounding changes the random pattern with small probability",
  "With the same draw, a mirror of the pattern of method 'random' computed with every operation rounded to t significant bits and library functions within v of the exact ones differs from the exactly computed one only for draws in a set of measure at most |r| (2 (E + 2v + 3 sqrt v) + 16/2^t) + 2v + 3/2^t, E being the error of the phase.",
  "all precisions t >= 4, roundings, library errors v <= 1/16, devices, periods, angles, steepnesses, amplitudes in [-1, 1], phases, pixels", "All roundings and inputs, and a measure over draws.",
  f"{L}:_calculate_dmd_grating_random", f"{L}:_grating_phase", f"{B}:_BackEnd.dtype")
p("C105", "The last writer wins",
  "After any history of calls that use binary methods, every mirror shows what the last call that wrote to it wrote; failed calls write nothing and a circular patch writes only inside its circle. Repeating a call changes nothing, and calls before one that writes the whole array have no effect.",
  "all devices with more than one row and column, all histories of state-setting calls, all mirrors", "Histories of arbitrary length with failures and overlapping patches.",
  f"{S}:DMD.set_dmd_state_on", f"{S}:DMD.set_dmd_state_off", f"{S}:DMD.set_dmd_grating_state", f"{S}:DMD.circular_patch")
p("C106", "Gerchberg-Saxton settles",
  "For a non-negative input amplitude and a non-negative target amplitude the image error of method 'gs' converges as the number of iterations grows; among the first K iterations one improves it by at most a K-th part of the initial error. Every iteration improves it at least by the mean squared change of the phase factors, weighted by the input amplitude and the field of the corrected image, so these weighted changes tend to zero at every pixel.",
  "all sizes, amplitudes, initial phases and numbers of iterations", "A limit over the number of iterations.",
  f"{S}:LCOS_SLM.calculate_hologram", f"{L}:_calculate_lcos_slm_hologram_gs")
p("C107", "The steepness of the random method",
  "With method 'random' and steepness r, a mirror whose carrier phase is inside a grating line (half width asin(amp)) by at least e is on unless its draw is among the top 2 exp(-2 r e) of the unit interval, and a mirror outside all lines by at least e is off unless its draw is below exp(-2 r e). As r grows the pattern tends to the binary grating with sharp lines of that width, for every draw; with r not positive all mirrors are off.",
  "all devices, amplitudes in [0, 1], phases, draws, steepnesses and distances from the edges", "A limit over real steepness, for all amplitudes, phases and draws.",
  f"{L}:_calculate_dmd_grating_random", f"{S}:DMD.set_dmd_grating_state")
p("C108", "Omitted arguments",
  "Leaving out r, N, s or mixing_factor is the same as passing 10, 200, 1 and 0.4; r matters to method 'random' only, N, s, input_profile and signal_window to 'ifta' only, mixing_factor and signal_window to 'mraf' only. The method is 'random' on a DMD and 'gs' on an LCOS SLM, the order positive and the padding 0 if not given. set_dmd_grating_state() shows the plain grating with lines half a period wide.",
  "all devices, arguments (valid or not), methods and keyword arguments", "The equality must hold for all other arguments, including those with which the call fails.",
  f"{L}:calculate_dmd_grating", f"{L}:calculate_lcos_slm_hologram", f"{S}:DMD.set_dmd_grating_state", f"{S}:DMD.circular_patch", f"{S}:DMD.calculate_dmd_state", f"{S}:LCOS_SLM.calculate_hologram", f"{SIM}:SLMSimulation.__init__")
p("C109", "Devices without a hologram",
  "A new or reset LCOS SLM and a DMD switched on are plain mirrors in the simulation: the output field is the input field, the image is the diffraction pattern of the input (its modulus, and its phase too if both sides of the array have an even number of pixels) and no power is lost. A new DMD and a DMD switched off give a dark image with zero power.",
  "all devices, paddings and input fields", "All sizes and input fields.",
  f"{S}:LCOS_SLM.reset_slm_state", f"{S}:DMD.set_dmd_state_on", f"{S}:DMD.set_dmd_state_off", f"{SIM}:SLMSimulation.propagate_to_image")
p("C110", "Profiles and their samples are interchangeable",
  "Replacing any profile argument of a method of a DMD, of calculate_hologram or of propagate_to_image by a tensor or numpy array with the samples of the profile on the matching grid (profile_to_tensor with complex=True) changes nothing: every call has the same effect, result or exception, and so has every history of calls.",
  "all devices, profiles with defined samples, other arguments, methods and histories", "For every profile, argument position, dtype and history.",
  f"{S}:SLM.profile_to_tensor", f"{S}:DMD.calculate_dmd_state", f"{S}:DMD.set_dmd_grating_state", f"{S}:DMD.circular_patch", f"{S}:LCOS_SLM.calculate_hologram", f"{SIM}:SLMSimulation.propagate_to_image")
p("C111", "The choice of length units does not matter",
  "Giving wavelength, focal length and pixel size in units c times smaller, and magnifying every profile argument by c with rescale, leaves all results unchanged: the same DMD states over every history, the same eta, the same holograms, the same simulated fields and the same blocked part of the image; image and Fourier coordinates and first_order_origin are multiplied by c, and the powers by c squared.",
  "all devices, unit ratios other than 0, arguments, methods and histories", "All devices, unit ratios, profiles and histories.",
  f"{S}:SLM.__init__", f"{S}:DMD.calculate_dmd_state", f"{S}:DMD.first_order_origin", f"{S}:LCOS_SLM.calculate_hologram", f"{SIM}:SLMSimulation.propagate_to_image", f"{SIM}:DMDSimulation.block_zeroth_order", f"{L}:calculate_dmd_grating")
p("C112", "Hermite-Gaussian beams keep their shape in the focal plane",
  "A beam HermiteGaussian(x0, y0, a, w, n, m) on an SLM that does not modulate it is focused to the Hermite-Gaussian mode of the same order with waist wavelength*f/(pi*w), amplitude pi*w^2*a/(wavelength*f), phase i^(n+m) and a tilt given by the displacement. For every accuracy and every bounded part of the image plane, all simulations with small enough pixels and a large enough SLM show its modulus with that accuracy, and its phase too if both sides of the array have an even number of pixels.",
  "all orders n, m, centres, waists, amplitudes, accuracies, parts of the image plane, devices and paddings", "A limit of pixel size and extent, for all orders; a test sees one order on one grid.",
  f"{SIM}:SLMSimulation.propagate_to_image", f"{PR}:HermiteGaussian")
p("C113", "LaguerreGaussian follows the textbook formula",
  "A LaguerreGaussian(x0, y0, a, w, l, p) has at (x, y) the value a (sqrt(2) r/w)^|l| L_p^|l|(2 r^2/w^2) exp(-r^2/w^2) exp(-i l phi), where r, phi are polar coordinates around (x0, y0) and L is the generalized Laguerre polynomial, that is, t^k L_p^k(t) = e^t/p! (d/dt)^p (e^-t t^(k+p)).",
  "all centres, amplitudes, waists other than 0, indices l of either sign and p >= 0, and points", "An identity of functions for all indices; a test evaluates a few modes at a few points.",
  f"{PR}:LaguerreGaussian")
p("C114", "Laguerre-Gaussian beams keep their shape in the focal plane",
  "A beam LaguerreGaussian(x0, y0, a, w, l, p) on an SLM that does not modulate it is focused to the Laguerre-Gaussian mode with the same indices (the same topological charge) with waist wavelength*f/(pi*w), amplitude pi*w^2*a/(wavelength*f), phase i^(2p+|l|) and a tilt given by the displacement. For every accuracy and every bounded part of the image plane, all simulations with small enough pixels and a large enough SLM show its modulus with that accuracy, and its phase too if both sides of the array have an even number of pixels.",
  "all indices l, p, centres, waists, amplitudes, accuracies, parts of the image plane, devices and paddings", "A limit of pixel size and extent, for all indices; a test sees one mode on one grid.",
  f"{SIM}:SLMSimulation.propagate_to_image", f"{PR}:LaguerreGaussian")
p("C115", "Twin images",
  "calculate_hologram for the complex conjugate input field, the target turned by 180 degrees about the origin of the image plane (for mraf also the signal window turned and conjugated) and the opposite random draw shows the opposite phases, up to multiples of 2 pi, at every pixel, with the methods gs and mraf and every number of iterations, and the predicted image is the conjugate of the other one turned by 180 degrees.",
  "all devices, inputs, targets, signal windows, mixing factors, draws and numbers of iterations", "A symmetry of an iteration of any length; a test runs a few iterations on one target.",
  f"{S}:LCOS_SLM.calculate_hologram", f"{L}:gerchberg_saxton, mraf")
p("C116", "Moving the target moves the image",
  "calculate_hologram with method gs for a target moved (cyclically) by (p, q) image plane pixels, with the phase ramp that moves an image by (p, q) added to the random draw, shows the phases of the other hologram plus this ramp (up to multiples of 2 pi, on the illuminated pixels), for every number of iterations, and the predicted image is the other one moved by (p, q); provided that in no iteration the field from which a new phase is taken vanishes at an illuminated pixel.",
  "all devices, inputs, targets, displacements, draws and numbers of iterations", "A symmetry of an iteration of any length; a test runs a few iterations on one target.",
  f"{S}:LCOS_SLM.calculate_hologram", f"{L}:gerchberg_saxton")
p("C117", "Diffraction by a rectangle of mirrors",
  "If the field behind the SLM is a constant c on a rectangle of M x N pixels anywhere on the device and zero elsewhere, propagate_to_image gives, for every padding, a field of modulus |c| ps^2/(wavelength f) |sin(N pi ps x/(wavelength f))/sin(pi ps x/(wavelength f))| |sin(M pi ps y/(wavelength f))/sin(pi ps y/(wavelength f))| at the advertised coordinates (x, y). It is largest on the axis, |c| times the area of the rectangle over wavelength f, and vanishes where N ps x or M ps y is a multiple of wavelength f (other than those of the whole diffraction orders). Without padding a uniformly illuminated plain mirror gives a single bright pixel, the one at (Ny//2, Nx//2).",
  "all devices, rectangles, fields, paddings and image plane pixels", "A formula over all rectangles and positions; a test evaluates a few on one grid.",
  f"{SIM}:SLMSimulation.propagate_to_image")
p("C118", "From arrays of mirrors to the device",
  "After a successful load_single(dmd_state) on the ALP controller the device projects one picture in which the mirror in row i and column j of the array has the level 255 if it is on and 0 otherwise; after load_multiple(dmd_states) the pictures are the arrays, in order. Arrays of different widths (or none) are refused and nothing is projected any more. On the Luxbeam controller the display shows, after k triggers, array k (cyclically), mirror by mirror. number_image(i) needs an initialized controller, changes nothing on the device and returns an array of the shape of the device.",
  "all arrays, numbers of frames, mirrors, histories of calls and vendor failures", "Every array size, every history and every failing vendor call; tests need the hardware and use one image.",
  f"{C}:ALPController.load_single, load_multiple, LuxbeamController.load_multiple, DMDControllerBase.number_image", "pySLM2/util/sample.py:number_image")
p("C119", "Aberrations and their correction",
  "Let the actual illumination be the assumed input times exp(i Phi) for an arbitrary aberration Phi. calculate_dmd_state returns the same eta with or without the aberration in input_profile. With it, the first order in the image is the target with the same factor as without aberration. Without it, the first order is the target in which every pixel is replaced by the point spread function of the aberration; this function is at most 1, and it is 1 at the centre exactly if the aberration is constant up to whole turns. The same holds for the average over the draws of method random, with sharp edges.",
  "all aberrations, inputs, targets, devices, paddings, signs of the order; for random the average over uniform draws in the limit of steep edges", "The aberration is an arbitrary function on the pixels; the example script shows one Zernike term as a picture.",
  f"{S}:DMD.calculate_dmd_state", f"{SIM}:SLMSimulation.propagate_to_image", "examples/aberration_correction.py")
p("C120", "The window of calculate_dmd_state",
  "The window multiplies the transform of the target. Where it is zero the mirrors are off: transmission 0 for method ideal, off for simple and random. The first order in the image is eta / 4 times (ideal; eta / pi for the average of random with sharp edges) the target in which every pixel is replaced by the point spread function of the window. A window of modulus at most 1 never lowers eta.",
  "all windows, inputs, targets, devices, paddings, signs of the order, draws", "The window is an arbitrary function on the mirrors and the image depends on all of them; no test in the project looks at an image made with a window.",
  f"{S}:DMD.calculate_dmd_state", f"{SIM}:SLMSimulation.propagate_to_image", f"{W}:RectangularWindowRectangle", f"{W}:RectangularWindowCircular")
p("C121", "What eta says about power",
  "For every method, eta squared times the power of the target is at most the power of the input. They are equal exactly if the modulus of the input is proportional to that of the transform of the target. The field that makes up the first order of an ideal hologram carries (eta / 4) squared times the power of the target, hence at most one sixteenth of the input.",
  "all inputs, targets, devices, methods, draws", "An inequality over all fields with the case of equality; a test compares two numbers for one target.",
  f"{S}:DMD.calculate_dmd_state", f"{SIM}:SLMSimulation.propagate_to_image")
p("C122", "Averaging over random holograms",
  "The same grating is computed with method random again and again with independent uniform draws and the holograms are shown one after the other. Almost surely, at every image pixel, the average of the fields tends to the image of the grey pattern with the duty values, and the average of the intensities (a long exposure) tends to the intensity of that image plus a background that is the same at every pixel. The mean squared deviation of the average of n fields is 1/n of that of one.",
  "all gratings, illuminations, devices, paddings; all sequences of independent uniform draws", "A statement about infinite random sequences.",
  f"{S}:DMD.set_dmd_grating_state", f"{SIM}:SLMSimulation.propagate_to_image")
p("C123", "A Gaussian beam can be turned into any target, and the example scripts do",
  "With a HermiteGaussian(n=0, m=0) of non-zero amplitude and waist as input - whatever its current parameters - mode matching succeeds with a finite non-zero eta for every target profile that is defined at the image plane pixels and not zero at all of them. A new DMDSimulation with any paddings propagates the input and blocks the zeroth order without an error, and near the first order (closer than half its distance from the axis) the image is untouched by the blocking: for method ideal it is eta/4 times the target plus the tails of the other two orders, for method random its mean over the draws is the sum of the diffraction orders, of which the first is eta/pi times the target for sharp edges. In particular this holds for the scripts create_donut_beam.py and create_multiple_gaussian_beam.py on a DLP9500, for any wavelength, focal length and waists.",
  "all DMDs, Gaussian beams, target profiles, keyword arguments, paddings; all uniform draws; all numbers in the two scripts", "The scripts are run for one set of numbers and looked at; nothing checks that no beam and target make the ratio of the fields undefined.",
  f"{S}:DMD.calculate_dmd_state", f"{S}:SLM.profile_to_tensor", f"{SIM}:DMDSimulation.block_zeroth_order", f"{PR}:HermiteGaussian", "examples/create_donut_beam.py", "examples/create_multiple_gaussian_beam.py")
p("C124", "Gerchberg-Saxton improves the image also for targets with negative amplitudes",
  "For an input beam of uniform phase and any real target (positive, negative or of both signs, as the Hermite-Gaussian mode of the example scripts), more iterations of calculate_hologram with method gs, with the same random draw, never increase the squared error between the modulus of the predicted image and the modulus of the target.",
  "all LCOS devices, beams, targets, draws, iteration counts", "One target, one seed and one iteration count show a single error; oscillation appears only for particular draws.",
  f"{L}:_calculate_lcos_slm_hologram_gs", f"{S}:LCOS_SLM.calculate_hologram", "examples/create_gaussian_11_lcos_slm_gs.py", "examples/create_gaussian_11_lcos_slm_mraf.py")
p("C125", "The other example scripts work for all their numbers",
  "Under a HermiteGaussian(n=0, m=0) beam of non-zero waist, calculate_hologram succeeds with method gs, and with method mraf and a signal window profile, for every real target profile that is defined at the image plane pixels; the phases are in (-pi, pi] after at least one iteration, a new SLMSimulation with any paddings propagates the beam to an image of the padded shape, and this image holds all the power of the beam. In particular this holds for create_gaussian_11_lcos_slm_gs.py and create_gaussian_11_lcos_slm_mraf.py on a PLUTO_2 for all wavelengths, focal lengths, waists, windows, mixing factors and iteration counts. For aberration_correction.py on a DLP9500 (spherical aberration of any strength and radius): the hologram calculated for the aberrated beam shows the Gaussian target in the first order on average, the one calculated for the beam without the aberration shows the target blurred by the point spread function of the aberration, and blocking the zeroth order leaves the neighbourhood of the first order as it is.",
  "all wavelengths, focal lengths, waists, aberration strengths, window sizes, iteration counts, paddings, draws", "The scripts are run for one set of numbers and looked at.",
  f"{S}:LCOS_SLM.calculate_hologram", f"{SIM}:SLMSimulation.propagate_to_image", f"{PR}:Zernike", "examples/create_gaussian_11_lcos_slm_gs.py", "examples/create_gaussian_11_lcos_slm_mraf.py", "examples/aberration_correction.py")
p("C126", "Random holograms are close to what was asked for, with explicit probability",
  "A grating with amplitudes in [0, 1] is set with method random with independent uniform draws, n times. At every pixel of the padded image, the probability that the average of the n image fields (for n = 1, the image of the hologram) differs from the image of a grey state with the duty values by eps or more is at most 4 exp(-n eps^2 / E), where E is (pixel_size^2 / (wavelength focal_length))^2 times the sum of the squared input field over the mirrors. The probability that it differs by eps or more anywhere in the image is at most the number of pixels times this.",
  "all DMDs, gratings, duty parameters, beams, paddings, frame counts, deviations and image pixels", "A probability of a deviation over all draws cannot be seen from a few runs with few seeds.",
  f"{L}:calculate_dmd_grating", f"{S}:DMD.set_dmd_grating_state", f"{SIM}:SLMSimulation.propagate_to_image")
p("C127", "What method mraf works towards",
  "For an input beam of uniform phase, a non-negative target, a signal window that is 0 or 1 and a mixing factor m strictly between 0 and 1, more iterations of calculate_hologram with method mraf, with the same random draw, never increase the squared error, over the pixels of the signal window, between the modulus of the predicted image and m/(1-m) times the target; this error converges with the number of iterations. For a positive input amplitude, a hologram whose image is m/(1-m) times the target in the window, and anything outside, is left unchanged by further iterations.",
  "all LCOS devices, beams, targets, windows, mixing factors in (0, 1), draws, iteration counts", "A monotone quantity of an iteration from a random start cannot be established from finitely many runs.",
  f"{L}:_calculate_lcos_slm_hologram_mraf", f"{S}:LCOS_SLM.calculate_hologram")
p("C128", "More iterations of method mraf never make the image in the signal window worse",
  "For an input beam of uniform phase, a non-negative target, a signal window that is 0 or 1 and a mixing factor between 0 and 1, more iterations of calculate_hologram with method mraf, with the same random draw, never increase the squared error over the signal window between the modulus of the predicted image and the target.",
  "all LCOS devices, beams, targets, windows, mixing factors in (0, 1), draws, iteration counts", "A monotone quantity of an iteration from a random start cannot be established from finitely many runs.",
  f"{L}:_calculate_lcos_slm_hologram_mraf", f"{S}:LCOS_SLM.calculate_hologram")
p("C129", "Small faults of the SLM have small effects on the image",
  "For two propagations on SLMs of the same geometry with the same padding, the power of the difference of the two image fields is the power of the difference of the fields behind the SLMs, and at no image pixel do the fields differ by more than ps^2/(lambda f) times the sum of the differences on the SLM. So wrong mirrors of a DMD (stuck mirrors, a changed threshold) make an error of power equal to the beam's power on exactly these mirrors, and phase errors of at most delta, modulo whole turns, at the pixels of an LCOS SLM an error of power at most delta^2 times the input power.",
  "all devices, beams, SLM states, sets of wrong pixels, paddings", "A bound on the effect of every set of faults cannot be established from finitely many fault patterns.",
  f"{SIM}:SLMSimulation.propagate_to_image", f"{SIM}:SLMSimulation.image_plane_pixel_area", f"{S}:SLM._state_tensor")
p("C130", "The scripts that drive a device show what they say",
  "load_images_luxbeam.py, for all failures of vendor calls, all timings and whatever the font paints: if the script is still running after Enter was pressed k times, not faster than the sequencer can follow, the display shows the image of the number 1 if k is even and of the number 2 if k is odd; without failures the script never stops. master_example.py: if it gets to its prompt, the device is in master mode and projects the images of 1 and 2 in turn; if it then gets to its end, the device is dark, released and holds no images.",
  "all numbers of presses, pauses, failures of vendor calls, sequencer timings, fonts, device sizes (Luxbeam)", "The loop of the script is endless and the schedule of the sequencer is not under the control of a test.",
  "examples/load_images_luxbeam.py", "pySLM2/util/master_example.py", f"{C}:LuxbeamController.load_multiple", "pySLM2/util/sample.py:number_image")
p("C131", "Modes under rotations and reflections",
  "Zernike(n, m).rotate(t) with m > 0 is cos(m t) Zernike(n, m) - sin(m t) Zernike(n, -m), Zernike(n, -m).rotate(t) is cos(m t) Zernike(n, -m) + sin(m t) Zernike(n, m), and Zernike(n, 0) does not change. rescale_y(-1) keeps the modes with m >= 0 and negates the others, rescale_x(-1) does the same with a factor (-1)^m. A HermiteGaussian(n, m) on the axis becomes (-1)^n times HermiteGaussian(m, n) under rotate(pi/2), (-1)^(n+m) times itself under rotate(pi), and is multiplied by (-1)^n and (-1)^m by rescale_x(-1) and rescale_y(-1). Reflections turn LaguerreGaussian(l, p) on the axis into LaguerreGaussian(-l, p), with a factor (-1)^l for rescale_x(-1). Centred HermiteGaussian(0, 0), SuperGaussian and circular windows do not change under rotate.",
  "all valid indices, amplitudes, radii and waists, angles, points", "Identities between functions of the plane for every index cannot be settled at sample points.",
  f"{PR}:FunctionProfile.rotate", f"{PR}:FunctionProfile.rescale_x", f"{PR}:Zernike", f"{PR}:HermiteGaussian", f"{PR}:LaguerreGaussian")
p("C132", "Powers and overlaps of simulated beams are those of the modes",
  "For every accuracy there are a pixel size and an extent such that in every simulation with pixels at most that large and an SLM at least that large: get_input_power() of a HermiteGaussian(a, w, n, m) or LaguerreGaussian(a, w, l, p) beam is with that accuracy the power of the mode, a^2 2^(n+m) n! m! pi w^2/2 or a^2 (p+|l|)!/p! pi w^2/2, whatever the SLM shows; and without modulation the overlap of the image fields of two such beams with the same centre and waist is with that accuracy the overlap integral of the modes, so that different modes of a family have orthogonal images.",
  "all accuracies, modes, amplitudes, waists, centres, devices, states and paddings", "A limit over pixel sizes and extents cannot be established from finitely many simulations.",
  f"{SIM}:SLMSimulation.propagate_to_image", f"{SIM}:SLMSimulation.get_input_power", f"{PR}:HermiteGaussian", f"{PR}:LaguerreGaussian")
p("C133", "The stroke of a Zernike mode",
  "For every valid pair of indices (n, m), amplitude a and positive radius R, the value of Zernike(a, R, n, m) at every point within the radius, and at every point if it is not extrapolated, is real and at most |a| in modulus, times the normalisation factor if it is normalised; at some point of the edge it equals a times that factor.",
  "all indices, amplitudes, radii, points and both settings of normalize and extrapolate", "A bound at every point for every order cannot be established from finitely many evaluations.",
  f"{PR}:Zernike")
p("C134", "The brightest possible pixel",
  "No state of a binary DMD and no hologram of an LCOS SLM makes the modulus of the image field at a pixel larger than if all the light of the beam arrived there in phase, ps^2/(lambda f) times the sum of the field amplitudes on the SLM. An LCOS SLM that shows the phases that steer the beam to a pixel reaches it. If the phases differ from these, after removing a constant and whole turns, by an amplitude-weighted mean square of sigma^2, the field there is at least 1 - sigma^2/2 of it.",
  "all devices, states, beams, paddings, pixels and phase errors", "A bound over every possible hologram cannot be established from finitely many simulations.",
  f"{SIM}:SLMSimulation.propagate_to_image", f"{S}:LCOS_SLM", f"{S}:DMD")
p("C135", "The speckle of the random start",
  "Before the first iteration (N = 0) of calculate_hologram, with either method and independent uniform draws, the simulated image is uniform speckle: at every pixel of the image plane the expected field is zero and the expected intensity is the same, (ps^2/(lambda f))^2 times the sum of the squared field amplitudes on the SLM, whatever the target.",
  "all LCOS devices, input beams, targets, paddings and image pixels", "An expectation over continuous draws at every pixel cannot be established from finitely many runs.",
  f"{L}:_calculate_lcos_slm_hologram_gs", f"{L}:_calculate_lcos_slm_hologram_mraf", f"{SIM}:SLMSimulation.propagate_to_image")
p("C136", "A simulated image as the target: perfect mode matching",
  "If the target of calculate_dmd_state is the image the simulation (without padding) computes for the same input beam, times any non-zero complex constant c, and every pixel of the simulated device either blocks the light or passes it with modulus one, then the returned eta is 1/|c|, the amplitude hologram is 1 exactly at the illuminated open pixels and 0 elsewhere, and its phase is the phase of the simulated field times c. In particular the image of the bare, everywhere non-zero beam times c > 0 gives eta = 1/c and, for methods ideal, simple and random, the mirrors of the plain grating set_dmd_grating_state(1, 0, 0).",
  "all DMDs, input beams, simulated devices and states, constants c, methods, keyword arguments and draws", "The round trip through two Fourier transforms with every beam and every pattern is sampled by a test for one Gaussian beam and one device only.",
  f"{S}:DMD.calculate_dmd_state", f"{S}:DMD.set_dmd_grating_state", f"{SIM}:SLMSimulation.propagate_to_image", f"{L}:calculate_dmd_grating")
p("C137", "Rounding in the simulation",
  "If every elementary operation of propagate_to_image has a relative error of at most u <= 1/100 and the inverse FFT of the library is within tau of the exact transform (relative, in the root of the sum of squares), the computed image field is the exact one up to a relative error of exp(tau + 13 u) - 1, and the powers reported by get_input_power, get_output_power and get_image_plane_power are the exact ones up to exp((k+5) u) - 1, exp((k+11) u) - 1 and exp(2 tau + (k+39) u) - 1, where k is the longest chain of additions in np.sum, whatever the order. In double precision energy conservation and the independence of the padding therefore hold to the relative tolerance 1e-6 of the test suite for every input. The coordinates of the image plane grid have a relative error of at most exp(8 u) - 1, and block_zeroth_order misplaces only pixels whose squared distance from the axis is within a factor exp(45 u) of the squared radius.",
  "all devices, states, paddings, input fields, arithmetics of relative precision u, FFTs of accuracy tau, orders of summation and blocking radii", "Rounding errors depend on every sample of every input; a test sees one input on one platform.",
  f"{SIM}:SLMSimulation.propagate_to_image", f"{SIM}:SLMSimulation.get_image_plane_power", f"{SIM}:SLMSimulation.get_output_power", f"{SIM}:SLMSimulation.get_input_power", f"{SIM}:DMDSimulation.block_zeroth_order")
p("C138", "Binary holograms and the signal window of ifta",
  "With method 'ifta': (1) if s times the ideal grating is 0 or 1 at every illuminated mirror, the illuminated mirrors that are on are exactly those where it is 1, for every number of iterations and every signal window. (2) If the input field has the same phase everywhere (for instance a real one), only the symmetric part of the signal window matters: two windows whose sums with their own conjugate, turned by 180 degrees about the origin of the image plane, agree give the same mirrors (and, in calculate_dmd_state, the same efficiency). So a window around the one first order, around the other, and half of each are equivalent.",
  "all DMDs, amplitudes, phases, signal windows, input fields (of one phase in (2)), N and s", "Equality of the results of all iterations for all pairs of windows cannot be shown by running some of them.",
  f"{L}:_calculate_dmd_grating_ifta", f"{S}:DMD.set_dmd_grating_state", f"{S}:DMD.calculate_dmd_state")
p("C139", "A larger scale of method ifta never switches mirrors off",
  "With method 'ifta' and non-negative amplitudes, increasing the scale s (documented as the way to increase the diffraction efficiency), with all other arguments unchanged, never switches an illuminated mirror off.",
  "all DMDs, non-negative amplitudes, phases, inputs, signal windows, N and pairs s <= s'", "Monotonicity in a real parameter for all inputs cannot be established from samples.",
  f"{L}:_calculate_dmd_grating_ifta", f"{S}:DMD.set_dmd_grating_state")
p("C140", "Method ifta is never worse than method simple",
  "With s = 1, the squared error of the image over the signal window, against the image of the ideal grating, is not larger for the mirrors chosen by method 'ifta' than for those chosen by method 'simple'.",
  "all DMDs, amplitudes, phases, inputs, signal windows that are 0 or 1 and N", "A comparison of two algorithms for all inputs cannot be established from samples.",
  f"{L}:_calculate_dmd_grating_ifta", f"{L}:_calculate_dmd_grating_simple", f"{S}:DMD.set_dmd_grating_state")
p("C141", "Adding an aberration to an LCOS hologram corrects it",
  "If the input beam has the phase aberration Phi, an LCOS SLM that shows the phases of a hologram plus Phi (plus a constant, plus whole turns per pixel) gives the image of the hologram with the beam without aberration: same intensities, same powers, and the field only multiplied by a constant phase. Subtracting the phase ramp 2 pi (x0 X + y0 Y)/(wavelength f) moves the image intensity by (x0, y0).",
  "all LCOS SLMs, paddings, input fields, holograms, aberrations, constants and displacements", "The identity must hold for every beam and every aberration; a simulated example shows one of each.",
  f"{SIM}:SLMSimulation.propagate_to_image", f"{S}:LCOS_SLM")
p("C142", "Negative paddings give no results, and grids of either sign are consistent",
  "The simulation constructors accept negative paddings. With one, no history of calls ever produces a result: all fields stay None and every propagation, blocking and power query raises. The padded grids and the pixel area nevertheless describe the plane of Nx + 2 padding_x by Ny + 2 padding_y pixels, cropped or extended, and raise if nothing is left of it.",
  "all devices, paddings of either sign, and histories of calls", "Property of all histories and all integers as paddings.",
  f"{SIM}:SLMSimulation.__init__", f"{SIM}:SLMSimulation.propagate_to_image", f"{SIM}:SLMSimulation.image_plane_padded_grid", f"{SIM}:SLMSimulation.image_plane_pixel_area")
p("C143", "Precisions never mix",
  "In any program that configures the backend, makes profiles, composes them and calls them, all in any order, the values of a profile have the precision in force, they are complex exactly if a complex constituent occurs in the profile, a call fails only if the plain FunctionProfile occurs in it, and nothing done later changes the dtype of the values of a profile.",
  "all programs (finite sequences of backend accesses, constructions, compositions and calls), every accepted value of the precision", "Property of all histories; a test fixes the precision once at the beginning.",
  f"{PR}:FunctionProfile._make_attribute_func", f"{PR}:FunctionProfile.__call__", f"{PR}:ConstantProfile", f"{B}:_BackEnd.dtype")
p("C144", "Rounding in mode matching",
  "calculate_dmd_state computed with every operation rounded to t significant bits, library functions within v of the exact ones and a transform of the target within delta of the exact one, relative to the largest ratio of transform to input: the amplitudes stay between 0 and 1 and reach 1; method 'simple' sets every mirror as the exact computation does unless its grey value is within 2g + 2v + 28/2^t + (2v + 16/2^t) K of 1/2, g = delta + 3 (v + 2^-t)(1 + delta), K being the radians of carrier between the centre and the pixel (0.0125 for float32 and delta = 1/1000 on every device of the library with a period of at least two pixels); method 'random' switches it on with the exact probability up to a similar bound; eta has a relative error of at most exp(2g + 9e) - 1. An FFT with relative error tau in the Euclidean norm satisfies the condition on delta if the input is nowhere too dim; without that condition the pattern can be wrong however small tau is, and one dark input pixel with a non-zero computed transform makes the whole pattern dark.",
  "all precisions t >= 4, monotone roundings, library errors v <= 1/16, FFT errors, devices, periods, angles, inputs, targets, windows, random draws, pixels", "Tests compare a few patterns in one precision; the claim is about all roundings and all fields, and about which mirrors can differ.",
  f"{S}:DMD.calculate_dmd_state", f"{L}:_fourier_transform", f"{L}:calculate_dmd_grating")
p("C145", "Array arguments of any rank",
  "For array arguments of any rank and shape: a call of set_dmd_grating_state or calculate_dmd_state that succeeds leaves dmd_state with the smallest shape that all its array arguments and the grid fit by broadcasting, so it has the shape (Ny, Nx) exactly if every array argument fits (Ny, Nx); circular_patch and calls that raise never change the shape; on a dmd_state of the shape of the device circular_patch succeeds only with array arguments that fit this shape; in every history the last two axes of dmd_state have the lengths Ny and Nx (for Nx, Ny > 1), but a stack of k arrays is accepted and makes dmd_state a stack of k patterns; propagate_to_image succeeds only with a dmd_state of the shape of the device and a two-dimensional input, and then the output and image fields have the padded shape; calculate_hologram returns a hologram of the shape of the input, whatever the device.",
  "all ranks and shapes of all array arguments, all methods, all histories of calls, device sizes, paddings", "Property of all shapes and histories; tests pass arrays of the shape of the device.",
  f"{S}:DMD.set_dmd_grating_state", f"{S}:DMD.circular_patch", f"{S}:DMD.calculate_dmd_state", f"{S}:LCOS_SLM.calculate_hologram", f"{SIM}:SLMSimulation.propagate_to_image", f"{L}:calculate_dmd_grating")
p("C146", "Several threads can share the library",
  "If the precision has been used before the threads start, or no thread assigns it, then however the threads of a program are scheduled: every read of a precision in any thread shows the one configured at start-up, every grid query returns the grid an uncached computation at that precision gives, every assignment of the precision raises AssertionError, and what a thread computes from this with its own objects does not depend on the other threads or the schedule (fft_backend left alone) and is what the single-threaded program computes; no thread ever waits for another; no grid cache ever exceeds its size or holds an object twice.",
  "any number of threads, all their programs, all schedules, cache sizes, start-up histories", "Property of every interleaving; a test sees a few of them.",
  f"{B}:_BackEnd.dtype", f"{S}:SLM._fourier_plane_pixel_grid", f"{S}:SLM._fourier_plane_grid", f"{S}:SLM._image_plane_grid", f"{SIM}:SLMSimulation._image_plane_padded_grid", f"{SIM}:SLMSimulation._fourier_plane_padded_grid")
p("C147", "The precision is frozen by its first use in any thread",
  "However the threads of a program are scheduled, once one of them has read a precision, all later reads in all threads show the same one, and all assignments raise AssertionError.",
  "any number of threads, all their programs, all schedules", "Property of every interleaving; the failing one needs a switch between two lines of the setter.",
  f"{B}:_BackEnd.dtype", f"{S}:SLM._fourier_plane_pixel_grid")
p("C148", "MRAF with a signal window that misses the image plane",
  "If the signal window is 0 at all pixels of the image plane, calculate_hologram with method 'mraf' succeeds and ignores the target: each illuminated pixel shows its random initial phase plus N times the phase of the input there (plus N times π for a mixing factor above 1), so under a positive beam exactly the random draw, whatever N; with mixing factor 1 the hologram is 0 everywhere.",
  "all inputs, targets, random draws, mixing factors, numbers of iterations, device sizes", "The call gives no error and a plausible-looking phase pattern; only the algebra shows that nothing was computed.",
  f"{S}:LCOS_SLM.calculate_hologram", f"{L}:_calculate_lcos_slm_hologram_mraf")
p("C149", "CPU and GPU benchmark of a case calculate the same hologram for its target",
  "The two scripts of each benchmark case (gs, mraf, ifta, random) calculate, from the same random numbers, the same hologram, which depends on the target, for any constants in the scripts.",
  "all random draws, wavelengths, focal lengths, waists, window sizes, numbers of iterations", "The scripts only print times; they never look at the holograms.",
  "pySLM2/runtime_benchmark/slm_mraf_cpu.py:task", "pySLM2/runtime_benchmark/slm_mraf_gpu.py:task", "pySLM2/runtime_benchmark/slm_gs_cpu.py:task", "pySLM2/runtime_benchmark/dmd_ifta_cpu.py:task", "pySLM2/runtime_benchmark/dmd_random_cpu.py:task")
p("C150", "Holograms that Gerchberg-Saxton never produces",
  "For a target that vanishes at some pixel, the phase patterns that calculate_hologram with method 'gs' cannot produce, with any input beam, random draw and positive number of iterations, are dense: there is one arbitrarily near to every phase pattern.",
  "all targets with a dark pixel, inputs, random draws, numbers of iterations, phase patterns, distances", "A statement about all outputs of an iteration.",
  f"{S}:LCOS_SLM.calculate_hologram", f"{L}:_calculate_lcos_slm_hologram_gs")
p("C151", "Rounding in Gerchberg-Saxton holograms",
  "In an arithmetic with relative error u per operation, complex exponentials and angles within v of the exact ones and Fourier transforms within τ of the exact ones, each further iteration of calculate_hologram with method 'gs' under a beam of uniform phase raises the root of the squared error between the modulus of the exact image of the computed phases and the target by at most 7u+4v+3τ times (root of the power in the image plus root of the sum of squares of the target): the error of N' iterations is at most the error of N iterations plus N'-N times that. In exact arithmetic the phases are those shown by the device.",
  "all roundings, transforms and library functions of the given accuracy, inputs of uniform phase, non-negative targets, random draws, numbers of iterations, device sizes", "Rounding differs between CPU, GPU and library versions, and angles jump by whole turns; one run shows one rounding.",
  f"{S}:LCOS_SLM.calculate_hologram", f"{L}:_calculate_lcos_slm_hologram_gs")
p("C152", "Rounding in MRAF holograms",
  "The same for method 'mraf' with a signal window and a mixing factor 0 < m < 1: each further iteration raises the root of the squared error, over the signal window, between the modulus of the exact image of the computed phases and m/(1-m) times the target by at most 28u+6v+5τ times (root of the power in the image plus root of the sum of squares of that multiple of the target in the window). In exact arithmetic the phases are those shown by the device.",
  "all roundings, transforms and library functions of the given accuracy, inputs of uniform phase, non-negative targets, windows, mixing factors between 0 and 1, random draws, numbers of iterations, device sizes", "As for C151.",
  f"{S}:LCOS_SLM.calculate_hologram", f"{L}:_calculate_lcos_slm_hologram_mraf")
p("C153", "Propagations that are cut short",
  "If a call on a simulation is cut short at any point (interrupted, or out of memory), the results it then reports belong to one propagation: either to the previous one or to the new one. Proved: the SLM and the paddings are untouched, every field is the old or the new one and a new image only appears with all other results new; a clear that is cut short has dropped the results in the order input, output, image; and the next propagation that succeeds makes the object the same as without the interruptions, also for every later call. False: that the fields belong together; a propagation cut short before its last assignment reports the input and output of the new propagation with the image of the previous one, so that there can be power in the image plane of a dark input, and on a fresh simulation block_zeroth_order no longer raises the TypeError that asks for a propagation.",
  "all simulations, inputs, histories of complete and interrupted calls, points of interruption", "Interruptions between two statements cannot be timed by a test.",
  f"{SIM}:SLMSimulation.propagate_to_image", f"{SIM}:SLMSimulation.clear", f"{SIM}:DMDSimulation.block_zeroth_order")
p("C154", "Conversion between Hermite-Gaussian and Laguerre-Gaussian modes",
  "At every point a LaguerreGaussian beam (l, p) equals the sum over k of explicit coefficients times the HermiteGaussian beams (2p+|l|-k, k) with the same centre, amplitude and waist, and a HermiteGaussian beam (n, m) equals the sum over k of explicit coefficients times the LaguerreGaussian beams with l = n+m-2k and p = min(k, n+m-k).",
  "all mode indices (l of either sign), centres, amplitudes, waists and points", "The project tests only the first order mode at some points; the coefficients are alternating sums that grow with the order.",
  f"{PR}:HermiteGaussian", f"{PR}:LaguerreGaussian")
p("C155", "Objects that come and go",
  "Every device and simulation gets its own grids although the caches of the grid methods are keyed by object identity and the interpreter reuses the addresses of freed objects: each statement of a program that makes, copies, rebinds and deletes devices and simulations and asks for grids shows what it shows when variables hold the objects themselves, nothing is freed and every grid is computed afresh.",
  "all programs, all cache sizes, all placements of new objects and all moments at which unreferenced objects are freed", "Address reuse depends on the allocator and on when objects die; a test sees one allocation pattern.",
  f"{S}:SLM._fourier_plane_grid", f"{S}:SLM._image_plane_grid", f"{SIM}:SLMSimulation._image_plane_padded_grid", f"{SIM}:SLMSimulation._fourier_plane_padded_grid")
p("C156", "Memory of dropped devices",
  "A device or simulation the program has dropped is freed. This is false of the code: one that was asked for a grid stays in memory. What is true: after any program at most seven times the cache size (7 * 128) objects the program cannot reach are still in memory, and each is one a grid was computed for or the device of such a simulation.",
  "all programs, all cache sizes, all placements of new objects, for an interpreter that frees unreferenced objects at once", "The number of devices a program makes and drops is unbounded, and the project tests make only a few.",
  f"{S}:SLM._fourier_plane_grid", f"{S}:SLM._image_plane_grid", f"{SIM}:SLMSimulation._image_plane_padded_grid", f"{SIM}:SLMSimulation._fourier_plane_padded_grid")
p("C157", "Hermite-Gaussian profiles in floating point",
  "A Hermite-Gaussian profile evaluated in floating point differs from the mode it stands for by at most (exp(k) - 1) times the mode with its polynomials replaced by their majorants, where k is the error of the coefficients plus a few units of rounding per polynomial order, plus a few units of rounding times the squared distance from the centre in units of the width. For the fundamental Gaussian the error is relative to the value itself.",
  "all arithmetics with relative error at most u per operation and v per library function, all parameters with non-zero width, all orders, coefficients and points",
  "the error has to stay small at every point and for every order, width and amplitude",
  f"{PR}:HermiteGaussian", f"{PR}:HermiteGaussian._func")
p("C158", "Super-Gaussian profiles and windows in floating point",
  "A super-Gaussian profile with non-negative power evaluated in floating point has a relative error of a few units of rounding plus the error of the exponent. Rectangular and circular windows evaluated in floating point are exactly 0 or 1 as they should be, except at points within a few units of rounding of an edge.",
  "all arithmetics with relative error at most u per operation and v per library function, all parameters and all points",
  "edges can be tested at a few points only, and rounding decides differently at each",
  f"{PR}:SuperGaussian._func", f"{W}:RectangularWindowRectangle", f"{W}:RectangularWindowCircular")
p("C159", "Laguerre-Gaussian profiles in floating point",
  "A Laguerre-Gaussian profile of positive width evaluated in floating point differs from the mode it stands for, as a complex number, by at most (exp(k) - 1) times the mode's amplitude with the polynomial replaced by its majorant, where k grows by a few units of rounding per radial order and per unit of azimuthal charge. This includes its centre and the branch cut of the angle, where the phase does not jump.",
  "all arithmetics with relative error at most u per operation and v per library function, all positive widths, all charges and orders, all points",
  "the phase has to be right around the whole vortex and across the cut of the angle",
  f"{PR}:LaguerreGaussian._func")
p("C160", "Zernike profiles in floating point",
  "A Zernike polynomial evaluated in floating point differs from its exact value by at most (exp(k) - 1) times the normalised amplitude with the radial polynomial replaced by its majorant, where k grows by a few units of rounding per radial order and azimuthal frequency. Unless it is extrapolated this holds except within a few units of rounding of the edge of its disc, where the value can be cut off wrongly.",
  "all arithmetics with relative error at most u per operation and v per library function, all orders and frequencies, all points off the edge and the origin",
  "the error has to stay small at every point and order, and the cut at the edge depends on rounding",
  f"{PR}:Zernike._func")
p("C161", "Luxbeam: calls that fail half-way, and programs that die",
  "Suppose any request to a Luxbeam may return, fail without effect, take effect although it fails, or be cut off in the middle of a transfer, and the program may die at any point and be started again while the device keeps its state. If the last initialize() returned, then a load that returns makes the display go through exactly its images in order, whatever was left on the device. A load that does not return leaves the device running on as before (its stop request was not carried out), or the display frozen on what it showed until the next initialize() or load, or, if only the reply to its last request was lost, going through exactly the new images. A controller made by a new program sends nothing before its own initialize().",
  "all histories of calls, failures of each of the four kinds, restarts of the program at any point, sequencer speeds, triggers and images",
  "a failure can strike at every request of every history, and what a half-finished transfer leaves behind is arbitrary",
  f"{C}:LuxbeamController.initialize", f"{C}:LuxbeamController.load_single", f"{C}:LuxbeamController.load_multiple", f"{C}:LuxbeamController.fire_software_trigger")
p("C162", "ALP: calls that fail half-way",
  "Suppose any request to an ALP device may return, fail without effect, take effect although it fails, or be cut off in the middle of a transfer. A load_single or load_multiple that returns leaves the device running a sequence of exactly the given images. One that does not return leaves the device as it was (its stop request was not carried out), or projecting nothing, or, if only the reply to its last request was lost, projecting exactly the new images; a picture cut off in transfer is never projected.",
  "all histories of calls, failures of each of the four kinds at every request, and images",
  "a failure can strike at every request of every history, and what a half-finished transfer leaves behind is arbitrary",
  f"{C}:ALPController.load_single", f"{C}:ALPController.load_multiple")
p("C163", "Attributes of profiles say and set what the profile is",
  "In any program that makes, composes and transforms profiles and assigns attributes, every constructor argument of a profile can be read back as an attribute of the same name, and an assignment to it either raises and changes nothing or makes the profile behave exactly like one constructed with the new value; the other objects keep their values.",
  "all programs (finite sequences of constructions, compositions and attribute assignments), all profile and window classes, all parameter names, all values",
  "A test tries single assignments; this is about any interleaving of assignments to any number of objects, and the failing cases are silent.",
  f"{PR}:LaguerreGaussian", f"{PR}:Zernike", f"{PR}:HermiteGaussian", f"{PR}:SuperGaussian", f"{PR}:ConstantProfile", f"{W}:RectangularWindowRectangle", f"{W}:RectangularWindowCircular")
p("C164", "Compiling profiles is invisible",
  "Profiles are compiled on their first call and the compiled code is reused. Whatever a program did before - profiles made, composed, attributes assigned, profiles called with arguments of any shapes - calling a profile gives the values it has with its parameters as they are now, never those at the time of compilation; the result, errors included, is the same as if nothing had been called before, calls change no profile, and after a successful call the profile is not compiled again for arguments of the same shapes, in particular not because a parameter was assigned.",
  "all programs (finite sequences of constructions, compositions, attribute assignments and calls), all profiles and windows, all argument tensors",
  "Stale compiled code only shows for particular orders of compiling, assigning and calling, and composed profiles share the code of their parts; a test tries one order.",
  f"{PR}:FunctionProfile", f"{PR}:HermiteGaussian", f"{PR}:LaguerreGaussian", f"{PR}:SuperGaussian", f"{PR}:Zernike", f"{PR}:ConstantProfile", f"{W}:RectangularWindowRectangle", f"{W}:RectangularWindowCircular")
p("C165", "Threads that update one DMD",
  "Any number of threads call set_dmd_state_off, set_dmd_state_on, set_dmd_grating_state, circular_patch and calculate_dmd_state on one DMD, in any interleaving, where circular_patch writes its mirrors one after the other. dmd_state is what the calls begun so far give one after the other, the calls of each thread in their order, at every mirror that no patch under way has still to write; when all threads have ended it is so at every mirror; in any case a mirror then shows what a call wrote to it after which only patches of other threads wrote to it; no thread ever waits for another one.",
  "all numbers of threads, all programs of binary-method calls of the threads (successful or not), all schedules and moments of them, all devices and arguments",
  "Which mirror is written before and after a switch between threads depends on timing; a test sees one of astronomically many interleavings, and rarely a bad one.",
  f"{S}:DMD.circular_patch", f"{S}:DMD.set_dmd_grating_state", f"{S}:DMD.calculate_dmd_state", f"{S}:DMD.set_dmd_state_on", f"{S}:DMD.set_dmd_state_off")
p("C166", "Threads that use one simulation",
  "Any number of threads call propagate_to_image, block_zeroth_order and clear on one simulation and update its SLM, in any interleaving. The simulation is as if the calls had been made one after the other; in any case each of input_field, output_field and image_plane_field is one that a single propagation of one thread gives, with one state the SLM has had, never a mixture.",
  "all numbers of threads, all programs of calls of the threads, all schedules and moments of them, all simulations, inputs and SLM states",
  "The three fields are assigned one after the other and read again in between; whether they fit together depends on timing, which tests do not control.",
  f"{SIM}:SLMSimulation.propagate_to_image", f"{SIM}:SLMSimulation.clear", f"{SIM}:DMDSimulation.block_zeroth_order")
p("C167", "Reading a DMD while other threads update it",
  "A thread calls pack_dmd_state while any number of other threads update the DMD, in any interleaving. What it returns or raises is what pack_dmd_state of the state at one moment of the call gives; in any case every bit is what the array that the device showed at one moment of the call had at this mirror at a moment of the call, and the call never waits for other threads.",
  "all numbers of threads that read and update, all programs of calls (successful or not, binary or grey), all schedules, all devices and arguments",
  "The state is looked up twice and read mirror by mirror; the bad interleavings are rare and depend on timing that tests do not control.",
  f"{S}:DMD.pack_dmd_state", f"{S}:DMD.circular_patch", f"{S}:DMD.set_dmd_grating_state")
p("C168", "The disc of circular_patch in floating point",
  "In floating point the disc of circular_patch still has exactly the mirrors closer to the centre than half the diameter, if the centre is on a multiple of half a pixel (or any power of two fraction) and the diameter a whole number of pixels, up to 2048 in single precision; for any centre and diameter rounding can only matter at mirrors within a relative distance of a few units of rounding from the edge.",
  "all devices, centres, diameters, mirrors, previous states and patterns, all roundings with t significant bits (or relative error u)",
  "Mirrors on the edge are decided by comparing two rounded squares; tests compare a few discs with a formula that rounds in the same way.",
  f"{S}:DMD._circular_mask", f"{S}:DMD.circular_patch", f"{S}:SLM._fourier_plane_pixel_grid")
p("C169", "A profile that is evaluated while other threads set its parameters",
  "If a thread evaluates a profile while others set parameters of other profiles, it gets the values of the profile. If one parameter of the profile is set meanwhile, it should get the values before or those after at all points. That holds for parameters that the expression reads once, and more generally a profile that reads every parameter once is evaluated with parameters each of which was current during the evaluation; it is false for the waist of a HermiteGaussian, which is read for x and for y (the result can be an elliptical beam that no parameters describe), and for a profile that occurs twice in an expression (f - f need not be 0).",
  "all profile expressions, contents of the variables at every read, points",
  "The outcome depends on where a setter falls between the reads of one evaluation; tests use one thread.",
  f"{PR}:HermiteGaussian", f"{PR}:LaguerreGaussian", f"{PR}:SuperGaussian", f"{PR}:ConstantProfile", f"{PR}:Zernike", f"{W}:RectangularWindowRectangle", f"{W}:RectangularWindowCircular")
p("C170", "The sampling errors of simulated Gaussian beams are exponentially small",
  "If a Gaussian beam of waist w (HermiteGaussian, n = m = 0) with its centre x0, y0 lies on a DMD with all mirrors on, then the simulated image is the ideal Gaussian spot of waist lambda f / (pi w) up to an error with two parts: what the Gaussian has outside the SLM, and aliases of the order exp(-(pi w / (2 ps))^2) for pixels of size ps. The input power is likewise amp^2 pi w^2 / 2 up to such an error.",
  "all SLM sizes, pixel sizes, wavelengths, focal lengths, paddings, waists, amplitudes, centres, pixels",
  "A test compares a few beams with a tolerance; the error for other waists and pixel sizes cannot be read off it.",
  f"{SIM}:SLMSimulation.propagate_to_image", f"{SIM}:SLMSimulation.get_input_power", f"{PR}:HermiteGaussian")
p("C171", "What the tests of the package check holds in exact arithmetic for all parameters",
  "The input power of a Gaussian beam on a DLP9500 is within 1e-3 of amp^2 pi w^2 / 2 for all waists between 0.1 mm and 3 mm; a beam of waist w_i on a DLP7000 gives the spot of waist w_f between 1 and 2 um within 1.5 % at every pixel, with the scaling of amplitudes of the test; paddings of half the size refine the image grid by two and divide the pixel area by four; with all mirrors on the energy is conserved for all inputs and paddings; uniform DMD states pack to uniform bytes; the Zernike modes up to n = 3 are those of Thibos et al. at all points.",
  "all waists of the ranges, amplitudes, paddings, fields, sizes, radii, points",
  "The tests of the package check these for one or two waists, sizes and grids in floating point.",
  f"{SIM}:SLMSimulation.get_input_power", f"{SIM}:SLMSimulation.propagate_to_image", f"{S}:DLP7000", f"{S}:DLP9500", f"{S}:DMD.pack_dmd_state", f"{PR}:Zernike")
p("C172", "Mode matching works for Gaussian beams also with the range of floating point numbers",
  "With a HermiteGaussian (n = m = 0) as input profile, numbers below about 1e-38 underflowing as in single precision (the default), calculate_dmd_state scales the amplitudes so that they lie in [0, 1] and reach 1. False: the beam is exactly 0 at every pixel that is 11 waists or more from its centre, so that one such pixel (a waist of 0.9 mm or less on a DLP9500) with a target that is not exactly 0 there makes eta = 0 and turns all mirrors off, without an exception. True when all pixels are within sqrt(80) waists.",
  "all arithmetics with that range, rounding and library accuracy, all SLM sizes, centres, waists, amplitudes, targets, windows, coordinates, random draws",
  "Whether a mirror is on depends on an underflow at some far pixel; tests use beams that are wide compared with the device.",
  f"{PR}:HermiteGaussian", f"{S}:DMD.calculate_dmd_state", f"{B}:_BackEnd.dtype")
p("C173", "Vortex beams have finite values",
  "A LaguerreGaussian with finite parameters has finite values at all points. False in floating point: at 11 waists or more the exponential factor is 0, and if the power of the radius overflows there (|l| of 33 or more in single precision) the value is NaN for every amplitude and radial index. True as long as 4 max(|a|, 1) (1.5 R / w)^|l| times the radial polynomial at 2.1 (R / w)^2, with its coefficients made positive and at least 1, stays in the range, R being the largest distance from the centre.",
  "all arithmetics with the given range, rounding and library accuracy, all centres, waists, amplitudes, l, p, points",
  "The NaN appears only for large l and far pixels.",
  f"{PR}:LaguerreGaussian", f"{B}:_BackEnd.dtype")
p("C174", "A NaN in the beams never gives a wrong pattern",
  "If the target of calculate_dmd_state has a NaN anywhere, every mirror is off (methods simple and random; every value is NaN for ideal), whatever the other arguments are. A NaN of the input or of the window turns off its own mirror. The call returns normally; with a maximum that is NaN for an array with NaN, the returned efficiency is NaN exactly if the target or the window has a NaN, or the input at a pixel where the windowed spectrum of the target is not 0, and then all mirrors are off. A NaN of the input where that spectrum is 0 changes nothing but its own mirror.",
  "all inputs, targets and windows with NaN at any pixels, all gratings, random draws, and every behaviour of the maximum on arrays with NaN",
  "Tests do not pass NaN, and one cannot try all the places where it can be.",
  f"{S}:DMD.calculate_dmd_state", f"{S}:DMD._calc_amp_phase", f"{L}:_fourier_transform", f"{L}:calculate_dmd_grating")
p("C175", "A hologram has a NaN everywhere or nowhere",
  "calculate_hologram with one iteration or more gives a NaN at every pixel if the input, the target or (for mraf) the signal window has a NaN anywhere, and otherwise no NaN.",
  "all inputs, targets, signal windows with NaN at any pixels, mixing factors, numbers of iterations, random initial phases",
  "The number of iterations and the places of the NaN are arbitrary.",
  f"{S}:LCOS_SLM.calculate_hologram", f"{L}:_calculate_lcos_slm_hologram_gs", f"{L}:_calculate_lcos_slm_hologram_mraf")
p("C176", "remove_trivial_phase never makes a phase map rougher",
  "The mean square of the phase map that remove_trivial_phase returns, taken over the aperture, is at most that of the given map, with and without remove_defocus; without remove_defocus it is equal only if the map is returned unchanged.",
  "all phase maps, sizes, radii",
  "An inequality over all maps and apertures; small or elongated apertures are exceptions that a test on a large square array does not meet.",
  f"{A}:remove_trivial_phase")
p("C177", "Repeating remove_trivial_phase removes piston and tilt completely",
  "If remove_trivial_phase is applied again and again to a phase map on a square array, the maps converge at every pixel of the aperture to the given map minus its best fitting plane (least squares), without any piston or tilt; what is left of each tilt after k calls is a geometric sequence.",
  "all phase maps, square arrays of any size, all radii with a non-empty aperture, any number of calls",
  "It is a statement about limits of arbitrarily many calls.",
  f"{A}:remove_trivial_phase")
p("C178", "zernike_decomposition computes Zernike series",
  "For every bounded phase on the disc that is continuous up to a set of measure zero (so also wrapped phases and masks), sampled on an array that contains the aperture: as the number of pixels grows, the coefficients of zernike_decomposition tend to the Zernike coefficients of the phase, and the mean square of the phase minus the reconstructed map tends to the smallest that combinations of these modes can have. With enough terms, and then enough pixels, it is as small as one likes.",
  "all such phases, all numbers of terms, all sequences of arrays and radii, with and without extrapolate",
  "It is a statement about limits in the number of pixels and of terms, for all phases.",
  f"{A}:zernike_decomposition", f"{A}:ansi_j_to_n_m", f"{PR}:Zernike")
p("C179", "A simulation of a DMD while other threads update the device",
  "If a thread calls propagate_to_image while others update the DMD, the three fields are those for the state that the device shows at one moment of the call. That holds if the others replace the state; if they make circular patches, the fields can be those of a state that the device never shows, each mirror of which is, however, one that the state looked up has at some moment of the call. The call never waits for the others.",
  "all programs of the threads, interleavings, inputs, paddings, orders in which the mirrors are copied",
  "It depends on the interleaving of the copy made by tf.constant with masked assignments in other threads.",
  f"{SIM}:propagate_to_image", f"{S}:_state_tensor", f"{S}:circular_patch")
p("C180", "Rounding in the analysis of phase maps",
  "In floating point, the aperture of remove_trivial_phase and zernike_decomposition consists of exactly the pixels inside the circle, provided that none lies almost on it (which holds for diameters of a whole number of pixels up to a bound of the order of the inverse root of the precision). The phase map returned by remove_trivial_phase, the coefficients and the reconstruction of zernike_decomposition are those of exact arithmetic up to an explicit bound relative to the largest phase: proportional to the precision, and to the longest chain of additions in the mean. Outside the aperture remove_trivial_phase returns the phase map unchanged, and the reconstruction is exactly zero unless it is extrapolated.",
  "all phase maps, array sizes, radii, numbers of terms, arithmetics of the stated accuracy, orders of summation",
  "A bound of the rounding error for all inputs cannot be sampled, and one pixel on the wrong side of the edge changes every result.",
  f"{A}:remove_trivial_phase", f"{A}:zernike_decomposition", f"{PR}:Zernike")
p("C181", "Rounding in method ifta",
  "In floating point, the holograms of method 'ifta' differ from those of exact arithmetic, weighted with the input field, by an explicit bound: each iteration adds at most the error of the starting hologram, a multiple of the precision times the root of the power of the beam, and the root of the power on mirrors whose value lies so close to a clipping level that the error may carry it across. As long as no mirror is near a level the error grows at most linearly with the number of iterations, and every illuminated mirror whose final value is not near 1/2 is in the state of the exact algorithm. The error of the starting hologram is bounded as for the grey grating. Mirrors without light are off whatever the rounding. For a binary target the computed pattern is the exact one.",
  "all targets, phases, beams, signal windows with values in the disc around 1/2, numbers of iterations up to a quarter of the inverse precision, arithmetics and transforms of the stated accuracy",
  "How errors of two hundred transforms and clippings add up depends on every pixel of every iteration; runs on one machine show one arithmetic.",
  f"{S}:DMD.set_dmd_grating_state", f"{L}:_ifta_binarize_hologram", f"{L}:_calculate_dmd_grating_ifta", f"{L}:_ifta_correct_profile")
p("C182", "NaN in method ifta",
  "With method 'ifta' and at least one iteration, a single NaN anywhere in the amplitudes or phases (set_dmd_grating_state), in the target or the window (calculate_dmd_state), in the input profile or in the signal window switches off every mirror of the DMD, and no exception is raised. The returned efficiency need not show it: if the NaN are only in the signal window, or in the input where the windowed spectrum of the target vanishes, the efficiency is that of the calculation without them. The ideal grating that the iteration starts from never holds an infinite value. Without NaN the patterns are those of the other properties.",
  "all DMDs, amplitudes, phases, targets, windows, inputs, signal windows, positions of the NaN, numbers of iterations and scales",
  "How a NaN spreads depends on its position, on every transform in the loop and on the zeros of the input; tests place a few.",
  f"{S}:DMD.set_dmd_grating_state", f"{S}:DMD.calculate_dmd_state", f"{L}:_calculate_dmd_grating_ifta", f"{L}:_ifta_binarize_hologram", f"{L}:_ifta_correct_profile")
p("C183", "Repeated blocking of the zeroth order",
  "After a propagation followed by any number of block_zeroth_order calls with any radii, mixed with changes of the DMD, the two fields at the SLM are still those of the propagation, and the image is that of the propagation except that it is zero inside the discs of all the calls. Order and repetition do not matter: only the largest disc counts. Calls with radius 0 change nothing.",
  "all histories of block_zeroth_order calls and DMD updates after a propagation, all radii including the default, fields, devices and paddings",
  "The result depends on the whole sequence of calls; tests block once.",
  f"{SIM}:DMDSimulation.block_zeroth_order", f"{SIM}:SLMSimulation.propagate_to_image")
p("C184", "Threads that share one LCOS SLM",
  "Any number of threads call calculate_hologram and reset_slm_state on one LCOS SLM and read and assign slm_state, with programs that may depend on what they get. Whatever the schedule, the SLM and everything the threads have read and got back are as if the calls had been made one after the other in an order that respects time. At every moment the SLM shows one whole state, that of the start or of one call, never a mixture of holograms. No thread ever waits for another. Not promised: a thread that reads the state, adds a correction and assigns the sum may undo such a change of another thread.",
  "all LCOS SLMs, numbers of threads, client programs, arguments, schedules and moments of them",
  "Schedules cannot be enumerated, and the ones that tests meet depend on the machine.",
  f"{S}:LCOS_SLM.calculate_hologram", f"{S}:LCOS_SLM.reset_slm_state")
p("C185", "Threads that share a Luxbeam controller",
  "Any number of threads load images into one initialized Luxbeam controller and fire software triggers, requests of the others may raise, and external triggers arrive at any moment. If no other thread is inside a load while one is made, the display stands still during it, and afterwards goes from what it showed to the first image, and then through the images in order, cyclically, leaving none out, and moves on at most once per trigger. This should hold for overlapping loads as well, but does not: then the display may go through images of different loads, although all calls return. Two software triggers fired at the same time may count as one.",
  "all initialized devices, numbers of threads, calls, images, interleavings of requests, sequencer instructions and external triggers, and failing requests of the other threads",
  "Interleavings of threads with a sequencer that runs by itself cannot be enumerated.",
  f"{C}:LuxbeamController.load_multiple", f"{C}:LuxbeamController.load_single", f"{C}:LuxbeamController.fire_software_trigger")
p("C186", "Rounding in calculate_dmd_state with method ifta",
  "calculate_dmd_state(..., method='ifta') starts its iterations from s times the grey values that the same call with method 'ideal' stores, returns the same eta, and switches on the mirrors whose value exceeds 1/2 after N iterations. In floating point, with an FFT of given accuracy, the starting hologram (weighted with the input field) is off by at most an explicit bound in the resolution of the FFT, the precision, s and the number of radians of carrier; the error after each iteration is bounded explicitly by those before, the accuracy of the transforms and the power on mirrors that sit within the error of a clipping level; and a mirror whose exact final value is further from 1/2 than the bound is in the state that exact arithmetic gives. If no value comes that close to a clipping level or to 1/2, the whole pattern is the exact one.",
  "all input and target fields with the input lit where the target transform is not zero, amplitude and signal windows, devices, N, s, precisions from 10 bits, and FFTs of the given relative accuracy",
  "Rounding errors depend on every input, and iterations propagate them.",
  f"{S}:DMD.calculate_dmd_state", f"{L}:_calculate_dmd_grating_ifta")
p("C187", "Threads that share an ALP controller",
  "Any number of threads load images into one initialized ALP controller and query it, and vendor calls may raise. If no other thread is inside a load while one is made, then, when it returns, the device runs exactly the given images, until some thread begins another load, whatever happened before. If no vendor call raises and all threads have finished, the device runs a sequence with the number of pictures of one of the loads and the data of one of the loads; if only load_single was called, exactly one of the images. For overlapping loads these should be the number and the data of the same load, but they need not be: a load of one image that overlaps with a load of two may leave a sequence of two pictures that holds the data of one. A load_single may also return while the device runs a sequence to which nothing was transferred yet.",
  "all histories of the controller, numbers of threads, calls, images and interleavings of vendor calls, and failing vendor calls (of the other threads, or before)",
  "Interleavings of threads cannot be enumerated.",
  f"{C}:ALPController.load_multiple", f"{C}:ALPController.load_single")
p("C188", "Vortex beams of high charge as targets",
  "Computing the state of a DMD for a Laguerre-Gaussian target returns an efficiency and turns mirrors on for every charge. It does so as long as the largest intermediate value of the profile stays within the range of the number format on the whole image plane: the target is then free of NaN, and the efficiency is NaN only if the input or the window is NaN somewhere. It is false of targets beyond: in single precision, a target of charge 33 or more whose waist is below 1/22 of the width of the image plane is NaN at a pixel of the image plane, and then, whatever the input, the window and the method, no mirror is turned on, and the efficiency that is returned is NaN, without an error; for an LCOS SLM, the hologram is NaN at every pixel from the first iteration on.",
  "all devices, positions, amplitudes, waists, charges, coefficients, inputs, windows, methods, random draws, and arithmetics with the range of single precision",
  "The range of charges, waists and devices cannot be enumerated, and tests use small charges.",
  f"{PR}:LaguerreGaussian", f"{S}:DMD.calculate_dmd_state", f"{S}:LCOS_SLM.calculate_hologram")
p("C189", "Threads that open, use and close an ALP controller",
  "Any number of threads call initialize(), close(), loads and queries of one new ALP controller, and vendor calls may raise. A vendor call of a load or a query of any thread comes after an initialize() of some thread has returned, all of whose vendor calls went through; and once an initialize() has returned, no call of any thread is refused. If the controller inverts and no vendor call raises, then, once an initialize() has returned and whenever no thread is inside one, the mirrors are inverted. If only one thread calls close(), it frees a sequence only if there is one. After a close() nothing reaches the device before the next initialize(): this is false, as a load of another thread that is under way goes on. Several threads may call close(): also false, as two of them may free the same sequence.",
  "all numbers of threads, calls, images, devices, interleavings of the steps of the calls, and failing vendor calls",
  "Interleavings of threads cannot be enumerated.",
  f"{C}:ALPController.initialize", f"{C}:ALPController.close", f"{C}:ALPController.load_single")
p("C190", "Threads that initialize and use a Luxbeam controller",
  "Any number of threads initialize and use one new Luxbeam controller, requests may raise, and external triggers arrive at any moment. A request of a load or a software trigger of any thread comes after an initialize() of some thread has returned, all of whose requests went through; once an initialize() has returned, no call of any thread is refused, and the sequencer of the device holds the program of the controller. Until a load has made its last request, the display does not change. A load that returns should be shown if every initialize() began before it, but this is false: an initialize() of another thread that is still under way may make the device go through the first image only.",
  "all numbers of threads, calls, images, devices, interleavings of the steps of the calls, sequencer instructions and external triggers, and failing requests",
  "Interleavings of threads cannot be enumerated.",
  f"{C}:LuxbeamController.initialize", f"{C}:LuxbeamController.load_multiple")
p("C191", "Super-Gaussian beams with the range of floating point numbers",
  "With overflow and underflow, a SuperGaussian of any positive order is a finite number at every point, has the sign of its amplitude or is 0, and does not exceed its amplitude by more than the rounding of one product: a power that overflows gives 0, not NaN. For orders of 1 and more it is exactly 0 from 11 waists on in x or in y, and within w/√2 of its centre it is at least a third of its amplitude and the flatter the higher the order. So a super-Gaussian target of a DMD is free of NaN, and the efficiency is NaN only if the input or the window is NaN somewhere; the same holds for the hologram of an LCOS SLM.",
  "all positive orders, centres, amplitudes, waists, points, pixel counts, and all arithmetics with the given ranges and accuracies",
  "Overflow depends on the order, the waist and the point together; tests evaluate a few points at moderate orders.",
  f"{PR}:SuperGaussian", f"{S}:DMD.calculate_dmd_state")
p("C192", "Hermite-Gaussian beams have finite values",
  "A HermiteGaussian with finite parameters has finite values at all points. False in floating point: from 11 waists on the exponential factor is 0, and with n = 28 in single precision the polynomial is infinite there, so that the profile is NaN for every m and amplitude at all points 11 waists or more to the right of the centre; as a target of a DMD it turns all mirrors off and the efficiency is NaN, and the hologram of an LCOS SLM is NaN everywhere. True as long as 4 max(|a|, 1) times the two polynomials at 1.5 R / w, with their coefficients made positive and at least 1, stays in the range, R being the largest distance from the centre in x or in y.",
  "all centres, amplitudes, waists, points, orders in the positive part, pixel counts, and all arithmetics with the given ranges and accuracies",
  "Overflow depends on the orders, the waist and the point together; tests evaluate low orders near the centre.",
  f"{PR}:HermiteGaussian", f"{S}:DMD.calculate_dmd_state")

if __name__ == "__main__":
    out = os.path.join(os.path.dirname(__file__), "..", "properties.jsonl")
    ids = [q["id"] for q in P]; assert len(ids) == len(set(ids))
    with open(out, "w") as f:
        for q in P: f.write(json.dumps(q) + "\n")
    print(len(P), "properties")
