C01 | `Backend` state machine (reads, sets, selector) | I over op lists against a trace specification
C02 | `Backend` | D with the invariant of C01
C03 | `Backend` | I
C04 | `Slm` coordinate conversions | A
C05 | `Slm` Fourier plane grid | A
C06 | `Slm`, `Simulation` image plane grids (fftfreq, fftshift, both parities) | A, index arithmetic
C07 | `Simulation` padded Fourier grid | A
C08 | `Simulation` padded image grid | A
C09 | pixel areas against grid spacings | A
C10 | `Simulation.propagate` | A: shifts and DFT turned into the Fraunhofer sum over SLM coordinates
C11 | propagation with different paddings | A: re-indexing of the padded sum
C12 | powers | A: Parseval for the 2-D DFT
C13 | powers with padding | A
C14 | propagation through a boolean state | A: Parseval plus pointwise bound
C15 | propagation through exp(-1j*phase) | A: Parseval
C16 | propagation as a linear map | A
C17 | `block_zeroth_order` | A, D
C18 | `block_zeroth_order` and `first_order_origin` | A
C19 | `Simulation` state machine | I over histories of calls
C20 | failing propagation | D; refuted by a witness, partial theorem for what survives
C21 | constructors | D
C22 | method ideal | A: bounds of cos, range of states
C23 | `calculate_dmd_state` then `propagate` | A: Lee hologram split into orders plus C10
C24 | negative_order | A: symmetry of the grating
C25 | `_calc_amp_phase` over `XR` | A: maximum over the array, IEEE cases
C26 | eta | A: scaling of the DFT and of the maximum
C27 | zero target | D over `XR`; refuted for simple, random and ideal, partial
C28 | dark input | D over `XR`; refuted, partial
C29 | method simple | A
C30 | method random | A: measure of the set of draws
C31 | method random | A: monotonicity of tanh and arcsin
C32 | phases modulo 2 pi | A
C33 | periodicity of the gratings | A
C34 | method ifta | I on iterations
C35 | method ifta, degenerate windows and N | I on iterations
C36 | method ifta, thresholding | A, I
C37 | histories of DMD methods | I over op lists: shape and dtype of `dmd_state`
C38 | circular patch | A, D
C39 | circular patch on grey states | D; refuted, partial
C40 | failed updates | D over all error branches
C41 | packing | A: bits and bytes by induction on lists
C42 | packing refuses grey states | D
C43 | array identities and aliasing | I over histories with a heap of arrays
C44 | gs | I on iterations, Parseval projection argument
C45 | gs with aberrated inputs | refuted by an explicit family, partial for uniform phase
C46 | gs result in the simulation | refuted, partial (point reflection)
C47 | gs/mraf phase range | A
C48 | mraf with full window | I on iterations
C49 | mraf weights | A
C50 | failed holograms | D
C51 | profile arithmetic | structural induction on expression trees, dtype rules
C52 | powers of profiles | A, D
C53 | rotate/shift/rescale | A
C54 | as_complex_profile | A
C55 | parameter assignments | I over histories of assignments and constructions (heap)
C56 | HermiteGaussian | A: Horner and Rodrigues formula by induction on n
C57 | fundamental modes | A
C58 | LaguerreGaussian | A: rotation, conjugation, vortex
C59 | LG from HG | A
C60 | Zernike | A: coefficient table to closed form
C61 | Zernike orthonormality | A: radial orthogonality by finite differences, polar integration
C62 | Zernike index checks | D; refuted, partial
C63 | windows | A
C64 | `profile_to_tensor` | D; refuted, partial
C65 | LRU caches of the grids | I over histories: invariant relating entries to fresh results
C66 | `ansi_j_to_n_m` | A over the integers
C67 | `ansi_j_to_n_m` with a rounded square root | A with an abstract rounding
C68 | remove_trivial_phase | A: linearity
C69 | remove_trivial_phase | A: symmetry of the aperture
C70 | remove_trivial_phase, tilt | A; refuted, partial with exact residual and limit (Riemann sums)
C71 | zernike_decomposition | A
C72 | zernike_decomposition of modes | A: Gram matrix; refuted, partial with limit
C73 | controllers before initialize | I over histories with faults
C74 | close | D; refuted, partial
C75 | load_single on ALP | I; refuted, partial
C76 | load_multiple on ALP | I over histories
C77 | sequences on the ALP device | I; refuted, partial, and the exact number for every history and every failure
C78 | Luxbeam display | I over sequencer steps
C79 | ALP inversion | I; refuted, partial
C80 | failed Luxbeam load | D over fault positions
C81 | Luxbeam order with any trigger timing | I over interleavings of host and sequencer
C82 | failed ALP load | D over fault positions
C83 | software trigger | I; refuted, partial
C84 | tilt of the input field | A: shift theorem
C85 | symmetries of the propagation | A
C86 | overlaps | A: polarised Parseval
C87 | method ifta | R to `Spec.IftaStep`, I on iterations
C88 | scaling of inputs and targets of gs/mraf | I on iterations
C89 | fixed points of gs | I on iterations
C90 | first order of each method | A: integrals over the grating phase, dominated convergence
C91 | HermiteGaussian overlaps | A: Hermite orthogonality by integration by parts, Fubini
C92 | LaguerreGaussian overlaps | A: Gamma integrals, finite differences, polar integration
C93 | propagate_to_image, fourier_plane_grid | A: Riemann sums of Lipschitz functions in two dimensions
C94 | propagate_to_image of a HermiteGaussian | A: Riemann sums, Fourier transform of the Gaussian, tail bound
C95 | get_input_power of a HermiteGaussian | A: the same with the squared field
C96 | device model constructors, pack_dmd_state | D over the four models, with C10 and C41
C97 | method random, propagate_to_image | A: variance of sums of pairwise independent variables
C98 | mode matching with every method | A: the brightest pixel of C25 bounds every other factor
C99 | method random through mode matching and propagation | A: absolutely convergent cosine series of the pulse (two integrations by parts), dominated convergence
C100 | `SuperGaussian` | A: limits of powers; polar integral of Mathlib's Gamma function
C101 | `circular_patch` histories, propagation | I over the list of patches, linearity
C102 | `_convert_pixel_index_to_dmd_coordinate`, `_convert_slm_coordinate_to_pixel_index` with each operation rounded | A: forward error analysis
C103 | `_grating_phase`, `_calculate_dmd_grating_ideal`, `_calculate_dmd_grating_simple` with each operation rounded | A: forward error analysis; cosine is 1-Lipschitz
C104 | `_calculate_dmd_grating_random` with each operation rounded | A: forward error analysis; folding is 1-Lipschitz, arccos is Hölder, tanh is 1-Lipschitz
C105 | the state-setting methods of `DMD` | B: fold over the history of calls against the list of writes to one mirror
C106 | `_calculate_lcos_slm_hologram_gs` | C: monotone sequence bounded below; each step drops by the weighted phase changes (Parseval and the law of cosines)
C107 | `_calculate_dmd_grating_random` | A: folding of the phase onto the nearest line, bounds of tanh; the limit is taken on the finite set of mirrors
C108 | signatures of the public methods (`Verif/Model/Defaults.lean`) and the defaults of keyword arguments in `_lib.py` | D: case analysis over the methods, failing conversions included
C109 | constructors, `reset_slm_state`, `set_dmd_state_on/off`, `propagate_to_image` | A: the modulation is constantly 1 or 0, then C10 and the power formulas
C110 | relation `SampledAs` on arguments lifted to calls and histories (`Spec/Interchange`) | I: congruence of every method in its sampled arguments; casting twice is casting once; induction on the history
C111 | relation `Rescaled`, devices in other units (`SLM.inUnits`, `Sim.SameIn`) | I: grids, carrier phase and pixel areas scale by powers of c; congruence of every method; induction on the history
C112 | `HermiteGaussian`, `propagate_to_image` | A: Fourier transform of the Hermite functions by integration by parts and the three-term recurrence; sums over pixels against integrals by the total variation
C113 | `LaguerreGaussian` | A: coefficients of scipy's polynomial; Rodrigues' formula by induction from `(d/dt)(e^-t t^(k+1) L_p^(k+1)) = (p+1) e^-t t^k L_(p+1)^k`
C114 | `LaguerreGaussian`, `propagate_to_image` | A: ladder operators show each mode to be a combination of Hermite-Gaussian modes of total order 2p plus the modulus of l; the focal spot is linear in the mode
C115 | both hologram algorithms as in C44, C48 | I: the conjugate of the field turned by 180 degrees is preserved by one iteration, induction over the iterations
C116 | gs as in C44; the proviso is needed because the phase of 0 is taken to be 0 | I: a phase ramp is preserved by one iteration, induction over the iterations
C117 | propagate_to_image as in C10 | A: geometric sums over the rows and columns, from the formula behind C10
C118 | `Model/Frames`: arrays, `np.concatenate`, row-major order, `number_image` with the font as a parameter | R: refinement of the array level to the frame lists of C76, C78; D for arrays that do not fit
C119 | calculate_dmd_state, propagate_to_image as in C23, C99; the illumination differs from the input by a screen | A: the orders of C23 and C99 carry the screen; convolution theorem with the point spread function; equality in the triangle inequality
C120 | calculate_dmd_state with a window, propagate_to_image | A: the orders of C23 and C99 with the window as a factor of the transform; convolution theorem; monotonicity of the maximum
C121 | calculate_dmd_state, the field of the first order of C23 | A: Parseval and the definition of eta by a maximum; case of equality term by term
C122 | set_dmd_grating_state with method random, propagate_to_image as in C97; frames with independent draws | A: strong law of large numbers for a bounded function of the draws of a frame, variance of sums
C123 | constructors of profiles, profile subtraction, calculate_dmd_state, DMDSimulation, propagate_to_image, block_zeroth_order, in the order of the example scripts | A: the Gaussian is nowhere zero, so C23 and C99 apply; C18 for the blocking; values of the profiles by C56 and C113
C124 | calculate_hologram with method gs and a target with negative values | A/R: Parseval and nearest point of the circle as in C44 with a sign; counterexample: the two holograms of a spot on a background of opposite sign alternate (induction on the iterations)
C125 | constructors of profiles, as_complex_profile, calculate_hologram, SLMSimulation, calculate_dmd_state, DMDSimulation, in the order of the example scripts | A: C47 and C12 for the LCOS; C60, C99, C119 and C18 for the aberration
C126 | set_dmd_grating_state with method random, propagate_to_image; draws as independent uniform variables | A: the image is linear in the mirrors (C97); Hoeffding by sub-Gaussian moment generating functions for the four signs of real and imaginary part; union bound
C127 | calculate_hologram with method mraf, any number of iterations | A/I: up to the factor 1-m an iteration replaces the modulus in the window by m/(1-m) times the target and keeps the rest; nearest point and Parseval as in C44 and C106; induction on the iterations
C128 | calculate_hologram with method mraf | A: C127 with m/(1-m) = 1; counterexample: the hologram of two equally bright spots, computed by hand
C129 | propagate_to_image on two states of a device | A: the transform is linear, so the difference of the images is the image of the difference; Parseval (C12) for its power, the triangle inequality for each pixel; the exponential of an imaginary number is 1-Lipschitz for the phases
C130 | the two scripts as programs over the controller and the vendor calls (Model/DeviceScripts) | I: induction on the presses of Enter; C118 and C78 for what is shown
C131 | rotate, rescale_x, rescale_y of the mode profiles | A: the azimuthal factor is the real or imaginary part of a power of the unit vector z/abs(z), which a rotation multiplies by exp(it) and a reflection conjugates; parities of the Hermite polynomials (C56)
C132 | get_input_power and propagate_to_image of HermiteGaussian and LaguerreGaussian beams | A: the product of two modes is a polynomial times a Gaussian; sums of monomials over pixels against integrals by the total variation (as C112), linearity; C86 for the images; C91, C92 for the values
C133 | `Zernike` as in C60 | A: the radial polynomial is an entry of the matrix of a rotation acting on homogeneous polynomials, which is orthogonal for the binomial inner product
C134 | propagate_to_image on a binary DMD or an LCOS SLM | A: triangle inequality in the Fraunhofer sum of C10; real part and 1 - x^2/2 as a lower bound of the cosine
C135 | calculate_hologram with zero iterations, draws as independent uniform variables, propagate_to_image | A: the image is linear in the phase factors, which have mean zero and are pairwise uncorrelated
C136 | calculate_dmd_state on the output of propagate_to_image, set_dmd_grating_state | A: the target transform inverts the image transform, so the pattern of C25 is the simulated field up to the factor c; C32 removes the common phase
C137 | propagate_to_image, the three power methods and block_zeroth_order with a rounding after every operation, an FFT of given accuracy and any order of summation (Model/FloatSim) | A: relative errors compose (Lemmas/Near); induction over the summation tree; Parseval carries the error through the exact transform
C138 | the iterations of ifta as specified in C87, the symmetry of the discrete Fourier transform of real fields, and the forwarding of calculate_dmd_state | I: induction over the iterations; the antisymmetric part of the window contributes an imaginary hologram, which the real part removes
C139 | ifta (C87) with two scales; a row of two mirrors as the counterexample | A/D: from C35 where the iterations do nothing; the negation by computing one iteration exactly
C140 | ifta and simple against the image of the ideal grating; a row of four mirrors as the counterexample | A/D: equality from C35 and C138 where the iterations do nothing; the negation by computing two iterations exactly
C141 | the field behind the SLM as in C10 and C15, for two LCOS states and two input fields | A: the fields behind the SLM differ by a constant phase, linearity of the image; tilts from C84
C142 | paddings as integers of either sign; tf.pad and fftfreq raising on negative sizes | I: induction over histories with the invariant that nothing was ever stored; A: the grids for any sign
C143 | dtypes of variables, constants and results of profiles, programs as sequences of backend accesses, constructions, compositions and calls | I: invariant that all variables have the dtype of the backend and that it is fixed once there is one; A: induction over profiles; the negation by a program
C144 | calculate_dmd_state with rounded operations, an arbitrary rounding, library errors and FFT error | A: error propagation through ratio, maximum, arcsine, phasor and pulse, monotonicity of rounding for the range; D: a counterexample arithmetic for the dim pixel
C145 | shapes as lists of dimensions, broadcasting, boolean indexing, tf.pad, loop variables that keep their shape | A: broadcasting is the least upper bound of an order on shapes; I: induction over histories; R: agreement with the model of the values on scalars and matrices
C146 | threads as programs over the answers of `BACKEND` and the cached grid methods, with switches between any two accesses to shared state; `lru_cache` as look-up, body, store | I: invariant over all schedules (one precision, caches hold right grids, every thread stands in its call as it should); a well-founded argument on programs for termination; refinement to the model of C65
C147 | the same | I: once used, the precision changes only by writes of threads past the test; counterexample schedules evaluated
C148 | the MRAF loop on a window that is 0 at all image pixels | I: induction over the iterations, each of which is the identity up to a factor by Fourier inversion
C149 | the function `task` of the scripts in `runtime_benchmark` with the constants as parameters | D: evaluation of the scripts; C148 for the window that misses the image plane, C150 for a draw on which the two mraf scripts differ
C150 | the Gerchberg-Saxton loop | A: the outputs of an iteration lie in the image of a smooth map from a space of smaller dimension, whose complement is dense
C151 | the Gerchberg-Saxton loop with every operation rounded, library functions and transforms of given accuracy | I: one step is an approximate nearest-point projection in both planes, induction over the iterations
C152 | the MRAF loop, likewise | I: the same with the goal replaced outside the window by the computed image
C153 | the object between any two assignments of `propagate_to_image` and `clear`; histories of complete and interrupted calls | I/D: cases on where the call stops, induction on the history, counterexample from two propagations
C154 | the two profile classes; conversion coefficients in `Spec/ModeConversion` | A: raising operators on polynomials in two variables, induction on the indices
C155 | programs with variables, object addresses that are reused, an interpreter free to place and free objects; the caches of `Model/Cache` keyed by address | R: refinement to variables holding the objects themselves, invariant that keys of caches stay alive
C156 | as C155, with an interpreter that frees at once | I/D: invariant on memory, counting the keys of the five caches, counterexample program
C157 | `HermiteGaussian._func` with rounding; assumptions on the arithmetic in `Spec/FloatProfile` | A: composition of error bounds, induction along Horner's rule
C158 | `SuperGaussian._func` and the two windows with rounding | A/D: composition of error bounds, comparison of both sides of the edge conditions
C159 | `LaguerreGaussian._func` with rounding | A: composition of error bounds, chord of the phase instead of the angle
C160 | `Zernike._func` with rounding | A/D: composition of error bounds, whole turns of the angle, edge condition
C161 | Luxbeam requests that return, fail, fail after taking effect or are cut off, and restarts of the program | I: invariants over histories of events, case analysis of the request that failed
C162 | ALP requests that return, fail, fail after taking effect or are cut off | I: fresh sequence numbers as an invariant, case analysis of the request that failed
C163 | `Model/Attributes`: what python does for `profile.name` and `profile.name = v`, over programs that make and compose profiles | I: the variables of every object match the constructor call with the arguments last assigned; the exceptions (Laguerre-Gaussian, flags and indices of Zernike) are refuted by concrete programs
C164 | `Model/Traced`: the graph each `_func` builds, the table of graphs kept per profile and argument shapes, nested calls of `tf.function`s | I: every graph kept is correct for all variable values (induction on the profile) and equal to the one that would be built now; graphs are never dropped or replaced
C165 | threads with their remaining calls; a patch looks up the array and then writes its mirrors one by one, every other call assigns a new array in one step | I: induction over the schedule; a mirror pending in the shown array has in its patch the value of the last call that wrote it, every other mirror shows that value
C166 | threads with their remaining calls and their place in the call, switching between any two accesses to the three fields and the SLM | I: induction over the schedule, fields and local variables are results of single propagations; R: with one user the simulation is tied to the sequential history at every place in a call
C167 | readers that look up the state twice and read it mirror by mirror, beside the threads of Model/SharedDmd | I: induction over the schedule; without patches an array never changes once assigned, so what has been read is part of the state at the moment it was looked up
C168 | the mask of circular_patch with a rounding after each operation | A: dyadic numbers of few bits are exact under every operation of the mask, far mirrors stay far; relative error bounds elsewhere
C169 | the reads of variables of one evaluation, each at its own moment | A: structural induction, the value depends on what is read only; each read then supplies the parameter of one profile
C170 | the sampled Fourier sum of a Gaussian beam against its integral (C10_fraunhofer, C94) | A: Poisson summation over the whole line, Gaussian tails bounded by integrals (Mills), product of the two directions
C171 | the tests in test/test_simulation.py, test_slm.py and test_profile.py, in exact arithmetic with their numbers as variables | A: C170 with numerical bounds for exp and pi; C08, C12, C13, C41, C60
C172 | `HermiteGaussian._func` with numbers that overflow and underflow; then `calculate_dmd_state` with rounding (C144) | D: interval bounds through each rounded operation; the factor exp(-r^2/w^2) underflows at 11 waists; C144_dark for the dark DMD
C173 | `LaguerreGaussian._func` with numbers that overflow and underflow | D: interval bounds through each rounded operation; inf times 0 is NaN
C174 | `calculate_dmd_state` for arrays with NaN (methods simple, random, ideal), with the maximum of an array with NaN left open | D: a transform of an array with NaN is NaN everywhere; agreement with the model without NaN
C175 | `calculate_hologram` for arrays with NaN | I over the iterations: NaN anywhere spreads in one iteration; otherwise agreement with the model without NaN
C176 | `remove_trivial_phase` | A: exact mean square after each mode; tilts of square arrays have a mean square below 2; Riemann sums for large apertures
C177 | sequences of calls of `remove_trivial_phase` | I over the calls: a geometric series for each tilt; orthogonality gives the least squares plane
C178 | `zernike_decomposition` of samples of a phase on the disc | A: Riemann sums; the modes span all polynomials in x and y; Stone-Weierstrass and density of continuous functions in L2
C179 | threads calling `propagate_to_image` while others update the DMD, the copy of the state made mirror by mirror in any order (`Model/SimRead`) | I: invariant over schedules for the copy under way; the fields depend only on the entries of the copy; R: a concrete schedule for the refutation
C180 | `analysis.py` with every result rounded, modes in the arithmetic of profiles, means in any order of summation (`Model/FloatAnalysis`) | I over the tree of additions, the modes removed and the terms; C160 for each mode
C181 | `_calculate_dmd_grating_ifta` with every result rounded, quotients and transforms of given accuracy (`Model/FloatIfta`) | I over the iterations on the field-weighted norm of the error; Parseval for the transforms, clipping is 1-Lipschitz away from its levels
C182 | method `ifta` on arrays with NaN (`Model/NanIfta`): transforms of an array with NaN are NaN everywhere, comparisons with NaN are false | A: one iteration with NaN gives 0 or NaN everywhere; D over the positions of the NaN; I over the iterations for agreement without NaN
C183 | histories of `block_zeroth_order` and DMD updates after a propagation (`Model/Simulation`) | I over the history, with C17 for each call
C184 | threads that use one `LCOS_SLM`, with arbitrary client programs, switched between computing and assigning (`Model/SharedLcos`) | R: refinement of uninterrupted calls (`Spec/SharedLcos`), I over the schedule
C185 | threads that use one `LuxbeamController`, requests, sequencer instructions, external triggers and failures in any order (`Model/SharedLux`) | I over the schedule: the stopped device depends on the foreign events only in the level of the sync line; then the position moves by at most one per event; D: witness for overlapping loads
C186 | `calculate_dmd_state` with method `ifta`, every result rounded (`Model/FloatCalcIfta`) | A: the bound of C144 on the grey values, times `s` and weighted with the field, is the start of the recursion of C181
C187 | threads that use one `ALPController`, their vendor calls and failures in any order (`Model/SharedAlp`) | I over the schedule: in an exclusive load the device gets its calls and nothing else; otherwise a transfer or a start is pending, or the current sequence is filled and running; D: witnesses for overlapping loads
C188 | a `LaguerreGaussian` target computed with overflow and underflow, then mode matching on arrays with NaN (`Model/VortexTarget`) | A: the edge of the image plane is far from the beam, C173 gives NaN there, C174 and C182 what becomes of it
C189 | threads that initialize, use and close one `ALPController`, step by step (`Model/OpenAlp`) | I over the schedule: what each thread still has to do is an end of its call, the flag is set iff an `initialize()` has returned; the inversion is on or still to come; D: witnesses for `close()`
C190 | threads that initialize and use one `LuxbeamController`, step by step (`Model/OpenLux`) | I over the schedule as for C189; the display needs an enabled sequencer, which only a load enables; D: witness for an `initialize()` that overlaps with a load
C191 | `SuperGaussian._func` with overflow and underflow, and mode matching with such a target (`Model/FloatSuper`) | A: every intermediate value is a number that is not negative or +inf, so the exponential is in [0, 1]; lower bounds on the base far out, upper bounds near the centre
C192 | `HermiteGaussian._func` with overflow and underflow, and mode matching with such a target (`Model/FloatRange`, `Model/FloatHermite`) | A: lower bounds of the partial sums of the rule of Horner for n = 28 beyond 15.4, upper bounds for the positive part; C174 for what becomes of the NaN
