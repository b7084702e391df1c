# Formal model of QITI/pySLM2 in Lean 4

This file is generated by `tools/gen_design.py` from `tools/design_*`, `MANIFEST.json` and `properties.jsonl`.

## 1. What is modelled

The model is a shallow, function-by-function transcription of `/repo/pySLM2` into Lean 4
(`lean/Verif/Model/*.lean`).  Every definition cites the lines it models and names its simplifications.

| module | models |
|---|---|
| `Model/Basic` | python exceptions as values, tensor shapes (rank 0 and 2) with broadcasting, IEEE special values |
| `Model/Backend` | `_backend.py`: precision with its lock, derived dtypes, FFT selector |
| `Model/Profile` | `profile.py`, `window.py`: profile objects as expression trees over mutable `tf.Variable` cells, operators with their dtype rules and errors, all mode classes |
| `Model/Slm` | `slm.py` class `SLM`: coordinates, grids, `profile_to_tensor`; the sizes of the device classes |
| `Model/Cache` | `functools.lru_cache` as used for the grids, together with the dtype lock |
| `Model/Lib` | `_lib.py`: DFT, shifts, the four DMD grating methods, GS, MRAF |
| `Model/Dmd` | `slm.py` class `DMD`: every public method as an outcome (effect on `dmd_state`, result or exception), packing, array aliasing, histories of calls |
| `Model/Lcos` | `slm.py` class `LCOS_SLM` |
| `Model/Simulation` | `simulation.py`: constructors, propagation, fields, powers, `block_zeroth_order`, as a state machine |
| `Model/Analysis` | `analysis.py`: `remove_trivial_phase`, `ansi_j_to_n_m`, `zernike_decomposition` |
| `Model/Defaults` | default values of optional arguments of every method and constructor |
| `Model/Float` | the same formulas with every elementary operation followed by an arbitrary rounding |
| `Model/FloatSim` | the simulation with rounding, an FFT of given accuracy and any order of the sums |
| `Model/FloatCalc` | `DMD.calculate_dmd_state` with rounding and an FFT of given accuracy |
| `Model/FloatHologram` | `LCOS_SLM.calculate_hologram` with rounding and transforms of given accuracy |
| `Model/FloatProfile` | `profile.py`, `window.py` with rounding and library functions of given accuracy |
| `Model/FloatAnalysis` | `analysis.py` with rounding, modes of given accuracy and any order of the sums |
| `Model/FloatIfta` | method `ifta` with rounding, quotients and transforms of given accuracy |
| `Model/FloatCalcIfta` | `DMD.calculate_dmd_state` with method `ifta`, with rounding: `Model/FloatCalc` followed by `Model/FloatIfta` |
| `Model/Interrupt` | calls of `simulation.py` that are cut short between two assignments |
| `Model/Lifetime` | devices and simulations that are made, dropped and freed, with the caches of `slm.py` and `simulation.py` keyed by address |
| `Model/Threads` | several threads using `_backend.py` and the cached grids at the same time |
| `Model/FloatPatch` | the disc of `circular_patch` with every operation rounded |
| `Model/FloatRange` | Hermite- and Laguerre-Gaussian profiles with overflow and underflow |
| `Model/Nan` | mode matching and holograms of arrays that hold NaN |
| `Model/NanIfta` | method `ifta` on arrays that hold NaN |
| `Model/VortexTarget` | Laguerre-Gaussian targets with overflow as arrays that hold NaN |
| `Model/FloatSuper` | super-Gaussian profiles with overflow and underflow, as targets too |
| `Model/FloatHermite` | Hermite-Gaussian targets with overflow as arrays that hold NaN |
| `Model/SharedProfile` | the reads of one evaluation of a profile, each at its own moment |
| `Model/SharedDmd` | several threads updating one `DMD` |
| `Model/SharedLcos` | threads that share an LCOS SLM |
| `Model/SharedLux` | threads that share a Luxbeam controller |
| `Model/SharedAlp` | threads that share an ALP controller |
| `Model/OpenAlp` | threads that initialize, use and close an ALP controller |
| `Model/OpenLux` | threads that initialize and use a Luxbeam controller |
| `Model/SharedRead` | threads calling `pack_dmd_state` while others update the `DMD` |
| `Model/SimRead` | threads calling `propagate_to_image` while others update the `DMD` |
| `Model/SharedSim` | several threads using one `SLMSimulation` / `DMDSimulation` and updating its SLM |
| `Model/Benchmarks` | the function `task` of the scripts in `runtime_benchmark` |
| `Model/Ranks` | the shapes of the results of all methods for arrays of any rank |
| `Model/Precision` | the dtypes of variables, constants and values of profiles, and programs that mix profiles with accesses to the backend |
| `Model/Controller` | `util/controller.py`: vendor-call logs with fault injection at every call, the ALP device state, the Luxbeam sequencer program and its execution against trigger lines |
| `Model/TornCalls` | the same controllers when a vendor call takes effect without returning or is cut off in a transfer, and when the program dies and is started again |
| `Model/Attributes` | reading and assigning the public attributes of profiles and windows by name (`EagerTensor` has no method `value`, only variables do) |
| `Model/Traced` | `tf.function` on profiles: graphs with variables captured by reference, kept per argument shapes; the dtype is not part of the key (C143: it is fixed before the first call), and objects composed alike from the same parts share graphs |
| `Model/Frames` | `util/controller.py`, `util/sample.py` at the level of numpy arrays: `np.concatenate`, row-major order, `number_image` |
| `Model/DeviceScripts` | `examples/load_images_luxbeam.py`, `util/master_example.py`: the sequences of controller and vendor calls |

Specifications that do not mention the model's helpers are in `lean/Verif/Spec/`, helper lemmas in
`lean/Verif/Lemmas/`, and the property theorems (with an `example` beside each showing that a non-trivial
case meets its hypotheses) in `lean/Verif/Props/`.

### Not modelled

* The text rendering of PIL: what the font paints is a parameter of `Model/Frames.numberImage`.  Note that
  `number_image` uses `np.bool`, which does not exist in numpy 1.24 to 1.26, where it always raises
  `AttributeError`; the model is for the other versions.
* Plotting and prompts in `examples/` and `util/master_example.py` (their API calls are C123, C125, C130), `docs/`; `test/` itself is not modelled, what its tests check is C171.
* The values of tensors of ranks other than 0 and 2 (their shapes are in `Model/Ranks`, C145), strings or objects passed as profiles, `tf.function` retracing of anything but profiles (profiles: C164).  The FFT
  selector is a `tf.Variable` compared inside the traced function, so it is read again at every call, as in
  the model (both transforms compute the same sum in the model, so only the selector itself is affected, C03).
* `verbose=True` printing in `analysis.py`, the timing and printing of `runtime_benchmark` (its `task` functions are in `Model/Benchmarks`).
* Rounding except as described in section 2, overflow, performance, memory use, GPU/CPU differences.
* Threads: the library has none and takes no locks.  Threads of a program that uses it share `BACKEND` and the grid
  caches; that is modelled in `Model/Threads` (C146, C147) with switches between any two accesses to shared
  attributes.  Threads that share a DMD or a simulation are modelled in `Model/SharedDmd` and `Model/SharedSim`
  (C165, C166), also with switches between any two accesses; threads that share an LCOS SLM in `Model/SharedLcos` (C184), and a
  Luxbeam controller in `Model/SharedLux` (C185) and `Model/OpenLux` (C190), or an ALP controller in `Model/SharedAlp` (C187) and `Model/OpenAlp` (C189).  The internals of `lru_cache` are not modelled (its
  look-up and its store are single steps).  A DMD that is updated while a simulation copies its state is modelled in
  `Model/SimRead` (C179).  The Luxbeam sequencer, which runs concurrently with
  the host, is modelled with arbitrary interleavings (C81).

## 2. Numbers and libraries

* `float32/float64` arithmetic is modelled by exact real / complex arithmetic.  Rounding is
  modelled only in C67 (square root) and in `Model/Float` (C102-C104), where every elementary operation of the
  pixel coordinates and of the ideal, simple and random gratings is followed by an arbitrary rounding with `t`
  significant bits and the library functions have an arbitrary bounded error, and in `Model/FloatSim` (C137), where
  the same is done for the simulation, with an FFT of arbitrary given accuracy and an arbitrary order of the
  additions in `np.sum`, in `Model/FloatCalc` (C144), where it is done for mode matching, in `Model/FloatHologram` (C151, C152) for the LCOS holograms, in `Model/FloatProfile` (C157-C160) for profiles and windows, in `Model/FloatPatch` (C168) for the patch of `block_zeroth_order`, in `Model/FloatAnalysis` (C180) for `analysis.py`, and in `Model/FloatIfta` (C181) and `Model/FloatCalcIfta` (C186) for method `ifta`.  Overflow and underflow are modelled for Hermite-, Laguerre- and super-Gaussian profiles only (`Model/FloatRange`, C172, C173 and C192; `Model/FloatSuper`, C191).  NaN in arguments is modelled in `Model/Nan` (C174, C175) and `Model/NanIfta` (C182), with the rule that sums and products with NaN are NaN.
* Where the code can divide by zero or leave the domain of `asin`, values are of type `XR` (finite real,
  +inf, -inf, nan) with IEEE comparison semantics; signed zeros are not modelled.  In profile expressions a
  non-finite value (division by zero, negative base to a fractional power, ...) is `none`, and theorems say
  what happens when values are defined.
* `np.fft.fft2/ifft2` and `tf.signal.fft2d/ifft2d` are modelled by the DFT sums they document.
* `tf.random.uniform` is a parameter (an arbitrary draw with values in [0,1)); theorems quantify over all
  draws, or state measures over draws explicitly.
* `scipy.special.hermite(n).coef`, `genlaguerre(p,a).coef`, `factorial` are modelled by the exact
  coefficients scipy documents.
* `functools.lru_cache` follows its documentation (128 entries, least recently used evicted, exceptions not
  cached, keyed by object identity here).
* numpy basic indexing, `arr[mask] = values[mask]` (in place, cast to the dtype of `arr`), `np.packbits`
  (big-endian bits, zero padding of the last byte) follow their documentation.
* Vendor libraries (not part of `/repo`): `Alp.apply` and `Lux.*` in `Model/Controller` state what each call
  is assumed to do.  A faulted call raises and has no effect on the device (in `Model/TornCalls` it may also take effect, or leave arbitrary picture data or no sequencer program); `ALP4.Halt` stops projection;
  `SeqAlloc` allocates and selects a sequence; `FreeSeq` frees the last one; `Free` releases the device;
  `Initialize` starts from a device in master mode, without inversion and without sequences; a Luxbeam
  `trig` instruction waits for a rising edge on one of the three trigger lines.  `dmd_state * 255` is an
  int64 array; the ALP library is assumed to convert it to bytes.

## 3. Plan and result per property

Shapes: (A) algebraic law or real analysis over R/C, (I) invariant by induction over operation lists or
iterations, (R) refinement of a small specification, (D) decision logic.

| property | what is modelled | how it is proved | status | theorems |
|---|---|---|---|---|
| C01 Precision is frozen by its first use | `Backend` state machine (reads, sets, selector) | I over op lists against a trace specification | proved | `C01_observations`, `C01_frozen`, `C01_reads_agree`, `C01_rejected_changes_nothing` |
| C02 Real, complex and integer precisions always match | `Backend` | D with the invariant of C01 | proved | `C02_consistent_triple` |
| C03 The FFT backend selector never changes what is computed or locked | `Backend` | I | proved | `C03_fft_selector`, `C03_in_force`, `C03_fft_irrelevant_for_precision` |
| C04 Pixel index and SLM coordinate conversions are mutual inverses | `Slm` coordinate conversions | A | proved | `C04_index_roundtrip`, `C04_coord_roundtrip` |
| C05 Orientation and spacing of the Fourier plane grid | `Slm` Fourier plane grid | A | proved | `C05_fourier_grid` |
| C06 Orientation, spacing and origin of the image plane grid | `Slm`, `Simulation` image plane grids (fftfreq, fftshift, both parities) | A, index arithmetic | proved | `C06_image_grid`, `C06_image_padded_grid` |
| C07 Padding extends the Fourier plane grid without moving it | `Simulation` padded Fourier grid | A | proved | `C07_padding_extends` |
| C08 Padding refines the image plane grid | `Simulation` padded image grid | A | proved | `C08_padding_refines`, `C08_matching_pixel` |
| C09 Reported pixel areas are the areas of a grid cell | pixel areas against grid spacings | A | proved | `C09_pixel_areas` |
| C10 propagate_to_image computes Fraunhofer diffraction on the advertised grids | `Simulation.propagate` | A: shifts and DFT turned into the Fraunhofer sum over SLM coordinates | proved | `C10_fraunhofer`, `C10_intensity`, `C10_slm_planes` |
| C11 Padding does not change the simulated field | propagation with different paddings | A: re-indexing of the padded sum | proved | `C11_padding_invariance` |
| C12 Energy conservation from SLM to image plane | powers | A: Parseval for the 2-D DFT | proved | `C12_energy` |
| C13 Padding does not change the power | powers with padding | A | proved | `C13_padding_power` |
| C14 A binary DMD is passive and complementary states split the power | propagation through a boolean state | A: Parseval plus pointwise bound | proved | `C14_passive` |
| C15 An LCOS SLM with a real phase hologram is lossless | propagation through exp(-1j*phase) | A: Parseval | proved | `C15_lossless`, `C15_two_pi` |
| C16 Superposition | propagation as a linear map | A | proved | `C16_superposition` |
| C17 block_zeroth_order blanks exactly a disc around the axis | `block_zeroth_order` | A, D | proved | `C17_blocks_disc`, `C17_default_radius`, `C17_idempotent`, `C17_power`, `C17_reachable` |
| C18 Blocking the zeroth order spares the first order | `block_zeroth_order` and `first_order_origin` | A | proved | `C18_first_order_spared` |
| C19 Simulation lifecycle | `Simulation` state machine | I over histories of calls | proved | `C19_lifecycle`, `C19_history_forgotten`, `C19_state_change`, `C19_clear` |
| C20 A failed propagation leaves the previous simulation result intact | failing propagation | D; refuted by a witness, partial theorem for what survives | partial | `C20_partial`, `C20_refuted` |
| C21 Simulation constructor argument checks | constructors | D | proved | `C21_slm`, `C21_dmd` |
| C22 The ideal grating is a transmission between 0 and amp | method ideal | A: bounds of cos, range of states | proved | `C22_ideal_range`, `C22_unit_range` |
| C29 The simple method is the 0.5 threshold of the ideal grating | method simple | A | proved | `C29_simple_threshold`, `C29_consequences` |
| C30 The random method is an unbiased dither of a well-defined duty function | method random | A: measure of the set of draws | proved | `C30_random`, `C30_probability` |
| C31 More requested amplitude never switches mirrors off | method random | A: monotonicity of tanh and arcsin | proved | `C31_monotone` |
| C32 Only the phase difference modulo 2*pi matters | phases modulo 2 pi | A | proved | `C32_phase_difference` |
| C33 The grating is periodic with the requested periodicity along theta | periodicity of the gratings | A | proved | `C33_periodic` |
| C23 The ideal hologram reproduces the target exactly in the first order | `calculate_dmd_state` then `propagate` | A: Lee hologram split into orders plus C10 | proved | `C23_interp`, `C23_orders`, `C23_first_order` |
| C24 negative_order puts the target in the opposite order | negative_order | A: symmetry of the grating | proved | `C24_negative_order`, `C24_theta_plus_pi` |
| C25 Mode matching amplitudes are normalised | `_calc_amp_phase` over `XR` | A: maximum over the array, IEEE cases | proved | `C25_normalised`, `C25_spectrum_ne_zero` |
| C26 Scaling of target or input intensity rescales eta only | eta | A: scaling of the DFT and of the maximum | proved | `C26_scaling` |
| C27 A vanishing target is rejected without touching the DMD | zero target | D over `XR`; refuted for simple, random and ideal, partial | partial | `C27_partial`, `C27_refuted`, `C27_refuted_methods` |
| C28 An input beam that is dark where light is needed is reported, not silently accepted | dark input | D over `XR`; refuted, partial | partial | `C28_partial`, `C28_refuted` |
| C34 IFTA leaves dark input pixels off and returns a boolean state | method ifta | I on iterations | proved | `C34_ifta`, `C34_calculate` |
| C35 IFTA degenerates to the simple method when it has nothing to do | method ifta, degenerate windows and N | I on iterations | proved | `C35_degenerate`, `C35_simple` |
| C36 IFTA binarisation step | method ifta, thresholding | A, I | proved | `C36_binarize`, `C36_schedule` |
| C37 DMD state shape and dtype over any history | histories of DMD methods | I over op lists: shape and dtype of `dmd_state` | proved | `C37_shape`, `C37_dtype` |
| C38 circular_patch changes only the disc | circular patch | A, D | proved | `C38_patch`, `C38_mixed`, `C38_commute`, `C38_disjoint` |
| C39 A grey-scale patch shows the requested grey values | circular patch on grey states | D; refuted, partial | partial | `C39_partial`, `C39_refuted` |
| C40 Failed DMD updates leave the state alone | failed updates | D over all error branches | proved | `C40_failed_updates`, `C40_unknown_method`, `C40_missing_window` |
| C41 pack_dmd_state is a faithful bit packing | packing | A: bits and bytes by induction on lists | proved | `C41_pack`, `C41_injective` |
| C42 pack_dmd_state refuses grey-scale states | packing refuses grey states | D | proved | `C42_type_error` |
| C43 Assigned arrays are shared: in-place and rebinding updates | array identities and aliasing | I over histories with a heap of arrays | proved | `C43_call`, `C43_history`, `C43_refines`, `C43_patches_shared` |
| C44 Gerchberg-Saxton never makes the image worse | gs | I on iterations, Parseval projection argument | proved | `C44_monotone` |
| C45 Gerchberg-Saxton corrects aberrated input beams | gs with aberrated inputs | refuted by an explicit family, partial for uniform phase | partial | `C45_partial`, `C45_refuted` |
| C46 The simulated LCOS image is the image the hologram was computed for | gs result in the simulation | refuted, partial (point reflection) | partial | `C46_partial`, `C46_refuted` |
| C47 Hologram phase range | gs/mraf phase range | A | proved | `C47_phase_range`, `C47_initial` |
| C48 MRAF with a full signal window is Gerchberg-Saxton | mraf with full window | I on iterations | proved | `C48_full_window` |
| C49 MRAF region weighting | mraf weights | A | proved | `C49_region_weighting` |
| C50 Failed hologram calculations leave the SLM state alone | failed holograms | D | proved | `C50_unknown_method`, `C50_missing_window`, `C50_failed` |
| C51 Profile arithmetic is pointwise arithmetic | profile arithmetic | structural induction on expression trees, dtype rules | proved | `C51_expressions`, `C51_supported`, `C51_unsupported` |
| C52 Profile powers | powers of profiles | A, D | proved | `C52_dtype`, `C52_natural`, `C52_real`, `C52_complex` |
| C53 Geometric transformations compose | rotate/shift/rescale | A | proved | `C53_formulas`, `C53_compose`, `C53_undo`, `C53_distribute` |
| C54 as_complex_profile is a unit-modulus phase factor | as_complex_profile | A | proved | `C54_phase_factor`, `C54_homomorphism` |
| C55 Composed profiles are live views of their parts | parameter assignments | I over histories of assignments and constructions (heap) | proved | `C55_live`, `C55_local`, `C55_get`, `C55_samples` |
| C56 HermiteGaussian follows its documented formula | HermiteGaussian | A: Horner and Rodrigues formula by induction on n | proved | `C56_formula`, `C56_current`, `C56_parity` |
| C57 The fundamental modes coincide | fundamental modes | A | proved | `C57_fundamental`, `C57_super` |
| C58 Laguerre-Gaussian vortex symmetry | LaguerreGaussian | A: rotation, conjugation, vortex | proved | `C58_symmetry`, `C58_rotation` |
| C59 First-order Laguerre and Hermite modes are related | LG from HG | A | proved | `C59_first_order` |
| C60 Zernike radial polynomials are normalised at the edge and bounded support | Zernike | A: coefficient table to closed form | proved | `C60_formula`, `C60_edge`, `C60_support` |
| C61 Zernike modes are orthonormal over the aperture | Zernike orthonormality | A: radial orthogonality by finite differences, polar integration | proved | `C61_orthonormal` |
| C62 Zernike rejects invalid indices | Zernike index checks | D; refuted, partial | partial | `C62_partial`, `C62_refuted` |
| C63 Windows are exact indicator functions | windows | A | proved | `C63_rectangle`, `C63_disc`, `C63_algebra`, `C63_shift` |
| C64 profile_to_tensor yields the grid shape and requested dtype | `profile_to_tensor` | D; refuted, partial | partial | `C64_profile_partial`, `C64_array_partial`, `C64_refuted` |
| C65 Cached grids are transparent | LRU caches of the grids | I over histories: invariant relating entries to fresh results | proved | `C65_transparent`, `C65_bounded` |
| C66 ansi_j_to_n_m enumerates the Zernike modes | `ansi_j_to_n_m` | A over the integers | proved | `C66_bijection`, `C66_accepted` |
| C67 ansi_j_to_n_m is exact in double precision | `ansi_j_to_n_m` with a rounded square root | A with an abstract rounding | proved | `C67_double_precision` |
| C68 remove_trivial_phase removes the mean | remove_trivial_phase | A: linearity | proved | `C68_mean_zero`, `C68_constant` |
| C69 remove_trivial_phase is linear and local | remove_trivial_phase | A: symmetry of the aperture | proved | `C69_linear`, `C69_local`, `C69_outside` |
| C70 remove_trivial_phase removes tilt completely | remove_trivial_phase, tilt | A; refuted, partial with exact residual and limit (Riemann sums) | partial | `C70_partial`, `C70_square_partial`, `C70_limit`, `C70_refuted` |
| C71 zernike_decomposition structure | zernike_decomposition | A | proved | `C71_structure`, `C71_prefix`, `C71_extrapolate`, `C71_linear` |
| C72 zernike_decomposition recovers the coefficients | zernike_decomposition of modes | A: Gram matrix; refuted, partial with limit | partial | `C72_partial`, `C72_limit`, `C72_refuted` |
| C73 No device access before initialization | controllers before initialize | I over histories with faults | proved | `C73_alp`, `C73_luxbeam` |
| C74 No device access after close | close | D; refuted, partial | partial | `C74_partial`, `C74_refuted` |
| C75 ALP load_single shows the image at once | load_single on ALP | I; refuted, partial | partial | `C75_partial`, `C75_refuted` |
| C76 ALP frames are transferred in order and as full black/white levels | load_multiple on ALP | I over histories | proved | `C76_single`, `C76_multiple` |
| C77 ALP on-board memory is released on close | sequences on the ALP device | I; refuted, partial, and the exact number for every history and every failure | partial | `C77_partial`, `C77_refuted`, `C77_exact` |
| C78 Luxbeam steps cyclically through the last loaded images | Luxbeam display | I over sequencer steps | proved | `C78_cyclic`, `C78_no_leftover` |
| C79 ALP inversion follows the constructor argument | ALP inversion | I; refuted, partial | partial | `C79_partial`, `C79_refuted` |
| C80 A failed Luxbeam load never shows a mixture | failed Luxbeam load | D over fault positions | proved | `C80_failed_load` |
| C81 Luxbeam shows the images in order whatever the trigger timing | Luxbeam order with any trigger timing | I over interleavings of host and sequencer | proved | `C81_in_order` |
| C82 A failed ALP load never shows a wrong image | failed ALP load | D over fault positions | proved | `C82_failed_load` |
| C83 Each software trigger advances the display | software trigger | I; refuted, partial | partial | `C83_partial`, `C83_refuted` |
| C84 A tilted field shifts the image | tilt of the input field | A: shift theorem | proved | `C84_tilt` |
| C85 Symmetries of the simulated image | symmetries of the propagation | A | proved | `C85_real_field`, `C85_half_turn` |
| C86 Propagation preserves overlaps | overlaps | A: polarised Parseval | proved | `C86_overlap` |
| C87 What method ifta computes | method ifta | R to `Spec.IftaStep`, I on iterations | proved | `C87_ifta` |
| C88 Units of the input and target do not matter to holograms | scaling of inputs and targets of gs/mraf | I on iterations | proved | `C88_gs`, `C88_mraf` |
| C89 A perfect hologram is a fixed point of gs | fixed points of gs | I on iterations | proved | `C89_fixed_point` |
| C90 First order amplitude of the grating methods | first order of each method | A: integrals over the grating phase, dominated convergence | proved | `C90_ideal`, `C90_random`, `C90_simple` |
| C91 Hermite-Gaussian modes are orthogonal and have a known power | HermiteGaussian overlaps | A: Hermite orthogonality by integration by parts, Fubini | proved | `C91_hermite` |
| C92 Laguerre-Gaussian modes are orthogonal and have a known power | LaguerreGaussian overlaps | A: Gamma integrals, finite differences, polar integration | proved | `C92_laguerre` |
| C93 The simulated image approximates the diffraction integral | propagate_to_image, fourier_plane_grid | A: Riemann sums of Lipschitz functions in two dimensions | proved | `C93_continuum` |
| C94 A Gaussian beam is focused to the waist of Gaussian optics | propagate_to_image of a HermiteGaussian | A: Riemann sums, Fourier transform of the Gaussian, tail bound | proved | `C94_gaussian_spot` |
| C95 The input power of a Gaussian beam | get_input_power of a HermiteGaussian | A: the same with the squared field | proved | `C95_gaussian_power` |
| C96 The device models have the geometry of the devices | device model constructors, pack_dmd_state | D over the four models, with C10 and C41 | proved | `C96_geometry`, `C96_field`, `C96_rows` |
| C97 The random method adds white noise to the image of the grey grating | method random, propagate_to_image | A: variance of sums of pairwise independent variables | proved | `C97_random_image` |
| C98 Mode matching gives the brightest hologram | mode matching with every method | A: the brightest pixel of C25 bounds every other factor | proved | `C98_brightest` |
| C99 The random method puts the target into the first order | method random through mode matching and propagation | A: absolutely convergent cosine series of the pulse (two integrations by parts), dominated convergence | proved | `C99_random_orders`, `C99_order_amplitudes` |
| C100 The super-Gaussian tends to a top hat and has a known power | `SuperGaussian` | A: limits of powers; polar integral of Mathlib's Gamma function | proved | `C100_formula`, `C100_top_hat`, `C100_power` |
| C101 Separate patches superpose | `circular_patch` histories, propagation | I over the list of patches, linearity | proved | `C101_patches` |
| C102 Pixel coordinates survive rounding | `_convert_pixel_index_to_dmd_coordinate`, `_convert_slm_coordinate_to_pixel_index` with each operation rounded | A: forward error analysis | proved | `C102_accuracy`, `C102_order`, `C102_round_trip` |
| C103 Rounding changes the simple pattern only near the threshold | `_grating_phase`, `_calculate_dmd_grating_ideal`, `_calculate_dmd_grating_simple` with each operation rounded | A: forward error analysis; cosine is 1-Lipschitz | proved | `C103_simple`, `C103_float32` |
| C104 Rounding changes the random pattern with small probability | `_calculate_dmd_grating_random` with each operation rounded | A: forward error analysis; folding is 1-Lipschitz, arccos is Hölder, tanh is 1-Lipschitz | proved | `C104_random` |
| C105 The last writer wins | the state-setting methods of `DMD` | B: fold over the history of calls against the list of writes to one mirror | proved | `C105_last_writer`, `C105_overwrite` |
| C106 Gerchberg-Saxton settles | `_calculate_lcos_slm_hologram_gs` | C: monotone sequence bounded below; each step drops by the weighted phase changes (Parseval and the law of cosines) | proved | `C106_converges`, `C106_settles` |
| C107 The steepness of the random method | `_calculate_dmd_grating_random` | A: folding of the phase onto the nearest line, bounds of tanh; the limit is taken on the finite set of mirrors | proved | `C107_sharp`, `C107_limit`, `C107_flat` |
| C108 Omitted arguments | signatures of the public methods (`Verif/Model/Defaults.lean`) and the defaults of keyword arguments in `_lib.py` | D: case analysis over the methods, failing conversions included | proved | `C108_grating`, `C108_state`, `C108_plain`, `C108_methods`, `C108_hologram` |
| C109 Devices without a hologram | constructors, `reset_slm_state`, `set_dmd_state_on/off`, `propagate_to_image` | A: the modulation is constantly 1 or 0, then C10 and the power formulas | proved | `C109_mirror`, `C109_dark` |
| C110 Profiles and their samples are interchangeable | relation `SampledAs` on arguments lifted to calls and histories (`Spec/Interchange`) | I: congruence of every method in its sampled arguments; casting twice is casting once; induction on the history | proved | `C110_dmd`, `C110_others` |
| C111 The choice of length units does not matter | relation `Rescaled`, devices in other units (`SLM.inUnits`, `Sim.SameIn`) | I: grids, carrier phase and pixel areas scale by powers of c; congruence of every method; induction on the history | proved | `C111_dmd`, `C111_lcos`, `C111_simulation`, `C111_block` |
| C112 Hermite-Gaussian beams keep their shape in the focal plane | `HermiteGaussian`, `propagate_to_image` | A: Fourier transform of the Hermite functions by integration by parts and the three-term recurrence; sums over pixels against integrals by the total variation | proved | `C112_hermite_spot` |
| C113 LaguerreGaussian follows the textbook formula | `LaguerreGaussian` | A: coefficients of scipy's polynomial; Rodrigues' formula by induction from `(d/dt)(e^-t t^(k+1) L_p^(k+1)) = (p+1) e^-t t^k L_(p+1)^k` | proved | `C113_formula`, `C113_rodrigues` |
| C114 Laguerre-Gaussian beams keep their shape in the focal plane | `LaguerreGaussian`, `propagate_to_image` | A: ladder operators show each mode to be a combination of Hermite-Gaussian modes of total order 2p plus the modulus of l; the focal spot is linear in the mode | proved | `C114_laguerre_spot` |
| C115 Twin images | both hologram algorithms as in C44, C48 | I: the conjugate of the field turned by 180 degrees is preserved by one iteration, induction over the iterations | proved | `C115_gs`, `C115_mraf` |
| C116 Moving the target moves the image | gs as in C44; the proviso is needed because the phase of 0 is taken to be 0 | I: a phase ramp is preserved by one iteration, induction over the iterations | proved | `C116_moved` |
| C117 Diffraction by a rectangle of mirrors | propagate_to_image as in C10 | A: geometric sums over the rows and columns, from the formula behind C10 | proved | `C117_rectangle`, `C117_dark_lines`, `C117_single_pixel` |
| C118 From arrays of mirrors to the device | `Model/Frames`: arrays, `np.concatenate`, row-major order, `number_image` with the font as a parameter | R: refinement of the array level to the frame lists of C76, C78; D for arrays that do not fit | proved | `C118_alp_single`, `C118_alp_multiple`, `C118_alp_refused`, `C118_lux`, `C118_number_image` |
| C119 Aberrations and their correction | calculate_dmd_state, propagate_to_image as in C23, C99; the illumination differs from the input by a screen | A: the orders of C23 and C99 carry the screen; convolution theorem with the point spread function; equality in the triangle inequality | proved | `C119_same_eta`, `C119_correction`, `C119_random`, `C119_strehl` |
| C120 The window of calculate_dmd_state | calculate_dmd_state with a window, propagate_to_image | A: the orders of C23 and C99 with the window as a factor of the transform; convolution theorem; monotonicity of the maximum | proved | `C120_dark`, `C120_ideal`, `C120_random`, `C120_gain` |
| C121 What eta says about power | calculate_dmd_state, the field of the first order of C23 | A: Parseval and the definition of eta by a maximum; case of equality term by term | proved | `C121_efficiency`, `C121_first_order` |
| C122 Averaging over random holograms | set_dmd_grating_state with method random, propagate_to_image as in C97; frames with independent draws | A: strong law of large numbers for a bounded function of the draws of a frame, variance of sums | proved | `C122_exposure` |
| C123 A Gaussian beam can be turned into any target, and the example scripts do | constructors of profiles, profile subtraction, calculate_dmd_state, DMDSimulation, propagate_to_image, block_zeroth_order, in the order of the example scripts | A: the Gaussian is nowhere zero, so C23 and C99 apply; C18 for the blocking; values of the profiles by C56 and C113 | proved | `C123_random`, `C123_ideal`, `C123_donut`, `C123_spots` |
| C124 Gerchberg-Saxton improves the image also for targets with negative amplitudes | calculate_hologram with method gs and a target with negative values | A/R: Parseval and nearest point of the circle as in C44 with a sign; counterexample: the two holograms of a spot on a background of opposite sign alternate (induction on the iterations) | partial | `C124_partial`, `C124_refuted` |
| C125 The other example scripts work for all their numbers | constructors of profiles, as_complex_profile, calculate_hologram, SLMSimulation, calculate_dmd_state, DMDSimulation, in the order of the example scripts | A: C47 and C12 for the LCOS; C60, C99, C119 and C18 for the aberration | proved | `C125_lcos`, `C125_hermite`, `C125_aberration` |
| C126 Random holograms are close to what was asked for, with explicit probability | set_dmd_grating_state with method random, propagate_to_image; draws as independent uniform variables | A: the image is linear in the mirrors (C97); Hoeffding by sub-Gaussian moment generating functions for the four signs of real and imaginary part; union bound | proved | `C126_concentration` |
| C127 What method mraf works towards | calculate_hologram with method mraf, any number of iterations | A/I: up to the factor 1-m an iteration replaces the modulus in the window by m/(1-m) times the target and keeps the rest; nearest point and Parseval as in C44 and C106; induction on the iterations | proved | `C127_monotone`, `C127_fixed` |
| C128 More iterations of method mraf never make the image in the signal window worse | calculate_hologram with method mraf | A: C127 with m/(1-m) = 1; counterexample: the hologram of two equally bright spots, computed by hand | partial | `C128_partial`, `C128_refuted` |
| C129 Small faults of the SLM have small effects on the image | propagate_to_image on two states of a device | A: the transform is linear, so the difference of the images is the image of the difference; Parseval (C12) for its power, the triangle inequality for each pixel; the exponential of an imaginary number is 1-Lipschitz for the phases | proved | `C129_difference`, `C129_mirrors`, `C129_phases` |
| C130 The scripts that drive a device show what they say | the two scripts as programs over the controller and the vendor calls (Model/DeviceScripts) | I: induction on the presses of Enter; C118 and C78 for what is shown | proved | `C130_luxbeam`, `C130_luxbeam_runs`, `C130_master` |
| C131 Modes under rotations and reflections | rotate, rescale_x, rescale_y of the mode profiles | A: the azimuthal factor is the real or imaginary part of a power of the unit vector z/abs(z), which a rotation multiplies by exp(it) and a reflection conjugates; parities of the Hermite polynomials (C56) | proved | `C131_zernike_rotate`, `C131_zernike_mirror`, `C131_hermite`, `C131_laguerre`, `C131_round` |
| C132 Powers and overlaps of simulated beams are those of the modes | get_input_power and propagate_to_image of HermiteGaussian and LaguerreGaussian beams | A: the product of two modes is a polynomial times a Gaussian; sums of monomials over pixels against integrals by the total variation (as C112), linearity; C86 for the images; C91, C92 for the values | proved | `C132_overlap`, `C132_power`, `C132_hermite_power`, `C132_laguerre_power` |
| C133 The stroke of a Zernike mode | `Zernike` as in C60 | A: the radial polynomial is an entry of the matrix of a rotation acting on homogeneous polynomials, which is orthogonal for the binomial inner product | proved | `C133_bound`, `C133_attained` |
| C134 The brightest possible pixel | propagate_to_image on a binary DMD or an LCOS SLM | A: triangle inequality in the Fraunhofer sum of C10; real part and 1 - x^2/2 as a lower bound of the cosine | proved | `C134_limit`, `C134_strehl`, `C134_attained` |
| C135 The speckle of the random start | calculate_hologram with zero iterations, draws as independent uniform variables, propagate_to_image | A: the image is linear in the phase factors, which have mean zero and are pairwise uncorrelated | proved | `C135_speckle` |
| C136 A simulated image as the target: perfect mode matching | calculate_dmd_state on the output of propagate_to_image, set_dmd_grating_state | A: the target transform inverts the image transform, so the pattern of C25 is the simulated field up to the factor c; C32 removes the common phase | proved | `C136_round_trip`, `C136_perfect` |
| C137 Rounding in the simulation | propagate_to_image, the three power methods and block_zeroth_order with a rounding after every operation, an FFT of given accuracy and any order of summation (Model/FloatSim) | A: relative errors compose (Lemmas/Near); induction over the summation tree; Parseval carries the error through the exact transform | proved | `C137_field`, `C137_power`, `C137_double`, `C137_padding`, `C137_grid`, `C137_block` |
| C138 Binary holograms and the signal window of ifta | the iterations of ifta as specified in C87, the symmetry of the discrete Fourier transform of real fields, and the forwarding of calculate_dmd_state | I: induction over the iterations; the antisymmetric part of the window contributes an imaginary hologram, which the real part removes | proved | `C138_binary`, `C138_window`, `C138_orders`, `C138_calculate` |
| C139 A larger scale of method ifta never switches mirrors off | ifta (C87) with two scales; a row of two mirrors as the counterexample | A/D: from C35 where the iterations do nothing; the negation by computing one iteration exactly | partial | `C139_partial`, `C139_refuted` |
| C140 Method ifta is never worse than method simple | ifta and simple against the image of the ideal grating; a row of four mirrors as the counterexample | A/D: equality from C35 and C138 where the iterations do nothing; the negation by computing two iterations exactly | partial | `C140_partial`, `C140_refuted` |
| C141 Adding an aberration to an LCOS hologram corrects it | the field behind the SLM as in C10 and C15, for two LCOS states and two input fields | A: the fields behind the SLM differ by a constant phase, linearity of the image; tilts from C84 | proved | `C141_aberration`, `C141_tilt` |
| C142 Negative paddings give no results, and grids of either sign are consistent | paddings as integers of either sign; tf.pad and fftfreq raising on negative sizes | I: induction over histories with the invariant that nothing was ever stored; A: the grids for any sign | proved | `C142_never`, `C142_grids`, `C142_empty` |
| C143 Precisions never mix | dtypes of variables, constants and results of profiles, programs as sequences of backend accesses, constructions, compositions and calls | I: invariant that all variables have the dtype of the backend and that it is fixed once there is one; A: induction over profiles; the negation by a program | partial | `C143_partial`, `C143_exact`, `C143_stable`, `C143_refuted` |
| C144 Rounding in mode matching | calculate_dmd_state with rounded operations, an arbitrary rounding, library errors and FFT error | A: error propagation through ratio, maximum, arcsine, phasor and pulse, monotonicity of rounding for the range; D: a counterexample arithmetic for the dim pixel | proved | `C144_range`, `C144_simple`, `C144_random`, `C144_float32`, `C144_eta`, `C144_fft`, `C144_dark`, `C144_dim` |
| C145 Array arguments of any rank | shapes as lists of dimensions, broadcasting, boolean indexing, tf.pad, loop variables that keep their shape | A: broadcasting is the least upper bound of an order on shapes; I: induction over histories; R: agreement with the model of the values on scalars and matrices | proved | `C145_broadcast`, `C145_replace`, `C145_keep`, `C145_patch`, `C145_history`, `C145_stack`, `C145_hologram`, `C145_propagate`, `C145_agree_grating`, `C145_agree`, `C145_agree_hologram`, `C145_agree_propagate` |
| C146 Several threads can share the library | threads as programs over the answers of `BACKEND` and the cached grid methods, with switches between any two accesses to shared state; `lru_cache` as look-up, body, store | I: invariant over all schedules (one precision, caches hold right grids, every thread stands in its call as it should); a well-founded argument on programs for termination; refinement to the model of C65 | proved | `C146_schedules`, `C146_independent`, `C146_sequential`, `C146_progress`, `C146_bounded` |
| C147 The precision is frozen by its first use in any thread | the same | I: once used, the precision changes only by writes of threads past the test; counterexample schedules evaluated | partial | `C147_partial`, `C147_refuted`, `C147_torn` |
| C148 MRAF with a signal window that misses the image plane | the MRAF loop on a window that is 0 at all image pixels | I: induction over the iterations, each of which is the identity up to a factor by Fourier inversion | proved | `C148_empty`, `C148_random`, `C148_one` |
| C149 CPU and GPU benchmark of a case calculate the same hologram for its target | the function `task` of the scripts in `runtime_benchmark` with the constants as parameters | D: evaluation of the scripts; C148 for the window that misses the image plane, C150 for a draw on which the two mraf scripts differ | partial | `C149_gs_partial`, `C149_dmd_partial`, `C149_mraf_cpu`, `C149_mraf_gpu`, `C149_refuted` |
| C150 Holograms that Gerchberg-Saxton never produces | the Gerchberg-Saxton loop | A: the outputs of an iteration lie in the image of a smooth map from a space of smaller dimension, whose complement is dense | proved | `C150_unreachable` |
| C151 Rounding in Gerchberg-Saxton holograms | the Gerchberg-Saxton loop with every operation rounded, library functions and transforms of given accuracy | I: one step is an approximate nearest-point projection in both planes, induction over the iterations | proved | `C151_gs`, `C151_exact` |
| C152 Rounding in MRAF holograms | the MRAF loop, likewise | I: the same with the goal replaced outside the window by the computed image | proved | `C152_mraf`, `C152_exact` |
| C153 Propagations that are cut short | the object between any two assignments of `propagate_to_image` and `clear`; histories of complete and interrupted calls | I/D: cases on where the call stops, induction on the history, counterexample from two propagations | partial | `C153_partial`, `C153_clear`, `C153_repair`, `C153_device`, `C153_refuted` |
| C154 Conversion between Hermite-Gaussian and Laguerre-Gaussian modes | the two profile classes; conversion coefficients in `Spec/ModeConversion` | A: raising operators on polynomials in two variables, induction on the indices | proved | `C154_laguerre`, `C154_hermite` |
| C155 Objects that come and go | programs with variables, object addresses that are reused, an interpreter free to place and free objects; the caches of `Model/Cache` keyed by address | R: refinement to variables holding the objects themselves, invariant that keys of caches stay alive | proved | `C155_lifetime` |
| C156 Memory of dropped devices | as C155, with an interpreter that frees at once | I/D: invariant on memory, counting the keys of the five caches, counterexample program | partial | `C156_partial`, `C156_refuted` |
| C157 Hermite-Gaussian profiles in floating point | `HermiteGaussian._func` with rounding; assumptions on the arithmetic in `Spec/FloatProfile` | A: composition of error bounds, induction along Horner's rule | proved | `C157_hermite`, `C157_gaussian` |
| C158 Super-Gaussian profiles and windows in floating point | `SuperGaussian._func` and the two windows with rounding | A/D: composition of error bounds, comparison of both sides of the edge conditions | proved | `C158_superGaussian`, `C158_rectangle`, `C158_circle` |
| C159 Laguerre-Gaussian profiles in floating point | `LaguerreGaussian._func` with rounding | A: composition of error bounds, chord of the phase instead of the angle | proved | `C159_laguerre` |
| C160 Zernike profiles in floating point | `Zernike._func` with rounding | A/D: composition of error bounds, whole turns of the angle, edge condition | proved | `C160_zernike` |
| C161 Luxbeam: calls that fail half-way, and programs that die | Luxbeam requests that return, fail, fail after taking effect or are cut off, and restarts of the program | I: invariants over histories of events, case analysis of the request that failed | proved | `C161_load`, `C161_failed_load`, `C161_restart`, `C161_needs_initialize` |
| C162 ALP: calls that fail half-way | ALP requests that return, fail, fail after taking effect or are cut off | I: fresh sequence numbers as an invariant, case analysis of the request that failed | proved | `C162_single`, `C162_multiple`, `C162_failed_load` |
| C163 Attributes of profiles say and set what the profile is | `Model/Attributes`: what python does for `profile.name` and `profile.name = v`, over programs that make and compose profiles | I: the variables of every object match the constructor call with the arguments last assigned; the exceptions (Laguerre-Gaussian, flags and indices of Zernike) are refuted by concrete programs | partial | `C163_partial`, `C163_readonly`, `C163_laguerre`, `C163_refuted_laguerre`, `C163_refuted_zernike` |
| C164 Compiling profiles is invisible | `Model/Traced`: the graph each `_func` builds, the table of graphs kept per profile and argument shapes, nested calls of `tf.function`s | I: every graph kept is correct for all variable values (induction on the profile) and equal to the one that would be built now; graphs are never dropped or replaced | proved | `C164_fresh`, `C164_same`, `C164_pure`, `C164_once` |
| C165 Threads that update one DMD | threads with their remaining calls; a patch looks up the array and then writes its mirrors one by one, every other call assigns a new array in one step | I: induction over the schedule; a mirror pending in the shown array has in its patch the value of the last call that wrote it, every other mirror shows that value | partial | `C165_threads_partial`, `C165_whole`, `C165_mirrors`, `C165_ends`, `C165_refuted` |
| C166 Threads that use one simulation | threads with their remaining calls and their place in the call, switching between any two accesses to the three fields and the SLM | I: induction over the schedule, fields and local variables are results of single propagations; R: with one user the simulation is tied to the sequential history at every place in a call | partial | `C166_fields_partial`, `C166_one_user`, `C166_refuted` |
| C167 Reading a DMD while other threads update it | readers that look up the state twice and read it mirror by mirror, beside the threads of Model/SharedDmd | I: induction over the schedule; without patches an array never changes once assigned, so what has been read is part of the state at the moment it was looked up | partial | `C167_pack_partial`, `C167_mirrors`, `C167_patches`, `C167_ends`, `C167_refuted` |
| C168 The disc of circular_patch in floating point | the mask of circular_patch with a rounding after each operation | A: dyadic numbers of few bits are exact under every operation of the mask, far mirrors stay far; relative error bounds elsewhere | proved | `C168_exact`, `C168_patch`, `C168_edge` |
| C169 A profile that is evaluated while other threads set its parameters | the reads of variables of one evaluation, each at its own moment | A: structural induction, the value depends on what is read only; each read then supplies the parameter of one profile | partial | `C169_others`, `C169_once_partial`, `C169_one_setter_partial`, `C169_refuted`, `C169_difference_refuted` |
| C170 The sampling errors of simulated Gaussian beams are exponentially small | the sampled Fourier sum of a Gaussian beam against its integral (C10_fraunhofer, C94) | A: Poisson summation over the whole line, Gaussian tails bounded by integrals (Mills), product of the two directions | proved | `C170_spot`, `C170_power`, `C170_tail` |
| C171 What the tests of the package check holds in exact arithmetic for all parameters | the tests in test/test_simulation.py, test_slm.py and test_profile.py, in exact arithmetic with their numbers as variables | A: C170 with numerical bounds for exp and pi; C08, C12, C13, C41, C60 | proved | `C171_input_power`, `C171_scaling`, `C171_padded_grid`, `C171_pixel_area`, `C171_energy`, `C171_pack`, `C171_zernike` |
| C172 Mode matching works for Gaussian beams also with the range of floating point numbers | `HermiteGaussian._func` with numbers that overflow and underflow; then `calculate_dmd_state` with rounding (C144) | D: interval bounds through each rounded operation; the factor exp(-r^2/w^2) underflows at 11 waists; C144_dark for the dark DMD | partial | `C172_zero`, `C172_near`, `C172_finite`, `C172_dark`, `C172_refuted`, `C172_partial` |
| C173 Vortex beams have finite values | `LaguerreGaussian._func` with numbers that overflow and underflow | D: interval bounds through each rounded operation; inf times 0 is NaN | partial | `C173_nan`, `C173_refuted`, `C173_partial` |
| C174 A NaN in the beams never gives a wrong pattern | `calculate_dmd_state` for arrays with NaN (methods simple, random, ideal), with the maximum of an array with NaN left open | D: a transform of an array with NaN is NaN everywhere; agreement with the model without NaN | proved | `C174_target`, `C174_pixel`, `C174_eta`, `C174_masked`, `C174_agree` |
| C175 A hologram has a NaN everywhere or nowhere | `calculate_hologram` for arrays with NaN | I over the iterations: NaN anywhere spreads in one iteration; otherwise agreement with the model without NaN | proved | `C175_gs`, `C175_mraf` |
| C176 remove_trivial_phase never makes a phase map rougher | `remove_trivial_phase` | A: exact mean square after each mode; tilts of square arrays have a mean square below 2; Riemann sums for large apertures | partial | `C176_square_partial`, `C176_exact`, `C176_defocus`, `C176_limit_partial`, `C176_refuted` |
| C177 Repeating remove_trivial_phase removes piston and tilt completely | sequences of calls of `remove_trivial_phase` | I over the calls: a geometric series for each tilt; orthogonality gives the least squares plane | proved | `C177_repeat`, `C177_rate`, `C177_defined` |
| C178 zernike_decomposition computes Zernike series | `zernike_decomposition` of samples of a phase on the disc | A: Riemann sums; the modes span all polynomials in x and y; Stone-Weierstrass and density of continuous functions in L2 | proved | `C178_coefficients`, `C178_residual`, `C178_complete`, `C178_best` |
| C179 A simulation of a DMD while other threads update the device | threads calling `propagate_to_image` while others update the DMD, the copy of the state made mirror by mirror in any order (`Model/SimRead`) | I: invariant over schedules for the copy under way; the fields depend only on the entries of the copy; R: a concrete schedule for the refutation | partial | `C179_whole_partial`, `C179_mirrors`, `C179_patches`, `C179_ends`, `C179_refuted` |
| C180 Rounding in the analysis of phase maps | `analysis.py` with every result rounded, modes in the arithmetic of profiles, means in any order of summation (`Model/FloatAnalysis`) | I over the tree of additions, the modes removed and the terms; C160 for each mode | proved | `C180_aperture`, `C180_clear`, `C180_remove`, `C180_outside`, `C180_coefficients`, `C180_reconstruct` |
| C181 Rounding in method ifta | `_calculate_dmd_grating_ifta` with every result rounded, quotients and transforms of given accuracy (`Model/FloatIfta`) | I over the iterations on the field-weighted norm of the error; Parseval for the transforms, clipping is 1-Lipschitz away from its levels | proved | `C181_exact`, `C181_error`, `C181_dark`, `C181_mirrors`, `C181_pattern`, `C181_start`, `C181_binary` |
| C182 NaN in method ifta | method `ifta` on arrays with NaN (`Model/NanIfta`): transforms of an array with NaN are NaN everywhere, comparisons with NaN are false | A: one iteration with NaN gives 0 or NaN everywhere; D over the positions of the NaN; I over the iterations for agreement without NaN | proved | `C182_set`, `C182_calculate`, `C182_finite`, `C182_silent`, `C182_agree`, `C182_agree_set` |
| C183 Repeated blocking of the zeroth order | histories of `block_zeroth_order` and DMD updates after a propagation (`Model/Simulation`) | I over the history, with C17 for each call | proved | `C183_history`, `C183_largest`, `C183_nothing_blocked` |
| C184 Threads that share one LCOS SLM | threads that use one `LCOS_SLM`, with arbitrary client programs, switched between computing and assigning (`Model/SharedLcos`) | R: refinement of uninterrupted calls (`Spec/SharedLcos`), I over the schedule | proved | `C184_linearizable`, `C184_ended`, `C184_whole`, `C184_ends`, `C184_lost_update` |
| C185 Threads that share a Luxbeam controller | threads that use one `LuxbeamController`, requests, sequencer instructions, external triggers and failures in any order (`Model/SharedLux`) | I over the schedule: the stopped device depends on the foreign events only in the level of the sync line; then the position moves by at most one per event; D: witness for overlapping loads | partial | `C185_in_order_partial`, `C185_frozen`, `C185_refuted`, `C185_trigger_lost` |
| C186 Rounding in calculate_dmd_state with method ifta | `calculate_dmd_state` with method `ifta`, every result rounded (`Model/FloatCalcIfta`) | A: the bound of C144 on the grey values, times `s` and weighted with the field, is the start of the recursion of C181 | proved | `C186_exact`, `C186_start`, `C186_error`, `C186_pattern` |
| C187 Threads that share an ALP controller | threads that use one `ALPController`, their vendor calls and failures in any order (`Model/SharedAlp`) | I over the schedule: in an exclusive load the device gets its calls and nothing else; otherwise a transfer or a start is pending, or the current sequence is filled and running; D: witnesses for overlapping loads | partial | `C187_exclusive_partial`, `C187_finished`, `C187_singles`, `C187_refuted`, `C187_blank` |
| C188 Vortex beams of high charge as targets | a `LaguerreGaussian` target computed with overflow and underflow, then mode matching on arrays with NaN (`Model/VortexTarget`) | A: the edge of the image plane is far from the beam, C173 gives NaN there, C174 and C182 what becomes of it | partial | `C188_refuted`, `C188_hologram`, `C188_partial` |
| C189 Threads that open, use and close an ALP controller | threads that initialize, use and close one `ALPController`, step by step (`Model/OpenAlp`) | I over the schedule: what each thread still has to do is an end of its call, the flag is set iff an `initialize()` has returned; the inversion is on or still to come; D: witnesses for `close()` | partial | `C189_guard`, `C189_open`, `C189_inverted`, `C189_close_partial`, `C189_close_refuted`, `C189_use_refuted` |
| C190 Threads that initialize and use a Luxbeam controller | threads that initialize and use one `LuxbeamController`, step by step (`Model/OpenLux`) | I over the schedule as for C189; the display needs an enabled sequencer, which only a load enables; D: witness for an `initialize()` that overlaps with a load | partial | `C190_guard`, `C190_open`, `C190_dark`, `C190_programmed`, `C190_refuted` |
| C191 Super-Gaussian beams with the range of floating point numbers | `SuperGaussian._func` with overflow and underflow, and mode matching with such a target (`Model/FloatSuper`) | A: every intermediate value is a number that is not negative or +inf, so the exponential is in [0, 1]; lower bounds on the base far out, upper bounds near the centre | proved | `C191_finite`, `C191_zero`, `C191_bright`, `C191_target`, `C191_hologram` |
| C192 Hermite-Gaussian beams have finite values | `HermiteGaussian._func` with overflow and underflow, and mode matching with such a target (`Model/FloatRange`, `Model/FloatHermite`) | A: lower bounds of the partial sums of the rule of Horner for n = 28 beyond 15.4, upper bounds for the positive part; C174 for what becomes of the NaN | partial | `C192_refuted`, `C192_partial`, `C192_target`, `C192_hologram` |

### Properties that are false of the code

* **C20** (A failed propagation leaves the previous simulation result intact): False of the code as stated: a propagation that fails in the multiplication has already replaced the input field (C20_refuted). Proved: output and image plane results and powers survive every failure; everything survives a failed conversion.
* **C27** (A vanishing target is rejected without touching the DMD): False of the code as stated: for a target that is zero everywhere the exception is raised after dmd_state has been replaced by all mirrors off (C27_refuted). Proved: an exception is always raised.
* **C28** (An input beam that is dark where light is needed is reported, not silently accepted): False of the code as stated: calculate_dmd_state returns normally with all mirrors off (C28_refuted). Proved: the returned eta is 0 exactly in this case.
* **C39** (A grey-scale patch shows the requested grey values): False of the code as stated: on a boolean state the grey values are cast to True (C39_refuted). Proved for DMDs already holding a grey-scale state.
* **C45** (Gerchberg-Saxton corrects aberrated input beams): False of the code as stated: for every unit-amplitude input with non-uniform phase one iteration can destroy a perfect hologram (C45_refuted). Proved for inputs of uniform phase.
* **C46** (The simulated LCOS image is the image the hologram was computed for): False of the code as stated: the simulation applies exp(-1j*phase), the algorithms exp(+1j*phase), so the simulated image is point-reflected (C46_refuted). Proved: the simulated modulus is the prediction for the conjugate input at the opposite pixel.
* **C62** (Zernike rejects invalid indices): False of the code as stated: only m > n is checked, so pairs with m < -n are accepted (C62_refuted). Proved: the exact set of rejected pairs, and that an accepted invalid pair gives the zero profile.
* **C64** (profile_to_tensor yields the grid shape and requested dtype): False of the code as stated: constants (numbers, ConstantProfile and anything built from them only) give rank-0 tensors, arrays keep their own shape unchecked, and a python complex asked as real raises TypeError (C64_refuted, C64_array_partial). Proved: sampling at the right coordinates in the right dtype for everything else.
* **C70** (remove_trivial_phase removes tilt completely): False of the code as stated: the sampled tilt modes are not normalised on the pixel grid, so a residual tilt is left (C70_refuted; on a 1x2 array it grows). Proved: the exact residual, strict decrease on square arrays, and that it vanishes in the limit of large apertures.
* **C72** (zernike_decomposition recovers the coefficients): False of the code as stated: on a 3x3 array a pure tilt of coefficient 1 is decomposed into 32/27 (C72_refuted). Proved: the exact relation through the Gram matrix of the sampled modes, and convergence to the original coefficients for large apertures.
* **C74** (No device access after close): False of the code: close() does not reset the initialized flag, so loads after close() go through to the released device (C74_refuted). Proved: close() stops the projection and releases the device.
* **C75** (ALP load_single shows the image at once): False of the code after load_multiple: it sets slave mode and nothing resets it (C75_refuted). Proved for histories without load_multiple since the last completed initialize().
* **C77** (ALP on-board memory is released on close): False of the code: n+1 loads and a close() leave n sequences allocated (C77_refuted). Proved when there is at most one load since the last initialize(); C77_exact gives the number left in every history.
* **C79** (ALP inversion follows the constructor argument): False of the code: a re-initialization that raises between its two vendor calls leaves inversion off and the controller still initialized, so the next load is shown un-inverted (C79_refuted). Proved when the last initialize() returned.
* **C83** (Each software trigger advances the display): False of the code: if lowering the sync line fails, the next fire_software_trigger() returns but produces no edge (C83_refuted). Proved when no earlier software trigger raised.
* **C124** (Gerchberg-Saxton improves the image also for targets with negative amplitudes): Proved for targets of one sign. False for targets of both signs: the loop multiplies the signed target by the phase of the image, so negative pixels flip the phase in every iteration; for every device with more than 4 pixels there are a target and a draw for which the error is 0 after every even number of iterations and 4/(Nx Ny) after every odd number (C124_refuted).
* **C128** (More iterations of method mraf never make the image in the signal window worse): Proved for mixing factor 1/2. False for every other mixing factor between 0 and 1 (the default is 0.4), because the iteration works towards m/(1-m) times the target (C127): on every device with an even number of columns there are a target, a window and a draw for which the image in the window is perfect before the first iteration and imperfect after it (C128_refuted).
* **C139** (A larger scale of method ifta never switches mirrors off): Proved without iterations and for signal windows that are 1 everywhere or 0 everywhere. False in general: with two mirrors, uniform illumination and one iteration, a mirror that is on for s = 1.1 is off for s = 20 (C139_refuted).
* **C140** (Method ifta is never worse than method simple): Proved without iterations, for signal windows that are 1 everywhere or 0 everywhere, and for ideal gratings that are 0 or 1 where there is light. False in general: four mirrors, uniform illumination, a window of one pixel and two iterations (C140_refuted).
* **C143** (Precisions never mix): False for other spellings of the precision: the setter accepts "float64" or np.float32 because they compare equal, but _make_attribute_func (profile.py:24-26) tests identity and then does not cast, so an operator with a real and a complex operand fails when called. Proved: the property for tf.float32 and tf.float64, and for every spelling exactly which profiles can be called.
* **C147** (The precision is frozen by its first use in any thread): False of the code as stated: the setter tests and then writes, so an assignment under way during the first use takes effect after it (C147_refuted), which can even leave a grid of mixed precision in the cache (C147_torn). Proved: later the precision is the one in force or one that a thread was already about to write; assignments that begin later raise.
* **C149** (CPU and GPU benchmark of a case calculate the same hologram for its target): False of the code for mraf: slm_mraf_cpu.py calls task('gs', N) (C149_mraf_cpu), and in slm_mraf_gpu.py the signal window is centred at (960 m, 540 m), so that the hologram is the random draw (C149_mraf_gpu); the two differ for some draw and the latter does not depend on the target (C149_refuted). For the other cases both scripts run the same calculation, which succeeds (the _partial theorems).
* **C153** (Propagations that are cut short): Missing: that the three fields always belong to one propagation. This is false of the code, which assigns them one after the other (C153_refuted).
* **C156** (Memory of dropped devices): Missing: that nothing stays in memory. This is false of the code, whose grid caches keep their objects alive (C156_refuted).
* **C163** (Attributes of profiles say and set what the profile is): False of LaguerreGaussian, which has no properties: x0, y0, a, w, l, p cannot be read, and assigning them is silently ignored although the attribute reads back as assigned. False of Zernike: n and m call .value() on constants and raise AttributeError, normalize and extrapolate can be assigned without effect. Proved: the property for every other class and argument, exactly which assignments raise, and that a LaguerreGaussian never changes.
* **C165** (Threads that update one DMD): False for overlapping patches of different threads (C165_refuted: two patches can be mixed); proved if patches of different threads have no mirror in common, in particular for threads without patches. For overlapping patches C165_mirrors says what each single mirror shows.
* **C166** (Threads that use one simulation): False in general (C166_refuted: input of one propagation with the image of the other); proved: each field on its own, and the full property if one thread uses the simulation while the others only update the SLM.
* **C167** (Reading a DMD while other threads update it): False if a patch is made meanwhile (C167_refuted: bytes of a state that the device never showed); proved for threads without patches, and bit by bit in general.
* **C169** (A profile that is evaluated while other threads set its parameters): false of the code for parameters that one evaluation reads twice: C169_refuted and C169_difference_refuted; proved for parameters that are read once
* **C172** (Mode matching works for Gaussian beams also with the range of floating point numbers): False of the code when a pixel is 11 waists or more from the centre of the beam (C172_refuted: beams of 0.9 mm or less on a DLP9500 in single precision); proved when all pixels are within sqrt(80) waists.
* **C173** (Vortex beams have finite values): False of the code when |l| is large (C173_refuted: |l| of 33 or more on a DLP9500 in single precision); proved for all l and p when the powers and the radial polynomial stay in the range.
* **C176** (remove_trivial_phase never makes a phase map rougher): False of the code for elongated arrays, and with remove_defocus also for very small apertures of square arrays (C176_refuted). Proved: square arrays without defocus, all large apertures, and the exact mean square in every case.
* **C179** (A simulation of a DMD while other threads update the device): False of the code if a thread makes circular patches (C179_refuted); proved for all other updates, and mirror by mirror with patches.
* **C185** (Threads that share a Luxbeam controller): False of the code for overlapping loads (C185_refuted): the controller takes no lock. Proved for loads that do not overlap with other loads.
* **C187** (Threads that share an ALP controller): False of the code for overlapping loads (C187_refuted, C187_blank): the controller takes no lock, and the library has one current sequence for all threads. Proved for loads that do not overlap, and for overlapping ones what is left when all have finished.
* **C188** (Vortex beams of high charge as targets): False of the code for charges of 33 or more (C188_refuted, C188_hologram for LCOS SLMs): the power overflows at the edge of the image plane, infinity times 0 is NaN, and the Fourier transform spreads it to every mirror. Proved for targets within the range of the format. Infinite entries count as NaN.
* **C189** (Threads that open, use and close an ALP controller): False of the code: the controller takes no lock, so a load goes on after another thread has closed the controller (C189_use_refuted), and two threads that close it may both free the last sequence (C189_close_refuted). The guard, the inversion, and closing by one thread are proved.
* **C190** (Threads that initialize and use a Luxbeam controller): False of the code for loads that overlap with an initialize() of another thread (C190_refuted): the controller takes no lock, and initialize() sets the number of images to 1. The guard, the program and the display before the first load are proved; C185 is about loads after all initialize() calls are done.
* **C192** (Hermite-Gaussian beams have finite values): False of the code for high orders (C192_refuted, n = 28 in single precision): the polynomial overflows where the exponential underflows. Proved for orders, waists and distances whose intermediate values stay in the range.

### Other findings recorded by theorems or while reading the code

* C90: the first order amplitude of method `simple` is not proportional to the request.
* C88/C89 hold for the algorithm; C45 and C46 show that its result is not what `SLMSimulation` displays.
* An input array of shape (1, Nx) broadcasts against the SLM state: the output field has full shape while
  `input_field` and `get_input_power` refer to the single row.
* Scalar inputs are accepted by `calculate_dmd_state` but not by `propagate_to_image` (`tf.pad` of a rank 0
  tensor).
* `1 - profile` and `1 / profile` raise `TypeError` (no `__rsub__`, `__rtruediv__`), C51.
* `ALPController` defines `__exit__` without `__enter__`, so it cannot be used in a `with` statement.
* `LaguerreGaussian` has no setters; the message of the first `Zernike` error swaps the indices.

## 4. Trusted base

* Lean 4.33.0's kernel.  No axioms of our own, no `sorry`, no `native_decide`, no `bv_decide`.
* Mathlib's definitions of the reals, complex numbers, trigonometric functions, derivatives, integrals and
  measures.
* The reading of the python source recorded in the comments of `lean/Verif/Model`.
* The behaviour of numpy, tensorflow, scipy, functools, ALP4lib and Luxbeam assumed in section 2 and in the
  comments.
* The statements in `lean/Verif/Spec` and `lean/Verif/Props` as renderings of `properties.jsonl`.

## 5. Testing the theorems against wrong programs

`seeded/LOG.jsonl` has one line per wrong program: the definition edited in a scratch copy of the model, the
edit, the claims it makes false, the theorems that no longer prove and the theorems tightened because of it.

### Axioms of each property theorem

Output of `#print axioms` for every theorem named in MANIFEST.json (`tools/axioms.sh` regenerates it).

* `[propext]`: `Backend.C01_rejected_changes_nothing`, `Backend.C03_fft_selector`, `Cache.C65_transparent`, `Controller.C118_number_image`, `Precision.C143_refuted`, `Threads.C147_refuted`, `Controller.C161_restart`
* `[propext, Classical.choice, Quot.sound]`: `Backend.C03_in_force`, `C04_index_roundtrip`, `C04_coord_roundtrip`, `C05_fourier_grid`, `C06_image_grid`, `C06_image_padded_grid`, `C07_padding_extends`, `C08_padding_refines`, `C08_matching_pixel`, `C09_pixel_areas`, `Sim.C10_fraunhofer`, `Sim.C10_intensity`, `Sim.C10_slm_planes`, `Sim.C11_padding_invariance`, `Sim.C12_energy`, `Sim.C13_padding_power`, `Sim.C14_passive`, `Sim.C15_lossless`, `Sim.C15_two_pi`, `Sim.C16_superposition`, `Sim.C17_blocks_disc`, `Sim.C17_default_radius`, `Sim.C17_idempotent`, `Sim.C17_power`, `Sim.C17_reachable`, `Sim.C18_first_order_spared`, `Sim.C19_lifecycle`, `Sim.C19_history_forgotten`, `Sim.C19_state_change`, `Sim.C19_clear`, `Sim.C20_partial`, `Sim.C20_refuted`, `Sim.C21_slm`, `Sim.C21_dmd`, `DMD.C22_ideal_range`, `DMD.C22_unit_range`, `DMD.C29_simple_threshold`, `DMD.C29_consequences`, `DMD.C30_random`, `DMD.C30_probability`, `DMD.C31_monotone`, `DMD.C32_phase_difference`, `DMD.C33_periodic`, `DMD.C23_interp`, `DMD.C23_orders`, `DMD.C23_first_order`, `DMD.C24_negative_order`, `DMD.C24_theta_plus_pi`, `DMD.C25_normalised`, `DMD.C25_spectrum_ne_zero`, `DMD.C26_scaling`, `DMD.C27_partial`, `DMD.C27_refuted`, `DMD.C27_refuted_methods`, `DMD.C28_partial`, `DMD.C28_refuted`, `DMD.C34_ifta`, `DMD.C34_calculate`, `DMD.C35_degenerate`, `DMD.C35_simple`, `DMD.C36_binarize`, `DMD.C36_schedule`, `DMD.C37_shape`, `DMD.C37_dtype`, `DMD.C38_patch`, `DMD.C38_mixed`, `DMD.C38_commute`, `DMD.C38_disjoint`, `DMD.C39_partial`, `DMD.C39_refuted`, `DMD.C40_failed_updates`, `DMD.C40_unknown_method`, `DMD.C40_missing_window`, `DMD.C41_pack`, `DMD.C41_injective`, `DMD.C42_type_error`, `DMD.C43_call`, `DMD.C43_history`, `DMD.C43_refines`, `DMD.C43_patches_shared`, `LCOS.C44_monotone`, `LCOS.C45_partial`, `LCOS.C45_refuted`, `LCOS.C46_partial`, `LCOS.C46_refuted`, `LCOS.C47_phase_range`, `LCOS.C47_initial`, `LCOS.C48_full_window`, `LCOS.C49_region_weighting`, `LCOS.C50_unknown_method`, `LCOS.C50_missing_window`, `LCOS.C50_failed`, `Profile.C51_expressions`, `Profile.C51_supported`, `Profile.C51_unsupported`, `Profile.C52_dtype`, `Profile.C52_natural`, `Profile.C52_real`, `Profile.C52_complex`, `Profile.C53_formulas`, `Profile.C53_compose`, `Profile.C53_undo`, `Profile.C53_distribute`, `Profile.C54_phase_factor`, `Profile.C54_homomorphism`, `Profile.C55_live`, `Profile.C55_local`, `Profile.C55_get`, `Profile.C55_samples`, `Profile.C56_formula`, `Profile.C56_current`, `Profile.C56_parity`, `Profile.C57_fundamental`, `Profile.C57_super`, `Profile.C58_symmetry`, `Profile.C58_rotation`, `Profile.C59_first_order`, `Profile.C60_formula`, `Profile.C60_edge`, `Profile.C60_support`, `Profile.C61_orthonormal`, `Profile.C62_partial`, `Profile.C62_refuted`, `Profile.C63_rectangle`, `Profile.C63_disc`, `Profile.C63_algebra`, `Profile.C63_shift`, `C64_profile_partial`, `C64_array_partial`, `C64_refuted`, `Analysis.C66_bijection`, `Analysis.C66_accepted`, `Analysis.C67_double_precision`, `Analysis.C68_mean_zero`, `Analysis.C68_constant`, `Analysis.C69_linear`, `Analysis.C69_local`, `Analysis.C69_outside`, `Analysis.C70_partial`, `Analysis.C70_square_partial`, `Analysis.C70_limit`, `Analysis.C70_refuted`, `Analysis.C71_structure`, `Analysis.C71_prefix`, `Analysis.C71_extrapolate`, `Analysis.C71_linear`, `Analysis.C72_partial`, `Analysis.C72_limit`, `Analysis.C72_refuted`, `Controller.C73_alp`, `Controller.C73_luxbeam`, `Controller.C74_refuted`, `Controller.C76_multiple`, `Controller.C77_partial`, `Controller.C77_exact`, `Controller.C78_cyclic`, `Controller.C78_no_leftover`, `Controller.C79_refuted`, `Controller.C80_failed_load`, `Controller.C81_in_order`, `Controller.C82_failed_load`, `Controller.C83_partial`, `Controller.C83_refuted`, `Sim.C84_tilt`, `Sim.C85_real_field`, `Sim.C85_half_turn`, `Sim.C86_overlap`, `DMD.C87_ifta`, `LCOS.C88_gs`, `LCOS.C88_mraf`, `LCOS.C89_fixed_point`, `DMD.C90_ideal`, `DMD.C90_random`, `DMD.C90_simple`, `Profile.C91_hermite`, `Profile.C92_laguerre`, `Sim.C93_continuum`, `Sim.C94_gaussian_spot`, `Sim.C95_gaussian_power`, `C96_geometry`, `C96_field`, `C96_rows`, `DMD.C97_random_image`, `DMD.C98_brightest`, `DMD.C99_random_orders`, `DMD.C99_order_amplitudes`, `Profile.C100_formula`, `Profile.C100_top_hat`, `Profile.C100_power`, `DMD.C101_patches`, `SLM.C102_accuracy`, `SLM.C102_order`, `SLM.C102_round_trip`, `C103_simple`, `C103_float32`, `C104_random`, `DMD.C105_last_writer`, `DMD.C105_overwrite`, `LCOS.C106_converges`, `LCOS.C106_settles`, `DMD.C107_sharp`, `DMD.C107_limit`, `DMD.C107_flat`, `DMD.C108_grating`, `DMD.C108_state`, `DMD.C108_plain`, `DMD.C108_methods`, `DMD.C108_hologram`, `Sim.C109_mirror`, `Sim.C109_dark`, `C110_dmd`, `C110_others`, `C111_dmd`, `C111_lcos`, `C111_simulation`, `C111_block`, `Sim.C112_hermite_spot`, `Profile.C113_formula`, `Profile.C113_rodrigues`, `Sim.C114_laguerre_spot`, `LCOS.C115_gs`, `LCOS.C115_mraf`, `LCOS.C116_moved`, `Sim.C117_rectangle`, `Sim.C117_dark_lines`, `Sim.C117_single_pixel`, `Controller.C118_alp_single`, `Controller.C118_alp_multiple`, `Controller.C118_alp_refused`, `Controller.C118_lux`, `DMD.C119_same_eta`, `DMD.C119_correction`, `DMD.C119_random`, `DMD.C119_strehl`, `DMD.C120_dark`, `DMD.C120_ideal`, `DMD.C120_random`, `DMD.C120_gain`, `DMD.C121_efficiency`, `DMD.C121_first_order`, `DMD.C122_exposure`, `DMD.C123_random`, `DMD.C123_ideal`, `DMD.C123_donut`, `DMD.C123_spots`, `LCOS.C124_partial`, `LCOS.C124_refuted`, `LCOS.C125_lcos`, `LCOS.C125_hermite`, `DMD.C125_aberration`, `DMD.C126_concentration`, `LCOS.C127_monotone`, `LCOS.C127_fixed`, `LCOS.C128_partial`, `LCOS.C128_refuted`, `Sim.C129_difference`, `DMD.C129_mirrors`, `LCOS.C129_phases`, `Controller.C130_luxbeam`, `Controller.C130_master`, `Profile.C131_zernike_rotate`, `Profile.C131_zernike_mirror`, `Profile.C131_hermite`, `Profile.C131_laguerre`, `Profile.C131_round`, `Sim.C132_overlap`, `Sim.C132_power`, `Sim.C132_hermite_power`, `Sim.C132_laguerre_power`, `Profile.C133_bound`, `Profile.C133_attained`, `Sim.C134_limit`, `Sim.C134_strehl`, `Sim.C134_attained`, `LCOS.C135_speckle`, `DMD.C136_round_trip`, `DMD.C136_perfect`, `Sim.C137_field`, `Sim.C137_power`, `Sim.C137_double`, `Sim.C137_padding`, `Sim.C137_grid`, `Sim.C137_block`, `DMD.C138_binary`, `DMD.C138_window`, `DMD.C138_orders`, `DMD.C138_calculate`, `DMD.C139_partial`, `DMD.C139_refuted`, `DMD.C140_partial`, `DMD.C140_refuted`, `Sim.C141_aberration`, `Sim.C141_tilt`, `Sim.C142_never`, `Sim.C142_grids`, `Sim.C142_empty`, `Precision.C143_partial`, `Precision.C143_exact`, `DMD.C144_range`, `DMD.C144_simple`, `DMD.C144_random`, `DMD.C144_float32`, `DMD.C144_eta`, `DMD.C144_fft`, `DMD.C144_dark`, `DMD.C144_dim`, `Ranks.C145_broadcast`, `Ranks.C145_replace`, `Ranks.C145_patch`, `Ranks.C145_history`, `Ranks.C145_stack`, `Ranks.C145_hologram`, `Ranks.C145_propagate`, `Ranks.C145_agree_grating`, `Ranks.C145_agree`, `Ranks.C145_agree_hologram`, `Ranks.C145_agree_propagate`, `Threads.C147_torn`, `LCOS.C148_empty`, `LCOS.C148_random`, `LCOS.C148_one`, `Benchmarks.C149_gs_partial`, `Benchmarks.C149_dmd_partial`, `Benchmarks.C149_mraf_cpu`, `Benchmarks.C149_mraf_gpu`, `Benchmarks.C149_refuted`, `LCOS.C150_unreachable`, `LCOS.C151_gs`, `LCOS.C151_exact`, `LCOS.C152_mraf`, `LCOS.C152_exact`, `Sim.C153_partial`, `Sim.C153_clear`, `Sim.C153_repair`, `Sim.C153_device`, `Sim.C153_refuted`, `Profile.C154_laguerre`, `Profile.C154_hermite`, `Lifetime.C155_lifetime`, `Lifetime.C156_partial`, `Lifetime.C156_refuted`, `Profile.C157_hermite`, `Profile.C157_gaussian`, `Profile.C158_superGaussian`, `Profile.C158_rectangle`, `Profile.C158_circle`, `Profile.C159_laguerre`, `Profile.C160_zernike`, `Controller.C161_load`, `Controller.C161_failed_load`, `Profile.C163_partial`, `Profile.C163_readonly`, `Profile.C163_laguerre`, `Profile.C163_refuted_laguerre`, `Profile.C163_refuted_zernike`, `Traced.C164_fresh`, `Traced.C164_same`, `Traced.C164_pure`, `Traced.C164_once`, `SharedDmd.C165_threads_partial`, `SharedDmd.C165_whole`, `SharedDmd.C165_mirrors`, `SharedDmd.C165_ends`, `SharedDmd.C165_refuted`, `SharedSim.C166_fields_partial`, `SharedSim.C166_one_user`, `SharedSim.C166_refuted`, `SharedRead.C167_pack_partial`, `SharedRead.C167_mirrors`, `SharedRead.C167_patches`, `SharedRead.C167_ends`, `SharedRead.C167_refuted`, `DMD.C168_exact`, `DMD.C168_patch`, `DMD.C168_edge`, `Profile.C169_others`, `Profile.C169_once_partial`, `Profile.C169_one_setter_partial`, `Profile.C169_refuted`, `Profile.C169_difference_refuted`, `Sim.C170_spot`, `Sim.C170_power`, `Sim.C170_tail`, `Sim.C171_input_power`, `Sim.C171_scaling`, `Sim.C171_padded_grid`, `Sim.C171_pixel_area`, `Sim.C171_energy`, `DMD.C171_pack`, `Profile.C171_zernike`, `Profile.C172_zero`, `Profile.C172_near`, `Profile.C172_finite`, `DMD.C172_dark`, `DMD.C172_refuted`, `DMD.C172_partial`, `Profile.C173_nan`, `Profile.C173_refuted`, `Profile.C173_partial`, `DMD.C174_target`, `DMD.C174_pixel`, `DMD.C174_eta`, `DMD.C174_masked`, `DMD.C174_agree`, `LCOS.C175_gs`, `LCOS.C175_mraf`, `Analysis.C176_square_partial`, `Analysis.C176_exact`, `Analysis.C176_defocus`, `Analysis.C176_limit_partial`, `Analysis.C176_refuted`, `Analysis.C177_repeat`, `Analysis.C177_rate`, `Analysis.C177_defined`, `Analysis.C178_coefficients`, `Analysis.C178_residual`, `Analysis.C178_complete`, `Analysis.C178_best`, `SimRead.C179_whole_partial`, `SimRead.C179_mirrors`, `SimRead.C179_patches`, `SimRead.C179_ends`, `SimRead.C179_refuted`, `Analysis.C180_aperture`, `Analysis.C180_clear`, `Analysis.C180_remove`, `Analysis.C180_outside`, `Analysis.C180_coefficients`, `Analysis.C180_reconstruct`, `DMD.C181_exact`, `DMD.C181_error`, `DMD.C181_dark`, `DMD.C181_mirrors`, `DMD.C181_pattern`, `DMD.C181_start`, `DMD.C181_binary`, `DMD.C182_set`, `DMD.C182_calculate`, `DMD.C182_finite`, `DMD.C182_silent`, `DMD.C182_agree`, `DMD.C182_agree_set`, `Sim.C183_history`, `Sim.C183_largest`, `Sim.C183_nothing_blocked`, `SharedLcos.C184_linearizable`, `SharedLcos.C184_ended`, `SharedLcos.C184_whole`, `SharedLcos.C184_ends`, `SharedLcos.C184_lost_update`, `Controller.SharedLux.C185_in_order_partial`, `Controller.SharedLux.C185_frozen`, `Controller.SharedLux.C185_refuted`, `Controller.SharedLux.C185_trigger_lost`, `DMD.C186_exact`, `DMD.C186_start`, `DMD.C186_error`, `DMD.C186_pattern`, `Controller.SharedAlp.C187_exclusive_partial`, `Controller.SharedAlp.C187_finished`, `Controller.SharedAlp.C187_singles`, `Controller.SharedAlp.C187_refuted`, `Controller.SharedAlp.C187_blank`, `DMD.C188_refuted`, `DMD.C188_hologram`, `DMD.C188_partial`, `Controller.OpenAlp.C189_close_refuted`, `Controller.OpenAlp.C189_use_refuted`, `Controller.OpenLux.C190_refuted`, `Profile.C191_finite`, `Profile.C191_zero`, `Profile.C191_bright`, `DMD.C191_target`, `DMD.C191_hologram`, `Profile.C192_refuted`, `Profile.C192_partial`, `DMD.C192_target`, `DMD.C192_hologram`
* `[propext, Quot.sound]`: `Backend.C01_observations`, `Backend.C01_frozen`, `Backend.C01_reads_agree`, `Backend.C02_consistent_triple`, `Backend.C03_fft_irrelevant_for_precision`, `Cache.C65_bounded`, `Controller.C74_partial`, `Controller.C75_partial`, `Controller.C75_refuted`, `Controller.C76_single`, `Controller.C77_refuted`, `Controller.C79_partial`, `Controller.C130_luxbeam_runs`, `Precision.C143_stable`, `Ranks.C145_keep`, `Threads.C146_schedules`, `Threads.C146_independent`, `Threads.C146_sequential`, `Threads.C146_progress`, `Threads.C146_bounded`, `Threads.C147_partial`, `Controller.C161_needs_initialize`, `Controller.C162_single`, `Controller.C162_multiple`, `Controller.C162_failed_load`, `Controller.OpenAlp.C189_guard`, `Controller.OpenAlp.C189_open`, `Controller.OpenAlp.C189_inverted`, `Controller.OpenAlp.C189_close_partial`, `Controller.OpenLux.C190_guard`, `Controller.OpenLux.C190_open`, `Controller.OpenLux.C190_dark`, `Controller.OpenLux.C190_programmed`
