# Formal model of QITI/pySLM2 in Lean 4

This file is generated by `tools/gen_design.py` from `tools/design_*`, `MANIFEST.json` and `properties.jsonl`.

## 1. What is modelled

The model is a shallow, function-by-function transcription of `/repo/pySLM2` into Lean 4
(`lean/Verif/Model/*.lean`).  Every definition cites the lines it models and names its simplifications.

| module | models |
|---|---|
| `Model/Basic` | python exceptions as values, tensor shapes (rank 0 and 2) with broadcasting, IEEE special values |
| `Model/Backend` | `_backend.py`: precision with its lock, derived dtypes, FFT selector |
| `Model/Profile` | `profile.py`, `window.py`: profile objects as expression trees over mutable `tf.Variable` cells, operators with their dtype rules and errors, all mode classes |
| `Model/Slm` | `slm.py` class `SLM`: coordinates, grids, `profile_to_tensor`; the sizes of the device classes |
| `Model/Cache` | `functools.lru_cache` as used for the grids, together with the dtype lock |
| `Model/Lib` | `_lib.py`: DFT, shifts, the four DMD grating methods, GS, MRAF |
| `Model/Dmd` | `slm.py` class `DMD`: every public method as an outcome (effect on `dmd_state`, result or exception), packing, array aliasing, histories of calls |
| `Model/Lcos` | `slm.py` class `LCOS_SLM` |
| `Model/Simulation` | `simulation.py`: constructors, propagation, fields, powers, `block_zeroth_order`, as a state machine |
| `Model/Analysis` | `analysis.py`: `remove_trivial_phase`, `ansi_j_to_n_m`, `zernike_decomposition` |
| `Model/Defaults` | default values of optional arguments of every method and constructor |
| `Model/Float` | the same formulas with every elementary operation followed by an arbitrary rounding |
| `Model/FloatSim` | the simulation with rounding, an FFT of given accuracy and any order of the sums |
| `Model/FloatCalc` | `DMD.calculate_dmd_state` with rounding and an FFT of given accuracy |
| `Model/FloatHologram` | `LCOS_SLM.calculate_hologram` with rounding and transforms of given accuracy |
| `Model/FloatProfile` | `profile.py`, `window.py` with rounding and library functions of given accuracy |
| `Model/FloatAnalysis` | `analysis.py` with rounding, modes of given accuracy and any order of the sums |
| `Model/FloatIfta` | method `ifta` with rounding, quotients and transforms of given accuracy |
| `Model/FloatCalcIfta` | `DMD.calculate_dmd_state` with method `ifta`, with rounding: `Model/FloatCalc` followed by `Model/FloatIfta` |
| `Model/Interrupt` | calls of `simulation.py` that are cut short between two assignments |
| `Model/Lifetime` | devices and simulations that are made, dropped and freed, with the caches of `slm.py` and `simulation.py` keyed by address |
| `Model/Threads` | several threads using `_backend.py` and the cached grids at the same time |
| `Model/FloatPatch` | the disc of `circular_patch` with every operation rounded |
| `Model/FloatRange` | Hermite- and Laguerre-Gaussian profiles with overflow and underflow |
| `Model/Nan` | mode matching and holograms of arrays that hold NaN |
| `Model/NanIfta` | method `ifta` on arrays that hold NaN |
| `Model/VortexTarget` | Laguerre-Gaussian targets with overflow as arrays that hold NaN |
| `Model/FloatSuper` | super-Gaussian profiles with overflow and underflow, as targets too |
| `Model/FloatHermite` | Hermite-Gaussian targets with overflow as arrays that hold NaN |
| `Model/SharedProfile` | the reads of one evaluation of a profile, each at its own moment |
| `Model/SharedDmd` | several threads updating one `DMD` |
| `Model/SharedLcos` | threads that share an LCOS SLM |
| `Model/SharedLux` | threads that share a Luxbeam controller |
| `Model/SharedAlp` | threads that share an ALP controller |
| `Model/OpenAlp` | threads that initialize, use and close an ALP controller |
| `Model/OpenLux` | threads that initialize and use a Luxbeam controller |
| `Model/SharedRead` | threads calling `pack_dmd_state` while others update the `DMD` |
| `Model/SimRead` | threads calling `propagate_to_image` while others update the `DMD` |
| `Model/SharedSim` | several threads using one `SLMSimulation` / `DMDSimulation` and updating its SLM |
| `Model/Benchmarks` | the function `task` of the scripts in `runtime_benchmark` |
| `Model/Ranks` | the shapes of the results of all methods for arrays of any rank |
| `Model/Precision` | the dtypes of variables, constants and values of profiles, and programs that mix profiles with accesses to the backend |
| `Model/Controller` | `util/controller.py`: vendor-call logs with fault injection at every call, the ALP device state, the Luxbeam sequencer program and its execution against trigger lines |
| `Model/TornCalls` | the same controllers when a vendor call takes effect without returning or is cut off in a transfer, and when the program dies and is started again |
| `Model/Attributes` | reading and assigning the public attributes of profiles and windows by name (`EagerTensor` has no method `value`, only variables do) |
| `Model/Traced` | `tf.function` on profiles: graphs with variables captured by reference, kept per argument shapes; the dtype is not part of the key (C143: it is fixed before the first call), and objects composed alike from the same parts share graphs |
| `Model/Frames` | `util/controller.py`, `util/sample.py` at the level of numpy arrays: `np.concatenate`, row-major order, `number_image` |
| `Model/DeviceScripts` | `examples/load_images_luxbeam.py`, `util/master_example.py`: the sequences of controller and vendor calls |

Specifications that do not mention the model's helpers are in `lean/Verif/Spec/`, helper lemmas in
`lean/Verif/Lemmas/`, and the property theorems (with an `example` beside each showing that a non-trivial
case meets its hypotheses) in `lean/Verif/Props/`.

### Not modelled

* The text rendering of PIL: what the font paints is a parameter of `Model/Frames.numberImage`.  Note that
  `number_image` uses `np.bool`, which does not exist in numpy 1.24 to 1.26, where it always raises
  `AttributeError`; the model is for the other versions.
* Plotting and prompts in `examples/` and `util/master_example.py` (their API calls are C123, C125, C130), `docs/`; `test/` itself is not modelled, what its tests check is C171.
* The values of tensors of ranks other than 0 and 2 (their shapes are in `Model/Ranks`, C145), strings or objects passed as profiles, `tf.function` retracing of anything but profiles (profiles: C164).  The FFT
  selector is a `tf.Variable` compared inside the traced function, so it is read again at every call, as in
  the model (both transforms compute the same sum in the model, so only the selector itself is affected, C03).
* `verbose=True` printing in `analysis.py`, the timing and printing of `runtime_benchmark` (its `task` functions are in `Model/Benchmarks`).
* Rounding except as described in section 2, overflow, performance, memory use, GPU/CPU differences.
* Threads: the library has none and takes no locks.  Threads of a program that uses it share `BACKEND` and the grid
  caches; that is modelled in `Model/Threads` (C146, C147) with switches between any two accesses to shared
  attributes.  Threads that share a DMD or a simulation are modelled in `Model/SharedDmd` and `Model/SharedSim`
  (C165, C166), also with switches between any two accesses; threads that share an LCOS SLM in `Model/SharedLcos` (C184), and a
  Luxbeam controller in `Model/SharedLux` (C185) and `Model/OpenLux` (C190), or an ALP controller in `Model/SharedAlp` (C187) and `Model/OpenAlp` (C189).  The internals of `lru_cache` are not modelled (its
  look-up and its store are single steps).  A DMD that is updated while a simulation copies its state is modelled in
  `Model/SimRead` (C179).  The Luxbeam sequencer, which runs concurrently with
  the host, is modelled with arbitrary interleavings (C81).

## 2. Numbers and libraries

* `float32/float64` arithmetic is modelled by exact real / complex arithmetic.  Rounding is
  modelled only in C67 (square root) and in `Model/Float` (C102-C104), where every elementary operation of the
  pixel coordinates and of the ideal, simple and random gratings is followed by an arbitrary rounding with `t`
  significant bits and the library functions have an arbitrary bounded error, and in `Model/FloatSim` (C137), where
  the same is done for the simulation, with an FFT of arbitrary given accuracy and an arbitrary order of the
  additions in `np.sum`, in `Model/FloatCalc` (C144), where it is done for mode matching, in `Model/FloatHologram` (C151, C152) for the LCOS holograms, in `Model/FloatProfile` (C157-C160) for profiles and windows, in `Model/FloatPatch` (C168) for the patch of `block_zeroth_order`, in `Model/FloatAnalysis` (C180) for `analysis.py`, and in `Model/FloatIfta` (C181) and `Model/FloatCalcIfta` (C186) for method `ifta`.  Overflow and underflow are modelled for Hermite-, Laguerre- and super-Gaussian profiles only (`Model/FloatRange`, C172, C173 and C192; `Model/FloatSuper`, C191).  NaN in arguments is modelled in `Model/Nan` (C174, C175) and `Model/NanIfta` (C182), with the rule that sums and products with NaN are NaN.
* Where the code can divide by zero or leave the domain of `asin`, values are of type `XR` (finite real,
  +inf, -inf, nan) with IEEE comparison semantics; signed zeros are not modelled.  In profile expressions a
  non-finite value (division by zero, negative base to a fractional power, ...) is `none`, and theorems say
  what happens when values are defined.
* `np.fft.fft2/ifft2` and `tf.signal.fft2d/ifft2d` are modelled by the DFT sums they document.
* `tf.random.uniform` is a parameter (an arbitrary draw with values in [0,1)); theorems quantify over all
  draws, or state measures over draws explicitly.
* `scipy.special.hermite(n).coef`, `genlaguerre(p,a).coef`, `factorial` are modelled by the exact
  coefficients scipy documents.
* `functools.lru_cache` follows its documentation (128 entries, least recently used evicted, exceptions not
  cached, keyed by object identity here).
* numpy basic indexing, `arr[mask] = values[mask]` (in place, cast to the dtype of `arr`), `np.packbits`
  (big-endian bits, zero padding of the last byte) follow their documentation.
* Vendor libraries (not part of `/repo`): `Alp.apply` and `Lux.*` in `Model/Controller` state what each call
  is assumed to do.  A faulted call raises and has no effect on the device (in `Model/TornCalls` it may also take effect, or leave arbitrary picture data or no sequencer program); `ALP4.Halt` stops projection;
  `SeqAlloc` allocates and selects a sequence; `FreeSeq` frees the last one; `Free` releases the device;
  `Initialize` starts from a device in master mode, without inversion and without sequences; a Luxbeam
  `trig` instruction waits for a rising edge on one of the three trigger lines.  `dmd_state * 255` is an
  int64 array; the ALP library is assumed to convert it to bytes.
