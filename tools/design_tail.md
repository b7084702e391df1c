### Other findings recorded by theorems or while reading the code

* C90: the first order amplitude of method `simple` is not proportional to the request.
* C88/C89 hold for the algorithm; C45 and C46 show that its result is not what `SLMSimulation` displays.
* An input array of shape (1, Nx) broadcasts against the SLM state: the output field has full shape while
  `input_field` and `get_input_power` refer to the single row.
* Scalar inputs are accepted by `calculate_dmd_state` but not by `propagate_to_image` (`tf.pad` of a rank 0
  tensor).
* `1 - profile` and `1 / profile` raise `TypeError` (no `__rsub__`, `__rtruediv__`), C51.
* `ALPController` defines `__exit__` without `__enter__`, so it cannot be used in a `with` statement.
* `LaguerreGaussian` has no setters; the message of the first `Zernike` error swaps the indices.

## 4. Trusted base

* Lean 4.33.0's kernel.  No axioms of our own, no `sorry`, no `native_decide`, no `bv_decide`.
* Mathlib's definitions of the reals, complex numbers, trigonometric functions, derivatives, integrals and
  measures.
* The reading of the python source recorded in the comments of `lean/Verif/Model`.
* The behaviour of numpy, tensorflow, scipy, functools, ALP4lib and Luxbeam assumed in section 2 and in the
  comments.
* The statements in `lean/Verif/Spec` and `lean/Verif/Props` as renderings of `properties.jsonl`.

## 5. Testing the theorems against wrong programs

`seeded/LOG.jsonl` has one line per wrong program: the definition edited in a scratch copy of the model, the
edit, the claims it makes false, the theorems that no longer prove and the theorems tightened because of it.
