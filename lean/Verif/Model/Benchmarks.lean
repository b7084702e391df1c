import Verif.Model.Defaults
import Verif.Model.Lcos
import Verif.Model.Simulation

/-!
# The benchmark scripts

The function `task` of the scripts in `/repo/pySLM2/runtime_benchmark`, which makes the objects and calculates one hologram.  The
CPU and the GPU script of a case have the same `task` (apart from blank lines) and differ in the environment variable, in the texts
printed and, for `slm_mraf`, in the method.  The physical constants are parameters; the time measured, the text printed and the
choice of the device TensorFlow runs on are not modelled.
-/

noncomputable section

namespace PySLM2.Benchmarks

open Profile

/-- `task(method, N)` of `slm_gs_cpu.py:11-32`, `slm_gs_gpu.py:11-32`, `slm_hologram_gs_cpu.py:11-32` and
`slm_hologram_gs_gpu.py:11-32` (the latter two with a fixed `N`): the SLM afterwards and the exception, if any. -/
def slmTask (h : Heap) (wavelength focal win wout : ℝ) (method : String) (N : ℕ) (u : ℕ → ℕ → ℝ) : LCOS × Except PyErr Unit :=
  let l := LCOS.new (Model.PLUTO_2.slm wavelength focal)
  let input := newHermiteGaussian h 0 0 1 win 0 0
  let output := newHermiteGaussian input.1 0 0 1 wout 1 1
  l.calculateHologram output.1 (.prof input.2) (.prof output.2) method { N := some N } u

/-- `task(method, N)` of `slm_mraf_cpu.py:11-37` and `slm_mraf_gpu.py:11-37`: the same with a signal window, whose centre is the
pixel `(Nx//2, Ny//2)` read as a position in metres. -/
def slmWindowTask (h : Heap) (wavelength focal win wout side : ℝ) (method : String) (N : ℕ) (u : ℕ → ℕ → ℝ) :
    LCOS × Except PyErr Unit :=
  let l := LCOS.new (Model.PLUTO_2.slm wavelength focal)
  let input := newHermiteGaussian h 0 0 1 win 0 0
  let output := newHermiteGaussian input.1 0 0 1 wout 1 1
  let window := newRect output.1 (l.slm.Nx / 2 : ℕ) (l.slm.Ny / 2 : ℕ) side side
  l.calculateHologram window.1 (.prof input.2) (.prof output.2) method { N := some N, signalWindow := some (.prof window.2) } u

/-- `slm_gs_cpu.py:51`, `slm_gs_gpu.py:49`, `slm_hologram_gs_cpu.py:50`, `slm_hologram_gs_gpu.py:48` -/
def slmGs (h : Heap) (wavelength focal win wout : ℝ) (N : ℕ) (u : ℕ → ℕ → ℝ) : LCOS × Except PyErr Unit :=
  slmTask h wavelength focal win wout "gs" N u

/-- `slm_mraf_cpu.py:54` -/
def slmMrafCpu (h : Heap) (wavelength focal win wout side : ℝ) (N : ℕ) (u : ℕ → ℕ → ℝ) : LCOS × Except PyErr Unit :=
  slmWindowTask h wavelength focal win wout side "gs" N u

/-- `slm_mraf_gpu.py:54` -/
def slmMrafGpu (h : Heap) (wavelength focal win wout side : ℝ) (N : ℕ) (u : ℕ → ℕ → ℝ) : LCOS × Except PyErr Unit :=
  slmWindowTask h wavelength focal win wout side "mraf" N u

/-- `task(method, N)` of `dmd_ifta_cpu.py:11-40`, `dmd_ifta_gpu.py:12-41`, `dmd_random_cpu.py:11-40`, `dmd_random_gpu.py:12-41`,
`runtime_ifta_cpu.py:11-40` and `runtime_ifta_gpu.py:12-41` (the latter two with a fixed `N`). -/
def dmdTask (h : Heap) (wavelength focal win wout dist side : ℝ) (method : String) (N : ℕ) (draw : ℕ → ℕ → ℝ) :
    Except PyErr (DMD.Outcome XR) :=
  let d := DMD.newCall (Model.DLP9500.slm wavelength focal) 4 (Real.pi / 4) none
  match d.firstOrderOrigin with
  | .error e => .error e
  | .ok o =>
    let input := newHermiteGaussian h 0 0 1 win 0 0
    let left := newHermiteGaussian input.1 0 0 1 wout 0 0
    let right := newHermiteGaussian left.1 dist 0 1 wout 0 0
    match pyBinary .sub (.prof left.2) (.prof right.2) with
    | .error e => .error e
    | .ok output =>
      let window := newRect right.1 o.1 o.2 side side
      .ok (d.calculateDmdState window.1 (.prof input.2) (.prof output) method none { N := some N, signalWindow := some (.prof window.2) } draw)

end PySLM2.Benchmarks
