import Verif.Model.Field
/-!
# The Ginkgo executor of a NeoFOAM executor
-/
namespace NeoFOAM

/-- The device backend Kokkos was built with, if any (a Kokkos build has at most one); it decides what `Kokkos::DefaultExecutionSpace` is, the space of
include/NeoFOAM/core/executor/GPUExecutor.hpp:23. -/
inductive KDevice | cuda | hip | sycl
  deriving DecidableEq

/-- The Kokkos build: the device backend and the host macros the function looks at. `KOKKOS_ENABLE_OMP` is the name in the code (Kokkos's own is
`KOKKOS_ENABLE_OPENMP`, so in practice it is never defined); every combination is allowed here. Source: src/linearAlgebra/utilities.cpp:25-37. -/
structure KBuild where
  device : Option KDevice
  omp : Bool
  threads : Bool

/-- The classes of Ginkgo executors the function creates (src/linearAlgebra/utilities.cpp:21, 26, 28, 34, 38, 50). Device number and host executor are left out. -/
inductive GkoExec | reference | omp | cuda | hip
  deriving DecidableEq

/-- `getGkoExecutor`: a chain of `if constexpr` on the executor with preprocessor conditions on the build; the CPU branch falls through to the last return when neither
macro is defined; the GPU branch throws when there is neither CUDA nor HIP. The branch for another executor type is never instantiated. Source:
src/linearAlgebra/utilities.cpp:14-53. -/
def getGkoExecutor (b : KBuild) (e : Exec) : Res GkoExec :=
  match e with
  | .serial => .ok .reference
  | .cpu =>
    if b.omp then .ok .omp
    else if b.threads then .ok .reference
    else .ok .reference
  | .gpu =>
    if b.device = some .cuda then .ok .cuda
    else if b.device = some .hip then .ok .hip
    else .throw .runtimeError

end NeoFOAM
