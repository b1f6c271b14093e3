import Verif.Model.GkoExecutor
/-!
# C65: Ginkgo works where the data of the call are

The solver wraps the memory of the system and the field in Ginkgo array views without copying; that is right only if the Ginkgo executor works on the memory those data
live in.
-/
namespace NeoFOAM

/-- SPEC. Kinds of memory: of the host or of a device of one make. -/
inductive KMem | host | device (d : KDevice)
  deriving DecidableEq

/-- SPEC. Where a field of an executor lives: serial and CPU fields on the host; GPU fields on the device the build has, and on the host if it has none (then
`Kokkos::DefaultExecutionSpace` is a host space). -/
def Exec.memory (b : KBuild) : Exec → KMem
  | .serial | .cpu => .host
  | .gpu => match b.device with
    | some d => .device d
    | none => .host

/-- SPEC. The memory an executor of Ginkgo works on (Ginkgo's documentation). -/
def GkoExec.memory : GkoExec → KMem
  | .reference | .omp => .host
  | .cuda => .device .cuda
  | .hip => .device .hip

/-- For every build and every executor: the function gives a Ginkgo executor that works on the very memory the fields of the executor live in, or, exactly for the GPU
executor of a build with neither CUDA nor HIP, throws a `std::runtime_error`. There is no third outcome. -/
theorem C65_executor (b : KBuild) (e : Exec) :
    (e = .gpu ∧ b.device ≠ some .cuda ∧ b.device ≠ some .hip ∧ getGkoExecutor b e = .throw .runtimeError) ∨
    (¬ (e = .gpu ∧ b.device ≠ some .cuda ∧ b.device ≠ some .hip) ∧
      ∃ x, getGkoExecutor b e = .ok x ∧ x.memory = e.memory b) := by
  obtain ⟨d, omp, thr⟩ := b
  cases e
  · exact .inr ⟨by simp, _, rfl, rfl⟩
  · refine .inr ⟨by simp, ?_⟩
    cases omp <;> cases thr <;> exact ⟨_, rfl, rfl⟩
  · rcases d with _ | _ | _ | _
    · exact .inl ⟨rfl, by simp, by simp, rfl⟩
    · exact .inr ⟨by simp, _, rfl, rfl⟩
    · exact .inr ⟨by simp, _, rfl, rfl⟩
    · exact .inl ⟨rfl, by simp, by simp, rfl⟩

/-- Each of the two outcomes occurs: CUDA data are handed to CUDA; a SYCL build's GPU executor is refused. -/
example : getGkoExecutor ⟨some .cuda, false, true⟩ .gpu = .ok .cuda ∧ getGkoExecutor ⟨some .sycl, false, true⟩ .gpu = .throw .runtimeError := ⟨rfl, rfl⟩

end NeoFOAM
