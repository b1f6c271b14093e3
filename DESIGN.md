# Formal model of NeoFOAM in Lean 4 — design

## Layout

* `properties.jsonl` – the properties, in terms of the public API.
* `MANIFEST.json` – per property: status and the theorems that carry it.
* `lean/Verif/Base/*` – outcome monads (`Res`, `NR`), schedules (interleavings of thread programs), kernel memory,
  atomic tickets, list and sum lemmas.
* `lean/Verif/Model/*` – the model, function by function; each definition cites the lines of `/repo` it models
  (`tools/cites.py` prints the cited lines next to the definitions).
* `lean/Verif/Spec/*` – small independent specifications (what the English says).
* `lean/Verif/Proofs/*` – lemmas.
* `lean/Verif/Props/*` – the property theorems, with examples that meet their hypotheses.
* `seeded/LOG.jsonl` – the wrong programs the theorems were tested against.
* `AXIOMS.md` – axioms of every claimed theorem (generated by `tools/axioms.py`).

## Modelling decisions

* **Outcomes.** A call returns a value, throws a C++ exception (`out_of_range`, `bad_any_cast`, `bad_cast`,
  `runtime_error`, …), stops the program (`NF_ERROR_EXIT`, `NF_ASSERT`, `Kokkos::abort`) or is undefined behaviour
  (access outside a view in a release build, dangling or null pointer, read of an uninitialised variable, signed overflow).
  These are four distinct outcomes (`Res`). "The call is safe" therefore means: it is shown to return a value.
* **Nondeterminism.** `NR α` is the set of possible outcomes. A theorem `NR.Ok R Q` says every outcome is a normal return
  satisfying `Q`; `R.Runs` says there is one.
* **Scalars.** The kernels' definitions use bare operations (`Add K`, `Mul K`, …), so the same model runs in any arithmetic.
  Theorems about values are over an arbitrary (ordered) field `K`, vector valued fields over a `K`-module `V`, i.e. in exact
  arithmetic, unless said otherwise. Theorems that need no algebra (element-wise kernels, data movement, components) are for an
  arbitrary type with arbitrary operations and so apply to floats as they are. `Spec/Float` states the standard model of rounding
  (relative error `u` per operation, no over- or underflow), `Spec/BinFloat` constructs `p`-bit binary floats that satisfy it, and
  C81 runs the kernels in both arithmetics. C89 and C90 add square roots (`FloatRoot`) and faithful rounding (`Faithful`), which `p`-bit floats
  also satisfy. The mesh constructors and sums by `parallelReduce` have theorems over fields only.
* **Schedules.** `parallelFor` on the serial executor is a loop in index order. On the CPU and GPU executors each iteration is a
  thread; an execution is any interleaving of the threads' memory actions (an atomic add or fetch-add is one action; a plain
  `x += v` is a load into a thread register followed by a store). Memory is sequentially consistent. `parallel_reduce` and
  `parallel_scan` may split and bracket the range in any way.
* **Integers.** Unbounded, unless a property is about the width: document counter (32 bit), matrix offset tables (8 bit),
  `nCells-1` and patch sizes (64 bit), CSR row sizes (32 bit), communication tags (31 bit).
* **Memory.** Fields are blocks on a heap with arbitrary initial contents (`Model/Field.lean`); the numerical kernels work on the
  contents of the blocks (lists), with arbitrary initial contents where the code does not initialise.
* **Type erasure.** `SpatialOperator`/`TemporalOperator` are handles to heap objects with clone semantics.
* **Other libraries** are modelled by their documented behaviour: `std::unordered_map` (any iteration order), `std::any`,
  Kokkos (above), MPI (point-to-point messages matched by source, tag and order; arbitrary delays; sends may or may not be
  buffered), the linear solver (an arbitrary function from system and settings to a field).

## Trusted base

1. Lean 4.33.0's kernel.
2. The axioms `propext`, `Classical.choice`, `Quot.sound` of Lean's standard library, and nothing else. `AXIOMS.md` lists them
   per claimed theorem. No axiom is declared in the development.
3. The faithfulness of `Model/*` to the cited code and of the above assumptions about Kokkos, MPI and the standard library.
4. Mathlib's definitions (fields, modules, finite sums, `Real.sqrt` in one example).

## What is modelled and what is not

| part of /repo | modelled in | left out |
|---|---|---|
| `core/{dictionary,tokenList}` | Model/Dictionary | printing |
| `core/database/*` | Model/Database | printing |
| `core/runtimeSelectionFactory` | Model/Factory | the docstrings and schema, static initialisation order |
| `core/{view,parallelAlgorithms,executor/*}` | Model/View, Base/Sched, Base/Launch, Model/Reduce, Lifecycle | memory spaces, weak memory; `parallelScan` is modelled where it is used |
| `core/primitives/vector` | Model/Vector | printing |
| `core/mpi/*` | Model/Comm, Halo, MpiReduce, MpiInit | MPI itself: FIFO channels and element-wise reductions, as documented |
| `core/{input,error,time}` | Model/Schemes, Model/Time, the `Res` monad | `demangle`, `info` |
| `mesh/unstructured/*` | Model/Mesh, Halo, StencilDB | reading meshes from files |
| `fields/*` | Model/Field, Lifecycle, Segments, Reduce, Boundary, Copies | device copies are copies of lists |
| `finiteVolume/.../{interpolation,faceNormalGradient,operators,auxiliary}` | Model/Interp, Gauss, Operators, Schemes, Assembly, AssemblyV, Coeff | |
| `finiteVolume/.../{boundary,fields}` | Model/Boundary, Dictionary, Copies | |
| `finiteVolume/.../{stencil,linearAlgebra}` | Model/Geometry, Sparsity, StencilDB | |
| `finiteVolume/.../dsl`, `dsl/*` | Model/Expression, Solve, Calls | |
| `timeIntegration/*` | Model/Solve, Handles | SUNDIALS itself: one ARKode step of forward Euler, from its documentation |
| `linearAlgebra/*` | Model/LinearSystem, Copies, Ginkgo, GinkgoSolve, Petsc, Solve | Ginkgo and PETSc themselves: a relation from systems to outcomes, constrained where a theorem says so (`ExactOn`, `SolvingOn`) |

Implicit operators, systems and assembly are modelled for scalars (Model/Assembly) and for any value type, vectors in particular
(Model/AssemblyV); the linear solvers are instantiated for scalars only, as in the code.

Not modelled at all: printing, logging, `demangle`, `info`, `ArgList`, `timeName` (placeholders), command line; overflow and
underflow of floating point numbers, fused multiply-add; memory spaces (a GPU pointer used on the host is not detected); weak memory;
exceptions thrown by memory allocation; concurrency of the host program itself.

Code that cannot compile when instantiated is modelled as its body intends, and the definition says so: `operator&` on
expressions (structured binding of three names to two members), `setReference` (deleted `Field::operator[]`), `Communicator`
(nonexistent `Field::operator()`), `Expression::assemble()` without arguments (calls a function that does not exist; left out),
`dsl::temporal::Ddt`, `equal(Field, View)` (takes the deleted `view()` of a temporary; left out).

Simplification of the old-time database in the solver layer: `Model/Solve.lean` keeps one old field per solution field, which is
what `oldTime` provides (proved for the database model in C06).

## Method per property

| Property | Model | Proof |
| --- | --- | --- |
| C01, C02 | finite map / queue machines, nested references | refinement to maps and queues, all histories |
| C03–C06 | database, documents, field and old-time collections as a state machine with exceptions | invariants over all histories |
| C07–C09 | fields as heap blocks, element kernels | threads on different elements commute; any schedule equals the loop |
| C10, C11 | `parallel_scan`, `parallel_reduce` with any bracketing | induction on the bracketing; monoid laws |
| C12, C13 | patch offsets, mesh construction | arithmetic on offsets; every schedule of the construction kernels |
| C14, C17 | atomic tickets | invariant of the ticket machine over every interleaving |
| C15, C16 | CSR lookup and residual loops | loop invariants |
| C18, C25, C29 | Gauss sums with atomics | `RunsAdd`: additive kernels give the sum of their contributions on every schedule; algebra |
| C19–C24 | assembly kernels, atomic and plain updates | the same, with disjointness hypotheses for the plain updates; races as counterexamples; Base/Lost: what survives of racing plain updates in every interleaving (invariant of a run whose elements hold the list of updates they contain, carried over by the logical relation) |
| C26–C28 | interpolation, geometry, boundary conditions | per-element kernels; ordered field algebra |
| C30, C31, C44 | coefficients, operator heap, expression trees | induction over composition trees |
| C32–C35, C45–C47 | `dsl::solve`, time integrators, assembled expressions | composition of the operator theorems; `C32_every`/`C33_every`: the system two patterns of the same mesh describe differs by an exchange of neighbours within rows (Spec/Shuffle.lean), from which the bounds of C60 follow on every executor; `C14_exact`, `C32_exact`, `C33_exact`: on the parallel executors every such exchange occurs, by building the schedule that realises a numbering (Proofs/Realize.lean) |
| C36, C41 | registries and caches | histories |
| C37–C39 | buffers, MPI processes | histories; global transition system with an inductive invariant, progress measure |
| C40 | debug views | histories of accesses |
| C42, C43 | `n` steps of explicit transport | induction on steps over C18, C26, C29, C34 |
| C48, C49 | scheme selection from `fvSchemes` in front of `dsl::solve`, implicit divergence after selection | case analysis on the word lists; fold over the operators |
| C50 | interpolation weights | per-element kernels |
| C51 | which blocks are allocated and which each live field holds, Kokkos allocation | invariant over histories of calls |
| C52–C54 | executor and contents of matrices, systems, boundary data; index conversion; comparison loop | case analysis; per-element kernels; induction on the loop |
| C55 | translation of a solver dictionary for Ginkgo | induction on the nesting, paths of keys |
| C56 | `RungeKutta::solve` and the SUNDIALS bridge; ARKode's step by its documentation (explicit Euler table, one step, nothing else is offered) | the step's effect, induction on steps; `_partial` and counterexample for conditions that follow the cells |
| C57 | set-up of the PETSc matrix from coordinates; PETSc's COO calls by their manual, `KSPSolve` any exact solver | loop invariant for the expanded row indices; the matrix is the transpose; `_partial` for symmetric systems, counterexamples for flows and for the library's test |
| C58 | `find`, `sortedKeys`, `doc` of a collection over a history of inserts and edits | invariant key = entry "id"; sorting as a relation, independent of the iteration order; counterexample when "id" is changed |
| C59 | the operators of `Vector`, with `*=` taking a reference | algebra over ordered fields; aliasing counterexample |
| C60 | composition: `dsl::solve` with backwardEuler of implicit ddt, div and laplacian, geometry scheme, any linear solver that solves solvable systems | each step's system is shown to be an M-matrix system (maximum principle ⇒ uniqueness ⇒ solvability by finite dimension); induction over the steps; `_partial`: serial, no `extrapolated` boundaries (counterexample) |
| C61 | the same composition, every exact solver | summing the equations over the cells; induction over the steps; `C61_violation`, `C62_violation` from `C33_exact` |
| C62 | the same composition | summation by parts, upwind and diffusion dissipate; induction over the steps |
| C63 | composition: `dsl::solve` of implicit div and laplacian without a time term | strong maximum principle along the chain of cells a prescribed value reaches (induction on `Fed`), hence injectivity, hence solvability; `_partial`: serial, two kinds of boundary condition |
| C64 | composition: `create1DUniformMesh`, geometry scheme, interpolation, gradient, sparsity, laplacian assembly, `dsl::solve` | closed form of the mesh and its coefficients for every n; the linear profile balances, uniqueness from C63 |
| C65 | `GinkgoSolver::solve`, `createGkoMtx`; Ginkgo's arrays (owned or view, copy/move) and `apply` from its documentation, memory blocks freed at the end of `createGkoMtx`; `getGkoExecutor` for every build (`Model/GkoExecutor.lean`) | the int conversion of valid storage is exact; the coefficient sum of the int matrix is that of the original; composition with C60–C64; `C65_executor`: Ginkgo's executor works on the memory of the fields or the call throws; `_violation`: a short field |
| C66 | `TimeIntegration` with references to dictionaries given by their place in memory; histories of steps, changes and destructions | induction over the history; "set up" is an invariant of forward Euler and of Runge-Kutta after the first step; violations otherwise |
| C67 | copy and move of `TimeIntegration` and `la::Solver`, null pointers explicit | case analysis on the integrator, equality of all histories; violations for Runge-Kutta and for all solvers |
| C68 | `SegmentedField` with 32-bit offsets, spans as views, a kernel filling each span | representation predicate (nested list), preserved by every store; disjoint write sets for the kernel; violations for overflow and inconsistent parts |
| C69 | `computeLaplacianImpl` on an empty system; quadratic form and an inductive connection predicate as specification | C21 dissipation identity; kernel by induction over the connection; converse by the indicator of the unconnected cells; existence by linear algebra |
| C70 | `computeLaplacianImpl` followed by `setReference` | quadratic form of C69 plus the reference term; column sums give the solvability condition; existence by linear algebra |
| C71 | `Model/Solve.lean` | Outcome of one step for any pair of field and recorded old-time field; a counterexample for each Euler integrator |
| C72 | the models of the operators, `Model/Geometry.lean`, `Model/Boundary.lean`, `Model/Solve.lean` | Invariance of the Gauss sum under permutation and sign change (`netOutflow_renumber`), then operator by operator; induction over the steps |
| C73 | explicit operators, dslSolve with forwardEuler | net outflow is linear; both interpolation schemes and the normal gradient are linear in the field face by face; Euler steps keep the combination, the last condition of a face is the same in the three lists |
| C74 | composition: dsl::solve with forwardEuler, explicit div and laplacian, geometry scheme | the new value is a convex combination of the values around the cell; induction over the steps; small steps exist on every mesh |
| C75 | the same composition | summing the equation over the cells; induction over the steps with the boundary values fixed by the deciding condition |
| C76 | Model/Calls.lean: the term functions, on top of Model/Solve.lean; Spec/Calls.lean: what each call stands for and the equation as written | linearity of compositions in what the terms add to the equation of a cell, then C32/C33/C34 |
| C77 | `Model/MpiReduce`: getOp, getType, the predefined MPI operations, MPI_Allreduce as any order and grouping of the pairwise operation, allReduce for values and Vectors | induction over combination trees up to permutation; commutativity and associativity of every operation and representation |
| C78 | the operator kernels for any value type with its `one`; expressions, boundary conditions and explicit Euler, generic in the value type | logical relations: two runs of the same kernel on related memories, schedule by schedule (Base/Rel), carried through launches, operators, expression building and time steps; instance: a linear map that preserves `one` |
| C79 | geometry scheme, operators, expressions, boundary conditions, integrators and solve, all as in the other claims, run on the moved mesh (Spec/Motion) | the kernels read centres only through differences and area vectors only through inner products; equality of the sets of outcomes; gradients and vector fields by the logical relations of C78 with the rotation as linear map |
| C80 | geometry scheme, operators, expressions, boundary conditions, integrators and solve, run on the mesh and data in new units (Spec/Units) | logical relation between the two runs, with sizes carried along; every kernel is homogeneous; counter-example by choosing the unit of length |
| C81 | the same kernels run in two arithmetics: an arbitrary one with relative error u per operation (Spec/Float), and the exact one | forward error analysis: every intermediate value is Approx its exact counterpart, with invariant over the order of the atomic additions; concrete instance Spec/BinFloat |
| C82 | the same kernels over bare operations (no algebraic laws), every allocation with arbitrary content | NR.Det: two runs with different junk have the same unique outcome, by congruence through every kernel, operator and integrator; counterexample in BinFloat p for atomics |
| C83 | Model/Solve (forwardEuler, dslSolve), Model/Gauss, Spec/Float, Spec/FloatTransport | per-cell decomposition of the upwind step into outgoing and incoming parts (sup-norm stability), rounding bounds of C81 for each step, induction over the steps with both runs side by side |
| C84 | Model/Assembly, Spec/Float, Spec/FloatSystem | each assembly runs beside one over a commutative group of triples (exact value, size, number of roundings), whose outcome is known for every schedule |
| C85 | Model/Sparsity, Model/Solve, Spec/Shuffle | a schedule is constructed for each order of the tickets (Proofs/Realize); operators ignore column indices, so the system is that of the cached pattern with other columns |
| C86 | Model/Sparsity, Model/Assembly, Model/Solve, Spec/Shuffle | discrete maximum principle for the equations with exchanged neighbours: off-diagonal signs and row sums survive the exchange, and with diffusion so does the set of neighbours a cell depends on |
| C87 | Model/Solve, Model/AssemblyV, Spec/ConvDiff, Spec/SteadyDiff | a positive barrier field from which the volume of each cell leaves it, which exists because the steady operator is injective; comparison with multiples of the barrier gives the factor W / (W + d) |
| C88 | Model/Solve, Model/AssemblyV, Spec/ConvDiff | the difference of two runs solves the equations with zero boundary data; discrete comparison and maximum principle |
| C89 | Model/Geometry (bare operations), Spec/Float, Spec/FloatGeometry | relative distances of non-negative numbers, closed under rounding, sums, products, inverses and roots; faithful rounding keeps n/(o+n) below 1; Cauchy–Schwarz for the projection |
| C90 | Model/Geometry (bare operations), Model/Reduce, Spec/Float, Spec/FloatGeometry | simulation of the face loops with the exact sum and the number of terms beside each computed sum; the maximum of near numbers is near the maximum |
| C91 | Model/Assembly, Model/Solve (bare operations), Spec/FloatImplicit | the assembled system is near the exact one entry by entry (C84), so what the solver returns satisfies the exact equations up to a residual; the maximum principle bounds sizes and distances of steps with residuals, the exact steps exist by linear algebra, and induction over the steps |
| C92 | Model/Calls, Model/Solve, Model/Mesh, Model/Geometry | truncation error by repeated integration of derivative bounds (second order inside, first order in the end cells), a quadratic barrier plus a constant whose outflow dominates it, and the comparison principle for the steady balance |
| C93 | Model/Calls, Model/Solve, Model/Mesh, Model/Geometry | truncation error by integrated derivative bounds, a time-independent barrier whose outflow dominates it, and the comparison principle for one implicit step, iterated |
| C94 | Model/Calls, Model/Solve, Model/Mesh, Model/Geometry | truncation error of the upwind balance by integrated derivative bounds, a linear barrier whose outflow dominates it, and the comparison principle for one implicit step, iterated |
| C95 | Model/Solve, Model/Mesh, Model/Geometry | truncation and barriers of C93 and C94; a small explicit step keeps nonnegative data nonnegative, so it preserves the distance to the barrier; induction over the steps |
| C96 | Model/Solve, Model/Mesh, Model/Geometry, Model/Calls | truncation error and barrier of C94 without time; the comparison principle of C63 turns the barrier into a bound of the error |
| C97 | Model/SunVector; Spec/SunVector | simulation: an invariant of ownership and a relation between wrappers and values, kept by every operation; induction on the history |
| C98 | Model/Solve, Model/Gauss, Model/Assembly; Spec/FlowBC, Spec/ExplicitDiff, Spec/SteadyDiff | the explicit and implicit operators agree on fields with settled boundary values; a small step keeps nonnegative data nonnegative, so multiples of the barrier of C87 bound the error and shrink by a fixed factor |
| C99 | Model/Solve, Model/Assembly, Base/Float; Spec/FloatSteady, Spec/FloatImplicit, Spec/SteadyDiff | each row of the assembled system stands for the exact one up to a relative error; comparison with multiples of the barrier bounds a field by its residuals, which gives existence, uniqueness and the distance |
| C100 | Model/Time; Spec/BinFloat | integers up to 2^p are exact; above, faithful rounding keeps the sum above 2^p; induction on the calls |
| C101 | Model/Solve (forwardEuler, dslSolve), Model/Gauss, Spec/ExplicitDiff, Spec/Float, Spec/FloatTransport | as C83; diffusion enters the decomposition of a cell's step as equal conductances out and in |
| C102 | Model/MpiInit | state machine of MPI and the living objects; induction on the program from the active and the finished state |

Where the code violates a property the negation is proved with a concrete witness (`_violation`) and a `_partial` theorem covers
the part that holds; the manifest note says what is missing.

## Defects of the code found while proving

* C02 mixing `popFront` and `next` skips tokens. C03 document ids repeat after 2^32 documents. C05 a registration of the wrong type
  throws but leaves the document; an empty id makes registration return another field. C08 the empty range `{k,0}` writes to the
  end. C11 a non-zero start value is used differently by the serial and the Kokkos reductions. C12 `patchEnd()` returns the start.
* C13 `create1DUniformMesh(0)` is undefined; `createSingleCellMesh` stores face areas where the centres of the adjacent cells belong. C14 rows with more than 256 entries alias in the 8-bit offsets. C15 `entry(i,j)` stops the
  program on stored entries when columns are not ascending, which both executors can produce.
* C18 the overload of `div` that returns a field sums into uninitialised memory. C19 the implicit divergence drops the boundary
  gradient. C20 the explicit Laplacian ignores the diffusivity. C22 non-atomic boundary updates race; a cell with a prescribed and an insulated face can get a singular row. C23, C31, C34 the explicit ddt
  ignores its coefficient and multiplies by the volume. C25 `grad(phi, gradPhi)` accumulates.
* C32 `dsl::solve` builds its own sparsity pattern, which on parallel executors may order rows differently from the cached one the
  operators assemble with. C33 `backwardEuler` evaluates explicit terms and drops them. C45 transient solves read solver settings from
  the schemes dictionary. C47 solving an assembled expression always stops the program.
* C37 tags of different names collide. C39 starting a second exchange dangles the first. C40 debug views miss accesses on empty views
  and in kernels. C41 copies of a mesh share cached objects that refer to the original. C42 upwind uses the boundary value at outflow.
* C48 creating a scheme from an `Input` object consumes its tokens through a const reference. C49 the implicit divergence is upwind
  whatever scheme is selected. C50 upwind's `weight` does nothing; the boundary field of the geometry
  scheme's weights is never written, and linear's `weight` copies that uninitialised storage.
* C51 resizing a field to zero and then to a larger size loses a (zero-size) block. C52 `CSRMatrix::copyToExecutor`
  always copies to the host; copied boundary data reports the wrong executor. C53 indices of 2^31 and above become negative.
* C56 Runge-Kutta does not correct the boundary conditions; a kept integrator ignores later expressions and changes of the field; Heun
  and Midpoint are documented as supported but stop the program.
* C57 PETSc is given the transposed matrix (row and column arguments exchanged); the library's unit test expects the transposed
  solution. Empty rows shift the following entries; settings in the dictionary are ignored.
* C58 changing the entry "id" through `doc(id)` makes `find` return an id that `doc` rejects; keys sort as strings, not by creation.
* C59 `v *= v[0]` scales the later components by the changed component.
* C60 `extrapolated` boundaries are assembled implicitly as fixed values (value fraction 1, the old cell value): where the flow
  leaves, an implicit step then leaves the bounds of the data.
* C65 `solve` does not compare the sizes of the field and the system: a short field is written out of bounds.
* C66 backward Euler and (before its first step) Runge-Kutta read dictionaries they only refer to: later changes are used, a destroyed
  dictionary is read. C67 copying a Runge-Kutta integrator dereferences a null context; the copy of any linear solver is a null pointer.
* C68 a segmented field whose lengths add up to 2^32 or more has too few values and its spans reach out of bounds; offsets passed by the
  user are not checked.
* C70 in a mesh of one cell `setReference` scales the reference by a zero diagonal and changes nothing: the equation stays singular.
* C71 (change lost): every integrator starts from the old-time field recorded at the end of the previous step; what the user stores in the solution field between two steps is undone.
* C76 forwardEuler ignores `imp::` spatial terms and backwardEuler drops `exp::` terms without an error; an `imp::` term of a field other than the one solved for is assembled as a term of the solved field.
* C80 the geometry scheme compares a volume-like quantity with the absolute number ROOTVSMALL, so on meshes with very small cells (or large units) all weights become one half (C80_threshold)
* C82 C82: sums over faces use atomic additions on the CPU and GPU executors, so repeated runs need not agree bit for bit; with large cancelling fluxes a cell can get 0 in one run and 1 in the next (`C82_atomic`).
* C97 copying a wrapper of a SUNDIALS vector keeps a pointer to the vector of the original: writes into the copy change the original, and the copy dangles when the original is destroyed or initialised again.
