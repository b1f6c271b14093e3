{"id": "C01", "title": "Dictionary behaves as a last-write-wins finite map with typed reads", "statement": "After any sequence of insert and remove calls on a Dictionary, contains(k) is true exactly when the last operation on k was an insert; get<T>(k) then returns the value of that last insert when its type is T and throws bad_any_cast when it is not; when k is absent get and operator[] throw out_of_range; operations on other keys never change what k returns. A failed read changes nothing.", "quantifier": "every dictionary, every finite sequence of insert/remove/read operations, every key, value and requested type", "why_tests_cant": "tests exercise a handful of fixed histories; the claim is about all histories and all pairs of keys", "anchors": ["include/NeoFOAM/core/dictionary.hpp: Dictionary::insert/get/operator[]/contains/remove/isDict", "src/core/dictionary.cpp"]}
{"id": "C02", "title": "TokenList is read in order, and a failed typed read consumes nothing", "statement": "Reading a TokenList with next<T>() returns the tokens in insertion order, one per successful call; a call that throws (wrong type or past the end) leaves the position unchanged, so a later correctly typed call gets the same token; popFront removes exactly the first token. Mixing the two read styles never skips a token.", "quantifier": "every token list and every finite sequence of insert/next/popFront/remove/get calls", "why_tests_cant": "needs all interleavings of the read styles; the unit tests use one style at a time", "anchors": ["include/NeoFOAM/core/tokenList.hpp: TokenList::next/popFront/get/insert/remove", "src/core/tokenList.cpp"]}
{"id": "C03", "title": "Document ids are unique across a whole run", "statement": "Any two documents constructed without a user supplied id during one process get different ids, whatever the order in which threads construct them, and a document constructed with a user supplied id keeps that id.", "quantifier": "every history of document constructions by any number of threads", "why_tests_cant": "uniqueness over unboundedly many constructions and thread orders cannot be sampled; the counter is a 32 bit integer", "anchors": ["include/NeoFOAM/core/database/document.hpp: Document, generateID", "src/core/database/document.cpp"]}
{"id": "C04", "title": "Database insert never replaces an existing collection; lookup, removal and size agree", "statement": "After any sequence of insert/remove calls a Database contains exactly the names inserted and not removed afterwards; at(name) gives the collection of the FIRST insert since the last removal of that name; insert on an existing name returns the existing collection; remove returns true exactly when the name was present; at on an absent name throws; size counts the present names.", "quantifier": "every finite history of insert/remove/contains/at calls", "why_tests_cant": "quantifies over all histories", "anchors": ["include/NeoFOAM/core/database/database.hpp", "src/core/database/database.cpp: Database::insert/at/remove/contains/size"]}
{"id": "C05", "title": "Registered fields can be found again and registration disturbs nothing else", "statement": "registerField on a field collection either throws and leaves the collection as it was, or stores exactly one new document whose id is the key of the returned field, whose collection name is the collection's name, and whose name/timeIndex/iterationIndex/subCycleIndex are those of the creator; every previously stored document is unchanged and find by predicate returns exactly the ids of the stored documents satisfying it.", "quantifier": "every collection state reachable by any history of registrations, every creator function", "why_tests_cant": "frame and freshness hold over all histories", "anchors": ["include/NeoFOAM/core/database/fieldCollection.hpp: FieldCollection::registerField, CreateFromExistingField, validateFieldDoc", "src/core/database/fieldCollection.cpp: FieldCollection::insert", "include/NeoFOAM/core/database/collection.hpp: CollectionMixin::find/doc"]}
{"id": "C06", "title": "oldTime is idempotent and builds a linear, acyclic time history", "statement": "For a registered field, the first oldTime call creates one copy registered with time index one lower and the same iteration/sub-cycle indices; every later oldTime call on the same field returns that same field and creates nothing. Taking oldTime n times yields n distinct fields with levels 1..n, all recording the original field as their current time, with time index lowered by n; no two fields share an old time.", "quantifier": "every history of registerField and oldTime calls in any order on any number of fields, every depth n", "why_tests_cant": "unbounded history depth and interleavings of several fields", "anchors": ["include/NeoFOAM/core/database/oldTimeCollection.hpp: OldTimeCollection::getOrInsert/get, oldTime", "src/core/database/oldTimeCollection.cpp: setCurrentFieldAndLevel/findNextTime/findPreviousTime/insert"]}
{"id": "C07", "title": "Field arithmetic is element-wise, for every size and on every executor", "statement": "a+b, a-b, a*b, a*s, +=, -=, *= and scalarMul give at every index i the operation on the i-th elements, keep the size, and leave the operands of the non-assigning forms unchanged; the result does not depend on the executor or on the order or interleaving in which its threads run, even if the scalar arithmetic is not associative or commutative.", "quantifier": "every size, all element values of any element type, every executor and thread interleaving", "why_tests_cant": "schedules and sizes are unbounded; tests run a few sizes on whatever schedule happens", "anchors": ["include/NeoFOAM/fields/field.hpp: Field operators", "include/NeoFOAM/fields/fieldFreeFunctions.hpp: add/sub/mul/scalarMul/detail::fieldBinaryOp", "include/NeoFOAM/core/parallelAlgorithms.hpp: parallelFor"]}
{"id": "C08", "title": "fill, map and setField write exactly the requested range", "statement": "fill(f,v,range), map(f,g,range) and setField(a,b,range) set the elements with index in the range and leave all others unchanged, for every range including an empty one.", "quantifier": "every field, every sub-range including empty ranges, every executor schedule", "why_tests_cant": "all ranges, including the boundary ranges tests do not use", "anchors": ["include/NeoFOAM/fields/fieldFreeFunctions.hpp: map/fill/setField"]}
{"id": "C09", "title": "Copy, assignment, resize and executor transfers preserve contents", "statement": "A copied or assigned field has the same size and elements as its source and later writes to either do not affect the other; resize(n) keeps the first min(n,old size) elements; copyToExecutor/copyToHost round trips reproduce the field.", "quantifier": "every field, every pair of sizes, every later sequence of element writes to either field", "why_tests_cant": "all sizes and all later write histories", "anchors": ["include/NeoFOAM/fields/field.hpp: Field ctors/operator=/resize/copyToExecutor/copyToHost"]}
{"id": "C10", "title": "Segment offsets partition the value range", "statement": "For any list of interval lengths, segmentsFromIntervals writes offsets that start at 0, are non-decreasing, whose i-th difference is the i-th length, and returns the total; every value index below the total lies in exactly one segment [bounds(i).first, bounds(i).second).", "quantifier": "every interval list", "why_tests_cant": "prefix sums over every length and content", "anchors": ["include/NeoFOAM/fields/segmentedField.hpp: segmentsFromIntervals, SegmentedField, SegmentedFieldView::bounds/range/span"]}
{"id": "C100", "title": "A time loop makes ten rounds and then stays finished", "statement": "On a new Time, however many calls of loop() are made: the first ten return true and all later ones return false, in single and double precision. So while (runTime.loop()) ends and its rounds see the times 1 to 10; it never starts again, although the clock stands still once it is too large for 1 to be added.", "quantifier": "any number of calls, any precision of at least four bits", "why_tests_cant": "all numbers of calls, including those after the clock has left the range of exact integers", "anchors": ["include/NeoFOAM/core/time.hpp: Time, loop"]}
{"id": "C101", "title": "Explicit transport with diffusion in floating point stays bounded and close to the exact run", "statement": "Solving ddt(u) + div(flux, u) - kappa * laplacian(gamma, u) = 0 with forwardEuler and upwind interpolation in floating point, with a time step small enough for flux and diffusion together, zero gradient where the flow leaves, zero gradient or fixed values elsewhere on the boundary and a flux that is divergence-free up to eta: after n calls of dsl::solve no value exceeds (1+eta+eps)^n times the bound of the initial and fixed values, and the result differs by at most ((1+eta+eps)^n - (1+eta)^n) times that bound from what the same program gives in exact arithmetic, where eps = 3((1+u)^(N+11)-1), u is the unit roundoff and N the largest number of faces of a cell. This holds for every executor and every order in which threads add.", "quantifier": "all valid meshes with positive volumes, fields, fluxes, surface coefficients, kappa >= 0, boundary conditions of these kinds, sequences of small time steps, executors, schedules, numbers of steps", "why_tests_cant": "roundoff builds up differently for every input, order of additions and number of steps", "anchors": ["include/NeoFOAM/dsl/solver.hpp: solve", "include/NeoFOAM/timeIntegration/forwardEuler.hpp: ForwardEuler::solve", "src/finiteVolume/cellCentred/operators/gaussGreenDiv.cpp: computeDivExp", "src/finiteVolume/cellCentred/operators/gaussGreenLaplacian.cpp: computeLaplacianExp"]}
{"id": "C102", "title": "MPI is started and stopped once, by one object that is never copied", "statement": "Among all programs that construct, copy (or move) and destroy MPIInit objects and make MPI calls, and that have destroyed all objects at the end, those that keep to the MPI standard (MPI_Init and MPI_Finalize at most once, other calls in between) are exactly those that do none of it, and those that construct one MPIInit, make all MPI calls while it lives, and then destroy it. A copy of an MPIInit compiles but always ends in a second MPI_Finalize or a call after it. If the build requires threads and the MPI library does not provide them, constructing the first MPIInit stops the program.", "quantifier": "all sequences of constructions, copies, destructions and calls", "why_tests_cant": "a test runs one program; the claim is about all of them", "anchors": ["include/NeoFOAM/core/mpi/environment.hpp: MPIInit"]}
{"id": "C11", "title": "parallelReduce gives the reduction of the kernel contributions regardless of executor", "statement": "parallelReduce(exec, range, kernel, value) leaves in value the sum of all contributions (on top of the same starting value) on every executor and for every tree/order in which partial results are combined.", "quantifier": "every range, kernel, starting value, executor and combination order", "why_tests_cant": "all combination orders, starting values and sizes", "anchors": ["include/NeoFOAM/core/parallelAlgorithms.hpp: parallelReduce", "include/NeoFOAM/fields/operations/sum.hpp"]}
{"id": "C12", "title": "Boundary patches partition the boundary faces", "statement": "For offsets that start at zero and are non-decreasing, the ranges of the patches are pairwise disjoint and cover all boundary faces, the per-patch views of the boundary mesh concatenate to the full boundary arrays, and a boundary patch reports start, end and size consistent with that range.", "quantifier": "every boundary offset table and every patch index", "why_tests_cant": "all patch layouts including empty patches", "anchors": ["include/NeoFOAM/mesh/unstructured/boundaryMesh.hpp", "src/mesh/unstructured/boundaryMesh.cpp: extractSubSpan", "include/NeoFOAM/fields/boundaryFields.hpp: range", "include/NeoFOAM/finiteVolume/cellCentred/boundary/boundaryPatchMixin.hpp: patchStart/patchEnd/patchSize/range"]}
{"id": "C13", "title": "create1DUniformMesh builds a valid mesh for every number of cells", "statement": "For every nCells >= 1 the created mesh has nCells cells, nCells-1 internal and 2 boundary faces, every owner/neighbour/face-cell index is below nCells, owner < neighbour, cell volumes are positive and sum to one, each cell is closed (its outward face area vectors sum to zero) and cell centres increase by the spacing. The arrays of its boundary mesh repeat what the face and cell arrays say: centres, area vectors and sizes of the faces, unit normals, centres of the adjacent cells, distance vectors and inverse distances.", "quantifier": "every nCells", "why_tests_cant": "unbounded nCells", "anchors": ["src/mesh/unstructured/unstructuredMesh.cpp: create1DUniformMesh, createSingleCellMesh"]}
{"id": "C14", "title": "The sparsity pattern stores each matrix entry of a mesh exactly once, on every schedule", "statement": "For every mesh with valid connectivity and every interleaving of the parallel update, the pattern has nCells rows and nCells+2*nInternalFaces entries; row c holds column c and, once per internal face, the cell across that face; the diagonal, owner and neighbour slot offsets of every cell and face address the entries (c,c), (owner,neighbour) and (neighbour,owner), and distinct cells/faces address distinct entries.", "quantifier": "every mesh (unbounded cells, faces, faces per cell) and every interleaving of the parallel loops", "why_tests_cant": "schedules are non-deterministic and the number of faces per cell is unbounded (offsets are stored in 8 bits)", "anchors": ["include/NeoFOAM/finiteVolume/cellCentred/linearAlgebra/sparsityPattern.hpp", "src/finiteVolume/cellCentred/linearAlgebra/sparsityPattern.cpp: SparsityPattern::update"]}
{"id": "C15", "title": "CSR entry lookup finds exactly the stored entries", "statement": "entry(i,j) of a matrix view gives access to the stored coefficient in row i, column j whenever there is one, and stops the program when there is none; writes through it change that coefficient only.", "quantifier": "every CSR matrix, every row and column", "why_tests_cant": "all row contents and orders; reachable patterns depend on face order and schedule", "anchors": ["include/NeoFOAM/linearAlgebra/CSRMatrix.hpp: CSRMatrixView::entry"]}
{"id": "C16", "title": "spmv and the & operator compute the residual A x - b", "statement": "For a linear system with valid row pointers and column indices, spmv(ls,x) and (expression & psi) return at each row the sum over the stored entries of that row of value times x at the entry's column, minus the right hand side entry; x and the system are unchanged; out of range columns are not read.", "quantifier": "every well formed CSR system and vector", "why_tests_cant": "all sizes and sparsity structures", "anchors": ["include/NeoFOAM/linearAlgebra/linearSystem.hpp: spmv, reset, createEmptyLinearSystem", "include/NeoFOAM/finiteVolume/cellCentred/dsl/expression.hpp: operator&"]}
{"id": "C17", "title": "The cell-to-face stencil lists every face of a cell exactly once, on every schedule", "statement": "For every mesh with valid connectivity and every interleaving, the segment of cell c contains each internal face that has c as owner or neighbour and each boundary face attached to c, each exactly once, and nothing else.", "quantifier": "every mesh and every interleaving", "why_tests_cant": "atomics make the order schedule dependent; sizes unbounded", "anchors": ["src/finiteVolume/cellCentred/stencil/cellToFaceStencil.cpp: CellToFaceStencil::computeStencil"]}
{"id": "C18", "title": "Explicit divergence is the discrete Gauss sum and is globally conservative, on every schedule", "statement": "The explicit divergence (and the surface integral) of a flux in cell c equals scale/V_c times the sum of face fluxes leaving c minus those entering c, on every executor and interleaving; summing V_c times it over all cells (unit scale) gives exactly the total flux through the boundary faces, the internal faces cancelling.", "quantifier": "every valid mesh, flux and face value, every executor and interleaving (exact arithmetic)", "why_tests_cant": "all meshes and all schedules", "anchors": ["src/finiteVolume/cellCentred/operators/gaussGreenDiv.cpp: computeDiv, computeDivExp", "src/finiteVolume/cellCentred/operators/surfaceIntegrate.cpp: surfaceIntegrate"]}
{"id": "C19", "title": "Implicit and explicit upwind divergence agree", "statement": "For every valid mesh, flux, field and scaling, the assembled implicit divergence system satisfies (A x - b)_c = V_c times the explicit upwind divergence of x in c with the boundary values the boundary conditions prescribe; assembling on top of a non-empty system adds exactly that.", "quantifier": "every valid mesh, flux, field, boundary condition data, scaling, and every previous content of the system", "why_tests_cant": "an identity between two separately coded algorithms over all meshes and values", "anchors": ["src/finiteVolume/cellCentred/operators/gaussGreenDiv.cpp: computeDivImp, computeDivExp", "src/finiteVolume/cellCentred/interpolation/upwind.cpp", "include/NeoFOAM/finiteVolume/cellCentred/boundary/volume/*.hpp"]}
{"id": "C20", "title": "Implicit and explicit Laplacian agree", "statement": "For every valid mesh, diffusivity, field and scaling, the assembled implicit Laplacian satisfies (A x - b)_c = V_c times the explicit Laplacian of x in c (same diffusivity, same boundary conditions).", "quantifier": "every valid mesh, diffusivity, field, boundary data and scaling", "why_tests_cant": "identity between two separately coded algorithms over all meshes and values", "anchors": ["src/finiteVolume/cellCentred/operators/gaussGreenLaplacian.cpp: computeLaplacianExp, computeLaplacianImpl", "src/finiteVolume/cellCentred/faceNormalGradient/uncorrected.cpp"]}
{"id": "C21", "title": "The implicit Laplacian matrix is symmetric with zero row sums away from boundaries and M-matrix signs", "statement": "On every valid mesh the assembled Laplacian has equal coefficients at (i,j) and (j,i), each row's sum equals minus the boundary coefficients of that cell, and for non-negative diffusivity the off-diagonal coefficients are non-negative and the diagonal ones non-positive.", "quantifier": "every valid mesh, non-negative diffusivity and boundary data", "why_tests_cant": "structural property of all assembled matrices", "anchors": ["src/finiteVolume/cellCentred/operators/gaussGreenLaplacian.cpp: computeLaplacianImpl"]}
{"id": "C22", "title": "Matrix assembly is independent of the schedule", "statement": "Assembling the implicit operators with a parallel executor gives, on every interleaving of the threads' memory accesses, the same matrix and right hand side as the serial executor.", "quantifier": "every mesh, every interleaving of loads, stores and atomic updates", "why_tests_cant": "races show up only on rare interleavings", "anchors": ["src/finiteVolume/cellCentred/operators/gaussGreenDiv.cpp: computeDivImp", "src/finiteVolume/cellCentred/operators/gaussGreenLaplacian.cpp: computeLaplacianImpl", "include/NeoFOAM/core/parallelAlgorithms.hpp: parallelFor"]}
{"id": "C23", "title": "Time derivative terms respect the old value, the time step and the coefficient", "statement": "The implicit ddt term adds exactly s V_c/dt to each diagonal and s V_c/dt * old_c to the right hand side, so (A x - b)_c increases by s V_c (x_c - old_c)/dt and vanishes at x = old; the explicit ddt term adds s (x_c - old_c)/dt (per volume) with the same coefficient s.", "quantifier": "every mesh, field, old field, dt != 0, coefficient", "why_tests_cant": "all values and coefficients", "anchors": ["src/finiteVolume/cellCentred/operators/ddtOperator.cpp: DdtOperator::explicitOperation/implicitOperation"]}
{"id": "C24", "title": "Source terms: implicit and explicit forms agree", "statement": "The implicit source term adds V_c times the explicit source term evaluated at x to (A x - b)_c, for every coefficient and scaling, and touches only diagonals.", "quantifier": "every mesh, coefficient field, field, scaling", "why_tests_cant": "all values", "anchors": ["src/finiteVolume/cellCentred/operators/sourceTerm.cpp: SourceTerm::explicitOperation/implicitOperation"]}
{"id": "C25", "title": "Gauss-Green gradient is exact for constants and does not depend on the output's previous contents", "statement": "On a mesh of closed cells the gradient of a constant field (with matching boundary values and interpolation weights) is zero in every cell, the gradient is linear in the field, and the result depends only on the input field.", "quantifier": "every closed mesh and constant, every previous content of the output field", "why_tests_cant": "all meshes", "anchors": ["src/finiteVolume/cellCentred/operators/gaussGreenGrad.cpp: computeGrad, GaussGreenGrad::grad"]}
{"id": "C26", "title": "Cell-to-face interpolation is bounded by the two adjacent cell values", "statement": "With weights in [0,1] the linear scheme gives at every internal face a value between the owner's and neighbour's and reproduces constants; the upwind scheme gives the owner's value for non-negative flux and the neighbour's otherwise; boundary faces take weight times the boundary value; every surface value is written exactly once on every schedule.", "quantifier": "every mesh, field, weights and flux, every schedule", "why_tests_cant": "all values", "anchors": ["src/finiteVolume/cellCentred/interpolation/linear.cpp", "src/finiteVolume/cellCentred/interpolation/upwind.cpp"]}
{"id": "C27", "title": "Geometric weights and delta coefficients are in their admissible ranges", "statement": "The geometry scheme yields interpolation weights in [0,1] for every mesh geometry (1 on boundary faces), positive delta coefficients equal to the inverse centre distance, and non-orthogonal coefficients bounded by 20 over the distance.", "quantifier": "every mesh geometry", "why_tests_cant": "degenerate and skewed geometries are not enumerable", "anchors": ["src/finiteVolume/cellCentred/stencil/basicGeometryScheme.cpp: updateWeights/updateDeltaCoeffs/updateNonOrthDeltaCoeffs"]}
{"id": "C28", "title": "Boundary conditions write their own patch only and prescribe the documented values", "statement": "correctBoundaryConditions sets, for every patch, the boundary value prescribed by its condition (fixed value; adjacent cell value plus gradient times distance; adjacent cell value), leaves every other patch and the internal field unchanged, and applying it twice equals applying it once.", "quantifier": "every mesh, patch layout, list of conditions and field contents", "why_tests_cant": "all patch layouts and histories", "anchors": ["include/NeoFOAM/finiteVolume/cellCentred/boundary/volume/fixedValue.hpp, fixedGradient.hpp, extrapolated.hpp, empty.hpp, calculated.hpp", "include/NeoFOAM/finiteVolume/cellCentred/fields/volumeField.hpp: correctBoundaryConditions", "include/NeoFOAM/finiteVolume/cellCentred/boundary/surface/fixedValue.hpp"]}
{"id": "C29", "title": "The Courant number is the maximum over cells of the summed flux magnitude", "statement": "computeCoNum returns 0.5*dt times the maximum over cells of (sum of |flux| over the faces of the cell)/V, on every schedule; it is non-negative for dt >= 0 and scales linearly with dt.", "quantifier": "every mesh with at least one cell and positive volumes, every flux, dt, executor and schedule", "why_tests_cant": "all meshes and schedules", "anchors": ["src/finiteVolume/cellCentred/auxiliary/coNum.cpp: computeCoNum"]}
{"id": "C30", "title": "Coefficient products evaluate pointwise", "statement": "For every chain of multiplications of scalar and field coefficients with at most one field, the resulting coefficient evaluates at every index to the product of the factors at that index; multiplying two field coefficients stops the program.", "quantifier": "every sequence of coefficient multiplications, every index", "why_tests_cant": "all chains", "anchors": ["include/NeoFOAM/dsl/coeff.hpp", "src/dsl/coeff.cpp: Coeff::operator*=, detail::toField"]}
{"id": "C31", "title": "Expression algebra is linear in its terms", "statement": "Building an expression with +, - and scalar * gives, for every composition, an expression whose explicit evaluation and implicit assembly are the corresponding signed, scaled sums of those of its terms, with size the number of terms; composing does not change the operands.", "quantifier": "every expression tree built from operators with +, - and scalar *", "why_tests_cant": "all compositions", "anchors": ["include/NeoFOAM/dsl/expression.hpp: Expression, operator+/-/*", "include/NeoFOAM/dsl/spatialOperator.hpp", "include/NeoFOAM/dsl/temporalOperator.hpp"]}
{"id": "C32", "title": "solve of a steady expression returns a field with zero total residual", "statement": "If the linear solver returns an exact solution of the system it is given, then after solve of an expression without temporal terms, in every cell the sum of the implicit residual contributions and V_c times the explicit contributions is zero.", "quantifier": "every expression of implicit and explicit spatial terms, every mesh", "why_tests_cant": "all expressions", "anchors": ["include/NeoFOAM/dsl/solver.hpp: solve", "include/NeoFOAM/dsl/expression.hpp"]}
{"id": "C33", "title": "backwardEuler advances the full equation", "statement": "If the linear solver is exact, after a backwardEuler step the solution satisfies the implicit equation including every explicit and implicit spatial term of the expression, and the old-time field equals the new solution.", "quantifier": "every expression, mesh and time step", "why_tests_cant": "all expressions", "anchors": ["include/NeoFOAM/timeIntegration/backwardEuler.hpp: BackwardEuler::solve", "include/NeoFOAM/dsl/solver.hpp: solve"]}
{"id": "C34", "title": "forwardEuler advances u by -dt times the explicit terms, over any number of steps", "statement": "For an expression ddt(u)+f(u), n calls of solve with forwardEuler yield the n-th iterate of u - dt*f(u), boundary conditions corrected after each step, and the old-time field equals the current one after each step; the coefficient of ddt is honoured.", "quantifier": "every number of steps, time step, explicit expression and initial field", "why_tests_cant": "unbounded step counts", "anchors": ["include/NeoFOAM/timeIntegration/forwardEuler.hpp: ForwardEuler::solve", "include/NeoFOAM/core/database/oldTimeCollection.hpp: oldTime"]}
{"id": "C35", "title": "setReference pins the level without changing the equation at the reference value", "statement": "setReference(c,v) changes only row c: it adds (diagonal of c)*(x_c - v) to the residual, so any x with x_c = v has the same residual as before, and matrix entries off the diagonal are unchanged.", "quantifier": "every system, cell and value", "why_tests_cant": "all systems", "anchors": ["include/NeoFOAM/finiteVolume/cellCentred/dsl/expression.hpp: Expression::setReference"]}
{"id": "C36", "title": "Runtime selection creates the type last registered under a name and stops on unknown names", "statement": "After any sequence of registrations create(name,args) calls the constructor of the last class registered under that name with those args, stops the program when no class has that name, entries() lists exactly the registered names and documentation exists for exactly these names.", "quantifier": "every registration history and name", "why_tests_cant": "static initialisation order is arbitrary", "anchors": ["include/NeoFOAM/core/runtimeSelectionFactory.hpp: RuntimeSelectionFactory::create/entries/keyExistsOrError, Register::addSubType"]}
{"id": "C37", "title": "Communication tags are valid and distinct names do not share a tag", "statement": "For every name the communication tag lies within the range every MPI implementation must support and avoids the reserved low tags; different names get different tags.", "quantifier": "every name", "why_tests_cant": "all strings", "anchors": ["include/NeoFOAM/core/mpi/halfDuplexCommBuffer.hpp: bufferHash"]}
{"id": "C38", "title": "Communication buffers give every rank a disjoint slice of the right size", "statement": "After any sequence of sizing and initialisation with element types of any sizes, the buffer views of the ranks are pairwise disjoint, contiguous, in rank order, inside the allocated buffer and each has the number of elements requested for that rank.", "quantifier": "every rank count, size table and sequence of element types", "why_tests_cant": "all type switch histories", "anchors": ["include/NeoFOAM/core/mpi/halfDuplexCommBuffer.hpp: setCommRankSize/initComm/setType/updateDataSize/get", "src/core/mpi/halfDuplexCommBuffer.cpp"]}
{"id": "C39", "title": "Halo exchange delivers the mapped values under any number of open exchanges", "statement": "startComm/finaliseComm on all ranks overwrite exactly the receive-mapped positions with the sender's mapped values; any number of differently named exchanges may be open at the same time without affecting each other.", "quantifier": "every rank count, send/receive map, message delivery order, and history of start/finalise calls", "why_tests_cant": "message orders and open-exchange histories are unbounded", "anchors": ["include/NeoFOAM/mesh/unstructured/communicator.hpp: Communicator::startComm/isComplete/finaliseComm", "src/mesh/unstructured/communicator.cpp"]}
{"id": "C40", "title": "Debug views report every out-of-bounds access", "statement": "In debug builds an access outside a view is either aborted or reported with its index through the failure index, and in-range accesses never report.", "quantifier": "every view size and access sequence", "why_tests_cant": "all access sequences, including on empty views", "anchors": ["include/NeoFOAM/core/view.hpp: View::operator[]"]}
{"id": "C41", "title": "Cached stencil objects are created once and shared", "statement": "Whatever the order of readOrCreate calls for a mesh, the first call creates the object and every later call returns the same one, objects of different kinds do not interfere.", "quantifier": "every call history", "why_tests_cant": "all histories", "anchors": ["src/finiteVolume/cellCentred/stencil/geometryScheme.cpp: GeometryScheme::readOrCreate", "src/finiteVolume/cellCentred/linearAlgebra/sparsityPattern.cpp: SparsityPattern::readOrCreate", "include/NeoFOAM/finiteVolume/cellCentred/stencil/stencilDataBase.hpp"]}
{"id": "C42", "title": "Explicit upwind transport with Courant number at most one stays within its initial bounds", "statement": "For a divergence-free flux, if computeCoNum returns at most 1 then a forwardEuler step of ddt(u)+div(flux,u) with upwind interpolation yields in every cell a value between the minimum and maximum of the previous cell and inflow boundary values; by induction this holds for any number of steps.", "quantifier": "every mesh, divergence-free flux, field, time step and number of steps", "why_tests_cant": "stability over unboundedly many steps and all meshes", "anchors": ["src/finiteVolume/cellCentred/auxiliary/coNum.cpp", "src/finiteVolume/cellCentred/operators/gaussGreenDiv.cpp: computeDivExp", "src/finiteVolume/cellCentred/interpolation/upwind.cpp", "include/NeoFOAM/timeIntegration/forwardEuler.hpp"]}
{"id": "C43", "title": "Explicit transport conserves the total amount up to boundary fluxes over any number of steps", "statement": "After n forwardEuler steps of ddt(u)+div(flux,u) the volume-weighted sum of u equals its initial value minus dt times the sum over the steps of the boundary fluxes.", "quantifier": "every mesh, flux, interpolation scheme and number of steps", "why_tests_cant": "unbounded step counts", "anchors": ["src/finiteVolume/cellCentred/operators/gaussGreenDiv.cpp", "include/NeoFOAM/timeIntegration/forwardEuler.hpp"]}
{"id": "C44", "title": "Explicit operators add to their target and do not disturb its previous contents", "statement": "explicitOperation of divergence, Laplacian, surface integral and source operators adds the operator's value to the source passed in, whatever it contained.", "quantifier": "every previous content of the source field", "why_tests_cant": "all contents; the low-level kernels scale in place", "anchors": ["include/NeoFOAM/finiteVolume/cellCentred/operators/divOperator.hpp, laplacianOperator.hpp, surfaceIntegrate.hpp", "src/finiteVolume/cellCentred/operators/sourceTerm.cpp", "src/finiteVolume/cellCentred/operators/gaussGreenDiv.cpp: computeDiv"]}
{"id": "C45", "title": "The linear solver settings come from the solution dictionary", "statement": "solve(exp, field, t, dt, fvSchemes, fvSolution) selects and configures the linear solver from fvSolution only, for steady and for implicit transient expressions: two calls with the same fvSolution use the same solver whatever fvSchemes says about solvers, and a solver named in fvSolution is used.", "quantifier": "every pair of dictionaries, every expression", "why_tests_cant": "tests pass one dictionary for both arguments or test the steady path only", "anchors": ["include/NeoFOAM/dsl/solver.hpp: solve", "include/NeoFOAM/timeIntegration/timeIntegration.hpp", "include/NeoFOAM/timeIntegration/backwardEuler.hpp", "include/NeoFOAM/linearAlgebra/solver.hpp"]}
{"id": "C46", "title": "Assembling an expression gives its full equation whatever the system held before", "statement": "assemble(t, dt) of a cell-centred expression leaves a system whose residual at any values x is, in every cell, the sum of the implicit spatial and temporal contributions plus the cell volume times the explicit spatial and temporal contributions; the result does not depend on the previous contents of the system, so assembling twice is the same as assembling once.", "quantifier": "every expression, mesh, time, time step, executor and previous system contents", "why_tests_cant": "all compositions, histories and schedules", "anchors": ["include/NeoFOAM/finiteVolume/cellCentred/dsl/expression.hpp: assemble(t, dt)"]}
{"id": "C47", "title": "Solving an assembled expression returns its solution", "statement": "solve(t, dt) of a cell-centred expression returns with the field holding a solution of the assembled system when the linear solver succeeds.", "quantifier": "every expression, dictionary and linear solver", "why_tests_cant": "whether any path returns is a statement about all inputs", "anchors": ["include/NeoFOAM/finiteVolume/cellCentred/dsl/expression.hpp: solve"]}
{"id": "C48", "title": "solve uses the discretisation schemes named in the scheme dictionary", "statement": "solve (and build) gives every divergence and Laplacian term of the expression the schemes listed under its own name in fvSchemes (divSchemes / laplacianSchemes): building succeeds exactly when each term's entry reads a registered operator name followed by registered scheme names; an unregistered name stops the program, a missing or mistyped entry throws; terms outside the expression are untouched; what an earlier solve selected does not influence a later one; the caller's dictionary is not consumed.", "quantifier": "every expression, scheme dictionary, sequence of solves, mesh, field and schedule", "why_tests_cant": "ranges over all dictionaries, expressions and histories of solves", "anchors": ["include/NeoFOAM/dsl/expression.hpp: build", "include/NeoFOAM/dsl/solver.hpp: solve", "include/NeoFOAM/finiteVolume/cellCentred/operators/divOperator.hpp: build, create", "include/NeoFOAM/finiteVolume/cellCentred/operators/laplacianOperator.hpp: build, create", "include/NeoFOAM/core/input.hpp: Input"]}
{"id": "C49", "title": "The implicit divergence uses the interpolation selected for it", "statement": "When the scheme dictionary names interpolation S for a divergence term, assembling the term implicitly adds to (A x - b)_c the scaled net outflow of flux times the S-interpolated face values of x.", "quantifier": "every mesh, flux, field, scaling, scheme and schedule", "why_tests_cant": "ranges over all meshes, fields and selections", "anchors": ["src/finiteVolume/cellCentred/operators/gaussGreenDiv.cpp: computeDivImp", "include/NeoFOAM/finiteVolume/cellCentred/operators/gaussGreenDiv.hpp: GaussGreenDiv::div"]}
{"id": "C50", "title": "The weights an interpolation reports are those it interpolates with", "statement": "weight(...) of an interpolation scheme writes, for every face, the weight w such that interpolate gives w times the owner's plus (1-w) times the neighbour's value (w times the boundary value on boundary faces), whatever the target held before.", "quantifier": "every scheme, mesh, field, flux and schedule", "why_tests_cant": "ranges over all meshes, fields and fluxes", "anchors": ["include/NeoFOAM/finiteVolume/cellCentred/interpolation/linear.hpp: weight", "include/NeoFOAM/finiteVolume/cellCentred/interpolation/upwind.hpp: weight"]}
{"id": "C51", "title": "Field storage is never freed twice, used after being freed, shared or leaked", "statement": "In every history of constructions, copies, moves, assignments, resizes, uses and destructions of any number of fields, no call touches or frees storage that is not allocated, two live fields never share storage, every non-empty field owns a block of exactly its size, and when all fields are destroyed nothing remains allocated. A view stays valid as long as its field is not resized, assigned a field of another size or destroyed.", "quantifier": "every history of calls, over any number of fields and sizes", "why_tests_cant": "memory safety is a statement about all histories; a test sees one", "anchors": ["include/NeoFOAM/fields/field.hpp: constructors, move constructor, destructor, operator=, resize", "include/NeoFOAM/core/executor/serialExecutor.hpp: alloc, realloc, free"]}
{"id": "C52", "title": "A copy made for an executor has the same contents and lives there", "statement": "copyToExecutor(e) / copyToHost of a matrix, copyToHost of a linear system and the boundary-field copy for an executor return objects with identical contents whose data, and whose reported executor, is the requested one; no internal consistency check stops the program.", "quantifier": "every matrix, linear system, boundary field and pair of source and target executors", "why_tests_cant": "all contents and executor pairs; most test machines have one executor kind", "anchors": ["include/NeoFOAM/linearAlgebra/CSRMatrix.hpp: copyToExecutor, copyToHost", "include/NeoFOAM/linearAlgebra/linearSystem.hpp: copyToHost", "include/NeoFOAM/fields/boundaryFields.hpp: BoundaryFields(exec, rhs)"]}
{"id": "C53", "title": "Converting a matrix for the linear solver keeps every entry", "statement": "convert returns a matrix that stores the same values at the same rows and columns as its argument, whatever the new memory held.", "quantifier": "every matrix, executor and schedule", "why_tests_cant": "ranges over all index values, including those beyond the target type, and all schedules", "anchors": ["include/NeoFOAM/linearAlgebra/CSRMatrix.hpp: convert", "include/NeoFOAM/linearAlgebra/utilities.hpp: createGkoMtx"]}
{"id": "C54", "title": "equal decides equality of fields", "statement": "equal(f, g) returns true exactly when f and g have the same size and the same elements, equal(f, v) exactly when all elements are v, independent of the executors the fields live on; neither reads outside the fields.", "quantifier": "every pair of fields, sizes and executors", "why_tests_cant": "all sizes and contents", "anchors": ["include/NeoFOAM/fields/fieldFreeFunctions.hpp: equal"]}
{"id": "C55", "title": "The Ginkgo solver receives every entry of its dictionary", "statement": "Translating a solver dictionary to a Ginkgo configuration gives, at every path of keys of any depth, exactly the dictionary's value (strings, integers, floating point numbers, nested dictionaries) and nothing else; it succeeds exactly when all entries have a supported type and throws a NeoFOAM exception otherwise.", "quantifier": "every dictionary, of any size and nesting depth", "why_tests_cant": "ranges over all nested dictionaries", "anchors": ["src/linearAlgebra/ginkgo.cpp: parse"]}
{"id": "C56", "title": "Runge-Kutta with the Forward-Euler table makes forward Euler's step", "statement": "For every expression, n calls of solve with the scheme Runge-Kutta and the method Forward-Euler give the same field as n calls with forwardEuler, including the boundary values; methods that are not offered stop the program; an integrator that is kept between steps uses the expression and field it is passed.", "quantifier": "every expression, mesh, boundary condition, initial field, number of steps and time step, executor and schedule", "why_tests_cant": "all expressions, step counts and boundary conditions", "anchors": ["src/timeIntegration/rungeKutta.cpp: RungeKutta::solve", "include/NeoFOAM/timeIntegration/sundials.hpp: explicitRKSolve, stringToERKTable"]}
{"id": "C57", "title": "The PETSc solver is given the system it is to solve", "statement": "For every linear system with valid matrix storage, the matrix and right hand side PETSc receives have the system's coefficients at the same rows and columns, so that an exact PETSc solve returns a solution of the system.", "quantifier": "every size, sparsity pattern and coefficients", "why_tests_cant": "ranges over all matrices; the existing test asserts the solution of the transposed system", "anchors": ["include/NeoFOAM/linearAlgebra/petscSolverContext.hpp: initialize", "include/NeoFOAM/linearAlgebra/petsc.hpp: petscSolver::solve"]}
{"id": "C58", "title": "Queries of a collection give every document once, by an id that leads to it", "statement": "After every history of insertions and changes, find(predicate) lists exactly the ids of the documents that satisfy the predicate, each once, and doc(id) gives that document; sortedKeys lists the ids doc accepts, each once, in ascending order, whatever order the map is iterated in.", "quantifier": "every history of insertions and changes through doc(id), every predicate, every iteration order of the map", "why_tests_cant": "ranges over histories and over the unspecified iteration order of unordered_map", "anchors": ["include/NeoFOAM/core/database/collection.hpp: CollectionMixin::find, sortedKeys, doc", "include/NeoFOAM/core/database/fieldCollection.hpp"]}
{"id": "C59", "title": "Vector arithmetic is that of a three-dimensional Euclidean space", "statement": "Construction, component access, comparison, addition, subtraction, scaling and inner product of Vector act component by component, satisfy the vector space and inner product laws, mag is the norm (zero only at zero, homogeneous, triangle and Cauchy-Schwarz inequalities), and v *= s scales every component by the value s has when the operation is called.", "quantifier": "every triple of components, every scalar, including references to a component of the vector", "why_tests_cant": "algebraic laws for all values and for aliased arguments", "anchors": ["include/NeoFOAM/core/primitives/vector.hpp: Vector, operator*=, operator&, mag"]}
{"id": "C60", "title": "Implicit transport and diffusion stays within its bounds for every time step", "statement": "With a divergence-free flux, non-negative diffusivity, zero gradient where the flow leaves and values within [lo, hi] where it enters, n calls of solve on ddt(u) + div(flux, u) - laplacian(gamma, u) with backwardEuler have exactly one result, and all cell values stay in [lo, hi], however large the time steps.", "quantifier": "every mesh, flux, diffusivity, initial field, boundary conditions, positive time steps and number of steps, every linear solver that solves solvable systems", "why_tests_cant": "ranges over all meshes, fluxes, time steps and step counts", "anchors": ["include/NeoFOAM/dsl/solver.hpp: solve", "include/NeoFOAM/timeIntegration/backwardEuler.hpp: BackwardEuler::solve", "src/finiteVolume/cellCentred/operators/gaussGreenDiv.cpp: computeDivImp", "src/finiteVolume/cellCentred/operators/gaussGreenLaplacian.cpp: computeLaplacianImpl", "include/NeoFOAM/finiteVolume/cellCentred/boundary/volume/extrapolated.hpp"]}
{"id": "C61", "title": "Implicit transport and diffusion conserves the total amount up to boundary fluxes", "statement": "Whenever n calls of solve on ddt(u) + div(flux, u) - laplacian(gamma, u) with backwardEuler and an exact linear solver return, the volume integral of u has changed by minus the sum over the steps of dt times the convective and diffusive flux through the boundary faces; in a closed box with zero gradient it is unchanged.", "quantifier": "every mesh, flux, diffusivity, boundary data, initial field, time steps and number of steps", "why_tests_cant": "ranges over all meshes, fluxes and step counts", "anchors": ["include/NeoFOAM/dsl/solver.hpp: solve", "include/NeoFOAM/timeIntegration/backwardEuler.hpp: BackwardEuler::solve", "src/finiteVolume/cellCentred/operators/gaussGreenDiv.cpp", "src/finiteVolume/cellCentred/operators/gaussGreenLaplacian.cpp"]}
{"id": "C62", "title": "Implicit transport and diffusion does not increase the sum of squares", "statement": "With a divergence-free flux, non-negative diffusivity, zero gradient where the flow leaves and the value zero elsewhere on the boundary, the volume-weighted sum of squares of u never grows under backwardEuler steps, however large the time steps.", "quantifier": "every mesh, flux, diffusivity, initial field, positive time steps and number of steps", "why_tests_cant": "ranges over all meshes, fluxes, time steps and step counts", "anchors": ["include/NeoFOAM/dsl/solver.hpp: solve", "include/NeoFOAM/timeIntegration/backwardEuler.hpp: BackwardEuler::solve", "src/finiteVolume/cellCentred/operators/gaussGreenDiv.cpp", "src/finiteVolume/cellCentred/operators/gaussGreenLaplacian.cpp"]}
{"id": "C63", "title": "Steady transport and diffusion has exactly one solution, between the boundary values", "statement": "On the serial executor (and on any executor on lines of cells), for meshes with at most 255 internal faces per cell and no face of zero distance between its cells, if the flux is divergence-free, the diffusivity non-negative, boundaries are zero-gradient or prescribed values (not swept away by the outflow), and a prescribed value reaches every cell by diffusion or with the flow, then dsl::solve of div(flux,u) - laplacian(gamma,u) with a solver that solves solvable systems has exactly one outcome, whatever the initial field, and all cell values lie between the smallest and largest prescribed value.", "quantifier": "every mesh, flux, diffusivity, boundary data, initial field and linear solver", "why_tests_cant": "uniqueness and the maximum principle range over all meshes and data; a test solves one system", "anchors": ["include/NeoFOAM/dsl/solver.hpp: solve", "include/NeoFOAM/finiteVolume/cellCentred/dsl/expression.hpp", "src/finiteVolume/cellCentred/operators/gaussGreenDiv.cpp", "src/finiteVolume/cellCentred/operators/gaussGreenLaplacian.cpp"]}
{"id": "C64", "title": "On the uniform 1D mesh linear fields are reproduced exactly", "statement": "On every mesh from create1DUniformMesh, with the coefficients of the basic geometry scheme: linear interpolation, the Gauss-Green gradient and the face-normal gradient of a linear field are exact in every cell and face on every executor; and dsl::solve of laplacian(gamma,u) on the serial executor with uniform gamma and two fixed end values returns exactly the linear profile at the cell centres.", "quantifier": "every number of cells from one on, all slopes, end values, diffusivities, initial fields, executors (for the explicit operators) and schedules, and linear solvers", "why_tests_cant": "ranges over all mesh sizes and solvers; the chain mesh, geometry, sparsity, assembly, boundary treatment and solver must fit together for each", "anchors": ["src/mesh/unstructured/unstructuredMesh.cpp: create1DUniformMesh", "src/finiteVolume/cellCentred/stencil/basicGeometryScheme.cpp", "src/finiteVolume/cellCentred/operators/gaussGreenLaplacian.cpp", "src/finiteVolume/cellCentred/operators/gaussGreenGrad.cpp", "include/NeoFOAM/dsl/solver.hpp: solve"]}
{"id": "C65", "title": "The Ginkgo solver solves the system it is given", "statement": "For every square system in valid compressed row storage (fewer than 2^31 rows and coefficients) and every field with as many elements as rows, solve hands Ginkgo exactly the matrix, right hand side and, as initial guess, the field of the call, stores Ginkgo's answer in the field, and no freed or foreign memory is read; hence, with a Ginkgo that solves solvable systems, the field solves the system afterwards, and the results on implicit transport, diffusion and conduction hold with this solver. A field that is too short is rejected. Ginkgo runs on the memory the data of the call live in; a GPU executor of a build with neither CUDA nor HIP is refused with an exception.", "quantifier": "every system, field, executor, schedule, previous content of new index arrays, and behaviour of Ginkgo's apply", "why_tests_cant": "lifetime of the converted index arrays and of views of them is invisible to tests that happen to read freed but unchanged memory; the correspondence must hold for all matrices", "anchors": ["include/NeoFOAM/linearAlgebra/ginkgo.hpp: GinkgoSolver::solve", "include/NeoFOAM/linearAlgebra/utilities.hpp: createGkoMtx, createGkoDense, createGkoArray", "include/NeoFOAM/linearAlgebra/linearSystem.hpp", "include/NeoFOAM/linearAlgebra/CSRMatrix.hpp: copyToExecutor/convert", "src/linearAlgebra/utilities.cpp: getGkoExecutor"]}
{"id": "C66", "title": "A time integrator keeps the settings it was created with", "statement": "After TimeIntegration(schemeDict, solutionDict), whatever happens to dictionaries - changed or destroyed - between steps, each step is made with the settings of the construction.", "quantifier": "every history of dictionary changes, destructions and steps; every integrator, expression, mesh, executor", "why_tests_cant": "ranges over all interleavings of steps with changes of the dictionaries, including their destruction (a dangling reference usually still reads the old content)", "anchors": ["include/NeoFOAM/timeIntegration/timeIntegration.hpp: TimeIntegratorBase, TimeIntegration", "include/NeoFOAM/timeIntegration/forwardEuler.hpp", "include/NeoFOAM/timeIntegration/backwardEuler.hpp: solve", "src/timeIntegration/rungeKutta.cpp: solve, initODEMemory"]}
{"id": "C67", "title": "Copies and moved-to objects of time integrators and linear solvers work as their originals", "statement": "A copy of a TimeIntegration or of a la::Solver makes every later history of calls with the outcomes the original would have had; so does a moved-to object.", "quantifier": "every integrator and solver, every later history of steps and dictionary changes, every system", "why_tests_cant": "no finite set of calls settles behavioural equality over all histories; the null pointers and contexts show only when a copy is used", "anchors": ["include/NeoFOAM/timeIntegration/timeIntegration.hpp: TimeIntegration", "src/timeIntegration/rungeKutta.cpp: RungeKutta(const RungeKutta&)", "include/NeoFOAM/linearAlgebra/solver.hpp: Solver", "include/NeoFOAM/linearAlgebra/ginkgo.hpp: clone", "include/NeoFOAM/linearAlgebra/petsc.hpp: clone"]}
{"id": "C68", "title": "A segmented field is a vector of independent vectors", "statement": "A SegmentedField built from segment lengths holds one vector per length, of that length; span(i) is exactly vector i; storing through a span changes that element and nothing else, through any history of stores, and a kernel whose thread i fills span(i) gives the same result on every executor and schedule.", "quantifier": "every list of lengths, every segmented field that represents a nested list, every index, every history of stores, every executor and interleaving", "why_tests_cant": "the offsets wrap at 2^32, races depend on the schedule, and independence of segments must hold for all length lists and store histories", "anchors": ["include/NeoFOAM/fields/segmentedField.hpp: SegmentedField, SegmentedFieldView::range, span, numSegments"]}
{"id": "C69", "title": "Diffusion matrices are symmetric, semidefinite, and definite exactly when a prescribed value reaches every cell", "statement": "The matrix assembled by imp::laplacian with non-negative diffusivities is symmetric and negative semidefinite. It is negative definite, and its system has exactly one solution for every right hand side, exactly when every cell is connected, through faces with a positive coefficient, to a boundary face with a prescribed value.", "quantifier": "every mesh, diffusivity, boundary condition data, uniform scaling, right hand side; every executor and schedule on meshes without two boundary faces per cell (any mesh on the serial executor)", "why_tests_cant": "definiteness quantifies over all vectors and all meshes; a conjugate-gradient solver relies on it", "anchors": ["src/finiteVolume/cellCentred/operators/gaussGreenLaplacian.cpp: computeLaplacianImp", "include/NeoFOAM/linearAlgebra/ginkgo.hpp: solve"]}
{"id": "C70", "title": "A reference value makes the diffusion equation of an enclosed domain solvable", "statement": "Without prescribed boundary values, on a connected mesh of at least two cells: after setReference(r, v) the Laplacian system has exactly one solution for every right hand side b, with value v + sum(b)/a_rr in cell r; the original system is solvable exactly when b adds up to zero, and then the referenced solution is its solution with value v in r.", "quantifier": "every connected mesh with at least two cells, diffusivity, reference cell and value, right hand side, executor", "why_tests_cant": "solvability and uniqueness for all right hand sides and meshes cannot be tested; a wrong scaling of the reference row shows only as a shifted or singular solution", "anchors": ["include/NeoFOAM/finiteVolume/cellCentred/dsl/expression.hpp: setReference", "src/finiteVolume/cellCentred/operators/gaussGreenLaplacian.cpp: computeLaplacianImp"]}
{"id": "C71", "title": "A time step starts from the field's current values", "statement": "Whatever the user stores in the solution field between two calls of solve (clipping, coupling, correcting, re-initialising it), the next time step advances the field from the values it holds when solve is called, with each of the integrators.", "quantifier": "every mesh, field, boundary condition, expression, time step, executor, and every change of the field between two steps", "why_tests_cant": "The tests only step fields nobody else writes to, where the recorded old-time field and the field are the same; the claim is about all changes between all steps.", "anchors": ["include/NeoFOAM/timeIntegration/forwardEuler.hpp: solve", "include/NeoFOAM/timeIntegration/backwardEuler.hpp: solve", "src/timeIntegration/rungeKutta.cpp: solve", "include/NeoFOAM/core/database/oldTimeCollection.hpp: oldTime", "src/finiteVolume/cellCentred/operators/ddtOperator.cpp"]}
{"id": "C72", "title": "Results do not depend on how the mesh is numbered or oriented", "statement": "Renumbering the cells, the internal faces and the boundary faces of a mesh and turning any of its internal faces round (owner and neighbour swapped, flux and area vector negated) changes nothing but the numbers: interpolation weights and delta coefficients, explicit divergence, Laplacian, gradient and surface integral, the Courant number, the boundary conditions, the equations the implicit operators assemble, and any number of explicit transport steps give the same values in corresponding cells and faces, on any executors.", "quantifier": "every valid mesh, every permutation of its cells, internal and boundary faces, every set of turned faces, every field, flux, coefficient, boundary conditions, executor, number of steps", "why_tests_cant": "The number of permutations and orientations is factorial and exponential in the size of the mesh, which is itself unbounded; the tests use one numbering.", "anchors": ["src/finiteVolume/cellCentred/operators/gaussGreenDiv.cpp", "src/finiteVolume/cellCentred/operators/gaussGreenGrad.cpp", "include/NeoFOAM/finiteVolume/cellCentred/operators/gaussGreenLaplacian.hpp", "src/finiteVolume/cellCentred/stencil/basicGeometryScheme.cpp", "src/finiteVolume/cellCentred/auxiliary/coNum.cpp", "src/finiteVolume/cellCentred/interpolation/upwind.cpp"]}
{"id": "C73", "title": "Explicit operators are linear in the field, and explicit solutions superpose", "statement": "For every mesh, if a field is a*first + b*second in its cells and on its boundary, then the explicit divergence (linear or upwind), Laplacian and source of it are a*first + b*second of the two results, in every cell, on whatever executors the three calculations ran and whatever memory the temporaries started with; the surface integral is linear in the face field in the same way. With linear interpolation the divergence is also linear in the flux; with upwind interpolation it is homogeneous for non-negative factors. Where the field is one, div(flux,u) is div(flux). Hence if the initial fields and the boundary conditions of three runs of ddt(u) + div(flux,u) with forwardEuler superpose, then so do the solutions, in all cells and boundary faces, after any number of steps of any sizes.", "quantifier": "all meshes, fields, fluxes, weights, coefficients, factors a and b, executors, numbers of steps and time steps", "why_tests_cant": "A test compares one pair of fields; superposition is a statement about all fields, meshes and step counts at once.", "anchors": ["src/finiteVolume/cellCentred/operators/gaussGreenDiv.cpp", "src/finiteVolume/cellCentred/operators/gaussGreenLaplacian.cpp", "src/finiteVolume/cellCentred/operators/surfaceIntegrate.cpp", "include/NeoFOAM/timeIntegration/forwardEuler.hpp"]}
{"id": "C74", "title": "Explicit transport with diffusion stays within bounds for small time steps", "statement": "For every mesh with positive volumes and distinct centres, divergence-free flux, non-negative diffusion coefficient k, and bounds lo, hi: if the initial field is within the bounds in the cells and on the boundary, the boundary conditions are zero gradient where the flow leaves and zero gradient or a fixed value within the bounds elsewhere, and in each cell dt*(half the sum of |flux| + k*sum of |S|*deltaCoeff) is at most the volume, then every dsl::solve of ddt(u) + div(flux,u) - k*laplacian(u) with forwardEuler and upwind interpolation returns, and all cell and boundary values stay within the bounds, after any number of steps, on every executor and interleaving.", "quantifier": "all meshes, fluxes, diffusion coefficients, boundary conditions of the kinds named, initial fields, bounds, sequences of time steps, numbers of steps, executors and schedules", "why_tests_cant": "A test shows one mesh and one time step size; the bound is a statement for every number of steps on every mesh.", "anchors": ["include/NeoFOAM/timeIntegration/forwardEuler.hpp", "include/NeoFOAM/dsl/solver.hpp:solve", "src/finiteVolume/cellCentred/operators/gaussGreenLaplacian.cpp", "src/finiteVolume/cellCentred/operators/gaussGreenDiv.cpp", "src/finiteVolume/cellCentred/stencil/basicGeometryScheme.cpp"]}
{"id": "C75", "title": "Explicit transport with diffusion conserves, and exactly the balanced fields are steady", "statement": "For every mesh, flux, diffusion coefficient, boundary conditions, initial field and sequence of time steps, on every executor: after n steps of ddt(u) + div(flux,u) - k*laplacian(u) with forwardEuler the volume integral of u is the initial one minus the sum over the steps of dt times what leaves through the boundary faces by transport and diffusion. If the boundary values are those the conditions prescribe, then all steps leave every cell and boundary value unchanged if and only if in each cell what leaves equals what enters.", "quantifier": "all meshes, fluxes, coefficients, boundary conditions, initial fields, time steps, numbers of steps, executors and schedules", "why_tests_cant": "Conservation and the characterisation of steady states are statements about all fields and all numbers of steps.", "anchors": ["include/NeoFOAM/timeIntegration/forwardEuler.hpp", "include/NeoFOAM/dsl/solver.hpp:solve", "src/finiteVolume/cellCentred/operators/gaussGreenLaplacian.cpp", "src/finiteVolume/cellCentred/operators/gaussGreenDiv.cpp"]}
{"id": "C76", "title": "solve solves the equation as it is written with the exp:: and imp:: functions", "statement": "For every list of calls of exp::div, exp::source, imp::ddt, imp::source, imp::div and imp::laplacian and every composition of the returned terms with +, - and multiples: when solve returns (with a linear solver that returns solutions), in every cell the signed, scaled sum of all terms is zero, with implicit terms at the new values and explicit terms at the old ones; the same for a forwardEuler step and for a backwardEuler step.", "quantifier": "all meshes, lists of terms, compositions, fluxes, coefficients, fields, time steps", "why_tests_cant": "A test solves one equation; which terms take part in the solved equation must be right for every combination of explicit and implicit terms.", "anchors": ["include/NeoFOAM/dsl/explicit.hpp", "src/dsl/explicit.cpp", "include/NeoFOAM/dsl/implicit.hpp", "include/NeoFOAM/dsl/solver.hpp:solve", "include/NeoFOAM/timeIntegration/backwardEuler.hpp", "include/NeoFOAM/timeIntegration/forwardEuler.hpp"]}
{"id": "C77", "title": "Reductions over all ranks", "statement": "When every rank of a communicator calls allReduce with the same operation, every rank afterwards holds the same value, and it is the reduction of the values of all ranks: the largest, the smallest, the sum, the product, the conjunction or the disjunction, whatever the order in which the MPI library combines the values. For a Vector each component is reduced by itself. The operation and the datatype handed to MPI match the C++ arguments, so no other result is possible. Types that are not supported, and operations that are not defined for the type (characters, bitwise operations on floating-point numbers, Maxloc and Minloc of plain values), stop the program instead of returning a value. MPIEnvironment gives every process its own rank below the number of ranks.", "quantifier": "every supported C++ type and operation, number of ranks, values on the ranks, and order and grouping in which MPI combines them", "why_tests_cant": "tests run with a few ranks and one MPI library; the order of combination is chosen by the library and differs between runs", "anchors": ["include/NeoFOAM/core/mpi/operators.hpp: ReduceOp, getOp, getType, allReduce", "include/NeoFOAM/core/mpi/environment.hpp: MPIEnvironment"]}
{"id": "C78", "title": "Vector fields are treated component by component", "statement": "Working with a Vector field is the same as working with its three components as scalar fields. For any expression of divergence, Laplacian, source, surface-integral and time-derivative terms, scaled and combined in any way: the explicit source of the i-th components is the i-th component of the explicit source, the assembled coefficients and right hand side of the i-th components are the i-th components of the assembled vector system, boundary conditions, interpolation and face-normal gradients act on each component alone, and any number of explicit Euler steps of the vector field gives for each component what the steps of that component alone give. The two programs can fail only together and in the same way.", "quantifier": "every mesh, field, flux, coefficient, expression, boundary condition, number of steps, executor and thread schedule, component", "why_tests_cant": "tests compare one field on one mesh per operator; component mixing can depend on the data, on the combination of terms and on the schedule", "anchors": ["src/finiteVolume/cellCentred/operators/gaussGreenDiv.cpp: computeDivImp, computeDivExp", "src/finiteVolume/cellCentred/operators/gaussGreenLaplacian.cpp: computeLaplacianImpl, computeLaplacianExp", "src/finiteVolume/cellCentred/operators/ddtOperator.cpp", "src/finiteVolume/cellCentred/operators/sourceTerm.cpp", "include/NeoFOAM/core/primitives/vector.hpp: one<Vector>", "include/NeoFOAM/timeIntegration/forwardEuler.hpp: solve"]}
{"id": "C79", "title": "Results do not depend on where the mesh lies in space", "statement": "Moving the mesh rigidly (any rotation or reflection followed by any translation) changes no result for scalar fields: the geometry scheme computes the same weights and delta coefficients, a program that computes the geometry and the sparsity pattern, writes expressions with the exp:: and imp:: functions and solves them for any number of steps can end in exactly the same ways with the same value in every cell, and the Courant numbers are the same. Gradients are rotated with the mesh. Explicit terms and explicit Euler steps of a vector field whose values, fluxes and boundary data are rotated give the rotated result.", "quantifier": "every mesh, rigid motion, field, expression, boundary condition, solver, integrator, number of steps, executor and thread schedule", "why_tests_cant": "tests use meshes along the x axis; a component that is read where a length or an area should be, or a position used where a difference should be, gives the same numbers there", "anchors": ["src/finiteVolume/cellCentred/stencil/basicGeometryScheme.cpp: updateWeights, updateDeltaCoeffs, updateNonOrthDeltaCoeffs", "src/finiteVolume/cellCentred/operators/gaussGreenGrad.cpp: computeGrad", "src/finiteVolume/cellCentred/auxiliary/coNum.cpp: computeCoNum", "include/NeoFOAM/dsl/solver.hpp: solve"]}
{"id": "C80", "title": "Results do not depend on the units", "statement": "Writing the mesh, the fluxes, the diffusivities, the rates, the boundary data, the times and the field in other units of length, time and value changes results only by the corresponding factor: a program that computes the geometry and the sparsity pattern, writes expressions with the exp:: and imp:: functions and solves them for any number of steps can end in exactly the same ways, and a field it ends with is the same field in the new units. Weights and Courant numbers are unchanged, delta coefficients are divided by the length, gradients have the unit value per length. This needs that no distance between a face and its cells crosses the absolute threshold below which the geometry scheme uses the weight one half.", "quantifier": "every mesh, change of units, field, expression, boundary condition, unit-free solver, integrator, number of steps, executor and thread schedule", "why_tests_cant": "tests use one unit mesh; a missing factor of volume, area or time step is invisible where these are one, and the absolute threshold is never reached", "anchors": ["src/finiteVolume/cellCentred/stencil/basicGeometryScheme.cpp: updateWeights, updateDeltaCoeffs, updateNonOrthDeltaCoeffs", "include/NeoFOAM/core/primitives/scalar.hpp: ROOTVSMALL", "src/finiteVolume/cellCentred/operators/gaussGreenGrad.cpp: computeGrad", "src/finiteVolume/cellCentred/auxiliary/coNum.cpp: computeCoNum", "include/NeoFOAM/dsl/solver.hpp: solve"]}
{"id": "C81", "title": "Rounding errors of the explicit operators are bounded by the sizes of the terms summed", "statement": "Evaluating divergence, Laplacian, surface integral, source term, time derivative or gradient in floating point arithmetic, on any executor and in whatever order the atomic additions happen, gives in every cell a value that differs from the exact one by at most ((1+u)^(k+const) - 1) times the sum of the absolute values of the terms that make it up, where u is the unit roundoff and k the number of faces of that cell. The bound involves neither the size of the mesh nor the schedule; two runs therefore differ by at most twice that amount.", "quantifier": "every mesh, field, flux, coefficient, weights, interpolation scheme, executor, thread schedule, old content of the output and of temporaries, and every arithmetic with relative error u per operation (binary floating point of any precision is one), while nothing overflows or underflows", "why_tests_cant": "tests compare with a fixed tolerance on small meshes; how errors grow with cell size, number of faces, cancellation and order of summation is a statement about all inputs and all orders", "anchors": ["src/finiteVolume/cellCentred/operators/gaussGreenDiv.cpp: computeDiv", "src/finiteVolume/cellCentred/operators/gaussGreenLaplacian.cpp: computeLaplacianExp", "include/NeoFOAM/finiteVolume/cellCentred/operators/surfaceIntegrate.hpp: surfaceIntegrate", "src/finiteVolume/cellCentred/operators/gaussGreenGrad.cpp: computeGrad", "src/finiteVolume/cellCentred/operators/sourceTerm.cpp: explicitOperation", "src/finiteVolume/cellCentred/operators/ddtOperator.cpp: explicitOperation"]}
{"id": "C82", "title": "Repeating a serial run gives bit for bit the same result", "statement": "On the serial executor a program that builds an expression from the explicit and implicit operator functions and solves it any number of times always ends in the same way - same fields bit for bit, or same failure - whatever the freshly allocated memory holds. What is computed face by face or cell by cell (interpolation, face-normal gradients, sources, time derivatives, boundary conditions) has the same bits on every executor. No algebraic law is assumed, so this covers floating point.", "quantifier": "every mesh, expression, coefficients, boundary conditions, dictionaries, solver table whose solvers are repeatable, time steps, number of steps, initial state, content of fresh memory, and every arithmetic", "why_tests_cant": "a test repeats one program a few times and fresh memory usually happens to be zero; that no result ever depends on uninitialised memory or on scheduling is a statement about all programs and all contents", "anchors": ["include/NeoFOAM/dsl/solver.hpp: solve", "include/NeoFOAM/core/parallelAlgorithms.hpp: parallelFor", "src/finiteVolume/cellCentred/operators/gaussGreenDiv.cpp: computeDiv", "src/finiteVolume/cellCentred/operators/gaussGreenGrad.cpp: computeGrad", "include/NeoFOAM/timeIntegration/forwardEuler.hpp: solve", "include/NeoFOAM/timeIntegration/backwardEuler.hpp: solve"]}
{"id": "C83", "title": "Explicit upwind transport in floating point stays bounded and close to the exact run", "statement": "Solving ddt(u) + div(flux, u) = 0 with forwardEuler and upwind interpolation in floating point, with Courant number at most 1, zero gradient where the flow leaves and a flux that is divergence-free up to eta: after n calls of dsl::solve no value exceeds (1+eta+eps)^n times the bound of the initial and inflow values, and the result differs by at most ((1+eta+eps)^n - (1+eta)^n) times that bound from what the same program gives in exact arithmetic, where eps = 3((1+u)^(N+10)-1), u is the unit roundoff and N the largest number of faces of a cell. This holds for every executor and every order in which threads add.", "quantifier": "all valid meshes with positive volumes, fields, fluxes, boundary conditions of these kinds, time steps with Courant number at most 1, numbers of steps, executors and schedules, and all arithmetics with relative errors at most u", "why_tests_cant": "rounding errors accumulate over any number of steps and depend on the thread schedule; tests compare a few runs with a tolerance", "anchors": ["include/NeoFOAM/timeIntegration/forwardEuler.hpp: ForwardEuler::solve", "src/finiteVolume/cellCentred/operators/gaussGreenDiv.cpp: computeDivExp", "include/NeoFOAM/finiteVolume/cellCentred/interpolation/upwind.hpp"]}
{"id": "C84", "title": "Linear systems assembled in floating point stand for the exact ones", "statement": "Assembling the implicit Laplacian, upwind divergence, time derivative or source term in floating point into a system that stands for an exact one gives a system that stands for the exact result: each coefficient and right hand side carries at most one further rounding per term added to it, relative to the sum of the sizes of its terms, for every executor and every order in which threads add (parallel: no cell with two boundary faces, C22). So a diffusion matrix with positive diffusivity assembled from an empty system has a relative error of at most (1+u)^(7+faces of the cell)-1 in each entry, and, while that is below one, the signs of the exact matrix.", "quantifier": "all valid meshes, patterns, fields, coefficients, starting systems, executors and schedules, and all arithmetics with relative errors at most u", "why_tests_cant": "the error depends on the order in which threads add and on the size of the cell; tests compare a few assembled entries with a tolerance", "anchors": ["src/finiteVolume/cellCentred/operators/gaussGreenLaplacian.cpp: computeLaplacianImpl", "src/finiteVolume/cellCentred/operators/gaussGreenDiv.cpp: computeDivImp", "src/finiteVolume/cellCentred/operators/ddtOperator.cpp: implicitOperation", "src/finiteVolume/cellCentred/operators/sourceTerm.cpp: implicitOperation", "include/NeoFOAM/linearAlgebra/linearSystem.hpp: createEmptyLinearSystem"]}
{"id": "C85", "title": "Exactly which systems a solve can pose on the parallel executors", "statement": "On a parallel executor, sparsity patterns built for a mesh are exactly those with the rows in cell order and, within a row, first the entries of the faces the cell is neighbour of in some order, then the diagonal, then the entries of the faces it owns in some order. Consequently dsl::solve, for every expression of implicit operators, poses exactly the systems that result from the equation by exchanging, within a row, coefficients among the faces the cell owns and among the faces it is neighbour of: every outcome comes from the linear solver applied to one such system, and each such system is posed on some schedule. Diagonals, right hand sides and row sums are never affected.", "quantifier": "all valid meshes with at most 256 entries per row, all expressions of implicit and explicit operators, all solvers, initial fields, patterns cached before and schedules of the parallel executors", "why_tests_cant": "which order occurs depends on how the atomic tickets of the construction interleave; a test sees one order, usually that of the faces", "anchors": ["src/finiteVolume/cellCentred/linearAlgebra/sparsityPattern.cpp: SparsityPattern::update", "include/NeoFOAM/dsl/solver.hpp: solve", "include/NeoFOAM/linearAlgebra/linearSystem.hpp: createEmptyLinearSystem", "include/NeoFOAM/timeIntegration/backwardEuler.hpp: solve"]}
{"id": "C86", "title": "Implicit transport stays within its bounds on every executor and schedule", "statement": "For a divergence-free flux, non-negative diffusivity, zero-gradient boundaries and fixed boundary values within the bounds: any number of backwardEuler steps of ddt(u) + div(flux, u) - laplacian(gamma, u), with any positive time steps, from a field within the bounds, and the steady problem div(flux, u) - laplacian(gamma, u) = 0 in which a boundary value reaches every cell, from any field, always have an outcome, and all their outcomes are within the bounds, on the serial executor and on the parallel executors whatever the schedule, although there the values themselves may differ between runs (C85). On the parallel executors the mesh has no cell with two boundary faces (C22), and the steady problem has diffusion across every internal face, without which any value can come out.", "quantifier": "all such meshes, fluxes, diffusivities, fields, numbers and sizes of steps, executors, schedules, and linear solvers that solve solvable systems", "why_tests_cant": "the system posed depends on the schedule; a test sees one schedule and a few fields", "anchors": ["include/NeoFOAM/dsl/solver.hpp: solve", "include/NeoFOAM/timeIntegration/backwardEuler.hpp: solve", "src/finiteVolume/cellCentred/operators/gaussGreenDiv.cpp: computeDivImp", "src/finiteVolume/cellCentred/operators/gaussGreenLaplacian.cpp: computeLaplacianImpl", "src/finiteVolume/cellCentred/linearAlgebra/sparsityPattern.cpp: SparsityPattern::update"]}
{"id": "C87", "title": "Marching in time with backwardEuler reaches the solution of the steady equation", "statement": "For a divergence-free flux, non-negative diffusivity, zero-gradient boundaries and fixed boundary values one of which reaches every cell: repeated solve calls of ddt(u) + div(flux, u) - laplacian(gamma, u) with backwardEuler, from any cell values and with any time steps bounded below by a positive number, converge to the field that one solve call of the steady equation div(flux, u) - laplacian(gamma, u) returns. The distance after n steps is at most A rho^n times the largest initial distance, with rho < 1 and A independent of the fields; in particular that field is kept exactly by every step. Without a boundary value that reaches the cells there is no such limit.", "quantifier": "all valid meshes with positive volumes and no degenerate faces, such fluxes, diffusivities, boundary data, all initial cell values, numbers and sizes of steps, executors (parallel ones on lines of cells) and linear solvers that solve solvable systems", "why_tests_cant": "convergence is a statement about all numbers of steps and all initial fields; a test stops after some steps", "anchors": ["include/NeoFOAM/dsl/solver.hpp: solve", "include/NeoFOAM/timeIntegration/backwardEuler.hpp: solve", "src/finiteVolume/cellCentred/operators/gaussGreenDiv.cpp: computeDivImp", "src/finiteVolume/cellCentred/operators/gaussGreenLaplacian.cpp: computeLaplacianImpl"]}
{"id": "C88", "title": "Two implicit runs: order is preserved and differences never grow", "statement": "For a divergence-free flux and non-negative diffusivity, two runs of any number of backwardEuler solve calls of ddt(u) + div(flux, u) - laplacian(gamma, u), with the same positive time steps of any size and the same kinds of boundary conditions (zero gradient or fixed value): if one field is nowhere above the other, in the cells and in the fixed boundary values, it never becomes so; and if the boundary data are the same, the largest difference between the two fields never grows, whatever the time steps.", "quantifier": "all valid meshes with positive volumes and no degenerate faces, such fluxes, diffusivities, boundary data, all pairs of initial fields, numbers and sizes of steps, executors (parallel ones on lines of cells) and linear solvers that solve solvable systems", "why_tests_cant": "a statement about all pairs of runs of all lengths", "anchors": ["include/NeoFOAM/dsl/solver.hpp: solve", "include/NeoFOAM/timeIntegration/backwardEuler.hpp: solve", "src/finiteVolume/cellCentred/operators/gaussGreenDiv.cpp: computeDivImp", "src/finiteVolume/cellCentred/operators/gaussGreenLaplacian.cpp: computeLaplacianImpl"]}
{"id": "C89", "title": "The geometry scheme in floating point", "statement": "With rounded arithmetic (relative error u per operation, faithful rounding, as for IEEE numbers without over- and underflow) the geometry scheme of every mesh with valid connectivity gives the same coefficients on every executor and schedule; interpolation weights lie in [0,1] and are 1 on the boundary, exactly; where the two points of a face differ the delta coefficient is positive and within 9 roundings (of its square) of the inverse distance; the non-orthogonal coefficient is positive, at most 20 times and (with consistent face areas) at least once the inverse distance, up to a fixed number of roundings.", "quantifier": "all meshes with valid connectivity and any geometry, all number formats and roots meeting the rounding model, all executors and schedules", "why_tests_cant": "the bounds hold for every mesh geometry and every pattern of rounding errors; tests compare a few meshes up to a tolerance", "anchors": ["src/finiteVolume/cellCentred/stencil/basicGeometryScheme.cpp: updateWeights, updateDeltaCoeffs, updateNonOrthDeltaCoeffs", "src/finiteVolume/cellCentred/stencil/geometryScheme.cpp: update", "include/NeoFOAM/core/primitives/vector.hpp: operator&, mag"]}
{"id": "C90", "title": "The Courant number in floating point", "statement": "With rounded arithmetic, on every executor and in whatever order the threads add, computeCoNum returns half the time step times the maximum over the cells of the summed flux magnitudes over the volume, up to a relative error of N + 7 roundings, where no cell has more than N faces. A time step whose computed Courant number is at most (1 - u)^(N+7) therefore satisfies the exact condition under which explicit upwind transport stays bounded.", "quantifier": "all valid meshes with positive volumes and at least one cell, all fluxes, non-negative time steps, number formats and roots meeting the rounding model, executors and schedules", "why_tests_cant": "the result depends on the order of atomic additions, which differs from run to run; a test sees some orders on some meshes", "anchors": ["src/finiteVolume/cellCentred/auxiliary/coNum.cpp: computeCoNum", "include/NeoFOAM/core/parallelAlgorithms.hpp: parallelReduce, parallelFor"]}
{"id": "C91", "title": "Implicit transport and diffusion in floating point with an inexact linear solver", "statement": "Whenever n backwardEuler calls of dsl::solve on ddt(u) + div(flux, u) - laplacian(gamma, u) in rounded arithmetic return, with a linear solver that stops when each row's residual is at most a tolerance, every cell value is within lambda^n (M + n eps) - mu^n M of an exact implicit Euler run on the same mesh and data, and at most lambda^n (M + n eps) in size, where lambda = 1/(1 - eta - kappa), mu = 1/(1 - eta); eta bounds the net inflow of the given fluxes, eps the tolerance and kappa the roundoff of assembling a row, all per time step. Exact arithmetic and an exact solver give distance 0.", "quantifier": "all valid meshes with positive volumes, fluxes, non-negative diffusivities, zero-gradient or fixed-value boundaries (outflow no stronger than diffusion at the latter), positive time steps, initial fields, number formats meeting the rounding model, tolerances and solvers meeting them, numbers of steps; serial executor, or parallel on lines of cells (elsewhere patterns differ between calls, C14)", "why_tests_cant": "errors of thousands of rounded assemblies and unfinished linear solves accumulate over all steps; tests compare a few cases with a loose tolerance", "anchors": ["include/NeoFOAM/timeIntegration/backwardEuler.hpp: BackwardEuler::solve", "src/finiteVolume/cellCentred/operators/gaussGreenDiv.cpp: computeDivImp", "src/finiteVolume/cellCentred/operators/gaussGreenLaplacian.cpp: computeLaplacianImpl", "src/finiteVolume/cellCentred/operators/ddtOperator.cpp: implicitOperation", "include/NeoFOAM/dsl/solver.hpp: solve"]}
{"id": "C92", "title": "Refining the mesh: steady diffusion with a source converges with second order", "statement": "Let u be four times differentiable on the unit interval with k u'' + s = 0, M2 and M4 bounds of its second and fourth derivative. On create1DUniformMesh with n cells, with s sampled at the cell centres and the values of u fixed at both ends, solving laplacian(gamma, u) + source(s, one) has exactly one outcome and every cell value differs from u at the cell centre by at most (M4/48 + 5 M2/4)/n^2. For a uniform source q the difference is exactly q/(8 k n^2) in every cell.", "quantifier": "all numbers of cells from one on, four times differentiable solutions, diffusivities k > 0, initial fields, linear solvers that solve solvable systems; serial executor, or any executor from two cells on; uniform source: every ordered field", "why_tests_cant": "a statement about all meshes of the family and all smooth solutions; a test sees a few mesh sizes and one solution", "anchors": ["src/finiteVolume/cellCentred/operators/gaussGreenLaplacian.cpp: computeLaplacianImpl", "src/finiteVolume/cellCentred/stencil/basicGeometryScheme.cpp: updateNonOrthDeltaCoeffs", "src/mesh/unstructured/unstructuredMesh.cpp: create1DUniformMesh", "include/NeoFOAM/dsl/solver.hpp: solve", "src/finiteVolume/cellCentred/operators/sourceTerm.cpp: explicitOperation"]}
{"id": "C93", "title": "Refining mesh and time step: the implicit heat equation converges", "statement": "Let u solve u_t = k u_xx on the unit interval with values fixed at both ends. On create1DUniformMesh with n cells, started within eps of u at the cell centres, every number of dsl::solve calls on ddt(u) - laplacian(gamma, u) with backwardEuler and positive, possibly varying time steps up to D has exactly one outcome, and every cell value differs from u at the cell centre and the time reached by at most eps + (M4/48 + 5 M2/4)/n^2 + Mtt D/(8k), where M2, M4, Mtt bound the second and fourth space derivative and the second time derivative; the bound does not grow with the number of steps.", "quantifier": "all numbers of cells from one on, all numbers of steps and time step sequences, all smooth solutions, diffusivities k > 0, linear solvers that solve solvable systems; serial executor, or any executor from two cells on", "why_tests_cant": "a statement about all meshes of the family, all time step sequences and all smooth solutions; a test sees a few of each", "anchors": ["include/NeoFOAM/timeIntegration/backwardEuler.hpp: solve", "src/finiteVolume/cellCentred/operators/ddtOperator.cpp: implicitOperation", "src/finiteVolume/cellCentred/operators/gaussGreenLaplacian.cpp: computeLaplacianImpl", "src/finiteVolume/cellCentred/stencil/basicGeometryScheme.cpp: updateNonOrthDeltaCoeffs", "src/mesh/unstructured/unstructuredMesh.cpp: create1DUniformMesh", "include/NeoFOAM/dsl/solver.hpp: solve"]}
{"id": "C94", "title": "Refining mesh and time step: implicit convection and diffusion converges with first order", "statement": "Let u solve u_t + v u_x = k u_xx with v > 0, k >= 0, the value fixed at the inlet and zero gradient at the outlet. On create1DUniformMesh with n cells and the flux v through every face, started within eps of u at the cell centres, every number of dsl::solve calls on ddt(u) + div(flux, u) - laplacian(gamma, u) with backwardEuler and positive time steps up to D has exactly one outcome, and every cell value differs from u at the cell centre and the time reached by at most eps + (M1/2 + M2/2 + 7 k M3/(24 v))/n + (5 M2/4 + k M4/(12 v))/n^2 + Mtt D/(2v), whatever interpolation scheme is asked for.", "quantifier": "all numbers of cells from two on, all numbers of steps and time step sequences, all smooth solutions, velocities v > 0, diffusivities k >= 0, executors, linear solvers that solve solvable systems", "why_tests_cant": "a statement about all meshes of the family, all time step sequences and all smooth solutions; a test sees a few of each", "anchors": ["include/NeoFOAM/timeIntegration/backwardEuler.hpp: solve", "src/finiteVolume/cellCentred/operators/gaussGreenDiv.cpp: computeDivImp", "src/finiteVolume/cellCentred/operators/ddtOperator.cpp: implicitOperation", "src/finiteVolume/cellCentred/operators/gaussGreenLaplacian.cpp: computeLaplacianImpl", "src/mesh/unstructured/unstructuredMesh.cpp: create1DUniformMesh", "include/NeoFOAM/dsl/solver.hpp: solve"]}
{"id": "C95", "title": "Refining mesh and time step: explicit transport and diffusion converges within the step limit", "statement": "Let u solve u_t + v u_x = k u_xx with the value fixed at the inlet and zero gradient at the outlet. On create1DUniformMesh with n cells, started within eps of u at the cell centres, every number of dsl::solve calls on ddt(u) + div(flux, u) - k laplacian(u) with forwardEuler, explicit terms and upwind interpolation has exactly one outcome, and with time steps up to D, D (v n + 3 k n^2) <= 1, every cell value differs from u at the cell centre and the time reached by at most eps + (M1/2 + M2/2 + 7 k M3/(24 v))/n + (5 M2/4 + k M4/(12 v))/n^2 + Mtt D/(2v). For diffusion alone between fixed values and 4 k n^2 D <= 1 the bound is eps + (M4/48 + 5 M2/4)/n^2 + Mtt D/(8k). At Courant number exactly one every profile is transported without any error; beyond Courant number two the first cell's distance from the inlet value grows without limit.", "quantifier": "all numbers of cells, numbers of steps, time step sequences within the limit, smooth solutions, velocities, diffusivities, executors and schedules; Courant number one: every profile over every ordered field", "why_tests_cant": "a statement about all meshes of the family, all time step sequences and all smooth solutions; a test sees a few of each", "anchors": ["include/NeoFOAM/timeIntegration/forwardEuler.hpp: solve", "src/finiteVolume/cellCentred/operators/gaussGreenDiv.cpp: computeDiv", "src/finiteVolume/cellCentred/operators/gaussGreenLaplacian.cpp: computeLaplacianExp", "src/finiteVolume/cellCentred/interpolation/upwind.cpp: computeUpwindInterpolation", "src/mesh/unstructured/unstructuredMesh.cpp: create1DUniformMesh", "include/NeoFOAM/dsl/solver.hpp: solve"]}
{"id": "C96", "title": "Refining the mesh: steady transport with diffusion and sources converges with first order", "statement": "Let u satisfy v u' - k u'' = q on the unit interval, v > 0 and k >= 0, with zero gradient at the outlet when k > 0. On create1DUniformMesh with n >= 2 cells, the inlet value fixed on the left and zero gradient on the right, from every initial field and on every executor, dsl::solve of div(flux, u) - laplacian(gamma, u) - source(s, one), with every linear solver that solves solvable systems, has exactly one outcome, and every cell value differs from u at the cell centre by at most (M1/2 + M2/2 + 7 k M3/(24 v))/n + (5 M2/4 + k M4/(12 v))/n^2, M1 to M4 bounds of the derivatives of u. Without diffusion and with a uniform source q the difference is exactly q/(2 v n): the order is one and no better.", "quantifier": "all numbers of cells from two, velocities, diffusivities, smooth solutions and their sources, initial fields, executors and schedules; uniform source: every ordered field", "why_tests_cant": "a statement about all meshes of the family and all smooth solutions; a test sees a few of each", "anchors": ["include/NeoFOAM/dsl/solver.hpp: solve", "src/finiteVolume/cellCentred/operators/gaussGreenDiv.cpp: computeDivImp", "src/finiteVolume/cellCentred/operators/gaussGreenLaplacian.cpp: computeLaplacianImpl", "src/finiteVolume/cellCentred/operators/sourceTerm.cpp: explicitOperation", "src/mesh/unstructured/unstructuredMesh.cpp: create1DUniformMesh"]}
{"id": "C97", "title": "Wrappers of SUNDIALS vectors behave as values, and free what they own", "statement": "Take any program that creates, initialises, copies, moves and destroys sundials::SKVector objects, and moves Field data in and out of them with fieldToSunNVector and sunNVectorToField. If every vector used is alive, initialised, of the executor of the field and at least as long as it, every read returns what was last written into that object, a copy holds what the original held, and no object is affected by what is done with another. After every program, whatever it does, every SUNDIALS vector is owned by exactly one object: nothing leaks and nothing is freed twice.", "quantifier": "all programs (histories of operations on any number of wrappers), fields, lengths, executors, and every behaviour of the copy constructor of SUNDIALS", "why_tests_cant": "a statement about all histories of objects; a test runs a few", "anchors": ["include/NeoFOAM/timeIntegration/sundials.hpp: SKVector, SKVectorSerial, SKVectorHostDefault, SKVectorDefault, fieldToSunNVector, sunNVectorToField"]}
{"id": "C98", "title": "Marching in time with forwardEuler reaches the solution of the steady equation", "statement": "For every valid mesh with positive volumes, divergence-free flux, uniform diffusivity and boundary conditions such that a prescribed value reaches every cell: there is a field x, between the boundary values, which dsl::solve of the implicitly assembled steady equation div(flux, u) - laplacian(gamma, u) returns, and to which repeated calls of dsl::solve on the explicit equation ddt(u) + div(flux, u) - k laplacian(u) with forwardEuler converge geometrically, from every initial field whose boundary values agree with its conditions and for every sequence of time steps within the step limit and bounded from below. Both discretisations thus have the same steady state, and no other.", "quantifier": "all meshes, fluxes, diffusivities, boundary conditions, initial fields, sequences of time steps, numbers of steps, executors and schedules, ordered fields", "why_tests_cant": "a limit over all numbers of steps, for all meshes, fields and step sequences", "anchors": ["include/NeoFOAM/dsl/solver.hpp: solve", "include/NeoFOAM/timeIntegration/forwardEuler.hpp: solve", "src/finiteVolume/cellCentred/operators/gaussGreenDiv.cpp: computeDivExp", "src/finiteVolume/cellCentred/operators/gaussGreenLaplacian.cpp: computeLaplacianExp"]}
{"id": "C99", "title": "A steady solve in floating point is near the exact balanced field", "statement": "For every valid mesh with positive volumes, fluxes, diffusivity and boundary conditions that admit a positive field of height at most W from which at least the volume of each cell leaves it: there is exactly one field that balances in exact arithmetic, and whenever dsl::solve of the steady equation div(flux, u) - laplacian(gamma, u), computed in floating-point numbers with a linear solver that stops at residuals of at most eps per volume, returns, every value differs from it by at most (X + W eps) / (1 - W kappa) - X, where X bounds the exact field and the boundary values and kappa is the roundoff of assembling one row per volume. The initial field has no influence, and with exact arithmetic and solver the distance is 0. For divergence-free fluxes such a positive field exists whenever a prescribed value reaches every cell, and X is the largest boundary value.", "quantifier": "all meshes, fluxes, diffusivities, boundary conditions, initial fields, floating-point formats, linear solvers and tolerances, executors and schedules", "why_tests_cant": "a bound on rounding and solver errors for all meshes, data, formats and solvers", "anchors": ["include/NeoFOAM/dsl/solver.hpp: solve", "include/NeoFOAM/finiteVolume/cellCentred/operators/gaussGreenDiv.hpp", "src/finiteVolume/cellCentred/operators/gaussGreenDiv.cpp: computeDivImp", "src/finiteVolume/cellCentred/operators/gaussGreenLaplacian.cpp: computeLaplacianImpl"]}
