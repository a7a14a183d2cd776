# Machine-checked model of modred

`/repo` (modred) is read as text only.
It is never built or run.
This directory holds a Lean 4 model of its code and proofs about that model.

## Layout

| Place | Holds |
|---|---|
| `properties.jsonl` | the claims C01, C02, ... in words |
| `lean/Verif/Model/*` | the model: one Lean definition per Python function, with file and lines cited |
| `lean/Verif/Spec/*` | specifications that do not mention the model's helpers |
| `lean/Verif/Lemmas/*` | helper lemmas |
| `lean/Verif/Props/*` | the property theorems, each with an `example` that meets its hypotheses |
| `MANIFEST.json` | claim -> theorem names |
| `seeded/LOG.jsonl` | seeded-bug experiments |

Theorem names start with the claim, e.g. `C07_...`.
A theorem that proves less than the claim ends in `_partial`.
A theorem that shows the code violates a claim ends in `_violation` and gives a concrete input.

## Trusted base

* The Lean 4.33.0 kernel.
* The axioms `propext`, `Classical.choice` and `Quot.sound`, nothing else.
  The table at the end lists them per theorem.
* The reading of the Python source: that each Lean definition says what the cited lines do.
* The modelling choices below.

### Modelling choices

1. **Exact arithmetic.**
   Floating point numbers are elements of an ordered field, of the real numbers or of an `RCLike` field.
   Rounding, overflow, NaN and signed zeros are not modelled, except that C78 treats the rounding in `find_assignments` and in the loop counts of `vectorspace.py`, and C79 the sums in the vector space class.
2. **Library routines.**
   `np.linalg.svd`, `np.linalg.eigh`, `scipy.linalg.eig`, `lstsq`, Cholesky factors, Lyapunov solvers and `argsort` are parameters.
   Theorems hold for every routine that meets its stated specification.
   C67 (POD, BPOD and biorthogonal eigenvectors) and C91 (DMD) give bounds for routines that are correct only up to errors (`Verif/Spec/Approx.lean`).
   That every array has an SVD and every Hermitian array an eigendecomposition is proved (`exists_isSvd`, `exists_isEigh`, `exists_podLib`), so these theorems are not vacuous.
3. **Exceptions** are values of `Except Err`.
   Only the kind of exception is kept, not its text.
4. **Message passing.**
   The per-rank programs are modelled as rounds: local work, then an exchange, then local work.
   `Verif/Model/Spmd.lean` gives an interleaving semantics with mailboxes, synchronous or buffered sends and barriers.
   A theorem there shows every interleaving of such rounds ends like lock-step execution and cannot get stuck.
   The functional models use lock-step rounds.
   Handles on shared storage get and put in one atomic step each (`Verif/Model/Shared.lean`); the steps of different ranks may interleave in any order.
5. **Not modelled:** the texts and rounding of printed messages (their numbers, times and channels are, C75, C76, C99 and C103), measured times, pickling, wall-clock, process crashes, user code that mutates vectors in place (except in `sanity_check` and `+=` in `lin_combine`, C46 and C88).
   Of `modred/examples`, `hermite.py`, `main_CGL.py`, `customvector.py` and the parts of the tutorials that compute something themselves are modelled; what is left only calls the methods.

## Plan per property

| Claim | What is modelled | How it is proved |
|---|---|---|
| C01 C02 C03 | `find_assignments` over an ordered field | induction over workers; rounding lemma; witness for the violation |
| C04 C05 | the bit-mask loops as lock-step rounds on all ranks | invariant on blocks of size 2^k |
| C06 | interleaving semantics of exchange rounds | invariant on program counters; least-advanced rank can always move |
| C07 C08 C09 | the chunk, task and ring loops for all ranks | ring lemma (after t passes rank r holds the data of r-t), then coverage of index ranges |
| C10 | the one-process loop over a store, `linCombineStore`; several processes on a shared store, `Model/Shared`: `lcShared` | two concrete runs that end differently; race freedom otherwise |
| C11 C12 | shape checks and limit arithmetic | case analysis |
| C13 | heap of handles with a class-wide cache, operations get and put | invariant over histories; two witnesses |
| C14 C15 | arrays as lists of rows; float view as interleaving | round trip; witness for integers |
| C16 | tables as lists of rows | case analysis and induction |
| C17 C18 | index arithmetic of `Hankel`, `Hankel_chunks` | direct |
| C19 C20 C21 | sorting, counting and prefix truncation over any valid decomposition | prefix of a sorted list is the filter; matrix algebra |
| C22 C23 C55 | the matrix formulas of POD, for arrays and for handles | matrix algebra; witness with one entry for the tolerances |
| C56 | plain formulas for inner products and linear combinations of handles | from C07, C08, C09 |
| C24 C25 | the matrix formulas of BPOD, chunk assembly | matrix algebra; shift of adjoint powers |
| C26 C27 | `Model/Dmd`, `Spec/Dmd`, `Lemmas/Dmd`, `Props/Dmd`: both DMD functions on arrays, for sequences and pairs of vectors.  `scipy.linalg.eig` may return any eigenvectors; the claims hold when the eigenvalues of the reduced map are distinct and not zero.  "Eigenvectors of A" needs that A maps the span of the data to itself: a counterexample is proved | matrix algebra; uniqueness of the Moore-Penrose inverse and of spectral subspaces for the agreement of the two methods |
| C28 C29 (and C26 C27 on handles) | `Model/DmdHandles`, `Spec/DmdHandles`, `Lemmas/DmdHandles`, `Props/DmdHandles`: the `DMDHandles` object as a state machine whose methods may be called in any order.  Vectors are elements of any module with a sesquilinear inner product | the relations of C26 by matrix algebra on Gram matrices; witnesses for the ignored tolerance and the kept advanced vectors; state equality with a new object for all histories |
| C30 C31 C58 C59 (and C28 C29 for total least squares) | `Model/Tlsqr`, `Spec/Tlsqr`, `Lemmas/Tlsqr`, `Props/Tlsqr`, `Props/TlsqrLimits`, `Props/TlsqrHandles`, `Props/TlsqrFullHandles`: both functions on arrays and the `TLSqrDMDHandles` object.  Specifications speak about the projected data | the projection is an orthogonal projection that commutes with the formulas of DMD; witness over the complex numbers for C30 |
| C60 | `Model/PodObjects`, `Spec/PodObjects`, `Props/PodObjects`: `PODHandles` and `BPODHandles` as state machines with all their attributes; a list of calls of any length between decomposition and use | invariant that attributes of the decomposition do not change, then C23 and C25; witnesses for stale coefficients and for modes after an exception |
| C32 C33 C34 C35 | ERA on lists of blocks; object state | index arithmetic; witnesses |
| C36 | ERA formulas | similarity transformation between the two realisations |
| C105 | `Props/ModelError`, `Props/ModelErrorLower`, `Props/ModelErrorHandles`: the models of C36, C25 and C38, and `lsim` of C41; `Spec/ModelError`: energies of signals, outputs from impulse responses | shifts of block columns and block rows do not make vectors longer, so singular values are weights for which inputs and outputs balance; truncation by one singular value at a time, then the triangle inequality; the shift of rows is nilpotent, so energy must be lost |
| C106 | `Props/MaxNum`: the models of C26, C28, C31 and C30; `Spec/MaxNum`: how many eigenvalues lie above a bound | `eigh` and `svd` order their values, so the first k are those above s; what the tolerance t ≤ s keeps beyond these is cut off by `[:max_num_eigvals]`; the projected correlation array of total-least-squares DMD has rank at most k, so nothing is cut off there |
| C107 | `Props/RealData`, `Props/RealSystems`, `Props/RealTls`: the models of C22, C24, C26, C31 and C36 over ℂ; `Spec/RealData`: real arrays, conjugate pairs | Products, columns and inverses of real arrays are real. The conjugates of the eigenvalues and eigenvectors of the reduced map decompose the same data, so that by C95 they are the same up to factors; distinct eigenvalues give the pairing |
| C108 | `Model/Arguments`: what the functions do with one handle, a sequence, an iterator or a set before they work with lists; `Spec/Arguments`: which list a form stands for | The start of each function with a form that stands for a list is the model of the function with that list; objects of PODHandles with forms and with lists stay in correspondence |
| C109 | `Spec/ModeIndices`: the columns or vectors that indices choose, by remainders, and results with chosen modes; models of C22, C24, C26, C31 and of the objects of C29 and C60 | A linear combination with chosen columns of coefficients is the chosen column of all linear combinations; every function passes the indices on to it only |
| C110 | `Spec/Corner`: the first states of a model, entry by entry; models of C36, C38 and C42 | Slices of slices are slices; inverses of chosen rows and columns of the identity are identities |
| C111 | `Spec/Predict`: powers of the system applied to the data are modes times powers of eigenvalues times coefficients; models of C26 and C27, fit of C71 and projection of C90 | The data are their projections onto the modes, the system maps modes to multiples of themselves, induction on the number of steps; for total least squares the projection changes nothing, as it is onto the row space |
| C112 | `Model/Helpers`; `Spec/Helpers`: data members of an object; reductions of C04, inner products of C07 | Lengths along a dimension form a flat semilattice with 1 at the bottom; induction over dimensions and attributes |
| C113 | `Model/Uniform`; arrays of C45, trapezoidal rule of C40 | Sums over entries |
| C114 | no new definitions; what it means that modes are the same from C94 | What is represented has the retained eigenvalues and zeros; both thresholds, absolute and relative to the largest, keep the same ones |
| C115 | `Spec/Wide`: coefficients that place or repeat vectors; what it means that modes are the same from C94 | With orthonormal rows of coefficients the eigenvalues that are not zero, and functions of the arrays that vanish at zero, are the same; the tolerance, which is not negative, drops the zeros |
| C116 | `Spec/Wide`; what it means that results are the same from C95 | C95 and C102 hold for coefficients with orthonormal rows, and the arrays that place or repeat vectors, divided by the root of p, have such rows |
| C117 | `Spec/Wide`; what it means that results are the same from C97 | C97 and C98 hold for mixes of inputs and outputs with orthonormal rows; those that place or repeat inputs, divided by the root of their number, have such rows |
| C118 | `Spec/Constraints`: linear subspaces, those given by constraints and those of vectors that a map does not change | modes are sums of multiples of the vectors, read off the model without assumptions on the library; in the direct method of POD the array of modes is the array of vectors times V S^-1 |
| C119 | `Spec/Continuity`: small changes of all combinations, close values, values not lowered | the best value in the worst case of a subspace of coefficients (C81) for one data set bounds that for the other, by the triangle inequality or by padding coefficients with zeros |
| C120 | `Spec/NearlyBest`: errors at most a number above those of any vectors with any coefficients | projection is no worse than representation, modes are best for their own data (C70, C81), and the triangle inequality is used twice |
| C121 | `Spec/FirstMarkov`: outputs that differ at most by a number times the length of the inputs | the first block of the Hankel array is the first Markov parameter; the error of the truncated array in the worst case (C81) bounds that of its parts |
| C122 | `Spec/ModesFound`: vectors that are linear combinations of modes up to an error | modes are linear combinations of the vectors with coefficients of known length; the same combination of the changed vectors is represented by their modes (C81) |
| C123 | `Spec/JointValues`: values of the whole that are at most sums of values of the parts | the modes of both parts together represent all vectors, and no k vectors are better in the worst case than the bound of C81 |
| C124 | `Spec/Growth`: what a number says about the growth of linear combinations of vectors to those of the advanced vectors | an eigenvector of the approximating map, multiplied by the eigenvectors of the correlation array and the roots of their eigenvalues, gives the coefficients of the combination; all bounds follow from it |
| C125 | `Spec/Duality`: a set of balanced modes with direct and adjoint exchanged; `SameBalanced` of C97 says when two sets are the same | a decomposition of the conjugate transpose is one of the array with left and right vectors exchanged, so C97 applies to it; C25 gives both Hankel arrays |
| C126 | `Spec/DualModel`: dual models, conjugate transposed Markov parameters, and models with conjugate transposed responses | both Hankel arrays are conjugate transposes, so the model is the dual of that of a library that decomposes the conjugate transpose; C98 compares the libraries |
| C127 | `Spec/PredictionGrowth`, `Spec/TlsPredictionGrowth`: what modes predict after any number of steps is not longer than the data allow | powers of the eigenvalues are powers of the projected map, each step is a projection of the advanced vector, and projections do not lengthen vectors |
| C128 | `Spec/SymmetryKept`: modes that are their own adjoint modes, symmetric, skew-symmetric and length-keeping data | the projected map is Hermitian, skew-Hermitian or unitary; eigenvectors of length one of normal maps with distinct eigenvalues are orthonormal, so left eigenvectors are right ones |
| C129 | `Spec/GalerkinDual`: models with conjugate transposed responses and arrays | the projection of the exchanged bases is the inverse of the conjugate transposed inner products, which moves through the powers of the model |
| C130 | `Spec/BalancedDual`: same singular values, singular values not separated; dual responses as in `Spec/DualModel` | the Gramians are exchanged, the array of singular values is transposed, and the inverse of its first singular triples, on which alone the response depends, is determined |
| C131 | `Spec/BalancedCoordinates`: systems in other coordinates, responses in these, Gramians without parts below the tolerance | the factors of the Gramians differ by the coordinates and by arrays with orthonormal rows, which the inverse of the first singular triples absorbs |
| C132 | `Spec/GalerkinSpan`: models that differ by the coordinates of the states only, linear combinations of vectors | the inner products of the new bases are R^H G S, whose inverse undoes R^H; the powers of the models follow from S A' = A S |
| C133 | `Spec/ShiftedData`: eigenvalues shifted and scaled in some order, modes up to factors | both calls share the decomposition of the correlation array, so the second low-order map is a + b times the first; distinct eigenvalues have eigenvectors unique up to factors |
| C134 | `Spec/MatchedResponses`: the first responses of the returned model | the projection leaves the spanned vectors and the given outputs as they are, by induction over the steps from the inputs and from the outputs |
| C135 | `Spec/GrowthFound`: eigenvectors of the system among linear combinations of the vectors | inner products with adjoint modes give the coefficients of x in the projected modes, and of A x the same times the eigenvalues; so only one of them is not zero |
| C136 | `Spec/ReducedAgain`: what undoes the inner products of the bases | the inner products of the combined bases are those of the second bases, and those with the advanced vectors are the second reduction of the first |
| C137 | `Spec/ModesOfModel`: eigenvalues with multiplicity as roots of the characteristic polynomial, and modes as combinations | both functions decompose the same correlation array; the POD modes are orthonormal, and the model's array is the low-order linear map of DMD |
| C138 | `Spec/SelfAdjointPod`: orthonormal eigenvectors, and all of them above the tolerances | left and right singular vectors of a positive semidefinite array are the same: their difference would have a negative eigenvalue |
| C139 | `Spec/SymmetricModel`: Hermitian `A`, `C` the conjugate transpose of `B` | the Hankel array is positive semidefinite, so that left and right singular vectors are the same (C138); a negative response shows that the sign is needed |
| C61 | `Props/EraBpod`, `Props/EraBpodHandles`: the models of C25, C36 and C38 together | the Hankel arrays of the two methods have equal entries; balancing identities for the modes |
| C62 | `Props/Identification`: the models of C41, C37, C32 and C36 one after the other | the regressors depend on the samples only; the Hankel array is the product of observability and controllability arrays, so it has the rank of the system; outputs from rest are determined by Markov parameters |
| C63 | `Model/Equality`: `smartEq`, `inMemoryEq`, `weightsEq`, `HandleSpace.eq` | soundness and completeness against inner products of the identity array; the inner product of numbers is a parameter so that not-a-number can differ from itself |
| C64 | `Model/Equality`: `vectorSub`, `vectorRmul`; `Model/Handles` | module identities |
| C65 | `Model/Shared`: rounds that read and write a store, `SharedStep`, `lcShared`, `lcCalls`, `zeroPut`, `saveEach` | race freedom between barriers implies that every interleaving agrees with lock step (`Lemmas/Shared`); programs that end with a barrier can be joined; get and put of one vector are atomic |
| C66 | `Model/SingleArrays`: one definition per method | round trip through any storage; text files from C14; witnesses for all arrays of the wrong kind |
| C67 | `Props/Approx`, `Props/ApproxDirect`: the models of C19-C25 | library results correct up to errors (`Spec/Approx`); errors of scaled arrays entry by entry; witness that the bound is attained |
| C68 | `Props/Hermite`: `poldif` | derivatives of products with a linear factor; the loop computes derivatives of cardinal functions and of their partial products; interpolation |
| C69 | `Props/HermiteRoots`: `herroots`, `herdif` | entries of eigenvectors of the Jacobi array are Hermite polynomials at the eigenvalue; eigenvectors of equal eigenvalues are parallel; change of variables |
| C70 | `Props/Optimal`: the models of C22 and C23 | any approximation by k vectors lies in a space of dimension at most k; the trace over it is at most the sum of the k largest eigenvalues (`Lemmas/Optimal`: Ky Fan) |
| C71, C72 | `Props/LeastSquares`, `Props/TlsqrBest`: the models of C26 and C31 | the errors are orthogonal to all that competing maps can reach (`Lemmas/LeastSquares`); the projection by the inequality of Ky Fan for the sum of the correlation arrays |
| C73 | `Props/HankelBest`: the models of C24, C25 and C35 | the singular value decomposition of the Hankel array gives the best products (C70); A is determined by least squares between full-rank factors |
| C74 | `Model/Cgl`: the script `main_CGL.py` without printing and plotting, its fixed numbers as parameters; `np.linalg.solve` is exact, nothing is assumed of `expm` | loop invariant for the growth; the Cayley transform of the adjoint is the adjoint of the Cayley transform; powers are polynomials, so the projection onto modes of full rank is exact |
| C75, C76 | `Model/Calls`: the programs of `Model/VectorSpace` with a record of the calls of `get`, of the inner product and of the multiplication on each rank; the estimates as rational numbers | forgetting the record gives the programs back; the counts of a chunk are sums over the ranks' blocks, each number being in one block |
| C77 | `Model/Galerkin`; `Spec/Stability`: energy, eigenvalues and what a model keeps | the residual is orthogonal to the basis (C38), so to every lifted state; Pythagoras for discrete time |
| C78 | `Model/AssignFloat`: `find_assignments`, loop counts and limits with a rounding after each operation; `Spec/Float`: numbers of the format binary64 without overflow, rounding to nearest with any rule for ties | rounding is monotone and keeps half-integers; a quotient of integers below 2^52 is not rounded to a half-integer it is not; sums grow unless the last weight is absorbed |
| C79 | as C07-C09; `Spec/BareArith`: only calculations with 0 and 1 are exact; `Spec/FloatArith`: double precision without overflow | each entry is nonzero on one rank only, so the additions in `allreduce` are additions of zero in any order; `lin_combine` adds from the left in the order in which basis vectors come round; standard error bound by induction |
| C80 | `Spec/Stages`: what stages lead to for one object and one store; `Spec/StagesPod`: `held`, `PutAt`; `Spec/StagesDmd`: `held`, `PutInTurn`; model `Model/Stages`, `Model/StagesPod`, `Model/StagesDmd`: each rank has its own object, local variables and `outputs`, vectors are in a common store; simplified: a rank goes on after an exception, rank 0 makes the lists of chunks for `Hankel_chunks`, the methods for modes use the handles of the object | every stage ends with a round after which all ranks' objects are equal; reads and writes of a stage are separated from those of the next by barriers (`Fenced`), so interleavings reduce to rounds (as C65); POD and BPOD results from C60 |
| C81 | `Spec/WorstCase`: `BestInWorstCase` (bound and its optimality over all vectors and coefficients), `WithinTolerance`, `ToleranceBound`; no new model | `worst_core`: quadratic form of the Gram array in eigenvectors; for the lower bound a combination of the first k+1 eigenvectors on which the competing coefficients vanish (dimension count); dropped values from C19 and C20 |
| C82 | `Model/Tutorials`: grid, weights, scaled vectors, `CustomVector` (operations on objects as in C46), its handle | weights by cases (first, last, middle point) equal `trapzWeight`; positive weights on increasing grids; C22, C40, C46 and C70 |
| C83 | `Model/Tutorials`: number of modes, snapshots of the third tutorial | first index with a cumulative sum above 0.9; violations by concrete data, using C70, C81 and `bpodHankel_ok` |
| C84 | `Model/Failing`: steps of ranks (`Model/Shared`) of which one stays where its work raises | the failing rank's counter stays below every later barrier, so nobody leaves it; programs end with a barrier; violations: bound on the number of steps, and a run |
| C85 | `Model/StagesGalerkin`: `compute_model` of `LTIGalerkinProjectionHandles` as stages (`Model/Stages`) | stage by stage equal to `Model/Galerkin`, then C80; C38 for new objects; for a singular Gram array the theorem of C87 on work that every rank does |
| C86 | `Model/StagesFiles`: the `put_` and `get_` methods as rounds of several processes over shared files | only rank 0 uses the files, so one interleaving stands for all; stage by stage equal to `Model/Decomp` and `Model/SingleArrays`; C44 for the round trip |
| C87 | `Model/Stopping`: ranks that have raised do nothing more; the stages of C80 and C86 | without races, what a rank has at any moment is what it has in lock step; so it is known where ranks raise, and the rounds after which the others wait for rank 0 |
| C88 | `Model/VecObjects`: `lin_combine` in one process on numbered objects, handles in memory as references, `+=` as `__iadd__` or `__add__`; numpy arrays with a flag for complex | invariant: the layers of a round are different objects, made after the round began, so that changing one changes no other and no given vector |
| C89 | `Model/RankMemory`: what the handles of one process hold after its puts, from the puts of `lin_combine` (C09) | shares of the processes are disjoint and cover all sums, so every sum has one owner |
| C90 | no new definitions; `Spec/Nearest` says that coefficients are strictly the best for each vector | the remainder is orthogonal to the projected modes, whose adjoint modes make them independent |
| C91 | no new definitions; `Spec/Approx` and `Spec/ApproxDmd`: decompositions up to errors, bounds for modes and coefficients | scaled arrays differ from the identity entry by entry; sums over eigenvectors of the reduced map; for the direct method with sequential data, the reconstructed cross-correlation array times the singular vectors; witness that the bound is attained |
| C92 | `Model/Startup`: variables of the module `parallel` after import with and without mpi4py; functions for arrays with their check | unfolding, with C50 for the number of hosts |
| C93 | no new definitions; `Spec/Coordinates`: images of objects and results | methods use vectors only in inner products and linear combinations; induction over calls; for direct methods, singular value decompositions of arrays with the same inner products of columns agree with the eigendecomposition of those (C101) |
| C94 | no new definitions; `Spec/Determined`: what it means that modes are the same | overlaps of eigenvectors of similar arrays vanish unless eigenvalues agree, so that functions of eigenvalues are similar; as many eigenvalues have a property by traces |
| C95 | no new definitions; `Spec/DeterminedDmd`: what it means that results are the same | the coefficients need orthonormal rows only; the unitary overlap of the eigenvectors of both correlation arrays makes the reduced maps similar, so that functions of them are; modes with their adjoint modes and coefficients are such functions |
| C96 | no new definitions; `Spec/Lengths` | Gram arrays of projected and adjoint modes are those of the eigenvectors of the reduced map; projected modes are orthogonal projections of exact ones |
| C97 | no new definitions; `Spec/DeterminedBpod` | functions of singular values with left and right singular vectors are determined (`Lemmas/DeterminedSvd`); mixed ones follow from `U = H V S⁻¹`; mixing the inputs of each step gives an array with orthonormal rows if the mix has such rows, which need not be square |
| C98 | no new definitions; `Spec/DeterminedEra` | all outputs of the model are functions of singular values and vectors times the second Hankel array, hence determined; mixing outputs and inputs mixes each block of the Hankel arrays; rows of the mixes need to be orthonormal only |
| C99 | `Model/Progress` (loops of `Model/VectorSpace` with marks where the clock is looked at; the clock is a parameter); `Spec/Progress` | entries of a rank's array are right or zero and never become zero again, and lie in the rows of the rank; the number of entries that are not zero goes up and is at most rows of the rank times columns |
| C100 | `Model/Okid` | regressors in other coordinates are a block-diagonal matrix times the regressors; least-squares solutions of least norm are unique, and change with orthogonal matrices; without the least norm if the regressors are independent; the recursion commutes with the change |
| C101 | `Model/Pod`, `Model/Dmd`, `Model/DmdHandles`, `Model/Bpod` | for `B = G X` with `GᴴG = W`, eigenvectors of `BᴴB` and right singular vectors of `B` span the same spaces for every part of the spectrum, because both are functions of `BᴴB`; singular values above `t` are eigenvalues above `t²`; modes and coefficients are then functions of these spaces; handles by unfolding |
| C102 | `Model/Tlsqr` | the projection is a function of the sum of the two correlation arrays, which is multiplied by `|a|²` and mixed by the unitary array; the projected data are then the mixed projected data, and C95 for these applies; for the direct method the stacked arrays differ by a unitary factor from the left, which comes from the second Cholesky factor |
| C103 | `Model/Messages` (output of a process as two lists of messages; texts as data with their numbers) | upper case of a letter decides the letter up to case; printing a list of messages appends those of each channel |
| C104 | `Model/HandlesFail` (the handles of `Model/Handles` with exceptions: missing and broken files, formats and arithmetic that raise); `Spec/HandlesFail` | as C13: the cache holds what the cached handle stands for; a `get` that raises while reading has not yet changed the cache; without exceptions the model is that of C13 |
| C37 (and C54 for OKID) | `Model/Okid`, `Spec/Okid`, `Lemmas/Okid`, `Props/Okid`: data matrix, blocks and recursion of `OKID`, with all slices | the outputs of a system at rest are a fixed combination of delayed inputs and the delayed state; Cayley-Hamilton for the existence of an exact fit; strong induction for the recursion |
| C38 C39 C57 | Galerkin objects with their cached array; derivative loop | invariant of the cache over all histories of calls; matrix algebra |
| C40 | iterated trapezoid rule on nested arrays | induction over dimensions |
| C41 | `Model/Systems`, `Props/Systems`: `lsim` and `impulse` with scipy's `dlsim` recursion, for real systems | induction over time |
| C42 | `Model/Systems`, `Spec/Systems`, `Props/Balanced`: balanced truncation with the Lyapunov solver and the SVD as parameters | similarity; matrix algebra; witness with two states, for which the wrong one is kept whatever the library returns |
| C43 | Python slicing on strings as lists of characters | list lemmas; witness |
| C44 | `Model/Decomp`: put and get of all four classes over any store, `squeeze`, `np.diag` and `np.dot` on shapes | round trip for any store, for text files, and the coefficients of modes; `C44_single_violation`, `C44_complex_violation`, `C44_dmd_violation` |
| C46 | `Model/Sanity`: objects with contents, operations that may change objects | exact list of checks; acceptance; faults that are found; `C46_sign_violation`, `C46_small_violation` |
| C45 C47 | direct | direct |
| C48 | `Model/Systems`, `Props/Systems`: `drss` and `rss` as functions of the random numbers | similarity to a diagonal array |
| C49 C50 | direct | direct |
| C51 | storing a number in an array of another type | witness |
| C54 | conversion on storing as parameter of C32 C33 | corollary for complex numbers |
| C53 | lengths of the lists of vectors held by each rank | invariant of the interleaving semantics; witness |
| C52 | memory order as a flag of the array | witness |

## Violations found

Inputs for which the code does not do what its documentation or a claim says.

| Theorem | What happens |
|---|---|
| `C03_negative_weight_task_lost_violation` | **C03, violated by the code** for a negative weight, with one worker and all other weights positive. |
| `C03_zero_weight_task_lost_violation` | **C03, violated by the code.** One worker, weights `[1, 0]`: the second task is assigned to nobody. |
| `C100_units_violation` | With dependent regressors units matter: with the input in units half as large, the Markov parameter should be a quarter, and it is two fifths. |
| `C101_dmd_tolerance_violation` | **C101, violated.** With the same tolerance the methods keep different numbers of modes, and therefore different eigenvalues: for the vector (1/2), advanced to itself, and tolerance 1/3. |
| `C103_from_rank_zero_violation` | **C103, violated.** `print_from_rank_zero` writes messages for standard error to standard output, and accepts any channel. |
| `C104_put_destroys_pickle_violation` | **C104, violated.** A `put` that raises while the file is written destroys the vector that was in it: an object that cannot be pickled leaves a file that cannot be read. |
| `C104_put_destroys_text_violation` | **C104, violated.** The same for text files and an array without dimensions, for which `np.savetxt` raises after it has opened the file: the file is empty then. |
| `C105_short_arrays_violation` | **C105, the impulse response must have died out.** The data are those of the impulse response 1, 2, 4, 8, and zero from then on, of a stable system. But `compute_ERA_model` uses arrays with one block, so that the model has the eigenvalue 2 and its impulse response doubles in every step. |
| `C108_bpod_one_handle_violation` | The decomposition of `BPODHandles` raises `TypeError` for one direct or one adjoint handle, whereas lists of one are accepted: the handles are sliced before they are made a list. |
| `C108_dmd_one_handle_violation` | Dynamic mode decomposition of one handle with one advanced handle raises `TypeError`, and so do projected and adjoint modes from one handle, whereas lists of one are accepted. |
| `C10_aliasing_depends_on_memory_limit_violation` | With sum handles writing where basis handles read, the result depends on the memory limit: shifting three numbers cyclically gives different results for limits 3 and 4. |
| `C10_aliasing_race_violation` | **C10, violation for several processes: a race.** Two processes, two basis vectors, four sums, two vectors in memory per process, and the first sum is put onto the second basis vector. There are two runs, both to the end of the program and without error, that leave different vectors in place 2: there is no barrier between rank 0 putting the first sum and rank 1 reading the second basis vector for the next round of sums. |
| `C112_block_violation` | If the first inner product is an integer, others lose their fractions, and for an empty list `IndexError` is raised. |
| `C13_base_of_base_ignored_violation` | Base handles in memory compare by the vector they store, so one with a base of its own is taken for one without. |
| `C13_is_complex_of_base_ignored_violation` | Text handles compare by path only, so a base read as real numbers is used where the same file should be read as complex numbers. |
| `C13_scale_of_base_ignored_violation` | The cache ignores the scale of base handles: for base handles of one file with scales 1 and 3, the second vector is read with the first base. |
| `C13_stale_base_after_put_violation` | The cache survives a `put` to the base handle: after the base vector is changed from 1 to 5, a vector 10 on it is still read as 10 - 1. |
| `C15_integers_not_restored_violation` | Every integer from 1 to 2^52 - 1 comes back as another number: it is divided by 2^1074. |
| `C15_no_integer_restored_violation` | No 64-bit integer other than zero comes back with its value. |
| `C15_some_integers_read_back_violation` | Some integers and what they come back as: the bits of 1.0, -2.5 and of the largest finite number. |
| `C16_single_signal_repeated_violation` | A file with one signal is accepted next to files with more, and its signal is silently repeated. |
| `C20_type_error_violation` | Without an absolute tolerance, every array said to be positive definite that has a negative eigenvalue, such as one from rounding, raises `TypeError`. |
| `C20_zero_eigenvalues_returned_violation` | Without an absolute tolerance, zero eigenvalues of an array said to be positive definite are returned, although only positive ones are promised. |
| `C25_incomplete_chunks_violation` | **C25 fails** for `BPODHandles` if the adjoint vectors do not fill complete chunks: `compute_decomp` raises nothing, but takes the last row of the array from the wrong adjoint vectors. Here the system multiplies by 2, with input 1 and outputs 1 and 5; an inner product that is 2 is 10 in the array. |
| `C26_invariance_needed_violation` | It is not enough that the advanced vectors are the images of the vectors: the map with rows (1, 0) and (1, 5) takes (1, 0) to (1, 1), but the exact mode (1, 1) is not an eigenvector of it. |
| `C28_handles_ignored_violation` | On handles the relative tolerance has no effect at all. |
| `C28_handles_violation` | The correlation array of (2, 0) and (0, 1) has the eigenvalues 4 and 1. With the relative tolerance 1/2 both are retained on handles, for every library and absolute tolerances below 1. |
| `C28_tls_handles_ignored_violation` | On handles the relative tolerance has no effect at all. |
| `C28_tls_handles_violation` | With the relative tolerance 1/2 both eigenvalues 8 and 2 of the sum correlation array of (2, 0) and (0, 1), taken for vectors and advanced vectors, are retained on handles, for every library and absolute tolerances below 2. |
| `C29_kept_advanced_vectors_violation` | If advanced vectors were given before, exact modes for a sequence are linear combinations of those and not of the vectors of the sequence. |
| `C29_tls_kept_advanced_vectors_violation` | If advanced vectors were given before, exact modes for a sequence are linear combinations of those and not of the vectors of the sequence. |
| `C29_tls_violation` | After a decomposition of the unit vectors with the advanced vectors (1, 0) and (0, 5), the first exact mode of the sequence (1, 0), (0, 1), (-2, 3) is (-2, 5); with a new object it is (-2, 1). |
| `C29_violation` | After a decomposition of the unit vectors with the advanced vectors (1, 0) and (0, 5), the first exact mode of the sequence (1, 0), (0, 1), (-2, 3) is (-2, 5); with a new object it is (-2, 1), an eigenvector of the map that takes each vector of the sequence to the next. |
| `C30_violation` | For complex data the spectral coefficients of the snapshot method are in general not the magnitudes of projection coefficients, although the eigenvalues are distinct and not zero. |
| `C32_small_steps_violation` | The tolerance is absolute: increasing times with steps no larger than the tolerance are accepted, however unequal the steps are. |
| `C34_default_not_maximal_violation` | The default is not maximal: one more block row and column are always possible, and two more never are. |
| `C34_index_error_violation` | All choices that pass the guard and need more data than given raise `IndexError`. |
| `C34_sufficient_data_refused_violation` | On the other hand the guard refuses one block of each kind for a series of one pair of Markov parameters, of which no more is needed. |
| `C35_constructor_ignored_violation` | Numbers of blocks given to the constructor are kept as attributes but have no effect on any result: objects made with any two choices give the same result for every call. |
| `C36_small_parameters_violation` | **C36 fails** for small Markov parameters: for the input `1e-14` the Hankel array has rank one, but the model has no state, and its Markov parameters are zero. |
| `C42_complex_violation` | **C42, negation for complex systems.** The code uses the transpose of arrays that were computed with conjugates. If arrays are complex, a solver and a library that obey everything that is asked of them can then give a model of full order with another impulse response: that of the system with `A = 1/2`, `B = 1`, `C = 1` has `A = -1/2`, `B = -1`, `C = 1`, as the left singular vectors are determined up to factors of modulus one only. |
| `C42_unsolvable_violation` | There are stable discrete-time systems, even those with the state matrix zero, for which the equation the code sets up has no solution at all. |
| `C42_unstable_violation` | For a stable system with two states, truncation to one state returns an unstable model, for all libraries: the eigenvalues of the system are less than one in modulus, that of the model is 6/5. |
| `C42_violation` | For two states that do not interact, of which the slow one (eigenvalue 9/10) has the Hankel singular value 100/19 and the fast one (1/10) 100/99, truncation to one state keeps the fast one and returns 5 as the largest singular value, for all libraries. |
| `C43_empty_extension_violation` | With the empty extension, in which every name ends, no file is returned: names are not empty. |
| `C44_complex_violation` | For complex data the eigenvectors of `PODHandles` are complex and the eigenvalues real. With the default loader the eigenvectors come back as real arrays with two columns for each, and the coefficients of modes are ValueError; as complex numbers the eigenvalues are ValueError. |
| `C44_dmd_single_violation` | A single eigenvalue of `DMDHandles`, real or complex, comes back as a number without axes, even from a place that gives arrays back exactly. |
| `C44_dmd_violation` | The eigenvalues of `DMDHandles` are complex numbers (`scipy.linalg.eig` returns complex eigenvalues also for real matrices), and those of its correlation array are real. A decomposition saved to text files is not got back, however the files are loaded: with the default, two real numbers come back for each eigenvalue; as complex numbers, the eigenvalues of the correlation array are ValueError. |
| `C44_single_violation` | A decomposition with one eigenvalue, put to places that give back arrays exactly or text files: the eigenvalue comes back without dimension. With it, the coefficients of the modes are ValueError, while they could be computed before, and it cannot be saved to a text file. |
| `C45_single_weight_refused_violation` | Weights for vectors with a single entry are refused in every format, although they are one- or two-dimensional. |
| `C46_sign_violation` | An addition that changes the sign of the vector in place is not detected. |
| `C46_small_violation` | For vectors with a small norm nothing is detected: operations that do nothing are accepted. |
| `C49_raising_function_blocks_other_ranks_violation` | **C49**, violated when `func` raises: with two or more processes, if `func` raises on rank 0 then in no interleaving does rank 1 ever return from `call_and_bcast` (it waits in the broadcast's first round for a message that is never sent). |
| `C51_mixed_types_truncated_violation` | The array has the type of the first inner product, so if that is an integer, later products lose their fractions: with products 1 and 1/2 the second entry is 0. |
| `C52_memory_order_violation` | A complex array whose rows are not contiguous in memory cannot be saved, while the same numbers in the usual order can. |
| `C53_limit_exceeded_in_exchange_violation` | While vectors are passed around, a process holds the column vectors that it sends and those that it receives. With two processes, a limit of three and four rows and columns, rank 0 then has four vectors. |
| `C54_hankel_real_violation` | Of complex Markov parameters the Hankel arrays keep the real parts only. |
| `C54_okid_inputs_violation` | Imaginary parts of the inputs are ignored. |
| `C54_okid_real_violation` | All computed Markov parameters are real numbers, whatever the signals are. |
| `C54_okid_type_violation` | With complex outputs more than one Markov parameter cannot be computed. |
| `C54_okid_violation` | The feedthrough of the system `y = u` is computed as zero if all signals are imaginary. |
| `C54_sampled_format_real_violation` | `make_sampled_format` loses imaginary parts as well. |
| `C55_methods_differ_violation` | With the same tolerance the method of snapshots and the direct method retain different numbers of modes: for the array with the one entry 1/2 and tolerance 1/3, the only eigenvalue of the correlation array is 1/4; the direct method retains it although it is below the tolerance. |
| `C58_violation` | With the relative tolerance 1/2, the snapshot method retains for the data (2, 0), (0, 1) and the advanced data (2, 0), (0, 3) both eigenvalues 4 and 1 of the projected correlation array, for every library. |
| `C60_failed_decomp_violation` | If `compute_decomp` raises an exception, because there is no complete chunk, modes are computed without an exception from the new vectors and the old decomposition. Here the new direct vector is 2, the adjoint vector 1, and the decomposition that of the vectors 1; the modes are not orthonormal to each other: their product is 2. |
| `C60_stale_coefficients_violation` | After a new decomposition, `put_proj_coeffs` puts the coefficients of the old data, until coefficients are computed: here those of one vector, although two were decomposed. |
| `C63_nan_violation` | Whatever differs from itself, as not-a-number does, makes arrays, handles and vector spaces differ from themselves. |
| `C63_same_inner_products_violation` | Spaces without weights, with weights one, and with the identity array compute the same inner products of data with two rows, but differ. |
| `C66_complex_violation` | Complex arrays with two dimensions, such as the correlation array of complex vectors, come back from text files as real arrays with twice as many columns. |
| `C66_spectral_coeffs_violation` | Spectral coefficients of DMD, which are real and one-dimensional, come back from text files as a two-dimensional array with one column. |
| `C69_degree_zero_violation` | VIOLATION: for degree zero, whose polynomial has no zeros, `herroots` returns one node, which is zero. |
| `C75_symmetric_warning_violation` | **C75, violated.** The warning of `compute_symm_inner_product_array` says that each of the three vectors will be retrieved two times; the second one is retrieved once. |
| `C75_upper_triangle_violation` | **C75, violated.** "Efficiency is achieved by only computing the upper-triangular elements": with two ranks and two vectors, both mirrored entries are computed; with three ranks and three vectors, an entry below the diagonal is computed in place of the one above. |
| `C76_inner_product_estimate_violation` | **C76, violated.** On one process with three vectors in memory, four rows and four columns: if a `get` takes three seconds and an inner product no time, `compute_inner_product_array` announces "at least" one minute, but its calls take three quarters of a minute. |
| `C76_lin_combine_estimate_violation` | **C76, violated.** The same for `lin_combine` with one basis vector and four sums: a quarter of a minute announced, a fifth needed. |
| `C76_symmetric_estimate_violation` | **C76, violated.** The same for `compute_symm_inner_product_array` with four vectors: half a minute announced, two fifths needed. |
| `C78_small_weight_task_lost_violation` | With positive weights a task can be lost: one worker, two tasks with weights 2^54 and 1. Their sum is rounded to the first of them, however ties are broken, and the second task is assigned to nobody. |
| `C79_lin_combine_equal_columns_violation` | **C79, violated.** Equal columns of coefficients need not give equal vectors, as the sums are calculated by different ranks in different orders: on three processes, with the same basis vectors and two columns of coefficients 1, the first sum is 0 and the second one is 1. |
| `C79_lin_combine_processes_violation` | **C79, violated.** In double precision the result of `lin_combine` depends on the number of processes: with the basis vectors `2 ^ 54`, `- 2 ^ 54`, `1` and coefficients 1 it is 1 on one process and 0 on three. |
| `C83_error_violation` | The comment in the tutorial says that the error is less than 10%. With nine singular values 10 and one 9 there are nine modes, and the singular value left out, which is the error in the worst case, is 90% of the largest one. In the mean the error is more than 28%. |
| `C83_hankel_violation` | The snapshots of the third tutorial are no impulse responses of a system and its adjoint. The first direct one is zero, so that half of the array is zero, and is not the array of inner products. |
| `C83_quadrature_violation` | Scales that are quadrature weights, as in the fifth tutorial, do not give the modes that are best for the quadrature. For the vectors (2, 0) with weight 1 and (0, 1) with weight 3 the sum with these weights of the squared errors is at least 4 with the first mode, whatever the coefficients, but 3 with the vector (1, 0). |
| `C84_others_wait_violation` | **C84, violated: the other processes do not learn of it.** If a function of the user raises on one rank only, then the other ranks neither raise nor return: there is a bound on what they can do, and in every interleaving they stay in the method. |
| `C84_some_sums_written_violation` | **C84, violated: not all or nothing.** `lin_combine` with one basis vector, two sums and two vectors in memory, on one process: `get` of the basis vector raises when it is read for the second sum. The first sum is in its place already. |
| `C87_attribute_violation` | The methods that save one attribute and those that load one, as `put_proj_coeffs` and `get_proj_coeffs`: what one process raises is raised by rank 0 only. |
| `C87_bpod_decomp_violation` | `BPODHandles.compute_decomp`, if there are vectors, inputs and outputs: what one process raises is raised by rank 0 only. |
| `C87_bpod_get_violation` | `BPODHandles.get_decomp`: what one process raises is raised by rank 0 only. |
| `C87_call_violation` | If what rank 0 calls for all in `parallel.call_and_bcast` raises, then in every interleaving only rank 0 raises, and the other processes wait for the broadcast for ever. |
| `C87_dmd_pairs_violation` | `compute_decomp` of `DMDHandles` for vectors and as many advanced vectors: what one process raises, if there are vectors, is raised by rank 0 only. |
| `C87_dmd_sequential_violation` | `compute_decomp` of `DMDHandles` for a sequence of vectors: what one process raises, if there are vectors, is raised by rank 0 only. |
| `C87_load_violation` | If `get_array` raises, as when there is no such file, then in every interleaving only rank 0 raises, and the other processes wait for the broadcast for ever. |
| `C87_pod_decomp_violation` | `PODHandles.compute_decomp`, if there are vectors: what one process raises is raised by rank 0 only. |
| `C87_pod_get_violation` | `PODHandles.get_decomp`: what one process raises is raised by rank 0 only. |
| `C87_save_violation` | If an array cannot be put, as there is none yet or it cannot be written, then in every interleaving only rank 0 raises, and the other processes wait at the barrier for ever. |
| `C87_tls_pairs_violation` | `compute_decomp` of `TLSqrDMDHandles` for vectors and as many advanced vectors: what one process raises, if there are vectors, is raised by rank 0 only. |
| `C87_tls_sequential_violation` | `compute_decomp` of `TLSqrDMDHandles` for a sequence of vectors: what one process raises, if there are vectors, is raised by rank 0 only. |
| `C88_rmul_violation` | The guide asks of a class of vectors that it defines `__mul__` and `__add__`. A class that defines no more passes `sanity_check`, whatever its vectors, but every linear combination of its vectors raises TypeError, since `2. * vector` needs `__rmul__`. |
| `C88_sharing_violation` | A product that returns the vector itself if the factor is 1 has the right values, and `sanity_check` accepts it, as it only multiplies by 2. If `+=` works in place, then `x + y`, computed twice, is `x + 2 y`, and this also replaces `x`. |
| `C88_types_violation` | With real coefficients, the sum of a real and a complex array raises TypeError if the real one comes first, and is computed if the complex one comes first. |
| `C89_still_empty_violation` | On several processes, each handle in memory for a sum is still empty afterwards on all processes but one, in every interleaving, although no process raises. |
| `C90_exact_violation` | For the vector (1, 0), the advanced vector (1, 1) and the exact mode, a multiple of (1, 1), the coefficient that is returned is twice that of the least-squares projection. |
| `C94_default_tolerance_has_units_violation` | With an absolute tolerance that is not changed with the units, such as the default one of `1e-13`, the number of modes depends on the units: a length of one metre has one mode, the same length of 1e-7 (in units of ten thousand kilometres) has none. |
| `C95_truncation_violation` | **C95, violated.** If `max_num_eigvals` leaves out some of the eigenvectors with the same eigenvalue, results depend on which ones the library puts first. The two unit vectors are advanced to once and twice themselves; the only eigenvalue is 1 or 2. |
| `C98_equal_values_violation` | **C98 fails** if equal singular values are separated: for two equal outputs the model with one state has whichever of them the library returns first, so that Markov parameters of the models of two correct libraries differ. So do those of one library if inputs and outputs are exchanged, which leaves the data as they are. |
| `C98_units_violation` | **C98 fails** for units in which the data are small: the model of the same data in other units has no state. |
| `C99_lin_combine_violation` | **C99, violated.** With two basis vectors the percentages of `lin_combine` go down: 0, 50, 0, 50. |
| `C99_parallel_violation` | **C99, violated.** One row and two columns on two processes: "Completed 200.0% of inner products". |
| `C99_symmetric_parallel_violation` | **C99, violated.** Two vectors on two processes: "Completed 133.3% of inner products". |
| `C99_zero_violation` | **C99, violated.** Inner products that are zero are taken for inner products that have not been computed: "Completed 0.0%" after the only one was. |

## Functions and their models

<!-- coverage begin -->
| File | Function | Definitions of the model |
|---|---|---|
| `parallel.py` | `get_hostname` | not modelled: input of the model (names of hosts) |
| `parallel.py` | `get_node_ID` | not modelled: returns a stored number; see `nodeID` |
| `parallel.py` | `get_num_nodes` | `ParallelState.getNumNodes` |
| `parallel.py` | `get_num_MPI_workers` | `ParallelState.getNumMPIWorkers` |
| `parallel.py` | `get_rank` | `ParallelState.getRank` |
| `parallel.py` | `get_num_procs` | `ParallelState.getNumProcs` |
| `parallel.py` | `is_distributed` | `ParallelState.isDistributed` |
| `parallel.py` | `is_rank_zero` | `ParallelState.isRankZero` |
| `parallel.py` | `barrier` | not modelled: the barrier of MPI; a step of the model of processes |
| `parallel.py` | `print_from_rank_zero` | `printFromRankZero`, `callFromRankZeroProg` |
| `parallel.py` | `call_from_rank_zero` | `callLocal`, `callFromRankZeroProg` |
| `parallel.py` | `bcast` | `callBcastRound`, `bcastValsProg`, `bcastRound` |
| `parallel.py` | `call_and_bcast` | `callLocal`, `callBcastRound`, `callAndBcastProg`, `bcastRound`, `callStage`, `loadRounds` |
| `parallel.py` | `find_assignments` | `cumsumFrom`, `cumsum`, `argmin`, `assignLoop`, `findAssignments`, `cumsumFl`, `sumFl`, `assignLoopFl`, `findAssignmentsFl` |
| `parallel.py` | `check_for_empty_tasks` | `checkForEmptyTasks` |
| `reductions.py` | `Intracomm.__new__` | not modelled: construction of the communicator |
| `reductions.py` | `Intracomm.reduce` | `masksFrom`, `andNot`, `reduceRound`, `forwardRound`, `reduceProg`, `reduceReturn`, `locInput` |
| `reductions.py` | `Intracomm.allreduce` | `bcastRound`, `allreduceProg` |
| `reductions.py` | `Intracomm.scan` | `masksFrom`, `locInput`, `scanRound`, `scanProg`, `scanInit` |
| `reductions.py` | `Intracomm.exscan` | `masksFrom`, `locInput`, `exscanRound`, `exscanProg`, `exscanInit`, `exscanReturn` |
| `vectors.py` | `VecHandle.__init__` | `Handle` |
| `vectors.py` | `VecHandle.get` | `Handle.get`, `trySubScale`, `Handle.tryGet`, `HeldObjects.get` |
| `vectors.py` | `VecHandle.put` | `Handle.put`, `Handle.tryPut` |
| `vectors.py` | `VecHandle._get` | not modelled: abstract; raises `NotImplementedError` |
| `vectors.py` | `VecHandle._put` | not modelled: abstract; raises `NotImplementedError` |
| `vectors.py` | `VecHandle.__scale_vec` | `scaleVec`, `tryScale` |
| `vectors.py` | `VecHandleInMemory.__init__` | `Place`, `heldAfter`, `HeldObjects` |
| `vectors.py` | `VecHandleInMemory._get` | `Place`, `rawGet`, `tryRead`, `heldAfter`, `HeldObjects`, `HeldObjects.get` |
| `vectors.py` | `VecHandleInMemory._put` | `Place`, `rawPut`, `tryWrite`, `heldAfter`, `HeldObjects` |
| `vectors.py` | `VecHandleInMemory.__eq__` | `inMemoryEq`, `handleEq` |
| `vectors.py` | `VecHandleArrayText.__init__` | not modelled: stores its arguments |
| `vectors.py` | `VecHandleArrayText._get` | `rawGet`, `tryRead` |
| `vectors.py` | `VecHandleArrayText._put` | `rawPut`, `tryWrite` |
| `vectors.py` | `VecHandleArrayText.__eq__` | `handleEq` |
| `vectors.py` | `VecHandlePickle.__init__` | not modelled: stores its arguments |
| `vectors.py` | `VecHandlePickle._get` | `rawGet`, `tryRead` |
| `vectors.py` | `VecHandlePickle._put` | `rawPut`, `tryWrite` |
| `vectors.py` | `VecHandlePickle.__eq__` | `handleEq` |
| `vectors.py` | `inner_product_array_uniform` | `innerProductArrayUniform` |
| `vectors.py` | `InnerProductTrapz.__init__` | `innerProductTrapzInit` |
| `vectors.py` | `InnerProductTrapz.__call__` | not modelled: calls `inner_product`, see `innerProductTrapz` |
| `vectors.py` | `InnerProductTrapz.inner_product` | `innerProductTrapz` |
| `vectors.py` | `Vector.__init__` | `vectorBase` |
| `vectors.py` | `Vector.__add__` | `vectorBase` |
| `vectors.py` | `Vector.__mul__` | `vectorBase` |
| `vectors.py` | `Vector.__rmul__` | `vectorRmul` |
| `vectors.py` | `Vector.__lmul__` | `vectorRmul` |
| `vectors.py` | `Vector.__sub__` | `vectorSub`, `CustomVector.sub` |
| `vectorspace.py` | `VectorSpaceArrays.__init__` | `arraysInit` |
| `vectorspace.py` | `VectorSpaceArrays._IP_no_weights` | `ipArray` |
| `vectorspace.py` | `VectorSpaceArrays._IP_1D_weights` | `ipArray` |
| `vectorspace.py` | `VectorSpaceArrays._IP_2D_weights` | `ipArray` |
| `vectorspace.py` | `VectorSpaceArrays.compute_symm_inner_product_array` | `symmIpArray` |
| `vectorspace.py` | `VectorSpaceArrays.lin_combine` | `linCombineArrays` |
| `vectorspace.py` | `VectorSpaceArrays.__eq__` | `weightsEq` |
| `vectorspace.py` | `VectorSpaceArrays.__ne__` | `weightsNe` |
| `vectorspace.py` | `VectorSpaceHandles.__init__` | `limitsFl`, `constructorMessages`, `limits` |
| `vectorspace.py` | `VectorSpaceHandles._check_inner_product` | not modelled: first line of the models that raise `RuntimeError` (C07) |
| `vectorspace.py` | `VectorSpaceHandles.print_msg` | `vsPrintMsg`, `printMsgs` |
| `vectorspace.py` | `VectorSpaceHandles.sanity_check` | `sanityTol`, `sanityCheck` |
| `vectorspace.py` | `VectorSpaceHandles.compute_inner_product_array` | `innerProductsOf`, `ceilDivFl`, `fillCalls`, `getRowsL`, `takeColsL`, `colPassL`, `ipLoopsL`, `ipWarning`, `ipBurn`, `ipCalls`, `ipEstimate`, `handlesIp`, `loopMessages`, `printed`, `progressMessages`, `countNonzero`, `ipPercent`, `ipMarked`, `ipReports`, `ipStage`, `maxLen`, `rangeTasks`, `ringRound`, `ipInit`, `fillOne`, `fill`, `chunkBounds`, `getRows`, `takeCols`, `packCols`, `ownCols`, `colPass`, `allreduceArr`, `ipProg`, `computeInnerProductArray` |
| `vectorspace.py` | `VectorSpaceHandles.compute_symm_inner_product_array` | `symmInnerProductsOf`, `ceilDivFl`, `fillCalls`, `ownTriangleL`, `exchangeRoundL`, `symmChunkL`, `symmLoopsL`, `symmWarning`, `symmBurn`, `symmCalls`, `symmEstimate`, `handlesSymmIp`, `printed`, `progressMessages`, `countTriu`, `symmPercent`, `symmMarked`, `symmReports`, `rowStates`, `exchangeStates`, `rectStates`, `symmWatched`, `symmPercentAll`, `symmReportsAll`, `ipStage`, `maxLen`, `rangeTasks`, `ringRound`, `ipInit`, `fillOne`, `fill`, `allreduceArr`, `ownTriangle`, `exchangeRound`, `rectCols`, `symmChunk`, `symmProg`, `symmetrize`, `computeSymmInnerProductArray` |
| `vectorspace.py` | `VectorSpaceHandles.lin_combine` | `columnsOf`, `combineOf`, `ceilDivFl`, `linCombineSized`, `takeBasisL`, `lcProgL`, `lcWarning`, `lcBurn`, `combineCalls`, `lcEstimate`, `handlesLinCombine`, `combineAttr`, `printed`, `progressMessages`, `combineReports`, `putOne`, `putRound`, `lcShared`, `lcCalls`, `lcCoeffs`, `lcStage`, `burnObj`, `layerObj`, `basisObj`, `roundObj`, `linCombineObj`, `maxLen`, `rangeTasks`, `ringRound`, `chunkBounds`, `startSums`, `addLayer`, `addLayers`, `takeBasis`, `ownBasis`, `putSums`, `lcProg`, `coeff2d`, `selectCols`, `linCombine`, `storeRound`, `linCombineStore` |
| `vectorspace.py` | `VectorSpaceHandles.__eq__` | `HandleSpace.eq` |
| `vectorspace.py` | `VectorSpaceHandles.__ne__` | `HandleSpace.ne` |
| `util.py` | `atleast_2d_row` | `atleast2dRow`, `signals2d`, `coeff2d` |
| `util.py` | `atleast_2d_col` | `columnsOf`, `atleast2dCol`, `colOf`, `coeff2d` |
| `util.py` | `make_iterable` | `makeIterable` |
| `util.py` | `flatten_list` | `flattenList` |
| `util.py` | `save_array_text` | `tryWrite`, `saveForPut`, `toSave`, `saveArrayText` |
| `util.py` | `load_array_text` | `loadForGet`, `loadArrayText` |
| `util.py` | `get_file_list` | `getFileList` |
| `util.py` | `get_data_members` | `getDataMembers` |
| `util.py` | `sum_arrays` | `sumArrays` |
| `util.py` | `sum_lists` | `sumLists` |
| `util.py` | `smart_eq` | `smartEq` |
| `util.py` | `InnerProductBlock.__init__` | `innerProductBlock` |
| `util.py` | `InnerProductBlock.__call__` | `innerProductBlock` |
| `util.py` | `svd` | `svdAtol`, `numAbove`, `numRetained`, `utilSvd` |
| `util.py` | `eigh` | `numAbove`, `numRetained`, `adjustTol`, `utilEigh` |
| `util.py` | `eig_biorthog` | `eigBiorthog` |
| `util.py` | `balanced_truncation` | `balancedTruncation` |
| `util.py` | `drss` | `drss` |
| `util.py` | `rss` | `rss` |
| `util.py` | `lsim` | `lsim` |
| `util.py` | `impulse` | `impulse` |
| `util.py` | `load_signals` | `loadSignals` |
| `util.py` | `load_multiple_signals` | `allclose`, `assignSignals`, `loadLoop`, `loadMultipleSignals` |
| `util.py` | `Hankel` | `hankel` |
| `util.py` | `Hankel_chunks` | `hankelChunks` |
| `pod.py` | `compute_POD_arrays_snaps_method` | `podSnaps`, `podSnapsChecked` |
| `pod.py` | `compute_POD_arrays_direct_method` | `podDirectSvd`, `podDirect`, `podDirectChecked` |
| `pod.py` | `PODHandles.__init__` | `PodObj.new` |
| `pod.py` | `PODHandles.get_decomp` | `podGetDecomp`, `PodObj.getDecomp`, `podGetStages` |
| `pod.py` | `PODHandles.get_correlation_array` | `PodObj.getCorr`, `podGetCorrelationArray` |
| `pod.py` | `PODHandles.get_proj_coeffs` | `PodObj.getProjCoeffs`, `podGetProjCoeffs` |
| `pod.py` | `PODHandles.put_decomp` | `podPutDecomp`, `saveEach`, `podPutStages` |
| `pod.py` | `PODHandles.put_eigvals` | `podPutDecomp`, `saveEach`, `podPutStages` |
| `pod.py` | `PODHandles.put_eigvecs` | `podPutDecomp`, `saveEach`, `podPutStages` |
| `pod.py` | `PODHandles.put_correlation_array` | `saveEach`, `podPutCorrelationArray` |
| `pod.py` | `PODHandles.put_proj_coeffs` | `PodObj.putProjCoeffs`, `saveEach`, `podPutProjCoeffs` |
| `pod.py` | `PODHandles.sanity_check` | not modelled: calls `VectorSpaceHandles.sanity_check`, see `Model/Sanity` |
| `pod.py` | `PODHandles.compute_eigendecomp` | `PodObj.computeEigendecomp`, `podEigen` |
| `pod.py` | `PODHandles.compute_decomp` | `PodArgs.computeDecomp`, `podHandlesDecomp`, `PodObj.computeDecomp`, `podDecompStages` |
| `pod.py` | `PODHandles.compute_modes` | `PodArgs.computeModes`, `modeCoeffs`, `podHandlesModes`, `PodObj.computeModes`, `podBuild`, `podModesStages` |
| `pod.py` | `PODHandles.compute_proj_coeffs` | `podHandlesProjCoeffs`, `PodObj.computeProjCoeffs` |
| `bpod.py` | `compute_BPOD_arrays` | `bpodHankel`, `bpodArrays`, `bpodArraysChecked` |
| `bpod.py` | `BPODHandles.__init__` | `BpodObj.new` |
| `bpod.py` | `BPODHandles.get_decomp` | `bpodGetDecomp`, `BpodObj.getDecomp`, `bpodGetStages` |
| `bpod.py` | `BPODHandles.get_Hankel_array` | `BpodObj.getHankel`, `bpodGetHankelArray` |
| `bpod.py` | `BPODHandles.get_direct_proj_coeffs` | `BpodObj.getDirectProjCoeffs`, `bpodGetDirectProjCoeffs` |
| `bpod.py` | `BPODHandles.get_adjoint_proj_coeffs` | `BpodObj.getAdjointProjCoeffs`, `bpodGetAdjointProjCoeffs` |
| `bpod.py` | `BPODHandles.put_decomp` | `bpodPutDecomp`, `saveEach`, `bpodPutStages` |
| `bpod.py` | `BPODHandles.put_sing_vals` | `bpodPutDecomp`, `saveEach`, `bpodPutStages` |
| `bpod.py` | `BPODHandles.put_L_sing_vecs` | `bpodPutDecomp`, `saveEach`, `bpodPutStages` |
| `bpod.py` | `BPODHandles.put_R_sing_vecs` | `bpodPutDecomp`, `saveEach`, `bpodPutStages` |
| `bpod.py` | `BPODHandles.put_Hankel_array` | `saveEach`, `bpodPutHankelArray` |
| `bpod.py` | `BPODHandles.put_direct_proj_coeffs` | `BpodObj.putDirectProjCoeffs`, `saveEach`, `bpodPutDirectProjCoeffs` |
| `bpod.py` | `BPODHandles.put_adjoint_proj_coeffs` | `BpodObj.putAdjointProjCoeffs`, `saveEach`, `bpodPutAdjointProjCoeffs` |
| `bpod.py` | `BPODHandles.compute_SVD` | `BpodObj.computeSvd`, `bpodSvdCall` |
| `bpod.py` | `BPODHandles.sanity_check` | not modelled: calls `VectorSpaceHandles.sanity_check`, see `Model/Sanity` |
| `bpod.py` | `BPODHandles.compute_decomp` | `bpodSlices`, `bpodHankel`, `bpodHandlesDecomp`, `BpodObj.computeDecomp`, `bpodListsCall`, `bpodHankelCall`, `bpodDecompStages` |
| `bpod.py` | `BPODHandles.compute_direct_modes` | `bpodModesOf`, `bpodHandlesDirectModes`, `modeCoeffs`, `BpodObj.computeDirectModes`, `bpodDirectBuild`, `bpodModesStages` |
| `bpod.py` | `BPODHandles.compute_adjoint_modes` | `bpodModesOf`, `bpodHandlesAdjointModes`, `modeCoeffs`, `BpodObj.computeAdjointModes`, `bpodAdjointBuild`, `bpodModesStages` |
| `bpod.py` | `BPODHandles.compute_direct_proj_coeffs` | `bpodHandlesDirectProjCoeffs`, `BpodObj.computeDirectProjCoeffs` |
| `bpod.py` | `BPODHandles.compute_adjoint_proj_coeffs` | `bpodHandlesAdjointProjCoeffs`, `BpodObj.computeAdjointProjCoeffs` |
| `dmd.py` | `compute_DMD_arrays_snaps_method` | `Eigh.truncate`, `lowOrderMap`, `dmdFinish`, `dmdEigendecomp`, `dmdSnapsRest`, `dmdSnapsSeq`, `dmdSnapsPairs`, `dmdSnapsSeqChecked`, `dmdSnapsPairsChecked` |
| `dmd.py` | `compute_DMD_arrays_direct_method` | `Svd.truncate`, `lowOrderMap`, `dmdFinish`, `directSqrtWeights`, `directCorr`, `dmdDirectRest`, `dmdDirectSeq`, `dmdDirectPairs`, `dmdDirectSeqChecked`, `dmdDirectPairsChecked` |
| `dmd.py` | `DMDHandles.__init__` | `DmdHandles.new` |
| `dmd.py` | `DMDHandles.get_decomp` | `dmdGetDecomp`, `dmdGetStages` |
| `dmd.py` | `DMDHandles.get_correlation_array` | `dmdGetCorrelationArray` |
| `dmd.py` | `DMDHandles.get_cross_correlation_array` | `dmdGetCrossCorrelationArray` |
| `dmd.py` | `DMDHandles.get_spectral_coeffs` | `dmdGetSpectralCoeffs` |
| `dmd.py` | `DMDHandles.get_proj_coeffs` | `dmdGetProjCoeffs`, `dmdGetProjStages` |
| `dmd.py` | `DMDHandles.put_decomp` | `dmdPutDecomp`, `saveEach`, `dmdPutStages` |
| `dmd.py` | `DMDHandles.put_eigvals` | `dmdPutDecomp`, `saveEach`, `dmdPutStages` |
| `dmd.py` | `DMDHandles.put_R_low_order_eigvecs` | `dmdPutDecomp`, `saveEach`, `dmdPutStages` |
| `dmd.py` | `DMDHandles.put_L_low_order_eigvecs` | `dmdPutDecomp`, `saveEach`, `dmdPutStages` |
| `dmd.py` | `DMDHandles.put_correlation_array_eigvals` | `dmdPutDecomp`, `saveEach`, `dmdPutStages` |
| `dmd.py` | `DMDHandles.put_correlation_array_eigvecs` | `dmdPutDecomp`, `saveEach`, `dmdPutStages` |
| `dmd.py` | `DMDHandles.put_correlation_array` | `dmdPutDecomp`, `saveEach`, `dmdPutCorrelationArray`, `dmdPutStages` |
| `dmd.py` | `DMDHandles.put_cross_correlation_array` | `saveEach`, `dmdPutCrossCorrelationArray` |
| `dmd.py` | `DMDHandles.put_spectral_coeffs` | `saveEach`, `dmdPutSpectralCoeffs` |
| `dmd.py` | `DMDHandles.put_proj_coeffs` | `saveProjCoeffs`, `dmdPutProjCoeffs`, `dmdPutProjStages` |
| `dmd.py` | `DMDHandles.sanity_check` | not modelled: calls `VectorSpaceHandles.sanity_check`, see `Model/Sanity` |
| `dmd.py` | `DMDHandles.compute_eigendecomp` | `Eigh.truncate`, `lowOrderMap`, `dmdEigendecomp`, `DmdHandles.computeEigendecomp`, `dmdEighCall`, `dmdLow`, `dmdEigCall`, `dmdEigenStages` |
| `dmd.py` | `DMDHandles.compute_decomp` | `dmdCheckOf`, `dmdArraysSeq`, `dmdArraysPairs`, `DmdHandles.computeDecomp`, `dmdSeqStages`, `dmdPairStages` |
| `dmd.py` | `DMDHandles._compute_build_coeffs_exact` | `DmdDecomp.buildExact`, `DmdDecomp.build` |
| `dmd.py` | `DMDHandles._compute_build_coeffs_proj` | `DmdDecomp.buildProj`, `DmdDecomp.build` |
| `dmd.py` | `DMDHandles._compute_build_coeffs_adjoint` | `DmdDecomp.buildAdjoint`, `DmdDecomp.build` |
| `dmd.py` | `DMDHandles.compute_exact_modes` | `dmdExactModesOf`, `exactModesFrom`, `DmdHandles.computeExactModes`, `dmdPlaces`, `TlsHandles.computeExactModes` |
| `dmd.py` | `DMDHandles.compute_proj_modes` | `dmdSpanModesOf`, `spanModesFrom`, `DmdHandles.computeProjModes`, `dmdPlaces`, `TlsHandles.computeProjModes` |
| `dmd.py` | `DMDHandles.compute_adjoint_modes` | `dmdSpanModesOf`, `spanModesFrom`, `DmdHandles.computeAdjointModes`, `dmdPlaces`, `TlsHandles.computeAdjointModes` |
| `dmd.py` | `DMDHandles.compute_spectrum` | `DmdHandles.computeSpectrum` |
| `dmd.py` | `DMDHandles.compute_proj_coeffs` | `DmdHandles.computeProjCoeffs` |
| `dmd.py` | `compute_TLSqrDMD_arrays_snaps_method` | `tlsSnapsSeqChecked`, `tlsSnapsPairsChecked`, `tlsProjCorr`, `tlsLowOrderMap`, `tlsEigendecomp`, `tlsSpectralCoeffs`, `tlsFinish`, `tlsSnapsRest`, `tlsSnapsSeq`, `tlsSnapsPairs` |
| `dmd.py` | `compute_TLSqrDMD_arrays_direct_method` | `tlsDirectSeqChecked`, `tlsDirectPairsChecked`, `tlsDirectRest`, `tlsDirectSeq`, `tlsDirectPairs` |
| `dmd.py` | `TLSqrDMDHandles.__init__` | `TlsHandles.new` |
| `dmd.py` | `TLSqrDMDHandles.compute_eigendecomp` | `tlsSumCall`, `tlsTruncateSum`, `tlsProjCall`, `tlsLow`, `tlsEigenStages`, `tlsProjCorr`, `tlsLowOrderMap`, `tlsEigendecomp`, `TlsHandles.computeEigendecomp` |
| `dmd.py` | `TLSqrDMDHandles.compute_decomp` | `tlsSeqStages`, `tlsPairStages`, `tlsArraysSeq`, `tlsArraysPairs`, `TlsHandles.computeDecomp` |
| `dmd.py` | `TLSqrDMDHandles._compute_build_coeffs_exact` | `TlsDecomp.build`, `TlsDecomp.buildExact` |
| `dmd.py` | `TLSqrDMDHandles._compute_build_coeffs_proj` | `TlsDecomp.build`, `TlsDecomp.buildProj` |
| `dmd.py` | `TLSqrDMDHandles._compute_build_coeffs_adjoint` | `TlsDecomp.build`, `TlsDecomp.buildAdjoint` |
| `dmd.py` | `TLSqrDMDHandles.get_decomp` | `tlsqrGetDecomp`, `tlsqrGetStages` |
| `dmd.py` | `TLSqrDMDHandles.get_adv_correlation_array` | `tlsqrGetAdvCorrelationArray` |
| `dmd.py` | `TLSqrDMDHandles.get_sum_correlation_array` | `tlsqrGetSumCorrelationArray` |
| `dmd.py` | `TLSqrDMDHandles.get_proj_correlation_array` | `tlsqrGetProjCorrelationArray` |
| `dmd.py` | `TLSqrDMDHandles.put_decomp` | `tlsqrPutDecomp`, `saveEach`, `tlsqrPutStages` |
| `dmd.py` | `TLSqrDMDHandles.put_correlation_array_eigvals` | `tlsqrPutCorrelationArrayEig` |
| `dmd.py` | `TLSqrDMDHandles.put_correlation_array_eigvecs` | `tlsqrPutCorrelationArrayEig` |
| `dmd.py` | `TLSqrDMDHandles.put_sum_correlation_array_eigvals` | `saveEach` |
| `dmd.py` | `TLSqrDMDHandles.put_sum_correlation_array_eigvecs` | `saveEach` |
| `dmd.py` | `TLSqrDMDHandles.put_proj_correlation_array_eigvals` | `saveEach` |
| `dmd.py` | `TLSqrDMDHandles.put_proj_correlation_array_eigvecs` | `saveEach` |
| `dmd.py` | `TLSqrDMDHandles.put_adv_correlation_array` | `saveEach`, `tlsqrPutAdvCorrelationArray` |
| `dmd.py` | `TLSqrDMDHandles.put_sum_correlation_array` | `saveEach`, `tlsqrPutSumCorrelationArray` |
| `dmd.py` | `TLSqrDMDHandles.put_proj_correlation_array` | `saveEach`, `tlsqrPutProjCorrelationArray` |
| `dmd.py` | `TLSqrDMDHandles.compute_spectrum` | `TlsHandles.computeSpectrum` |
| `dmd.py` | `TLSqrDMDHandles.compute_proj_coeffs` | `TlsHandles.computeProjCoeffs` |
| `era.py` | `make_sampled_format` | `interleaveIndex`, `makeSampledFormat` |
| `era.py` | `compute_ERA_model` | `computeEraModel` |
| `era.py` | `ERA.__init__` | `eraInit` |
| `era.py` | `ERA.compute_model` | `eraHankel`, `eraReduce`, `eraModel` |
| `era.py` | `ERA.put_model` | `eraModel`, `eraPutModel` |
| `era.py` | `ERA.put_decomp` | `eraPutDecomp` |
| `era.py` | `ERA.put_sing_vals` | `eraPutSingVals` |
| `era.py` | `ERA._set_Markovs` | `setMarkovs` |
| `era.py` | `ERA._assemble_Hankel` | `blockCounts`, `setBlock`, `hankelStep`, `assembleHankel` |
| `okid.py` | `OKID` | `signals2d`, `okidWrite`, `okidData`, `okidEstimates`, `okid` |
| `ltigalerkinproj.py` | `standard_basis` | `standardBasis` |
| `ltigalerkinproj.py` | `compute_derivs_handles` | `derivStep`, `derivsRound`, `computeDerivsHandles` |
| `ltigalerkinproj.py` | `compute_derivs_arrays` | `computeDerivsArrays` |
| `ltigalerkinproj.py` | `LTIGalerkinProjectionBase.__init__` | `Galerkin` |
| `ltigalerkinproj.py` | `LTIGalerkinProjectionBase.put_A_reduced` | `saveEach`, `ltiPutModel` |
| `ltigalerkinproj.py` | `LTIGalerkinProjectionBase.put_B_reduced` | `saveEach`, `ltiPutModel` |
| `ltigalerkinproj.py` | `LTIGalerkinProjectionBase.put_C_reduced` | `saveEach`, `ltiPutModel` |
| `ltigalerkinproj.py` | `LTIGalerkinProjectionBase.put_model` | `saveEach`, `ltiPutModel`, `ltiPutStages` |
| `ltigalerkinproj.py` | `LTIGalerkinProjectionArrays.__init__` | `Galerkin`, `galerkinArraysInit` |
| `ltigalerkinproj.py` | `LTIGalerkinProjectionArrays.reduce_A` | `reduceAArrays` |
| `ltigalerkinproj.py` | `LTIGalerkinProjectionArrays.reduce_B` | `reduceBArrays` |
| `ltigalerkinproj.py` | `LTIGalerkinProjectionArrays.reduce_C` | `reduceCArrays` |
| `ltigalerkinproj.py` | `LTIGalerkinProjectionArrays._get_proj_array` | `galerkinProjArrays` |
| `ltigalerkinproj.py` | `LTIGalerkinProjectionArrays.compute_model` | `galerkinModelArrays` |
| `ltigalerkinproj.py` | `LTIGalerkinProjectionHandles.__init__` | `Galerkin`, `galerkinHandlesInit`, `galerkinPlacesNew` |
| `ltigalerkinproj.py` | `LTIGalerkinProjectionHandles.reduce_A` | `reduceAHandles`, `galerkinReduceStages` |
| `ltigalerkinproj.py` | `LTIGalerkinProjectionHandles.reduce_B` | `reduceBHandles`, `galerkinReduceStages` |
| `ltigalerkinproj.py` | `LTIGalerkinProjectionHandles.reduce_C` | `reduceCHandles` |
| `ltigalerkinproj.py` | `LTIGalerkinProjectionHandles.compute_model` | `galerkinModelHandles`, `galerkinModelStages` |
| `ltigalerkinproj.py` | `LTIGalerkinProjectionHandles._get_proj_array` | `galerkinProjHandles`, `galerkinProjStages` |
| `py2to3.py` | `run_script` | not modelled: runs the examples of the tutorials |
| `py2to3.py` | `print_stdout` | `printStdout` |
| `py2to3.py` | `print_stderr` | `printStderr` |
| `py2to3.py` | `print_msg` | `printMsg` |
| `examples/hermite.py` | `herroots` | `herroots` |
| `examples/hermite.py` | `herdif` | `herdif` |
| `examples/hermite.py` | `poldif` | `poldif` |
<!-- coverage end -->

## Axioms per theorem

<!-- axioms begin -->
| Theorem | Axioms |
|---|---|
| `C01_assignment_partitions_tasks` | propext, Classical.choice, Quot.sound |
| `C01_default_assignment_partitions_tasks` | propext, Classical.choice, Quot.sound |
| `C02_default_assignment_balanced` | propext, Classical.choice, Quot.sound |
| `C02_few_tasks_idle_workers_last` | propext, Classical.choice, Quot.sound |
| `C02_check_for_empty_tasks_iff` | propext, Classical.choice, Quot.sound |
| `C03_assignment_is_prefix_partial` | propext, Quot.sound |
| `C03_only_zero_weight_tasks_lost_partial` | propext, Classical.choice, Quot.sound |
| `C03_positive_last_weight_complete_partial` | propext, Classical.choice, Quot.sound |
| `C03_zero_weight_task_lost_violation` | propext, Classical.choice, Quot.sound |
| `C03_negative_weight_task_lost_violation` | propext, Classical.choice, Quot.sound |
| `C04_reduce_is_rank_ordered_fold` | propext, Classical.choice, Quot.sound |
| `C04_reduce_bad_root_raises` | propext, Quot.sound |
| `C04_allreduce_gives_all_ranks_the_fold` | propext, Classical.choice, Quot.sound |
| `C04_maxloc_finds_first_maximum` | propext, Quot.sound |
| `C05_scan_is_prefix_fold` | propext, Classical.choice, Quot.sound |
| `C05_exscan_is_strict_prefix_fold` | propext, Classical.choice, Quot.sound |
| `C06_matched_rounds_cannot_deadlock` | propext, Classical.choice, Quot.sound |
| `C06_matched_rounds_can_finish` | propext, Classical.choice, Quot.sound |
| `C06_reduce_rounds_matched` | propext, Classical.choice, Quot.sound |
| `C06_allreduce_rounds_matched` | propext, Classical.choice, Quot.sound |
| `C06_scan_rounds_matched` | propext, Quot.sound |
| `C06_exscan_rounds_matched` | propext, Quot.sound |
| `C06_inner_product_rounds_matched` | propext, Classical.choice, Quot.sound |
| `C06_symmetric_rounds_matched` | propext, Classical.choice, Quot.sound |
| `C06_lin_combine_rounds_matched` | propext, Classical.choice, Quot.sound |
| `C07_inner_product_array_in_general` | propext, Classical.choice, Quot.sound |
| `C07_inner_product_array` | propext, Classical.choice, Quot.sound |
| `C07_missing_inner_product_raises` | propext, Classical.choice, Quot.sound |
| `C07_empty_list_raises` | propext, Classical.choice, Quot.sound |
| `C08_symm_inner_product_array` | propext, Classical.choice, Quot.sound |
| `C08_raises` | propext, Classical.choice, Quot.sound |
| `C09_lin_combine_result` | propext, Classical.choice, Quot.sound |
| `C10_shared_disjoint_partial` | propext, Classical.choice, Quot.sound |
| `C10_shared_one_round_partial` | propext, Classical.choice, Quot.sound |
| `C10_aliasing_race_violation` | propext, Classical.choice, Quot.sound |
| `C10_disjoint_storage_partial` | propext, Classical.choice, Quot.sound |
| `C10_one_round_partial` | propext, Classical.choice, Quot.sound |
| `C10_aliasing_depends_on_memory_limit_violation` | propext, Classical.choice, Quot.sound |
| `C11_accepts_exactly_matching_shapes` | propext, Classical.choice, Quot.sound |
| `C11_missing_column_raises` | propext, Classical.choice, Quot.sound |
| `C11_empty_basis_raises` | propext, Classical.choice, Quot.sound |
| `C12_at_least_three_vectors_per_process` | propext, Classical.choice, Quot.sound |
| `C12_limit_is_largest_within_request` | propext, Classical.choice, Quot.sound |
| `C12_small_request_raised` | propext, Classical.choice, Quot.sound |
| `C12_time_estimate_denominator_positive` | propext, Classical.choice, Quot.sound |
| `C13_get_right_in_good_histories_partial` | propext, Quot.sound |
| `C13_get_right_with_plain_bases_partial` | propext, Quot.sound |
| `C13_stale_base_after_put_violation` | propext, Quot.sound |
| `C13_scale_of_base_ignored_violation` | propext |
| `C13_base_of_base_ignored_violation` | propext |
| `C13_is_complex_of_base_ignored_violation` | propext |
| `C13_get_reads` | propext |
| `C13_put_writes` | propext, Quot.sound |
| `C14_float_round_trip` | propext, Quot.sound |
| `C14_float_vector_round_trip` | propext, Quot.sound |
| `C14_complex_round_trip` | propext, Quot.sound |
| `C14_complex_vector_round_trip` | propext, Quot.sound |
| `C14_complex_file_format` | propext, Classical.choice, Quot.sound |
| `C14_more_than_two_dimensions_raise` | none |
| `C14_odd_columns_raise` | propext, Quot.sound |
| `C15_integers_not_restored_violation` | propext, Classical.choice, Quot.sound |
| `C15_no_integer_restored_violation` | propext, Classical.choice, Quot.sound |
| `C15_some_integers_read_back_violation` | propext, Classical.choice, Quot.sound |
| `C15_zeros_restored_partial` | propext, Classical.choice, Quot.sound |
| `C16_load_signals_splits` | propext, Classical.choice, Quot.sound |
| `C16_one_column_raises` | propext, Quot.sound |
| `C16_load_multiple_signals` | propext, Classical.choice, Quot.sound |
| `C16_no_files_raise` | propext, Quot.sound |
| `C16_single_signal_repeated_violation` | propext, Classical.choice, Quot.sound |
| `C17_hankel_entries` | propext, Quot.sound |
| `C17_hankel_default` | propext, Quot.sound |
| `C17_first_of_last_row_ignored` | propext |
| `C18_hankel_chunks` | propext, Classical.choice, Quot.sound |
| `C18_hankel_chunks_default` | propext, Classical.choice, Quot.sound |
| `C18_no_chunks_raise` | none |
| `C19_singular_triples` | propext, Classical.choice, Quot.sound |
| `C19_kept_iff` | propext, Classical.choice, Quot.sound |
| `C19_truncation_error` | propext, Classical.choice, Quot.sound |
| `C19_exact` | propext, Classical.choice, Quot.sound |
| `C19_error_iff` | propext, Classical.choice, Quot.sound |
| `C20_eigenpairs` | propext, Classical.choice, Quot.sound |
| `C20_kept_iff` | propext, Classical.choice, Quot.sound |
| `C20_positive_partial` | propext, Classical.choice, Quot.sound |
| `C20_zero_eigenvalues_returned_violation` | propext, Classical.choice, Quot.sound |
| `C20_type_error_violation` | propext, Classical.choice, Quot.sound |
| `C20_no_error` | propext, Classical.choice, Quot.sound |
| `C21_eigenvectors` | propext, Classical.choice, Quot.sound |
| `C21_biorthonormal` | propext, Classical.choice, Quot.sound |
| `C21_unscaled_side` | propext, Classical.choice, Quot.sound |
| `C21_scale_choice` | propext, Classical.choice, Quot.sound |
| `C22_snaps` | propext, Classical.choice, Quot.sound |
| `C22_direct` | propext, Classical.choice, Quot.sound |
| `C22_handles` | propext, Classical.choice, Quot.sound |
| `C22_direct_no_error` | propext, Classical.choice, Quot.sound |
| `C23_snaps_proj_coeffs` | propext, Classical.choice, Quot.sound |
| `C23_snaps_energies` | propext, Classical.choice, Quot.sound |
| `C23_snaps_reconstruction` | propext, Classical.choice, Quot.sound |
| `C23_snaps_exact` | propext, Classical.choice, Quot.sound |
| `C23_direct` | propext, Classical.choice, Quot.sound |
| `C23_direct_eigenpairs` | propext, Classical.choice, Quot.sound |
| `C23_direct_exact` | propext, Classical.choice, Quot.sound |
| `C23_handles` | propext, Classical.choice, Quot.sound |
| `C24_arrays` | propext, Classical.choice, Quot.sound |
| `C24_positive` | propext, Classical.choice, Quot.sound |
| `C24_balanced` | propext, Classical.choice, Quot.sound |
| `C24_handles` | propext, Classical.choice, Quot.sound |
| `C24_handles_positive` | propext, Classical.choice, Quot.sound |
| `C25_complete_chunks` | propext, Classical.choice, Quot.sound |
| `C25_arrays` | propext, Classical.choice, Quot.sound |
| `C25_no_error` | propext, Classical.choice, Quot.sound |
| `C25_handles` | propext, Classical.choice, Quot.sound |
| `C25_handles_no_error` | propext, Classical.choice, Quot.sound |
| `C25_incomplete_chunks_violation` | propext, Classical.choice, Quot.sound |
| `C26_snaps_sequential` | propext, Classical.choice, Quot.sound |
| `C26_snaps_pairs` | propext, Classical.choice, Quot.sound |
| `C26_wrong_shape` | propext, Classical.choice, Quot.sound |
| `C26_direct_sequential` | propext, Classical.choice, Quot.sound |
| `C26_direct_pairs` | propext, Classical.choice, Quot.sound |
| `C26_snaps_no_error` | propext, Classical.choice, Quot.sound |
| `C26_direct_no_error` | propext, Classical.choice, Quot.sound |
| `C26_pinv` | propext, Classical.choice, Quot.sound |
| `C26_full_rank` | propext, Classical.choice, Quot.sound |
| `C26_invariance_needed_violation` | propext, Classical.choice, Quot.sound |
| `C26_handles_sequential` | propext, Classical.choice, Quot.sound |
| `C26_handles_pairs` | propext, Classical.choice, Quot.sound |
| `C26_handles_sequential_no_error` | propext, Classical.choice, Quot.sound |
| `C26_handles_pairs_no_error` | propext, Classical.choice, Quot.sound |
| `C27_snaps_sequential` | propext, Classical.choice, Quot.sound |
| `C27_snaps_pairs` | propext, Classical.choice, Quot.sound |
| `C27_direct_sequential` | propext, Classical.choice, Quot.sound |
| `C27_direct_pairs` | propext, Classical.choice, Quot.sound |
| `C27_methods_agree` | propext, Classical.choice, Quot.sound |
| `C27_handles_sequential` | propext, Classical.choice, Quot.sound |
| `C27_handles_pairs` | propext, Classical.choice, Quot.sound |
| `C28_snaps_sequential` | propext, Classical.choice, Quot.sound |
| `C28_snaps_pairs` | propext, Classical.choice, Quot.sound |
| `C28_direct_sequential` | propext, Classical.choice, Quot.sound |
| `C28_direct_pairs` | propext, Classical.choice, Quot.sound |
| `C28_handles_sequential_partial` | propext, Classical.choice, Quot.sound |
| `C28_handles_pairs_partial` | propext, Classical.choice, Quot.sound |
| `C28_handles_ignored_violation` | propext, Classical.choice, Quot.sound |
| `C28_handles_violation` | propext, Classical.choice, Quot.sound |
| `C28_tls_handles_sequential_partial` | propext, Classical.choice, Quot.sound |
| `C28_tls_handles_pairs_partial` | propext, Classical.choice, Quot.sound |
| `C28_tls_handles_ignored_violation` | propext, Classical.choice, Quot.sound |
| `C28_tls_handles_violation` | propext, Classical.choice, Quot.sound |
| `C29_pairs` | propext, Classical.choice, Quot.sound |
| `C29_sequential` | propext, Classical.choice, Quot.sound |
| `C29_history_partial` | propext, Classical.choice, Quot.sound |
| `C29_other_results` | propext, Classical.choice, Quot.sound |
| `C29_kept_advanced_vectors_violation` | propext, Classical.choice, Quot.sound |
| `C29_violation` | propext, Classical.choice, Quot.sound |
| `C29_tls_pairs` | propext, Classical.choice, Quot.sound |
| `C29_tls_sequential` | propext, Classical.choice, Quot.sound |
| `C29_tls_history_partial` | propext, Classical.choice, Quot.sound |
| `C29_tls_other_results` | propext, Classical.choice, Quot.sound |
| `C29_tls_kept_advanced_vectors_violation` | propext, Classical.choice, Quot.sound |
| `C29_tls_violation` | propext, Classical.choice, Quot.sound |
| `C30_snaps_partial` | propext, Classical.choice, Quot.sound |
| `C30_snaps_real_partial` | propext, Classical.choice, Quot.sound |
| `C30_direct` | propext, Classical.choice, Quot.sound |
| `C30_handles_sequential` | propext, Classical.choice, Quot.sound |
| `C30_handles_pairs` | propext, Classical.choice, Quot.sound |
| `C30_violation` | propext, Classical.choice, Quot.sound |
| `C31_snaps_sequential` | propext, Classical.choice, Quot.sound |
| `C31_snaps_pairs` | propext, Classical.choice, Quot.sound |
| `C31_wrong_shape` | propext, Classical.choice, Quot.sound |
| `C31_direct_sequential` | propext, Classical.choice, Quot.sound |
| `C31_direct_pairs` | propext, Classical.choice, Quot.sound |
| `C31_handles_sequential` | propext, Classical.choice, Quot.sound |
| `C31_handles_pairs` | propext, Classical.choice, Quot.sound |
| `C31_handles_sequential_no_error` | propext, Classical.choice, Quot.sound |
| `C31_handles_pairs_no_error` | propext, Classical.choice, Quot.sound |
| `C31_snaps_no_error` | propext, Classical.choice, Quot.sound |
| `C31_direct_no_error` | propext, Classical.choice, Quot.sound |
| `C32_interleaved` | propext, Classical.choice, Quot.sound |
| `C32_nearly_equal_spacing` | propext, Classical.choice, Quot.sound |
| `C32_lengths_differ` | propext, Quot.sound |
| `C32_value_error_iff` | propext, Classical.choice, Quot.sound |
| `C32_single_time` | propext, Quot.sound |
| `C32_small_steps_violation` | propext, Classical.choice, Quot.sound |
| `C33_blocks` | propext, Classical.choice, Quot.sound |
| `C33_fewer_dimensions` | propext, Classical.choice, Quot.sound |
| `C33_equally_spaced` | propext, Classical.choice, Quot.sound |
| `C34_guard_partial` | propext |
| `C34_accepted_iff` | propext, Classical.choice, Quot.sound |
| `C34_index_error_violation` | propext, Quot.sound |
| `C34_sufficient_data_refused_violation` | propext, Quot.sound |
| `C34_default_accepted` | propext, Classical.choice, Quot.sound |
| `C34_default_not_maximal_violation` | propext, Classical.choice, Quot.sound |
| `C34_no_data` | propext, Quot.sound |
| `C35_arguments_of_compute_model_used_partial` | propext, Classical.choice, Quot.sound |
| `C35_constructor_ignored_violation` | propext |
| `C36_recovers` | propext, Classical.choice, Quot.sound |
| `C36_no_error` | propext, Classical.choice, Quot.sound |
| `C36_from_samples` | propext, Classical.choice, Quot.sound |
| `C36_compute_ERA_model` | propext, Classical.choice, Quot.sound |
| `C36_small_parameters_violation` | propext, Classical.choice, Quot.sound |
| `C37_independent_data` | propext, Classical.choice, Quot.sound |
| `C37_independent_inputs` | propext, Classical.choice, Quot.sound |
| `C37_single_input` | propext, Classical.choice, Quot.sound |
| `C37_one_dimension` | propext, Classical.choice, Quot.sound |
| `C37_wrong_shapes` | propext, Classical.choice, Quot.sound |
| `C37_wrong_number` | propext, Classical.choice, Quot.sound |
| `C37_no_error` | propext, Classical.choice, Quot.sound |
| `C38_arrays` | propext, Classical.choice, Quot.sound |
| `C38_arrays_wrong_weights` | propext, Classical.choice, Quot.sound |
| `C38_arrays_constructor` | propext, Classical.choice, Quot.sound |
| `C38_arrays_attributes` | propext, Classical.choice, Quot.sound |
| `C38_arrays_model` | propext, Classical.choice, Quot.sound |
| `C38_arrays_attribute_after_error` | propext, Classical.choice, Quot.sound |
| `C38_residual` | propext, Classical.choice, Quot.sound |
| `C38_flag` | propext, Classical.choice, Quot.sound |
| `C38_invariant_subspace` | propext, Classical.choice, Quot.sound |
| `C38_full_basis` | propext, Classical.choice, Quot.sound |
| `C38_handles` | propext, Classical.choice, Quot.sound |
| `C38_handles_empty` | propext, Classical.choice, Quot.sound |
| `C38_handles_constructor` | propext, Classical.choice, Quot.sound |
| `C38_handles_attributes` | propext, Classical.choice, Quot.sound |
| `C38_handles_model` | propext, Classical.choice, Quot.sound |
| `C38_handles_residual` | propext, Classical.choice, Quot.sound |
| `C38_handles_flag` | propext, Classical.choice, Quot.sound |
| `C38_handles_invariant_subspace` | propext, Classical.choice, Quot.sound |
| `C38_standard_basis` | propext, Classical.choice, Quot.sound |
| `C39_different_lengths_raise` | propext, Classical.choice, Quot.sound |
| `C39_derivs_handles` | propext, Classical.choice, Quot.sound |
| `C39_derivs_arrays` | propext, Classical.choice, Quot.sound |
| `C40_trapz_is_weighted_sum` | propext, Classical.choice, Quot.sound |
| `C40_wrong_shape_raises` | propext, Classical.choice, Quot.sound |
| `C40_no_grids_raise` | propext, Classical.choice, Quot.sound |
| `C40_grids_kept` | propext, Classical.choice, Quot.sound |
| `C40_conjugate_symmetric` | propext, Classical.choice, Quot.sound |
| `C40_linear_in_second_argument` | propext, Classical.choice, Quot.sound |
| `C40_nonnegative` | propext, Classical.choice, Quot.sound |
| `C41_lsim` | propext, Classical.choice, Quot.sound |
| `C41_superposition` | propext, Classical.choice, Quot.sound |
| `C41_one_dimension` | propext, Classical.choice, Quot.sound |
| `C41_errors` | propext, Classical.choice, Quot.sound |
| `C41_impulse` | propext, Classical.choice, Quot.sound |
| `C41_impulse_lsim` | propext, Classical.choice, Quot.sound |
| `C42_projection` | propext, Classical.choice, Quot.sound |
| `C42_full_order` | propext, Classical.choice, Quot.sound |
| `C42_balances_partial` | propext, Classical.choice, Quot.sound |
| `C42_no_error` | propext, Classical.choice, Quot.sound |
| `C42_violation` | propext, Classical.choice, Quot.sound |
| `C42_unsolvable_violation` | propext, Classical.choice, Quot.sound |
| `C42_complex_violation` | propext, Classical.choice, Quot.sound |
| `C42_unstable_violation` | propext, Classical.choice, Quot.sound |
| `C43_names_with_extension` | propext, Quot.sound |
| `C43_all_names_without_extension` | none |
| `C43_empty_extension_violation` | propext, Classical.choice, Quot.sound |
| `C44_pod` | propext, Quot.sound |
| `C44_bpod` | propext, Quot.sound |
| `C44_dmd` | propext |
| `C44_tls` | propext, Quot.sound |
| `C44_pod_text` | propext, Classical.choice, Quot.sound |
| `C44_bpod_text` | propext, Classical.choice, Quot.sound |
| `C44_dmd_text_partial` | propext, Classical.choice, Quot.sound |
| `C44_dmd_exact` | propext |
| `C44_tls_exact` | propext, Quot.sound |
| `C44_coefficients` | propext, Classical.choice, Quot.sound |
| `C44_coefficients_two_axes` | propext, Classical.choice, Quot.sound |
| `C44_single_violation` | propext, Classical.choice, Quot.sound |
| `C44_dmd_single_violation` | propext |
| `C44_missing` | propext |
| `C44_dmd_violation` | propext, Quot.sound |
| `C44_complex_violation` | propext, Classical.choice, Quot.sound |
| `C45_formula` | propext, Classical.choice, Quot.sound |
| `C45_wrong_size` | propext, Classical.choice, Quot.sound |
| `C45_entries` | propext, Classical.choice, Quot.sound |
| `C45_vector_as_diagonal` | propext, Classical.choice, Quot.sound |
| `C45_no_weights_as_ones` | propext, Classical.choice, Quot.sound |
| `C45_lin_combine` | propext, Classical.choice, Quot.sound |
| `C45_lin_combine_all` | propext, Classical.choice, Quot.sound |
| `C45_index_error` | propext, Classical.choice, Quot.sound |
| `C45_row_and_column_weights` | propext, Quot.sound |
| `C45_array_weights` | propext, Quot.sound |
| `C45_dimensions` | propext, Classical.choice, Quot.sound |
| `C45_single_weight_refused_violation` | propext, Classical.choice, Quot.sound |
| `C45_direct_weights` | propext, Classical.choice, Quot.sound |
| `C46_checks` | propext, Classical.choice, Quot.sound |
| `C46_accepts` | propext, Classical.choice, Quot.sound |
| `C46_wrong_double` | propext, Classical.choice, Quot.sound |
| `C46_in_place_multiplication` | propext, Classical.choice, Quot.sound |
| `C46_in_place_addition` | propext, Classical.choice, Quot.sound |
| `C46_sign_violation` | propext, Classical.choice, Quot.sound |
| `C46_small_violation` | propext, Classical.choice, Quot.sound |
| `C47_flatten_list` | propext, Quot.sound |
| `C47_sum_lists` | propext, Quot.sound |
| `C47_atleast_2d_row` | propext |
| `C47_atleast_2d_col` | propext |
| `C48_drss` | propext, Classical.choice, Quot.sound |
| `C48_drss_stable` | propext, Classical.choice, Quot.sound |
| `C48_rss` | propext, Classical.choice, Quot.sound |
| `C48_errors` | propext, Classical.choice, Quot.sound |
| `C49_call_and_bcast_agrees_everywhere` | propext, Classical.choice, Quot.sound |
| `C49_call_from_rank_zero_only` | propext, Classical.choice, Quot.sound |
| `C49_bcast_gives_value_of_rank_zero` | propext, Classical.choice, Quot.sound |
| `C49_raising_function_blocks_other_ranks_violation` | propext, Classical.choice, Quot.sound |
| `C50_node_id_injective` | propext, Classical.choice, Quot.sound |
| `C50_num_nodes_is_number_of_hosts` | propext, Classical.choice, Quot.sound |
| `C51_mixed_types_truncated_violation` | propext, Classical.choice, Quot.sound |
| `C51_one_type_exact_partial` | propext, Classical.choice, Quot.sound |
| `C52_memory_order_violation` | none |
| `C52_memory_order_of_real_arrays_partial` | none |
| `C53_inner_products_within_limit_partial` | propext, Classical.choice, Quot.sound |
| `C53_symmetric_inner_products_within_limit_partial` | propext, Classical.choice, Quot.sound |
| `C53_lin_combine_within_limit_partial` | propext, Classical.choice, Quot.sound |
| `C53_limit_exceeded_in_exchange_violation` | propext, Classical.choice, Quot.sound |
| `C54_hankel_real_violation` | propext, Classical.choice, Quot.sound |
| `C54_sampled_format_real_violation` | propext, Classical.choice, Quot.sound |
| `C54_okid_type_violation` | propext, Classical.choice, Quot.sound |
| `C54_okid_inputs_violation` | propext, Classical.choice, Quot.sound |
| `C54_okid_real_violation` | propext, Classical.choice, Quot.sound |
| `C54_okid_violation` | propext, Classical.choice, Quot.sound |
| `C55_direct_tolerances_partial` | propext, Classical.choice, Quot.sound |
| `C55_methods_differ_violation` | propext, Classical.choice, Quot.sound |
| `C56_inner_products` | propext, Classical.choice, Quot.sound |
| `C56_symmetric_inner_products` | propext, Classical.choice, Quot.sound |
| `C56_lin_combine` | propext, Classical.choice, Quot.sound |
| `C57_derivatives` | propext, Classical.choice, Quot.sound |
| `C57_derivatives_handles` | propext, Classical.choice, Quot.sound |
| `C58_snaps_partial` | propext, Classical.choice, Quot.sound |
| `C58_direct` | propext, Classical.choice, Quot.sound |
| `C58_violation` | propext, Classical.choice, Quot.sound |
| `C59_handles_sequential` | propext, Classical.choice, Quot.sound |
| `C59_handles_pairs` | propext, Classical.choice, Quot.sound |
| `C59_projection` | propext, Classical.choice, Quot.sound |
| `C59_modes` | propext, Classical.choice, Quot.sound |
| `C59_agrees` | propext, Classical.choice, Quot.sound |
| `C59_snaps_sequential` | propext, Classical.choice, Quot.sound |
| `C59_snaps_pairs` | propext, Classical.choice, Quot.sound |
| `C59_direct_sequential` | propext, Classical.choice, Quot.sound |
| `C59_direct_pairs` | propext, Classical.choice, Quot.sound |
| `C60_pod_no_error` | propext, Classical.choice, Quot.sound |
| `C60_pod_reuse` | propext, Classical.choice, Quot.sound |
| `C60_pod_after_error` | propext, Classical.choice, Quot.sound |
| `C60_pod` | propext, Classical.choice, Quot.sound |
| `C60_pod_precomputed` | propext, Classical.choice, Quot.sound |
| `C60_pod_loaded` | propext, Classical.choice, Quot.sound |
| `C60_pod_errors` | propext, Classical.choice, Quot.sound |
| `C60_pod_no_vectors` | propext, Classical.choice, Quot.sound |
| `C60_bpod_reuse` | propext, Classical.choice, Quot.sound |
| `C60_bpod_after_error` | propext, Classical.choice, Quot.sound |
| `C60_bpod` | propext, Classical.choice, Quot.sound |
| `C60_bpod_precomputed` | propext, Classical.choice, Quot.sound |
| `C60_bpod_loaded` | propext, Classical.choice, Quot.sound |
| `C60_bpod_no_vectors` | propext, Classical.choice, Quot.sound |
| `C60_bpod_errors` | propext, Classical.choice, Quot.sound |
| `C60_pod_coefficients` | propext, Classical.choice, Quot.sound |
| `C60_bpod_coefficients` | propext, Classical.choice, Quot.sound |
| `C60_stale_coefficients_violation` | propext, Classical.choice, Quot.sound |
| `C60_failed_decomp_violation` | propext, Classical.choice, Quot.sound |
| `C61_era_is_bpod_projection` | propext, Classical.choice, Quot.sound |
| `C61_number_of_modes` | propext, Classical.choice, Quot.sound |
| `C61_handles` | propext, Classical.choice, Quot.sound |
| `C62_several_inputs` | propext, Classical.choice, Quot.sound |
| `C62_single_input` | propext, Classical.choice, Quot.sound |
| `C62_compute_ERA_model` | propext, Classical.choice, Quot.sound |
| `C63_smart_eq` | propext, Quot.sound |
| `C63_in_memory` | propext, Quot.sound |
| `C63_nan_violation` | propext, Classical.choice, Quot.sound |
| `C63_arrays_sound` | propext, Classical.choice, Quot.sound |
| `C63_arrays_complete` | propext, Classical.choice, Quot.sound |
| `C63_same_inner_products_violation` | propext, Classical.choice, Quot.sound |
| `C63_arrays_equivalence` | propext, Quot.sound |
| `C63_handles_equivalence` | propext |
| `C63_handles_sound` | propext, Classical.choice, Quot.sound |
| `C64_subtraction` | propext |
| `C64_base_class` | none |
| `C64_handles` | propext |
| `C65_calls_in_turn` | propext, Classical.choice, Quot.sound |
| `C65_saved_when_any_returns` | propext, Classical.choice, Quot.sound |
| `C65_proj_coeffs_saved` | propext, Classical.choice, Quot.sound |
| `C66_single_arrays` | propext, Quot.sound |
| `C66_dmd_proj_coeffs` | propext, Quot.sound |
| `C66_era_model` | propext, Quot.sound |
| `C66_lti_model` | propext, Quot.sound |
| `C66_era_decomp` | propext, Quot.sound |
| `C66_era_sing_vals` | propext |
| `C66_text` | propext, Quot.sound |
| `C66_spectral_coeffs_violation` | propext, Quot.sound |
| `C66_complex_violation` | propext, Quot.sound |
| `C66_not_available` | none |
| `C67_pod_snaps` | propext, Classical.choice, Quot.sound |
| `C67_pod_snaps_tolerances` | propext, Classical.choice, Quot.sound |
| `C67_pod_snaps_proj_coeffs` | propext, Classical.choice, Quot.sound |
| `C67_pod_handles` | propext, Classical.choice, Quot.sound |
| `C67_bpod_arrays` | propext, Classical.choice, Quot.sound |
| `C67_bpod_tolerances` | propext, Classical.choice, Quot.sound |
| `C67_bpod_handles` | propext, Classical.choice, Quot.sound |
| `C67_eig_biorthog_diagonal` | propext, Classical.choice, Quot.sound |
| `C67_eig_biorthog_offdiagonal` | propext, Classical.choice, Quot.sound |
| `C67_bound_attained` | propext, Classical.choice, Quot.sound |
| `C67_pod_direct` | propext, Classical.choice, Quot.sound |
| `C68_poldif_weighted` | propext, Classical.choice, Quot.sound |
| `C68_poldif_unweighted` | propext, Classical.choice, Quot.sound |
| `C68_poldif_unique` | propext, Classical.choice, Quot.sound |
| `C68_poldif_powers` | propext, Classical.choice, Quot.sound |
| `C68_poldif_arguments` | propext, Classical.choice, Quot.sound |
| `C69_herroots` | propext, Classical.choice, Quot.sound |
| `C69_nodes_unique` | propext, Classical.choice, Quot.sound |
| `C69_nodes_symmetric` | propext, Classical.choice, Quot.sound |
| `C69_herdif` | propext, Classical.choice, Quot.sound |
| `C69_herdif_no_derivatives` | propext, Classical.choice, Quot.sound |
| `C69_degree_zero_violation` | propext, Classical.choice, Quot.sound |
| `C69_library_exists` | propext, Classical.choice, Quot.sound |
| `C70_snaps` | propext, Classical.choice, Quot.sound |
| `C70_direct` | propext, Classical.choice, Quot.sound |
| `C70_handles` | propext, Classical.choice, Quot.sound |
| `C71_snaps_sequential` | propext, Classical.choice, Quot.sound |
| `C71_snaps_pairs` | propext, Classical.choice, Quot.sound |
| `C71_direct_sequential` | propext, Classical.choice, Quot.sound |
| `C71_direct_pairs` | propext, Classical.choice, Quot.sound |
| `C71_handles_sequential` | propext, Classical.choice, Quot.sound |
| `C71_handles_pairs` | propext, Classical.choice, Quot.sound |
| `C72_snaps_sequential` | propext, Classical.choice, Quot.sound |
| `C72_snaps_pairs` | propext, Classical.choice, Quot.sound |
| `C72_direct_sequential` | propext, Classical.choice, Quot.sound |
| `C72_direct_pairs` | propext, Classical.choice, Quot.sound |
| `C72_handles_sequential` | propext, Classical.choice, Quot.sound |
| `C72_handles_pairs` | propext, Classical.choice, Quot.sound |
| `C73_arrays` | propext, Classical.choice, Quot.sound |
| `C73_arrays_outputs` | propext, Classical.choice, Quot.sound |
| `C73_handles` | propext, Classical.choice, Quot.sound |
| `C73_era` | propext, Classical.choice, Quot.sound |
| `C73_era_first_markov` | propext, Classical.choice, Quot.sound |
| `C74_weights_trapezoidal` | propext, Classical.choice, Quot.sound |
| `C74_weights_positive` | propext, Classical.choice, Quot.sound |
| `C74_adjoint` | propext, Classical.choice, Quot.sound |
| `C74_optimal_disturbance` | propext, Classical.choice, Quot.sound |
| `C74_system_no_error` | propext, Classical.choice, Quot.sound |
| `C74_script_system` | propext, Classical.choice, Quot.sound |
| `C74_script_weights` | propext, Classical.choice, Quot.sound |
| `C74_script_no_error` | propext, Classical.choice, Quot.sound |
| `C74_crank_nicolson` | propext, Classical.choice, Quot.sound |
| `C74_snapshots_error` | propext, Classical.choice, Quot.sound |
| `C74_adjoint_snapshots` | propext, Classical.choice, Quot.sound |
| `C74_hankel` | propext, Classical.choice, Quot.sound |
| `C74_model` | propext, Classical.choice, Quot.sound |
| `C74_exact` | propext, Classical.choice, Quot.sound |
| `C74_chi` | propext, Classical.choice, Quot.sound |
| `C74_global_mode` | propext, Classical.choice, Quot.sound |
| `C74_script_growth` | propext, Classical.choice, Quot.sound |
| `C74_script_system_no_error` | propext, Classical.choice, Quot.sound |
| `C74_script` | propext, Classical.choice, Quot.sound |
| `C75_inner_product_program` | propext, Classical.choice, Quot.sound |
| `C75_symmetric_program` | propext, Classical.choice, Quot.sound |
| `C75_lin_combine_program` | propext, Classical.choice, Quot.sound |
| `C75_inner_product_calls_every_interleaving` | propext, Classical.choice, Quot.sound |
| `C75_symmetric_calls_every_interleaving` | propext, Classical.choice, Quot.sound |
| `C75_lin_combine_calls_every_interleaving` | propext, Classical.choice, Quot.sound |
| `C75_row_retrievals` | propext, Classical.choice, Quot.sound |
| `C75_column_retrievals` | propext, Classical.choice, Quot.sound |
| `C75_inner_products` | propext, Classical.choice, Quot.sound |
| `C75_warning_numbers` | propext, Classical.choice, Quot.sound |
| `C75_basis_retrievals` | propext, Classical.choice, Quot.sound |
| `C75_scalings` | propext, Classical.choice, Quot.sound |
| `C75_symmetric_retrievals` | propext, Classical.choice, Quot.sound |
| `C75_symmetric_warning_partial` | propext, Classical.choice, Quot.sound |
| `C75_symmetric_warning_violation` | propext, Classical.choice, Quot.sound |
| `C75_symmetric_other_chunk` | propext, Classical.choice, Quot.sound |
| `C75_symmetric_diagonal` | propext, Classical.choice, Quot.sound |
| `C75_symmetric_at_most_once` | propext, Classical.choice, Quot.sound |
| `C75_symmetric_mirrored` | propext, Classical.choice, Quot.sound |
| `C75_upper_triangle_violation` | propext, Classical.choice, Quot.sound |
| `C76_inner_product_estimate_partial` | propext, Classical.choice, Quot.sound |
| `C76_symmetric_estimate_partial` | propext, Classical.choice, Quot.sound |
| `C76_lin_combine_estimate_partial` | propext, Classical.choice, Quot.sound |
| `C76_inner_product_estimate_violation` | propext, Classical.choice, Quot.sound |
| `C76_symmetric_estimate_violation` | propext, Classical.choice, Quot.sound |
| `C76_lin_combine_estimate_violation` | propext, Classical.choice, Quot.sound |
| `C77_handles` | propext, Classical.choice, Quot.sound |
| `C77_arrays` | propext, Classical.choice, Quot.sound |
| `C77_adjoint_basis_counterexample` | propext, Classical.choice, Quot.sound |
| `C78_default_weights_exact` | propext, Classical.choice, Quot.sound |
| `C78_default_weights_balanced` | propext, Classical.choice, Quot.sound |
| `C78_loop_counts` | propext, Classical.choice, Quot.sound |
| `C78_limits` | propext, Classical.choice, Quot.sound |
| `C78_weights_prefix` | propext, Classical.choice, Quot.sound |
| `C78_weights_complete_partial` | propext, Classical.choice, Quot.sound |
| `C78_small_weight_task_lost_violation` | propext, Classical.choice, Quot.sound |
| `C79_inner_products_any_arithmetic` | propext, Classical.choice, Quot.sound |
| `C79_symmetric_any_arithmetic` | propext, Classical.choice, Quot.sound |
| `C79_lin_combine_order` | propext, Classical.choice, Quot.sound |
| `C79_lin_combine_error` | propext, Classical.choice, Quot.sound |
| `C79_lin_combine_integers` | propext, Classical.choice, Quot.sound |
| `C79_lin_combine_processes_violation` | propext, Classical.choice, Quot.sound |
| `C79_lin_combine_equal_columns_violation` | propext, Classical.choice, Quot.sound |
| `C80_like_one_process` | propext, Classical.choice, Quot.sound |
| `C80_processes_and_memory_irrelevant` | propext, Classical.choice, Quot.sound |
| `C80_pod` | propext, Classical.choice, Quot.sound |
| `C80_pod_orthonormal` | propext, Classical.choice, Quot.sound |
| `C80_bpod` | propext, Classical.choice, Quot.sound |
| `C80_bpod_biorthonormal` | propext, Classical.choice, Quot.sound |
| `C80_dmd_sequential` | propext, Classical.choice, Quot.sound |
| `C80_dmd_pairs` | propext, Classical.choice, Quot.sound |
| `C80_tls_sequential` | propext, Classical.choice, Quot.sound |
| `C80_tls_pairs` | propext, Classical.choice, Quot.sound |
| `C81_snaps` | propext, Classical.choice, Quot.sound |
| `C81_direct` | propext, Classical.choice, Quot.sound |
| `C81_handles` | propext, Classical.choice, Quot.sound |
| `C81_bpod_arrays` | propext, Classical.choice, Quot.sound |
| `C81_bpod_handles` | propext, Classical.choice, Quot.sound |
| `C81_era` | propext, Classical.choice, Quot.sound |
| `C82_weights` | propext, Classical.choice, Quot.sound |
| `C82_grid` | propext, Classical.choice, Quot.sound |
| `C82_pod` | propext, Classical.choice, Quot.sound |
| `C82_custom_operations` | propext, Classical.choice, Quot.sound |
| `C82_custom_inner_product` | propext, Classical.choice, Quot.sound |
| `C82_custom_sanity` | propext, Classical.choice, Quot.sound |
| `C82_custom_round_trip` | propext, Classical.choice, Quot.sound |
| `C82_custom_different_grids` | propext, Classical.choice, Quot.sound |
| `C82_scaled` | propext, Classical.choice, Quot.sound |
| `C83_quadrature_violation` | propext, Classical.choice, Quot.sound |
| `C83_num_modes_partial` | propext, Classical.choice, Quot.sound |
| `C83_left_out_partial` | propext, Classical.choice, Quot.sound |
| `C83_no_singular_values_partial` | propext, Classical.choice, Quot.sound |
| `C83_error_violation` | propext, Classical.choice, Quot.sound |
| `C83_hankel_violation` | propext, Classical.choice, Quot.sound |
| `C84_nobody_goes_on_partial` | propext, Classical.choice, Quot.sound |
| `C84_others_wait_violation` | propext, Classical.choice, Quot.sound |
| `C84_lin_combine_partial` | propext, Classical.choice, Quot.sound |
| `C84_some_sums_written_violation` | propext, Classical.choice, Quot.sound |
| `C84_derivs_partial` | propext, Classical.choice, Quot.sound |
| `C84_saving_partial` | propext, Classical.choice, Quot.sound |
| `C85_singular` | propext, Classical.choice, Quot.sound |
| `C85_galerkin` | propext, Classical.choice, Quot.sound |
| `C85_projection` | propext, Classical.choice, Quot.sound |
| `C86_like_one_process` | propext, Classical.choice, Quot.sound |
| `C86_pod` | propext, Classical.choice, Quot.sound |
| `C86_bpod` | propext, Classical.choice, Quot.sound |
| `C86_dmd` | propext, Classical.choice, Quot.sound |
| `C86_tls` | propext, Classical.choice, Quot.sound |
| `C86_attributes` | propext, Classical.choice, Quot.sound |
| `C86_pod_text` | propext, Classical.choice, Quot.sound |
| `C87_call_violation` | propext, Classical.choice, Quot.sound |
| `C87_computation_partial` | propext, Classical.choice, Quot.sound |
| `C87_lin_combine_partial` | propext, Classical.choice, Quot.sound |
| `C87_load_violation` | propext, Classical.choice, Quot.sound |
| `C87_save_violation` | propext, Classical.choice, Quot.sound |
| `C87_pod_get_violation` | propext, Classical.choice, Quot.sound |
| `C87_bpod_get_violation` | propext, Classical.choice, Quot.sound |
| `C87_attribute_violation` | propext, Classical.choice, Quot.sound |
| `C87_pod_decomp_violation` | propext, Classical.choice, Quot.sound |
| `C87_pod_modes_partial` | propext, Classical.choice, Quot.sound |
| `C87_bpod_no_outputs_partial` | propext, Classical.choice, Quot.sound |
| `C87_bpod_decomp_violation` | propext, Classical.choice, Quot.sound |
| `C87_dmd_sequential_violation` | propext, Classical.choice, Quot.sound |
| `C87_dmd_pairs_violation` | propext, Classical.choice, Quot.sound |
| `C87_dmd_lengths_partial` | propext, Classical.choice, Quot.sound |
| `C87_dmd_modes_partial` | propext, Classical.choice, Quot.sound |
| `C87_tls_sequential_violation` | propext, Classical.choice, Quot.sound |
| `C87_tls_pairs_violation` | propext, Classical.choice, Quot.sound |
| `C87_tls_lengths_partial` | propext, Classical.choice, Quot.sound |
| `C87_tls_modes_partial` | propext, Classical.choice, Quot.sound |
| `C88_combined_partial` | propext, Classical.choice, Quot.sound |
| `C88_no_iadd_partial` | propext, Classical.choice, Quot.sound |
| `C88_arrays_partial` | propext, Classical.choice, Quot.sound |
| `C88_refused` | propext, Classical.choice, Quot.sound |
| `C88_types_violation` | propext, Classical.choice, Quot.sound |
| `C88_rmul_violation` | propext, Classical.choice, Quot.sound |
| `C88_sharing_violation` | propext, Classical.choice, Quot.sound |
| `C89_owner_partial` | propext, Classical.choice, Quot.sound |
| `C89_one_process_partial` | propext, Classical.choice, Quot.sound |
| `C89_still_empty_violation` | propext, Classical.choice, Quot.sound |
| `C90_snaps_sequential_partial` | propext, Classical.choice, Quot.sound |
| `C90_snaps_pairs_partial` | propext, Classical.choice, Quot.sound |
| `C90_direct_sequential_partial` | propext, Classical.choice, Quot.sound |
| `C90_direct_pairs_partial` | propext, Classical.choice, Quot.sound |
| `C90_tls_snaps_sequential_partial` | propext, Classical.choice, Quot.sound |
| `C90_tls_snaps_pairs_partial` | propext, Classical.choice, Quot.sound |
| `C90_tls_direct_sequential_partial` | propext, Classical.choice, Quot.sound |
| `C90_tls_direct_pairs_partial` | propext, Classical.choice, Quot.sound |
| `C90_handles_sequential_partial` | propext, Classical.choice, Quot.sound |
| `C90_handles_pairs_partial` | propext, Classical.choice, Quot.sound |
| `C90_tls_handles_sequential_partial` | propext, Classical.choice, Quot.sound |
| `C90_tls_handles_pairs_partial` | propext, Classical.choice, Quot.sound |
| `C90_exact_partial` | propext, Classical.choice, Quot.sound |
| `C90_exact_violation` | propext, Classical.choice, Quot.sound |
| `C91_snaps_sequential` | propext, Classical.choice, Quot.sound |
| `C91_snaps_pairs` | propext, Classical.choice, Quot.sound |
| `C91_direct_pairs` | propext, Classical.choice, Quot.sound |
| `C91_handles_sequential` | propext, Classical.choice, Quot.sound |
| `C91_handles_pairs` | propext, Classical.choice, Quot.sound |
| `C91_tolerance` | propext, Classical.choice, Quot.sound |
| `C91_bound_attained` | propext, Classical.choice, Quot.sound |
| `C91_direct_sequential` | propext, Classical.choice, Quot.sound |
| `C91_tls_snaps_sequential` | propext, Classical.choice, Quot.sound |
| `C91_tls_snaps_pairs` | propext, Classical.choice, Quot.sound |
| `C91_tls_direct_sequential` | propext, Classical.choice, Quot.sound |
| `C91_tls_direct_pairs` | propext, Classical.choice, Quot.sound |
| `C91_tls_handles_sequential` | propext, Classical.choice, Quot.sound |
| `C91_tls_handles_pairs` | propext, Classical.choice, Quot.sound |
| `C92_with_mpi` | propext, Classical.choice, Quot.sound |
| `C92_without_mpi` | propext, Classical.choice, Quot.sound |
| `C92_rank_zero` | propext, Classical.choice, Quot.sound |
| `C92_pod` | propext, Classical.choice, Quot.sound |
| `C92_bpod` | propext, Classical.choice, Quot.sound |
| `C92_dmd` | propext, Classical.choice, Quot.sound |
| `C92_tls` | propext, Classical.choice, Quot.sound |
| `C92_galerkin` | propext, Classical.choice, Quot.sound |
| `C93_pod_decomp` | propext, Classical.choice, Quot.sound |
| `C93_bpod_decomp` | propext, Classical.choice, Quot.sound |
| `C93_pod_modes` | propext, Classical.choice, Quot.sound |
| `C93_bpod_modes` | propext, Classical.choice, Quot.sound |
| `C93_dmd_decomp` | propext, Classical.choice, Quot.sound |
| `C93_tls_decomp` | propext, Classical.choice, Quot.sound |
| `C93_dmd_modes` | propext, Classical.choice, Quot.sound |
| `C93_tls_modes` | propext, Classical.choice, Quot.sound |
| `C93_dmd_history` | propext, Classical.choice, Quot.sound |
| `C93_tls_history` | propext, Classical.choice, Quot.sound |
| `C93_galerkin` | propext, Classical.choice, Quot.sound |
| `C93_pod_snaps` | propext, Classical.choice, Quot.sound |
| `C93_bpod_arrays` | propext, Classical.choice, Quot.sound |
| `C93_dmd_snaps` | propext, Classical.choice, Quot.sound |
| `C93_tls_snaps` | propext, Classical.choice, Quot.sound |
| `C93_pod_direct` | propext, Classical.choice, Quot.sound |
| `C93_dmd_direct_pairs` | propext, Classical.choice, Quot.sound |
| `C93_dmd_direct_sequential` | propext, Classical.choice, Quot.sound |
| `C93_tls_direct_pairs` | propext, Classical.choice, Quot.sound |
| `C93_tls_direct_sequential` | propext, Classical.choice, Quot.sound |
| `C94_pod_snaps` | propext, Classical.choice, Quot.sound |
| `C94_pod_direct` | propext, Classical.choice, Quot.sound |
| `C94_single_modes` | propext, Classical.choice, Quot.sound |
| `C94_pod_handles` | propext, Classical.choice, Quot.sound |
| `C94_default_tolerance_has_units_violation` | propext, Classical.choice, Quot.sound |
| `C95_snaps_pairs` | propext, Classical.choice, Quot.sound |
| `C95_snaps_sequential` | propext, Classical.choice, Quot.sound |
| `C95_direct_pairs` | propext, Classical.choice, Quot.sound |
| `C95_direct_sequential` | propext, Classical.choice, Quot.sound |
| `C95_single_modes` | propext, Classical.choice, Quot.sound |
| `C95_truncation_violation` | propext, Classical.choice, Quot.sound |
| `C95_handles_pairs` | propext, Classical.choice, Quot.sound |
| `C95_handles_sequential` | propext, Classical.choice, Quot.sound |
| `C96_snaps_sequential` | propext, Classical.choice, Quot.sound |
| `C96_snaps_pairs` | propext, Classical.choice, Quot.sound |
| `C96_tls_snaps_sequential` | propext, Classical.choice, Quot.sound |
| `C96_tls_snaps_pairs` | propext, Classical.choice, Quot.sound |
| `C96_direct_sequential` | propext, Classical.choice, Quot.sound |
| `C96_direct_pairs` | propext, Classical.choice, Quot.sound |
| `C96_tls_direct_sequential` | propext, Classical.choice, Quot.sound |
| `C96_tls_direct_pairs` | propext, Classical.choice, Quot.sound |
| `C96_handles_sequential` | propext, Classical.choice, Quot.sound |
| `C96_handles_pairs` | propext, Classical.choice, Quot.sound |
| `C96_tls_handles_sequential` | propext, Classical.choice, Quot.sound |
| `C96_tls_handles_pairs` | propext, Classical.choice, Quot.sound |
| `C97_arrays` | propext, Classical.choice, Quot.sound |
| `C97_inputs_outputs` | propext, Classical.choice, Quot.sound |
| `C97_single_modes` | propext, Classical.choice, Quot.sound |
| `C97_handles` | propext, Classical.choice, Quot.sound |
| `C97_handles_inputs_outputs` | propext, Classical.choice, Quot.sound |
| `C98_response_partial` | propext, Classical.choice, Quot.sound |
| `C98_equal_values_violation` | propext, Classical.choice, Quot.sound |
| `C98_units_violation` | propext, Classical.choice, Quot.sound |
| `C99_inner_product_program` | propext, Classical.choice, Quot.sound |
| `C99_symmetric_program` | propext, Classical.choice, Quot.sound |
| `C99_when_printed` | propext, Classical.choice, Quot.sound |
| `C99_quiet` | propext, Classical.choice, Quot.sound |
| `C99_inner_products_partial` | propext, Classical.choice, Quot.sound |
| `C99_inner_products` | propext, Classical.choice, Quot.sound |
| `C99_symmetric` | propext, Classical.choice, Quot.sound |
| `C99_last_report` | propext, Classical.choice, Quot.sound |
| `C99_parallel_violation` | propext, Classical.choice, Quot.sound |
| `C99_zero_violation` | propext, Classical.choice, Quot.sound |
| `C99_lin_combine_partial` | propext, Classical.choice, Quot.sound |
| `C99_lin_combine_one_partial` | propext, Classical.choice, Quot.sound |
| `C99_lin_combine_violation` | propext, Classical.choice, Quot.sound |
| `C99_symmetric_all_program` | propext, Classical.choice, Quot.sound |
| `C99_exchange_last` | propext |
| `C99_symmetric_all_partial` | propext, Classical.choice, Quot.sound |
| `C99_symmetric_one` | propext, Classical.choice, Quot.sound |
| `C99_symmetric_parallel_violation` | propext, Classical.choice, Quot.sound |
| `C100_determined` | propext, Classical.choice, Quot.sound |
| `C100_orthogonal` | propext, Classical.choice, Quot.sound |
| `C100_order` | propext, Classical.choice, Quot.sound |
| `C100_coordinates_partial` | propext, Classical.choice, Quot.sound |
| `C100_units_partial` | propext, Classical.choice, Quot.sound |
| `C100_units_violation` | propext, Classical.choice, Quot.sound |
| `C101_dmd_pairs_max` | propext, Classical.choice, Quot.sound |
| `C101_dmd_sequential_max` | propext, Classical.choice, Quot.sound |
| `C101_tls_pairs_max` | propext, Classical.choice, Quot.sound |
| `C101_tls_sequential_max` | propext, Classical.choice, Quot.sound |
| `C101_pod` | propext, Classical.choice, Quot.sound |
| `C101_dmd_pairs` | propext, Classical.choice, Quot.sound |
| `C101_dmd_sequential` | propext, Classical.choice, Quot.sound |
| `C101_dmd_tolerance_violation` | propext, Classical.choice, Quot.sound |
| `C101_pod_handles` | propext, Classical.choice, Quot.sound |
| `C101_dmd_handles_pairs_partial` | propext, Classical.choice, Quot.sound |
| `C101_dmd_handles_sequential_partial` | propext, Classical.choice, Quot.sound |
| `C101_bpod_handles` | propext, Classical.choice, Quot.sound |
| `C101_tls_pairs` | propext, Classical.choice, Quot.sound |
| `C101_tls_sequential` | propext, Classical.choice, Quot.sound |
| `C101_tls_handles_pairs_partial` | propext, Classical.choice, Quot.sound |
| `C101_tls_handles_sequential_partial` | propext, Classical.choice, Quot.sound |
| `C102_snaps_pairs` | propext, Classical.choice, Quot.sound |
| `C102_snaps_sequential` | propext, Classical.choice, Quot.sound |
| `C102_direct_pairs` | propext, Classical.choice, Quot.sound |
| `C102_direct_sequential` | propext, Classical.choice, Quot.sound |
| `C102_handles_pairs` | propext, Classical.choice, Quot.sound |
| `C102_handles_sequential` | propext, Classical.choice, Quot.sound |
| `C103_print_msg` | propext, Classical.choice, Quot.sound |
| `C103_vector_space` | propext, Classical.choice, Quot.sound |
| `C103_constructor` | propext, Classical.choice, Quot.sound |
| `C103_loops` | propext, Classical.choice, Quot.sound |
| `C103_from_rank_zero_partial` | propext, Classical.choice, Quot.sound |
| `C103_from_rank_zero_violation` | propext, Classical.choice, Quot.sound |
| `C104_histories_with_exceptions` | propext |
| `C104_get_keeps_store` | propext |
| `C104_unreadable_changes_nothing` | propext |
| `C104_put_elsewhere` | propext |
| `C104_put_then_get` | propext |
| `C104_put_raises_partial` | propext |
| `C104_put_destroys_pickle_violation` | propext |
| `C104_put_text_partial` | propext |
| `C104_text_round_trip` | propext, Quot.sound |
| `C104_put_destroys_text_violation` | propext, Quot.sound |
| `C104_without_exceptions` | propext, Quot.sound |
| `C104_get_reads` | propext |
| `C104_get_missing` | propext |
| `C104_put_exception` | propext |
| `C105_error_bound` | propext, Classical.choice, Quot.sound |
| `C105_compute_ERA_model` | propext, Classical.choice, Quot.sound |
| `C105_from_samples` | propext, Classical.choice, Quot.sound |
| `C105_lsim` | propext, Classical.choice, Quot.sound |
| `C105_bpod` | propext, Classical.choice, Quot.sound |
| `C105_short_arrays_violation` | propext, Classical.choice, Quot.sound |
| `C105_bpod_handles` | propext, Classical.choice, Quot.sound |
| `C105_lower_bound` | propext, Classical.choice, Quot.sound |
| `C106_dmd_snaps_pairs` | propext, Classical.choice, Quot.sound |
| `C106_dmd_snaps_sequential` | propext, Classical.choice, Quot.sound |
| `C106_dmd_direct_pairs` | propext, Classical.choice, Quot.sound |
| `C106_dmd_direct_sequential` | propext, Classical.choice, Quot.sound |
| `C106_dmd_handles_pairs` | propext, Classical.choice, Quot.sound |
| `C106_dmd_handles_sequential` | propext, Classical.choice, Quot.sound |
| `C106_tls_snaps_pairs` | propext, Classical.choice, Quot.sound |
| `C106_tls_snaps_sequential` | propext, Classical.choice, Quot.sound |
| `C106_tls_direct_pairs` | propext, Classical.choice, Quot.sound |
| `C106_tls_direct_sequential` | propext, Classical.choice, Quot.sound |
| `C106_tls_handles_pairs` | propext, Classical.choice, Quot.sound |
| `C106_tls_handles_sequential` | propext, Classical.choice, Quot.sound |
| `C107_pod_snaps` | propext, Classical.choice, Quot.sound |
| `C107_pod_direct` | propext, Classical.choice, Quot.sound |
| `C107_dmd_snaps_pairs` | propext, Classical.choice, Quot.sound |
| `C107_dmd_snaps_sequential` | propext, Classical.choice, Quot.sound |
| `C107_dmd_direct_pairs` | propext, Classical.choice, Quot.sound |
| `C107_dmd_direct_sequential` | propext, Classical.choice, Quot.sound |
| `C107_predictions` | propext, Classical.choice, Quot.sound |
| `C107_bpod` | propext, Classical.choice, Quot.sound |
| `C107_era` | propext, Classical.choice, Quot.sound |
| `C107_tls_snaps_pairs` | propext, Classical.choice, Quot.sound |
| `C107_tls_snaps_sequential` | propext, Classical.choice, Quot.sound |
| `C107_tls_direct_pairs` | propext, Classical.choice, Quot.sound |
| `C107_tls_direct_sequential` | propext, Classical.choice, Quot.sound |
| `C108_inner_products_partial` | propext, Classical.choice, Quot.sound |
| `C108_symm_inner_products_partial` | propext, Classical.choice, Quot.sound |
| `C108_no_list_raises` | propext, Classical.choice, Quot.sound |
| `C108_lin_combine_partial` | propext, Classical.choice, Quot.sound |
| `C108_lin_combine_no_list_raises` | propext, Classical.choice, Quot.sound |
| `C108_pod_decomp_partial` | propext, Classical.choice, Quot.sound |
| `C108_pod_modes_partial` | propext, Classical.choice, Quot.sound |
| `C108_bpod_modes_partial` | propext, Classical.choice, Quot.sound |
| `C108_dmd_modes_partial` | propext, Classical.choice, Quot.sound |
| `C108_bpod_slices_partial` | propext, Quot.sound |
| `C108_bpod_one_handle_violation` | propext |
| `C108_dmd_one_handle_violation` | propext, Classical.choice, Quot.sound |
| `C109_chosen` | propext, Classical.choice, Quot.sound |
| `C109_pod_snaps` | propext, Classical.choice, Quot.sound |
| `C109_pod_direct` | propext, Classical.choice, Quot.sound |
| `C109_bpod` | propext, Classical.choice, Quot.sound |
| `C109_dmd_snaps_sequential` | propext, Classical.choice, Quot.sound |
| `C109_dmd_snaps_pairs` | propext, Classical.choice, Quot.sound |
| `C109_dmd_direct_sequential` | propext, Classical.choice, Quot.sound |
| `C109_dmd_direct_pairs` | propext, Classical.choice, Quot.sound |
| `C109_tls_snaps_sequential` | propext, Classical.choice, Quot.sound |
| `C109_tls_snaps_pairs` | propext, Classical.choice, Quot.sound |
| `C109_tls_direct_sequential` | propext, Classical.choice, Quot.sound |
| `C109_tls_direct_pairs` | propext, Classical.choice, Quot.sound |
| `C109_pod_handles` | propext, Classical.choice, Quot.sound |
| `C109_bpod_direct_handles` | propext, Classical.choice, Quot.sound |
| `C109_bpod_adjoint_handles` | propext, Classical.choice, Quot.sound |
| `C109_dmd_handles` | propext, Classical.choice, Quot.sound |
| `C109_tls_handles` | propext, Classical.choice, Quot.sound |
| `C110_era` | propext, Classical.choice, Quot.sound |
| `C110_era_function` | propext, Classical.choice, Quot.sound |
| `C110_balanced` | propext, Classical.choice, Quot.sound |
| `C110_galerkin_arrays` | propext, Classical.choice, Quot.sound |
| `C110_galerkin_handles` | propext, Classical.choice, Quot.sound |
| `C110_needs_biorthonormal` | propext, Classical.choice, Quot.sound |
| `C111_snaps_sequential` | propext, Classical.choice, Quot.sound |
| `C111_snaps_pairs` | propext, Classical.choice, Quot.sound |
| `C111_direct_sequential` | propext, Classical.choice, Quot.sound |
| `C111_direct_pairs` | propext, Classical.choice, Quot.sound |
| `C111_sequence` | propext, Classical.choice, Quot.sound |
| `C111_handles_sequential` | propext, Classical.choice, Quot.sound |
| `C111_handles_pairs` | propext, Classical.choice, Quot.sound |
| `C111_tls_snaps_sequential` | propext, Classical.choice, Quot.sound |
| `C111_tls_snaps_pairs` | propext, Classical.choice, Quot.sound |
| `C111_tls_direct_sequential` | propext, Classical.choice, Quot.sound |
| `C111_tls_direct_pairs` | propext, Classical.choice, Quot.sound |
| `C111_tls_handles_sequential` | propext, Classical.choice, Quot.sound |
| `C111_tls_handles_pairs` | propext, Classical.choice, Quot.sound |
| `C112_block_exact_partial` | propext |
| `C112_block_violation` | propext, Classical.choice, Quot.sound |
| `C112_block_is_array` | propext, Classical.choice, Quot.sound |
| `C112_sum_arrays_comm` | propext, Quot.sound |
| `C112_sum_arrays_assoc` | propext, Quot.sound |
| `C112_sum_arrays` | propext, Quot.sound |
| `C112_allreduce` | propext, Classical.choice, Quot.sound |
| `C112_data_members` | propext, Classical.choice, Quot.sound |
| `C112_data_members_raise` | propext |
| `C113_when_it_raises` | propext, Classical.choice, Quot.sound |
| `C113_value` | propext, Classical.choice, Quot.sound |
| `C113_conjugate_symmetric` | propext, Classical.choice, Quot.sound |
| `C113_linear` | propext, Classical.choice, Quot.sound |
| `C113_positive` | propext, Classical.choice, Quot.sound |
| `C113_shapes_ignored` | propext, Classical.choice, Quot.sound |
| `C113_arrays_agree` | propext, Classical.choice, Quot.sound |
| `C113_trapz` | propext, Classical.choice, Quot.sound |
| `C114_pod_snaps` | propext, Classical.choice, Quot.sound |
| `C114_pod_direct` | propext, Classical.choice, Quot.sound |
| `C114_pod_handles` | propext, Classical.choice, Quot.sound |
| `C115_pod_snaps` | propext, Classical.choice, Quot.sound |
| `C115_pod_direct` | propext, Classical.choice, Quot.sound |
| `C115_pod_handles` | propext, Classical.choice, Quot.sound |
| `C115_zero_vectors_snaps` | propext, Classical.choice, Quot.sound |
| `C115_zero_vectors_direct` | propext, Classical.choice, Quot.sound |
| `C115_repeated_snaps` | propext, Classical.choice, Quot.sound |
| `C115_repeated_direct` | propext, Classical.choice, Quot.sound |
| `C115_zero_vectors_handles` | propext, Classical.choice, Quot.sound |
| `C115_repeated_handles` | propext, Classical.choice, Quot.sound |
| `C116_snaps_zero_pairs` | propext, Classical.choice, Quot.sound |
| `C116_snaps_repeated_pairs` | propext, Classical.choice, Quot.sound |
| `C116_direct_zero_pairs` | propext, Classical.choice, Quot.sound |
| `C116_direct_repeated_pairs` | propext, Classical.choice, Quot.sound |
| `C116_same_eigenvalues` | propext, Classical.choice, Quot.sound |
| `C116_tls_snaps_zero_pairs` | propext, Classical.choice, Quot.sound |
| `C116_tls_snaps_repeated_pairs` | propext, Classical.choice, Quot.sound |
| `C116_tls_direct_zero_pairs` | propext, Classical.choice, Quot.sound |
| `C116_tls_direct_repeated_pairs` | propext, Classical.choice, Quot.sound |
| `C116_handles_zero_pairs` | propext, Classical.choice, Quot.sound |
| `C116_handles_repeated_pairs` | propext, Classical.choice, Quot.sound |
| `C116_tls_handles_zero_pairs` | propext, Classical.choice, Quot.sound |
| `C116_tls_handles_repeated_pairs` | propext, Classical.choice, Quot.sound |
| `C116_tls_number` | propext, Classical.choice, Quot.sound |
| `C117_bpod_zero` | propext, Classical.choice, Quot.sound |
| `C117_bpod_repeated` | propext, Classical.choice, Quot.sound |
| `C117_handles_zero` | propext, Classical.choice, Quot.sound |
| `C117_handles_repeated` | propext, Classical.choice, Quot.sound |
| `C117_era_zero` | propext, Classical.choice, Quot.sound |
| `C117_era_repeated` | propext, Classical.choice, Quot.sound |
| `C118_pod_snaps` | propext, Classical.choice, Quot.sound |
| `C118_pod_direct` | propext, Classical.choice, Quot.sound |
| `C118_pod_handles` | propext, Classical.choice, Quot.sound |
| `C118_bpod_arrays` | propext, Classical.choice, Quot.sound |
| `C118_bpod_handles` | propext, Classical.choice, Quot.sound |
| `C118_dmd_snaps_seq` | propext, Classical.choice, Quot.sound |
| `C118_dmd_snaps_pairs` | propext, Classical.choice, Quot.sound |
| `C118_dmd_direct_seq` | propext, Classical.choice, Quot.sound |
| `C118_dmd_direct_pairs` | propext, Classical.choice, Quot.sound |
| `C118_tls_snaps_seq` | propext, Classical.choice, Quot.sound |
| `C118_tls_snaps_pairs` | propext, Classical.choice, Quot.sound |
| `C118_tls_direct_seq` | propext, Classical.choice, Quot.sound |
| `C118_tls_direct_pairs` | propext, Classical.choice, Quot.sound |
| `C118_dmd_handles` | propext, Classical.choice, Quot.sound |
| `C118_tls_handles` | propext, Classical.choice, Quot.sound |
| `C118_pod_direct_needs_tolerance` | propext, Classical.choice, Quot.sound |
| `C119_change` | propext, Classical.choice, Quot.sound |
| `C119_snaps` | propext, Classical.choice, Quot.sound |
| `C119_snaps_more` | propext, Classical.choice, Quot.sound |
| `C119_direct` | propext, Classical.choice, Quot.sound |
| `C119_direct_more` | propext, Classical.choice, Quot.sound |
| `C119_handles` | propext, Classical.choice, Quot.sound |
| `C119_handles_more` | propext, Classical.choice, Quot.sound |
| `C119_bpod_arrays` | propext, Classical.choice, Quot.sound |
| `C119_bpod_handles` | propext, Classical.choice, Quot.sound |
| `C119_era_more` | propext, Classical.choice, Quot.sound |
| `C119_era` | propext, Classical.choice, Quot.sound |
| `C120_snaps` | propext, Classical.choice, Quot.sound |
| `C120_direct` | propext, Classical.choice, Quot.sound |
| `C120_handles` | propext, Classical.choice, Quot.sound |
| `C121_era` | propext, Classical.choice, Quot.sound |
| `C122_snaps` | propext, Classical.choice, Quot.sound |
| `C122_direct` | propext, Classical.choice, Quot.sound |
| `C122_handles` | propext, Classical.choice, Quot.sound |
| `C123_snaps` | propext, Classical.choice, Quot.sound |
| `C123_direct` | propext, Classical.choice, Quot.sound |
| `C123_handles` | propext, Classical.choice, Quot.sound |
| `C123_bpod_arrays` | propext, Classical.choice, Quot.sound |
| `C124_snaps_sequential` | propext, Classical.choice, Quot.sound |
| `C124_snaps_pairs` | propext, Classical.choice, Quot.sound |
| `C124_tls_snaps_sequential` | propext, Classical.choice, Quot.sound |
| `C124_tls_snaps_pairs` | propext, Classical.choice, Quot.sound |
| `C124_direct_sequential` | propext, Classical.choice, Quot.sound |
| `C124_direct_pairs` | propext, Classical.choice, Quot.sound |
| `C124_tls_direct_sequential` | propext, Classical.choice, Quot.sound |
| `C124_tls_direct_pairs` | propext, Classical.choice, Quot.sound |
| `C124_handles_sequential` | propext, Classical.choice, Quot.sound |
| `C124_handles_pairs` | propext, Classical.choice, Quot.sound |
| `C124_tls_handles_sequential` | propext, Classical.choice, Quot.sound |
| `C124_tls_handles_pairs` | propext, Classical.choice, Quot.sound |
| `C125_arrays` | propext, Classical.choice, Quot.sound |
| `C125_handles` | propext, Classical.choice, Quot.sound |
| `C125_adjoint_system` | propext, Classical.choice, Quot.sound |
| `C125_handles_adjoint_system` | propext, Classical.choice, Quot.sound |
| `C126_dual_model` | propext, Classical.choice, Quot.sound |
| `C126_no_error` | propext, Classical.choice, Quot.sound |
| `C126_compute_ERA_model` | propext, Classical.choice, Quot.sound |
| `C126_response` | propext, Classical.choice, Quot.sound |
| `C127_snaps_sequential` | propext, Classical.choice, Quot.sound |
| `C127_snaps_pairs` | propext, Classical.choice, Quot.sound |
| `C127_direct_sequential` | propext, Classical.choice, Quot.sound |
| `C127_direct_pairs` | propext, Classical.choice, Quot.sound |
| `C127_handles_sequential` | propext, Classical.choice, Quot.sound |
| `C127_handles_pairs` | propext, Classical.choice, Quot.sound |
| `C127_tls_snaps_sequential` | propext, Classical.choice, Quot.sound |
| `C127_tls_snaps_pairs` | propext, Classical.choice, Quot.sound |
| `C127_tls_direct_sequential` | propext, Classical.choice, Quot.sound |
| `C127_tls_direct_pairs` | propext, Classical.choice, Quot.sound |
| `C127_tls_handles_sequential` | propext, Classical.choice, Quot.sound |
| `C127_tls_handles_pairs` | propext, Classical.choice, Quot.sound |
| `C128_snaps_sequential` | propext, Classical.choice, Quot.sound |
| `C128_snaps_pairs` | propext, Classical.choice, Quot.sound |
| `C128_tls_snaps_sequential` | propext, Classical.choice, Quot.sound |
| `C128_tls_snaps_pairs` | propext, Classical.choice, Quot.sound |
| `C128_direct_sequential` | propext, Classical.choice, Quot.sound |
| `C128_direct_pairs` | propext, Classical.choice, Quot.sound |
| `C128_tls_direct_sequential` | propext, Classical.choice, Quot.sound |
| `C128_tls_direct_pairs` | propext, Classical.choice, Quot.sound |
| `C128_handles_sequential` | propext, Classical.choice, Quot.sound |
| `C128_handles_pairs` | propext, Classical.choice, Quot.sound |
| `C128_tls_handles_sequential` | propext, Classical.choice, Quot.sound |
| `C128_tls_handles_pairs` | propext, Classical.choice, Quot.sound |
| `C129_arrays` | propext, Classical.choice, Quot.sound |
| `C129_handles` | propext, Classical.choice, Quot.sound |
| `C130_balanced_truncation` | propext, Classical.choice, Quot.sound |
| `C131_balanced_truncation` | propext, Classical.choice, Quot.sound |
| `C132_arrays` | propext, Classical.choice, Quot.sound |
| `C132_handles` | propext, Classical.choice, Quot.sound |
| `C133_snaps_pairs` | propext, Classical.choice, Quot.sound |
| `C133_direct_pairs` | propext, Classical.choice, Quot.sound |
| `C133_handles_pairs` | propext, Classical.choice, Quot.sound |
| `C134_handles` | propext, Classical.choice, Quot.sound |
| `C134_arrays` | propext, Classical.choice, Quot.sound |
| `C135_snaps_sequential` | propext, Classical.choice, Quot.sound |
| `C135_snaps_pairs` | propext, Classical.choice, Quot.sound |
| `C135_direct_sequential` | propext, Classical.choice, Quot.sound |
| `C135_direct_pairs` | propext, Classical.choice, Quot.sound |
| `C135_handles_sequential` | propext, Classical.choice, Quot.sound |
| `C135_handles_pairs` | propext, Classical.choice, Quot.sound |
| `C136_arrays` | propext, Classical.choice, Quot.sound |
| `C136_handles` | propext, Classical.choice, Quot.sound |
| `C137_snaps_pairs` | propext, Classical.choice, Quot.sound |
| `C137_snaps_sequential` | propext, Classical.choice, Quot.sound |
| `C137_direct_pairs` | propext, Classical.choice, Quot.sound |
| `C137_direct_sequential` | propext, Classical.choice, Quot.sound |
| `C137_handles_pairs` | propext, Classical.choice, Quot.sound |
| `C137_handles_sequential` | propext, Classical.choice, Quot.sound |
| `C138_one_step` | propext, Classical.choice, Quot.sound |
| `C138_self_adjoint` | propext, Classical.choice, Quot.sound |
| `C138_handles_self_adjoint` | propext, Classical.choice, Quot.sound |
| `C138_handles_one_step` | propext, Classical.choice, Quot.sound |
| `C139_hermitian` | propext, Classical.choice, Quot.sound |
| `C139_system` | propext, Classical.choice, Quot.sound |
| `C139_system_default` | propext, Classical.choice, Quot.sound |
| `C139_compute_ERA_model` | propext, Classical.choice, Quot.sound |
| `C139_needs_sign` | propext, Classical.choice, Quot.sound |
<!-- axioms end -->
