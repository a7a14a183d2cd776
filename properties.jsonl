{"id": "C01", "title": "Task assignment loses, duplicates and reorders nothing", "statement": "parallel.find_assignments returns exactly one (possibly empty) list per MPI worker, and reading these lists in worker order gives back the given task list: every task is assigned to exactly one worker, in the original order.", "quantifier": "for every list of tasks, every list of positive weights of the same length (and for omitted weights), and every number of workers >= 1", "why_tests_cant": "The greedy split depends on the interplay of all weights, list length and worker count; a test can only sample a few (the repository tests five).", "anchors": ["modred/parallel.py:find_assignments", "modred/parallel.py:check_for_empty_tasks"]}
{"id": "C02", "title": "Equal-weight assignment is balanced and idle workers come last", "statement": "With omitted weights every worker receives floor(n/p) or ceil(n/p) tasks; if there are at least as many tasks as workers nobody is idle; otherwise the idle workers are exactly the last p-n ranks.", "quantifier": "for every number of tasks n and every number of workers p >= 1", "why_tests_cant": "The remaining work is re-averaged after each worker with nearest-integer rounding; that the rounding errors never accumulate is a statement about all (n,p).", "anchors": ["modred/parallel.py:find_assignments", "modred/parallel.py:check_for_empty_tasks"]}
{"id": "C03", "title": "Task assignment with zero or negative weights", "statement": "find_assignments assigns every task to some worker also if some weights are zero (or negative). The code violates this: tasks after the last strictly positive partial sum can be dropped.", "quantifier": "for every list of tasks, all nonnegative weights and every number of workers", "why_tests_cant": "Only particular weight patterns (zero weight at the tail) trigger the loss; no existing test uses a zero weight.", "anchors": ["modred/parallel.py:find_assignments"]}
{"id": "C04", "title": "Tree reduction equals the rank-ordered fold", "statement": "reductions' Intracomm.reduce gives the root the combination op(...op(op(x0,x1),x2)...,x_{p-1}) of all ranks' objects in rank order and gives None to every other rank; allreduce gives this same value to every rank.", "quantifier": "for every communicator size p >= 1, every root < p, every associative (not necessarily commutative) op, and all contributed objects", "why_tests_cant": "Correctness of the bit-mask tree for sizes that are not powers of two and for non-commutative operations is a statement about all p; tests run with one or two processes.", "anchors": ["modred/reductions.py:Intracomm.reduce", "modred/reductions.py:Intracomm.allreduce"]}
{"id": "C05", "title": "Prefix reductions are right for every communicator size", "statement": "scan gives rank r the rank-ordered combination of the objects of ranks 0..r; exscan gives rank r>0 the combination of ranks 0..r-1 and rank 0 None.", "quantifier": "for every communicator size p >= 1, every associative op and all objects", "why_tests_cant": "For sizes that are no power of two the partial blocks held by some ranks are incomplete during the exchange; that these never reach a result is a statement about all sizes.", "anchors": ["modred/reductions.py:Intracomm.scan", "modred/reductions.py:Intracomm.exscan"]}
{"id": "C06", "title": "Message exchanges cannot deadlock and do not depend on the schedule", "statement": "In each point-to-point exchange pattern used by the library (tree reduction, prefix reduction, ring passing, pairwise symmetric exchange) every send has a matching receive, no interleaving of the processes can get stuck, and every completed interleaving ends in the same state as lock-step execution.", "quantifier": "for every number of processes, every number of rounds, every message contents, every interleaving, with sends either buffered or synchronous", "why_tests_cant": "There are exponentially many interleavings and an MPI run exhibits one of them; a deadlock may depend on buffering.", "anchors": ["modred/reductions.py:Intracomm.reduce", "modred/reductions.py:Intracomm.scan", "modred/vectorspace.py:VectorSpaceHandles.compute_inner_product_array", "modred/vectorspace.py:VectorSpaceHandles.compute_symm_inner_product_array", "modred/vectorspace.py:VectorSpaceHandles.lin_combine"]}
{"id": "C07", "title": "Inner product array of handles is independent of processes and memory limit", "statement": "VectorSpaceHandles.compute_inner_product_array(rows, cols) returns on every process the len(rows) x len(cols) array whose (i,j) entry is the inner product of row vector i with column vector j.", "quantifier": "for all non-empty lists of row and column vectors, every conjugate-symmetric inner product, every number of processes and nodes, and every max_vecs_per_node", "why_tests_cant": "Chunking, assignment and ring passing give a different path through the code for each combination of sizes, process count and memory limit.", "anchors": ["modred/vectorspace.py:VectorSpaceHandles.compute_inner_product_array"]}
{"id": "C08", "title": "Symmetric inner product array equals the full one", "statement": "compute_symm_inner_product_array(vecs) returns on every process the array of all inner products <v_i, v_j>, in particular a Hermitian array, although only about half of the products are evaluated.", "quantifier": "for every non-empty list of vectors, every conjugate-symmetric inner product (zero products included), every number of processes and nodes, and every max_vecs_per_node", "why_tests_cant": "Which triangle an entry is computed in, and by which process, depends on chunking, on parity of the number of active processes and on which entries happen to be zero.", "anchors": ["modred/vectorspace.py:VectorSpaceHandles.compute_symm_inner_product_array"]}
{"id": "C09", "title": "Linear combinations of handles are right and saved exactly once", "statement": "lin_combine puts into sum handle k the vector sum_i basis_i * coeff[i,k], and over all processes each sum handle is put exactly once.", "quantifier": "for all non-empty basis and sum lists, coefficient arrays, every number of processes and nodes, and every max_vecs_per_node, when no sum handle writes to storage that a basis handle reads", "why_tests_cant": "The order of accumulation and the distribution of puts differ for every process count, memory limit and list length.", "anchors": ["modred/vectorspace.py:VectorSpaceHandles.lin_combine"]}
{"id": "C10", "title": "Linear combinations onto the basis' own storage", "statement": "lin_combine gives the same result when a sum handle writes to the storage of a basis handle. The code violates this: once more than one round of sums is needed, later sums read overwritten basis vectors, so the outcome depends on max_vecs_per_node, and with several processes on their timing. It holds if all sums fit into one round, or if the storage is apart.", "quantifier": "for all basis and sum handles sharing storage, and every memory limit", "why_tests_cant": "Small test cases fit in one round and give the right answer; the outcome changes only beyond a memory-dependent size.", "anchors": ["modred/vectorspace.py:VectorSpaceHandles.lin_combine"]}
{"id": "C11", "title": "lin_combine rejects mismatched dimensions before writing anything", "statement": "lin_combine accepts a coefficient array exactly if its number of rows is the number of basis handles and its number of selected columns is the number of sum handles; otherwise it raises ValueError and no handle has been written. A selected column that does not exist, or an empty list of basis handles, raises IndexError, again before anything is written. 1-D coefficients are read as a row if there is one basis handle and as a column otherwise.", "quantifier": "for every shape of the coefficients, every column selection and all list lengths", "why_tests_cant": "Shape checks have boundary cases for each combination of dimensions.", "anchors": ["modred/vectorspace.py:VectorSpaceHandles.lin_combine"]}
{"id": "C12", "title": "Memory limit arithmetic", "statement": "A VectorSpaceHandles object always allows at least 3 vectors per process, so that row chunks hold at least two vectors and every loop makes progress; when the request is at least 3 vectors per process the limit over all processes does not exceed the requested limit over all nodes, and it is the largest such.", "quantifier": "for every requested max_vecs_per_node (or none) and all numbers of processes and nodes >= 1", "why_tests_cant": "Integer division and the adjustment branch have boundary cases for all triples.", "anchors": ["modred/vectorspace.py:VectorSpaceHandles.__init__"]}
{"id": "C13", "title": "Vector handles subtract their base vector and scale, whatever happened before", "statement": "handle.get() returns (stored vector - base handle's current vector) * scale. The code guarantees this only if no base handle's storage changes after it was first used and equal handles describe equal vectors: the shared cache of the last base vector is not invalidated by put, and is keyed by an equality that ignores scale, base and is_complex.", "quantifier": "for every sequence of get and put calls on any handles", "why_tests_cant": "It is a statement about all call histories of a class-wide mutable cache.", "anchors": ["modred/vectors.py:VecHandle.get", "modred/vectors.py:VecHandleInMemory.__eq__", "modred/vectors.py:VecHandleArrayText.__eq__", "modred/vectors.py:VecHandlePickle.__eq__"]}
{"id": "C14", "title": "Text files round-trip arrays", "statement": "load_array_text(save_array_text(a), is_complex=(a is complex)) returns a as a 2-D array of floating point (or complex) numbers, a 1-D array coming back as one column. Arrays of more than two dimensions raise RuntimeError, and a complex load of an odd number of columns raises ValueError.", "quantifier": "for all real and complex floating point arrays of every shape with at least one row and column", "why_tests_cant": "Every shape and value; interleaving real and imaginary parts must be inverted exactly.", "anchors": ["modred/util.py:save_array_text", "modred/util.py:load_array_text"]}
{"id": "C15", "title": "Text files round-trip integer arrays", "statement": "save_array_text followed by load_array_text returns the numerical values also for an array of integers. The code violates this: the integers' bits are reinterpreted as floating point numbers.", "quantifier": "for all integer arrays", "why_tests_cant": "Tests only save floating point arrays; the loss is silent.", "anchors": ["modred/util.py:save_array_text"]}
{"id": "C16", "title": "Signal loading", "statement": "load_signals splits a file into its first column (time) and the rest (signals) and rejects a file with fewer than two columns; load_multiple_signals returns the signals of file k at position k and the common time values, and raises ValueError if any file's times or shapes differ. The code violates the last part: a file with one signal after a first file with several is accepted, and its signal is silently repeated.", "quantifier": "for any number of files and any contents", "why_tests_cant": "Contents and counts are unbounded.", "anchors": ["modred/util.py:load_signals", "modred/util.py:load_multiple_signals"]}
{"id": "C17", "title": "Hankel arrays have constant skew diagonals", "statement": "Hankel(first_col, last_row)[i,j] equals first_col[i+j] if i+j < len(first_col) and last_row[i+j-len(first_col)+1] otherwise (zero when last_row is omitted); last_row[0] has no influence.", "quantifier": "for all first columns and last rows", "why_tests_cant": "All shapes, including wide and tall arrays.", "anchors": ["modred/util.py:Hankel"]}
{"id": "C18", "title": "Block Hankel arrays are assembled from chunks", "statement": "Hankel_chunks places chunk number I+J (first_col_chunks followed by last_row_chunks[1:], default zero chunks) at block position (I,J), for chunks of any one common shape.", "quantifier": "for all numbers of chunks and every common chunk shape", "why_tests_cant": "All shapes; tests use 2x2 chunks only.", "anchors": ["modred/util.py:Hankel_chunks"]}
{"id": "C19", "title": "Truncated SVD keeps exactly the singular triples above tolerance", "statement": "util.svd returns exactly the singular values with |s| > atol and |s|/|s_0| > rtol in descending order with their vectors; the returned left and right vectors are orthonormal columns, A R = L diag(s), A^* L = R diag(s), and without truncation A = L diag(s) R^*.", "quantifier": "for every array and all tolerances (or none), for every valid result of the numerical library's SVD", "why_tests_cant": "All arrays and tolerances; boundary values equal to the tolerance.", "anchors": ["modred/util.py:svd"]}
{"id": "C20", "title": "Eigendecomposition keeps exactly the eigenvalues above tolerance", "statement": "util.eigh returns eigenpairs sorted by decreasing magnitude; exactly those with magnitude > atol and relative magnitude > rtol are kept; with is_positive_definite all returned eigenvalues are positive and eigenvalues not larger than the most negative one are dropped too; eigenvectors are orthonormal. The code violates the positivity for atol=None: zero eigenvalues are returned, and a negative eigenvalue raises TypeError.", "quantifier": "for every Hermitian array, all tolerances with atol >= 0, and every valid result of the numerical library (any order of ties)", "why_tests_cant": "All arrays and tolerances, all tie orders of an unstable sort.", "anchors": ["modred/util.py:eigh"]}
{"id": "C21", "title": "Left and right eigenvectors are biorthonormal", "statement": "util.eig_biorthog returns eigenvalues, right eigenvectors R and left eigenvectors L with A R = R diag(w), L^* A = diag(w) L^* and, for an array with distinct eigenvalues, L^* R = I, for either scale choice; any other scale choice raises ValueError.", "quantifier": "for every square array with distinct eigenvalues and every valid result of the numerical library", "why_tests_cant": "All arrays.", "anchors": ["modred/util.py:eig_biorthog"]}
{"id": "C22", "title": "POD modes are orthonormal", "statement": "The modes computed by compute_POD_arrays_snaps_method, compute_POD_arrays_direct_method and PODHandles are orthonormal in the weighted inner product, for any retained number of modes.", "quantifier": "for every data array, every positive definite weight (none, vector or array), all tolerances with atol >= 0", "why_tests_cant": "All data and tolerances, rank-deficient data included.", "anchors": ["modred/pod.py:compute_POD_arrays_snaps_method", "modred/pod.py:compute_POD_arrays_direct_method", "modred/pod.py:PODHandles"]}
{"id": "C23", "title": "POD projection coefficients, energies and reconstruction", "statement": "proj_coeffs equals modes^* W vecs; the eigenvalues are the energies (row norms squared) of proj_coeffs; with nothing but zero eigenvalues truncated, modes * proj_coeffs reproduces the data exactly, and in general the squared reconstruction error is the sum of the dropped eigenvalues.", "quantifier": "for every data array, weight and truncation", "why_tests_cant": "All data.", "anchors": ["modred/pod.py:compute_POD_arrays_snaps_method", "modred/pod.py:compute_POD_arrays_direct_method", "modred/pod.py:PODHandles.compute_proj_coeffs"]}
{"id": "C24", "title": "BPOD modes are biorthonormal and balance", "statement": "BPOD direct and adjoint modes satisfy adjoint_modes^* W direct_modes = I when the Hankel array is the inner product array of adjoint with direct vectors, for any truncation; projecting gives the documented proj_coeffs.", "quantifier": "for all direct and adjoint data, weights and tolerances", "why_tests_cant": "All data.", "anchors": ["modred/bpod.py:compute_BPOD_arrays", "modred/bpod.py:BPODHandles"]}
{"id": "C25", "title": "BPOD computes the whole Hankel array from one block row and one block column", "statement": "When direct vectors are x_k = A^k B and adjoint vectors y_k = (A^+)^k C^+ of one linear system (A^+ the adjoint), the array assembled from the first num_inputs columns and last num_outputs rows equals the array of all inner products.", "quantifier": "for every linear system, weight, number of inputs, outputs and snapshots", "why_tests_cant": "All systems and all shapes.", "anchors": ["modred/bpod.py:BPODHandles.compute_decomp", "modred/util.py:Hankel_chunks"]}
{"id": "C26", "title": "DMD modes, adjoint modes and eigenvalues fit together", "statement": "The adjoint DMD modes are biorthonormal to the projected DMD modes and to the exact DMD modes; exact modes are eigenvectors, with the returned eigenvalues, of the linear map adv_vecs * pinv(vecs), and of A itself when adv_vecs = A vecs and A maps the span of the vectors to itself.", "quantifier": "for all data, weights and truncations for which the reduced map has distinct non-zero eigenvalues", "why_tests_cant": "All data.", "anchors": ["modred/dmd.py:compute_DMD_arrays_snaps_method", "modred/dmd.py:compute_DMD_arrays_direct_method", "modred/dmd.py:DMDHandles"]}
{"id": "C27", "title": "DMD projection and spectral coefficients", "statement": "compute_proj_coeffs returns adjoint_modes^* W vecs and adjoint_modes^* W adv_vecs, and the spectral coefficients are the magnitudes of the first column; the snapshot and direct methods agree, up to order and scale of the modes, for sequential and non-sequential data if they retain the same eigenvalues.", "quantifier": "for all data, weights and truncations", "why_tests_cant": "All data; sequential and non-sequential paths assemble the arrays differently.", "anchors": ["modred/dmd.py:compute_DMD_arrays_snaps_method", "modred/dmd.py:compute_DMD_arrays_direct_method", "modred/dmd.py:DMDHandles.compute_proj_coeffs", "modred/dmd.py:DMDHandles.compute_spectrum"]}
{"id": "C28", "title": "The relative tolerance given by the user is honoured by DMD on handles", "statement": "DMDHandles and TLSqrDMDHandles drop all correlation eigenvalues at or below rtol times the largest. The code violates this: the eigendecomposition is called with rtol=None.", "quantifier": "for every rtol and all data", "why_tests_cant": "Whether an ignored argument changes the outcome depends on the data; no test passes one.", "anchors": ["modred/dmd.py:DMDHandles.compute_eigendecomp", "modred/dmd.py:TLSqrDMDHandles.compute_eigendecomp"]}
{"id": "C29", "title": "A DMD object can be reused for a second data set", "statement": "After compute_decomp on a new data set, mode computations use that data set only. The code violates this: a second call without advanced vectors keeps the advanced vectors of the first call.", "quantifier": "for every sequence of compute_decomp and compute_exact_modes calls", "why_tests_cant": "It is about histories of calls on one object.", "anchors": ["modred/dmd.py:DMDHandles.compute_decomp", "modred/dmd.py:DMDHandles.compute_exact_modes", "modred/dmd.py:TLSqrDMDHandles.compute_decomp"]}
{"id": "C30", "title": "Total-least-squares DMD spectral coefficients", "statement": "The spectral coefficients returned by compute_TLSqrDMD_arrays_snaps_method are the magnitudes of the first column of the projection coefficients, like those of the direct method. The code violates this for complex data: a conjugation is missing.", "quantifier": "for all data, real and complex", "why_tests_cant": "Real data, or data whose relevant eigenvector row is real, hide the difference.", "anchors": ["modred/dmd.py:compute_TLSqrDMD_arrays_snaps_method", "modred/dmd.py:compute_TLSqrDMD_arrays_direct_method"]}
{"id": "C31", "title": "Total-least-squares DMD modes are biorthonormal", "statement": "The TLSqrDMD adjoint modes are biorthonormal to the exact and projected modes, and the projected coefficients are the inner products with the projected data.", "quantifier": "for all data and truncations with distinct non-zero reduced eigenvalues", "why_tests_cant": "All data.", "anchors": ["modred/dmd.py:compute_TLSqrDMD_arrays_snaps_method", "modred/dmd.py:compute_TLSqrDMD_arrays_direct_method", "modred/dmd.py:TLSqrDMDHandles"]}
{"id": "C32", "title": "make_sampled_format interleaves Markov parameters", "statement": "make_sampled_format turns a series M_0..M_{n-1} with equal spacing dt into M_0,M_1,M_1,M_2,M_2,...,M_{n-1} with matching time steps, and rejects a number of times differing from the number of parameters (RuntimeError) and unequal spacing (ValueError). The code violates the last part for steps that are no larger than the absolute tolerance: increasing times are then accepted whatever their spacing.", "quantifier": "for every number of time steps and all real values", "why_tests_cant": "All lengths.", "anchors": ["modred/era.py:make_sampled_format"]}
{"id": "C33", "title": "ERA block Hankel arrays", "statement": "ERA forms H with block (r,c) = Markov parameter number 2(r+c) of the sampled sequence and H2 with number 2(r+c)+1, i.e. M_{r+c} and M_{r+c+1} of the equally spaced series.", "quantifier": "for all series lengths and all valid mc, mo", "why_tests_cant": "All lengths and block counts.", "anchors": ["modred/era.py:ERA._assemble_Hankel", "modred/era.py:make_sampled_format"]}
{"id": "C34", "title": "ERA rejects block counts that need more data than given", "statement": "If mc and mo need more Markov parameters than given, ERA raises ValueError. The code violates this: the guard mo+mc+2 > nt lets through choices that then fail with IndexError; and the default choice is not the largest possible.", "quantifier": "for all nt, mc, mo", "why_tests_cant": "Boundary values for all triples; tests do not pass mc and mo near the limit.", "anchors": ["modred/era.py:ERA._assemble_Hankel"]}
{"id": "C35", "title": "ERA honours constructor arguments", "statement": "mc and mo given to the ERA constructor are used by compute_model. The code violates this: compute_model overwrites them with its own arguments, None by default.", "quantifier": "for all constructor arguments and all sequences of calls", "why_tests_cant": "No test passes mc or mo to the constructor and then checks the Hankel shape.", "anchors": ["modred/era.py:ERA.__init__", "modred/era.py:ERA.compute_model"]}
{"id": "C36", "title": "ERA recovers a linear system exactly", "statement": "Given exact Markov parameters of a linear system of order n whose block Hankel array has rank n, the ERA model of order n reproduces every Markov parameter C A^k B, also those beyond the data.", "quantifier": "for every system, all numbers of inputs and outputs, and every k", "why_tests_cant": "All systems and all k, also outside of the data.", "anchors": ["modred/era.py:ERA.compute_model", "modred/era.py:compute_ERA_model"]}
{"id": "C37", "title": "OKID recovers Markov parameters", "statement": "OKID returns D, CB, CAB, ... of the system that generated the data from rest if a deadbeat observer within the given number of lags exists and the data matrix has full row rank; more generally if the number of lags is at least the order of the system or such an observer exists, and either there is one input whose first sample is not zero or the delayed inputs and the state are independent.", "quantifier": "for every linear system, input signal, number of Markov parameters and least-squares solver", "why_tests_cant": "All systems and signals.", "anchors": ["modred/okid.py:OKID"]}
{"id": "C38", "title": "Galerkin projection of linear systems", "statement": "reduce_A, reduce_B, reduce_C return (Psi^*W Phi)^-1 Psi^*W A Phi, (Psi^*W Phi)^-1 Psi^*W B and C Phi; for biorthonormal bases these agree with is_basis_orthonormal=True; a basis spanning the whole state space keeps every Markov parameter.", "quantifier": "for all systems, bases and weights", "why_tests_cant": "All data; and the cached projection array over histories of calls.", "anchors": ["modred/ltigalerkinproj.py:LTIGalerkinProjectionArrays", "modred/ltigalerkinproj.py:LTIGalerkinProjectionHandles"]}
{"id": "C39", "title": "Finite-difference derivatives", "statement": "compute_derivs_arrays and compute_derivs_handles give (advanced - current)/dt for each pair; with handles each derivative handle is put exactly once over all processes; lists of different lengths raise RuntimeError before anything is written.", "quantifier": "for all vectors, dt != 0 and every number of processes", "why_tests_cant": "All list lengths and process counts.", "anchors": ["modred/ltigalerkinproj.py:compute_derivs_handles", "modred/ltigalerkinproj.py:compute_derivs_arrays"]}
{"id": "C40", "title": "Trapezoidal inner product is an inner product", "statement": "InnerProductTrapz(v1,v2) is conjugate-symmetric, linear in the second argument, and nonnegative for v1=v2 on increasing grids; it equals the sum over grid points of conj(v1)*v2 times the product of one-dimensional trapezoid weights; a shape mismatch raises an error.", "quantifier": "for every number of dimensions, all grids and all vectors", "why_tests_cant": "All dimensions, grids and values.", "anchors": ["modred/vectors.py:InnerProductTrapz"]}
{"id": "C41", "title": "Simulation and impulse response", "statement": "lsim returns the outputs of x_{k+1} = A x_k + B u_k, y_k = C x_k from the given initial condition (zero by default); impulse returns C A^k B at position k.", "quantifier": "for all real systems, signals and lengths", "why_tests_cant": "All lengths and systems.", "anchors": ["modred/util.py:lsim", "modred/util.py:impulse"]}
{"id": "C42", "title": "Balanced truncation of discrete-time systems", "statement": "balanced_truncation balances the discrete-time Gramians, so that its Hankel singular values are those of the given discrete-time system. The code violates this: it solves the continuous-time Lyapunov equation, so that truncation can keep the wrong states, and for some stable systems there is no solution. It still returns a projection of the system, input-output behaviour is preserved at full order, and the solutions of the equations it sets up are balanced.", "quantifier": "for all real systems", "why_tests_cant": "A full-order test, like the existing one, only sees that behaviour is preserved.", "anchors": ["modred/util.py:balanced_truncation"]}
{"id": "C43", "title": "File listing by extension", "statement": "get_file_list returns exactly the names in the directory listing that end in the given extension, in listing order and not joined to the directory; without an extension it returns all names. The code violates this for the empty extension, for which every file name ends in the extension but none is returned.", "quantifier": "for all directory contents and extensions", "why_tests_cant": "All strings.", "anchors": ["modred/util.py:get_file_list"]}
{"id": "C44", "title": "Saved decompositions can be loaded again", "statement": "After put_decomp, get_decomp in a new object restores eigenvalues and eigenvectors such that modes can be computed, and leaves other files alone. The code violates this for a single retained eigenvalue (it comes back as a 0-d array, and modes are ValueError), for complex eigenvectors in text files, and for every DMD decomposition in text files: its eigenvalues are complex and those of the correlation array real, so neither setting of the loader works.", "quantifier": "for all real decompositions with two or more eigenvalues; counterexamples otherwise", "why_tests_cant": "Every number of retained values.", "anchors": ["modred/pod.py:PODHandles.get_decomp", "modred/pod.py:PODHandles.put_decomp", "modred/dmd.py:DMDHandles.get_decomp", "modred/bpod.py:BPODHandles.get_decomp", "modred/util.py:load_array_text"]}
{"id": "C45", "title": "Weight formats agree", "statement": "VectorSpaceArrays gives the same inner products for a weight vector w as for the array diag(w), and for no weights as for ones; other dimensionalities raise ValueError; lin_combine returns vecs times the selected columns. The code violates this for vectors with one entry: a weight array with one entry is squeezed to zero dimensions and refused.", "quantifier": "for all vectors and weights", "why_tests_cant": "All data.", "anchors": ["modred/vectorspace.py:VectorSpaceArrays"]}
{"id": "C46", "title": "sanity_check accepts every genuine inner product space", "statement": "sanity_check raises nothing when addition, scalar multiplication and inner product satisfy the vector space axioms in exact arithmetic. It raises ValueError if the squared norm of a double is not four times that of the vector up to 1e-12, or if multiplication or addition scales its operand in place. The code does not notice a change in place that keeps the norm, nor any fault on vectors of squared norm near 1e-13 or less, because the tolerance is absolute.", "quantifier": "for all vectors and inner products", "why_tests_cant": "All inner product spaces.", "anchors": ["modred/vectorspace.py:VectorSpaceHandles.sanity_check"]}
{"id": "C47", "title": "List helpers", "statement": "flatten_list concatenates; sum_lists adds elementwise and rejects lists of different lengths; atleast_2d_row/col keep values and give the documented shape.", "quantifier": "for all lists and arrays", "why_tests_cant": "All lengths.", "anchors": ["modred/util.py:flatten_list", "modred/util.py:sum_lists", "modred/util.py:atleast_2d_row", "modred/util.py:atleast_2d_col"]}
{"id": "C48", "title": "Random test systems are stable", "statement": "drss returns a system whose state matrix has real eigenvalues, equally spaced from 0.2 to 0.95, so that its powers tend to zero; rss one with all eigenvalues in (-1,0]. The only exception is LinAlgError, raised exactly if the random array is singular.", "quantifier": "for every order and every outcome of the random generator that gives an invertible matrix", "why_tests_cant": "All random outcomes.", "anchors": ["modred/util.py:drss", "modred/util.py:rss"]}
{"id": "C49", "title": "Broadcast calls agree on all processes", "statement": "call_and_bcast calls the function once, on rank zero, and all processes return its value; call_from_rank_zero calls it on rank zero only.", "quantifier": "for every number of processes and every function", "why_tests_cant": "All process counts; and what happens if the function raises.", "anchors": ["modred/parallel.py:call_and_bcast", "modred/parallel.py:call_from_rank_zero", "modred/parallel.py:bcast"]}
{"id": "C50", "title": "Node count is the number of distinct hosts", "statement": "get_num_nodes equals the number of distinct host names of the processes.", "quantifier": "for all host names and process counts", "why_tests_cant": "All host names: distinct names must never collide.", "anchors": ["modred/parallel.py"]}
{"id": "C51", "title": "Inner product arrays keep the values of all inner products", "statement": "The array returned by compute_inner_product_array holds the values the inner product function returned. The code violates this for inner products of mixed numerical types: the array gets the type of the first inner product, so after a first integer product the fractions of later products are cut off silently.", "quantifier": "for all vectors and inner product functions, whatever types the products have", "why_tests_cant": "Tests use products of one type; the loss is silent and depends on which product is evaluated first.", "anchors": ["modred/vectorspace.py:VectorSpaceHandles.compute_inner_product_array", "modred/vectorspace.py:VectorSpaceHandles.compute_symm_inner_product_array"]}
{"id": "C52", "title": "Saving complex arrays does not depend on memory order", "statement": "save_array_text writes the same file for arrays with equal entries. The code violates this: a complex array that is not stored row by row, e.g. the transpose of one or an array of eigenvectors from LAPACK, raises ValueError because its last axis cannot be viewed as floating point numbers.", "quantifier": "for all complex arrays and memory orders", "why_tests_cant": "Tests save freshly made row-major arrays; memory order is invisible in the values.", "anchors": ["modred/util.py:save_array_text"]}
{"id": "C53", "title": "Memory limit", "statement": "At no time does a process hold more than max_vecs_per_proc vectors in the loops of compute_inner_product_array, compute_symm_inner_product_array and lin_combine. The code keeps this for its row, column, sum and basis variables, but violates it by one vector while a vector is passed around the ring, because the vector sent is kept until the received one has arrived.", "quantifier": "for all lists, limits, numbers of processes and interleavings, at every moment", "why_tests_cant": "Tests look at results, not at what is in memory at each moment of each interleaving.", "anchors": ["modred/vectorspace.py:VectorSpaceHandles.compute_inner_product_array", "modred/vectorspace.py:VectorSpaceHandles.compute_symm_inner_product_array", "modred/vectorspace.py:VectorSpaceHandles.lin_combine"]}
{"id": "C54", "title": "Complex Markov parameters are kept", "statement": "make_sampled_format and ERA keep the values of complex Markov parameters. The code violates this: both copy them into real arrays, which drops the imaginary parts (numpy only warns). OKID ignores imaginary parts of inputs and refuses complex outputs.", "quantifier": "for all complex Markov parameters", "why_tests_cant": "Tests use real data; the computation goes on without an exception.", "anchors": ["modred/era.py:make_sampled_format", "modred/era.py:ERA._assemble_Hankel", "modred/okid.py:OKID"]}
{"id": "C55", "title": "Tolerances mean the same in both POD methods", "statement": "compute_POD_arrays_snaps_method and compute_POD_arrays_direct_method document atol and rtol in the same words, as bounds on the eigenvalues of the correlation array; they retain the same number of modes. The code violates this: the direct method applies the tolerances to the square roots of the eigenvalues.", "quantifier": "for all data and tolerances", "why_tests_cant": "Tests use data whose eigenvalues are far from the tolerance.", "anchors": ["modred/pod.py:compute_POD_arrays_snaps_method", "modred/pod.py:compute_POD_arrays_direct_method"]}
{"id": "C56", "title": "Handle-based inner products and linear combinations refine their mathematical description", "statement": "In every interleaving of the processes, compute_inner_product_array and compute_symm_inner_product_array return on every process the array of all inner products, and lin_combine puts each requested linear combination exactly once; so the decompositions on handles may be analysed with the plain formulas.", "quantifier": "for every number of processes and nodes, memory limit, list of handles, coefficient array and selection of columns", "why_tests_cant": "Unboundedly many interleavings and sizes.", "anchors": ["modred/vectorspace.py:VectorSpaceHandles.compute_inner_product_array", "modred/vectorspace.py:VectorSpaceHandles.compute_symm_inner_product_array", "modred/vectorspace.py:VectorSpaceHandles.lin_combine"]}
{"id": "C57", "title": "Models of time derivatives", "statement": "Galerkin projection of the difference quotients (A Phi - Phi)/dt of compute_derivs_arrays or compute_derivs_handles gives (A_r - 1)/dt, where A_r is the projection of one time step A Phi.", "quantifier": "for all systems, bases, weights and inner products, and every time step", "why_tests_cant": "All data and time steps.", "anchors": ["modred/ltigalerkinproj.py:compute_derivs_arrays", "modred/ltigalerkinproj.py:compute_derivs_handles", "modred/ltigalerkinproj.py:LTIGalerkinProjectionArrays.reduce_A", "modred/ltigalerkinproj.py:LTIGalerkinProjectionHandles.reduce_A"]}
{"id": "C58", "title": "Relative tolerance of total-least-squares DMD on arrays", "statement": "The eigenvalues retained from the projected correlation array by compute_TLSqrDMD_arrays_snaps_method are larger than rtol times the largest one, as in the direct method. The code violates this: its second eigendecomposition is called with rtol=None.", "quantifier": "for every relative tolerance and all data", "why_tests_cant": "Only data whose projected correlation array has eigenvalues of very different sizes shows the ignored tolerance.", "anchors": ["modred/dmd.py:compute_TLSqrDMD_arrays_snaps_method", "modred/dmd.py:compute_TLSqrDMD_arrays_direct_method"]}
{"id": "C59", "title": "Without truncation total-least-squares DMD is DMD", "statement": "If the projection of total-least-squares DMD keeps the row space of the data, the projection does not change the data: the arrays the modes are computed from, the modes and the eigenvalues are those of DMD. This is true of both array methods and of TLSqrDMDHandles, whose modes, spectral and projection coefficients then are those of DMD of the vectors.", "quantifier": "for all data, weights, positive definite inner products and libraries", "why_tests_cant": "All data.", "anchors": ["modred/dmd.py:compute_TLSqrDMD_arrays_snaps_method", "modred/dmd.py:compute_TLSqrDMD_arrays_direct_method", "modred/dmd.py:compute_DMD_arrays_snaps_method", "modred/dmd.py:TLSqrDMDHandles.compute_decomp", "modred/dmd.py:TLSqrDMDHandles.compute_proj_coeffs"]}
{"id": "C60", "title": "Reuse of PODHandles and BPODHandles objects", "statement": "After compute_decomp, the modes and projection coefficients of a PODHandles or BPODHandles object depend only on the vectors of the last compute_decomp, whatever the object was used for before and in whatever order modes and coefficients are asked for; objects that get a saved decomposition or correlation (Hankel) array behave the same. put_proj_coeffs after a new compute_decomp should give coefficients of the new data, and a failed compute_decomp should leave no mixture of old and new data. The code violates the last two.", "quantifier": "for all vectors, inner products, tolerances, libraries and sequences of calls", "why_tests_cant": "Histories of calls are unbounded; the mixture of old decomposition and new vectors arises only after an exception.", "anchors": ["modred/pod.py:PODHandles.compute_decomp", "modred/pod.py:PODHandles.compute_eigendecomp", "modred/pod.py:PODHandles.compute_modes", "modred/pod.py:PODHandles.compute_proj_coeffs", "modred/bpod.py:BPODHandles.compute_decomp", "modred/bpod.py:BPODHandles.compute_SVD", "modred/bpod.py:BPODHandles.compute_direct_modes", "modred/bpod.py:BPODHandles.compute_direct_proj_coeffs"]}
{"id": "C61", "title": "ERA is Galerkin projection onto BPOD modes", "statement": "For a linear system, compute_ERA_model from its sampled Markov parameters gives exactly (all three arrays, not only up to coordinates) the reduced model that LTIGalerkinProjectionArrays gives for the direct and adjoint modes of compute_BPOD_arrays of the system's impulse responses, for every number of modes up to the number of retained singular values, and whether or not the basis is declared orthonormal. The same is true of LTIGalerkinProjectionHandles with the modes of BPODHandles, for vectors of any kind and any sesquilinear inner product, if there is at least one mode.", "quantifier": "for all systems, weights, inner products, numbers of inputs, outputs, time steps and modes", "why_tests_cant": "Tests compare the methods on a few random systems up to tolerances; equality of three pipelines for all systems needs a proof.", "anchors": ["modred/era.py:ERA.compute_model", "modred/bpod.py:compute_BPOD_arrays", "modred/ltigalerkinproj.py:LTIGalerkinProjectionArrays.compute_model", "modred/bpod.py:BPODHandles.compute_decomp", "modred/bpod.py:BPODHandles.compute_direct_modes", "modred/bpod.py:BPODHandles.compute_adjoint_modes", "modred/ltigalerkinproj.py:LTIGalerkinProjectionHandles.compute_model"]}
{"id": "C62", "title": "Identification from simulated data reproduces the system", "statement": "Simulate a controllable and observable linear system from rest with lsim, pass the inputs and outputs to OKID, leave out the first Markov parameter (zero, there is no feedthrough), put the others into sampled format with make_sampled_format and compute a model with ERA.compute_model or compute_ERA_model with as many states as the system has: no step raises an exception, and lsim of the identified model returns exactly the outputs of the system for every input. For one input it suffices that its first sample is not zero; for several inputs the delayed inputs and the state are independent.", "quantifier": "for all systems, input signals, numbers of Markov parameters and Hankel blocks, times and library routines", "why_tests_cant": "Five steps composed for all systems and all inputs; tests check the steps separately on random systems up to tolerances.", "anchors": ["modred/util.py:lsim", "modred/okid.py:OKID", "modred/era.py:make_sampled_format", "modred/era.py:ERA.compute_model", "modred/era.py:compute_ERA_model"]}
{"id": "C63", "title": "Comparison of arrays, handles and vector spaces decides sameness", "statement": "smart_eq and == of handles in memory are true exactly for objects of one class with arrays of the same shape and entries. == of VectorSpaceArrays and VectorSpaceHandles is an equivalence relation with != as its negation; equal spaces compute the same inner products (or raise the same exceptions) for all data, memory limits and orders of events; spaces with weights of the same number of dimensions compute the same inner products only if they are equal. The memory limit of VectorSpaceHandles is not compared, the verbosity is. It is violated for arrays that contain not-a-number, which differ from themselves, and spaces with no weights, weights one or the identity array differ although they compute the same inner products.", "quantifier": "for all arrays, weights, inner product functions, numbers of processes and nodes, memory limits", "why_tests_cant": "Equivalence and agreement with inner products for all weights and data; tests compare a few objects.", "anchors": ["modred/util.py:smart_eq", "modred/vectors.py:VecHandleInMemory.__eq__", "modred/vectorspace.py:VectorSpaceArrays.__eq__", "modred/vectorspace.py:VectorSpaceHandles.__eq__"]}
{"id": "C64", "title": "Subtraction of vectors derived from addition and multiplication", "statement": "For a subclass of Vector whose addition and multiplication by numbers are those of a vector space, v - w is the difference, numbers may be written on either side of a product, and a handle of such a vector with a base vector and a scale gives the vector minus the base vector, times the scale. The methods of the class Vector itself raise NotImplementedError.", "quantifier": "for all vector spaces, vectors, numbers, base vectors and scales", "why_tests_cant": "All vector spaces; tests use one subclass.", "anchors": ["modred/vectors.py:Vector", "modred/vectors.py:VecHandle.get"]}
{"id": "C65", "title": "What is written is there for all processes when any process returns", "statement": "When lin_combine returns on any process, the destinations of all sums, including those written by other processes, hold the linear combinations for every process that reads them, and keep them. Calls of lin_combine can follow each other: a later call may read sums of earlier ones and may write where earlier ones read, and the outcome is that of calls one after another in a single process. When a method that saves arrays (put_decomp, put_correlation_array, put_proj_coeffs, put_model, ...) returns on any process, the destinations hold what rank zero has. There is no deadlock.", "quantifier": "for all numbers of processes, basis vectors, sums, memory limits, sequences of calls, and all interleavings of the processes", "why_tests_cant": "Races show only for unlucky timing; tests run one timing at a time and mostly one process.", "anchors": ["modred/vectorspace.py:VectorSpaceHandles.lin_combine", "modred/pod.py:PODHandles.put_decomp", "modred/bpod.py:BPODHandles.put_decomp", "modred/dmd.py:DMDHandles.put_decomp", "modred/dmd.py:DMDHandles.put_proj_coeffs", "modred/ltigalerkinproj.py:LTIGalerkinProjectionBase.put_model", "modred/parallel.py:barrier"]}
{"id": "C66", "title": "Single arrays are saved and loaded", "statement": "Each get_ method restores, in any object, what the put_ method of the same name saved (correlation, cross-correlation, Hankel arrays, projection and spectral coefficients of POD, BPOD, DMD and total-least-squares DMD), and changes no other attribute or destination; loading what was not saved raises OSError. put_model and put_decomp of ERA and put_model of the Galerkin projections put each array to its own destination. Real two-dimensional arrays are restored exactly from text files. It is violated in text files for spectral coefficients, which come back as a column, and for complex arrays, which come back real with twice as many columns. put_correlation_array_eigvals and put_correlation_array_eigvecs of total-least-squares DMD raise NotImplementedError.", "quantifier": "for all arrays, destinations, ways of saving and objects", "why_tests_cant": "All arrays and ways of saving; tests save a few random arrays and compare after squeezing.", "anchors": ["modred/pod.py:PODHandles.put_correlation_array", "modred/bpod.py:BPODHandles.put_Hankel_array", "modred/dmd.py:DMDHandles.get_spectral_coeffs", "modred/dmd.py:DMDHandles.put_proj_coeffs", "modred/dmd.py:TLSqrDMDHandles.put_sum_correlation_array", "modred/era.py:ERA.put_decomp", "modred/era.py:ERA.put_model", "modred/ltigalerkinproj.py:LTIGalerkinProjectionBase.put_model"]}
{"id": "C67", "title": "Results degrade gracefully with errors of decompositions", "statement": "If the eigendecomposition used by compute_POD_arrays_snaps_method or PODHandles is correct up to an error eps (entries of V^* C V and C V), inner products of the modes put or returned differ from one and zero by at most eps over the geometric mean of the two eigenvalues, hence by at most eps over the absolute tolerance and by at most the error relative to the largest eigenvalue over the relative tolerance; projection coefficients differ from inner products of modes and data by at most eps over the square root of the eigenvalue. The same holds for direct and adjoint modes of compute_BPOD_arrays and BPODHandles with an inexact singular value decomposition. The bound is attained. For the direct method of POD, whose modes are not divided by singular values, modes are orthonormal up to the error of the left singular vectors and projection coefficients are right up to eps, whatever the tolerances. util.eig_biorthog returns pairs of eigenvectors with inner product one whatever the library returns, if no pair is orthogonal, and other inner products are at most 2 eps over the distance of the eigenvalues and the smallest scale.", "quantifier": "for all data, weights, tolerances, errors and library results that are correct up to them", "why_tests_cant": "All possible roundings of the library; tests see one library on a few well-conditioned random arrays.", "anchors": ["modred/pod.py:compute_POD_arrays_snaps_method", "modred/pod.py:PODHandles.compute_modes", "modred/pod.py:PODHandles.compute_proj_coeffs", "modred/bpod.py:compute_BPOD_arrays", "modred/bpod.py:BPODHandles.compute_direct_modes", "modred/bpod.py:BPODHandles.compute_adjoint_modes", "modred/util.py:eigh", "modred/util.py:svd", "modred/util.py:eig_biorthog", "modred/pod.py:compute_POD_arrays_direct_method"]}
{"id": "C68", "title": "Differentiation arrays on arbitrary nodes are exact", "statement": "For distinct nodes, poldif returns as many arrays as rows of B (or as m says), and the array at index i, applied to values at the nodes, gives the derivative of order i+1 at the nodes, exactly, of every function that is the weight function times a polynomial of degree below the number of nodes, if alpha and B hold the weights and the ratios of derivatives of the weight function. No other arrays do. Without weights the arrays are powers of the first, and vanish once the order reaches the number of nodes. RuntimeError is raised exactly if neither m alone nor alpha and B alone are given, and ValueError exactly if there are no nodes.", "quantifier": "for all numbers of nodes, distinct real nodes, weight functions with enough derivatives and no zero at a node, and numbers of derivatives", "why_tests_cant": "All nodes, weight functions, polynomials and orders; there are no tests of it at all.", "anchors": ["modred/examples/hermite.py:poldif"]}
{"id": "C69", "title": "Hermite nodes and differentiation on them", "statement": "herroots returns all zeros of the Hermite polynomial of the given degree, each once, in ascending order and symmetric about zero, whatever correct eigenvalue routine is used. herdif returns these zeros divided by b, and m arrays that differentiate Gaussians exp(-(b t)^2/2) times polynomials of degree below the number of nodes exactly at them, and raises IndexError if m is zero.", "quantifier": "for all degrees, numbers of derivatives, scales other than zero, and eigenvalue routines", "why_tests_cant": "All degrees and orders; there are no tests of it at all.", "anchors": ["modred/examples/hermite.py:herroots", "modred/examples/hermite.py:herdif"]}
{"id": "C70", "title": "POD modes are best", "statement": "For every number k up to the number of eigenvalues kept, the first k POD modes and the first k rows of projection coefficients reproduce the data at least as well as any k vectors with any coefficients, measured by the sum of squared lengths of the errors in the inner product. This holds for compute_POD_arrays_snaps_method with nonnegative weights, for compute_POD_arrays_direct_method with positive weights, and for the modes PODHandles puts with any nonnegative hermitian inner product, whichever mode indices are asked for.", "quantifier": "for all data, weights, inner products, tolerances, mode indices and all competing vectors and coefficients", "why_tests_cant": "Tests cannot try all competing sets of vectors; they compare with formulas for the modes.", "anchors": ["modred/pod.py:compute_POD_arrays_snaps_method", "modred/pod.py:compute_POD_arrays_direct_method", "modred/pod.py:PODHandles.compute_decomp", "modred/pod.py:PODHandles.compute_modes", "modred/pod.py:PODHandles.compute_proj_coeffs", "modred/util.py:eigh", "modred/util.py:svd"]}
{"id": "C71", "title": "DMD is a least-squares fit", "statement": "Advancing the projection coefficients of the data by the DMD eigenvalues is at least as good as advancing them by any other array, measured by the sum of squared lengths of the errors of the advanced projection coefficients times the projected modes. If the eigenvalues are distinct and nonzero, the exact modes times the eigenvalues times the projection coefficients are at least as close to the advanced vectors as any linear map of the part of the data that the projected modes reproduce; and if as many eigenvalues are kept as the rank of the data, that part is all of the data, so no linear map of the data is better. This holds for both functions on arrays and for DMDHandles, for sequences and for pairs.", "quantifier": "for all data, nonnegative weights or inner products, tolerances, numbers of eigenvalues, mode indices and all competing linear maps", "why_tests_cant": "Tests cannot try all competing linear maps, and use data of full rank that some linear map advances without error.", "anchors": ["modred/dmd.py:compute_DMD_arrays_snaps_method", "modred/dmd.py:compute_DMD_arrays_direct_method", "modred/dmd.py:DMDHandles.compute_decomp", "modred/dmd.py:DMDHandles.compute_exact_modes", "modred/dmd.py:DMDHandles.compute_proj_modes", "modred/dmd.py:DMDHandles.compute_proj_coeffs"]}
{"id": "C72", "title": "The projection of total-least-squares DMD is best", "statement": "With q eigenvalues kept for the sum of the correlation arrays, the projected data and projected advanced data are at least as close to the data and advanced data as any two arrays of linear combinations of q pairs of vectors with the same coefficients, measured by the sum of all squared lengths of the errors. Modes, eigenvalues and coefficients are a least-squares fit (as in C71) to the projected data. This holds for both functions on arrays and for TLSqrDMDHandles, for sequences and for pairs.", "quantifier": "for all data, nonnegative weights or inner products, tolerances, numbers of eigenvalues, mode indices and all competing vectors, coefficients and linear maps", "why_tests_cant": "Tests cannot try all competing approximations; they compare with formulas for the projection.", "anchors": ["modred/dmd.py:compute_TLSqrDMD_arrays_snaps_method", "modred/dmd.py:compute_TLSqrDMD_arrays_direct_method", "modred/dmd.py:TLSqrDMDHandles.compute_decomp", "modred/dmd.py:TLSqrDMDHandles.compute_exact_modes", "modred/dmd.py:TLSqrDMDHandles.compute_proj_modes", "modred/dmd.py:TLSqrDMDHandles.compute_proj_coeffs", "modred/util.py:eigh", "modred/util.py:svd"]}
{"id": "C73", "title": "BPOD and ERA approximate the Hankel array best", "statement": "For every k up to the number of retained singular values, the inner products of the adjoint vectors with the first k direct modes, times the first k rows of the direct projection coefficients, are at least as close to the Hankel array as any product of two arrays with inner dimension k, and the squared error is the sum of squares of the Hankel array minus the squares of the first k singular values; likewise with direct and adjoint exchanged. So the direct modes are at least as good as any k vectors if the error in the direct vectors is measured by the outputs it causes. ERA.compute_model gives B and C as first columns and rows of the factors of the best product for the Hankel array of the Markov parameters, and A as the only array between these factors that is closest to the shifted Hankel array; the error of the first Markov parameter of the model is bounded by the truncated singular values.", "quantifier": "for all direct and adjoint vectors, weights or inner products, nonnegative tolerances with positive retained singular values, numbers of modes and states, Markov parameters and all competing products", "why_tests_cant": "Tests cannot try all competing products; they compare with formulas and check models only up to tolerances.", "anchors": ["modred/bpod.py:compute_BPOD_arrays", "modred/bpod.py:BPODHandles.compute_decomp", "modred/bpod.py:BPODHandles.compute_direct_modes", "modred/bpod.py:BPODHandles.compute_adjoint_modes", "modred/bpod.py:BPODHandles.compute_direct_proj_coeffs", "modred/bpod.py:BPODHandles.compute_adjoint_proj_coeffs", "modred/era.py:ERA.compute_model", "modred/util.py:svd"]}
{"id": "C74", "title": "The Ginzburg-Landau example computes what it says", "statement": "In modred/examples/main_CGL.py the weights give the trapezoidal rule on the nodes, which are the zeros of a scaled Hermite polynomial in increasing order, and are positive; A applies the equation with derivatives that are exact for weighted polynomials, and chi is the decay rate of an eigenfunction of the equation. A_adj and C_adj are the adjoints of A and C in the weighted inner product. B has energy one, and for some number of steps its energy grows at least as much as that of any vector in any of the searched numbers of steps. q and q_adj are impulse responses by the Crank-Nicolson rule; the adjoint one exists exactly if the direct one does, and LinAlgError is raised exactly if the array to be inverted is singular. The Hankel array, of which only the first column and last row are computed, holds all inner products of adjoint and direct vectors, which are the outputs y. The modes are biorthonormal, Ar, Br and Cr are the inner products with the adjoint modes and the sensor readings of the direct modes, and yr is the response of this model. If the number of modes is the rank of the Hankel array and its non-zero singular values exceed the tolerance, the reduced response yr equals y at every step.", "quantifier": "for all parameters of the equation (with mu_2 not zero), numbers of nodes, snapshots, search steps and modes, time steps, sensors, state arrays, matrix exponentials and valid decompositions", "why_tests_cant": "The example is only run, once, with fixed numbers; nothing checks what it prints, and no test covers the adjoint, the optimal disturbance or the model.", "anchors": ["modred/examples/main_CGL.py", "modred/examples/hermite.py:herdif", "modred/bpod.py:compute_BPOD_arrays", "modred/ltigalerkinproj.py:LTIGalerkinProjectionArrays.compute_model", "modred/util.py:svd"]}
{"id": "C75", "title": "How often vectors are retrieved and inner products are computed", "statement": "In compute_inner_product_array each vector of the smaller set is retrieved by get exactly once, each vector of the larger set exactly as often as the printed warning says (once if there is no warning), and each inner product is computed exactly once, all over all ranks together; in lin_combine each basis vector is retrieved exactly as often as the warning says and each basis vector is multiplied once for each sum. In compute_symm_inner_product_array each vector is retrieved as often as the warning says, and each entry on or above the diagonal is computed once and no entry below. In addition every rank retrieves the first handles and computes the first entry twice before the loops, for timing.", "quantifier": "for all numbers of ranks, vectors, sums and vectors per process, and all interleavings of the ranks", "why_tests_cant": "The tests compare the arrays and the vectors that result; superfluous or repeated calls give the same results. Counting calls of a few runs says nothing about other numbers of ranks and vectors.", "anchors": ["modred/vectorspace.py:VectorSpaceHandles.compute_inner_product_array", "modred/vectorspace.py:VectorSpaceHandles.compute_symm_inner_product_array", "modred/vectorspace.py:VectorSpaceHandles.lin_combine"]}
{"id": "C76", "title": "The printed time estimates are lower bounds", "statement": "If every get takes the measured time and every inner product (or multiplication and addition) takes the measured time, then the time that compute_inner_product_array, compute_symm_inner_product_array and lin_combine print after 'will take at least' is not more than the time that the busiest rank needs for its calls.", "quantifier": "for all numbers of ranks, nodes, vectors, sums, limits and measured times", "why_tests_cant": "The printed messages are not tested, and timings differ from run to run.", "anchors": ["modred/vectorspace.py:VectorSpaceHandles.compute_inner_product_array", "modred/vectorspace.py:VectorSpaceHandles.compute_symm_inner_product_array", "modred/vectorspace.py:VectorSpaceHandles.lin_combine"]}
{"id": "C77", "title": "Galerkin projection keeps the energy balance", "statement": "If no adjoint basis vectors are given, the matrix that LTIGalerkinProjectionArrays and LTIGalerkinProjectionHandles return from reduce_A keeps the energy balance of the full system in the inner product of the vector space: for each reduced state, the rate of change of the energy is that of the full system at the state it stands for, and the eigenvalues are in the numerical range of the full system. So reduced models of systems whose energy decays (or does not grow), in continuous or discrete time, are stable at the same rate, those of self-adjoint systems are self-adjoint, and those of conservative systems are conservative.", "quantifier": "for all systems, bases that are linearly independent (or orthonormal if declared so), positive definite weights, inner products, numbers of modes and earlier calls, real and complex", "why_tests_cant": "The tests compare the reduced matrices with products of random matrices and never look at stability, which is a property of all states and all times.", "anchors": ["modred/ltigalerkinproj.py:LTIGalerkinProjectionArrays.reduce_A", "modred/ltigalerkinproj.py:LTIGalerkinProjectionHandles.reduce_A"]}
{"id": "C78", "title": "Task assignment and loop counts in double precision", "statement": "With rounding to nearest after each operation, find_assignments without weights returns the same lists as with exact numbers, and the numbers of loops and the memory limits that vectorspace.py computes with floating point division and ceil are exact. With positive weights, find_assignments assigns each task exactly once.", "quantifier": "for all ways to break ties, all numbers of tasks and workers below 2^52, all positive weights in double precision", "why_tests_cant": "The tests use a few numbers of workers and a few weights of similar size. That no quotient of integers is ever rounded to the other side of a half-integer, where the choice changes, is a statement about all pairs of integers.", "anchors": ["modred/parallel.py:find_assignments", "modred/vectorspace.py:VectorSpaceHandles.__init__", "modred/vectorspace.py:VectorSpaceHandles.compute_inner_product_array", "modred/vectorspace.py:VectorSpaceHandles.compute_symm_inner_product_array", "modred/vectorspace.py:VectorSpaceHandles.lin_combine"]}
{"id": "C79", "title": "Results in floating point and the number of processes", "statement": "Also when sums are rounded, compute_inner_product_array and compute_symm_inner_product_array return the same array on any number of processes, nodes and for any max_vecs_per_node. lin_combine puts the same vectors on any number of processes, and equal columns of coefficients give equal vectors.", "quantifier": "for all arithmetics in which calculations with 0 and 1 are exact, all inner products, all numbers of processes and nodes, all memory limits, all interleavings; for lin_combine all roundings to nearest in double precision", "why_tests_cant": "The tests compare parallel results with expected ones up to a tolerance, on the number of processes they happen to run on. Whether two runs give identical numbers is not tested, and it depends on the order of additions, which the tests do not see.", "anchors": ["modred/vectorspace.py:VectorSpaceHandles.compute_inner_product_array", "modred/vectorspace.py:VectorSpaceHandles.compute_symm_inner_product_array", "modred/vectorspace.py:VectorSpaceHandles.lin_combine", "modred/reductions.py:Intracomm.allreduce"]}
{"id": "C80", "title": "POD, BPOD and DMD on several processes, from the first inner product to the last mode", "statement": "compute_decomp followed by calls for modes, of PODHandles, BPODHandles, DMDHandles and TLSqrDMDHandles, on any number of processes: no process waits forever, all processes have the arrays and decompositions that one process has, the mode handles hold the modes that one process computes, and no other handle is changed. So modes read by any process afterwards are orthonormal (POD) or orthonormal to each other (BPOD). For the DMD classes any number of calls for exact, projected and adjoint modes may follow, in any order, and later calls may replace modes of earlier ones.", "quantifier": "for all numbers of processes and nodes, all memory limits, all interleavings, all lists of handles to a common store (mode handles of POD and BPOD may replace vectors if all sums fit into one round), all Hermitian inner products, tolerances and mode indices, sequences and pairs of vectors; general theorem for all sequences of inner products, broadcast calls, local work and linear combinations", "why_tests_cant": "The tests run each class on the number of processes they are started with, and in one interleaving per run. A process that starts lin_combine while another still computes inner products, or results that differ between the ranks' objects, appear only in some interleavings.", "anchors": ["modred/pod.py:PODHandles.compute_decomp", "modred/pod.py:PODHandles.compute_modes", "modred/bpod.py:BPODHandles.compute_decomp", "modred/bpod.py:BPODHandles.compute_direct_modes", "modred/bpod.py:BPODHandles.compute_adjoint_modes", "modred/dmd.py:DMDHandles.compute_decomp", "modred/dmd.py:DMDHandles.compute_exact_modes", "modred/dmd.py:DMDHandles.compute_proj_modes", "modred/dmd.py:DMDHandles.compute_adjoint_modes", "modred/dmd.py:TLSqrDMDHandles.compute_decomp", "modred/dmd.py:TLSqrDMDHandles.compute_exact_modes", "modred/parallel.py:call_and_bcast", "modred/vectorspace.py:VectorSpaceHandles"]}
{"id": "C81", "title": "Modes are best in the worst case, and tolerances bound every error", "statement": "For every k less than the number of modes, the first k POD modes and rows of projection coefficients reproduce every linear combination of the data vectors with squared error at most the (k+1)-th returned eigenvalue times the squared length of the coefficients, and no k vectors with any coefficients have a smaller bound. With all modes the bound is what atol and rtol allow: the squared error of each data vector is at most atol (method of snapshots, PODHandles) or atol squared (direct method), if rtol allows no more. The same holds, with squared singular values, for what the adjoint vectors see of the direct vectors and the direct BPOD modes, for the adjoint modes, and for the Hankel array of ERA and the factors whose first rows and columns are in the model.", "quantifier": "for all sizes, real and complex data, positive semidefinite weights or inner products, tolerances, mode indices, every correct eigendecomposition and SVD and all competing vectors and coefficients", "why_tests_cant": "A test compares with a few other sets of vectors; the claim is about all of them and about all linear combinations of the data. With the wrong vectors dropped, random data of full rank show a difference only in the error of the worst combination.", "anchors": ["modred/pod.py:compute_POD_arrays_snaps_method", "modred/pod.py:compute_POD_arrays_direct_method", "modred/pod.py:PODHandles", "modred/bpod.py:compute_BPOD_arrays", "modred/bpod.py:BPODHandles", "modred/era.py:ERA.compute_model", "modred/util.py:svd", "modred/util.py:eigh"]}
{"id": "C82", "title": "The tutorials' weights, custom vectors and scaled vectors are what the methods require", "statement": "The weights computed in tutorial_ex2 are the weights of the trapezoidal rule on the grid (IndexError with fewer than two points), the grid increases from 0 to 2, and POD with these weights gives modes that are orthonormal in InnerProductTrapz on the grid. CustomVector objects on the same grids are added, scaled and subtracted entry by entry, their inner product is linear, Hermitian, and positive on increasing grids, sanity_check accepts them, and a file written by CustomVecHandle is read back as written. The handles of tutorial_ex5 give the modes that are best when the squared error of each vector counts with the square of its scale.", "quantifier": "for all increasing grids, data, mode indices and tolerances, numbers of dimensions, nonzero scales and base vectors, and every correct decomposition", "why_tests_cant": "The tutorials use random data and check nothing (tutorial_ex5 only prints a warning); that weights by hand and the trapezoidal inner product agree for every grid, and that the user-defined classes satisfy every law of a vector space with inner product, cannot be seen from one run.", "anchors": ["modred/examples/tutorial_ex2.py", "modred/examples/tutorial_ex5.py", "modred/examples/customvector.py:CustomVector", "modred/examples/customvector.py:CustomVecHandle", "modred/vectors.py:InnerProductTrapz", "modred/pod.py:compute_POD_arrays_direct_method"]}
{"id": "C83", "title": "What the tutorials say about errors and snapshots holds for their data", "statement": "The number of modes in tutorial_ex6 is the least number whose singular values sum to more than 90% of the sum of all, so that those left out sum to less than 10%; IndexError if all are zero. (Violated: the error is not below 10% as the comment says: for nine values 10 and one 9 it is 90% in the worst case and 28% in the mean. Violated: scales equal to quadrature weights, as in tutorial_ex5, do not give the best modes for that quadrature. Violated: the snapshots of tutorial_ex3 are no impulse responses, so that the array that is decomposed is not the array of inner products.)", "quantifier": "for all lists of singular values with positive sum; the violations are for the given data, every SVD, eigendecomposition and tolerance", "why_tests_cant": "The examples run without exceptions whatever their results mean, and the test suite only runs them.", "anchors": ["modred/examples/tutorial_ex6.py", "modred/examples/tutorial_ex5.py", "modred/examples/tutorial_ex3.py", "modred/bpod.py:BPODHandles.compute_decomp"]}
{"id": "C84", "title": "A failure on one process reaches all processes and leaves nothing half done", "statement": "If a function given by the user (get or put of a handle, inner product, put_array) raises on any process during inner product arrays, lin_combine, compute_derivs_handles or a method that saves arrays, then no process returns from that method and none begins what comes after it, so that no decomposition, mode or file is ever computed from an incomplete result; an array that could not be saved leaves its destination and those of later arrays as they were. (Violated: the other processes do not learn of the exception: they neither raise nor return but wait in a barrier or receive for ever. Violated: when lin_combine fails, sums computed earlier have been put already.)", "quantifier": "for all numbers of processes, stages before and after, vectors, ranks and rounds that fail, and all interleavings and buffering choices of MPI", "why_tests_cant": "The tests let no user function raise on a single process: the run would hang; and that no interleaving lets a process slip past the barrier cannot be sampled.", "anchors": ["modred/vectorspace.py:VectorSpaceHandles.compute_inner_product_array", "modred/vectorspace.py:VectorSpaceHandles.compute_symm_inner_product_array", "modred/vectorspace.py:VectorSpaceHandles.lin_combine", "modred/ltigalerkinproj.py:compute_derivs_handles", "modred/pod.py:PODHandles.put_decomp", "modred/parallel.py:barrier"]}
{"id": "C85", "title": "Galerkin projection with handles on several processes gives the results of one process", "statement": "LTIGalerkinProjectionHandles.compute_model on any number of processes returns on every process, without raising where one process does not raise, the same A, B and C, and leaves on every process the same object, as on one process, and writes no vector. For a new object whose basis has a regular Gram array, or that is said to have an orthonormal basis, these are the inner products of the adjoint basis vectors with the given vectors, multiplied by the inverse of the Gram array if the basis is not said to be orthonormal, and C transposed from the list of outputs. If the basis is not said to be orthonormal and the Gram array is singular, every process raises LinAlgError and none waits for ever.", "quantifier": "for all conjugate symmetric inner products, numbers of processes and nodes, max_vecs_per_node, numbers and values of basis vectors, adjoint basis vectors and given vectors, orthonormal flags, states of the object, real and complex entries, and all interleavings and buffering choices of MPI", "why_tests_cant": "The tests run few process numbers with random data and see one interleaving each; whether no interleaving deadlocks or gives a rank another array is out of their reach.", "anchors": ["modred/ltigalerkinproj.py:LTIGalerkinProjectionHandles.compute_model", "modred/ltigalerkinproj.py:LTIGalerkinProjectionHandles.reduce_A", "modred/ltigalerkinproj.py:LTIGalerkinProjectionHandles.reduce_B", "modred/ltigalerkinproj.py:LTIGalerkinProjectionHandles._get_proj_array"]}
{"id": "C86", "title": "A decomposition saved by several processes is what any other number of processes load", "statement": "The put_ methods of PODHandles, BPODHandles, DMDHandles, TLSqrDMDHandles and LTIGalerkinProjection, run on several processes that hold the same arrays, leave at the destinations what one process would leave, all of it in place as soon as any process has returned from the method. The get_ methods, run on any number of processes, leave on every process what one process would load, whatever the processes held before, and change no file. Hence a POD decomposition with two eigenvalues or more, saved to text files by some number of processes, is loaded as it was by any other number of processes.", "quantifier": "for all numbers of processes that save and that load, saving and loading functions that do not raise, arrays, destinations, files present before, previous contents of the loading objects, and all interleavings and buffering choices of MPI", "why_tests_cant": "Tests save and load with the same few processes and see one interleaving; a process that reads before rank 0 has written, or that is left without the broadcast array, may show in one interleaving of many.", "anchors": ["modred/pod.py:PODHandles.put_decomp", "modred/pod.py:PODHandles.get_decomp", "modred/bpod.py:BPODHandles.put_decomp", "modred/bpod.py:BPODHandles.get_decomp", "modred/dmd.py:DMDHandles.put_decomp", "modred/dmd.py:DMDHandles.get_decomp", "modred/dmd.py:TLSqrDMDHandles.put_decomp", "modred/dmd.py:TLSqrDMDHandles.get_decomp", "modred/ltigalerkinproj.py:LTIGalerkinProjectionBase.put_model", "modred/parallel.py:Parallel.call_and_bcast"]}
{"id": "C87", "title": "An exception that one process would raise is raised by all processes", "statement": "When a method of a class with handles raises on one process, then on several processes every process raises the same exception. This holds for what every process does itself: compute_modes before there is a decomposition or with mode indices or handles that do not fit, BPOD for no outputs, DMD and total-least-squares DMD for vectors and advanced vectors of different number, and a singular Gram array in Galerkin projection (C85). The code violates it for what only rank 0 does: an eigendecomposition, singular value decomposition or Hankel array that raises in compute_decomp, a file that is missing or cannot be read in a get_ method, and an array that is missing or cannot be written in a put_ method. Then in every interleaving rank 0 raises, and all other processes wait for ever, at the broadcast or at the barrier, so that a program that catches the exception on rank 0 does not end.", "quantifier": "for all numbers of processes and nodes, exceptions, vectors, inner products, libraries, files, objects, and all interleavings and buffering choices of MPI", "why_tests_cant": "Tests in which a method raises are run with one process or check rank 0; that the other processes hang shows only as a test that does not end, and not that they hang in every interleaving.", "anchors": ["modred/parallel.py:Parallel.call_and_bcast", "modred/parallel.py:Parallel.call_from_rank_zero", "modred/pod.py:PODHandles.compute_decomp", "modred/pod.py:PODHandles.compute_modes", "modred/pod.py:PODHandles.get_decomp", "modred/bpod.py:BPODHandles.compute_decomp", "modred/bpod.py:BPODHandles.get_decomp", "modred/dmd.py:DMDHandles.put_proj_coeffs"]}
{"id": "C88", "title": "Linear combinations of vectors in memory are right and leave the given vectors as they are", "statement": "lin_combine with handles in memory (VecHandleInMemory) of vectors of any class with the operations that the guide asks for puts the right vectors, does not change the vectors it was given, and the vectors it puts are not the same object as each other or as a given vector. This holds for numpy arrays of one type or with complex coefficients, and for classes with __rmul__ whose += changes nothing or whose products are new objects. The code violates it in three ways. A class that defines only __mul__ and __add__, as the guide says, passes sanity_check, but every linear combination raises TypeError. With real coefficients a real array followed by a complex one raises TypeError, and in the other order it works. A class whose product by 1 is the vector itself and whose += works in place passes sanity_check, but gives wrong sums and changes the given vectors.", "quantifier": "for all classes of vectors, vectors, coefficients, numbers of basis vectors and sums, and chunk sizes", "why_tests_cant": "Tests use arrays of one type and one class of vectors that copies in every operation, so objects are never shared and types never mixed.", "anchors": ["modred/vectorspace.py:VectorSpaceHandles.lin_combine", "modred/vectorspace.py:VectorSpaceHandles.sanity_check", "modred/vectors.py:VecHandleInMemory", "modred/vectors.py:Vector"]}
{"id": "C89", "title": "After lin_combine, handles in memory hold the sums", "statement": "After lin_combine with sum handles in memory (VecHandleInMemory), the handles hold the linear combinations on every process. This holds on one process. The code violates it on several: every sum is put by exactly one process, and on all others its handle holds what it held before, None for new handles, without any exception, in every interleaving. Handles that are not sum handles keep what they hold.", "quantifier": "for all numbers of processes and nodes, vectors, coefficients, column selections, numbers of sums, and all interleavings and buffering choices of MPI", "why_tests_cant": "Tests on several processes use handles of files, which all processes share; with handles in memory a test would have to look at every handle on every process.", "anchors": ["modred/vectorspace.py:VectorSpaceHandles.lin_combine", "modred/vectors.py:VecHandleInMemory._put", "modred/vectors.py:VecHandleInMemory._get"]}
{"id": "C90", "title": "DMD coefficients are those of a least-squares projection onto the modes", "statement": "proj_coeffs and adv_proj_coeffs (and hence spectral_coeffs) of dynamic mode decomposition are the coefficients of the least-squares projection of each data vector onto the span of the DMD modes: every other choice of coefficients is farther from the vector. This holds for projected modes if the eigenvalues are distinct, for arrays by both methods, for handles, and for total-least-squares DMD with the de-noised data. It holds for exact modes if the advanced data are linear combinations of the data and no direction is dropped, since exact modes are then projected modes. The code violates it for exact modes in general, although the docstrings of the array functions do not exclude them: with the vector (1, 0) and the advanced vector (1, 1) the coefficient is twice that of the least-squares projection.", "quantifier": "for all data, weights, inner products, tolerances, maximal numbers of eigenvalues and library results that meet their specification", "why_tests_cant": "Tests compare coefficients with inner products of adjoint modes for random data; no test compares them with other coefficients, and no finite set of coefficients would do.", "anchors": ["modred/dmd.py:compute_DMD_arrays_snaps_method", "modred/dmd.py:compute_DMD_arrays_direct_method", "modred/dmd.py:DMDHandles.compute_proj_coeffs", "modred/dmd.py:TLSqrDMDHandles.compute_proj_coeffs", "modred/dmd.py:compute_TLSqrDMD_arrays_snaps_method", "modred/dmd.py:compute_TLSqrDMD_arrays_direct_method"]}
{"id": "C91", "title": "DMD modes and coefficients degrade in proportion to the errors of the decompositions", "statement": "If the library returns decompositions with errors, inner products of the adjoint modes with the projected modes and with the exact modes differ from one (same mode) and zero (different modes) by at most explicit bounds: the error of the eigendecomposition of the correlation array times sums of entries of the eigenvectors of the reduced map over square roots of retained eigenvalues, plus twice the error of the eigendecomposition of the reduced map over the distance of the eigenvalues. proj_coeffs differ from the inner products of adjoint modes and vectors by a bound of the same kind, and adv_proj_coeffs do not differ from those with the advanced vectors at all. Since all retained eigenvalues are larger than atol, the error is amplified by at most 1/atol; the bound is attained. This holds for DMD and total-least-squares DMD, for the snapshot method and for handles, with sequential data and with pairs, and for the direct methods, where the error of the singular value decomposition is multiplied by the norm of the weighted vectors. The direct method of DMD with sequential data reconstructs the cross-correlation array from the truncated decomposition; the bounds for exact modes and adv_proj_coeffs then have another term, in the errors of the decomposition and of the orthonormality of singular vectors. For total-least-squares DMD vectors are the projected ones, and the error of the decomposition that yields the projection does not matter.", "quantifier": "for all data, weights, inner products, tolerances, maximal numbers of eigenvalues, errors and library results with these errors", "why_tests_cant": "Tests run one floating-point library on a few well-conditioned arrays and compare with fixed tolerances; they give no relation between the errors of a decomposition, the tolerances and the errors of the modes.", "anchors": ["modred/dmd.py:compute_DMD_arrays_snaps_method", "modred/dmd.py:compute_DMD_arrays_direct_method", "modred/dmd.py:DMDHandles.compute_decomp", "modred/dmd.py:DMDHandles.compute_proj_modes", "modred/dmd.py:DMDHandles.compute_adjoint_modes", "modred/dmd.py:DMDHandles.compute_exact_modes", "modred/dmd.py:DMDHandles.compute_proj_coeffs", "modred/util.py:eig_biorthog", "modred/util.py:eigh", "modred/dmd.py:compute_TLSqrDMD_arrays_snaps_method", "modred/dmd.py:compute_TLSqrDMD_arrays_direct_method", "modred/dmd.py:TLSqrDMDHandles.compute_decomp"]}
{"id": "C92", "title": "Processes know each other with mpi4py, and the functions for arrays refuse to run on several", "statement": "With mpi4py, after import of the module on any number of processes, get_num_nodes is the number of distinct host names, get_num_procs and get_num_MPI_workers are the number of processes, get_rank is the number of the process, is_distributed is true exactly if there are several processes, and is_rank_zero is true on exactly one of them. Without mpi4py each process takes itself for the only one, so all of them are rank zero. The functions compute_POD_arrays_*, compute_BPOD_arrays, compute_DMD_arrays_*, compute_TLSqrDMD_arrays_* and the constructor of LTIGalerkinProjectionArrays raise RuntimeError on each of several processes, whatever their arguments, and with one process, or without mpi4py, they do what the other properties say.", "quantifier": "for all numbers of processes, host names that are not empty and do not begin with a zero byte, and arguments of the functions", "why_tests_cant": "The tests run with at most a few processes on one host, skip the functions for arrays if there are several, and never import the module without mpi4py on several processes.", "anchors": ["modred/parallel.py:get_num_nodes", "modred/parallel.py:get_rank", "modred/parallel.py:get_num_procs", "modred/parallel.py:is_distributed", "modred/parallel.py:is_rank_zero", "modred/pod.py:compute_POD_arrays_snaps_method", "modred/pod.py:compute_POD_arrays_direct_method", "modred/bpod.py:compute_BPOD_arrays", "modred/dmd.py:compute_DMD_arrays_snaps_method", "modred/dmd.py:compute_DMD_arrays_direct_method", "modred/dmd.py:compute_TLSqrDMD_arrays_snaps_method", "modred/dmd.py:compute_TLSqrDMD_arrays_direct_method", "modred/ltigalerkinproj.py:LTIGalerkinProjectionArrays.__init__"]}
{"id": "C93", "title": "Other coordinates of the data change only the coordinates of the modes", "statement": "If vectors are replaced by their images under a linear map, and inner products of images are those of the vectors (grid points in another order, other coordinates, other units with weights changed accordingly), then PODHandles, BPODHandles, DMDHandles, TLSqrDMDHandles and the functions for arrays of the snapshot methods and BPOD return the same eigenvalues, singular values, eigenvectors, correlation and Hankel arrays, spectral coefficients and projection coefficients, or raise the same exceptions, and the modes are the images of the modes. This holds after any earlier calls on the object. For BPOD, direct and adjoint vectors may have different images; then so do direct and adjoint modes. LTIGalerkinProjectionHandles returns the same reduced arrays. No property of the decompositions of the library is needed. Direct methods, which decompose the weighted vectors themselves, return the same eigenvalues, the same projection of total-least-squares DMD, and modes whose products with adjoint modes and with coefficients are images; for these, decompositions have to be correct and eigenvalues of DMD distinct.", "quantifier": "for all linear maps between any spaces, inner products or weights that agree on images, data, tolerances, indices, library functions and histories of calls", "why_tests_cant": "Tests use one representation of a few random arrays; they compare neither two representations of the same data nor all maps that keep inner products.", "anchors": ["modred/pod.py:PODHandles.compute_decomp", "modred/pod.py:PODHandles.compute_modes", "modred/pod.py:compute_POD_arrays_snaps_method", "modred/bpod.py:BPODHandles.compute_decomp", "modred/bpod.py:BPODHandles.compute_direct_modes", "modred/bpod.py:BPODHandles.compute_adjoint_modes", "modred/bpod.py:compute_BPOD_arrays", "modred/dmd.py:DMDHandles.compute_decomp", "modred/dmd.py:DMDHandles.compute_exact_modes", "modred/dmd.py:compute_DMD_arrays_snaps_method", "modred/dmd.py:TLSqrDMDHandles.compute_decomp", "modred/dmd.py:compute_TLSqrDMD_arrays_snaps_method", "modred/ltigalerkinproj.py:LTIGalerkinProjectionHandles.reduce_A", "modred/ltigalerkinproj.py:LTIGalerkinProjectionHandles.reduce_B"]}
{"id": "C94", "title": "POD does not depend on the order of the vectors, on the eigenvectors the library chooses, or on units", "statement": "If the vectors given to PODHandles, compute_POD_arrays_snaps_method or compute_POD_arrays_direct_method are put in another order, are mixed by a unitary array, or are multiplied by a number a that is not zero, and the absolute tolerance is multiplied accordingly (by |a|^2, or by |a| for the direct method), then as many modes are retained, eigenvalues are multiplied by |a|^2, and the modes are the same: the modes with any given eigenvalue span the same space, and a mode whose eigenvalue differs from all others is the same up to a factor of modulus one. The vectors as approximated by modes and projection coefficients are permuted, mixed and multiplied as the vectors are. This holds even if the library returns other eigenvectors, singular vectors or Cholesky factors in the second call. With an absolute tolerance that stays the same, as the default one does, the number of modes depends on units.", "quantifier": "for all data, weights or inner products, numbers a, unitary arrays, tolerances that are not negative, and correct decompositions by the library", "why_tests_cant": "Tests compute with one order, one scale and one library, so a result that depends on the choice of eigenvectors within an eigenspace or on the order of the snapshots passes them.", "anchors": ["modred/pod.py:PODHandles.compute_decomp", "modred/pod.py:PODHandles.compute_modes", "modred/pod.py:compute_POD_arrays_snaps_method", "modred/pod.py:compute_POD_arrays_direct_method", "modred/util.py:eigh", "modred/util.py:svd"]}
{"id": "C95", "title": "DMD does not depend on the order of the pairs, on the eigenvectors the library chooses, or on units", "statement": "If the pairs of vectors given to DMDHandles, compute_DMD_arrays_snaps_method or compute_DMD_arrays_direct_method are put in another order or are mixed by a unitary array, if the vectors are multiplied by a number a and the advanced vectors by a number b, neither of them zero (the same number for sequential data), and if the absolute tolerance is multiplied accordingly, then as many modes are computed and the eigenvalues, with their multiplicities, are multiplied by b/a. The modes that belong to any of the eigenvalues, together with their adjoint modes, are the same maps, and together with their coefficients they give the same vectors in the new order and units. Each mode is the same up to a factor that is not zero, its adjoint mode up to the inverse of the conjugate of this factor, and its coefficients up to the inverse. This holds even if the library returns other eigenvectors, singular vectors or Cholesky factors in the second call.", "quantifier": "for all pairs of vectors and sequences, weights or inner products, numbers a and b, unitary arrays, tolerances that are not negative, and correct decompositions by the library with distinct eigenvalues of the reduced map", "why_tests_cant": "Tests compute with one order, one scale and one library, so a result that depends on the choice of eigenvectors within an eigenspace or on the order of the snapshots passes them.", "anchors": ["modred/dmd.py:DMDHandles.compute_decomp", "modred/dmd.py:DMDHandles.compute_exact_modes", "modred/dmd.py:DMDHandles.compute_proj_modes", "modred/dmd.py:DMDHandles.compute_adjoint_modes", "modred/dmd.py:DMDHandles.compute_proj_coeffs", "modred/dmd.py:compute_DMD_arrays_snaps_method", "modred/dmd.py:compute_DMD_arrays_direct_method", "modred/util.py:eigh", "modred/util.py:svd", "modred/util.py:eig_biorthog"]}
{"id": "C96", "title": "Projected DMD modes have length one; exact and adjoint modes are at least as long", "statement": "If the library returns right eigenvectors of length one, as LAPACK does, and the eigenvalues of the reduced map are distinct, then every projected mode computed by DMDHandles, TLSqrDMDHandles and the compute_DMD and compute_TLSqrDMD functions has length one in the inner product that was given, every adjoint mode has at least length one, and so has every exact mode whose eigenvalue is not zero.", "quantifier": "for all pairs of vectors and sequences, weights or inner products, tolerances, maximal numbers of eigenvalues, and correct decompositions by the library", "why_tests_cant": "Tests compare modes with formulas or with other methods that use the same scaling, so a change of the scaling that keeps modes and adjoint modes biorthonormal passes them.", "anchors": ["modred/util.py:eig_biorthog", "modred/dmd.py:DMDHandles.compute_decomp", "modred/dmd.py:DMDHandles.compute_exact_modes", "modred/dmd.py:DMDHandles.compute_proj_modes", "modred/dmd.py:DMDHandles.compute_adjoint_modes", "modred/dmd.py:compute_DMD_arrays_snaps_method", "modred/dmd.py:compute_DMD_arrays_direct_method", "modred/dmd.py:TLSqrDMDHandles.compute_decomp", "modred/dmd.py:compute_TLSqrDMD_arrays_snaps_method", "modred/dmd.py:compute_TLSqrDMD_arrays_direct_method"]}
{"id": "C97", "title": "Balanced POD does not depend on the order and units of inputs and outputs, or on the singular vectors the library chooses", "statement": "If the direct vectors given to BPODHandles or compute_BPOD_arrays are impulse responses to the inputs in another order or in other units (multiplied by a, or mixed by a unitary array), the adjoint vectors are those of the outputs in another order or in other units (multiplied by b), and the absolute tolerance is multiplied by |a||b|, then as many modes are retained and singular values are multiplied by |a||b|. The oblique projections, that is direct times adjoint modes of any singular values, are the same. The direct modes of any singular values are the same up to the units |a|/|b|, and so are adjoint modes. A pair of modes whose singular value differs from all others is the same up to one factor for the direct mode, the inverse conjugate of which is that of the adjoint mode. What modes and projection coefficients say about the vectors is permuted, mixed and multiplied as the vectors are. This holds even if the library returns other singular vectors in the second call.", "quantifier": "for all systems, impulse responses in complete chunks, weights or inner products, numbers a and b that are not zero, unitary mixes of inputs and of outputs, tolerances that are not negative, and correct decompositions by the library", "why_tests_cant": "Tests compute with one order of inputs and outputs, one scale and one library, so a result that depends on which singular vectors the library chooses passes them.", "anchors": ["modred/bpod.py:BPODHandles.compute_decomp", "modred/bpod.py:BPODHandles.compute_direct_modes", "modred/bpod.py:BPODHandles.compute_adjoint_modes", "modred/bpod.py:BPODHandles.compute_direct_proj_coeffs", "modred/bpod.py:BPODHandles.compute_adjoint_proj_coeffs", "modred/bpod.py:compute_BPOD_arrays", "modred/util.py:svd"]}
{"id": "C98", "title": "ERA does not depend on the order and units of inputs and outputs, or on the singular vectors the library chooses", "statement": "If the inputs and outputs of the Markov parameters given to ERA.compute_model or compute_ERA_model are put in another order, mixed by unitary arrays, or measured in other units, then the model has as many states, and each of its Markov parameters (also those beyond the given ones) is that of the first model, put in the same order, mixed and converted in the same way. This holds even if the library returns other singular vectors in the second call. It must not depend on which of several equal singular values come first.", "quantifier": "for all Markov parameters with any numbers of inputs and outputs, factors that are not zero, unitary mixes of inputs and of outputs, numbers of states, numbers of Markov parameters in the Hankel arrays, and correct decompositions by the library", "why_tests_cant": "Tests use one order of inputs and outputs, one scale, one library, and random systems, whose singular values differ from each other.", "anchors": ["modred/era.py:ERA.compute_model", "modred/era.py:ERA._assemble_Hankel", "modred/era.py:compute_ERA_model", "modred/util.py:svd"]}
{"id": "C99", "title": "Progress messages are right", "statement": "With verbosity > 0, compute_inner_product_array, compute_symm_inner_product_array and lin_combine of VectorSpaceHandles print percentages between 0 and 100 that never go down, and 100 at the end. A percentage is printed exactly if more than print_interval seconds have passed since the last one. In one process, if no inner product is zero, the last percentage before the end is 100 as well. Other ranks print nothing, and nothing is printed if verbosity <= 0.", "quantifier": "for all numbers of rows, columns, basis vectors, sums and processes, all inner products, memory limits, intervals, and anything the clock may show", "why_tests_cant": "Tests set verbosity to 0 or do not read what is printed; their computations are shorter than the interval.", "anchors": ["modred/vectorspace.py:VectorSpaceHandles.print_msg", "modred/vectorspace.py:VectorSpaceHandles.compute_inner_product_array", "modred/vectorspace.py:VectorSpaceHandles.compute_symm_inner_product_array", "modred/vectorspace.py:VectorSpaceHandles.lin_combine"]}
{"id": "C100", "title": "Markov parameters of OKID do not depend on the order and units of inputs and outputs", "statement": "OKID(S u, T y, p) = T OKID(u, y, p) S^-1 for a change of coordinates S of the inputs and T of the outputs: in particular, changing the order of inputs and outputs changes the order of the Markov parameters, and changing units changes the units of the Markov parameters. It does not depend on the least-squares solver.", "quantifier": "for all real signals, numbers of inputs, outputs, samples and Markov parameters, all changes of coordinates, and all correct least-squares solvers", "why_tests_cant": "Tests look at a few random systems with noise-free data in one choice of units.", "anchors": ["modred/okid.py:OKID"]}
{"id": "C101", "title": "The methods and classes for the same decomposition agree", "statement": "compute_POD_arrays_snaps_method and compute_POD_arrays_direct_method return the same eigenvalues, the same modes up to the choice of a basis of modes with equal eigenvalue, and the same reconstruction modes * proj_coeffs; compute_DMD_arrays_snaps_method and compute_DMD_arrays_direct_method return the same eigenvalues with multiplicities, the same exact, projected and adjoint modes up to factors, and matching coefficients; so do compute_TLSqrDMD_arrays_snaps_method and compute_TLSqrDMD_arrays_direct_method, with the same projection. PODHandles, DMDHandles, TLSqrDMDHandles and BPODHandles, given the columns of the arrays and the weighted inner product, return exactly what the functions for arrays return: correlation arrays, decompositions, chosen modes, coefficients and spectrum.", "quantifier": "for all data, weights, tolerances, mode indices, and all correct libraries for eigendecompositions, singular values and Cholesky factors, which may differ between the methods", "why_tests_cant": "Tests compare each method with formulas on random data far from the tolerance; methods are not compared with each other for weights, tolerances and repeated eigenvalues.", "anchors": ["modred/pod.py:compute_POD_arrays_snaps_method", "modred/pod.py:compute_POD_arrays_direct_method", "modred/pod.py:PODHandles", "modred/dmd.py:compute_DMD_arrays_snaps_method", "modred/dmd.py:compute_DMD_arrays_direct_method", "modred/dmd.py:DMDHandles", "modred/dmd.py:compute_TLSqrDMD_arrays_snaps_method", "modred/dmd.py:compute_TLSqrDMD_arrays_direct_method", "modred/dmd.py:TLSqrDMDHandles", "modred/bpod.py:compute_BPOD_arrays", "modred/bpod.py:BPODHandles"]}
{"id": "C102", "title": "Total-least-squares DMD does not depend on the order of the pairs, on the eigenvectors the library chooses, or on units", "statement": "If the pairs of vectors given to TLSqrDMDHandles, compute_TLSqrDMD_arrays_snaps_method or compute_TLSqrDMD_arrays_direct_method are put in another order or are mixed by a unitary array, if the vectors are multiplied by a number a and the advanced vectors by a number b of the same size, not zero (the same number for sequential data), and if the absolute tolerance is multiplied accordingly, then the projection is the same in the new order, as many modes are computed, and the eigenvalues, with their multiplicities, are multiplied by b/a. The modes that belong to any of the eigenvalues, together with their adjoint modes, are the same maps, and together with their coefficients they give the same vectors in the new order and units. This holds even if the library returns other eigenvectors, singular vectors or Cholesky factors in the second call.", "quantifier": "for all pairs of vectors and sequences, weights or inner products, numbers a and b of the same size, unitary arrays, tolerances that are not negative, correct decompositions by the library with distinct eigenvalues of the reduced map, and no max_num_eigvals", "why_tests_cant": "Tests compute with one order, one scale and one library, so a result that depends on the choice of eigenvectors within an eigenspace or on the order of the snapshots passes them.", "anchors": ["modred/dmd.py:TLSqrDMDHandles.compute_decomp", "modred/dmd.py:TLSqrDMDHandles.compute_proj_coeffs", "modred/dmd.py:compute_TLSqrDMD_arrays_snaps_method", "modred/dmd.py:compute_TLSqrDMD_arrays_direct_method"]}
{"id": "C103", "title": "Messages are printed once and where they belong", "statement": "modred.print_msg writes its message to standard output or standard error according to output_channel, in upper or lower case, and raises ValueError for any other name. Messages of VectorSpaceHandles are written by the first process only and not at all if verbosity <= 0: the constructor warns on standard output exactly if no limit is given and exactly if the limit is less than three vectors per process; compute_inner_product_array, compute_symm_inner_product_array and lin_combine write one estimate and at most one warning to standard output and the progress to standard error. parallel.print_from_rank_zero writes once to the channel it is given.", "quantifier": "for all messages, names of channels, numbers of processes and nodes, limits, and anything the clock may show", "why_tests_cant": "The tests do not read what is printed, and run with verbosity 0.", "anchors": ["modred/py2to3.py:print_msg", "modred/py2to3.py:print_stdout", "modred/py2to3.py:print_stderr", "modred/parallel.py:print_from_rank_zero", "modred/vectorspace.py:VectorSpaceHandles.print_msg", "modred/vectorspace.py:VectorSpaceHandles.__init__"]}
{"id": "C104", "title": "A get or put that raises leaves everything else as it was", "statement": "If get of a vector handle raises, because a file is missing or cannot be read or because vectors cannot be subtracted or scaled, nothing that is stored changes, and all later calls return or raise what they would have without it: get returns the stored vector minus the base vector, times the scale, or raises the exception of reading, subtraction or multiplication. If put raises, no other vector changes, and the vector that was stored stays there.", "quantifier": "for all handles of all classes, with base handles of any depth, all histories of get and put calls as in C13, and all exceptions of files, formats and vector arithmetic", "why_tests_cant": "The tests call get for files that exist and put for vectors that can be saved; there are no tests that go on after an exception.", "anchors": ["modred/vectors.py:VecHandle.get", "modred/vectors.py:VecHandle.put", "modred/vectors.py:VecHandlePickle._put", "modred/vectors.py:VecHandleArrayText._put", "modred/util.py:save_array_text"]}
{"id": "C105", "title": "Models of impulse responses that have died out are stable, and twice the sum of neglected singular values bounds their errors", "statement": "If the Markov parameters beyond the blocks of the Hankel array are zero, the model of ERA.compute_model and compute_ERA_model with any number of states is stable (powers of its state array tend to zero, its eigenvalues are inside the unit circle, and in as many steps as there are blocks in a column its states lose a fixed part of their energy), and for all inputs and at all times the error of its outputs, as computed by lsim, has at most the energy of the inputs times the square of twice the sum of the singular values that were not kept. No model with as few states, of whatever origin, has for all inputs errors with less than the energy of the inputs times the square of the first neglected singular value. The bounds also hold for Galerkin projections onto the modes of compute_BPOD_arrays, and for those of LTIGalerkinProjectionHandles onto the modes of BPODHandles. If the impulse response has not died out, models of stable systems may be unstable.", "quantifier": "for all impulse responses, real or complex, with any numbers of inputs and outputs, all numbers of blocks and states, all input signals, and every library function that returns singular value decompositions; data at consecutive pairs of times", "why_tests_cant": "The tests compare models with given arrays; a bound over all inputs and stability for all impulse responses cannot be tested.", "anchors": ["modred/era.py:ERA.compute_model", "modred/era.py:compute_ERA_model", "modred/era.py:make_sampled_format", "modred/bpod.py:compute_BPOD_arrays", "modred/ltigalerkinproj.py:LTIGalerkinProjectionArrays.compute_model", "modred/util.py:lsim", "modred/bpod.py:BPODHandles.compute_direct_modes", "modred/ltigalerkinproj.py:LTIGalerkinProjectionHandles.compute_model"]}
{"id": "C106", "title": "max_num_eigvals does what a tolerance between the eigenvalues does", "statement": "If exactly k eigenvalues of the correlation array (for total-least-squares DMD, of the sum of both correlation arrays) lie above s, a DMD with max_num_eigvals=k and an absolute tolerance up to s returns the same as one with the absolute tolerance s and no max_num_eigvals; for the direct methods, which work with singular values, s is a bound for their square roots. For total-least-squares DMD this needs that no eigenvalue of the projected correlation array lies between the tolerances.", "quantifier": "for all data, pairs or sequential, all weights, relative tolerances and mode indices, for the method of snapshots, the direct method and handles, for DMD and total-least-squares DMD, and all libraries that decompose correctly", "why_tests_cant": "The tests check max_num_eigvals by cutting expected arrays to that size; they do not relate it to tolerances, and run it for a few random arrays.", "anchors": ["modred/dmd.py:compute_DMD_arrays_snaps_method", "modred/dmd.py:compute_DMD_arrays_direct_method", "modred/dmd.py:DMDHandles.compute_eigendecomp", "modred/dmd.py:compute_TLSqrDMD_arrays_snaps_method", "modred/dmd.py:compute_TLSqrDMD_arrays_direct_method", "modred/dmd.py:TLSqrDMDHandles.compute_eigendecomp"]}
{"id": "C107", "title": "Real data give real modes and models, and dynamic modes in conjugate pairs", "statement": "For real vectors and real weights, POD by snapshots and by the direct method returns real modes, projection coefficients and eigenvectors, and BPOD a real Hankel array, real direct and adjoint modes and coefficients. For real Markov parameters, ERA returns real arrays A, B and C. For real vectors, the eigenvalues of DMD and of total-least-squares DMD, if distinct, are real or come in conjugate pairs; the modes of a pair are conjugate up to a nonzero factor, their adjoint modes up to the inverse of its conjugate, and their coefficients up to its inverse. Hence what modes, eigenvalues and coefficients together reconstruct or predict, any number of steps ahead, is real.", "quantifier": "for all real data, pairs or sequential, all real weights, tolerances, max_num_eigvals and mode indices, and all correct libraries that return real arrays for real arrays", "why_tests_cant": "The tests compare with formulas evaluated by the same library for a few random arrays; they check neither that eigenvalues pair up nor that predictions are real, and no finite number of examples could show it for all data.", "anchors": ["modred/pod.py:compute_POD_arrays_snaps_method", "modred/pod.py:compute_POD_arrays_direct_method", "modred/bpod.py:compute_BPOD_arrays", "modred/era.py:ERA.compute_model", "modred/dmd.py:compute_DMD_arrays_snaps_method", "modred/dmd.py:compute_DMD_arrays_direct_method", "modred/dmd.py:compute_TLSqrDMD_arrays_snaps_method", "modred/dmd.py:compute_TLSqrDMD_arrays_direct_method"]}
{"id": "C108", "title": "One handle does what a list of one handle does", "statement": "Wherever handles are given, one handle has the same effect as a list of one handle: compute_inner_product_array, compute_symm_inner_product_array, lin_combine and the methods of PODHandles, BPODHandles and DMDHandles return the same arrays, put the same vectors and raise the same exceptions. One mode index has the same effect as a list of one index. Iterators and sets raise TypeError instead of being used up or put in some order. Violated: BPODHandles.compute_decomp slices its arguments and DMDHandles.compute_decomp, compute_proj_modes and compute_adjoint_modes take their length before making them lists, so one handle raises TypeError there, although compute_modes, compute_direct_modes, compute_adjoint_modes of BPOD and compute_exact_modes accept it.", "quantifier": "for all handles, coefficient arrays, indices, inner products, numbers of processes and memory limits, and all objects reached by compute_decomp and compute_modes", "why_tests_cant": "The tests give lists of handles nearly everywhere; which of the many functions accept one handle is decided by where make_iterable is called, and the tests do not compare forms of arguments.", "anchors": ["modred/util.py:make_iterable", "modred/vectorspace.py:VectorSpaceHandles.compute_inner_product_array", "modred/vectorspace.py:VectorSpaceHandles.compute_symm_inner_product_array", "modred/vectorspace.py:VectorSpaceHandles.lin_combine", "modred/pod.py:PODHandles.compute_modes", "modred/bpod.py:BPODHandles.compute_decomp", "modred/dmd.py:DMDHandles.compute_decomp", "modred/dmd.py:DMDHandles.compute_proj_modes"]}
{"id": "C109", "title": "Mode indices choose modes and change nothing else", "statement": "With mode_indices, the functions for POD, BPOD, DMD and total-least-squares DMD on arrays return what they return without, except that only the modes of these indices are there, in the order of the indices: negative indices count from the end and indices may repeat. Eigenvalues, singular values, coefficients and arrays are those of all modes, whatever the indices. An index outside is an IndexError; any other exception is the one raised without indices. BPOD treats indices for direct and for adjoint modes separately. For the classes with handles, if all modes can be computed, the modes put for any indices are those at these places among all modes.", "quantifier": "for all data, weights, tolerances, max_num_eigvals, libraries and lists of indices, and all objects of the classes with handles", "why_tests_cant": "The tests compare modes of one or two lists of indices with formulas; they do not compare the results with and without indices, nor try repeated or negative indices or indices outside.", "anchors": ["modred/pod.py:compute_POD_arrays_snaps_method", "modred/pod.py:compute_POD_arrays_direct_method", "modred/bpod.py:compute_BPOD_arrays", "modred/dmd.py:compute_DMD_arrays_snaps_method", "modred/dmd.py:compute_DMD_arrays_direct_method", "modred/dmd.py:compute_TLSqrDMD_arrays_snaps_method", "modred/dmd.py:compute_TLSqrDMD_arrays_direct_method", "modred/pod.py:PODHandles.compute_modes", "modred/bpod.py:BPODHandles.compute_direct_modes", "modred/dmd.py:DMDHandles.compute_exact_modes"]}
{"id": "C110", "title": "Smaller models are corners of larger ones", "statement": "Asking ERA, compute_ERA_model or balanced_truncation for fewer states gives the first states of the model with more: the arrays A, B and C are the corners, the first rows and the first columns of the larger ones, and the singular values returned are the same; both calls raise the same exception or none. LTIGalerkinProjectionArrays and LTIGalerkinProjectionHandles, with is_basis_orthonormal=True or for biorthonormal bases, give for some of the basis vectors the corresponding rows and columns of the model for all of them, in any order and whatever was called before. For other bases this need not be so.", "quantifier": "for all Markov parameters, numbers of blocks, systems, bases, weights, inner products, libraries, orders and choices of basis vectors", "why_tests_cant": "The tests compute models of one order at a time and compare with formulas; a model of another order would have to be computed for every order and every data set.", "anchors": ["modred/era.py:ERA.compute_model", "modred/era.py:compute_ERA_model", "modred/util.py:balanced_truncation", "modred/ltigalerkinproj.py:LTIGalerkinProjectionArrays.reduce_A", "modred/ltigalerkinproj.py:LTIGalerkinProjectionArrays.reduce_B", "modred/ltigalerkinproj.py:LTIGalerkinProjectionHandles.reduce_A", "modred/ltigalerkinproj.py:LTIGalerkinProjectionHandles.reduce_B", "modred/ltigalerkinproj.py:LTIGalerkinProjectionHandles.reduce_C"]}
{"id": "C111", "title": "Modes of data of a linear system predict its future", "statement": "If the vectors given to compute_DMD_arrays_snaps_method, compute_DMD_arrays_direct_method or DMDHandles are those of a linear system (the advanced vectors are A times the vectors, for a sequence each vector is A times the one before), the advanced vectors are linear combinations of the vectors, no direction is dropped and the eigenvalues returned are distinct and not zero, then exact and projected modes are the same, and for every number of steps k, A^k times each vector is the sum of the modes times the k-th powers of the eigenvalues times the coefficients returned by compute_proj_coeffs; for a sequence this gives every later vector from the coefficients of the first, whose magnitudes are the spectral coefficients. The same is true of compute_TLSqrDMD_arrays_snaps_method, compute_TLSqrDMD_arrays_direct_method and TLSqrDMDHandles if neither the projection nor the decomposition of the projected vectors drops a direction, but for the spectral coefficients of the method of snapshots (C30).", "quantifier": "for all data of linear systems, pairs and sequences, weights, inner products, tolerances, mode indices, numbers of steps and libraries that keep their contracts", "why_tests_cant": "The tests check modes and eigenvalues against the same formulas for random data; no test compares predictions with the vectors of a system, and only finitely many steps of finitely many systems could be compared.", "anchors": ["modred/dmd.py:compute_DMD_arrays_snaps_method", "modred/dmd.py:compute_DMD_arrays_direct_method", "modred/dmd.py:DMDHandles.compute_exact_modes", "modred/dmd.py:DMDHandles.compute_proj_modes", "modred/dmd.py:DMDHandles.compute_proj_coeffs", "modred/dmd.py:DMDHandles.compute_spectrum", "modred/dmd.py:compute_TLSqrDMD_arrays_snaps_method", "modred/dmd.py:compute_TLSqrDMD_arrays_direct_method", "modred/dmd.py:TLSqrDMDHandles.compute_decomp", "modred/dmd.py:TLSqrDMDHandles.compute_proj_coeffs"]}
{"id": "C112", "title": "Helpers for blocks of inner products, reductions and comparisons", "statement": "InnerProductBlock(ip)(vecs1, vecs2) gives the array of all inner products; it raises and gives what VectorSpaceHandles.compute_inner_product_array raises and gives on any number of processes, for no more rows than columns. sum_arrays adds arrays of one shape entry by entry, its result does not depend on the order of the arrays, sums of three arrays do not depend on which two are added first, also when numpy repeats arrays of length one and when ValueError is raised, and allreduce with it gives every process the sum of all arrays. get_data_members gives exactly the attributes that are no methods and whose names do not begin with two underscores.", "quantifier": "for all lists of vectors, inner products, shapes, arrays, numbers of processes, schedules and objects", "why_tests_cant": "The tests use these helpers to compute what they expect, and a helper that loses fractions in the same way as the code hides the loss; associativity concerns all triples of shapes.", "anchors": ["modred/util.py:InnerProductBlock.__call__", "modred/util.py:sum_arrays", "modred/util.py:get_data_members", "modred/reductions.py:Intracomm.allreduce"]}
{"id": "C113", "title": "The inner product of arrays without weights is an inner product", "statement": "inner_product_array_uniform(vec1, vec2) is the sum of the products of the conjugated entries of vec1 and the entries of vec2; it is conjugate symmetric, linear in vec2, and positive unless all entries are zero; it raises ValueError exactly if the arrays do not have equally many entries, and does not depend on shapes otherwise. The arrays of inner products of VectorSpaceArrays without weights consist of its values for columns, and on a grid of points at distance one InnerProductTrapz differs from it by half of the products at the two ends.", "quantifier": "for all arrays, real and complex, of any shapes", "why_tests_cant": "No test calls it with complex arrays of several dimensions, and the laws concern all arrays.", "anchors": ["modred/vectors.py:inner_product_array_uniform", "modred/vectorspace.py:VectorSpaceArrays.compute_inner_product_array", "modred/vectors.py:InnerProductTrapz.inner_product"]}
{"id": "C114", "title": "POD of what the modes represent gives the same modes", "statement": "Take the product of the modes and projection coefficients that compute_POD_arrays_snaps_method, compute_POD_arrays_direct_method or PODHandles give, and apply the same function to it with the same weights or inner product and the same tolerances. No exception is raised, as many modes are retained, the eigenvalues are the same, the modes are the same up to the library's choice of eigenvectors, and the new modes and coefficients give the same product, so nothing is lost the second time.", "quantifier": "for all data, weights or inner products, tolerances that are not negative, and correct decompositions by the library, also another one in the second call", "why_tests_cant": "Tests do not compress data twice, and a threshold relative to all values, or counted differently when some values are zero, changes the number of modes only for particular data.", "anchors": ["modred/pod.py:compute_POD_arrays_snaps_method", "modred/pod.py:compute_POD_arrays_direct_method", "modred/pod.py:PODHandles.compute_decomp", "modred/pod.py:PODHandles.compute_modes", "modred/pod.py:PODHandles.compute_proj_coeffs", "modred/util.py:eigh", "modred/util.py:svd"]}
{"id": "C115", "title": "Zero vectors change nothing in POD, and repeated vectors only multiply the eigenvalues", "statement": "If zero vectors are added at any places to the vectors given to compute_POD_arrays_snaps_method, compute_POD_arrays_direct_method or PODHandles, then no exception is raised, as many modes are retained, and eigenvalues and modes are the same. If every vector is given p times in any order, then eigenvalues are p times as large, modes are the same, and every copy is approximated as before; the absolute tolerance has to be p times as large, or the root of p times for the direct method. The same holds whenever the vectors are replaced by a multiple of combinations whose coefficients have orthonormal rows. Modes are the same up to the library's choice of eigenvectors.", "quantifier": "for all data, places, numbers of repetitions, weights or inner products, tolerances that are not negative, and correct decompositions by the library, which may be others for more vectors", "why_tests_cant": "Tests use data of full rank, so a threshold that depends on the number of vectors or on the smallest eigenvalues passes them.", "anchors": ["modred/pod.py:compute_POD_arrays_snaps_method", "modred/pod.py:compute_POD_arrays_direct_method", "modred/pod.py:PODHandles.compute_decomp", "modred/pod.py:PODHandles.compute_modes", "modred/util.py:eigh", "modred/util.py:svd"]}
{"id": "C116", "title": "Pairs of zero vectors change nothing in DMD, and repeated pairs change neither eigenvalues nor modes", "statement": "If pairs of zero vectors are added at any places to the pairs given to compute_DMD_arrays_snaps_method, compute_DMD_arrays_direct_method, DMDHandles or one of the total-least-squares variants, or if every pair is given p times in any order with the absolute tolerance p times as large (the root of p times for the direct methods), then the same eigenvalues occur equally often, and modes are the same up to the factors of the eigenvectors: functions of the eigenvalues applied to modes and adjoint modes give the same map, and modes weighted with their coefficients give the same vectors. The projection of total least squares is that of the fewer pairs, placed or repeated. The same holds whenever the pairs are replaced by combinations whose coefficients have orthonormal rows.", "quantifier": "for all data, places, numbers of repetitions, weights or inner products, tolerances that are not negative, mode indices, and correct decompositions by the library, which may be others for more pairs, when the eigenvalues are distinct", "why_tests_cant": "Tests use pairs of vectors that are all different and do not vanish, so dependence on the number of pairs or on discarded directions passes them.", "anchors": ["modred/dmd.py:compute_DMD_arrays_snaps_method", "modred/dmd.py:compute_DMD_arrays_direct_method", "modred/dmd.py:DMDHandles.compute_decomp", "modred/dmd.py:compute_TLSqrDMD_arrays_snaps_method", "modred/dmd.py:compute_TLSqrDMD_arrays_direct_method", "modred/dmd.py:TLSqrDMDHandles.compute_decomp", "modred/util.py:eigh", "modred/util.py:svd", "modred/util.py:eig_biorthog"]}
{"id": "C117", "title": "Inputs that do nothing and sensors that measure nothing change neither balanced modes nor models of ERA, and repeated ones only change units", "statement": "If inputs whose impulse response is zero and outputs that are zero are added at any places, BPODHandles and compute_BPOD_arrays retain as many modes with the same singular values, and projections, direct modes and adjoint modes of any singular values are the same. ERA.compute_model gives a model with as many states, with the same Markov parameters (also beyond the given ones) for the other inputs and outputs and zero ones for those added. If every input is given u times and every output v times in any order, singular values are multiplied by the root of u v; with the absolute tolerance of balanced POD multiplied alike, projections are the same and modes of any singular values are the same up to units. The Markov parameters of the model of ERA are those of the first one, repeated like inputs and outputs, if the fixed tolerance 1e-13 keeps as many singular values.", "quantifier": "for all systems, impulse responses in complete chunks, places, numbers of repetitions, weights or inner products, tolerances that are not negative, numbers of states that do not separate equal singular values, and correct decompositions by the library, which may be others for larger arrays", "why_tests_cant": "Tests use random systems, whose inputs and outputs all matter and all differ, so dependence on the size of the Hankel arrays or on directions of zero singular values passes them.", "anchors": ["modred/bpod.py:compute_BPOD_arrays", "modred/bpod.py:BPODHandles.compute_decomp", "modred/era.py:ERA.compute_model", "modred/era.py:ERA._assemble_Hankel", "modred/util.py:svd"]}
{"id": "C118", "title": "Modes obey every homogeneous linear constraint that the vectors obey", "statement": "If the vectors obey homogeneous linear constraints, such as boundary conditions that are zero, zero divergence, or a symmetry, so do the modes: modes lie in every linear subspace that contains the vectors of which they are made. For POD these are the vectors, for direct and adjoint modes of balanced POD the direct and adjoint vectors, for exact modes of DMD and total least squares DMD the advanced vectors or all vectors of a sequence but the first, and for projected and adjoint modes the vectors or all of a sequence but the last. Except for the direct method of POD this holds whatever the linear algebra library returns, for all weights, tolerances and mode indices, and for handles also whatever the inner product is and whatever the object has seen before. The direct method of POD takes modes from singular vectors, so it needs a correct singular value decomposition and that singular values that are zero are not retained; with both tolerances None the mode of a zero vector is not zero.", "quantifier": "for all vectors, subspaces, weights, tolerances, mode indices, inner products, states of objects and, but for compute_POD_arrays_direct_method, all results of the linear algebra library", "why_tests_cant": "Tests use random vectors that span the whole space, so modes that leave the span of the vectors, for instance because a vector of another list is used, are not noticed.", "anchors": ["modred/pod.py:compute_POD_arrays_snaps_method", "modred/pod.py:compute_POD_arrays_direct_method", "modred/pod.py:PODHandles.compute_modes", "modred/bpod.py:compute_BPOD_arrays", "modred/bpod.py:BPODHandles.compute_direct_modes", "modred/bpod.py:BPODHandles.compute_adjoint_modes", "modred/dmd.py:compute_DMD_arrays_snaps_method", "modred/dmd.py:compute_DMD_arrays_direct_method", "modred/dmd.py:DMDHandles.compute_exact_modes", "modred/dmd.py:DMDHandles.compute_proj_modes", "modred/dmd.py:DMDHandles.compute_adjoint_modes", "modred/dmd.py:compute_TLSqrDMD_arrays_snaps_method", "modred/dmd.py:compute_TLSqrDMD_arrays_direct_method"]}
{"id": "C119", "title": "Eigenvalues and singular values change no more than the data do, and more data do not lower them", "statement": "If vectors are changed such that every linear combination with coefficients of length one changes by at most delta, in the inner product that is used, which holds if delta is the root of the sum of the squared lengths of the changes, then the roots of POD eigenvalues with the same index differ by at most delta, and a root that only one of both computations retains is at most delta above the tolerance of the other. This is true of both array methods and of handles. If the Hankel array of balanced POD changes by at most delta, so do the singular values, for arrays and handles. If no entry of the Markov parameters given to ERA changes by more than epsilon, no singular value of its Hankel array changes by more than epsilon times the root of the number of entries of this array. Adding vectors, in any places, lowers neither the number of POD eigenvalues nor any of them, and larger Hankel arrays of ERA, of the same or of more Markov parameters, lower neither the number of states nor any singular value. An absolute tolerance of at least zero is given; for the changes of the method of snapshots and of handles a relative one may be given too, elsewhere it is None, as it moves with the largest value.", "quantifier": "for all vectors and changes, weights and inner products for which no vector has a negative squared length, tolerances of at least zero, mode indices, and all correct linear algebra libraries, which may differ between both computations", "why_tests_cant": "Tests do not compare results of two data sets; they compare one result with its definition by the same eigenvalue routine.", "anchors": ["modred/pod.py:compute_POD_arrays_snaps_method", "modred/pod.py:compute_POD_arrays_direct_method", "modred/pod.py:PODHandles.compute_decomp", "modred/bpod.py:compute_BPOD_arrays", "modred/bpod.py:BPODHandles.compute_decomp", "modred/era.py:ERA.compute_model", "modred/util.py:eigh", "modred/util.py:svd"]}
{"id": "C120", "title": "POD modes of data with errors are nearly best for the data without errors", "statement": "Let POD modes be computed from vectors that differ from other vectors, for instance the same without measurement errors, and let d be the root of the sum of the squared lengths of the differences. For every number k of modes up to that returned, the projections of the other vectors onto the first k modes leave a root of the sum of squared errors at most 2 d above that of any k vectors with any coefficients. If every combination of the differences with coefficients of length one has length at most delta, the largest error over combinations of the other vectors with coefficients of length one is at most 2 delta above that of any k vectors with any coefficients, for k below the number of modes. The modes are all modes in order: mode_indices is None for arrays and range(number of eigenvalues) for handles.", "quantifier": "for all pairs of data sets with as many vectors, weights and inner products for which no vector has a negative squared length, tolerances of at least zero, numbers of modes, and all correct linear algebra libraries", "why_tests_cant": "Tests compute modes and compare them with the same vectors; the best representation of other data, over all vectors and coefficients, is not available to them.", "anchors": ["modred/pod.py:compute_POD_arrays_snaps_method", "modred/pod.py:compute_POD_arrays_direct_method", "modred/pod.py:PODHandles.compute_decomp", "modred/pod.py:PODHandles.compute_modes"]}
{"id": "C121", "title": "The first response of models of ERA is that of the data, up to the first neglected singular value", "statement": "Whatever the Markov parameters are, and whatever the number of states, C B of the model of ERA.compute_model and the first Markov parameter give outputs that differ, per length of the inputs, by at most the first singular value of the Hankel array that the model neglects, or by at most the tolerance of util.svd if num_states is not less than the number of singular values.", "quantifier": "for all Markov parameters, real or complex, from a linear system or not, all numbers of states and of block rows and columns, all inputs, and all correct linear algebra libraries", "why_tests_cant": "Tests use Markov parameters of linear systems and as many states as the systems have; the bound is about all data and all truncations.", "anchors": ["modred/era.py:ERA.compute_model", "modred/era.py:ERA._assemble_Hankel", "modred/util.py:svd"]}
{"id": "C122", "title": "POD modes are found in data with errors, the better the larger their eigenvalues", "statement": "Let vectors be changed such that every linear combination with coefficients of length one changes by at most delta. Every POD mode of the unchanged vectors is a linear combination of the POD modes of the changed vectors, up to an error of length at most (b + delta) over the root of its eigenvalue, where b is the root of the largest eigenvalue that the tolerances given for the changed vectors may exclude. If only the first k modes of the changed vectors are used, b is the root of their next eigenvalue instead. This is true of both array methods and of handles, for all mode indices.", "quantifier": "for all vectors and changes, weights and inner products for which no vector has a negative squared length, tolerances of at least zero, which may differ between both computations, mode indices, numbers k, and all correct linear algebra libraries", "why_tests_cant": "Tests do not compare the modes of two data sets, whose signs, order and number may differ.", "anchors": ["modred/pod.py:compute_POD_arrays_snaps_method", "modred/pod.py:compute_POD_arrays_direct_method", "modred/pod.py:PODHandles.compute_decomp", "modred/pod.py:PODHandles.compute_modes"]}
{"id": "C123", "title": "Eigenvalues of vectors in two parts are at most sums of those of the parts", "statement": "If vectors are put into two parts, in any way, the POD eigenvalue of all vectors that follows the first k1 + k2 is at most the sum of the eigenvalues of the parts that follow the first k1 and the first k2; where a part has no such eigenvalue, what its tolerances may exclude takes its place. This is true of both array methods and of handles. The squares of the singular values of balanced POD of arrays obey the same if the columns of the Hankel array are those of two other computations, for instance for the direct vectors of different inputs.", "quantifier": "for all vectors and partitions, weights and inner products for which no vector has a negative squared length, tolerances of at least zero, which may differ between the computations (only absolute ones for balanced POD), numbers k1 and k2, and all correct linear algebra libraries", "why_tests_cant": "Tests do not compute POD of parts of the vectors, and the bounds relate three computations with sizes of all kinds.", "anchors": ["modred/pod.py:compute_POD_arrays_snaps_method", "modred/pod.py:compute_POD_arrays_direct_method", "modred/pod.py:PODHandles.compute_decomp", "modred/bpod.py:compute_BPOD_arrays"]}
{"id": "C124", "title": "Dynamic eigenvalues are growth rates of linear combinations of the vectors", "statement": "For each eigenvalue z that DMD or total-least-squares DMD returns (both array methods and handles, sequences and pairs), there is a linear combination x of the vectors, of length more than zero, such that the same combination y of the advanced vectors is z x plus a vector orthogonal to x. So if no linear combination of the vectors grows by more than a factor q, |z| is at most q; bounds of the real part of the inner products of x and y over all combinations bound the real part of z; and if the inner products of the vectors with the advanced vectors are symmetric, z is real. For data of a linear system, z is in the numerical range of the system, and |z| is at most one if the system does not increase the length of any vector. This holds for all truncations and also for repeated eigenvalues, and shows that DMD never reports growth that the data do not have.", "quantifier": "for all vectors, in the real or complex numbers, from a linear system or not, weights and inner products for which no vector has a negative squared length, tolerances of at least zero, maximal numbers of eigenvalues, and all correct linear algebra libraries", "why_tests_cant": "Tests compare eigenvalues with those of a given matrix; the bounds are about all data, truncations and inner products, with a linear combination that the code does not return.", "anchors": ["modred/dmd.py:compute_DMD_arrays_snaps_method", "modred/dmd.py:compute_DMD_arrays_direct_method", "modred/dmd.py:DMDHandles.compute_decomp", "modred/dmd.py:compute_TLSqrDMD_arrays_snaps_method", "modred/dmd.py:compute_TLSqrDMD_arrays_direct_method", "modred/dmd.py:TLSqrDMDHandles.compute_decomp"]}
{"id": "C125", "title": "Exchanging direct and adjoint vectors exchanges balanced modes and keeps singular values", "statement": "If direct and adjoint vectors given to BPODHandles or compute_BPOD_arrays are exchanged, so that the adjoint system is reduced in place of the system, the Hankel array is the conjugate transpose, as many modes are retained, and singular values are the same. Direct modes of any singular values are the adjoint modes of the other call and the reverse, up to the choices of singular vectors that the library makes; so are the projection coefficients and the oblique projections. For impulse responses of a system and of its adjoint, the second call completes without error whenever the first does.", "quantifier": "for all vectors for which the Hankel array is that of their inner products, in particular all impulse responses of linear systems and their adjoints in complete chunks, Hermitian weights or inner products, tolerances that are not negative, selections of modes, and correct decompositions by the library, which may differ between calls", "why_tests_cant": "Tests check that direct and adjoint modes of one call are biorthogonal; that the two are treated alike is a relation between two calls with decompositions of different arrays, whose singular vectors are not unique.", "anchors": ["modred/bpod.py:compute_BPOD_arrays", "modred/bpod.py:BPODHandles.compute_decomp", "modred/bpod.py:BPODHandles.compute_direct_modes", "modred/bpod.py:BPODHandles.compute_adjoint_modes"]}
{"id": "C126", "title": "Models of ERA of conjugate transposed Markov parameters are dual models", "statement": "If every Markov parameter is replaced by its conjugate transpose, which exchanges inputs and outputs, and mc and mo are exchanged, ERA.compute_model completes without error if and only if it did before, and the new model is the dual: A, B, C become the conjugate transposes of A, C, B of a model that ERA computes from the first data with a correct library. If the number of states does not separate equal singular values, every response of the new model is the conjugate transpose of that of the first model, whatever singular vectors the library returns in either call.", "quantifier": "for all Markov parameters, numbers of inputs and outputs, numbers of block rows and columns or their defaults, numbers of states, conversions of data that commute with conjugation, and, for the responses, models with at least one state and correct decompositions by the library, which may differ between calls", "why_tests_cant": "Tests compare a model with the system that produced the data; they never compare two calls with different shapes of data, whose singular vectors are not unique.", "anchors": ["modred/era.py:ERA.compute_model", "modred/era.py:ERA._assemble_Hankel", "modred/era.py:compute_ERA_model"]}
{"id": "C127", "title": "Predictions of dynamic modes grow no faster than the data", "statement": "If no linear combination of the vectors advances to one of more than q times its length, then what the modes predict for a vector after k steps, the sum of modes times powers k of the eigenvalues times the projection coefficients of the vector, has at most q^k times the length of that vector. This holds for projected modes and all k from 0, and for exact modes and all k from 1 if no eigenvalue is zero. With total least squares, whose projection can lengthen single vectors, the predictions for all vectors have together at most q^(2k) times the energy of the vectors.", "quantifier": "for all sequences of vectors and pairs of vectors, weights or inner products, tolerances, numbers of modes, numbers q, numbers of steps and correct libraries, whenever a call completes with distinct eigenvalues", "why_tests_cant": "Tests compare modes of a few random systems with formulas for one step; a bound for all numbers of steps and all data cannot be sampled, and it does not follow from bounds on the eigenvalues because modes need not be orthogonal.", "anchors": ["modred/dmd.py:compute_DMD_arrays_snaps_method", "modred/dmd.py:compute_DMD_arrays_direct_method", "modred/dmd.py:DMDHandles.compute_decomp", "modred/dmd.py:DMDHandles.compute_exact_modes", "modred/dmd.py:DMDHandles.compute_proj_modes", "modred/dmd.py:DMDHandles.compute_proj_coeffs", "modred/dmd.py:compute_TLSqrDMD_arrays_snaps_method", "modred/dmd.py:compute_TLSqrDMD_arrays_direct_method", "modred/dmd.py:TLSqrDMDHandles.compute_decomp", "modred/dmd.py:TLSqrDMDHandles.compute_proj_coeffs"]}
{"id": "C128", "title": "Dynamic modes keep the symmetry of the data", "statement": "If the inner products of the vectors with the advanced vectors are symmetric, all eigenvalues of DMD and total-least-squares DMD are real, the projected modes are orthogonal and of length one, and the adjoint modes are the projected modes. If the inner products are skew-symmetric, the eigenvalues are imaginary and the modes have the same properties. If the advanced vectors are linear combinations of the vectors with the same inner products, as for systems that keep all lengths, and no eigenvalue more than zero is left out, all eigenvalues have magnitude one and the modes have the same properties.", "quantifier": "for all sequences of vectors and pairs of vectors, real or complex, weights or inner products, tolerances, numbers of modes and correct libraries whose eigenvectors have length one, whenever a call completes with distinct eigenvalues", "why_tests_cant": "Tests use random data, which have no symmetry, and the modes are found with a solver for arrays without symmetry whose left and right eigenvectors are computed separately.", "anchors": ["modred/dmd.py:compute_DMD_arrays_snaps_method", "modred/dmd.py:compute_DMD_arrays_direct_method", "modred/dmd.py:DMDHandles.compute_proj_modes", "modred/dmd.py:DMDHandles.compute_adjoint_modes", "modred/dmd.py:compute_TLSqrDMD_arrays_snaps_method", "modred/dmd.py:compute_TLSqrDMD_arrays_direct_method", "modred/dmd.py:TLSqrDMDHandles.compute_decomp", "modred/util.py:eig_biorthog"]}
{"id": "C129", "title": "Galerkin projection of the adjoint system gives the dual model", "statement": "If basis and adjoint basis vectors are exchanged, the adjoint basis vectors advanced by the adjoint system are given, and inputs and the vectors that define outputs are exchanged, compute_model raises the same exception, or returns a model whose responses C A^k B are the conjugate transposes of those of the first model for every k. If the bases are biorthonormal or said to be orthonormal, its arrays are A^H, C^H and B^H.", "quantifier": "for all bases, inputs, outputs, advanced vectors, real or complex, weights or inner products, and earlier calls on the objects", "why_tests_cant": "Tests compute one model from one basis; they never compare the model of a system with that of its adjoint, nor its responses at all times.", "anchors": ["modred/ltigalerkinproj.py:LTIGalerkinProjectionArrays.compute_model", "modred/ltigalerkinproj.py:LTIGalerkinProjectionHandles.compute_model", "modred/ltigalerkinproj.py:LTIGalerkinProjectionArrays.reduce_A", "modred/ltigalerkinproj.py:LTIGalerkinProjectionArrays.reduce_B", "modred/ltigalerkinproj.py:LTIGalerkinProjectionArrays.reduce_C", "modred/ltigalerkinproj.py:LTIGalerkinProjectionHandles.reduce_A", "modred/ltigalerkinproj.py:LTIGalerkinProjectionHandles.reduce_B", "modred/ltigalerkinproj.py:LTIGalerkinProjectionHandles.reduce_C"]}
{"id": "C130", "title": "Balanced truncation of the adjoint system gives the dual model", "statement": "balanced_truncation of the adjoint system (A^T, C^T, B^T) returns the same singular values as of (A, B, C), whatever the Lyapunov solver returns; if the order does not separate equal singular values, the impulse response of its model is the transpose of that of the model of (A, B, C) at all times.", "quantifier": "for all real systems, orders, results of the Lyapunov solver, and correct SVD libraries", "why_tests_cant": "Tests compare the singular values and the response of one model with those computed in another way for a few random systems; they never truncate the adjoint system, and cannot vary the library.", "anchors": ["modred/util.py:balanced_truncation"]}
{"id": "C131", "title": "Balanced truncation does not depend on the coordinates of states, inputs and outputs", "statement": "balanced_truncation of a system in other coordinates of the state, with inputs and outputs permuted, rotated, changed in sign, or joined by inputs and outputs that do nothing, returns the same singular values, and, if the order does not separate equal singular values, a model with the same impulse response in terms of these inputs and outputs, at all times; provided that the Lyapunov equations it solves have unique, positive semidefinite solutions, and that no nonzero singular value of these is below the tolerance in either coordinates.", "quantifier": "for all real systems, invertible changes of states, changes of inputs and outputs that keep lengths, orders, correct Lyapunov solvers and correct SVD libraries", "why_tests_cant": "Tests truncate random systems in the coordinates they come in; they never compare two coordinates, and cannot vary the library.", "anchors": ["modred/util.py:balanced_truncation"]}
{"id": "C132", "title": "Galerkin projection depends only on the spaces that the bases span", "statement": "If the basis vectors, and the adjoint basis vectors if given, are replaced by other bases of the same spaces, and the advanced basis vectors and the outputs for the basis vectors accordingly, compute_model raises the same exception, or returns the same model for other states: with S the coefficients of the new basis vectors, S A' = A S, S B' = B and C' = C S, so that all responses C A^k B are the same. With is_basis_orthonormal=True this holds if the change keeps biorthonormal bases biorthonormal.", "quantifier": "for all bases and invertible changes of them, with or without adjoint basis vectors, inputs, outputs, advanced vectors, real or complex, weights or inner products, and earlier calls on the objects", "why_tests_cant": "Tests compute one model from one basis; they never change the basis of the same space, nor compare responses at all times.", "anchors": ["modred/ltigalerkinproj.py:LTIGalerkinProjectionArrays.compute_model", "modred/ltigalerkinproj.py:LTIGalerkinProjectionHandles.compute_model", "modred/ltigalerkinproj.py:LTIGalerkinProjectionArrays.reduce_A", "modred/ltigalerkinproj.py:LTIGalerkinProjectionArrays.reduce_B"]}
{"id": "C133", "title": "Dynamic modes of time derivatives are those of the advanced vectors", "statement": "If the advanced vectors y of the vectors x are replaced by a x + b y with b nonzero, such as the time derivatives (y - x) / dt, then dynamic mode decomposition with the same tolerances and number of vectors returns as many eigenvalues, which are a + b z for the eigenvalues z in some order, and the same projected modes up to nonzero factors, with adjoint modes divided by the conjugate factors. Exact modes times their eigenvalues, if these are not zero, are the same factors times a times the projected modes plus b times the earlier exact modes times their eigenvalues.", "quantifier": "for all vectors, advanced vectors, coefficients a and nonzero b, tolerances, limits on the number of modes, weights or inner products, whenever both results have distinct eigenvalues", "why_tests_cant": "Tests give advanced vectors only and never compare them with time derivatives or other combinations of the same data.", "anchors": ["modred/dmd.py:compute_DMD_arrays_snaps_method", "modred/dmd.py:compute_DMD_arrays_direct_method", "modred/dmd.py:DMDHandles.compute_decomp", "modred/dmd.py:DMDHandles.compute_exact_modes", "modred/dmd.py:DMDHandles.compute_proj_modes", "modred/dmd.py:DMDHandles.compute_adjoint_modes"]}
{"id": "C134", "title": "Galerkin projection reproduces the first responses", "statement": "If the basis vectors span the first K vectors B, A B, A^2 B, ... that the system makes of its inputs, and the inner products with the adjoint basis vectors give the first L outputs C, C A, C A^2, ..., then compute_model returns a model whose first K + L responses C A^k B are those of the system. So with bases of spaces that the system does not leave all responses are those of the system.", "quantifier": "for all linear systems, numbers K and L, bases whose inner products can be inverted (or biorthonormal ones with is_basis_orthonormal=True), with or without adjoint basis vectors, inputs, outputs, real or complex, weights or inner products, and earlier calls on the objects", "why_tests_cant": "Tests compare the arrays of one model with the same formula in numpy; they never compare responses of the model with responses of the system.", "anchors": ["modred/ltigalerkinproj.py:LTIGalerkinProjectionArrays.compute_model", "modred/ltigalerkinproj.py:LTIGalerkinProjectionHandles.compute_model", "modred/ltigalerkinproj.py:LTIGalerkinProjectionArrays.reduce_A", "modred/ltigalerkinproj.py:LTIGalerkinProjectionArrays.reduce_B", "modred/ltigalerkinproj.py:LTIGalerkinProjectionArrays.reduce_C"]}
{"id": "C135", "title": "Whatever grows at one rate in data of a linear system is found by dynamic mode decomposition", "statement": "If the vectors are those of a linear system A and no direction is dropped, then each nonzero linear combination x of the vectors with A x = z x is found: z is one of the eigenvalues returned and x is a multiple of the projected mode with this eigenvalue; if z is not zero, the exact mode is the same as the projected mode. The advanced vectors need not be linear combinations of the vectors, and other eigenvalues may be zero.", "quantifier": "for all linear systems, vectors, tolerances and limits that drop no direction, weights or inner products, sequences and pairs, both array methods and handles, whenever the eigenvalues returned are distinct", "why_tests_cant": "Tests use data whose span the system maps to itself; they never look for single eigenvectors of the system in data that leave their span.", "anchors": ["modred/dmd.py:compute_DMD_arrays_snaps_method", "modred/dmd.py:compute_DMD_arrays_direct_method", "modred/dmd.py:DMDHandles.compute_decomp", "modred/dmd.py:DMDHandles.compute_exact_modes", "modred/dmd.py:DMDHandles.compute_proj_modes"]}
{"id": "C136", "title": "Reducing a model again by Galerkin projection is reducing the system", "statement": "If compute_model reduces a system to a model, and another object reduces this model again with bases of the space of its states, what is returned or raised is what compute_model returns or raises for the system itself with the linear combinations of the first basis vectors with the second as coefficients, and adjoint basis vectors combined accordingly after undoing the inner products of the first bases.", "quantifier": "for all systems, first bases whose inner products can be inverted (or biorthonormal ones with is_basis_orthonormal=True), second bases of any number of vectors with any flag, with or without adjoint basis vectors, real or complex, weights or inner products, and earlier calls on all objects; the first reduction with arrays or handles", "why_tests_cant": "Tests reduce each system once and never use a reduced model as a system.", "anchors": ["modred/ltigalerkinproj.py:LTIGalerkinProjectionArrays.compute_model", "modred/ltigalerkinproj.py:LTIGalerkinProjectionHandles.compute_model"]}
{"id": "C137", "title": "Dynamic modes are the modes of the Galerkin model for POD modes", "statement": "If the vectors are advanced by a linear map, compute_POD_arrays_snaps_method returns modes for the vectors whenever compute_DMD_arrays_snaps_method does with the same tolerances, and as many. The array A that compute_model of the Galerkin projection returns for these POD modes and their images has exactly the eigenvalues returned by DMD, the projected DMD modes are the POD modes combined with its right eigenvectors, and the adjoint modes those combined with its left eigenvectors. The same holds for the direct methods of POD and DMD, and for PODHandles, DMDHandles and LTIGalerkinProjectionHandles.", "quantifier": "for all linear maps and vectors they advance, given as pairs or a sequence, real or complex, weights or inner products that are Hermitian (for the direct methods positive definite), non-negative tolerances, distinct eigenvalues, max_num_eigvals=None, any mode indices, and is_basis_orthonormal either way; input and output arrays of the system arbitrary, and any earlier calls on the projection object; with handles rtol=None for PODHandles, because DMDHandles does not use rtol, and at least one mode", "why_tests_cant": "Tests check POD, DMD and Galerkin projection each against their own formulas and never compare the results of one with those of another.", "anchors": ["modred/dmd.py:compute_DMD_arrays_snaps_method", "modred/pod.py:compute_POD_arrays_snaps_method", "modred/ltigalerkinproj.py:LTIGalerkinProjectionArrays.compute_model", "modred/dmd.py:DMDHandles.compute_decomp", "modred/pod.py:PODHandles.compute_modes", "modred/ltigalerkinproj.py:LTIGalerkinProjectionHandles.compute_model", "modred/dmd.py:compute_DMD_arrays_direct_method", "modred/pod.py:compute_POD_arrays_direct_method"]}
{"id": "C138", "title": "Balanced POD of self-adjoint systems is POD", "statement": "compute_BPOD_arrays and BPODHandles with the same vectors as direct and adjoint vectors, either all of one time step or the impulse response of a self-adjoint system whose outputs are its inputs, give direct and adjoint modes that are chosen from the same modes. These are POD modes of the vectors: orthonormal eigenvectors of the sum of the projections onto the vectors, with the singular values as eigenvalues. For arrays, every eigenvector with an eigenvalue above the tolerances is a linear combination of the modes. Both arrays of projection coefficients are the same; for arrays they are the inner products of the modes with the vectors.", "quantifier": "for all vectors, or all systems self-adjoint in the inner product with any inputs and number of steps, real or complex, positive semidefinite weights or inner products, non-negative tolerances, and mode indices", "why_tests_cant": "Tests use direct and adjoint vectors that differ, and never compare balanced modes with POD modes.", "anchors": ["modred/bpod.py:compute_BPOD_arrays", "modred/bpod.py:BPODHandles.compute_decomp", "modred/bpod.py:BPODHandles.compute_direct_modes"]}
{"id": "C139", "title": "ERA models of symmetric systems are symmetric", "statement": "If the Markov parameters given to ERA.compute_model are Hermitian, mc equals mo (or is left out with it) and the quadratic form of the Hankel array has no negative values, the model returned has a Hermitian A and C is the conjugate transpose of B. This holds whenever the Markov parameters are those of a system with Hermitian A and C the conjugate transpose of B. Hermitian Markov parameters alone do not suffice: for the opposite of a decaying response the model is never symmetric.", "quantifier": "for all symmetric systems with any number of states, inputs and blocks, any sampling step and number of model states, real or complex, and any singular value decompositions", "why_tests_cant": "Tests of ERA use random systems without symmetry and compare Markov parameters only, never the structure of A, B and C.", "anchors": ["modred/era.py:compute_ERA_model", "modred/era.py:ERA.compute_model", "modred/era.py:ERA._assemble_Hankel"]}
