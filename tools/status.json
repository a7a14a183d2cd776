{
 "C01": [
  "proved",
  "Weights in any ordered field, any number of workers and tasks."
 ],
 "C02": [
  "proved",
  ""
 ],
 "C03": [
  "partial",
  "The claim is false for the code: two concrete violations are proved.  What does hold is proved in the _partial theorems."
 ],
 "C04": [
  "proved",
  "Over every interleaving, with buffered or synchronous sends.  The MPI library's bcast is modelled as sends from rank 0."
 ],
 "C05": [
  "proved",
  "Over every interleaving."
 ],
 "C06": [
  "proved",
  ""
 ],
 "C07": [
  "proved",
  "Over every interleaving.  For products of one type; see C51 for mixed types."
 ],
 "C08": [
  "proved",
  "Over every interleaving."
 ],
 "C09": [
  "proved",
  "Over every interleaving.  Vectors are values, so sums do not overwrite basis vectors; see C10 for shared storage."
 ],
 "C10": [
  "partial",
  "violated for more than one round of sums; proved for storage apart and for one round, for one process and for all interleavings of several"
 ],
 "C11": [
  "proved",
  ""
 ],
 "C12": [
  "proved",
  ""
 ],
 "C49": [
  "partial",
  "Proved when the function returns.  If it raises on rank 0 the other ranks block for ever; this is proved as a violation."
 ],
 "C50": [
  "proved",
  "Host names are byte strings that are not empty and do not start with a zero byte."
 ],
 "C51": [
  "partial",
  "The claim is false for the code: a concrete violation is proved.  What does hold is proved in the _partial theorem."
 ],
 "C13": [
  "partial",
  "The claim is false for the code: four concrete violations are proved.  The _partial theorems hold for all histories in which no base changes and equal bases agree."
 ],
 "C14": [
  "proved",
  "Numbers printed and read back are the same (exact decimal text)."
 ],
 "C15": [
  "partial",
  "The claim is false for the code: proved for every 64-bit integer except zero.  Zeros come back right."
 ],
 "C16": [
  "partial",
  "The claim is false for the code: concrete violations are proved.  What does hold is proved in the other theorems."
 ],
 "C17": [
  "proved",
  ""
 ],
 "C18": [
  "proved",
  ""
 ],
 "C39": [
  "proved",
  "Over every interleaving of the processes."
 ],
 "C40": [
  "proved",
  "Any number of dimensions, exact arithmetic."
 ],
 "C43": [
  "partial",
  "The claim is false for the empty extension (proved); it is proved for every other one."
 ],
 "C47": [
  "proved",
  ""
 ],
 "C52": [
  "partial",
  "The claim is false for the code: a violation is proved.  It is proved for real arrays."
 ],
 "C53": [
  "partial",
  "The strict claim is false for the code (violation proved: one vector more during an exchange).  The bound on the variables is proved at every moment of every interleaving.  Temporary products basis_vec * coeff are not counted."
 ],
 "C32": [
  "partial",
  "Interleaving and error cases are proved.  The tolerance is absolute, so unequal steps that are small are accepted (proved as a violation)."
 ],
 "C33": [
  "proved",
  "Exact arithmetic; real data (see C54 for complex data)."
 ],
 "C34": [
  "partial",
  "The claim is false for the code: violations are proved for all sizes.  Exactly which choices work is proved as well."
 ],
 "C35": [
  "partial",
  "The claim is false for the code: constructor arguments never have an effect (proved).  Arguments of compute_model are used."
 ],
 "C54": [
  "partial",
  "The claim is false for the code (proved for every array with a nonzero imaginary part).  For real data see C32 and C33."
 ],
 "C19": [
  "proved",
  ""
 ],
 "C20": [
  "partial",
  "Positivity is proved for any nonnegative atol; for atol=None it is false for the code, and the violations are proved."
 ],
 "C21": [
  "proved",
  ""
 ],
 "C22": [
  "proved",
  ""
 ],
 "C23": [
  "proved",
  ""
 ],
 "C45": [
  "partial",
  "Proved for all weights except those with a single entry, which the code refuses (violation proved)."
 ],
 "C55": [
  "partial",
  "The claim is false for the code (violation proved); the meaning of the tolerances in the direct method is proved."
 ],
 "C56": [
  "proved",
  ""
 ],
 "C24": [
  "proved",
  ""
 ],
 "C25": [
  "partial",
  "Proved for arrays, and for handles if the adjoint vectors fill complete chunks; fails for handles otherwise (violation proved)."
 ],
 "C36": [
  "partial",
  "Proved if the nonzero singular values exceed the fixed tolerance 1e-13; fails otherwise (violation proved)."
 ],
 "C38": [
  "proved",
  ""
 ],
 "C57": [
  "proved",
  ""
 ],
 "C26": [
  "proved",
  "Arrays and handles, sequences and pairs of vectors.  The library may return any eigenvectors; eigenvalues of the reduced map are distinct and not zero as in the claim.  C26_invariance_needed_violation shows that the assumption on A cannot be dropped."
 ],
 "C27": [
  "proved",
  "Arrays and handles.  Agreement of the two methods is for arrays, when both retain the same number of eigenvalues."
 ],
 "C28": [
  "partial",
  "The claim is false for the code: concrete violations are proved for DMDHandles and TLSqrDMDHandles, for every library.  What does hold is proved in the _partial theorems; on arrays DMD honours the relative tolerance."
 ],
 "C29": [
  "partial",
  "The claim is false for the code: concrete violations are proved for DMDHandles and TLSqrDMDHandles.  What does hold, for every history of calls, is proved in the _partial theorems and in the theorems for pairs and for the other results."
 ],
 "C30": [
  "partial",
  "The claim is false for the code: C30_violation gives complex data.  It is proved for the direct method, for handles and for the snapshot method with real data."
 ],
 "C31": [
  "proved",
  "Arrays (both methods) and handles, sequences and pairs of vectors."
 ],
 "C58": [
  "partial",
  "The claim is false for the code: C58_violation.  It is proved for the direct method and for the first eigendecomposition of the snapshot method."
 ],
 "C59": [
  "proved",
  ""
 ],
 "C37": [
  "proved",
  "Real signals, exact arithmetic; numpy.linalg.lstsq may be any function that returns the least-squares solution of least norm, without its cut-off for small singular values."
 ],
 "C41": [
  "proved",
  "real systems; scipy.signal.dlsim and dimpulse are modelled by the recursion they run; shapes of A, B, C fit"
 ],
 "C42": [
  "partial",
  "negation proved for the discrete-time claim: for every library the wrong state is kept (C42_violation), and the equation can be unsolvable; structure, full-order equivalence and balancing of the continuous-time solutions proved for real systems; and a stable system can get an unstable model, for every library (C42_unstable_violation); for complex systems the transpose without conjugates can change the impulse response at full order (C42_complex_violation)"
 ],
 "C48": [
  "proved",
  "exact arithmetic; random numbers are parameters"
 ],
 "C46": [
  "partial",
  "Proved: exactly what is checked, every genuine inner product space is accepted, wrong doubles and in-place multiplication or addition of a large enough vector are refused. Negation proved for changes in place that keep the norm, and for small vectors because the tolerance is absolute."
 ],
 "C44": [
  "partial",
  "Proved for POD and BPOD with real data and two or more values, for DMD and total-least-squares DMD with places that return arrays exactly. Negation proved for one value, for complex eigenvectors in text files, and for every DMD decomposition in text files."
 ],
 "C60": [
  "partial",
  "Proved for all histories that keep the vectors, for computed, precomputed and loaded decompositions, with the exceptions raised. Negation proved for coefficients kept after a new decomposition and for modes after a failed one."
 ],
 "C61": [
  "proved",
  "exact arithmetic; one singular value decomposition routine used by all"
 ],
 "C62": [
  "proved",
  "exact arithmetic; real data; nonzero singular values of the Hankel array are above 1e-13"
 ],
 "C63": [
  "partial",
  "violated for not-a-number, and for weights that are different arrays with the same inner products"
 ],
 "C64": [
  "proved",
  "addition and multiplication of the subclass are those of a module over a ring"
 ],
 "C65": [
  "proved",
  "each get and put of one vector or array is atomic; of all places of a call, those of sums are apart from those of basis vectors or all sums fit into one round"
 ],
 "C66": [
  "partial",
  "violated in text files for one-dimensional and for complex arrays; proved otherwise"
 ],
 "C67": [
  "proved",
  ""
 ],
 "C68": [
  "proved",
  ""
 ],
 "C69": [
  "partial",
  "VIOLATION (proved): for degree zero, whose polynomial has no zeros, herroots returns one node; proved for all degrees from one on"
 ],
 "C70": [
  "proved",
  ""
 ],
 "C71": [
  "proved",
  ""
 ],
 "C72": [
  "proved",
  ""
 ],
 "C73": [
  "proved",
  ""
 ],
 "C74": [
  "proved",
  ""
 ],
 "C75": [
  "partial",
  "The code violates this in compute_symm_inner_product_array: the number in its warning is wrong for all vectors but those of the last chunk (C75_symmetric_warning_violation), and entries below the diagonal are computed, sometimes in addition to their mirror images (C75_upper_triangle_violation). Proved for everything else; for the symmetric array the exact number of retrievals, and that no entry is computed twice and of two mirrored ones at least one."
 ],
 "C76": [
  "partial",
  "The code violates this: the number of gets in all three estimates can be larger than the real one (C76_inner_product_estimate_violation, C76_symmetric_estimate_violation, C76_lin_combine_estimate_violation). Proved for the inner products, multiplications and additions alone."
 ],
 "C77": [
  "proved",
  "With an adjoint basis it need not hold (C77_adjoint_basis_counterexample)."
 ],
 "C78": [
  "partial",
  "The code violates the claim for weights: a task whose weight is lost by rounding in the sum is assigned to nobody (C78_small_weight_task_lost_violation). Proved for no weights, for the loop counts and limits, and for weights whose last one is at least 2^-52 of their sum."
 ],
 "C79": [
  "partial",
  "The code violates the claim for lin_combine: the order of additions depends on the number of processes and on the rank, so results differ (C79_lin_combine_processes_violation, C79_lin_combine_equal_columns_violation). Proved for both inner product arrays in any arithmetic; for lin_combine the order of additions is determined, the rounding error is bounded, and sums of integers are shown to be exact."
 ],
 "C80": [
  "proved",
  "Each rank works with its own object and a common store of vectors. A rank goes on after an exception in the model; the theorems show that no exception is raised if one process raises none."
 ],
 "C81": [
  "proved",
  "Exact arithmetic; the library's eigendecomposition and SVD are assumed correct. The bound from rtol is in terms of the values that the library returns."
 ],
 "C82": [
  "proved",
  "Exact arithmetic. Custom vectors with data of different shapes are not modelled; files keep what is written. Vectors on different grids: sums and inner products depend on the order (C82_custom_different_grids)."
 ],
 "C83": [
  "partial",
  "Violated by the code: C83_error_violation, C83_quadrature_violation, C83_hankel_violation. What holds is C83_num_modes_partial, C83_left_out_partial and C83_no_singular_values_partial."
 ],
 "C84": [
  "partial",
  "Violated by the code: C84_others_wait_violation, C84_some_sums_written_violation. What holds is in the other theorems. Work that raises is taken to have changed nothing in the store."
 ],
 "C85": [
  "proved",
  "Under the hypothesis that the inner product is conjugate symmetric."
 ],
 "C86": [
  "proved",
  "For saving and loading functions that do not raise; for those that do see C87."
 ],
 "C87": [
  "partial",
  "All processes raise where every process does the work; where only rank 0 does it, the others wait for ever (violations proved)."
 ],
 "C88": [
  "partial",
  "Positive part for classes that meet a stated list of conditions; the conditions in the guide are not enough (three violations proved)."
 ],
 "C89": [
  "partial",
  "Proved on one process; on several the handles stay empty on all processes but one (violation proved)."
 ],
 "C90": [
  "partial",
  "Proved for projected modes, and for exact modes if the advanced data are combinations of the data; violated for exact modes in general (counterexample proved)."
 ],
 "C91": [
  "proved",
  "For total-least-squares DMD the bounds are for the projected vectors."
 ],
 "C92": [
  "proved",
  ""
 ],
 "C93": [
  "proved",
  "For the direct methods, which decompose the data themselves: without max_num_eigvals, and eigenvalues and modes agree where decompositions determine them. C106 makes a tolerance of max_num_eigvals where the eigenvalues are separated."
 ],
 "C94": [
  "partial",
  "Proved if the absolute tolerance is changed with the units; with the default tolerance the number of modes depends on units (C94_default_tolerance_has_units_violation)."
 ],
 "C95": [
  "partial",
  "Proved without max_num_eigvals, and so by C106 also with it, unless it leaves out some of the eigenvectors with the same eigenvalue of the correlation array; then even the eigenvalues depend on the choice of the library (C95_truncation_violation)."
 ],
 "C96": [
  "proved",
  ""
 ],
 "C97": [
  "proved",
  ""
 ],
 "C98": [
  "partial",
  "Proved if the number of states does not separate equal singular values and the tolerance of util.svd keeps as many singular values in both units. Both conditions are needed: C98_equal_values_violation has two correct libraries whose models with one state differ, and C98_units_violation has data whose model in other units has no state, because ERA uses the fixed absolute tolerance 1e-13."
 ],
 "C99": [
  "partial",
  "Proved for inner products if the processes divide the rows equally (so always for one process), for symmetric arrays in one process, and for lin_combine with one basis vector in one process. For symmetric arrays with several processes the percentages never go down, but are only bounded by 100 times the number of processes. C99_parallel_violation prints 200%; C99_symmetric_parallel_violation prints 133%; C99_zero_violation prints 0% after everything is done, because zero inner products are taken for missing ones; C99_lin_combine_violation prints 0, 50, 0, 50."
 ],
 "C100": [
  "partial",
  "Proved for any order and any orthogonal change of coordinates, and for any change of coordinates if inputs and delayed inputs and outputs are linearly independent. Otherwise C100_units_violation: the least-squares solution of least norm is taken, and the norm mixes inputs and outputs, so that units matter."
 ],
 "C101": [
  "partial",
  "Proved if the tolerances of the method of snapshots are the squares of those of the direct method, and for DMD with distinct eigenvalues and max_num_eigvals, if given, between eigenvalues that differ; for total-least-squares DMD also without a relative tolerance, which the projection uses twice (C58). With the same tolerances, which are the defaults, the methods keep different numbers of modes: C55_methods_differ_violation for POD and C101_dmd_tolerance_violation for DMD. Handles agree exactly with arrays; for DMDHandles and TLSqrDMDHandles only without a relative tolerance, which the classes ignore (see C28), and the spectral coefficients of total-least-squares DMD for real data only (for complex data see C30)."
 ],
 "C102": [
  "proved",
  "Vectors and advanced vectors in units of different size are another problem: the projection weighs both together."
 ],
 "C103": [
  "partial",
  "Proved except for print_from_rank_zero, which ignores output_channel: C103_from_rank_zero_violation writes a message for standard error to standard output and accepts any name. Names of channels are ASCII."
 ],
 "C104": [
  "partial",
  "Proved for get, in the histories of C13. For put it is proved for exceptions before the file is opened. Exceptions while a file is written destroy the vector that was there: C104_put_destroys_pickle_violation (objects that cannot be pickled) and C104_put_destroys_text_violation (arrays without dimensions, which np.savetxt refuses after opening the file)."
 ],
 "C105": [
  "proved",
  "Exact arithmetic. C105_short_arrays_violation shows that the impulse response must have died out within the blocks: otherwise the model of a stable system can be unstable."
 ],
 "C106": [
  "proved",
  "If eigenvalues are equal and max_num_eigvals cuts between them there is no such tolerance, and the result depends on the library: C95_truncation_violation."
 ],
 "C107": [
  "proved",
  "Eigenvalues of DMD are assumed distinct, as in C26. That eigh, svd and cholesky return real arrays for real arrays is assumed of the library."
 ],
 "C108": [
  "partial",
  "Proved for the functions of the vector space, for PODHandles, for the modes of BPODHandles and for exact modes of DMDHandles. The code violates it in BPODHandles.compute_decomp and in DMDHandles.compute_decomp, compute_proj_modes and compute_adjoint_modes; the negations are proved."
 ],
 "C109": [
  "proved",
  ""
 ],
 "C110": [
  "proved",
  "The limit for bases that are not biorthonormal is C110_needs_biorthonormal."
 ],
 "C111": [
  "proved",
  ""
 ],
 "C112": [
  "partial",
  "InnerProductBlock gives its array the type of the first inner product, so fractions can be lost, and raises IndexError for empty lists (C112_block_violation); exact for inner products of one type (C112_block_exact_partial). Everything about sum_arrays and get_data_members is proved."
 ],
 "C113": [
  "proved",
  ""
 ],
 "C114": [
  "proved",
  ""
 ],
 "C115": [
  "proved",
  ""
 ],
 "C116": [
  "proved",
  ""
 ],
 "C117": [
  "proved",
  ""
 ],
 "C118": [
  "proved",
  ""
 ],
 "C119": [
  "proved",
  ""
 ],
 "C120": [
  "proved",
  ""
 ],
 "C121": [
  "proved",
  ""
 ],
 "C122": [
  "proved",
  ""
 ],
 "C123": [
  "proved",
  ""
 ],
 "C124": [
  "proved",
  ""
 ],
 "C125": [
  "proved",
  ""
 ],
 "C126": [
  "proved",
  ""
 ],
 "C127": [
  "proved",
  ""
 ],
 "C128": [
  "proved",
  ""
 ],
 "C129": [
  "proved",
  ""
 ],
 "C130": [
  "proved",
  ""
 ],
 "C131": [
  "proved",
  ""
 ],
 "C132": [
  "proved",
  ""
 ],
 "C133": [
  "proved",
  ""
 ],
 "C134": [
  "proved",
  ""
 ],
 "C135": [
  "proved",
  ""
 ],
 "C136": [
  "proved",
  ""
 ],
 "C137": [
  "proved",
  ""
 ],
 "C138": [
  "proved",
  ""
 ],
 "C139": [
  "proved",
  ""
 ]
}