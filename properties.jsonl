{"id": "C01", "title": "Modular arithmetic is exact and balanced", "statement": "For a field made by spasm_field_init(p), the functions spasm_ZZp_init, _add, _sub, _mul and _axpy, given operands of absolute value at most p/2 (init: any i64), return the unique representative of the exact result modulo p in the balanced interval [p/2-p+1, p/2]; no i64 operation overflows and the floating point quotient estimate is always converted to an in-range integer.", "quantifier": "every modulus 2 <= p <= 0xfffffffb, every operand, every IEEE-754 double rounding of the quotient within half an ulp (with or without fused multiply-add)", "why_tests_cant": "The quotient is computed in floating point and corrected by at most one multiple of p; whether one correction is enough depends on the rounding error over about 2^96 operand/modulus triples.", "anchors": ["src/spasm_ZZp.c: spasm_field_init, NORMALISE, spasm_ZZp_init, spasm_ZZp_add, spasm_ZZp_sub, spasm_ZZp_mul, spasm_ZZp_axpy"]}
{"id": "C02", "title": "Modular inverse", "statement": "spasm_ZZp_inverse(F, a) terminates without overflow for every balanced a, and if p is prime and a is not 0 then the result is balanced and a times the result is 1 modulo p.", "quantifier": "every prime p <= 0xfffffffb and every nonzero balanced a", "why_tests_cant": "Extended Euclid over billions of (a, p); coefficient growth and sign must be bounded for all of them.", "anchors": ["src/spasm_ZZp.c: gcdext, spasm_ZZp_inverse"]}
{"id": "C03", "title": "Scatter and sparse matrix-vector products", "statement": "spasm_scatter adds beta times row i to a dense vector; spasm_xApy adds x*A to y and spasm_Axpy adds A*x to y, exactly modulo p, entry by entry, also when a row has repeated column indices; every stored value stays balanced and no access is out of bounds.", "quantifier": "every well-formed CSR matrix, every vector of balanced values, every prime", "why_tests_cant": "A linear-algebra identity over all matrices, including duplicates and empty rows.", "anchors": ["src/spasm_scatter.c: spasm_scatter", "src/spasm_spmv.c: spasm_xApy, spasm_Axpy"]}
{"id": "C04", "title": "Transpose", "statement": "spasm_transpose(A, keep) returns a well-formed m x n CSR matrix equal to the transpose of A (same multiset of (row, column, value) entries, mirrored), with column indices of every row in nondecreasing order; values are kept iff asked for and present; transposing twice gives the same matrix.", "quantifier": "every well-formed CSR matrix, with or without values", "why_tests_cant": "Bucket-sort with in-place cursors: correctness for all shapes and entry distributions is an inductive invariant.", "anchors": ["src/spasm_transpose.c: spasm_transpose"]}
{"id": "C05", "title": "Permutation vectors", "statement": "For p a permutation of 0..n-1: spasm_pinv gives the inverse permutation, spasm_pvec gives x[k]=b[p[k]], spasm_ipvec gives x[p[k]]=b[k], the two undo each other, and NULL behaves as the identity. spasm_range_pvec permutes x[a..b) by p and leaves the rest of x unchanged.", "quantifier": "every n, every permutation, every vector, every range", "why_tests_cant": "n! permutations for each n.", "anchors": ["src/spasm_permutation.c: spasm_pvec, spasm_ipvec, spasm_pinv, spasm_range_pvec"]}
{"id": "C06", "title": "Row and column permutation of a matrix", "statement": "spasm_permute(A, p, qinv, values) returns a well-formed matrix C with C[i, qinv[j]] = A[p[i], j], same number of entries, NULL meaning identity.", "quantifier": "every well-formed matrix and every pair of permutations, with or without values", "why_tests_cant": "All matrices and permutations.", "anchors": ["src/spasm_permutation.c: spasm_permute"]}
{"id": "C07", "title": "Random permutation is a permutation", "statement": "spasm_random_permutation(n) returns a permutation of 0..n-1 whatever rand() returns, without invalid access.", "quantifier": "every n and every sequence of results of rand()", "why_tests_cant": "The random source is unbounded; tests see one sequence.", "anchors": ["src/spasm_permutation.c: spasm_random_permutation"]}
{"id": "C08", "title": "Submatrix extraction", "statement": "spasm_submatrix(A, r0, r1, c0, c1, v) returns a well-formed matrix equal to A[r0:r1, c0:c1], with no out-of-bounds access, for every 0<=r0,r1<=n and 0<=c0,c1<=m (empty when a range is reversed).", "quantifier": "every well-formed matrix and every pair of ranges", "why_tests_cant": "All matrices and ranges, including reversed and empty ones.", "anchors": ["src/spasm_submatrix.c: spasm_submatrix"]}
{"id": "C09", "title": "Building a triplet matrix", "statement": "A sequence of spasm_add_entry calls yields a triplet matrix whose sum of entries at (i,j) is, modulo p, the sum of all the x added there; every index is inside the current dimensions; capacity growth never loses an entry; spasm_triplet_transpose mirrors it.", "quantifier": "every sequence of calls, every initial capacity, every i64 value", "why_tests_cant": "Unbounded histories of calls interleaved with reallocation.", "anchors": ["src/spasm_triplet.c: spasm_add_entry, spasm_triplet_transpose", "src/spasm_util.c: spasm_triplet_realloc"]}
{"id": "C10", "title": "Triplet to CSR compression", "statement": "spasm_compress(T) returns a well-formed CSR matrix, with no repeated column in a row and no explicit zero, representing the same matrix as T (duplicates summed modulo p).", "quantifier": "every triplet matrix with in-range indices, including repeated positions and repetitions that cancel", "why_tests_cant": "Depends on the arrangement of duplicates and cancellations across all rows.", "anchors": ["src/spasm_triplet.c: spasm_compress, deduplicate, remove_explicit_zeroes"]}
{"id": "C11", "title": "Reallocation and resizing keep the matrix", "statement": "spasm_csr_realloc to any size at least the number of entries (or -1) and spasm_csr_resize to at least the current dimensions leave the represented matrix unchanged (new rows are empty) and the result well-formed.", "quantifier": "every matrix and every target size", "why_tests_cant": "All sizes; loops over row pointers around the old end.", "anchors": ["src/spasm_util.c: spasm_csr_realloc, spasm_csr_resize"]}
{"id": "C12", "title": "Depth-first search and reachability", "statement": "spasm_reach returns top such that xj[top..m) lists, without repetition, exactly the columns reachable from the columns of row k of B by following (column j -> row qinv[j] -> columns of this row); it terminates, never accesses out of bounds, and leaves the mark array all zero again.", "quantifier": "every well-formed A, B, every pivot map qinv with values in range, every row, every initial content of the stack workspaces", "why_tests_cant": "Graph search over arbitrary graphs with the stack and output sharing one array.", "anchors": ["src/spasm_reach.c: spasm_dfs, spasm_reach"]}
{"id": "C13", "title": "Reach order is topological", "statement": "When the pivot map has no cycle other than a pivot's own column, the list produced by spasm_reach is a topological order: a column appears before all the other columns of its pivot row.", "quantifier": "every well-formed matrix and every acyclic pivot map", "why_tests_cant": "All acyclic graphs; order is what makes the triangular solve right.", "anchors": ["src/spasm_reach.c: spasm_dfs, spasm_reach"]}
{"id": "C14", "title": "Sparse triangular solve", "statement": "spasm_sparse_triangular_solve(U, B, k, xj, x, qinv) with unit pivots and triangular pivot structure returns x (zero outside the pattern xj[top..m)) with sum over pivotal j of x[j]*U[qinv[j]] plus sum over non-pivotal j of x[j]*e_j equal to B[k]; assertions inside never fail; stale contents of x do not matter; the workspace is left reusable for the next call.", "quantifier": "every such U, qinv, B, k, and every initial content of x", "why_tests_cant": "All sparse systems; depends on the topological order and on stale memory.", "anchors": ["src/spasm_triangular.c: spasm_sparse_triangular_solve", "src/spasm_scatter.c"]}
{"id": "C15", "title": "Dense triangular solves", "statement": "spasm_dense_back_solve returns x with x*L = b for a permuted lower-triangular L with nonzero diagonal; spasm_dense_forward_solve returns true iff x*U = b is solvable, for U in permuted unit upper-triangular order, and then x is the solution; assertions never fail.", "quantifier": "every such L, U, every right-hand side", "why_tests_cant": "All triangular systems over all primes.", "anchors": ["src/spasm_triangular.c: spasm_dense_back_solve, spasm_dense_forward_solve"]}
{"id": "C16", "title": "Solving with a factorization", "statement": "Given a factorization with L (A's pivotal rows are L*U on these rows and rowspace(U)=rowspace(A)), spasm_solve(fact, b, x) returns true iff x*A = b has a solution, and then the returned x satisfies x*A = b.", "quantifier": "every matrix A with a valid factorization and every b", "why_tests_cant": "Existence of solutions ranges over all right-hand sides; soundness and completeness are universally quantified.", "anchors": ["src/spasm_solve.c: spasm_solve"]}
{"id": "C17", "title": "Solving with many right-hand sides in parallel", "statement": "spasm_gesv(fact, B, ok) sets ok[i] iff x*A=B[i] is solvable and for each such i row i of the result solves it, for every thread interleaving of the atomic appends.", "quantifier": "every B, every interleaving of the parallel loop", "why_tests_cant": "Thread schedules cannot be enumerated by tests.", "anchors": ["src/spasm_solve.c: spasm_gesv"]}
{"id": "C18", "title": "Right kernel from a factorization", "statement": "spasm_kernel(fact) returns m-r vectors, linearly independent, each k satisfying U*k=0 (hence A*k=0), spanning the right kernel, whatever order the threads commit their rows in.", "quantifier": "every factorization with valid U/qinv and every commit order", "why_tests_cant": "All matrices and all schedules.", "anchors": ["src/spasm_kernel.c: spasm_kernel"]}
{"id": "C19", "title": "Right kernel from a RREF", "statement": "spasm_kernel_from_rref(R, qinv) on a reduced row echelon matrix returns a basis of the right kernel of R with balanced values, without out-of-bounds access or assertion failure.", "quantifier": "every RREF matrix and every prime", "why_tests_cant": "All matrices and all primes, in particular those above 2^31.", "anchors": ["src/spasm_kernel.c: spasm_kernel_from_rref"]}
{"id": "C20", "title": "Reduced row echelon form", "statement": "spasm_rref(fact, Rqinv) returns R with the same row space as U, each row starting with its unit pivot, every pivotal column zero in all other rows, and Rqinv locating the pivots, whatever order the threads commit rows in.", "quantifier": "every valid U/qinv and every commit order", "why_tests_cant": "All matrices and schedules.", "anchors": ["src/spasm_rref.c: spasm_rref"]}
{"id": "C21", "title": "Sparse Schur complement", "statement": "spasm_schur(A, p, n, fact, ...) returns S whose row k, for the row of A it came from (p_out), satisfies A_row = (L entries appended for this row)*U + S_row; S has no entry in a pivotal column; entries are non-zero and not repeated in a row; nothing depends on the schedule except the order of rows.", "quantifier": "every A, valid U/qinv, every commit order and every estimated density", "why_tests_cant": "All matrices and schedules and all initial allocation sizes.", "anchors": ["src/spasm_schur.c: spasm_schur"]}
{"id": "C22", "title": "Concurrent row commit protocol never writes into a stale or moved buffer", "statement": "In the parallel row-append loops of spasm_schur, spasm_kernel and spasm_rref, in every interleaving: two threads never write to the same output cell, no thread writes into a buffer that has been reallocated since it read the pointer, all writes are within the allocated size, no deadlock occurs, and when all threads are done the output holds each row exactly once, contiguous, at the position recorded by the row pointers.", "quantifier": "every number of threads, every assignment of rows, every interleaving, every initial capacity", "why_tests_cant": "Race conditions need all interleavings.", "anchors": ["src/spasm_schur.c: spasm_schur (critical schur_complement)", "src/spasm_kernel.c: spasm_kernel (critical kernel)", "src/spasm_rref.c: spasm_rref (critical rref)"]}
{"id": "C23", "title": "Structural pivots by leftmost entries (Faugere-Lachartre)", "statement": "The pivots selected from leftmost entries and then from unobstructed columns form a matching of rows and columns on non-zero entries of A, and the pivot graph has no alternating cycle (the pivotal submatrix can be permuted to triangular form).", "quantifier": "every matrix with no explicit zero", "why_tests_cant": "Acyclicity for all matrices.", "anchors": ["src/spasm_pivots.c: register_pivot, spasm_find_FL_pivots, spasm_find_FL_column_pivots"]}
{"id": "C24", "title": "Greedy parallel pivot search keeps the pivots acyclic", "statement": "In every interleaving of the transactional parallel search, every committed pivot keeps the set of pivots a matching without alternating cycle, each row gets at most one pivot, workspace bounds are respected and every thread terminates.", "quantifier": "every matrix, every number of threads, every interleaving (sequentially consistent memory)", "why_tests_cant": "Optimistic concurrency: only all interleavings show that a stale search is never committed.", "anchors": ["src/spasm_pivots.c: spasm_find_cycle_free_pivots, BFS_enqueue, BFS_enqueue_row"]}
{"id": "C25", "title": "Pivot reordering and extraction", "statement": "spasm_pivots_extract_structural appends to U one row per structural pivot, with the pivot first and equal to one, in an order making U permuted upper-triangular; p lists pivotal rows first and is a permutation of the rows of A; when L is built, A[p[k]] = pivot * U_row and L and fact->p record this; assertions never fail and buffers suffice.", "quantifier": "every matrix and every acyclic pivot choice", "why_tests_cant": "All pivot structures.", "anchors": ["src/spasm_pivots.c: spasm_pivots_reorder, spasm_pivots_extract_structural"]}
{"id": "C26", "title": "GPLU elimination", "statement": "echelonize_GPLU, run on the rows p[0..n) of A with an existing valid U, leaves U valid (unit pivots first, triangular) with row space the sum of the old one and that of the rows processed, and with L satisfying A_row = L_row*U for each processed row.", "quantifier": "every matrix, every existing U, with and without L", "why_tests_cant": "All matrices; early-abort logic and buffer growth for all sizes.", "anchors": ["src/spasm_echelonize.c: echelonize_GPLU"]}
{"id": "C27", "title": "Echelonization returns the rank and a basis of the row space", "statement": "spasm_echelonize(A, opts) returns fact with fact->r = rank(A), rows of U a basis of the row space of A with unit pivots located by qinv, for every setting of the options enabling a finishing method.", "quantifier": "every matrix, every options record, every schedule and every outcome of the random sampling", "why_tests_cant": "All inputs and all option combinations; probabilistic sub-algorithms.", "anchors": ["src/spasm_echelonize.c: spasm_echelonize, echelonize_GPLU, echelonize_dense, echelonize_dense_lowrank"]}
{"id": "C28", "title": "LU factorization", "statement": "With opts->L, the returned L and p satisfy: for each k, row p[k] of A equals row p[k] of L times U, L restricted to these rows is lower triangular with nonzero diagonal; with opts->complete, A = L*U.", "quantifier": "every matrix and every options record with L or complete", "why_tests_cant": "Identity over all matrices through several interacting sub-algorithms.", "anchors": ["src/spasm_echelonize.c: spasm_echelonize, update_fact_after_LU, echelonize_dense", "src/spasm_schur.c"]}
{"id": "C29", "title": "Dense Schur complements", "statement": "spasm_schur_dense writes in row k of S the values of the Schur complement of row p[k] of A on the columns listed in q, and appends the elimination coefficients to L, for every schedule; spasm_schur_dense_randomized writes rows that are linear combinations of A's rows reduced by U (hence zero rows if A's rows are in the row space of U).", "quantifier": "every A, valid U/qinv, every schedule, every random choice", "why_tests_cant": "All matrices, schedules and random choices.", "anchors": ["src/spasm_schur.c: spasm_schur_dense, spasm_schur_dense_randomized, prepare_q, gather"]}
{"id": "C30", "title": "Transfer of dense echelon forms into U", "statement": "After a correct dense RREF (resp. PLUQ) of the Schur complement chunk, update_U_after_rref (resp. update_fact_after_LU) extends U (and L) to a valid factorization including the chunk's rows, within the buffers allocated.", "quantifier": "every chunk, every rank, every permutation returned by the dense library", "why_tests_cant": "All chunks and permutations.", "anchors": ["src/spasm_echelonize.c: update_U_after_rref, update_fact_after_LU"]}
{"id": "C31", "title": "Maximum matching", "statement": "spasm_maximum_matching returns k and arrays p, qinv describing a matching of size k on the entries of A (p[i]=j iff qinv[j]=i), and no matching of A is larger.", "quantifier": "every sparse pattern", "why_tests_cant": "Optimality is a statement about all matchings of all graphs.", "anchors": ["src/spasm_matching.c: spasm_maximum_matching, spasm_augmenting_path, spasm_lookahead, spasm_augment_matching"]}
{"id": "C32", "title": "Permuting and restricting matchings", "statement": "spasm_permute_row_matching, spasm_permute_column_matching turn a matching of A into one of P*A*Q; spasm_submatching restricts it to a block.", "quantifier": "every matching and every permutation", "why_tests_cant": "All permutations.", "anchors": ["src/spasm_matching.c: spasm_permute_row_matching, spasm_permute_column_matching, spasm_submatching"]}
{"id": "C33", "title": "Strongly connected components", "statement": "spasm_strongly_connected_components returns a permutation p=q and block boundaries r such that each block is exactly a strongly connected component and the permuted matrix is block upper triangular.", "quantifier": "every square pattern", "why_tests_cant": "All graphs.", "anchors": ["src/spasm_scc.c: spasm_strongly_connected_components"]}
{"id": "C34", "title": "Dulmage-Mendelsohn decomposition", "statement": "spasm_dulmage_mendelsohn returns permutations p, q and boundaries rr, cc such that the permuted matrix has the coarse block-triangular form, the diagonal blocks are perfectly matched as required, and the fine blocks of the square part are its strongly connected components.", "quantifier": "every sparse pattern", "why_tests_cant": "All graphs.", "anchors": ["src/spasm_dm.c: spasm_dulmage_mendelsohn, bfs, collect_matched, collect_unmatched"]}
{"id": "C35", "title": "SHA-256", "statement": "init, any sequence of update calls, then final produce the FIPS 180-4 SHA-256 digest of the concatenation of the data, independent of how it is cut into updates.", "quantifier": "every byte string shorter than 2^61 bytes and every way of cutting it", "why_tests_cant": "All messages and all chunkings.", "anchors": ["src/sha256.c: spasm_SHA256_init, spasm_SHA256_update, spasm_SHA256_final"]}
{"id": "C36", "title": "Pseudo-random generator", "statement": "spasm_prng_ZZp returns balanced values, is a deterministic function of (seed, prime, seq) and of the number of previous calls, rejects exactly the masked words >= prime (so that each residue corresponds to exactly one accepted word), and the mask is the smallest 2^i-1 with 2^i >= prime; no index goes out of the 8-word block.", "quantifier": "every seed, prime, sequence number and number of calls", "why_tests_cant": "Infinite streams.", "anchors": ["src/spasm_prng.c: rehash, spasm_prng_u32, spasm_prng_ZZp, spasm_prng_seed, spasm_prng_seed_simple"]}
{"id": "C37", "title": "Rank certificates of correct factorizations verify", "statement": "For a valid factorization with L, spasm_certificate_rank_verify accepts the certificate made by spasm_certificate_rank_create with the same matrix and hash.", "quantifier": "every matrix with valid factorization, every hash", "why_tests_cant": "Completeness over all matrices and challenges.", "anchors": ["src/spasm_certificate.c: spasm_certificate_rank_create, spasm_certificate_rank_verify"]}
{"id": "C38", "title": "What an accepted rank certificate proves", "statement": "If spasm_certificate_rank_verify returns true then hash and prime match, all indices are in range, and the two linear identities hold for the challenge derived from the hash: the given rows generate the challenge on the listed columns, and a combination of all rows with the challenge coefficients on the rows outside the list vanishes.", "quantifier": "every certificate, including forged ones, every matrix", "why_tests_cant": "All adversarial certificates.", "anchors": ["src/spasm_certificate.c: spasm_certificate_rank_verify"]}
{"id": "C39", "title": "Certificate files round-trip", "statement": "spasm_rank_certificate_load applied to the output of spasm_rank_certificate_save gives back the same certificate.", "quantifier": "every certificate", "why_tests_cant": "All certificates.", "anchors": ["src/spasm_certificate.c: spasm_rank_certificate_save, spasm_rank_certificate_load"]}
{"id": "C40", "title": "Factorization verification accepts valid factorizations", "statement": "spasm_factorization_verify returns true on every valid factorization and every seed; it is true iff the challenge vector x supported on pivotal rows satisfies x*A = (x*L)*U.", "quantifier": "every matrix, factorization and seed", "why_tests_cant": "All seeds.", "anchors": ["src/spasm_certificate.c: spasm_factorization_verify"]}
{"id": "C41", "title": "Matrix files round-trip", "statement": "spasm_triplet_load applied to the output of spasm_csr_save or spasm_triplet_save (same prime, n,m >= 0) gives the same dimensions and the same entries.", "quantifier": "every matrix, every prime", "why_tests_cant": "All matrices and digit strings.", "anchors": ["src/spasm_io.c: spasm_csr_save, spasm_triplet_save, spasm_triplet_load, read_line"]}
{"id": "C42", "title": "Dense element types represent every balanced value exactly", "statement": "With the type returned by spasm_datatype_choose(p), writing any balanced value with spasm_datatype_write and reading it back with spasm_datatype_read gives the same value.", "quantifier": "every prime and every balanced value", "why_tests_cant": "All values of all primes (24-bit and 53-bit significand limits).", "anchors": ["src/spasm_ffpack.cpp: spasm_datatype_choose, spasm_datatype_read, spasm_datatype_write", "src/spasm_schur.c: gather"]}
{"id": "C43", "title": "Compaction, mirror and transposition tools", "statement": "tools/stack writes the matrix obtained by deleting exactly the empty rows and empty columns of its input and renumbering the others in order; tools/vertical_swap writes the matrix with its columns in reverse order (applying it twice gives the input back). tools/transpose writes a file that describes the transposed matrix.", "quantifier": "every loaded matrix; for the transposition every file (in range, no cancelling duplicate entries)", "why_tests_cant": "All sparsity patterns.", "anchors": ["tools/stack.c: main", "tools/vertical_swap.c: main", "tools/transpose.c: main"]}
{"id": "C44", "title": "Certificate checking tool reports correctly", "statement": "tools/check_cert reports a certificate as correct iff spasm_certificate_rank_verify accepts it.", "quantifier": "every matrix and certificate", "why_tests_cant": "Decision logic over both outcomes.", "anchors": ["tools/check_cert.c: main"]}
{"id": "C45", "title": "Bitmap of a matrix", "statement": "In black-and-white mode spasm_save_pnm writes pixel (u, v) black iff some entry (i, j) of A falls in this cell (u = floor(i*y/n), v = floor(j*x/m)), and every access to the pixel buffer is in bounds.", "quantifier": "every matrix and every positive target size", "why_tests_cant": "All matrices and scaling ratios.", "anchors": ["src/spasm_io.c: spasm_save_pnm"]}
{"id": "C46", "title": "A certificate of a wrong rank is accepted only by chance", "statement": "If spasm_certificate_rank_verify accepts a certificate for rank r of a matrix of true rank R, the challenge derived from the hash lies in a set determined by the matrix and the listed columns that contains at most q^R of the q^r vectors, and the challenge on the unlisted rows lies in a set determined by the matrix and the listed rows that contains at most q^(n-R) of the at least q^(n-r) vectors.", "quantifier": "every matrix, every certificate (including repeated indices and out-of-range coefficients), every hash", "why_tests_cant": "A statement about the number of challenges over all adversarial certificates.", "anchors": ["src/spasm_certificate.c: spasm_certificate_rank_verify"]}
{"id": "C47", "title": "Every leftmost column gets a pivot, held by a sparsest row", "statement": "After the structural pivot search on a matrix, with nothing selected beforehand, every column that is the leftmost entry of some non-empty row carries a pivot right after the first phase, and the row that holds it has at most as many entries as any row whose leftmost entry lies in that column. Hence a matrix with at least one entry always yields at least one pivot, so each elimination round makes progress.", "quantifier": "For all well-formed sparse matrices, all rows and all columns.", "why_tests_cant": "A test can count the pivots found on some matrices; it cannot show that no leftmost column is ever missed nor that the sparsest row wins whatever the order in which rows are met.", "anchors": ["src/spasm_pivots.c: spasm_find_FL_pivots"]}
{"id": "C48", "title": "The hash of a matrix file is the SHA-256 of all its bytes", "statement": "When spasm_triplet_load accepts a file and a hash was asked for, the 32 bytes returned are the SHA-256 digest (FIPS 180-4) of the whole file, including comments, the terminating line and everything that follows the matrix; hence two parties that hash the same file get the same seed for certificates.", "quantifier": "every accepted file without NUL characters, in SMS or MatrixMarket format, every prime", "why_tests_cant": "A test compares the digest of a few files; the claim is about every file, every line length up to the buffer size and every position at which lines are cut.", "anchors": ["src/spasm_io.c: spasm_triplet_load, validate_mm_header, read_line"]}
{"id": "C49", "title": "Loading any file is safe", "statement": "For every file, valid or not, whose numbers are less than 2^31 in absolute value and whose dimensions are not negative, spasm_triplet_load either returns a well-formed matrix (indices in range, values balanced and nonzero) or stops the program with an error message or a failed assertion; it never accesses memory out of bounds, never overflows and never loops forever.", "quantifier": "every sequence of characters with numbers in range", "why_tests_cant": "The set of malformed files is infinite; fuzzing samples it.", "anchors": ["src/spasm_io.c: spasm_triplet_load", "src/spasm_triplet.c: spasm_add_entry"]}
{"id": "C50", "title": "The dm tool permutes a matrix into block triangular form and reports its true structural rank", "statement": "For every matrix file, the program dm writes a file that describes the same matrix with permuted rows and columns, in block triangular form with a nonzero diagonal of maximum length; with --verbose it prints the size of the largest matchings of the matrix, the sizes of the parts of its coarse decomposition and those of the strongly connected components of its square part, and these numbers are right.", "quantifier": "every SMS file (in range, no cancelling duplicate entries modulo 42013), for the report n + m < 2^31", "why_tests_cant": "Running the program on a few files checks a few matrices; that the permutation, the matching and the sizes are right for every file needs a proof covering parsing, compression, the decomposition and the output.", "anchors": ["tools/dm.c: main", "tools/common.c: load_input_matrix", "src/spasm_dm.c: spasm_dulmage_mendelsohn"]}
{"id": "C51", "title": "The rank tool never overestimates the rank of the matrix in a file", "statement": "For every matrix file and every prime modulus, whatever the options, the schedule of the threads, the random numbers and the heuristic decisions, the number printed by the program rank is at most the rank of the matrix described by the file, whether or not the program transposed it; it is equal to it with the dense method, and in all cases unless the search for pivots was ended early.", "quantifier": "every file describing a matrix (indices and values in range, no cancelling duplicate entries), every prime up to 0xfffffffb, all options without L", "why_tests_cant": "A test compares the rank of a few matrices computed with a few schedules; the claim ranges over all matrices, schedules, random draws and options.", "anchors": ["tools/rank.c: main", "src/spasm_io.c: spasm_triplet_load", "src/spasm_echelonize.c: spasm_echelonize"]}
{"id": "C52", "title": "The kernel tool writes a basis of the right (or left) kernel of the matrix in a file", "statement": "For every matrix file, the program kernel writes a file that describes a matrix whose rows are a basis of the right kernel of the matrix read, of the left kernel with --left; their number plus the rank is the number of columns (of rows).", "quantifier": "every file describing a matrix, every prime up to 0xfffffffb, all options, all schedules of the threads", "why_tests_cant": "A test can check that a few vectors are in the kernel; that they always span it, for every file and every interleaving, needs a proof.", "anchors": ["tools/kernel.c: main", "src/spasm_kernel.c: spasm_kernel", "src/spasm_io.c: spasm_csr_save"]}
{"id": "C53", "title": "The echelonize tool writes an echelon form (reduced with --rref) of the matrix in a file", "statement": "For every matrix file, the program echelonize writes a file that describes a matrix in echelon form (up to the order of the columns) with as many rows as the rank and the same row space as the matrix read; with --rref each pivotal column is zero outside its pivot.", "quantifier": "every file describing a matrix, every prime up to 0xfffffffb, all options, all schedules of the threads", "why_tests_cant": "The shape of the output can be tested on examples, but equality of the row spaces for every input and schedule cannot.", "anchors": ["tools/echelonize.c: main", "src/spasm_rref.c: spasm_rref", "src/spasm_echelonize.c: spasm_echelonize"]}
{"id": "C54", "title": "The solve tool writes solutions of linear systems and warns exactly about the rows without a solution", "statement": "For every pair of files describing a matrix A and a right-hand side B with as many columns, the program solve writes a file that describes a matrix X with one row per row of B, such that row i of X times A is row i of B whenever this system has a solution, and it prints a warning for row i exactly when there is no solution.", "quantifier": "every pair of files, every prime up to 0xfffffffb, all options, all schedules of the threads", "why_tests_cant": "Solvability is a property of all candidate solutions; tests check some systems with some schedules.", "anchors": ["tools/solve.c: main", "src/spasm_solve.c: spasm_gesv", "src/spasm_echelonize.c: spasm_echelonize"]}
{"id": "C55", "title": "The rank tool writes a certificate of the rank of the matrix in the file", "statement": "With --certificate, the program rank prints the rank of the matrix described by the file, says that the certificate is correct, and writes the text of a certificate that carries the SHA-256 of the file, the prime and the rank, and that the verifier accepts on the matrix described by this file.", "quantifier": "every file describing a matrix, every prime up to 0xfffffffb, all options, all contents of uninitialised memory, all schedules of the threads", "why_tests_cant": "The claim combines the hash of the file, the factorization, the pseudo-random challenges and the text of the certificate for every input; a wrong row permutation or a transposition shows only on some shapes of matrices.", "anchors": ["tools/rank.c: main", "src/spasm_certificate.c: spasm_certificate_rank_create", "src/spasm_certificate.c: spasm_certificate_rank_verify", "tools/check_cert.c: main"]}
{"id": "C56", "title": "The density of a Schur complement is estimated without bias from the number of threads, and gives enough room", "statement": "spasm_schur_estimate_density returns a number between 0 and 1, equal (up to rounding) to the average proportion of nonzero coefficients among the non-pivotal columns of the sampled rows of the Schur complement, and zero only if these rows are zero; spasm_schur derives from it a valid amount of memory.", "quantifier": "every matrix, every partial elimination, every number of samples, every outcome of the random generator, every number of threads and distribution of the iterations", "why_tests_cant": "The estimate is random and its result is never displayed exactly; rounding and the degenerate shapes (no row, no remaining column) are reached only by particular inputs.", "anchors": ["src/spasm_schur.c: spasm_schur_estimate_density", "src/spasm_schur.c: spasm_schur"]}
{"id": "C57", "title": "The heuristic decisions of the echelonization cannot make it fail", "statement": "The floating-point computations by which spasm_echelonize chooses its methods (proportion of pivots, density, size of the Schur complements, aspect ratio, weight of the random combinations, yields) are always defined and lead to an outcome for which the guarantees on the factorization hold; in particular with the default options.", "quantifier": "all matrices (fewer than 2^28 rows, 2^31 columns), all options, all outcomes of the random generators, all schedules", "why_tests_cant": "Conversions of NaN or infinities are undefined only for degenerate shapes reached at unpredictable points of a run, and their effect depends on the processor; the combinations of options and shapes cannot be enumerated.", "anchors": ["src/spasm_echelonize.c: spasm_echelonize", "src/spasm_echelonize.c: spasm_echelonize_init_opts", "src/spasm_echelonize.c: echelonize_dense_lowrank", "src/spasm_echelonize.c: echelonize_dense"]}
{"id": "C58", "title": "The options of the echelonization mean what their documentation says", "statement": "min_pivot_proportion, low_rank_ratio and tall_and_skinny_ratio are compared with the proportions and ratios they are named after, up to one rounding; at most max_round Schur complements are computed; disabled methods have no influence; negative values mean 'keep going' or 'don't' as documented in spasm.h; a NULL pointer stands for the default options.", "quantifier": "all matrices, all options, all outcomes of the random generators, all schedules, all results of the dense library", "why_tests_cant": "The options change only the path taken, not the mathematical result, so that a test that compares results cannot see that an option is ignored or reversed; the thresholds are compared in floating point.", "anchors": ["src/spasm.h: struct echelonize_opts", "src/spasm_echelonize.c: spasm_echelonize", "src/spasm_echelonize.c: echelonize_dense", "tools/common.c: echelonize_options"]}
{"id": "C59", "title": "Command lines are understood as documented", "statement": "For rank, kernel, solve and echelonize: the last value given to an option counts, a missing option has its documented default, flags are set exactly when they occur, the modulus is the number written on the command line, and an argument that is not an option is an error.", "quantifier": "all command lines (any number of options in any order, all integers)", "why_tests_cant": "Orders and repetitions of options cannot be enumerated, and moduli above 2^31 behave differently only on some platforms.", "anchors": ["tools/common.c: parse_input_opt", "tools/common.c: parse_ech_opt", "tools/rank.c: parse_rank_opt", "tools/kernel.c: parse_ker_opt", "tools/solve.c: parse_solve_opt", "tools/echelonize.c: parse_command_line_options"]}
{"id": "C60", "title": "From the command line and the input files to the result, the programs compute what they are documented to compute", "statement": "Given a command line and the files it names, rank prints the rank of the matrix (and writes a valid certificate if asked), kernel writes a basis of the kernel, solve writes solutions and warns about the rows without a solution, echelonize writes an echelon form; with the floating-point decisions the code really takes; in the file named by --output; a missing input file is an error.", "quantifier": "all command lines, all files describing a matrix, all outcomes of the random generators, all schedules, all contents of uninitialised memory", "why_tests_cant": "The result depends on the path chosen by floating-point heuristics, on threads and on random numbers; tests run a few matrices with a few options.", "anchors": ["tools/rank.c: main", "tools/kernel.c: main", "tools/solve.c: main", "tools/echelonize.c: main", "tools/common.c: load_input_matrix"]}
{"id": "C61", "title": "Gray images show how dense each part of the matrix is", "statement": "For a matrix with at least one entry, the image in gray levels is a valid PGM image of the reduced size; a pixel on which no entry falls is white, a pixel on which the most entries fall is black, more entries never give a lighter pixel, and the level is 255(1-(c/max)^(1/10)) to the nearest integer.", "quantifier": "all matrices with an entry, all positive image sizes below 2^31 pixels", "why_tests_cant": "The level goes through exp and log in floating point; an intensity outside of [0,1] aborts the program, and only a proof excludes it for all ratios of counts.", "anchors": ["src/spasm_io.c: spasm_save_pnm"]}
{"id": "C62", "title": "The program bitmap draws the matrix of the file at a suitable size", "statement": "Given a file, bitmap draws a black and white or gray image of the matrix: without option at most a million pixels, with --mpixels at most that many, never larger than the matrix, with its proportions up to one row or column of pixels, and one pixel per position if that fits; with --width and --height the size asked for; with one of the two, the other follows the proportions; --mpixels excludes --width and --height.", "quantifier": "all files describing a matrix with an entry, all sizes", "why_tests_cant": "The size is computed with a square root in floating point and truncated; the extreme shapes that give an empty image are not tested.", "anchors": ["tools/bitmap.c: main", "src/spasm_io.c: spasm_save_pnm"]}
{"id": "C63", "title": "Memory is neither used after it is freed nor lost", "statement": "No function of the library uses or frees a block that is not allocated, takes a block for something else, or moves or frees a block of its caller; when a function that returns a matrix, a factorization, a decomposition or a certificate ends, the blocks that it allocated are exactly those of the result, and freeing the result frees all of them; functions that return nothing free what they allocate. The programs free what they allocate.", "quantifier": "all sets of blocks of the caller, all sequences of decisions depending on the data (sizes, loops, conditions, reallocations that move, stay or give NULL), all options", "why_tests_cant": "Ownership moves between structures along data-dependent paths (successive Schur complements, transposition, reallocation that may move a matrix whose arrays have been copied into local variables); a test exercises a few paths, with an allocator that may hide the error.", "anchors": ["src/spasm_util.c: spasm_realloc, spasm_csr_alloc, spasm_csr_realloc, spasm_csr_resize, spasm_csr_free, spasm_lu_free, spasm_dm_free", "src/spasm_echelonize.c: spasm_echelonize", "src/spasm_kernel.c", "src/spasm_rref.c", "src/spasm_solve.c", "src/spasm_certificate.c", "src/spasm_scc.c", "src/spasm_dm.c", "tools/*.c: main"]}
{"id": "C64", "title": "Matrices with 2^31 entries or more", "statement": "The number of entries of a matrix is a 64-bit number in the data structures and in the files, while the dimensions are 32-bit numbers: a matrix whose dimensions fit is handled correctly whatever its number of entries (conversion from triplets, reduced echelon form, kernel, strongly connected components, renumbering tool), below and above 2^31 entries.", "quantifier": "all matrices whose dimensions fit in an int, with any number of entries", "why_tests_cant": "The smallest matrix that shows the difference has two billion entries (tens of gigabytes); no unit test allocates it.", "anchors": ["src/spasm_triplet.c: spasm_compress", "src/spasm_rref.c: spasm_rref", "src/spasm_kernel.c: spasm_kernel_from_rref", "src/spasm_scc.c: spasm_strongly_connected_components", "tools/stack.c"]}
{"id": "C65", "title": "Calls to the dense library", "statement": "For every accepted modulus the dense library is called with a number type in which its computations are exact (and not a wider one than needed), and what comes out of these calls, after conversion of the permutations out of the format of LAPACK, is a reduced row echelon form, respectively a PLUQ factorization, of the dense matrix modulo p, as the rest of the code assumes.", "quantifier": "all moduli up to 0xfffffffb, all dense matrices of all dimensions with any leading dimension, all results that the documentation of the library allows", "why_tests_cant": "Two encodings of permutations and three number types with different limits meet here; an error in the direction of a permutation is invisible on involutions, and a threshold that is slightly too high loses exactness only for rare coefficients.", "anchors": ["src/spasm_ffpack.cpp", "src/spasm_datatype.c: spasm_datatype_choose", "src/spasm_echelonize.c: echelonize_dense, echelonize_dense_lowrank"]}
{"id": "C66", "title": "Command lines of bitmap, dm and check_cert", "statement": "From the command line to the output: bitmap draws an image of the requested size and kind (the last value of each option counts); dm writes the permuted matrix, its report or an image, as requested by the last option; check_cert says CORRECT exactly for the certificates of the rank given by its input, and fails without writing anything when an argument is missing, unknown or superfluous.", "quantifier": "all command lines, all matrix files, all certificate files, all results of floating-point library functions within their accuracy", "why_tests_cant": "Combinations of options, files and dimensions are unbounded; sizes of images come from rounded square roots and the failures concern matrices of extreme proportions.", "anchors": ["tools/bitmap.c: parse_opt, main", "tools/dm.c: main", "tools/check_cert.c: parse_check_opt, main"]}
{"id": "C67", "title": "The completion test errs with probability at most 2^-128", "statement": "The test by which spasm_echelonize decides that nothing remains draws enough random combinations: with s of them, p^s >= 2^128 in spite of rounding errors in the computation of s, and s is at most one more than needed. If all the rows are in the row space of U the test always says so; otherwise at most one table of random numbers out of 2^128 makes it say so. For a whole call of spasm_echelonize without L, at most 99 tables out of 2^128 give a wrong rank or row space. The same holds for the output of the programs rank and kernel.", "quantifier": "all prime moduli up to 0xfffffffb, all matrices, all echelon forms, all tables of random residues, all implementations of log2 accurate to 2^-40, all command lines and files (programs)", "why_tests_cant": "An event of probability 2^-128 is never observed; a test with too few combinations, or which is repeated too often, behaves in the same way in every practical test.", "anchors": ["src/spasm_echelonize.c: spasm_echelonize_test_completion", "src/spasm_echelonize.c: echelonize_GPLU", "src/spasm_echelonize.c: spasm_echelonize", "tools/rank.c: main", "tools/kernel.c: main"]}
{"id": "C68", "title": "Sizes announced in messages", "statement": "spasm_human_format writes a number below 1000 as it is, and a number below 10^15 in the largest of the units k, m, g, t which it exceeds, with one decimal, which is a nearest one; the text fits in its 8 bytes. The size in memory announced by spasm_compress is the one of its arrays of indices and values.", "quantifier": "all 64-bit numbers, all numbers of rows and entries", "why_tests_cant": "The number of values is too large for enumeration; errors appear at the changes of unit, where a rounding error or the text 1000.0k overflows, or beyond 2^31 bytes.", "anchors": ["src/spasm_util.c: spasm_human_format", "src/spasm_triplet.c: spasm_compress"]}
{"id": "C69", "title": "One workspace of 3m cells for the sparse triangular solver", "statement": "spasm_sparse_triangular_solve uses one array of 3m ints for its list, its stack and its marks: it never goes out of it, the three uses never disturb each other, and the array can be reused for the next call. The functions that allocate it (spasm_schur, spasm_schur_estimate_density, spasm_schur_dense, spasm_rref, spasm_kernel, GPLU) therefore give the results of C14, C18, C20, C21, C26, C29 and C56, for all dimensions that fit an int; so do the sizes computed with int by the dense LU.", "quantifier": "all matrices, right-hand sides, contents of the workspace, numbers of threads and schedules", "why_tests_cant": "An overlap of the parts only shows for particular depths of the search; the dimensions at which the sizes overflow need several gigabytes.", "anchors": ["src/spasm_reach.c: spasm_dfs, spasm_reach", "src/spasm_triangular.c: spasm_sparse_triangular_solve", "src/spasm_schur.c", "src/spasm_rref.c: spasm_rref", "src/spasm_kernel.c: spasm_kernel", "src/spasm_echelonize.c: echelonize_GPLU, update_fact_after_LU"]}
{"id": "C70", "title": "Parallel commits on machines with store buffers", "statement": "spasm_schur, spasm_kernel and spasm_rref also work on machines where the writes of a thread reach the memory later and in another order than issued: no entry of a row is written to memory that another thread has freed by reallocating, no entry is lost, and the possible results are the same as with immediately visible writes.", "quantifier": "all matrices, numbers of threads, schedules, delays and reorderings of the writes of each thread (same location excepted)", "why_tests_cant": "Delayed writes depend on the processor and on timing; tests on one machine cannot produce all of them.", "anchors": ["src/spasm_schur.c: spasm_schur (critical section, writing)", "src/spasm_rref.c: spasm_rref", "src/spasm_kernel.c: spasm_kernel"]}
{"id": "C71", "title": "Pivot search on machines with store buffers", "statement": "The parallel greedy pivot search also works on machines where the writes of a thread reach the memory later and in another order than issued: the pivots never make an alternating cycle, no assertion fails, it ends, the number returned is the number of new pivots, and the possible outcomes are the same as with immediately visible writes.", "quantifier": "all matrices without repeated entries, numbers of threads, distributions of rows, schedules, delays and reorderings of writes", "why_tests_cant": "Delayed writes depend on the processor and on timing; tests on one machine cannot produce all of them.", "anchors": ["src/spasm_pivots.c: spasm_find_cycle_free_pivots, register_pivot"]}
{"id": "C72", "title": "Random numbers of the dense combinations and of the completion test", "statement": "The dense random combinations of all the rows are the same in every call with the same arguments, whatever the number of threads and the scheduling: combination number k uses the residues that SHA-256 gives for the seed k. No thread writes out of bounds. The completion test of the echelonization answers yes exactly if these fixed combinations belong to the row space found so far. (Consequence: being fixed, they can be defeated; for each prime there is a matrix of rank one whose rank is found to be zero in every run with zero rounds of structural pivots.)", "quantifier": "all matrices, partial echelon forms, row selections, numbers of threads, distributions of the iterations, schedules, initial memory contents and primes", "why_tests_cant": "Tests see a few schedules and memory contents, and no random matrix defeats the test; the bad matrices exist for every prime but have to be constructed.", "anchors": ["src/spasm_schur.c: spasm_schur_dense_randomized", "src/spasm_echelonize.c: spasm_echelonize_test_completion, spasm_echelonize", "src/spasm_prng.c: spasm_prng_seed_simple, spasm_prng_ZZp"]}
{"id": "C73", "title": "The echelonization on a real machine", "statement": "The guarantees of the echelonization (C27, C28), of the kernel (C18) and of the reduced echelon form (C20) hold on a machine whose processors delay their writes in store buffers, with the workspaces of the sparse triangular solver being single arrays of three times as many integers as there are columns: the set of possible outcomes is the same as with separate arrays and immediate writes. The number of columns is at most 715827882; with more, the echelonization has undefined behaviour.", "quantifier": "all primes, matrices, options, numbers of threads, distributions of the iterations, schedules, delays of the writes, initial memory contents", "why_tests_cant": "Tests run on one machine, with small matrices and a few schedules; the delays of the writes cannot be controlled from a test.", "anchors": ["src/spasm_echelonize.c: spasm_echelonize, echelonize_GPLU", "src/spasm_schur.c: spasm_schur, spasm_schur_dense", "src/spasm_pivots.c: spasm_find_cycle_free_pivots", "src/spasm_kernel.c: spasm_kernel", "src/spasm_rref.c: spasm_rref"]}
{"id": "C74", "title": "Reproducible results", "statement": "The kernel basis and the reduced echelon form of a matrix only depend on the matrix: two runs of the echelonization followed by spasm_kernel (or spasm_rref) return the same vectors, up to their order, whatever the threads do. The kernel has exactly one vector for each column without pivot, with -1 on this column and 0 on the other columns without pivot, and the two ways to compute it (from the echelonized matrix, from the reduced echelon form) agree.", "quantifier": "all primes, matrices, options, heuristic decisions, random numbers, numbers of threads, distributions of the iterations, schedules, initial memory contents", "why_tests_cant": "A test sees a few schedules; the runs that differ need a specific order of the commits of several threads.", "anchors": ["src/spasm_kernel.c: spasm_kernel, spasm_kernel_from_rref", "src/spasm_rref.c: spasm_rref", "src/spasm_echelonize.c: spasm_echelonize", "src/spasm_schur.c: spasm_schur", "src/spasm_pivots.c: spasm_find_FL_column_pivots", "tools/kernel.c: main", "tools/echelonize.c: main"]}
{"id": "C75", "title": "Sizes of memory blocks, in bytes", "statement": "The memory blocks obtained for a matrix read from a file, for its compressed form and for the dense blocks have room for all the cells that are written in them, although their sizes are computed in machine integers: a file is loaded as described by C41, or refused with an error message, whatever dimensions and number of entries it announces and however little memory there is.", "quantifier": "all files, primes, dimensions, numbers of entries announced, sizes of the dense block, amounts of memory available, initial memory contents", "why_tests_cant": "The sizes wrap around for values that tests do not use, and a write just outside a block usually goes unnoticed.", "anchors": ["src/spasm_util.c: spasm_malloc, spasm_realloc, spasm_triplet_alloc, spasm_triplet_realloc, spasm_csr_alloc", "src/spasm_triplet.c: spasm_add_entry, spasm_compress", "src/spasm_io.c: spasm_triplet_load", "src/spasm_echelonize.c: echelonize_dense, echelonize_dense_lowrank", "src/spasm_schur.c: row_pointer, spasm_schur_dense", "src/spasm_ffpack.cpp: spasm_datatype_size"]}
{"id": "C76", "title": "Lack of memory when checking certificates and factorizations", "statement": "spasm_rank_certificate_load and spasm_factorization_verify behave as described by C39 and C40 whatever a certificate file announces, or end the program with an error message when there is not enough memory; they never write through a null pointer.", "quantifier": "all certificate files, matrices, factorizations, seeds, amounts of memory available for each block, initial memory contents", "why_tests_cant": "Tests do not run out of memory, and a certificate that announces two billion rows is small; whether it is read depends on the machine.", "anchors": ["src/spasm_certificate.c: spasm_rank_certificate_load, spasm_factorization_verify", "tools/check_cert.c: main"]}
{"id": "C77", "title": "Interrupted output", "statement": "If a program stops while it writes a matrix with spasm_csr_save or spasm_triplet_save, or a certificate with spasm_rank_certificate_save, the file that remains is refused by spasm_triplet_load and spasm_rank_certificate_load, unless it contains everything but the last newline, in which case it is read as the complete file.", "quantifier": "all well-formed matrices and certificates, all points of interruption (including the middle of a number), all fields, with or without hash, initial memory contents", "why_tests_cant": "There are as many files as points of interruption, and whether the beginning of a file is itself a file in the format depends on the digits of the numbers; tests write complete files.", "anchors": ["src/spasm_io.c: spasm_csr_save, spasm_triplet_save, spasm_triplet_load", "src/spasm_certificate.c: spasm_rank_certificate_save, spasm_rank_certificate_load"]}
{"id": "C78", "title": "Chains of programs", "statement": "Whatever the options, the files written by echelonize (with or without --rref), kernel (with or without --left), solve, transpose and dm describe each position at most once and contain no zero value, so that they can be given to the other programs; and the results are those expected: echelonize then rank gives the rank, kernel then rank gives the number of columns minus the rank (of rows with --left), solve with the echelon form as right-hand side gives no warning and its coefficients, kernel after echelonize gives a basis of the kernel, kernel twice gives a basis of the row space, transpose twice gives the same matrix, transpose then rank gives the rank, transpose then kernel gives the same space as kernel --left, dm then rank gives the rank, dm then dm --verbose gives the report of the first file, transpose then dm --verbose gives this report with the horizontal and vertical parts exchanged. The files written by vertical_swap and stack can be read by the other programs and have the same rank modulo 42013; a second stack changes nothing, and vertical_swap then dm --verbose gives the report of the first file; stack then dm --verbose gives the same structural rank.", "quantifier": "all files in the two formats whose repeated entries do not cancel, all primes, all schedules, random numbers and heuristic decisions of both runs (with the dense method and without the low-rank method for the results), initial memory contents", "why_tests_cant": "The set of matrices is infinite, both runs are nondeterministic, and whether a program writes a repeated position or a zero value depends on cancellations that tests are unlikely to meet.", "anchors": ["tools/echelonize.c: main", "tools/kernel.c: main", "tools/solve.c: main", "tools/rank.c: main", "tools/transpose.c: main", "src/spasm_echelonize.c: spasm_echelonize, update_U_after_rref, update_fact_after_LU", "src/spasm_io.c: spasm_csr_save", "tools/stack.c: main", "tools/vertical_swap.c: main"]}
{"id": "C79", "title": "Exactly which files are accepted", "statement": "A text file (without NUL byte) is accepted as a matrix if and only if it is in one of two precisely described formats: (SMS) a line with two dimensions and M, lines starting with three integers, a line starting with three zeroes, then anything; (MatrixMarket) the title line, comments, a line with the dimensions and the number of entries (at least one), that many lines starting with three integers, then anything; lines have at most 1022 characters and the numbers fit in the types of the program. Such a file describes only one list of entries, and the matrix in memory is the one it describes. Every other file whose numbers are reasonable is refused. In particular whatever follows the third number of a line is ignored without a warning, so that a value written 0.5 is read as zero.", "quantifier": "all files without NUL byte, all primes (or positions only), with or without hash, initial memory contents", "why_tests_cant": "The set of accepted files and the set of refused files are both infinite; tests on some malformed files do not show that no other malformed file is accepted, nor that every well-formed one is.", "anchors": ["src/spasm_io.c: spasm_triplet_load, read_line, validate_mm_header", "src/spasm_triplet.c: spasm_add_entry"]}
{"id": "C80", "title": "The programs that move entries keep the values", "statement": "The programs transpose, stack, vertical_swap and dm, which have no option for a modulus, only move the entries of the matrix: whatever the modulus used afterwards, the file written by transpose describes the transposed matrix, the one written by vertical_swap the matrix with its columns in reverse order, the one written by stack the matrix without its empty rows and columns, and the one written by dm the matrix with permuted rows and columns; the rank is the same modulo every prime. This holds when the values are at most 21006 in absolute value; otherwise they are replaced by their residues modulo 42013, and a matrix that is not zero modulo any other prime may become zero.", "quantifier": "all matrix files whose indices and values are in range and without cancellations, all moduli q, initial memory contents", "why_tests_cant": "Tests use small values or the default prime, for which the silent reduction has no effect; the statement is about all values, all moduli and all files.", "anchors": ["tools/transpose.c: main", "tools/stack.c: main", "tools/vertical_swap.c: main", "tools/dm.c: main"]}
{"id": "C81", "title": "Exactly which certificate files are accepted", "statement": "A certificate file is loaded without an error if and only if it starts with two integers (the rank and the prime) followed, after white space, by at least one other character; the two numbers are determined by the file. If what follows is a hash of 64 hexadecimal digits (lower or upper case) and four lists of as many numbers as the rank, in any layout, the hash and the coefficients of the certificate are those of the file. Damaged certificates should be refused; but the length and the digits of the hash are not checked, so that bytes missing in the file are read from uninitialized memory.", "quantifier": "all files (character strings), all initial contents of memory and stack", "why_tests_cant": "The statement is an equivalence over all texts; tests cover a few layouts and a few damaged files, and reading uninitialized memory usually gives the same values in every test.", "anchors": ["src/spasm_certificate.c: spasm_rank_certificate_load", "tools/check_cert.c: main"]}
{"id": "C82", "title": "Results depend on the matrix, not on the file", "statement": "Two files whose matrices have the same row space modulo the prime give the same answer: rank prints the same number, echelonize (with or without --rref) and kernel write matrices with the same number of rows and the same row space; kernel --left does so for files with the same matrix. In particular the order of the lines, the choice of the residues, zeroes that are written, the order of the rows, nonzero factors on rows and redundant rows do not matter, and the runs can differ in threads, random numbers and numeric decisions. The rank printed also does not change with operations on the columns or when the matrix is transposed. (When two values at the same position cancel, this fails: two files of the same matrix can give different ranks.)", "quantifier": "all primes up to 0xfffffffb, all pairs of files in both formats without cancellations, all pairs of environments and options where the dense method is enabled and chosen and the low-rank method disabled", "why_tests_cant": "This is a relation between all pairs of files and all pairs of executions; tests compare some variants of some files.", "anchors": ["tools/rank.c: main", "tools/kernel.c: main", "tools/echelonize.c: main", "src/spasm_io.c: spasm_triplet_load", "src/spasm_echelonize.c: spasm_echelonize"]}
{"id": "C83", "title": "The structural rank bounds the rank", "statement": "The number printed by rank, for any prime modulus and any options, is at most the structural rank printed by dm --verbose for the same file, and the structural rank is the largest rank, over any field, of the matrices that have nonzero entries only where the file has them. (dm reads the file modulo 42013: the bound fails for files with multiples of 42013, for which dm does not see all the entries.)", "quantifier": "all files in both formats with n + m < 2^31, values less than 42013 in absolute value and no cancellations, all primes up to 0xfffffffb, all options, schedules, random numbers and numeric decisions of rank", "why_tests_cant": "This relates two programs for all files and all moduli, and the second part quantifies over all matrices with the same zeroes.", "anchors": ["tools/dm.c: main", "tools/rank.c: main", "src/spasm_dm.c: spasm_dulmage_mendelsohn", "src/spasm_echelonize.c: spasm_echelonize"]}
{"id": "C84", "title": "The reduced echelon form and the kernel written are canonical, up to the choice of pivots", "statement": "echelonize --rref and kernel, run twice on files with the same row space (kernel --left: with the same matrix), with any options, threads and numeric decisions for which the search is exact, write the same rows up to their order as soon as the two runs chose the same columns for the pivots. The rows written by kernel have -1 on one free column each and zero on the other free columns. If the rank is the number of columns, echelonize --rref writes the rows of the identity matrix in some order.", "quantifier": "all primes up to 0xfffffffb, all pairs of files in both formats without cancellations and with the same row space, all pairs of environments and options where the dense method is enabled and chosen and the low-rank method disabled, all files the program may write", "why_tests_cant": "The content of the file depends on threads and random numbers; that nothing else than the pivots can change is a statement on all pairs of executions.", "anchors": ["tools/echelonize.c: main", "tools/kernel.c: main", "src/spasm_rref.c: spasm_rref", "src/spasm_kernel.c: spasm_kernel", "src/spasm_echelonize.c: spasm_echelonize"]}
{"id": "C85", "title": "The decomposition printed by dm is a property of the matrix", "statement": "The numbers printed by dm --verbose depend only on the positions of the nonzero entries, up to permutations of the rows and of the columns: two files whose nonzero entries are at the same positions up to such permutations give the same structural rank, the same sizes of the three parts and the same sizes of strongly connected components (up to their order), whatever the values and the order of the lines; for the transposed matrix the horizontal and vertical parts are exchanged. The vertical part consists of the rows that some largest matching misses, the horizontal part of the columns that some largest matching misses, and an entry belongs to some largest matching if and only if it lies in a diagonal block of the permuted matrix.", "quantifier": "every pair of files in range (n + m < 2^31, no cancelling duplicate entries modulo 42013), every matrix and every decomposition returned, every content of uninitialised memory", "why_tests_cant": "The program computes one matching among exponentially many, chosen by the order of rows and entries; that the parts and the components do not depend on this choice is a theorem on all matchings, which no set of runs can establish.", "anchors": ["tools/dm.c: main", "src/spasm_dm.c: spasm_dulmage_mendelsohn", "src/spasm_matching.c: spasm_maximum_matching", "src/spasm_scc.c: spasm_strongly_connected_components"]}
{"id": "C86", "title": "The determinant can be computed block by block in the file written by dm", "statement": "For a square matrix all of whose rows can be matched, dm writes the matrix with permuted rows and columns in block upper triangular form, with square blocks on the diagonal that fill the whole matrix, and the determinant of the matrix modulo 42013 is, up to its sign, the product of the determinants of these blocks; in particular the matrix is singular modulo 42013 if and only if one of the blocks is. If the rows cannot all be matched, the matrix is singular. Hence the program rank, run with an exact method modulo 42013, prints the number of rows exactly when all rows can be matched and no block is singular. For every matrix, square or not, the rank modulo 42013 is at least the sum of the ranks of the diagonal blocks written and at most the structural rank, hence equal to it if all blocks have full rank.", "quantifier": "every square file in range whose duplicate entries do not cancel modulo 42013, every content of uninitialised memory", "why_tests_cant": "The identity links the combinatorial output of the program with the values of all matrices that have this pattern; tests compare a few determinants of small matrices.", "anchors": ["tools/dm.c: main", "src/spasm_dm.c: spasm_dulmage_mendelsohn"]}
{"id": "C87", "title": "What the results of solve depend on", "statement": "The warnings of solve about rows without a solution depend only on the row space of the matrix and on the right-hand side, not on the options, the schedule or the random numbers. For the same matrix and right-hand side, the solutions written by two runs for the same row differ by a combination of the rows written by kernel --left; if the rows of the matrix are independent, the solutions written are the same.", "quantifier": "all pairs of files in the two formats whose repeated entries do not cancel, right-hand sides with as many columns as the matrix, all primes, all schedules, random numbers and heuristic decisions, with the settings for which C54 shows that solve is right", "why_tests_cant": "The runs are nondeterministic (threads, random numbers, elapsed time); the claim compares all pairs of runs on all matrices.", "anchors": ["tools/solve.c: main", "src/spasm_solve.c: spasm_gesv"]}
{"id": "C88", "title": "The columns of the pivots are a basis of the columns", "statement": "The columns of the matrix on which the file written by echelonize has its pivots are independent (with all methods, even if the search for pivots ends early) and generate all columns of the matrix. With --rref, the file written gives the coordinates of all columns on them: the matrix is the product of its columns of pivots by the matrix written. Each row written by kernel expresses one column of the matrix (the free column, on which the row has -1) as a combination of the columns that are not free, and these are independent; with --left, the same holds for the rows of the matrix.", "quantifier": "all files in the two formats whose repeated entries do not cancel, all primes up to 0xfffffffb, all schedules, random numbers and heuristic decisions, with the dense method and without the low-rank method", "why_tests_cant": "The pivots depend on heuristics, threads and random numbers; the claim is about every choice the program can make on every matrix.", "anchors": ["tools/echelonize.c: main", "tools/kernel.c: main", "src/spasm_echelonize.c: spasm_echelonize", "src/spasm_kernel.c: spasm_kernel"]}
{"id": "C89", "title": "The rank and small changes of the file", "statement": "If k rows (or k columns) of the matrix in a file are changed, the rank printed by the program rank changes by at most k; if k rows are added, it does not decrease and increases by at most k.", "quantifier": "all pairs of files in the two formats whose repeated entries do not cancel, all primes up to 0xfffffffb, all schedules, random numbers and heuristic decisions (different for the two runs), with the dense method and without the low-rank method", "why_tests_cant": "The choice of pivots, the threads and the random numbers are different for the two files; the claim is about every pair of runs on every such pair of files.", "anchors": ["tools/rank.c: main", "src/spasm_echelonize.c: spasm_echelonize"]}
{"id": "C90", "title": "The warnings of solve and the rank", "statement": "solve prints no warning about rows without a solution exactly when the program rank prints the same number for the matrix and for the matrix with the rows of the right-hand side below it (in general the second number is at least the first). If solve prints no warning for a right-hand side, it prints none for another one whose rows are combinations of those of the first.", "quantifier": "all files in the two formats whose repeated entries do not cancel, all primes up to 0xfffffffb, all schedules, random numbers and heuristic decisions, different for each run; for solve, GPLU or the dense method when it does not process a Schur complement", "why_tests_cant": "Three runs of two programs with independent choices of pivots, threads and random numbers; the claim is about all of them on every matrix and right-hand side.", "anchors": ["tools/solve.c: main", "tools/rank.c: main", "src/spasm_solve.c: spasm_gesv"]}
