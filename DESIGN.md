# Machine-checked model of SpaSM

Subject: cbouilla/spasm, the sources in `/repo/src` and `/repo/tools`, read as
text.  The library computes with sparse matrices modulo a prime: rank, row
echelon form, LU factorization, kernels, linear solving, rank certificates,
Dulmage-Mendelsohn decomposition.  The model is written in Lean 4.33; the
theorems are about this model.

## 1. How the model is built

* `Verif/Prelude.lean` — the monad `C α` (a result or a *distinct failure*):
  `ub` (undefined behaviour in C: out-of-bounds access, signed overflow,
  out-of-range float to integer conversion, division by zero), `assertFail`,
  `exitErr` (the program calls `err`/`errx`), `fuel` (a loop ran longer than the
  bound given in the model; every theorem proves that this does not happen, so
  each theorem is also a termination proof).  Arrays are read and written
  through `rd`/`wr`, which fail with `ub` out of bounds.  All theorems have the
  form "the run ends normally *and* the result satisfies ...", so they include
  memory safety, assertion safety and termination under the stated
  preconditions.
* `Verif/Model/*` — one definition per C function, with the same name, the same
  loops (a `for` loop is `forRange`, a `while` loop is `whileFuel`) and the same
  arrays, citing file and lines.
* `Verif/Spec/*` — specification vocabulary independent of the model code:
  matrices over `ZMod p`, well-formedness, reachability, matchings, ...
* `Verif/Proofs/*` — helper lemmas.  `Verif/Props/*` — the property theorems,
  each with a comment naming the property and an `example` (or a named witness)
  showing that its hypotheses are satisfied by a concrete non-trivial case.

Uninitialised memory (`malloc`) is modelled by an arbitrary array given as an
argument, universally quantified in the theorems.

Parallel regions: (a) the numerical content of a parallel loop is modelled with
an arbitrary order (permutation) of the iterations, all theorems being for all
orders; (b) the low-level protocols (critical section + `writing` counter +
realloc; atomic capture; optimistic transactions with a journal) are modelled as
transition systems with an arbitrary number of threads interleaved arbitrarily
under sequential consistency.

## 2. Plan per property

| Id | Model | Statement and proof |
|----|-------|---------------------|
| C01 | `ZZp` functions on `Int` with i64 range checks, doubles as exact rationals rounded by an IEEE round-to-nearest-even function to 53 bits | result congruent mod p and in `[mhalfp, halfp]`; relative error bound 2^-53 per operation; also for the fused variant |
| C02 | `gcdext` loop with fuel | loop invariant `t*a = r`, `u*a = s` mod p, bounds on `t,u` |
| C03 | `scatter`, `xApy`, `Axpy` | loop invariants over partial sums in `ZMod p` |
| C04 | `transpose` | counting-sort invariant; entries as a list per row |
| C05-C07 | permutation routines | loop invariants; `Equiv.Perm` |
| C08 | `submatrix` | row-wise filter; reversed range: witness of undefined behaviour |
| C09, C10 | `add_entry`, `compress`, `deduplicate`, `remove_explicit_zeroes` | history induction; compress partial (see defects), exact result for all inputs (`Spec/Stale.lean`) |
| C11 | `csr_realloc`, `csr_resize` | direct |
| C12, C13 | `dfs`, `reach` | stack machine invariant, measure for termination, reachability as `Relation.ReflTransGen` |
| C14 | `sparse_triangular_solve` | invariant over the topological order |
| C15 | `dense_back_solve`, `dense_forward_solve` | invariant `b = b0 - x*L` |
| C16, C17 | `solve`, `gesv` | from C15; arbitrary append order for gesv |
| C18-C20 | `kernel`, `kernel_from_rref`, `rref` | from C14 with arbitrary commit order; the final loops of `rref` in any order (`Model/RrefLoops.lean`) |
| C21, C22 | `schur` + commit protocol | from C14; inductive invariant on the transition system |
| C23 | `register_pivot`, `find_FL_pivots`, `find_FL_column_pivots` | matching + acyclicity (rank function) invariants |
| C24 | transactional search as a transition system | inductive invariant over all interleavings |
| C25 | `pivots_reorder`, `pivots_extract_structural` | from C13 |
| C26 | `echelonize_GPLU` | loop invariant: valid U, span, L*U |
| C27, C28 | driver `spasm_echelonize` | composition of C21-C26, C29, C30 by an invariant on the state of the driver; parallel parts, FFPACK, random numbers and floating-point decisions are parameters (`Env`), constrained only by `Env.Possible`; defects recorded below |
| C29, C30 | dense Schur complement and transfer; FFPACK is a parameter with an assumed specification | loop invariants |
| C31 | matching | alternating-path invariant; Konig cover for optimality |
| C32 | matching permutations | direct |
| C33 | SCC (Tarjan variant) | DFS invariants |
| C34 | DM decomposition | from C31 (maximality), C33 |
| C35 | SHA-256 | streaming state refines (blocks, pending bytes); FIPS spec written separately |
| C36 | PRNG over an arbitrary hash function | state machine |
| C37, C38, C40 | certificates | algebra from C03, C16 |
| C47 | `find_FL_pivots` | every column in which some row starts gets a pivot, in a sparsest such row |
| C46 | accepted certificates | counting: images of linear maps over a finite field |
| C39, C41 | files as character lists, decimal printing/scanning | round-trip by list induction |
| C42 | datatypes: float/double as rounding to 24/53 bits | exactness of small integers |
| C43-C45 | `tools/stack.c`, `vertical_swap.c`, `transpose.c`, `check_cert.c`, `bitmap.c`; `save_pbm`/`save_pnm` | which entry goes where, as statements about the matrix described by a file; which pixels are black |
| C48 | `triplet_load` with a hash | the digest is that of the bytes of the file (C35) |
| C49 | `triplet_load` on an arbitrary file | every run ends in a well-formed triplet, an error message, or (numbers out of range, `C49_unsafe`) undefined behaviour |
| C50 | `tools/dm.c` | from C34: the file written is the permuted matrix, the report agrees with it (undefined if n + m >= 2^31 and all rows can be matched, `C50_overflow`) |
| C51-C54 | `tools/rank.c`, `kernel.c`, `echelonize.c`, `solve.c` | composition of C41 (reading), C09/C10, C27/C28, C18-C20, C17 and C41 (writing): statements from file to file |
| C56 | `spasm_schur_estimate_density`, the initial size in `spasm_schur` (`Dbl`: rounded rationals, infinities, NaN) | counting the nonzero coordinates of reduced rows, uniqueness of reductions; error bounds of rounding |
| C57 | the driver with its floating-point decisions (`Model/Numeric.lean`) | refinement: every run is a run of the driver of C27/C28 for some decisions; for the shapes and options for which a decision may be undefined, a run is undefined or a run of that driver (`Props/NumericAny.lean`) |
| C58 | `struct echelonize_opts` as the caller fills it (`Model/Options.lean`) | each option does what `spasm.h` and the help say: thresholds with error bounds, independence from the methods that are disabled |
| C59 | command lines of `rank`, `kernel`, `solve`, `echelonize` | fold over the list of options against "the last value given, else the default" |
| C60 | `main` of `rank`, `kernel`, `solve`, `echelonize` (`Model/Main.lean`) | composition of C59, C57 and C51-C55; the same for all shapes and options, up to undefined behaviour (`Props/MainAny.lean`) |
| C61 | `spasm_save_pnm` in gray levels | exact counts per pixel; rounding of each operation, `exp` and `log` assumed monotone and accurate |
| C62 | `tools/bitmap.c` from the file to the image | error bounds for the square root and the two products, then C45 and C61 |
| C63 | the pointers of all structures (`Model/Heap*.lean`): allocation, reallocation, freeing, and which blocks are used, in the library and in the programs; all decisions that depend on data come from an arbitrary sequence | separation logic over multisets of blocks (`Proofs/HeapLogic.lean`), one triple per function; plain statements about multisets of blocks in `Props/Heap.lean` |
| C64 | the five places where a 64-bit position or number of entries goes through an `int` (`Model/Width.lean`, and `tools/stack.c` in `Model/Tools.lean`) | equality with the other model below `2^31`; undefined behaviour above, by an invariant up to the first far position |
| C65 | `spasm_ffpack.cpp`, `spasm_datatype_choose` (`Model/FfpackGlue.lean`) | the documentation of the library (`Spec/FfpackLib.lean`) implies the specification of `Spec/Ffpack.lean`; successive exchanges against the permutation as a function |
| C66 | command lines and `main` of `bitmap`, `dm`, `check_cert` (`Model/MainTools.lean`) | fold over the list of options, then C62, C45, C50, C44 |
| C67 | `spasm_echelonize_test_completion` with its number of samples (`Model/Samples.lean`), GPLU and the driver | gaps between powers and 2^128 for the rounding errors; a run with the test and a run with a corrected test are equal unless the test errs in one of at most 99 states that do not depend on the random numbers; union bound; for the programs, the decisions based on floating-point numbers do not depend on these random numbers either (`Proofs/Draws.lean`) |
| C68 | `spasm_human_format`, message of `spasm_compress` (`Model/Human.lean`) | the quotient is rounded to 53 bits, then to a tenth: units are multiples of 1000, so that ties are exact or far away |
| C69 | the workspace `xj` as one array, `int` products in its size (`Model/Workspace.lean`) | simulation (`Sim`): every result of the model with three arrays is a result of the model with one; as the first one never fails, they are equal |
| C70 | the commit protocol with store buffers (`Model/StoreBuffer.lean`) | simulation (`BSim`): the writes pending in all buffers, in the order of the steps without buffers, lead from the memory to a state reachable without buffers; pending writes of different threads have no location in common |
| C71 | the transactional pivot search with store buffers (`Model/GreedyBuffer.lean`) | simulation (`GSim`): without buffers, the registration of a pivot takes place when its write to `qinv` reaches the memory |
| C72 | `spasm_schur_dense_randomized` with its generator and its threads, and the completion test (`Model/RandomRows.lean`) | each iteration computes the same row as the sequential model with a fixed table of random numbers (`fixedDraw`); threads write disjoint rows; a vector orthogonal to 130 given vectors, beginning with eleven zeros, makes a matrix of rank one that GPLU abandons at its first test |
| C73 | `spasm_echelonize`, `spasm_kernel`, `spasm_rref` with the workspaces of C69 and the store buffers of C70 and C71 together (`Model/Machine.lean`) | each phase has the same outcomes as in the simpler model (its precondition holds by the invariant of the driver), hence the driver behaves as in an environment of C27; `Env.Possible` only requires outcomes when the preconditions hold |
| C74 | `spasm_kernel`, `spasm_rref`, `spasm_kernel_from_rref` after two runs of `spasm_echelonize` (no new model; `Spec/Repro.lean`, `Spec/Order.lean`) | a vector of the kernel that is zero on the columns without pivot is zero (descending induction on the rows of `U`), so that the rows of the kernel, and likewise of the reduced echelon form, are determined by the row space and the pivotal columns; two explicit schedules of three threads with different pivotal columns |
| C75 | `spasm_triplet_load` and `spasm_compress` with sizes in bytes, signed dimensions and `nzmax` as a field; sizes of the dense blocks (`Model/Bytes.lean`) | simulation (`Ref`): same outcome as the model where arrays have the size asked for, or end of the program for lack of memory; the number of entries is bounded by the number of iterations |
| C76 | `spasm_rank_certificate_load`, `spasm_factorization_verify` with blocks that are granted or not (`Model/CertMem.lean`) | a null pointer is an array without cells; same computation when all blocks are granted |
| C77 | the text written by `spasm_csr_save`, `spasm_triplet_save` and `spasm_rank_certificate_save`, cut anywhere, then read (no new model) | the beginning of a list of lines is some lines and the beginning of a line; the beginning of a positive number is a positive number, hence no incomplete line is the final line of zeroes |
| C78 | the programs `echelonize`, `kernel`, `rank`, `transpose`, `dm`, `vertical_swap` and `stack`, chained (no new model) | invariants of the driver: no repeated column in `U`, no explicit zero unless `L` is computed; a file describes one matrix only (loading is a function); linear algebra of the double orthogonal |
| C79 | `spasm_triplet_load` on any text (no new model; `Spec/Lax.lean`) | inversion of `sscanf`: what the scanners accept is a decomposition of the line; induction on the fuel of the loops for soundness, on the list of lines for completeness |
| C80 | `tools/transpose.c`, `stack.c`, `vertical_swap.c`, `dm.c` with other moduli than 42013 (no new model; `Spec/Integers.lean`) | from C04, C34, C43, C78: the values written are balanced residues modulo 42013, and a small integer is its own residue |
| C81 | `spasm_rank_certificate_load` on any text (no new model; `Spec/LaxCert.lean`) | as C79: inversion of the scanners; a fold over the lists of numbers |
| C82 | the programs `rank`, `echelonize`, `kernel` on two files (no new model) | from C51-C53, C78: each result is determined by the row space; sums over lists of entries are invariant |
| C83 | the programs `rank` and `dm --verbose` on the same file (no new model) | the coarse decomposition gives a cover of the entries by rows and columns, of the size of the largest matching; the rank is at most the size of a cover (C34, C50, C51) |
| C84 | the programs `echelonize --rref` and `kernel` on two files (no new model) | a vector of the row space is determined by its values on the columns of the pivots, one of the kernel by those on the others (C52, C53, C78, `FreeRows`) |
| C85 | `tools/dm.c`, `src/spasm_dm.c` | from the specification of C34 alone (`Spec/Dm`): rows reached by alternating paths are missed by some largest matching, closed sets of the square part are tight sets, hence the parts, the components and the numbers printed do not depend on the matching; duality with the transpose |
| C86 | `tools/dm.c` | from `C85_written`: with a matching of all rows the horizontal and vertical parts are empty; block triangular determinant and signs of the two permutations; Leibniz formula for the matching; the rank of a block triangular matrix is at least the sum of those of its blocks |
| C87 | the program `solve` on two files (no new model) | from C54: a row has a solution if and only if it is in the row space; two solutions differ by a vector of the left kernel (C52) |
| C88 | the programs `echelonize` and `kernel` (no new model; `Spec/Columns.lean`) | from C52, C53, C84: relations between columns of the matrix hold in its row space; triangular system on the pivots |
| C89 | the program `rank` on two files (no new model) | from C51: dimension of a sum of row spaces |
| C90 | the programs `solve` and `rank` (no new model) | from C51, C54: a row has a solution exactly when it is in the row space; equality of nested spaces of the same dimension |
| C55 | `tools/rank.c --certificate` | composition of C28, C37, C38, C40, C48 and of the text of certificates |

## 3. Defects of the code found while modelling

For each of them the negation of the property is proved with a concrete witness
and the property that does hold is proved under the suffix `_partial`.

1. `spasm_triplet.c:36-58` `remove_explicit_zeroes` overwrites `Ap[i+1]` with the
   compacted value before row `i+1` is scanned, so that after a cancellation the
   next row is scanned from a wrong start and stale entries leak into it (C10).
   As a consequence `rank` prints 2 for a file whose matrix has rank 1 (`C82_cancel`).
2. `spasm_certificate.c:264-265` reads the `j` list of the file into `proof->i`;
   `proof->j` stays uninitialised (C39).
3. `tools/check_cert.c:77-81` prints "CORRECT" for rejected certificates and
   "INCORRECT" for accepted ones (C44).
4. `spasm_echelonize.c:59,85` compares `U->n` (all pivots so far) with
   `min(A->n, m)` of the *current Schur complement* (C26, C27).  Harmless when the
   number of rows is at least twice the rank (C27_many_rows).
5. `spasm_echelonize.c:369` `n -= rr` forgets the last `rr` rows, also for the
   completion test (C27).
6. `spasm_kernel.c:163` stores `prime - 1` in an `i32`: not balanced, and not
   congruent to -1 when p > 2^31 (C19).
7. `spasm_submatrix.c:38` writes `Bp[r_1 - r_0]` with a negative index if
   `r_1 < r_0` although the sizes are clamped to 0 (C08).
8. `spasm_io.c:116-141` rejects MatrixMarket files with zero entries (C41).
9. `spasm_schur.c:43,71` divides by `m - U->n`, 0/0 converted to an integer when
   all columns are pivotal and rows remain (C56_nan).
10. `spasm_permutation.c:105-117` uses `rand() % i` (not `i+1`): always a single
   n-cycle (C07 still holds: it is a permutation).
11. `spasm_echelonize.c:399,254` array `pivotal` has `A->n` entries (rows of the
   current Schur complement) but is indexed by rows of the original matrix (C28).
12. `spasm_dm.c:143` when the square part is empty the function returns early with
   `nb = 0` and `r`, `c` holding workspace data (C34).
13. `spasm_echelonize.c` dense path with `U` still empty and a first chunk of rank 0
   (no structural pivot search, a block of zero rows): `spasm_csr_realloc(U, 0)`
   calls `realloc(ptr, 0)`, `U->x` becomes NULL, and the next chunk dereferences
   it (C30_empty).
14. `spasm_echelonize.c` `echelonize_dense` switches to low-rank mode with the bound
   `min(A->n, A->m) - U->n` where `A` is the current Schur complement and `U` has
   all the pivots: the bound may be <= 0 and the remaining rows are dropped (C27).
15. `spasm_echelonize.c:345,553` as for 9: when all columns are pivotal and rows
   remain, 0/0 is converted to an integer in the driver, or `ceil(x / 0.)` in the
   low-rank method.  C57_nan: this happens with the default options for every matrix
   with more rows than columns in which each column is the leftmost one of some row
   (for instance an identity matrix with one more row).
16. `spasm_echelonize.c:347-374` the loop of the low-rank method may never stop:
   when an iteration finds nothing and the completion test fails, the weight is set
   to 0 and every later iteration draws the same combinations (C27_stuck).
   Conversely `w *= 2` is repeated without bound (undefined on overflow).

17. `tools/rank.c:83-87` transposes a matrix with fewer rows than columns (default),
   but the certificate carries the hash of the file, and `tools/check_cert.c` does
   not transpose: such certificates do not verify on the matrix of the file
   (C55_wide).
18. `tools/check_cert.c` ignores the result of `spasm_rank_certificate_load`: if the file does not start with a number,
   pointers that were never set are used (C63_check_cert_unread).
   Together with 2 and 3: for every certificate of a nonzero rank there is a content
   of the memory with which the tool says "CORRECT certificate" (C44_blind).
19. `tools/solve.c` does not compare the number of columns of the right-hand side with
   that of the matrix: fewer columns give out-of-bounds reads (C17_narrow,
   C54_narrow), extra columns are ignored and a system without solution is reported
   as solved (C17_ignored).
20. `spasm_io.c` loader: numbers that do not fit are undefined behaviour for `sscanf`,
   `i - 1` overflows, negative dimensions are accepted (C49_unsafe).
21. `spasm_io.c` images: `x * y` overflows an `int` (C45_overflow); a gray or colour
   image of a matrix without rows or columns divides by zero (C45_color_empty); gray
   images of a matrix without entries compute 0/0 and fail an assertion (C61_no_entry);
   `tools/bitmap.c` computes the height by an integer division that gives 0
   (C45_bitmap_height, C45_zero; C62_width and C62_height for all files).
22. `spasm.h:97,100,105` say that a negative `max_round` or `sparsity_threshold` means "keep
   going" and a negative `tall_and_skinny_ratio` means "don't".  A negative `max_round`
   gives no round at all (C58_rounds_negative), a negative threshold stops before the first
   Schur complement (C58_threshold_negative), a negative ratio always selects the low-rank
   method (C58_aspect_negative).
23. `tools/echelonize.c:30` reads the modulus with `atoi`: moduli between 2^31 and 2^32, which
   the library accepts, are undefined (C59_atoi).
24. Consequence of 15 for `tools/rank.c`, which transposes matrices with fewer rows than
   columns: the default options are undefined on wide matrices in which each row is the
   first nonzero row of some column, for instance any nonzero matrix with one row and
   several columns (C60_wide).
25. `tools/bitmap.c:56-58`: the size computed without option is truncated, hence 0 rows when
   there are more than a million columns for each row: out-of-bounds write (C62_elongated).
26. `spasm_strongly_connected_components` never frees `prev`; `spasm_dulmage_mendelsohn`
   never frees `jmatch` and `imatch`, nor `qinv` when there is a square part: memory
   leaks (C63_scc_leak, C63_dm_leak).  The programs `rank --certificate`, `kernel`, `solve`,
   `vertical_swap` and `dm` do not free all their results, which is harmless.  The comment
   "FIXME potential memleak" of `spasm_echelonize` is wrong: nothing is lost there (C63_echelonize).
27. Matrices with `2^31` entries or more, which the data structures (`i64`) allow:
   `spasm_compress` counts the entries with an `int` (spasm_triplet.c:124, signed overflow,
   C64_compress, C64_file); `spasm_rref` (line 137), `spasm_kernel_from_rref` (line 149) and
   `spasm_strongly_connected_components` (line 61) put positions into an `int`, which becomes
   a negative index (C64_rref, C64_kernel_from_rref, C64_scc); `tools/stack.c` has
   `int nz` and writes a matrix of size 0 x 0 with all its entries (C64_stack).

28. `tools/dm.c --image q`: as for `bitmap` (25), the number of rows of the image is 0 for a
   matrix with more than about `q * 10^6` columns per row: access out of bounds (C66_dm_elongated).

29. `src/spasm_triplet.c:154`: the size announced by `spasm_compress` is stored in an `int` and
   wraps around from 2^31 bytes on (C68_wrapped; the message only). `spasm_human_format` writes
   nothing from 10^15 on, and its callers then print an uninitialised array (C68_huge).
30. `src/spasm_echelonize.c:77`, `src/spasm_schur.c:24,90,285`, `src/spasm_rref.c:47`,
   `src/spasm_kernel.c:45`: the size `3 * m` of the workspace is a product of type `int`: undefined from
   715827883 columns on, although dimensions up to 2^31 - 1 are accepted (C69_limit, C69_witness).
   Likewise `2*Sm` and `2*n` in `src/spasm_echelonize.c:236-237` from 2^30 on (C69_room_limit).
31. `src/spasm_schur.c:147-148,174-175`, `src/spasm_rref.c`, `src/spasm_kernel.c`: `writing` is updated by
   `omp atomic update` without memory-order clause, which is relaxed since OpenMP 5.0, and `flush(writing)` with a list
   orders nothing else.  If a relaxed update may overtake earlier writes of its thread, a thread can
   reallocate while the entries of another one are on their way, and they go to freed memory (C70_relaxed).
   On x86, where the update is an instruction with `lock` prefix, this does not happen (C70_safe_partial, C70_final_partial).
   Likewise `npiv` in `src/spasm_pivots.c:248-249`: another thread can see the new value of `npiv` before the new pivot,
   and the pivots chosen make a cycle (C71_relaxed; C71_safe_partial, C71_final_partial on x86).

32. `src/spasm_certificate.c`: the challenge depends on the matrix only (the comment of lines 18-19 warns about this), rows and columns may
   be listed several times: for every matrix of which some row contains all the residues, certificates of any rank from
   the number of rows on can be made and are accepted (C46_forged).  A negative rank in a file is not refused
   (C39_negative) and is accepted for a zero matrix (C39_negative_accepted).

33. `src/spasm_schur.c:369`: the generator is seeded with the number of the combination only, so that the combinations are
   the same in all calls and in all runs.  For each prime there is a matrix of rank 1 (with 142 rows and one column) that the completion test always
   takes for zero (C72_blind), and `spasm_echelonize` with `max_round = 0` (option `--max-iterations` of the tools) and GPLU always returns rank 0 for
   it (C72_rank).  The probabilities of C67 hold for random tables, not for these ones.

34. `src/spasm_schur.c` (rows committed in any order) and `src/spasm_pivots.c` (`spasm_find_FL_column_pivots` takes the first rows first):
   the set of pivotal columns depends on the schedule, hence so do the kernel and the reduced echelon form that the tools write
   (C74_race: a matrix with 4 rows, whose Schur complement is computed by three threads).  Not an error as long as nobody
   compares the output of two runs; the fixed seeds of the generators do not make runs reproducible.
35. `src/spasm_util.c:113-115`: `nzmax * sizeof(int)` wraps around.  A MatrixMarket file that announces `2^62 + 1` (or `-2^62 + 1`)
   entries gets arrays of one cell while `nzmax` is huge, and `spasm_add_entry` writes the second entry outside (C75_load_overflow).
36. `src/spasm_util.c:97`: `n + 1` overflows an `int` for a matrix of `2^31 - 1` rows (C75_rows_limit); a file that announces `-1` row
   and has no entry makes `A->p[0] = 0` write in a block of 0 bytes (C75_rows_negative).
37. `src/spasm_certificate.c:175-178, 249-252`: the result of `malloc` is not checked.  A certificate file of 80 bytes that announces `2^31 - 1` rows
   makes `check_cert` write at a null pointer if there is no block of 8 GB (C76_load_null); the same in the verification of factorizations (C76_verify_null).
38. `src/spasm_certificate.c:262-269`: the results of the `fscanf` that read the lists are not checked, so that a certificate file cut after its
   third line is accepted, with the contents of uninitialized memory as certificate (C77_certificate_lost).
39. `tools/transpose.c:6`, `stack.c:14`, `vertical_swap.c:10`, `dm.c:43`: the modulus 42013 is written in the program, without an option, so that
   the values of a matrix meant for another modulus are silently replaced by their residues modulo 42013 (C80_modulus, C80_modulus_dm); the structural rank printed by `dm` can be smaller than the rank
   (C83_large).
40. `src/spasm_certificate.c:255-261`: the length of the line of the hash is not checked; the bytes that are missing are read from the
   uninitialized array `hash` (C81_hash_unset), and characters that are not hexadecimal digits are read as zeroes.

The driver-level consequences are witnessed by complete runs of the model in
`Props/EchelonizeLimits.lean`: `C27_premature` (4), `C27_lowrank` (5),
`C28_pivotal` (11), `C27_null` (13), `C27_switch` (14), `C27_stuck` (16).

Other facts noticed while modelling, without effect on the theorems but relevant
to a user: `w` in the greedy pivot search is a plain `char` holding -1 (needs a
signed `char`); the search reads `qinv` without synchronisation (a data race in
the sense of the C memory model; the model assumes sequential consistency or store buffers, C24, C71), and a
row with repeated column indices would make it count a column twice; counters are
read by progress messages outside of the critical sections; `spasm_scc.c:61`,
`spasm_rref.c:137` and `spasm_kernel.c:149` store an `i64` position in an `int`
and `spasm_compress` has an `int` loop counter over `i64 nz` (C64); `spasm_matching.c` submatching asserts `< d` where `< d - c` is
meant (C32_weak_assertion); `spasm_certificate_rank_verify` does not check that
the listed rows or columns are distinct, and takes the coefficient `0x7fffffff` of
a forged certificate for "not listed" (C38 and C46 are proved with both); the counter of the generator is an `int` and overflows after 2^31 - 1
blocks (C36-C40 assume it is not reached); `spasm_factorization_verify` always
runs with `complete = 0`; the comment of `spasm.h` on the mask says "smallest
2^i > prime", the code gives the smallest 2^i >= prime; `spasm_structural_rank`
is declared but not defined; `fact->complete`
is not initialised when `L` is not asked for; the help of the programs says "<=" and
">=" for ratios that are compared strictly, and "Don't use FFPACK" for an option that
disables only one of its three uses; with only the dense method enabled and a matrix that is not dense enough, no finishing method
runs and `U` is incomplete without any error (C27 excludes this: `NoMethod`);
`spasm_gesv` dereferences `fact->L` before asserting that it is not NULL;
`tools/dm.c` adds `rr[2] + cc[4]` in an `int` (overflow if n + m >= 2^31 and all rows can be matched: `C50_overflow`),
`spasm_dm_alloc` computes `m + 6` in an `int` (overflow for the six largest dimensions; not modelled), and `tools/dm.c` leaves
`mpix` uninitialised without `--image`; `tools/stack.c` stores `nz` in an `int`; a
line of a file with a NUL byte is hashed only up to that byte; `spasm_human_format`
leaves its target uninitialised for n >= 10^15; an SMS file without entries gives a
triplet whose `x` is the result of `realloc(_, 0)`; when `L` is computed, the dense
method stores explicit zeros in `U` (`update_fact_after_LU`, src/spasm_echelonize.c:302-309, has no test,
unlike `update_U_after_rref`; C30_explicit_zero), which the functions that follow accept;
decimals in a file are cut at the point without a warning (`0.5` is read as zero, C79_decimals), and numbers need
not be separated (`1+2-3` is an entry).

## 4. Trusted base

* Lean's kernel (Lean 4.33.0) and, in the theorems that use them, the three
  standard axioms `propext`, `Classical.choice`, `Quot.sound`.  No other axiom,
  no `sorry`, no `native_decide`/`bv_decide`.
* The reading of C that is written into the model: sizes and positions are
  natural numbers (positions that go through an `int` are modelled in `Model/Width.lean`
  and `Model/Tools.lean` only, see C64; products of dimensions of type `int` in `Model/Workspace.lean`, see C69; sizes in
  bytes, `n + 1` for the largest dimension and lack of memory in `Model/Bytes.lean`, for the input of matrices and the dense blocks, see C75; lack of memory also in `Model/CertMem.lean`, see C76; no other
  overflow of `i64` positions is modelled), elsewhere `malloc` and `realloc` never fail and return arbitrary contents, `i32` matrix
  coefficients are modelled with the range checks of `ZZp`, `double` operations
  of `ZZp` are modelled with rounding.  Progress output and timing are not modelled;
  `free` is modelled in `Model/Heap*.lean` only.
* The model of the heap (C63) has blocks with the pointers they hold and nothing else: no sizes, no data.  Conditions,
  numbers of iterations and the behaviour of `realloc` (block freed and NULL returned, block kept, block moved) are read
  from an arbitrary finite sequence, so that the executions of the code are among those of the model.  Addresses are
  never reused, so that a use after free is always visible.  Threads are run one after the other.  Passing NULL where
  the code dereferences it ends the run and is not excluded by C63.  That `Cx != NULL` is evaluated after the block
  has been freed in `spasm_compress` (comparison of an invalid pointer) is not counted as a use.
* OpenMP: `critical` is a lock, `atomic` is one step, other shared accesses are
  sequentially consistent; a parallel loop distributes the iterations in any way.
  For the commit protocol and the pivot search, `Model/StoreBuffer.lean` and `Model/GreedyBuffer.lean` replace sequential
  consistency by store buffers (writes delayed and reordered, entrance and exit of `critical` wait for the buffer,
  C70, C71; for whole runs of the driver, C73); reads performed early and
  reorderings by the compiler are not modelled.
* The driver `spasm_echelonize` (`Model/Echelonize.lean`) is modelled with an
  environment `Env`: the results of the greedy pivot search and of the two parallel
  Schur complements are any results that their own models allow (`Env.Possible`;
  `C27_env` shows that such environments exist), random numbers are arbitrary
  balanced residues, and every decision based on floating-point estimates (density,
  aspect ratio, block weight, size of the sample) is an arbitrary boolean or number.
  `Model/Numeric.lean` computes these decisions as the code does; `C57_refine_partial`
  connects it with the former.  The size of the sample (`ceil(128 / log2(prime))`) stays
  a parameter, and `-log(0.01)` is a parameter between 0 and 5.
  `spasm_schur_estimate_density` is modelled separately (`Model/Density.lean`, C56).
* `double` values outside of `ZZp` (`Dbl`) are rationals rounded to 53 bits, infinities or
  NaN; overflow of a rational beyond the range of `double`, subnormal numbers and the
  sign of zero are not modelled (the quantities involved are far from these limits).
* Files are lists of characters.  The C library functions used on them (`fgets`,
  `sscanf`, `fscanf`, `fprintf`, `tolower`, `strcmp`, `strncmp`) are modelled for the
  formats that occur, in the "C" locale; I/O errors of the operating system,
  messages on standard error (except the verdicts, ranks and
  warnings named in the theorems), the libraries `argp` and `getopt` (a command line is the
  list of options they recognise, with their arguments) and `atof` (a parameter) are not
  modelled.
* `exp`, `log` and `sqrt` are parameters.  For images (`LibM.Good`, `LibM.Sqrt`) they are
  assumed to have the values required by the C standard at 0, 1, infinities and NaN, to be
  monotone (`exp`, `log`), and to be accurate to 2^-40 (absolute, `exp` and `log`) or 2^-51
  (relative, for the square of `sqrt`).  `exLibM` shows that such functions exist.  `log2` is
  assumed accurate to 2^-40 (absolute) on 32-bit integers (`Log2`; `exLog2` shows that such functions exist).
* Probabilities (C27, C46, C67) are proportions of tables of residues: the generator based on a hash function is
  replaced by an ideal one.
* Programs of `/repo/tools` are modelled from the options (given as arguments) to the
  content of the files written; `rank`, `kernel`, `solve` and `echelonize` (C60), `bitmap`, `dm`
  and `check_cert` (C66) also from the command line, files that cannot be written excepted.  `tools/rank.c`, `kernel.c`, `echelonize.c`, `solve.c`,
  `transpose.c`, `stack.c`, `vertical_swap.c`, `dm.c`,
  `check_cert.c` and `bitmap.c` are covered.
* FFPACK (dense LU and rref, called by `spasm_ffpack.cpp`) is a parameter with an assumed
  specification (`Spec/Ffpack.lean`), stated as hypotheses of the theorems that
  use it: the result has the documented shape, the factors are balanced residues
  and their product is the input modulo p.  `C30_library` shows that for every
  prime this specification is realizable.  This specification is
  proved (C65_library) from the documentation of the library as we know it (`Spec/FfpackLib.lean`;
  not available here): factors in one array, permutations as successive exchanges, exactness
  when `((p-1)/2)^2` fits in the number type.  The representation of results for
  p = 2 depends on the conventions of the library; the model takes balanced
  residues.  `rand()` and the hash function are
  arbitrary parameters where they are only used as sources of numbers.
