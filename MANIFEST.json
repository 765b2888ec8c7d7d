{
 "claims": [
  {
   "property": "C01",
   "status": "proved",
   "theorems": [
    "Spasm.C01_field_init",
    "Spasm.C01_init",
    "Spasm.C01_add",
    "Spasm.C01_sub",
    "Spasm.C01_mul",
    "Spasm.C01_axpy",
    "Spasm.C01_mul_any_rounding",
    "Spasm.C01_axpy_any_rounding",
    "Spasm.C01_axpy_fma",
    "Spasm.C01_unique",
    "Spasm.C01_ieee_rounding"
   ],
   "note": "ZZp arithmetic proved for every rounding of the double operations and for IEEE rounding to nearest."
  },
  {
   "property": "C02",
   "status": "proved",
   "theorems": [
    "Spasm.C02_inverse",
    "Spasm.C02_inverse_zero"
   ],
   "note": ""
  },
  {
   "property": "C03",
   "status": "proved",
   "theorems": [
    "Spasm.C03_scatter",
    "Spasm.C03_xApy",
    "Spasm.C03_Axpy"
   ],
   "note": ""
  },
  {
   "property": "C04",
   "status": "proved",
   "theorems": [
    "Spasm.C04_transpose",
    "Spasm.C04_transpose_twice"
   ],
   "note": ""
  },
  {
   "property": "C05",
   "status": "proved",
   "theorems": [
    "Spasm.C05_pinv",
    "Spasm.C05_pvec",
    "Spasm.C05_ipvec",
    "Spasm.C05_pvec_ipvec",
    "Spasm.C05_range_pvec"
   ],
   "note": ""
  },
  {
   "property": "C06",
   "status": "proved",
   "theorems": [
    "Spasm.C06_permute"
   ],
   "note": ""
  },
  {
   "property": "C07",
   "status": "proved",
   "theorems": [
    "Spasm.C07_random_permutation"
   ],
   "note": ""
  },
  {
   "property": "C08",
   "status": "partial",
   "theorems": [
    "Spasm.C08_submatrix_partial",
    "Spasm.C08_reversed_range_ub"
   ],
   "note": "Full statement for r0 <= r1; for r1 < r0 the code indexes Bp at a negative position (C08_reversed_range_ub)."
  },
  {
   "property": "C09",
   "status": "proved",
   "theorems": [
    "Spasm.C09_add_entries",
    "Spasm.C09_add_entry",
    "Spasm.C09_triplet_transpose"
   ],
   "note": ""
  },
  {
   "property": "C10",
   "status": "partial",
   "theorems": [
    "Spasm.C10_exact",
    "Spasm.C10_rows_unique",
    "Spasm.C10_excess",
    "Spasm.C10_before",
    "Spasm.C10_compress_safe",
    "Spasm.C10_compress_partial",
    "Spasm.C10_compress_pattern",
    "Spasm.C10_cancellation_wrong"
   ],
   "note": "Full statement when repeated entries do not cancel outside the last row; safety for every input; the code is wrong on cancellations (C10_cancellation_wrong). For every input, the exact result is given by C10_exact, C10_rows_unique and C10_excess: the right entries plus those left in front of the row by the previous ones; the rows up to the first one with a cancellation are right (C10_before). Positions are not truncated in this model: for matrices with 2^31 entries or more, see C64."
  },
  {
   "property": "C11",
   "status": "proved",
   "theorems": [
    "Spasm.C11_realloc",
    "Spasm.C11_resize"
   ],
   "note": ""
  },
  {
   "property": "C12",
   "status": "proved",
   "theorems": [
    "Spasm.C12_reach"
   ],
   "note": ""
  },
  {
   "property": "C13",
   "status": "proved",
   "theorems": [
    "Spasm.C13_reach_topological"
   ],
   "note": ""
  },
  {
   "property": "C14",
   "status": "proved",
   "theorems": [
    "Spasm.C14_sparse_triangular_solve"
   ],
   "note": ""
  },
  {
   "property": "C15",
   "status": "proved",
   "theorems": [
    "Spasm.C15_dense_back_solve",
    "Spasm.C15_dense_forward_solve"
   ],
   "note": ""
  },
  {
   "property": "C16",
   "status": "proved",
   "theorems": [
    "Spasm.C16_solve"
   ],
   "note": ""
  },
  {
   "property": "C17",
   "status": "proved",
   "theorems": [
    "Spasm.C17_gesv",
    "Spasm.C17_narrow",
    "Spasm.C17_ignored"
   ],
   "note": ""
  },
  {
   "property": "C18",
   "status": "proved",
   "theorems": [
    "Spasm.C18_safe",
    "Spasm.C18_result",
    "Spasm.C18_matrix"
   ],
   "note": ""
  },
  {
   "property": "C19",
   "status": "partial",
   "theorems": [
    "Spasm.C19_partial",
    "Spasm.C19_wrong_large_prime",
    "Spasm.C19_not_balanced"
   ],
   "note": "Full statement for primes <= 2^31, except that stored values are not all balanced (prime - 1 is stored: C19_not_balanced); for primes > 2^31 the basis is wrong (C19_wrong_large_prime). Positions are not truncated in this model: for matrices with 2^31 entries or more, see C64."
  },
  {
   "property": "C20",
   "status": "proved",
   "theorems": [
    "Spasm.C20_safe",
    "Spasm.C20_result",
    "Spasm.C20_unique",
    "Spasm.C20_loops",
    "Spasm.C20_loops_safe"
   ],
   "note": "The final loops, distributed among the threads, are proved independent of the order of their iterations (C20_loops). Positions are not truncated in this model: for matrices with 2^31 entries or more, see C64."
  },
  {
   "property": "C21",
   "status": "proved",
   "theorems": [
    "Spasm.C21_safe",
    "Spasm.C21_result",
    "Spasm.C21_unique"
   ],
   "note": ""
  },
  {
   "property": "C22",
   "status": "proved",
   "theorems": [
    "Spasm.Commit.C22_safe",
    "Spasm.Commit.C22_no_race",
    "Spasm.Commit.C22_progress",
    "Spasm.Commit.C22_final"
   ],
   "note": ""
  },
  {
   "property": "C23",
   "status": "proved",
   "theorems": [
    "Spasm.C23_some",
    "Spasm.C23_pivots",
    "Spasm.C23_nonzero",
    "Spasm.C23_triangular",
    "Spasm.C23_register"
   ],
   "note": ""
  },
  {
   "property": "C24",
   "status": "proved",
   "theorems": [
    "Spasm.Greedy.C24_safe",
    "Spasm.Greedy.C24_acyclic",
    "Spasm.Greedy.C24_final",
    "Spasm.Greedy.C24_progress",
    "Spasm.Greedy.C24_extract",
    "Spasm.Greedy.C24_outcome"
   ],
   "note": ""
  },
  {
   "property": "C25",
   "status": "proved",
   "theorems": [
    "Spasm.C25_choice",
    "Spasm.C25_extract"
   ],
   "note": ""
  },
  {
   "property": "C26",
   "status": "partial",
   "theorems": [
    "Spasm.C26_GPLU_L",
    "Spasm.C26_GPLU_partial",
    "Spasm.C26_premature"
   ],
   "note": "Full statement with L; without L, proved when A has at least as many rows as columns or U->n + n <= A->n, and when the randomized completion test is right when it answers yes. Otherwise the code may stop too early (C26_premature)."
  },
  {
   "property": "C27",
   "status": "partial",
   "theorems": [
    "Spasm.C27_sound",
    "Spasm.C27_returned",
    "Spasm.C27_dense",
    "Spasm.C27_clean",
    "Spasm.C27_rank_partial",
    "Spasm.C27_many_rows",
    "Spasm.C27_test",
    "Spasm.C27_draws",
    "Spasm.C27_env",
    "Spasm.C27_premature",
    "Spasm.C27_lowrank",
    "Spasm.C27_null",
    "Spasm.C27_switch",
    "Spasm.C27_stuck"
   ],
   "note": "Soundness for every option (C27_sound: U is echelon, its rows lie in the row space); the full statement with the dense method (C27_dense); in general the full statement unless the search ended early (C27_rank_partial), which the completion test makes unlikely (C27_test, by counting). The code may return a smaller rank (C27_premature, C27_lowrank, C27_switch), dereference NULL (C27_null) or not stop (C27_stuck). The assumption on the dense library follows from its documentation: C65_library. When the number of rows is at least twice the rank, Schur complements are harmless (C27_many_rows). The echelon form never has a repeated column, and no explicit zero unless L is computed (C27_clean)."
  },
  {
   "property": "C28",
   "status": "partial",
   "theorems": [
    "Spasm.C28_complete",
    "Spasm.C28_lu_partial",
    "Spasm.C28_pivotal"
   ],
   "note": "Full statement for complete factorizations (C28_complete). For incomplete ones, proved unless the dense method is enabled and a Schur complement is computed, where the array pivotal is indexed out of bounds (C28_pivotal)."
  },
  {
   "property": "C29",
   "status": "proved",
   "theorems": [
    "Spasm.C29_safe",
    "Spasm.C29_dense",
    "Spasm.C29_unique",
    "Spasm.C29_randomized",
    "Spasm.C29_zero"
   ],
   "note": ""
  },
  {
   "property": "C30",
   "status": "partial",
   "theorems": [
    "Spasm.C30_rref_partial",
    "Spasm.C30_chunk_rref_partial",
    "Spasm.C30_lu_partial",
    "Spasm.C30_empty",
    "Spasm.C30_library",
    "Spasm.C30_explicit_zero"
   ],
   "note": "For every correct result of the dense library (specification in Spec/Ffpack, realizable by C30_library). Excluded: a rank-0 chunk while U is empty when realloc(ptr, 0) returns NULL, where the code loses U->x (C30_empty). For incomplete LU the array pivotal must cover the rows of the original matrix. The assumption on the dense library follows from its documentation: C65_library. When L is computed, explicit zeros are stored in U (C30_explicit_zero)."
  },
  {
   "property": "C31",
   "status": "proved",
   "theorems": [
    "Spasm.C31_maximum_matching",
    "Spasm.C31_rows"
   ],
   "note": ""
  },
  {
   "property": "C32",
   "status": "proved",
   "theorems": [
    "Spasm.C32_permute",
    "Spasm.C32_submatching",
    "Spasm.C32_weak_assertion"
   ],
   "note": ""
  },
  {
   "property": "C33",
   "status": "proved",
   "theorems": [
    "Spasm.C33_scc"
   ],
   "note": "Positions are not truncated in this model: for matrices with 2^31 entries or more, see C64."
  },
  {
   "property": "C34",
   "status": "proved",
   "theorems": [
    "Spasm.C34_dulmage_mendelsohn",
    "Spasm.C34_structural_rank",
    "Spasm.C34_no_boundaries"
   ],
   "note": ""
  },
  {
   "property": "C35",
   "status": "proved",
   "theorems": [
    "Spasm.Sha.C35_sha256",
    "Spasm.Sha.C35_chunking"
   ],
   "note": ""
  },
  {
   "property": "C36",
   "status": "proved",
   "theorems": [
    "Spasm.C36_seed",
    "Spasm.C36_seed_simple",
    "Spasm.C36_words",
    "Spasm.C36_residue",
    "Spasm.C36_mask",
    "Spasm.C36_bijection"
   ],
   "note": ""
  },
  {
   "property": "C37",
   "status": "proved",
   "theorems": [
    "Spasm.C37_complete"
   ],
   "note": ""
  },
  {
   "property": "C38",
   "status": "proved",
   "theorems": [
    "Spasm.C38_verify",
    "Spasm.C38_sound"
   ],
   "note": ""
  },
  {
   "property": "C39",
   "status": "partial",
   "theorems": [
    "Spasm.C39_partial",
    "Spasm.C39_rows_lost",
    "Spasm.C39_cols_lost",
    "Spasm.C39_negative",
    "Spasm.C39_negative_accepted"
   ],
   "note": "Proved: rank, prime, hash and coefficients are read back. Violated by the code: the loader reads the columns over the rows and leaves the columns uninitialised (C39_rows_lost, C39_cols_lost). A negative rank is read without error (C39_negative) and such a certificate is accepted for zero matrices (C39_negative_accepted)."
  },
  {
   "property": "C40",
   "status": "proved",
   "theorems": [
    "Spasm.C40_iff",
    "Spasm.C40_valid"
   ],
   "note": ""
  },
  {
   "property": "C41",
   "status": "proved",
   "theorems": [
    "Spasm.C41_sms",
    "Spasm.C41_mm",
    "Spasm.C41_mm_empty",
    "Spasm.C41_csr",
    "Spasm.C41_triplet",
    "Spasm.C41_compress",
    "Spasm.C41_pattern"
   ],
   "note": ""
  },
  {
   "property": "C42",
   "status": "proved",
   "theorems": [
    "Spasm.C42_product",
    "Spasm.C42_tight",
    "Spasm.C42_exact"
   ],
   "note": ""
  },
  {
   "property": "C43",
   "status": "proved",
   "theorems": [
    "Spasm.C43_stack",
    "Spasm.C43_stack_entries",
    "Spasm.C43_swap",
    "Spasm.C43_swap_twice",
    "Spasm.C43_transpose"
   ],
   "note": ""
  },
  {
   "property": "C44",
   "status": "partial",
   "theorems": [
    "Spasm.C44_inverted",
    "Spasm.C44_partial",
    "Spasm.C44_rejected_correct",
    "Spasm.C44_accepted_incorrect",
    "Spasm.C44_blind"
   ],
   "note": "Violated by the code: the two verdicts (and the exit status) are exchanged (C44_inverted, witnesses C44_rejected_correct and C44_accepted_incorrect). Whatever the certificate of a nonzero rank, some content of the memory makes the tool say that it is correct (C44_blind)."
  },
  {
   "property": "C45",
   "status": "partial",
   "theorems": [
    "Spasm.C45_bw_partial",
    "Spasm.C45_overflow",
    "Spasm.C45_color",
    "Spasm.C45_zero",
    "Spasm.C45_bitmap_height",
    "Spasm.C45_color_empty"
   ],
   "note": "Proved for images of less than 2^31 pixels and a width and height of at least 1, in black and white and in colours. Larger images overflow (C45_overflow); a width of zero, which tools/bitmap computes for some heights, is an access out of bounds (C45_zero, C45_bitmap_height); matrices without rows or columns drawn in colours divide by zero (C45_color_empty). The gray mode, which uses floating-point arithmetic, is the subject of C61."
  },
  {
   "property": "C46",
   "status": "proved",
   "theorems": [
    "Spasm.C46_forged",
    "Spasm.C46_lower",
    "Spasm.C46_upper"
   ],
   "note": "The bounds are for one choice of listed columns and rows; C46_forged shows that they do not exclude forgeries, since the challenge is known before the columns are chosen."
  },
  {
   "property": "C47",
   "status": "proved",
   "theorems": [
    "Spasm.C47_leftmost"
   ],
   "note": ""
  },
  {
   "property": "C48",
   "status": "proved",
   "theorems": [
    "Spasm.C48_hash"
   ],
   "note": ""
  },
  {
   "property": "C49",
   "status": "proved",
   "theorems": [
    "Spasm.C49_load_safe",
    "Spasm.C49_unsafe"
   ],
   "note": ""
  },
  {
   "property": "C50",
   "status": "proved",
   "theorems": [
    "Spasm.C50_overflow",
    "Spasm.C50_dm",
    "Spasm.C50_report"
   ],
   "note": "C50_overflow shows why the quantifier asks for n + m < 2^31 in the report: for larger matrices whose rows can all be matched, dm --verbose adds numbers whose sum does not fit in an int (undefined behaviour)."
  },
  {
   "property": "C51",
   "status": "partial",
   "theorems": [
    "Spasm.C51_sound",
    "Spasm.C51_rank",
    "Spasm.C51_rank_partial"
   ],
   "note": "No overestimation in general (C51_sound); equality with the dense method and without the low-rank method (C51_rank); in general unless the search ended early (C51_rank_partial). Missing: equality after an early end, which the code does not guarantee."
  },
  {
   "property": "C52",
   "status": "partial",
   "theorems": [
    "Spasm.C52_kernel",
    "Spasm.C52_left",
    "Spasm.C52_kernel_partial",
    "Spasm.C52_left_partial"
   ],
   "note": "Full statement with the dense method, for both kernels (C52_kernel, C52_left). In general the rows are independent and span a space that contains the right kernel, equal to it unless the search for pivots was ended early (C52_kernel_partial)."
  },
  {
   "property": "C53",
   "status": "partial",
   "theorems": [
    "Spasm.C53_echelonize",
    "Spasm.C53_echelonize_partial",
    "Spasm.C53_rref",
    "Spasm.C53_rref_partial"
   ],
   "note": "Full statement with the dense method (C53_echelonize, C53_rref). In general the rows are in echelon form and in the row space, which they span unless the search for pivots was ended early (C53_echelonize_partial)."
  },
  {
   "property": "C54",
   "status": "partial",
   "theorems": [
    "Spasm.C54_narrow",
    "Spasm.C54_solve_partial"
   ],
   "note": "Proved with GPLU or the dense method, except when a Schur complement is processed by the dense method (pivotal array indexed out of bounds, C28_pivotal). The program does not compare the numbers of columns: with fewer columns in B it reads out of bounds (C54_narrow, C17_narrow); extra columns of B are ignored (C17_ignored)."
  },
  {
   "property": "C55",
   "status": "partial",
   "theorems": [
    "Spasm.C55_certificate_partial",
    "Spasm.C55_wide"
   ],
   "note": "Proved for the matrix that is echelonized, with GPLU or the dense method (without a Schur complement processed by the dense method), when the stream of random numbers has enough accepted candidates. Violated by the code: a matrix with fewer rows than columns is transposed by default while the hash is that of the file, so that the certificate can be rejected on the matrix of the file (C55_wide)."
  },
  {
   "property": "C56",
   "status": "partial",
   "theorems": [
    "Spasm.C56_safe",
    "Spasm.C56_count",
    "Spasm.C56_estimate_partial",
    "Spasm.C56_size_partial",
    "Spasm.C56_nan",
    "Spasm.C56_row"
   ],
   "note": "The count is exact for all distributions of the iterations (C56_count, C56_safe). The value and the size are proved when some column is not pivotal (C56_estimate_partial, C56_size_partial). Otherwise the code computes 0/0 and converts NaN to an integer: undefined (C56_nan). rand() is shared by the threads in the code (data race inside the C library, not modelled): its values are arbitrary."
  },
  {
   "property": "C57",
   "status": "partial",
   "theorems": [
    "Spasm.C57_refine_partial",
    "Spasm.C57_complete_partial",
    "Spasm.C57_sound_partial",
    "Spasm.C57_nan",
    "Spasm.C57_default",
    "Spasm.C57_any_partial",
    "Spasm.C57_any_complete_partial",
    "Spasm.C57_any_rank_partial"
   ],
   "note": "Proved when A has at most as many rows as columns or is not of full column rank (C57_refine_partial and its consequences; the default options qualify, C57_default). Violated otherwise: when all columns become pivotal while rows remain, the code computes 0/0 and converts NaN to an integer (C57_nan: every matrix with more rows than columns in which each column is the leftmost one of some row, with any options that allow one round). For all matrices with fewer than 2^31 rows and columns and all options, the call is undefined or is a call of the driver with arbitrary decisions (C57_any_partial), so that whatever it returns is right (C57_any_rank_partial, C57_any_complete_partial)."
  },
  {
   "property": "C58",
   "status": "partial",
   "theorems": [
    "Spasm.C58_few",
    "Spasm.C58_yield",
    "Spasm.C58_skinny",
    "Spasm.C58_less",
    "Spasm.C58_chunk_rank",
    "Spasm.C58_density",
    "Spasm.C58_proportion_negative",
    "Spasm.C58_low_rank_negative",
    "Spasm.C58_aspect_negative",
    "Spasm.C58_weight_negative",
    "Spasm.C58_negative_partial",
    "Spasm.C58_max_round",
    "Spasm.C58_rounds_negative",
    "Spasm.C58_threshold_negative",
    "Spasm.C58_no_low_rank",
    "Spasm.C58_no_dense",
    "Spasm.C58_default"
   ],
   "note": "Proved: the four thresholds, max_round as a maximum, the disabled methods (no-low-rank, no-dense), the default options, and the negative values of min_pivot_proportion, low_rank_ratio and low_rank_start_weight. Violated: negative max_round, sparsity_threshold and tall_and_skinny_ratio do the contrary of what spasm.h says (C58_rounds_negative, C58_threshold_negative, C58_aspect_negative)."
  },
  {
   "property": "C59",
   "status": "partial",
   "theorems": [
    "Spasm.C59_common",
    "Spasm.C59_argument",
    "Spasm.C59_rank",
    "Spasm.C59_kernel",
    "Spasm.C59_solve",
    "Spasm.C59_echelonize_partial",
    "Spasm.C59_atoi",
    "Spasm.C59_no_number"
   ],
   "note": "Proved for rank, kernel and solve (all 64-bit moduli, 32-bit integers elsewhere) and for echelonize with 32-bit moduli (C59_echelonize_partial). Violated for echelonize with larger moduli, which the library accepts: it reads them with atoi (C59_atoi). argp, getopt and atof are not modelled: a command line is the list of recognised options with their arguments."
  },
  {
   "property": "C60",
   "status": "partial",
   "theorems": [
    "Spasm.C60_rank_partial",
    "Spasm.C60_certificate_partial",
    "Spasm.C60_kernel_partial",
    "Spasm.C60_left_partial",
    "Spasm.C60_solve_partial",
    "Spasm.C60_echelonize_partial",
    "Spasm.C60_rref_partial",
    "Spasm.C60_wide",
    "Spasm.C60_missing",
    "Spasm.C60_any_rank_partial",
    "Spasm.C60_any_certificate_partial",
    "Spasm.C60_any_kernel_partial",
    "Spasm.C60_any_left_partial",
    "Spasm.C60_any_solve_partial",
    "Spasm.C60_any_echelonize_partial",
    "Spasm.C60_any_rref_partial"
   ],
   "note": "Composition of C59, C41, C57 and C51-C55. Restrictions: --no-low-rank-mode (rank, kernel, echelonize) or --no-dense-mode (solve, certificates), GPLU enabled, fewer than 2^28 rows and columns, no cancellation between entries of the file (C10), and shapes for which the numeric decisions are defined (C57); for rank, kernel and echelonize up to an early end of the search (C27). Violated: rank with the default options is undefined on wide matrices whose rows are all first in some column (C60_wide). For all shapes and all values of the numeric options, whatever a program prints or writes is right up to an early end of the search (C60_any_rank_partial, C60_any_certificate_partial, C60_any_kernel_partial, C60_any_left_partial, C60_any_solve_partial, C60_any_echelonize_partial, C60_any_rref_partial): the other outcomes are undefined behaviour and, with the low-rank method, not stopping."
  },
  {
   "property": "C61",
   "status": "partial",
   "theorems": [
    "Spasm.C61_gray_partial",
    "Spasm.C61_no_entry"
   ],
   "note": "exp and log are assumed monotone, exact at 0, 1, -infinity and accurate to 2^-40 (LibM.Good, realised by exLibM); the level is within 0.51 of the exact value. Violated for matrices without entries: 0/0 fails the assertion (C61_no_entry)."
  },
  {
   "property": "C62",
   "status": "partial",
   "theorems": [
    "Spasm.C62_mpixels_partial",
    "Spasm.C62_default_partial",
    "Spasm.C62_size_partial",
    "Spasm.C62_elongated",
    "Spasm.C62_width",
    "Spasm.C62_height",
    "Spasm.C62_exclusive"
   ],
   "note": "sqrt is assumed accurate to 2^-51 (LibM.Sqrt). Proved from the file to the image without option (no side a million times the other), with --mpixels (at most 1000) and with --width and --height. Violated: elongated matrices (C62_elongated), --width alone below the number of columns (C62_width) and --height alone below the number of rows (C62_height) give an empty image and an access out of bounds, for every file with an entry."
  },
  {
   "property": "C63",
   "status": "partial",
   "theorems": [
    "Spasm.C63_csr_free",
    "Spasm.C63_triplet_free",
    "Spasm.C63_lu_free",
    "Spasm.C63_dm_free",
    "Spasm.C63_compress",
    "Spasm.C63_transpose",
    "Spasm.C63_submatrix",
    "Spasm.C63_permute",
    "Spasm.C63_echelonize",
    "Spasm.C63_echelonize_free",
    "Spasm.C63_kernel",
    "Spasm.C63_rref",
    "Spasm.C63_kernel_from_rref",
    "Spasm.C63_solve",
    "Spasm.C63_gesv",
    "Spasm.C63_certificate_create",
    "Spasm.C63_factorization_verify",
    "Spasm.C63_certificate_verify",
    "Spasm.C63_matching",
    "Spasm.C63_scc_partial",
    "Spasm.C63_dm_partial",
    "Spasm.C63_scc_leak",
    "Spasm.C63_dm_leak",
    "Spasm.C63_rank",
    "Spasm.C63_rank_certificate",
    "Spasm.C63_echelonize_tool",
    "Spasm.C63_transpose_tool",
    "Spasm.C63_bitmap_tool",
    "Spasm.C63_stack_tool",
    "Spasm.C63_kernel_tool",
    "Spasm.C63_solve_tool",
    "Spasm.C63_vertical_swap_tool",
    "Spasm.C63_dm_tool",
    "Spasm.C63_check_cert_partial",
    "Spasm.C63_check_cert_unread",
    "Spasm.C63_check_cert_unread_any"
   ],
   "note": "Heap model: blocks with the pointers they hold, every decision depending on the data is arbitrary. Sizes of blocks and accesses out of bounds are the subject of the other claims, and a NULL dereference ends the run. Violated: spasm_strongly_connected_components loses one array, spasm_dulmage_mendelsohn two to four (C63_scc_leak, C63_dm_leak; what is lost is given by C63_scc_partial and C63_dm_partial). rank --certificate, kernel, solve, vertical_swap, dm and check_cert end without freeing the structures named in their theorems. check_cert uses pointers that were never set if the file of the certificate does not start with a number (C63_check_cert_unread); otherwise C63_check_cert_partial."
  },
  {
   "property": "C64",
   "status": "partial",
   "theorems": [
    "Spasm.C64_compress_partial",
    "Spasm.C64_compress",
    "Spasm.C64_file",
    "Spasm.C64_kernel_from_rref_partial",
    "Spasm.C64_kernel_from_rref",
    "Spasm.C64_rref",
    "Spasm.C64_scc_partial",
    "Spasm.C64_scc",
    "Spasm.C64_stack"
   ],
   "note": "Below 2^31 entries the code with the int variables is proved equal to the model used for the other claims. Violated from 2^31 entries on: spasm_compress (hence every program that compresses), spasm_rref, spasm_kernel_from_rref, spasm_strongly_connected_components, tools/stack.c. For positions of 2^32 and more, nothing is claimed of the last four unless a row starts before."
  },
  {
   "property": "C65",
   "status": "proved",
   "theorems": [
    "Spasm.C65_type",
    "Spasm.C65_type_max",
    "Spasm.C65_permutation",
    "Spasm.C65_rref",
    "Spasm.C65_LU",
    "Spasm.C65_library",
    "Spasm.C65_env",
    "Spasm.C65_documented"
   ],
   "note": "The assumption on the library is its documentation (FfLib.Documented: A = P L U Q, permutations as successive exchanges), also for q = 2; LAPACKPerm2MathPerm, a function of the library, is modelled from its documentation."
  },
  {
   "property": "C66",
   "status": "partial",
   "theorems": [
    "Spasm.C66_bitmap",
    "Spasm.C66_bitmap_unknown",
    "Spasm.C66_bitmap_size_partial",
    "Spasm.C66_bitmap_default_partial",
    "Spasm.C66_dm_permuted",
    "Spasm.C66_dm_verbose",
    "Spasm.C66_dm_tabulated",
    "Spasm.C66_dm_unknown",
    "Spasm.C66_dm_image_partial",
    "Spasm.C66_dm_elongated",
    "Spasm.C66_check",
    "Spasm.C66_check_stdin",
    "Spasm.C66_check_missing",
    "Spasm.C66_check_argument",
    "Spasm.C66_check_blind"
   ],
   "note": "argp and getopt are represented by the list of options they recognise. Violated: dm --image on a matrix with too many columns per row is an access out of bounds (C66_dm_elongated); check_cert does not load the columns of the certificate and inverts its verdict, so that with some contents of the memory any certificate is declared correct (C66_check_blind, see C44); elongated matrices and sizes given alone in bitmap (C62)."
  },
  {
   "property": "C67",
   "status": "partial",
   "theorems": [
    "Spasm.C67_samples",
    "Spasm.C67_complete",
    "Spasm.C67_error",
    "Spasm.C67_rank_partial",
    "Spasm.C67_program_partial",
    "Spasm.C67_kernel_partial",
    "Spasm.C67_left_partial",
    "Spasm.C67_echelonize_partial",
    "Spasm.C67_rref_partial"
   ],
   "note": "Number of combinations, and both sides of the test: full statement (C67_samples, C67_complete, C67_error). Whole calls (C67_rank_partial): without the low-rank method, when no Schur complement is computed, or the number of rows is at least twice the rank, or the dense method is used; otherwise the defects of C27 (C27_lowrank, C27_premature) give wrong ranks whatever the random numbers. From the command line (C67_program_partial, C67_kernel_partial, C67_left_partial, C67_echelonize_partial, C67_rref_partial): with --no-low-rank-mode, for matrices with at least twice as many rows as their rank. The random numbers are ideal (a table of residues chosen uniformly), not those of the generator."
  },
  {
   "property": "C68",
   "status": "partial",
   "theorems": [
    "Spasm.C68_small",
    "Spasm.C68_unit",
    "Spasm.C68_huge",
    "Spasm.C68_compress_partial",
    "Spasm.C68_wrapped"
   ],
   "note": "Text for 0 <= n < 10^15: full statement (C68_small, C68_unit). From 10^15 on nothing is written (C68_huge). The size announced by spasm_compress is right below 2^31 bytes (C68_compress_partial) and wraps around beyond (C68_wrapped)."
  },
  {
   "property": "C69",
   "status": "partial",
   "theorems": [
    "Spasm.C69_solve",
    "Spasm.C69_alloc",
    "Spasm.C69_schur",
    "Spasm.C69_kernel",
    "Spasm.C69_rref",
    "Spasm.C69_density",
    "Spasm.C69_dense",
    "Spasm.C69_GPLU",
    "Spasm.C69_limit",
    "Spasm.C69_witness",
    "Spasm.C69_room_partial",
    "Spasm.C69_room_limit"
   ],
   "note": "Full statement for at most 715827882 columns (rows for spasm_kernel): C69_solve, C69_alloc, C69_schur, C69_kernel, C69_rref, C69_density, C69_dense, C69_GPLU; dense LU below 2^30 rows and columns: C69_room_partial. False beyond: 3 * m overflows (C69_limit, C69_witness) and 2 * Sm overflows (C69_room_limit)."
  },
  {
   "property": "C70",
   "status": "partial",
   "theorems": [
    "Spasm.Commit.C70_safe_partial",
    "Spasm.Commit.C70_refine_partial",
    "Spasm.Commit.C70_final_partial",
    "Spasm.Commit.C70_complete",
    "Spasm.Commit.C70_relaxed",
    "Spasm.Commit.C70_schur_partial",
    "Spasm.Commit.C70_kernel_partial",
    "Spasm.Commit.C70_rref_partial"
   ],
   "note": "Full statement if the atomic updates of `writing` wait for the earlier writes of their thread, as on x86: C70_safe_partial, C70_refine_partial, C70_final_partial, C70_complete, C70_schur_partial, C70_kernel_partial, C70_rref_partial. False with relaxed atomic updates, which OpenMP 5.0 allows: C70_relaxed. Early reads and compiler reorderings are not modelled."
  },
  {
   "property": "C71",
   "status": "partial",
   "theorems": [
    "Spasm.Greedy.C71_safe_partial",
    "Spasm.Greedy.C71_refine_partial",
    "Spasm.Greedy.C71_final_partial",
    "Spasm.Greedy.C71_complete",
    "Spasm.Greedy.C71_outcome_partial",
    "Spasm.Greedy.C71_relaxed"
   ],
   "note": "Full statement if the atomic update of `npiv` waits for the earlier writes of its thread, as on x86: C71_safe_partial, C71_refine_partial, C71_final_partial, C71_complete, C71_outcome_partial. False with relaxed atomic updates, which OpenMP 5.0 allows: C71_relaxed. Early reads and compiler reorderings are not modelled."
  },
  {
   "property": "C72",
   "status": "proved",
   "theorems": [
    "Spasm.C72_rows",
    "Spasm.C72_same",
    "Spasm.C72_safe",
    "Spasm.C72_test",
    "Spasm.C72_blind",
    "Spasm.C72_rank"
   ],
   "note": "Rows, reproducibility, safety and meaning of the completion test: full statement (C72_rows, C72_same, C72_safe, C72_test), for combinations of all the rows; hypothesis: the generator finds enough residues before its counter overflows. Consequences: C72_blind, C72_rank (wrong rank in every run). Combinations of some rows use rand() and are not reproducible; C72_safe covers them."
  },
  {
   "property": "C73",
   "status": "partial",
   "theorems": [
    "Spasm.C73_schur_partial",
    "Spasm.C73_kernel_partial",
    "Spasm.C73_rref_partial",
    "Spasm.C73_env",
    "Spasm.C73_refine_partial",
    "Spasm.C73_complete_partial",
    "Spasm.C73_lu_partial",
    "Spasm.C73_returned_partial",
    "Spasm.C73_rank_partial",
    "Spasm.C73_limit"
   ],
   "note": "Full statement if the atomic updates wait for the earlier writes of their thread (as on x86) and for at most 715827882 columns: C73_refine_partial and its consequences C73_complete_partial, C73_lu_partial, C73_returned_partial, C73_rank_partial (with the exceptions of C27 and C28), C73_schur_partial, C73_kernel_partial, C73_rref_partial. C73_limit: with more columns, undefined behaviour. C73_env: there are such environments. Random numbers: arbitrary (the real ones: C72)."
  },
  {
   "property": "C74",
   "status": "partial",
   "theorems": [
    "Spasm.C74_rows_partial",
    "Spasm.C74_kernel_partial",
    "Spasm.C74_rref_partial",
    "Spasm.C74_agree_partial",
    "Spasm.C74_driver_partial",
    "Spasm.C74_race"
   ],
   "note": "Full statement for a given set of pivotal columns: C74_rows_partial, C74_kernel_partial, C74_rref_partial, C74_agree_partial (primes up to 2^31), and C74_driver_partial for two echelonizations that find the rank and have the same pivotal columns. C74_race: the pivotal columns depend on the order in which the threads add the rows of a Schur complement, and the kernels and reduced echelon forms then differ."
  },
  {
   "property": "C75",
   "status": "partial",
   "theorems": [
    "Spasm.C75_load_partial",
    "Spasm.C75_load_memory_partial",
    "Spasm.C75_alloc_wrap",
    "Spasm.C75_add_overflow",
    "Spasm.C75_compress_partial",
    "Spasm.C75_rows_limit",
    "Spasm.C75_rows_negative",
    "Spasm.C75_dense",
    "Spasm.C75_dense_L",
    "Spasm.C75_dense_limit",
    "Spasm.C75_load_overflow"
   ],
   "note": "Full statement for files that announce between -2^61 and 2^62 entries and dimensions that are not negative (C75_load_partial; with enough memory and between 0 and 2^61 entries, exactly the same result as the model of C41: C75_load_memory_partial), for matrices of less than 2^31 - 1 rows (C75_compress_partial), and for the dense blocks with at most 715827882 columns (C75_dense, C75_dense_L; C75_dense_limit shows a size that wraps around with more). Violated otherwise: C75_alloc_wrap and C75_add_overflow (for all numbers of entries that wrap around), C75_load_overflow (complete files), C75_rows_limit, C75_rows_negative."
  },
  {
   "property": "C76",
   "status": "partial",
   "theorems": [
    "Spasm.C76_load_partial",
    "Spasm.C76_load_null",
    "Spasm.C76_verify_partial",
    "Spasm.C76_verify_null"
   ],
   "note": "Full statement if all blocks of less than 2^33 bytes are granted (C76_load_partial, C76_verify_partial). Violated otherwise: C76_load_null, C76_verify_null."
  },
  {
   "property": "C77",
   "status": "partial",
   "theorems": [
    "Spasm.C77_matrix",
    "Spasm.C77_newline",
    "Spasm.C77_certificate_partial",
    "Spasm.C77_certificate_lost",
    "Spasm.C77_mm_cut"
   ],
   "note": "Full statement for matrices (C77_matrix, C77_newline). For certificates only files cut before the third line are refused (C77_certificate_partial); violated after it: C77_certificate_lost. C77_mm_cut: a MatrixMarket file (read, never written) cut in its last number is accepted."
  },
  {
   "property": "C78",
   "status": "proved",
   "theorems": [
    "Spasm.C78_clean_echelonize",
    "Spasm.C78_clean_rref",
    "Spasm.C78_clean_kernel",
    "Spasm.C78_clean_solve",
    "Spasm.C78_clean_transpose",
    "Spasm.C78_echelonize_rank",
    "Spasm.C78_rref_rank",
    "Spasm.C78_kernel_rank",
    "Spasm.C78_left_rank",
    "Spasm.C78_echelonize_kernel",
    "Spasm.C78_kernel_kernel",
    "Spasm.C78_echelonize_solve",
    "Spasm.C78_transpose_twice",
    "Spasm.C78_transpose_rank",
    "Spasm.C78_transpose_kernel",
    "Spasm.C78_clean_dm",
    "Spasm.C78_dm_report",
    "Spasm.C78_transpose_dm",
    "Spasm.C78_dm_rank",
    "Spasm.C78_clean_swap",
    "Spasm.C78_clean_stack",
    "Spasm.C78_swap_rank",
    "Spasm.C78_stack_rank",
    "Spasm.C78_swap_dm",
    "Spasm.C78_stack_dm",
    "Spasm.C78_stack_twice"
   ],
   "note": "Clean files for all the options of the programs (C78_clean_echelonize, C78_clean_rref, C78_clean_kernel, C78_clean_transpose), and for solve under the hypotheses of C54 (C78_clean_solve); the results of the chains in the settings where a single program is exact (structure Exact: dense method, without the low-rank method). transpose is modulo 42013, the modulus written in tools/transpose.c."
  },
  {
   "property": "C79",
   "status": "proved",
   "theorems": [
    "Spasm.C79_sound",
    "Spasm.C79_complete",
    "Spasm.C79_exact",
    "Spasm.C79_refused",
    "Spasm.C79_unique",
    "Spasm.C79_documented",
    "Spasm.C79_prime",
    "Spasm.C79_decimals"
   ],
   "note": "Soundness, completeness, uniqueness, and refusal of the others (under the conditions of C49). C79_decimals: decimals are cut without a warning. Files with NUL bytes are outside of the statement (C49 covers their safety)."
  },
  {
   "property": "C80",
   "status": "partial",
   "theorems": [
    "Spasm.C80_transpose_residues",
    "Spasm.C80_transpose_partial",
    "Spasm.C80_swap_partial",
    "Spasm.C80_stack_partial",
    "Spasm.C80_dm_residues",
    "Spasm.C80_dm_partial",
    "Spasm.C80_rank_partial",
    "Spasm.C80_modulus",
    "Spasm.C80_modulus_dm"
   ],
   "note": "Full statement when values are at most 21006 in absolute value; C80_transpose_residues and C80_dm_residues say what is written in all cases; violated for larger values: C80_modulus, C80_modulus_dm (the modulus 42013 is hard-coded)."
  },
  {
   "property": "C81",
   "status": "partial",
   "theorems": [
    "Spasm.C81_sound",
    "Spasm.C81_refused",
    "Spasm.C81_unique",
    "Spasm.C81_complete_partial",
    "Spasm.C81_hash_unset"
   ],
   "note": "Acceptance and refusal: full statement (C81_sound, C81_refused, C81_unique; numbers out of range are undefined behaviour). Contents: the rank, prime, hash and coefficients of a file in any layout are read (C81_complete_partial), except for the positions (C39). Violated: damaged hashes are accepted and completed from uninitialized memory (C81_hash_unset)."
  },
  {
   "property": "C82",
   "status": "proved",
   "theorems": [
    "Spasm.C82_lines",
    "Spasm.C82_residues",
    "Spasm.C82_zeroes",
    "Spasm.C82_rows",
    "Spasm.C82_redundant",
    "Spasm.C82_rank",
    "Spasm.C82_echelonize",
    "Spasm.C82_rref",
    "Spasm.C82_kernel",
    "Spasm.C82_left",
    "Spasm.C82_rank_columns",
    "Spasm.C82_rank_transpose",
    "Spasm.C82_cancel"
   ],
   "note": "Relational statement, for the options of C78 (`Exact`: dense method enabled and chosen, no low-rank method); with other options the search may end early (C27) and the ranks can differ. The hypothesis on cancellations is necessary: `C82_cancel` gives two files of the same matrix for which `rank` prints 2 and at most 1 (defect of C10)."
  },
  {
   "property": "C83",
   "status": "partial",
   "theorems": [
    "Spasm.C83_positions",
    "Spasm.C83_partial",
    "Spasm.C83_both_partial",
    "Spasm.C83_attained",
    "Spasm.C83_large"
   ],
   "note": "Full statement when values are less than 42013 in absolute value and no two entries cancel, or for any values if the nonzero positions modulo q are nonzero modulo 42013 (C83_positions); violated otherwise: C83_large (the modulus 42013 is hard-coded in dm)."
  },
  {
   "property": "C84",
   "status": "proved",
   "theorems": [
    "Spasm.C84_rref",
    "Spasm.C84_full",
    "Spasm.C84_kernel",
    "Spasm.C84_left"
   ],
   "note": "Relational statement, for the options of C78 (`Exact`)."
  },
  {
   "property": "C85",
   "status": "proved",
   "theorems": [
    "Spasm.C85_parts",
    "Spasm.C85_numbers",
    "Spasm.C85_report",
    "Spasm.C85_transpose",
    "Spasm.C85_unique",
    "Spasm.C85_entries",
    "Spasm.C85_cover",
    "Spasm.C85_written"
   ],
   "note": "C85_numbers, C85_report, C85_transpose, C85_cover and C85_written are about the texts written by the tool; C85_parts, C85_unique and C85_entries about any decomposition that satisfies the specification of C34 (Spec/Dm), hence about the one returned by spasm_dulmage_mendelsohn. Values are reduced modulo 42013 by the tool (C80): the positions are those of the entries that are nonzero modulo 42013."
  },
  {
   "property": "C86",
   "status": "proved",
   "theorems": [
    "Spasm.C86_det",
    "Spasm.C86_matched",
    "Spasm.C86_singular",
    "Spasm.C86_rank",
    "Spasm.C86_blocks"
   ],
   "note": "Modulo 42013, the modulus hardwired in the tool. C86_matched is about the matrix of the file only: it says that the hypothesis of the two other theorems holds for all matrices that are not singular."
  },
  {
   "property": "C87",
   "status": "proved",
   "theorems": [
    "Spasm.C87_warnings",
    "Spasm.C87_difference",
    "Spasm.C87_left",
    "Spasm.C87_unique"
   ],
   "note": "With GPLU, or with the dense method when it does not process a Schur complement (SolveOk); the other settings are the defect shown by C28_pivotal. Nothing is said about what is written for the rows without a solution."
  },
  {
   "property": "C88",
   "status": "proved",
   "theorems": [
    "Spasm.C88_echelonize",
    "Spasm.C88_rref",
    "Spasm.C88_kernel",
    "Spasm.C88_left",
    "Spasm.C88_independent"
   ],
   "note": "With the settings Exact of C78: the dense method is enabled and chosen, and the low-rank method is disabled. With other methods the file written may have fewer rows than the rank (C27, C53); the columns of the pivots are still independent (C88_independent)."
  },
  {
   "property": "C89",
   "status": "proved",
   "theorems": [
    "Spasm.C89_rows",
    "Spasm.C89_columns",
    "Spasm.C89_append"
   ],
   "note": "With the settings Exact of C78, as C82."
  },
  {
   "property": "C90",
   "status": "proved",
   "theorems": [
    "Spasm.C90_rank",
    "Spasm.C90_combination"
   ],
   "note": "solve with the settings of C54_solve_partial (GPLU, or the dense method when it does not process a Schur complement); rank with the settings Exact of C78."
  }
 ]
}