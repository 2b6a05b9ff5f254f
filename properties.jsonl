{"id": "C01", "title": "ecdf2 returns the two-sided non-crossing probability", "statement": "For two boundary lists b, B of the same length n, each non-decreasing with entries in [0,1], ecdf2(b,B,use_fft) returns Pr[for all i: b_i <= X_(i) <= B_i], X_(1)<=...<=X_(n) the order statistics of n i.i.d. uniform samples, for either value of use_fft (in exact arithmetic; assertions compiled out as in the Python extension).", "quantifier": "every n, every pair of valid boundary lists (ties, empty, infeasible included), both values of use_fft, every legal result of std::sort, every content of uninitialised memory", "why_tests_cant": "The claim is an identity between an algorithm and a Lebesgue measure for all n and all real boundaries; tests compare six decimals on five files.", "anchors": ["src/ecdf2.cc:ecdf2", "src/ecdf2.cc:poisson_process_noncrossing_probability", "src/ecdf2.cc:join_all_bounds", "src/ecdf2.cc:update_dest_buffer_and_step_counts"]}
{"id": "C02", "title": "ecdf1_new_B returns the upper one-sided probability", "statement": "For a non-decreasing list B of n>=1 numbers in [0,1], ecdf1_new_B(B) returns Pr[for all i: X_(i) <= B_i] in exact arithmetic.", "quantifier": "every n>=1 (assertions compiled out) and every n>=2 (assertions on), every valid B", "why_tests_cant": "The algorithm subtracts first-exit terms in blocks of about sqrt(n); its correctness is an identity over all n and all real boundaries.", "anchors": ["src/ecdf1_new.cc:ecdf1_new_B", "src/ecdf1_new.cc:poisson_B_noncrossing_probability_n2"]}
{"id": "C03", "title": "ecdf1_new_b returns the lower one-sided probability", "statement": "For a non-decreasing list b of n>=1 numbers in [0,1], ecdf1_new_b(b) returns Pr[for all i: b_i <= X_(i)] in exact arithmetic.", "quantifier": "every n>=1 (>=2 with assertions), every valid b", "why_tests_cant": "Rests on the reflection symmetry of the uniform order statistics for every n and every boundary.", "anchors": ["src/ecdf1_new.cc:ecdf1_new_b"]}
{"id": "C04", "title": "ecdf1_mns2016_b returns the lower one-sided probability", "statement": "For a non-decreasing list b of n>=0 numbers in [0,1], ecdf1_mns2016_b(b) returns Pr[for all i: b_i <= X_(i)] in exact arithmetic, including boundaries of probability 0.", "quantifier": "every n, every valid b", "why_tests_cant": "Iterated integration of translated polynomials with periodic exponent rescaling; the identity with the probability ranges over all n and reals.", "anchors": ["src/ecdf1_mns2016.cc:ecdf1_mns2016_b", "src/ecdf1_mns2016.cc:PolynomialTranslatedMonomials"]}
{"id": "C05", "title": "ecdf1_mns2016_B returns the upper one-sided probability", "statement": "For a non-decreasing list B of n>=0 numbers in [0,1], ecdf1_mns2016_B(B) returns Pr[for all i: X_(i) <= B_i] in exact arithmetic.", "quantifier": "every n, every valid B", "why_tests_cant": "Universally quantified over sizes and real boundaries.", "anchors": ["src/ecdf1_mns2016.cc:ecdf1_mns2016_B"]}
{"id": "C06", "title": "FFT convolution equals direct convolution", "statement": "For every size up to the constructor's argument and all finite inputs, FFTWConvolver::convolve_same_size writes to output[0..size) exactly the first `size` coefficients of the product of the two input polynomials, whichever of the direct (size<128) and FFT (size>=128) branches is taken (exact arithmetic, FFTW computing the documented transforms).", "quantifier": "every size, every pair of real input arrays, every prior state of the convolver", "why_tests_cant": "Needs the convolution theorem plus absence of wrap-around for every padded length.", "anchors": ["src/fftwconvolver.cc:FFTWConvolver::convolve_same_size", "src/fftwconvolver.cc:convolve_same_size_naive", "src/common.cc:convolve_same_size"]}
{"id": "C07", "title": "All algorithms agree", "statement": "On a valid one-sided boundary, ecdf1_new_b, ecdf1_mns2016_b and ecdf2(b, ones, fft) with and without FFT return the same number; likewise for B with zeros.", "quantifier": "every n>=1, every valid boundary", "why_tests_cant": "Agreement for all inputs cannot be sampled.", "anchors": ["src/crossprob.cc:calculate_ecdf1_new", "src/crossprob.cc:calculate_ecdf1_mns2016", "src/crossprob.cc:calculate_ecdf2_ks2001", "src/crossprob.cc:calculate_ecdf2_mn2017"]}
{"id": "C08", "title": "Results are probabilities", "statement": "Every number returned on valid input lies in [0,1] (exact arithmetic).", "quantifier": "every valid input of every entry point", "why_tests_cant": "ecdf1_new subtracts and mns2016 alternates signs; range membership must hold for all boundaries.", "anchors": ["src/ecdf2.cc:ecdf2", "src/ecdf1_new.cc:ecdf1_new_B", "src/ecdf1_mns2016.cc:ecdf1_mns2016_b"]}
{"id": "C09", "title": "Monotone in the boundaries", "statement": "Lowering b or raising B pointwise never lowers the returned probability (exact arithmetic).", "quantifier": "every pair of comparable valid boundary pairs", "why_tests_cant": "Relational property over pairs of inputs; used by binary searches for critical values.", "anchors": ["src/ecdf2.cc:ecdf2", "src/ecdf1_new.cc:ecdf1_new_b"]}
{"id": "C10", "title": "Reflection symmetry", "statement": "ecdf2(b,B,f) = ecdf2(1-reverse(B), 1-reverse(b), f') for valid boundaries (exact arithmetic).", "quantifier": "every valid pair, all FFT flags", "why_tests_cant": "Relational property over all inputs.", "anchors": ["src/ecdf2.cc:ecdf2", "src/ecdf1_new.cc:ecdf1_new_b", "src/ecdf1_mns2016.cc:ecdf1_mns2016_B"]}
{"id": "C11", "title": "Trivial boundaries give exactly 1", "statement": "With all b_i = 0 and all B_i = 1 every algorithm returns 1 (exact arithmetic), for every n it accepts.", "quantifier": "every n", "why_tests_cant": "Tests check n=3 only.", "anchors": ["src/ecdf2.cc:ecdf2", "src/ecdf1_new.cc:ecdf1_new_B", "src/ecdf1_mns2016.cc:ecdf1_mns2016_b"]}
{"id": "C12", "title": "Infeasible boundaries give exactly 0", "statement": "If b_i >= B_i for some i, ecdf2 returns exactly 0 when the assertions are compiled out (or do not fail): stale buffer contents never leak into the answer. This holds in exact arithmetic and in IEEE-754 double precision, where the result is a zero and not a rounding residue or NaN: up to 1000 points without FFT (also as compiled with the project's -Ofast), up to 126 points with FFT. `crossprob ecdf2-ks2001` (`ecdf2-mn2017`) on such a file prints 0 (or -0) and exits with status 0.", "quantifier": "every valid b, B with b_i >= B_i for some i; every FFT library (double precision), every math library within the accuracy assumed in C61, every legal fast-math code", "why_tests_cant": "Depends on stale contents of the double buffer and on rounding for every order of boundary steps.", "anchors": ["src/ecdf2.cc:poisson_process_noncrossing_probability", "src/ecdf2.cc:ecdf2", "src/crossprob.cc:main"]}
{"id": "C13", "title": "With assertions enabled ecdf2 aborts exactly on strongly crossed boundaries", "statement": "In the Makefile build (assertions on) ecdf2 on valid boundaries aborts with an assertion failure if and only if B_{i+1} < b_i for some i (0-based, i+1<n); otherwise it returns the probability. (The documented contract, 'valid boundaries give a probability', is therefore false for the command-line build.)", "quantifier": "every n, all valid boundaries", "why_tests_cant": "Requires tracking the window size over all interleavings of boundary steps.", "anchors": ["src/poisson_pmf.cc:PoissonPMFGenerator::compute_array", "src/ecdf2.cc:poisson_process_noncrossing_probability"]}
{"id": "C14", "title": "Input validation accepts exactly the valid lists", "statement": "Every entry point raises runtime_error (and computes nothing) on a list of numbers of the wrong length, a list with a decrease, or a list leaving [0,1], and on nothing else; the length error precedes the monotonicity error, which precedes the range error.", "quantifier": "every list of (non-NaN) numbers including infinities, every claimed n", "why_tests_cant": "Checks only front/back for the range; relies on monotonicity for all lengths.", "anchors": ["src/common.cc:check_boundary_vector", "src/common.cc:is_monotone_increasing"]}
{"id": "C15", "title": "NaN boundaries never yield a probability", "statement": "check_boundary_vector accepts lists containing NaN, even ones whose numbers decrease across the NaN. Nevertheless ecdf2 on lists containing a NaN never returns a number: it raises runtime_error, whatever order sort leaves the elements in.", "quantifier": "every b, B with a NaN in either, every permutation produced by sort", "why_tests_cant": "Comparison with NaN breaks sorting; must hold for every resulting order.", "anchors": ["src/common.cc:is_monotone_increasing", "src/ecdf2.cc:poisson_process_noncrossing_probability"]}
{"id": "C16", "title": "ecdf2 is memory safe in any arithmetic", "statement": "ecdf2 never reads or writes out of bounds: for any outcome of the floating point operations whatsoever (any rounding, NaN, overflow), any rearrangement of the bounds by sort and any FFT output, it either returns or throws runtime_error (assertions compiled out).", "quantifier": "every input list pair, every arithmetic, every sort permutation, every FFT implementation", "why_tests_cant": "Floating point comparisons steer the step counts that index the buffers.", "anchors": ["src/ecdf2.cc", "src/fftwconvolver.cc", "src/poisson_pmf.cc"]}
{"id": "C17", "title": "ecdf1_new is memory safe for n>=2, aborts for n=1 with assertions, and is undefined for n=0", "statement": "For n>=2 ecdf1_new_B / ecdf1_new_b never access memory out of bounds nor fail the jump_size assertion, in any arithmetic. For n=1 the assertion build always aborts; for n=0 the assertion build aborts and the release build reads B[-1].", "quantifier": "every input list, every arithmetic", "why_tests_cant": "Index arithmetic with block sizes sqrt(n)+1 for every n.", "anchors": ["src/ecdf1_new.cc:poisson_B_noncrossing_probability_n2", "src/ecdf1_new.cc:ecdf1_new_B"]}
{"id": "C18", "title": "ecdf1_mns2016 is memory safe in any arithmetic", "statement": "ecdf1_mns2016_b/B never access a polynomial coefficient out of bounds nor fail an assertion, for every n and any arithmetic.", "quantifier": "every input list, every arithmetic", "why_tests_cant": "degree grows during the run; for all n.", "anchors": ["src/ecdf1_mns2016.cc:PolynomialTranslatedMonomials"]}
{"id": "C19", "title": "FFT convolver stays inside its buffers for every size up to the constructed maximum", "statement": "After FFTWConvolver(m), convolve_same_size never accesses memory out of bounds for sizes <= m. The size guard it actually applies is looser (m+2047): some sizes above m pass the guard and overflow the buffers.", "quantifier": "every m, every size, every history of calls", "why_tests_cant": "Parameter shadowing makes the guard inconsistent with the allocation; heap overflow only for particular (m,size).", "anchors": ["src/fftwconvolver.cc:FFTWConvolver::FFTWConvolver", "src/fftwconvolver.cc:FFTWConvolver::convolve_same_size", "src/fftwconvolver.cc:memoized_r2c_plan"]}
{"id": "C20", "title": "Convolver results do not depend on history", "statement": "The output of convolve_same_size is a function of its inputs only: previous calls, memoised plans, what FFTW leaves in clobbered input buffers and uninitialised memory have no influence; each memoised plan always has the size it is used for.", "quantifier": "every history of calls, every arithmetic, every FFT implementation that clobbers its inputs", "why_tests_cant": "Statement over all call histories.", "anchors": ["src/fftwconvolver.cc:memoized_r2c_plan", "src/fftwconvolver.cc:memoized_c2r_plan", "src/fftwconvolver.cc:copy_zero_padded"]}
{"id": "C21", "title": "Poisson PMF tables are exact and history independent", "statement": "After compute_array(k, lambda), entries 0..k of the table are e^-lambda lambda^i / i! (exact arithmetic) for every lambda >= 0 whatever was computed before; evaluate_pmf and poisson_pmf agree with it; a negative lambda throws. The infinite entry lgamma(0) of the lookup table is never read.", "quantifier": "every k <= max_k, every lambda >= 0, every history", "why_tests_cant": "All lambda, k and histories.", "anchors": ["src/poisson_pmf.cc:PoissonPMFGenerator::compute_array", "src/poisson_pmf.hh:evaluate_pmf", "src/poisson_pmf.hh:poisson_pmf"]}
{"id": "C22", "title": "Order of tied boundary points is irrelevant", "statement": "ecdf2 returns bit-for-bit the same result whatever order std::sort gives to boundary points with equal locations.", "quantifier": "every pair of sorted orders differing in the order of ties, any arithmetic in which x-x = 0 and 0*c = 0", "why_tests_cant": "std::sort is not stable; tests see one library's order.", "anchors": ["src/ecdf2.cc:operator<", "src/ecdf2.cc:join_all_bounds", "src/ecdf2.cc:update_dest_buffer_and_step_counts"]}
{"id": "C23", "title": "ecdf1_new does not depend on its block size", "statement": "The block size (sqrt(n)+1) used by ecdf1_new affects only speed: every block size k with 1<=k gives the same non-crossing vector entry n (exact arithmetic).", "quantifier": "every n>=1, every k>=1 (k<=n if assertions are compiled in), every valid B", "why_tests_cant": "All block sizes and boundaries.", "anchors": ["src/ecdf1_new.cc:poisson_B_noncrossing_probability_n2"]}
{"id": "C24", "title": "Exponent rescaling in mns2016 never changes the result", "statement": "Whatever exponents are extracted at the periodic rescaling steps (including values another thread races into the function-static exponent variable), the result of ecdf1_mns2016_b is the same (exact arithmetic).", "quantifier": "every sequence of exponents observed, every valid b", "why_tests_cant": "Statement over all schedules of the shared static variable.", "anchors": ["src/ecdf1_mns2016.cc:extract_exponent", "src/ecdf1_mns2016.cc:ldexp_all_multiplicative_coefficients"]}
{"id": "C25", "title": "ecdf2-* commands treat an empty line as the trivial boundary", "statement": "calculate_ecdf2_ks2001 and calculate_ecdf2_mn2017 with one empty list compute the one-sided probability of the other list; with lists of different non-zero lengths they throw.", "quantifier": "every pair of lists", "why_tests_cant": "All lengths.", "anchors": ["src/crossprob.cc:calculate_ecdf2_ks2001", "src/crossprob.cc:calculate_ecdf2_mn2017"]}
{"id": "C26", "title": "Command line contract", "statement": "crossprob exits 1 with usage iff it does not get exactly 2 arguments; otherwise exits 2 on a stream failure, 3 on any other reported error (unreadable file, malformed number, invalid boundary, unknown algorithm), and 0 exactly when it prints a result computed by the algorithm named on the command line.", "quantifier": "every argument vector, every file system content", "why_tests_cant": "All argument vectors and file contents.", "anchors": ["src/crossprob.cc:main", "src/crossprob.cc:handle_command_line_arguments"]}
{"id": "C27", "title": "split is the inverse of join", "statement": "split(s, d) returns exactly the maximal d-free pieces of s: joining them with d gives s back, no piece contains d, and there is one more piece than delimiters.", "quantifier": "every string, every delimiter", "why_tests_cant": "All strings.", "anchors": ["src/string_utils.cc:split"]}
{"id": "C28", "title": "Parsing a boundary line", "statement": "A line is parsed into one number per comma-separated field, in order; an optional trailing comma is ignored; an empty line is the empty list; any other empty or non-numeric field makes the whole line fail.", "quantifier": "every line", "why_tests_cant": "All strings.", "anchors": ["src/string_utils.cc:read_comma_delimited_doubles", "src/string_utils.cc:string_to_double"]}
{"id": "C29", "title": "Trailing characters in a field are silently dropped", "statement": "string_to_double returns the value of the longest numeric prefix of the field and ignores the rest, so '0.5 0.6' parses as 0.5 (a field does not determine that all its text was consumed).", "quantifier": "every field with a numeric prefix and any suffix that does not extend it", "why_tests_cant": "All suffixes.", "anchors": ["src/string_utils.cc:string_to_double"]}
{"id": "C30", "title": "Boundary files need two lines; everything after is ignored", "statement": "read_and_check_boundaries_file succeeds only if the file has two getline-readable, parseable lines, and its result depends only on those two lines; a file without a second line raises ifstream::failure; an unreadable file raises runtime_error.", "quantifier": "every file content", "why_tests_cant": "All file contents.", "anchors": ["src/read_boundaries_file.cc:read_and_check_boundaries_file", "src/read_boundaries_file.cc:read_next_line"]}
{"id": "C31", "title": "string_to_long parses exactly the longs", "statement": "string_to_long returns v on the decimal representation of every 64-bit long v, and throws on empty input, out-of-range numbers and trailing characters.", "quantifier": "every string; every 64-bit value", "why_tests_cant": "2^64 values and all strings.", "anchors": ["src/string_utils.cc:string_to_long"]}
{"id": "C32", "title": "Monte-Carlo crossing test is exact", "statement": "does_integer_step_function_cross reports no crossing exactly when the number of steps s satisfies |B| <= s (and s <= |b| if b is non-empty), every steps[i] <= B[i] and (if b non-empty) every steps[i] >= b[i]; it never reads out of bounds.", "quantifier": "every steps array, all b, B", "why_tests_cant": "All lengths and values.", "anchors": ["src/crossprob_mc.cc:does_integer_step_function_cross"]}
{"id": "C33", "title": "Monte-Carlo ecdf counts the complement of the event of the exact algorithms", "statement": "For full-length boundaries a simulated sorted sample is counted as crossing iff it violates b_i <= X_(i) <= B_i for some i; the reported estimate is (number of non-crossing runs)/(number of runs), in [0,1].", "quantifier": "every stream of random numbers, all b, B, every number of simulations in 1..INT_MAX", "why_tests_cant": "All random streams.", "anchors": ["src/crossprob_mc.cc:ecdf_crossing_probability_montecarlo", "src/crossprob_mc.cc:does_random_ecdf_cross"]}
{"id": "C34", "title": "Monte-Carlo run counts above INT_MAX never terminate", "statement": "With num_simulations > 2^31-1 the 32-bit loop counter wraps (-fwrapv) and the simulation loop never ends; with 1 <= num_simulations <= 2^31-1 it runs exactly that many times; with 0 the estimate is 0/0 = NaN.", "quantifier": "every num_simulations", "why_tests_cant": "Non-termination is not observable by a test.", "anchors": ["src/crossprob_mc.cc:ecdf_crossing_probability_montecarlo", "src/crossprob_mc.cc:poisson_process_crossing_probability_montecarlo"]}
{"id": "C35", "title": "crossprob_mc poisson with an empty first line always reports 0", "statement": "If b is empty and B is not, every simulated Poisson path is counted as crossing, so the reported non-crossing estimate is 0 regardless of B, contrary to the treatment of an empty b in 'ecdf' mode.", "quantifier": "every B non-empty, every random stream", "why_tests_cant": "All random streams.", "anchors": ["src/crossprob_mc.cc:does_random_poisson_process_cross"]}
{"id": "C36", "title": "The random generator never reaches the stuck state and outputs uniforms on a grid in [0,1)", "statement": "After initialisation with any seed and any parameters the generator's 127-bit state is never all-zero, at any step (from the all-zero state it would never leave), and the state sequence is periodic from the start; each uniform returned by tinymt64_generate_double01 is k/2^52 with 0<=k<2^52 (0 included); the other conversion functions return values in the ranges documented in the header.", "quantifier": "every seed, every parameter triple, every number of steps", "why_tests_cant": "2^127 states.", "anchors": ["src/tinymt64.cc:tinymt64_init", "src/tinymt64.cc:period_certification", "src/tinymt64.h:tinymt64_next_state", "src/tinymt64.h:tinymt64_generate_double01"]}
{"id": "C37", "title": "The seed does not determine the random stream", "statement": "crossprob_mc never sets the generator parameters mat1, mat2, tmat before tinymt64_init reads them, so for every seed there are contents of uninitialised memory giving different streams.", "quantifier": "every seed", "why_tests_cant": "Depends on uninitialised memory, not reproducible by tests.", "anchors": ["src/crossprob_mc.cc:RandomNumberGenerator", "src/tinymt64.cc:tinymt64_init"]}
{"id": "C38", "title": "Simulated samples are increasing points of (0,1) unless a uniform draw is exactly 0", "statement": "If every uniform draw of a Monte-Carlo 'ecdf' run lies strictly between 0 and 1, the simulated sample is strictly increasing in (0,1) (exact arithmetic). If draw number k (0-based, k<=n) is exactly 0, the sample is k zeros followed by n-k NaNs; and if that is the first draw the run is counted as non-crossing whatever the boundaries.", "quantifier": "every stream of uniform draws in [0,1)", "why_tests_cant": "The failing draw has probability 2^-52.", "anchors": ["src/crossprob_mc.cc:does_random_ecdf_cross", "src/crossprob_mc.cc:generate_exponential"]}
{"id": "C39", "title": "Direct-convolution ecdf2 has small relative error in floating point", "statement": "Direct-convolution ecdf2 involves no cancellation: if each arithmetic operation on non-negative numbers is exact up to a factor between 1/g and g (plus an absolute underflow error eta for products and quotients), integers up to n+1 are exact, comparisons are exact, and each Poisson probability is accurate up to a factor g^P (plus an absolute underflow error etaP), then the returned number is finite, non-negative and equals the non-crossing probability up to a factor between g^-K and g^K with K = (2n+1)(P+n+2)+P+1 and an absolute error that vanishes when eta = etaP = 0; then it is exactly 0 iff the probability is 0. P follows from the accuracy of log, lgamma, exp, + and - individually: P is of order n*Lambda + log n! where Lambda bounds |log(n*gap)| over gaps between boundary points. In particular this holds for p-bit round-to-nearest binary floating point without under/overflow, p >= 3. Underflow does not disturb zeros: if products with 0 and quotients of 0 are 0, the result is exactly 0 whenever the probability is 0.", "quantifier": "every rounding behaviour satisfying the standard model of floating-point arithmetic, every n >= 1 and every valid pair of boundaries (not strongly crossed if assertions are on)", "why_tests_cant": "Quantifies over all rounding error patterns.", "anchors": ["src/ecdf2.cc:poisson_process_noncrossing_probability", "src/common.cc:convolve_same_size"]}
{"id": "C40", "title": "No int overflow for realistic n", "statement": "For n+1 <= 2^30-1024, all int expressions in the convolver's size computations (2*size, round_up, index) stay within 32-bit range and equal their mathematical values; beyond, 2*size overflows. The int variables of ecdf1_mns2016 (the accumulated exponent in particular) do not overflow for up to 2089360 bounds if FLOAT is long double and up to 31992304 if it is double: the function returns what it would with unbounded integers, in any arithmetic.", "quantifier": "every n up to the bounds; every boundary and arithmetic", "why_tests_cant": "2^30 values.", "anchors": ["src/fftwconvolver.cc:round_up", "src/fftwconvolver.cc:FFTWConvolver::FFTWConvolver", "src/ecdf1_mns2016.cc:ecdf1_mns2016_b"]}
{"id": "C41", "title": "End to end: the printed number is the probability described by the file", "statement": "If the two lines of the file are comma separated decimal numbers forming valid boundaries, the program run with an ecdf2-* algorithm prints (a rendering of) exactly the non-crossing probability of those boundaries and exits 0 (exact arithmetic, asserts off or not strongly crossed).", "quantifier": "every such file", "why_tests_cant": "Composition of parsing, dispatch, validation and numerics for all files.", "anchors": ["src/crossprob.cc", "src/read_boundaries_file.cc", "src/string_utils.cc", "src/ecdf2.cc"]}
{"id": "C42", "title": "Operation counts match the documented complexities", "statement": "Counting array accesses, floating-point operations and library calls: ecdf2 takes at most 100(n+1)^3 steps with direct convolution and O(n^2 log n) with FFT, plus one sort of 2n numbers; ecdf1_new takes O(n^2) steps and ecdf1_mns2016 at most 70(n+1)^2, with explicit constants. Executing or planning a transform of size N is priced at most kappa N (log2 N + 1).", "quantifier": "every n, every pair of input lists (valid or not), every price kappa, every assert setting", "why_tests_cant": "Asymptotic claims.", "anchors": ["src/ecdf2.cc", "src/ecdf1_mns2016.cc", "src/ecdf1_new.cc", "src/fftwconvolver.cc", "src/common.cc"]}
{"id": "C43", "title": "Compiling assertions in only adds aborts", "statement": "If the assertion build of ecdf2, ecdf1_new_B or ecdf1_new_b ends in anything but an assertion failure (a number, an exception), the NDEBUG build ends in exactly the same way on the same input, in any arithmetic.", "quantifier": "every input, every arithmetic, every sort and FFT result", "why_tests_cant": "Two builds compared on all inputs.", "anchors": ["src/ecdf2.cc", "src/ecdf1_new.cc", "src/fftwconvolver.cc"]}
{"id": "C44", "title": "Windows line endings: harmless for two-sided files, fatal for one-sided ones", "statement": "If each line of a boundary file ends with a carriage return, a file with two non-empty lines of numbers is read exactly as without it; but a carriage-return-only first or second line (an empty boundary saved with CRLF), or a trailing comma before the carriage return, is rejected with an exception.", "quantifier": "every pair of well-formed lines, every number format accepted by strtod", "why_tests_cant": "All files.", "anchors": ["src/string_utils.cc:read_comma_delimited_doubles", "src/read_boundaries_file.cc:read_and_check_boundaries_file"]}
{"id": "C45", "title": "ecdf1_mns2016 never returns a number for a NaN boundary", "statement": "If a boundary list contains a NaN, ecdf1_mns2016_b and ecdf1_mns2016_B return either an exception or NaN, never a number; when validation accepts the list (NaN can pass it) the lower one returns exactly NaN.", "quantifier": "every list with at least one NaN, every position", "why_tests_cant": "All positions and lengths.", "anchors": ["src/ecdf1_mns2016.cc"]}
{"id": "C46", "title": "Poisson simulation seed is undefined for intensity >= 2148", "statement": "poisson_noncrossing_probability_montecarlo computes its seed as time(NULL)+int(intensity*1000000): for every intensity n <= 2147 this is the mathematical value, for every n >= 2148 the double-to-int conversion is out of range (undefined behaviour).", "quantifier": "every n and every time", "why_tests_cant": "All n.", "anchors": ["src/crossprob_mc.cc:poisson_noncrossing_probability_montecarlo"]}
{"id": "C47", "title": "Monte-Carlo ecdf estimate is unbiased with binomial variance", "statement": "If the generator delivers independent uniform [0,1] draws, then for 1 <= N <= INT_MAX simulations the crossing estimate of crossprob_mc ecdf is, with probability one, a number whose mean is one minus the probability that the order statistics of n uniform numbers stay inside the boundaries (so one minus what ecdf2, or the one-sided algorithm when a line is empty, returns) and whose variance is q(1-q)/N for that probability q; hence Pr[error >= c] <= q(1-q)/(N c^2).", "quantifier": "every n >= 1, every pair of boundary lists of admissible sizes, every N, every probability space carrying i.i.d. uniform draws", "why_tests_cant": "A statement about the distribution over all draw sequences; a simulation can only sample it, and the normalised-partial-sums trick is correct only by a theorem about exponential spacings.", "anchors": ["src/crossprob_mc.cc: ecdf_crossing_probability_montecarlo, does_random_ecdf_cross, ExponentialRNG"]}
{"id": "C48", "title": "crossprob_mc command line contract", "statement": "crossprob_mc exits 2 with an error message unless it gets exactly 3 arguments, a parseable non-negative number of simulations, a readable boundary file and a command 'ecdf' or 'poisson'; a stream failure exits 1. Otherwise 'ecdf' with 1 <= N <= 2^31-1 prints a number in [0,1] (the fraction of simulated samples inside the boundaries), 'poisson' with n <= 2147 prints a number in [0,1]; with N > 2^31-1 nothing is ever printed; two empty lines ('ecdf') or n >= 2148 ('poisson') are undefined behaviour (the last three unless b is non-empty and shorter than B, when 0 is printed without any simulation).", "quantifier": "every argument list, file system, seed time and uninitialised memory", "why_tests_cant": "Quantifies over files, clocks and memory contents.", "anchors": ["src/crossprob_mc.cc"]}
{"id": "C49", "title": "Python callers cannot crash the interpreter with ordinary arguments, except through ecdf1_new with an empty list", "statement": "Whatever is passed out of None, bools, numbers, lists, tuples and other sequences whose items can all be read, VectorDouble objects and objects that are not sequences: ecdf2, ecdf1_mns2016_b and ecdf1_mns2016_B either return a float or raise (TypeError, ValueError, RuntimeError); ecdf1_new_b/_B do so exactly when the argument is not the empty list (release build). use_fft must be a bool: anything else is a TypeError. (As in C16, std::sort is taken to rearrange its argument somehow even for NaN; C87 shows that it does.) On well-typed arguments the result is that of the C++ function. Sequences whose __getitem__ or __len__ may raise are in C89: they can crash the interpreter.", "quantifier": "every argument tuple of such objects", "why_tests_cant": "All argument tuples.", "anchors": ["python_extension/crossprob.cc:_wrap_ecdf2", "python_extension/crossprob.py", "src/crossprob.i"]}
{"id": "C50", "title": "Monte-Carlo Poisson estimate is unbiased with binomial variance", "statement": "If the generator delivers independent uniform [0,1] draws, then for 1 <= N <= INT_MAX simulations the crossing estimate of crossprob_mc poisson is, with probability one, a number whose mean is one minus the probability that a homogeneous Poisson process of the given intensity on [0,1] stays inside the boundaries, and whose variance is q(1-q)/N, although each simulated path uses a random number of draws.", "quantifier": "every positive intensity, every pair of boundary lists with b empty or |B| <= |b|, every N, every probability space carrying i.i.d. uniform draws", "why_tests_cant": "A statement about the distribution over all draw sequences; correlation between paths through the shared draw stream is invisible in any finite set of runs.", "anchors": ["src/crossprob_mc.cc: poisson_process_crossing_probability_montecarlo, does_random_poisson_process_cross, ExponentialRNG"]}
{"id": "C51", "title": "Memory blocks and FFT plans are freed, except that ecdf1_new leaks one block per exception", "statement": "ecdf2 and both ecdf1_mns2016 functions free exactly the blocks and plans they allocate, each once, whether they return or throw. ecdf1_new_B and ecdf1_new_b do so when they return and when validation rejects the list, but any exception after validation leaves exactly one more block allocated; lists with a NaN reach this (in the release build), and repeated calls accumulate one block each. A convolver creates at most one plan per direction and padded size, however many convolutions it performs.", "quantifier": "every arithmetic, every list, every sort order, every state of the allocator, every sequence of calls", "why_tests_cant": "Leaks on exceptional paths and double frees do not change any returned value; a test would have to provoke every throw point.", "anchors": ["src/ecdf1_new.cc: poisson_B_noncrossing_probability_n2", "src/ecdf2.cc: poisson_process_noncrossing_probability", "src/fftwconvolver.cc: FFTWConvolver", "src/poisson_pmf.cc: PoissonPMFGenerator", "src/ecdf1_mns2016.cc: PolynomialTranslatedMonomials", "src/aligned_mem.hh"]}
{"id": "C52", "title": "The FFT variant of ecdf2 has small absolute error in floating point", "statement": "With FFT convolution, ecdf2 returns a finite number within A of the non-crossing probability, for any arithmetic whose signed operations have relative error u (plus an absolute underflow error), any FFT library whose transforms have relative error delta in Euclidean norm, and Poisson probabilities accurate up to a factor g^P: A = (1+u)((kap^(2n+1)-1) g^P / Pr[Poisson(n)=n] + g^P - 1) + u + eta, where kap = 1 + error of one convolution step, as long as kap^(2n+1) <= 2. For p-bit round-to-nearest floating point the error is at most 4 e sqrt(n) (2n+1) T with T = 2(2Qu + sqrt(N)(13u+4delta) + 256u), N the largest transform length and Q of order n*Lambda + log n!. The same absolute bound holds for direct convolution. (The error is absolute: with the FFT there is no relative accuracy, results may even be slightly negative.)", "quantifier": "every rounding behaviour of the arithmetic and of the FFT library within the stated error bounds, every n >= 1, every valid pair of boundaries (not strongly crossed if assertions are on)", "why_tests_cant": "Quantifies over all rounding error patterns of the arithmetic and of the FFT library.", "anchors": ["src/ecdf2.cc:poisson_process_noncrossing_probability", "src/fftwconvolver.cc:FFTWConvolver::convolve_same_size", "src/fftwconvolver.cc:elementwise_complex_product", "src/common.cc:convolve_same_size"]}
{"id": "C53", "title": "ecdf1_new has small absolute error in floating point", "statement": "ecdf1_new_B returns a finite number within A of Pr[X_(i) <= B_i for all i], for any arithmetic whose signed operations have relative error u (plus an absolute underflow error), any FFT library whose transforms have relative error delta in Euclidean norm, and Poisson probabilities accurate up to a factor g^P: A = (1+u)(((1+tau)^(3n+1)-1) g^P / Pr[Poisson(n)=n] + g^P - 1) + u + eta, tau the error of one step, as long as (1+tau)^(3n+1) <= 2; the FFTs of all blocks, the subtraction of the exit probabilities and the block size are all covered. ecdf1_new_b, which works on the rounded boundary 1-b, is within A + n^2 u of Pr[b_i <= X_(i) for all i]. For p-bit round-to-nearest floating point A is at most 4 e sqrt(n) (3n+1) T with T as in C52.", "quantifier": "every rounding behaviour of the arithmetic and of the FFT library within the stated error bounds, every n >= 1 (>= 2 if assertions are on), every block size, every valid boundary", "why_tests_cant": "Quantifies over all rounding error patterns; ecdf1_new subtracts probabilities, so cancellation must be bounded for every boundary.", "anchors": ["src/ecdf1_new.cc:ecdf1_new_B", "src/ecdf1_new.cc:ecdf1_new_b", "src/ecdf1_new.cc:poisson_B_noncrossing_probability_n2"]}
{"id": "C54", "title": "The result depends continuously on the boundaries", "statement": "Changing the boundary points changes the result by at most n times the sum of the changes (each of the five functions, exact arithmetic). In particular, if the decimals of a boundary file are rounded to p-bit numbers when read, the p-bit FFT variant of ecdf2 is within its rounding bound (C52) plus 2 n^2 2^-p of the probability for the boundaries as written, and rounding never turns a valid boundary into an invalid one.", "quantifier": "every two pairs of valid boundaries of the same length n; every precision p >= 3 (boundaries not strongly crossed if assertions are on)", "why_tests_cant": "Quantifies over all pairs of boundary vectors.", "anchors": ["src/ecdf2.cc:ecdf2", "src/ecdf1_new.cc:ecdf1_new_B", "src/ecdf1_new.cc:ecdf1_new_b", "src/ecdf1_mns2016.cc:ecdf1_mns2016_b", "src/ecdf1_mns2016.cc:ecdf1_mns2016_B"]}
{"id": "C55", "title": "Boundaries out of order are rejected; monotonising them gives the right probability", "statement": "If b or B is not nondecreasing, every function (also ecdf2 called from Python) raises a runtime error, although the event is well defined. Replacing b by its running maximum and B by its minimum from the right gives valid boundaries for which the functions return the probability of the original event. In particular the example in the module documentation, ecdf2([0,0.15,0.5],[0.7,0.9,0.8],True), raises RuntimeError.", "quantifier": "every pair of boundary vectors with entries in [0,1]", "why_tests_cant": "Quantifies over all unordered boundaries; the documented example is itself one.", "anchors": ["src/common.cc:check_boundary_vector", "src/crossprob.i:ecdf2", "src/ecdf2.cc:ecdf2"]}
{"id": "C56", "title": "exactbj.py computes the Berk-Jones statistic and its null distribution", "statement": "For a scipy.special that is exact: _uniform_order_statistic_cdf(i,n,x) = Pr[U_(i) <= x]; Mn_plus_statistic of a nonempty sample in [0,1] is the smallest of the p-values Pr[U_(i) <= x_(i)], it leaves a list alone but sorts a float array in place; samples outside [0,1] raise AssertionError and the empty sample ValueError; Mn_plus_bounds(n,y) is a valid boundary of y-quantiles; Mn_plus_distribution(n,y) = Pr[M_n^+ < y] for all y in [0,1] (0 at 0, 1 at 1), computed by ecdf1_new_b; for n = 0 it is undefined behaviour.", "quantifier": "every sample size n >= 1, every sample in [0,1]^n, every level y in [0,1]", "why_tests_cant": "A statement about probabilities for every n and y.", "anchors": ["benchmarks/exactbj.py:Mn_plus_statistic", "benchmarks/exactbj.py:Mn_plus_bounds", "benchmarks/exactbj.py:Mn_plus_distribution", "benchmarks/exactbj.py:_uniform_order_statistic_cdf", "src/ecdf1_new.cc:ecdf1_new_b"]}
{"id": "C57", "title": "Convergence and accuracy of the threshold search", "statement": "inverse_Mn_plus(n,alpha) never converges in exact arithmetic: it always raises the AssertionError. In p-bit floating point (p <= 107) it returns if and only if the computed distribution function is below alpha at some 2^-k with k <= 108-p, otherwise it raises the AssertionError; what it returns is one of two neighbouring p-bit numbers between which the computed distribution function passes alpha. If the computed distribution function has absolute error at most e and n 2^-k + e < alpha <= 1 for such a k, the true level Pr[M_n^+ < r] of the returned r is within e + n 2^-p of alpha; e follows from the accuracy of scipy's betaincinv and C53.", "quantifier": "every n >= 1, every level alpha, every behaviour of the distribution function at the points of the search, every precision p <= 107", "why_tests_cant": "Convergence depends on the rounding of every midpoint; tests sample only a few n and alpha.", "anchors": ["benchmarks/exactbj.py:inverse_Mn_plus", "benchmarks/exactbj.py:N_BINARY_SEARCH_STEPS_MAX"]}
{"id": "C58", "title": "Rounding error of ecdf1_mns2016: proportional to a condition number; NaN without that condition", "statement": "If every floating-point operation has relative error at most u, ecdf1_mns2016_b returns a finite number whose distance from the true probability P is at most about n^2 u K + 16 u (3 log n! + |log P| + 4) P as soon as n^2 u K is small against P, where K is a condition number (the sum of the absolute values of the cancelling terms) that depends only on the boundary and is at most (golden ratio)^(n+2). In 64-bit (x87 long double) precision, up to 30 points and P >= 1e-8, the absolute error is at most 1e-9. ecdf1_mns2016_B has the further error n^2 u of reflecting the boundary. Without the condition the claim is false: there is a valid boundary of four doubles, of positive probability, for which the 64-bit function returns NaN.", "quantifier": "every n, every valid boundary, every arithmetic with relative error u, every pattern of exponent rescalings", "why_tests_cant": "Cancellation depends on the boundary; tests only sample benign ones.", "anchors": ["src/ecdf1_mns2016.cc:ecdf1_mns2016_b", "src/ecdf1_mns2016.cc:ecdf1_mns2016_B", "src/ecdf1_mns2016.cc:PolynomialTranslatedMonomials"]}
{"id": "C59", "title": "What the programs write: standard output and exit code for every run", "statement": "crossprob exits with 0 exactly when it computed a value, and then its whole output is that value in six-digit decimal notation and a newline; with a wrong number of arguments it writes the usage text and an error line and exits with 1; an I/O error or any other exception gives an error text (on standard output) and exit code 2 or 3; the usage text is shown exactly when the command is unknown or a one-sided command did not get exactly one nonempty line. A finite value is written as a decimal number within a relative 5e-6, infinities and NaN as text that is not a number, and every value in (0.9999995, 1] is written as 1. For a file with valid boundaries the printed number is within a relative 5e-6 of the probability (exact arithmetic), and in p-bit arithmetic within the sum of that and the rounding error of C54. crossprob_mc likewise. The usage text's own two-sided example prints the probability of a different event than the one it describes.", "quantifier": "every list of arguments, every file content, every floating-point behaviour and, for the accuracy statements, every valid boundary and every n", "why_tests_cant": "Output and exit codes depend on arguments, file contents and results in unbounded combinations.", "anchors": ["src/crossprob.cc:main", "src/crossprob.cc:print_usage", "src/crossprob.cc:handle_command_line_arguments", "src/crossprob_mc.cc:main", "src/crossprob_mc.cc:handle_command_line_arguments"]}
{"id": "C60", "title": "vector_to_string writes what the boundary reader reads", "statement": "vector_to_string of any vector is its numbers in six-digit notation separated by a comma and a blank, and a newline. Reading the text of a nonempty vector of finite numbers with read_comma_delimited_doubles gives back a vector of the same length and order with each number within a relative 5e-6; the text of the empty vector is not read back but gives a runtime_error. A file with the texts of two vectors (empty or not) is read back by the boundary reader. The round trip keeps valid boundaries valid (order, [0,1], 0 and 1 exactly, not crossed) and changes the probability by at most n times the sum of the changes.", "quantifier": "every vector, every file, every valid pair of boundaries and every n", "why_tests_cant": "Rounding to six digits must preserve order and range for all pairs of numbers.", "anchors": ["src/string_utils.cc:vector_to_string", "src/string_utils.cc:read_comma_delimited_doubles", "src/read_boundaries_file.cc:read_and_check_boundaries_file"]}
{"id": "C61", "title": "Accuracy in IEEE-754 double precision, with subnormal numbers, overflow and no assumption on the boundary", "statement": "In IEEE-754 binary64 arithmetic (53 bits, gradual underflow, overflow to infinity, NaN, any round-to-nearest rule), with a math library accurate to four units in the last place, for every pair of valid boundaries of doubles (including subnormal, equal and adjacent ones) ecdf2 without FFT returns a finite non-negative double with relative error at most 7e-8 (up to 100 points) or 7e-6 (up to 1000 points), plus 2^-1000. With an FFT library of relative accuracy 2^-45, ecdf2 with FFT is within 3e-6 of the probability and ecdf1_new within 4e-6 (up to 100 points), 8e-4 and 12e-4 respectively (up to 1000 points). End to end, crossprob run on a file with decimal boundaries exits with 0 and prints a decimal number within 5.1e-6 times the probability plus 2e-11 (ecdf2-ks2001, up to 100 points), 12.1e-6 times the probability plus 2e-9 (up to 1000 points), 9e-6 (ecdf2-mn2017) or 1e-5 (ecdf1-new; both up to 100 points; 905e-6 and 1305e-6 up to 1000 points) of the probability for the numbers as written in the file. Where the probability is 0 the result of ecdf2 without FFT is exactly 0.", "quantifier": "every valid boundary (pair) of doubles of the stated length, every file with such numbers in any decimal notation, every rounding of ties, every library within the stated accuracy, every sort order of equal points", "why_tests_cant": "There are 2^64 doubles per point and the error bound must hold for all of them, in particular for distances down to the smallest subnormal number.", "anchors": ["src/ecdf2.cc:ecdf2", "src/ecdf1_new.cc:ecdf1_new_b", "src/ecdf1_new.cc:ecdf1_new_B", "src/poisson_pmf.cc:PoissonPMFGenerator", "src/fftwconvolver.cc:FFTWConvolver::convolve_same_size", "src/crossprob.cc:main"]}
{"id": "C62", "title": "Up to 126 points, and for narrow bands, the FFT is never used", "statement": "For boundaries of at most 126 points ecdf2 with use_fft=true and with use_fft=false do the same thing, bit for bit (same number or same error), whatever the arithmetic and the FFT library do, and ecdf1_new gives the same result with any two FFT libraries. The same holds for ecdf2 with any number of points if every point of the upper boundary is smaller than the lower-boundary points 126 or more places later. Hence on a file with at most 126 points per line `crossprob ecdf2-mn2017` and `crossprob ecdf2-ks2001` write the same bytes, and no command depends on FFTW; up to 100 points the double-precision error bounds of C61 for direct convolution (relative error 7e-8) hold for the FFT commands with no assumption on FFTW. The threshold is exact: a convolution of 128 or more elements returns what the inverse FFT returned.", "quantifier": "every list of numbers (valid or not) of the stated length, every arithmetic (including NaN and rounding), every FFT library, every sort routine that permutes, both build modes, every file", "why_tests_cant": "Equality of two code paths must hold for all inputs and for every behaviour of a third-party library; a test sees one library and a few inputs.", "anchors": ["src/ecdf2.cc:ecdf2", "src/ecdf2.cc:poisson_process_noncrossing_probability", "src/fftwconvolver.cc:FFTWConvolver::convolve_same_size", "src/fftwconvolver.cc:MINIMUM_SIZE_FOR_FFTW_CONVOLUTION", "src/ecdf1_new.cc:poisson_B_noncrossing_probability_n2", "src/crossprob.cc:calculate_ecdf2_mn2017"]}
{"id": "C63", "title": "The six printed digits are the right ones; the repository test-suite passes on every IEEE-754 machine", "statement": "In IEEE-754 double precision with any FFT library: if every number within 1e-7*P + 1e-11 of the true probability P is written s with six significant digits (P is not too close to a point where the sixth digit changes), then `crossprob ecdf2-ks2001 file` and `crossprob ecdf2-mn2017 file` (up to 100 points, files with two boundaries or only one of them) write exactly s and a newline and exit with 0; `crossprob ecdf1-new file` (up to 20 points, tolerance 1e-7) likewise. In particular all fourteen deterministic assertions of tests/test_crossprob.py about these three commands hold on every such machine: every tie-breaking rule, every libm accurate to 2^-50, every conforming strtod and output routine, every sorting algorithm, every FFT library, with or without assertions.", "quantifier": "every valid boundary of up to 100 (20) points, every file that holds it, every float system with the binary64 format, every libm/strtod/printf/sort/FFT meeting its contract, both build modes", "why_tests_cant": "A test run shows the digits on one machine with one compiler and library; that the same digits come out on every conforming machine, and for every other input away from rounding boundaries, is a universal statement.", "anchors": ["src/crossprob.cc:main", "src/crossprob.cc:handle_command_line_arguments", "src/ecdf2.cc:ecdf2", "src/ecdf1_new.cc:ecdf1_new_B", "src/ecdf1_new.cc:ecdf1_new_b", "tests/test_crossprob.py:test_ecdf2ks2001", "tests/test_crossprob.py:test_ecdf2mn2017", "tests/test_crossprob.py:test_ecdf1m2020"]}
{"id": "C64", "title": "Accuracy of ecdf1_mns2016 in one IEEE-754 format, with overflow and subnormal numbers, on every valid boundary", "statement": "If ecdf1_mns2016_b is compiled so that FLOAT is an IEEE-754 format (double, or the x87/quadruple long double) with a math library accurate to u per call and pow(x,i) accurate to q relative errors, then on every valid lower boundary whose probability is not below an explicit threshold (about condition-number 1.62^(n+2) * n^2 * u) it returns a finite number within an explicit error of the probability: no overflow, no NaN, no use of log of a non-positive number, exponent rescaling included. With doubles throughout, up to 20 points and probability at least 2.5e-7: error at most 6e-8 (ecdf1_mns2016_B: 7e-8).", "quantifier": "every valid boundary of finite numbers of the format, every format, tie-breaking rule and library meeting the stated accuracy, both build modes", "why_tests_cant": "The error grows with a condition number and depends on the platform's libm and format; tests sample a few boundaries on one platform.", "anchors": ["src/ecdf1_mns2016.cc:ecdf1_mns2016_b", "src/ecdf1_mns2016.cc:ecdf1_mns2016_B", "src/ecdf1_mns2016.cc:PolynomialTranslatedMonomials", "src/ecdf1_mns2016.cc:FLOAT"]}
{"id": "C65", "title": "ecdf1_mns2016 as compiled: double outside, long double inside; the complete deterministic test-suite passes on every such machine", "statement": "With double boundaries and results and long double arithmetic inside (FLOAT_PRECISION_BITS 80), ecdf1_mns2016_b behaves, on every list of doubles including invalid ones, exactly as if all of it were long double and the result were rounded to double once at the end (same error, same fault, same number); the reflection 1-B of ecdf1_mns2016_B is in double. For long double at least as precise and wide as the x87 extended format: up to 20 points and probability >= 1e-9 the error is at most 1e-10; up to 30 points and >= 1e-7: 1e-8; up to 40 points and >= 1e-5: 2e-6. `crossprob ecdf1-mns2016 file` prints the right six digits (up to 20 points), and all eighteen deterministic assertions about crossprob in tests/test_crossprob.py hold on every machine with IEEE doubles and such a long double.", "quantifier": "every list of doubles (transfer), every valid boundary (accuracy), every file that holds one (program), every float system with the binary64 format outside and every format containing x87 extended inside, every conforming library, both build modes", "why_tests_cant": "Mixed-precision behaviour depends on platform formats and libraries; a test run covers one platform and a handful of files.", "anchors": ["src/ecdf1_mns2016.cc:ecdf1_mns2016_b", "src/ecdf1_mns2016.cc:ecdf1_mns2016_B", "src/ecdf1_mns2016.cc:FLOAT_PRECISION_BITS", "src/crossprob.cc:calculate_ecdf1_mns2016", "src/crossprob.cc:main", "tests/test_crossprob.py:test_ecdf1mns2016"]}
{"id": "C66", "title": "Accuracy of ecdf2 as compiled with -O3 -ffast-math -march=native, whatever the optimiser did with the sums", "statement": "The build flags let the compiler sum the products of every inner loop in any order (several accumulators, vector lanes), fuse multiplications with additions, rearrange the exponent of the Poisson probabilities, call other implementations of exp, associate and fuse the multiplications in the product of spectra of the FFT convolution, and replace the final division by a multiplication. For every such choice that is an identity in real arithmetic (each product used once, no product passing through more than 1000 additional roundings), in IEEE-754 double precision with a library accurate to four units in the last place, ecdf2 (both variants) on every pair of valid boundaries of up to 100 doubles returns a finite non-negative double with relative error at most 7e-8 (plus 2^-1000 for underflow); without FFT up to 1000 doubles: 7e-6. With FFT and an FFT library of relative accuracy 2^-45 the absolute error is at most 5e-5 up to 300 doubles and 8e-4 up to 1000. In any floating-point arithmetic an explicit bound holds that is polynomial in n. The choice that follows the source is one of them and returns what the source returns. Where the probability is 0 the result of ecdf2 without FFT is exactly 0.", "quantifier": "every legal choice of the compiler at every loop iteration, every pair of valid boundaries (also crossing ones without assertions), every tie-breaking rule, sort, fused multiply-add and exp meeting the stated accuracy", "why_tests_cant": "The evaluation order depends on the compiler version, the CPU the program is built on and the array sizes; a test sees one of them.", "anchors": ["Makefile:CXXFLAGS", "setup.py:extra_compile_args", "src/ecdf2.cc:ecdf2", "src/common.cc:convolve_same_size", "src/fftwconvolver.cc:convolve_same_size_naive", "src/poisson_pmf.cc:compute_array", "src/poisson_pmf.hh:poisson_pmf", "src/fftwconvolver.cc:elementwise_complex_product"]}
{"id": "C67", "title": "Accuracy of ecdf1_new and of the ecdf2 and ecdf1-new commands as compiled with -O3 -ffast-math -march=native", "statement": "For every legal choice of the compiler (order of the inner sums, fused multiply-add in the sums and, element by element, in the loop that subtracts the paths that left, rearranged exponents, other exp, the product of spectra associated and fused in any way, division replaced by multiplication), in IEEE-754 double precision with a library accurate to four units in the last place: ecdf1_new_B and ecdf1_new_b return a finite double with absolute error at most 9e-8 for up to 20 points, 4e-6 for up to 100 (any FFT library), 1.2e-3 for up to 1000 with an FFT library of error 2^-45; in any arithmetic and for any size an explicit bound holds. The command-line program so compiled prints the right six digits whenever the probability is not too close to a rounding boundary (the tolerances of C63), and every deterministic assertion of tests/test_crossprob.py about ecdf2-ks2001, ecdf2-mn2017 and ecdf1-new holds. The choice that follows the source is one of them and returns what the source returns.", "quantifier": "every legal choice of the compiler at every loop iteration, every valid boundary, every tie-breaking rule, sort, FFT library (up to 126 points), fused multiply-add and exp meeting the stated accuracy; every conforming strtod and output routine", "why_tests_cant": "The evaluation order depends on the compiler version, the CPU the program is built on and the array sizes; a test sees one of them.", "anchors": ["Makefile:CXXFLAGS", "setup.py:extra_compile_args", "src/ecdf1_new.cc:poisson_B_noncrossing_probability_n2", "src/ecdf1_new.cc:ecdf1_new_B", "src/ecdf1_new.cc:ecdf1_new_b", "src/common.cc:convolve_same_size", "src/poisson_pmf.hh:evaluate_pmf", "src/crossprob.cc:main", "tests/test_crossprob.py"]}
{"id": "C68", "title": "Accuracy of ecdf1_mns2016 and of the whole program as compiled with -O3 -ffast-math -march=native, with double and long double", "statement": "For every legal choice of the compiler (order of the sum in evaluate, fused multiply-add, pow expanded into multiplications, division by i replaced by multiplication with the reciprocal, rearranged final exponent, other exp), with IEEE doubles outside and a long double of at least the x87 extended format inside whose library is accurate to 2^-61: for every valid lower boundary of up to 20 doubles whose probability is at least 1e-9, ecdf1_mns2016_b returns a finite double within 2e-10 of the probability (up to 30 doubles and probability at least 1e-7: 3e-8); upper boundaries likewise; for any size and any pair of formats an explicit bound in terms of the condition number of the boundary holds. The command ecdf1-mns2016 of the program so compiled prints the right six digits whenever the probability is not too close to a rounding boundary, and with all three algorithms so compiled every deterministic assertion of tests/test_crossprob.py holds. The choice that follows the source is one of them and returns what the source returns.", "quantifier": "every legal choice of the compiler at every loop iteration, every valid boundary, every tie-breaking rule, every long double format from x87 extended up, every library meeting the stated accuracy; every conforming strtod and output routine", "why_tests_cant": "The evaluation order depends on the compiler version, the CPU the program is built on and the degree of the polynomial; the terms of the sum have alternating signs and cancel, so the order matters; a test sees one of them.", "anchors": ["Makefile:CXXFLAGS", "setup.py:extra_compile_args", "src/ecdf1_mns2016.cc:PolynomialTranslatedMonomials", "src/ecdf1_mns2016.cc:ecdf1_mns2016_b", "src/ecdf1_mns2016.cc:ecdf1_mns2016_B", "src/crossprob.cc:main", "tests/test_crossprob.py"]}
{"id": "C69", "title": "Error probability of the Monte-Carlo estimate falls exponentially", "statement": "In exact arithmetic and with independent uniform draws, for every number of simulations N >= 1 and every c >= 0 the probability that the Monte-Carlo estimate differs from the true crossing probability by c or more is at most 2 exp(-2 N c^2), for ecdf (any pair of boundaries) and for the Poisson process; with 10^6 simulations and the tolerance 0.01 of the test-suite this is below 2 exp(-200). The estimate and the number returned by ecdf2 agree up to c with the complementary probability.", "quantifier": "every boundary pair, every n, every number of simulations, every tolerance; every probability space carrying independent uniform draws", "why_tests_cant": "A statistical test that passes says nothing about the probability of passing; the bound quantifies over the distribution of all runs.", "anchors": ["src/crossprob_mc.cc:ecdf_crossing_probability_montecarlo", "src/crossprob_mc.cc:poisson_process_crossing_probability_montecarlo", "tests/test_crossprob.py:test_crossprob_mc_binomial"]}
{"id": "C70", "title": "The Monte-Carlo program in double precision, with its own generator", "statement": "In IEEE double precision: every draw of the generator is exactly k/2^52 with 0 <= k < 2^52; for any draws in [0,1] every simulated point is NaN or in [0,1] and the points that are numbers are in order, in every format and rounding; all points are numbers when no draw of the sample is 0, and when draw number k is the first 0 the points before number k are 0 and the others NaN (so they cross nothing); the printed estimate is within 2^-48 of 1 - (number of crossing samples)/N and in [0,1]; boundaries all 0 below and 1 above are never crossed, so crossprob_mc prints exactly 1 for them, at every time of day and for any number of simulations - in particular the two exact assertions of the test-suite about crossprob_mc always hold.", "quantifier": "every state of the generator, every seed time, every tie-breaking rule, every logarithm accurate to four units in the last place, every conforming strtol, strtod and output routine, every n and number of simulations", "why_tests_cant": "The program seeds itself from the clock: each test run sees one of 2^64 seeds and the zero draw has probability 2^-52.", "anchors": ["src/tinymt64.h:tinymt64_generate_double01", "src/crossprob_mc.cc:ecdf_crossing_probability_montecarlo", "src/crossprob_mc.cc:does_random_ecdf_cross", "src/crossprob_mc.cc:main", "tests/test_crossprob.py:test_crossprob_mc_binomial"]}
{"id": "C71", "title": "Accuracy of the Monte-Carlo program in double precision with 52-bit draws", "statement": "In IEEE double precision, if the generator delivers independent draws K/2^52 with K uniform on 0..2^52-1 (the resolution of the program's generator), then for boundaries with values in [0,1], N >= 1 simulations and c >= 0, except with probability 2 exp(-2 N c^2) ecdf_crossing_probability_montecarlo returns a number that differs by less than c plus an explicit systematic error from the exact crossing probability; the systematic error - 52-bit draws, rounding of logarithms, sums, quotients and boundaries, and NaN points after a zero draw - is at most 1e-8 for n <= 10, 1e-6 for n <= 100 and 2e-4 for n <= 1000. The same for the number printed by crossprob_mc (plus six-digit rounding) for every boundary file, and each of the four statistical assertions of the test-suite (1000000 simulations, tolerance 0.01) fails with probability at most 2 exp(-196).", "quantifier": "every boundary pair in [0,1] with at most 2^40 points, every number of simulations up to INT_MAX, every tolerance, every tie-breaking rule, every logarithm accurate to four units in the last place, every probability space with independent 52-bit draws, every conforming strtol, strtod and output routine", "why_tests_cant": "The bias of the floating-point simulation is far below what any feasible number of simulations can detect, and failure probabilities of a randomised test are not observable from its outcome.", "anchors": ["src/crossprob_mc.cc:ecdf_crossing_probability_montecarlo", "src/crossprob_mc.cc:does_random_ecdf_cross", "src/crossprob_mc.cc:handle_command_line_arguments", "src/tinymt64.h:tinymt64_generate_double01", "tests/test_crossprob.py:test_crossprob_mc_binomial"]}
{"id": "C72", "title": "Benchmark results on disk are right, complete and survive interruptions except during a save", "statement": "The precalc functions of benchmarks/exactbj.py save their results after every item. Killed at any point (or stopped by an exception) they have changed no file but their own, and their own file is as before, or cannot be loaded, or holds only completed items: thresholds as returned by inverse_Mn_plus for the first sizes, tables in which each entry is blank or holds 1 - (value of the library call) and the smallest measured time. An exception keeps everything found before it. When they return, the file holds everything; in exact arithmetic all results are Pr[M_n^+ < threshold], the same for every algorithm, and the relative errors of plot_relative_errors are zero; on an interrupted large-scale file plot_relative_errors raises. Saving is not atomic: after the next open() everything saved before is lost. precalc_all measures exactly the thresholds it has computed, and run again from any state of the disk it leaves the same files.", "quantifier": "every crash point (every prefix of the file system operations), every previous content of the disk, every list of sizes, every number of repetitions, every arithmetic and every failure of a library call, every clock", "why_tests_cant": "Crash points and disk histories cannot be enumerated by tests; the runs take hours.", "anchors": ["benchmarks/pickler.py:dump", "benchmarks/pickler.py:load", "benchmarks/exactbj.py:precalc_Mn_plus_alpha_level_thresholds", "benchmarks/exactbj.py:precalc_timings_Mn_plus", "benchmarks/exactbj.py:precalc_timings_Mn_plus_largescale", "benchmarks/exactbj.py:plot_relative_errors", "benchmarks/exactbj.py:precalc_all"]}
{"id": "C73", "title": "Accuracy of crossprob_mc poisson in double precision with 52-bit draws", "statement": "Run in IEEE-754 double precision with a generator of independent 52-bit draws, poisson_process_crossing_probability_montecarlo returns, except with probability 2 exp(-2 N c^2), a number in [0,1] that differs from the probability that a homogeneous Poisson process of the given intensity leaves the boundaries by less than c plus a systematic error, although each path uses a random number of draws; with n points at intensity n the systematic error is at most 1e-8 for n <= 10, 1e-6 for n <= 100, 1e-3 for n <= 2147. Accordingly the program crossprob_mc poisson exits with 0 and prints a number that close (plus six-digit rounding) to the probability that a Poisson process of intensity max(n, m) stays inside the boundaries as written in the file, for every file with at most 2147 numbers in [0,1] per line (0 if there are fewer lower than upper limits); from 2148 numbers on its behaviour is undefined, because the seed does not fit into an int.", "quantifier": "every pair of boundaries (of any two lengths), every intensity from 1 to 2^40, every number of simulations from 1 to INT_MAX, every c, every libm whose logarithm is accurate to four units in the last place, every boundary file, every time of day", "why_tests_cant": "A probability statement about all sequences of draws; a test observes one sequence, and cannot tell a systematic error of 1e-6 from noise.", "anchors": ["src/crossprob_mc.cc:poisson_process_crossing_probability_montecarlo", "src/crossprob_mc.cc:does_random_poisson_process_cross", "src/crossprob_mc.cc:generate_exponential", "src/crossprob_mc.cc:handle_command_line_arguments"]}
{"id": "C74", "title": "Period of the random number generator", "statement": "With the parameters mat1, mat2 of the generator's reference implementation (and any tmat), from any state except the all-zero one, the 127 state bits return to their initial value after exactly 2^127-1 steps and its multiples, every other state is visited exactly once per period, and after seeding with any seed the stream of uniform draws has the period 2^127-1 promised by the source and no shorter one. crossprob_mc never sets these parameters, however: there are contents of the uninitialised memory such that for every number of points n there is a starting time (for n <= 1000 between 2020 and 2053) for which crossprob_mc ecdf simulates the same sample (the equally spaced points i/(n+1)) in all of its runs and prints 0 or 1, for any boundaries and any number of simulations.", "quantifier": "every state, seed, tmat and number of steps; every file with two boundaries of the same length n, every n, every number of simulations from 1 to INT_MAX", "why_tests_cant": "The period is a number with 39 digits: no test can run through it, and no test can try all seeds or all contents of uninitialised memory.", "anchors": ["src/tinymt64.h:tinymt64_next_state", "src/tinymt64.h:tinymt64_generate_double01", "src/tinymt64.cc:tinymt64_init", "src/tinymt64.cc:period_certification", "src/crossprob_mc.cc:ecdf_crossing_probability_montecarlo"]}
{"id": "C75", "title": "The relative error of ecdf2 grows like n squared: six correct digits for thousands of points", "statement": "In IEEE-754 double precision with a math library accurate to four units in the last place, ecdf2 without FFT (or with FFT and at most 126 points, where the convolution is direct), compiled with -ffast-math in any legal way or followed to the letter, on every pair of valid boundaries of n <= 100000 doubles returns a finite non-negative double with relative error at most (2n^2+11000n)e-15, plus 2^-1000 for underflow (so 1.3e-8 for 1000 points, 3.1e-5 for 100000 points), and exactly 0 when the probability is 0. End to end, crossprob ecdf2-ks2001 (n <= 100000) and ecdf2-mn2017 (n <= 126) on a file with two boundaries, only an upper or only a lower one, in decimal notation, exit with 0 and print the decimal text with six significant digits of the probability P for the numbers as written, whenever all numbers within (2n^2+11000n)e-15*P + n^2*1e-15 of P have the same such text. In any floating-point arithmetic with unit roundoff u the relative error is (1+u)^K-1 up to underflow with K=(2n+1)(n+4+e)+2(8n+nP)+3, where P counts the roundings per unit in a Poisson probability and e those added by the compiler.", "quantifier": "every pair of valid boundaries (also crossing ones without assertions), every n up to 100000, every legal choice of the compiler, every tie-breaking rule, sort order of equal points and library meeting the stated accuracy", "why_tests_cant": "A bound for every boundary cannot be sampled; for thousands of points there is no other program exact enough to compare with.", "anchors": ["src/ecdf2.cc:ecdf2", "src/poisson_pmf.cc:compute_array", "src/poisson_pmf.hh:poisson_pmf", "src/common.cc:convolve_same_size", "src/crossprob.cc:main", "Makefile:CXXFLAGS"]}
{"id": "C76", "title": "The absolute error of ecdf2 with FFT grows like n squared", "statement": "In IEEE-754 double precision with a math library accurate to four units in the last place and an FFT library of relative accuracy 2^-45 (Euclidean norm), ecdf2 with FFT, compiled with -ffast-math in any legal way or followed to the letter, on every pair of valid boundaries of n <= 100000 doubles returns a finite double within (16n^2+750n*sqrt(n))e-13 of the probability (4e-6 for 1000 points, 2.4e-4 for 10000). End to end, crossprob ecdf2-mn2017 on a file with two boundaries, only an upper or only a lower one exits with 0 and prints the decimal text with six significant digits of the probability P for the numbers as written, whenever all numbers within (16n^2+750n*sqrt(n))e-13 + n^2*1e-15 of P have the same such text. In any floating-point arithmetic an explicit bound holds in which the errors of the Poisson probabilities of all steps together contribute exp(n*theta), theta being proportional to the unit roundoff, and the convolution one factor per step.", "quantifier": "every pair of valid boundaries (also crossing ones without assertions), every n up to 100000, every legal choice of the compiler, every tie-breaking rule, sort order of equal points and library meeting the stated accuracy", "why_tests_cant": "A bound for every boundary cannot be sampled, and the error depends on the FFT library, the compiler and the CPU.", "anchors": ["src/ecdf2.cc:ecdf2", "src/fftwconvolver.cc:FFTWConvolver::convolve_same_size", "src/fftwconvolver.cc:elementwise_complex_product", "src/poisson_pmf.cc:compute_array", "src/crossprob.cc:main"]}
{"id": "C77", "title": "Every error message names the first thing that is wrong, and nothing else is an error", "statement": "For every readable file and every command, crossprob checks in this order: (1) the one-sided commands got two lists or none: usage text and 'Expecting EITHER a lower or an upper boundary function ...' (which for ecdf1-new names a command 'ecdf1-m2020' that does not exist); (2) the ecdf2-* commands got two non-empty lists of different lengths; (3) some b_i is smaller than its predecessor: 'b_1,...,b_n must be monotone non-decreasing.' with n in decimal; (4) the first b_i is below 0 or the last above 1: '... must be in the interval [0,1].'; (5), (6) the same for B; an unknown command is reported with the usage text and 'Second command line argument must be one of ...'. The first that applies is printed after 'Error:' with exit status 3, in any arithmetic (NaN included); if none applies and there is no NaN, exact arithmetic prints a number in [0,1] with status 0. An unreadable file is named in the message; the first field that is not a number is quoted in it, whatever the command. The Python functions raise RuntimeError with the same texts; ecdf2 with lists of different lengths reports the two lengths. crossprob_mc reports a wrong number of arguments, a negative number of simulations, an unknown mode (with the usage text), an unreadable file, and a third argument without digits or with trailing characters (quoted) with exit status 2.", "quantifier": "every command, file, pair of lists of any lengths and arithmetic, either build", "why_tests_cant": "The texts contain the inputs, and the order of the checks matters for every combination of mistakes.", "anchors": ["src/common.cc:check_boundary_vector", "src/crossprob.cc:handle_command_line_arguments", "src/crossprob.cc:calculate_ecdf1_new", "src/crossprob.cc:calculate_ecdf2_ks2001", "src/read_boundaries_file.cc:read_and_check_boundaries_file", "src/string_utils.cc:string_to_double", "src/string_utils.cc:string_to_long", "src/crossprob_mc.cc:main"]}
{"id": "C78", "title": "Running out of memory never yields a wrong number", "statement": "Whichever memory requests of a call are refused, in any combination (a refused std::vector throws std::bad_alloc, a refused _mm_malloc returns NULL, which the code never checks), ecdf2, ecdf1_new_b/B and ecdf1_mns2016_b/B do exactly what they do with enough memory, or end with std::bad_alloc, or access memory through a null pointer: they never return another number or report another error. Hence the program, if it exits at all with a code, prints what it prints with enough memory; otherwise it is killed (SIGABRT for std::bad_alloc, which main does not catch; invalid access for NULL). The Python functions return the right number, raise RuntimeError('std::bad_alloc') or TypeError (while copying a list), or access a null pointer. There is no orderly report: if one of the two tables of ecdf2 is refused, every pair of lists that passes validation leads to the invalid access, likewise for the polynomial of ecdf1_mns2016_b; a refused vector always gives std::bad_alloc. ecdf2 without FFT allocates the five transform buffers but does not need them: if only these are refused, nothing changes.", "quantifier": "every choice of refused requests, every input, every arithmetic and FFT library, either build", "why_tests_cant": "Each of the 2^k patterns of failing allocations would have to be injected for every input; a wrong result would only show for the pattern that leads to it.", "anchors": ["src/aligned_mem.hh:allocate_aligned_doubles", "src/aligned_mem.hh:allocate_aligned_complexes", "src/poisson_pmf.cc:PoissonPMFGenerator::PoissonPMFGenerator", "src/fftwconvolver.cc:FFTWConvolver::FFTWConvolver", "src/ecdf1_mns2016.cc:PolynomialTranslatedMonomials::PolynomialTranslatedMonomials", "src/ecdf1_new.cc:poisson_B_noncrossing_probability_n2", "src/ecdf2.cc:poisson_process_noncrossing_probability", "src/crossprob.cc:main"]}
{"id": "C79", "title": "The error of ecdf1_new grows like n^2", "statement": "In IEEE-754 double precision with a math library accurate to four units in the last place and, above 126 points, an FFT library of relative accuracy 2^-45, ecdf1_new_B and ecdf1_new_b return, for every valid boundary of n <= 100000 doubles, a finite number within (38 n^2 + 2440 n sqrt(n)) 1e-13 of the non-crossing probability (8.1e-9 for 10 points, 1.2e-5 for 1000, 6.3e-4 for 10000), both as written and as compiled with -O3 -ffast-math -march=native in any legal way. Consequently crossprob ecdf1-new prints, for a file with one boundary, the correct six digits whenever these are the same for all numbers within that distance (plus n^2 1e-15 for the conversion of the decimals) of the probability. In any other floating-point arithmetic the error is bounded in the same way by its unit roundoff: the relative errors of the Poisson probabilities add up with the total length of time covered, not with the number of steps.", "quantifier": "every valid boundary of up to 100000 doubles, every legal compilation, every rounding and math library within the stated accuracy, every FFT library (accurate to 2^-45 above 126 points), either build, every integer square root (with assertions: one that passes the assertion)", "why_tests_cant": "Tests compare a few boundaries with reference values; the bound quantifies over all boundaries, library behaviours and compilations, and the true probability of a long boundary cannot be computed exactly for comparison.", "anchors": ["src/ecdf1_new.cc:ecdf1_new_B", "src/ecdf1_new.cc:ecdf1_new_b", "src/ecdf1_new.cc:poisson_B_noncrossing_probability_n2", "src/poisson_pmf.cc:PoissonPMFGenerator::compute_array", "src/fftwconvolver.cc:FFTWConvolver::convolve_same_size", "src/crossprob.cc:main"]}
{"id": "C80", "title": "Calls in several threads, under every schedule", "statement": "Any number of calls of ecdf2, ecdf1_new_b/B and ecdf1_mns2016_b/B run in threads of one process, interleaved in any way. (1) If at most one of the calls is large (ecdf2 with FFT or ecdf1_new, with more than 126 points), two calls are never inside the planner of FFTW (which is not thread-safe) at the same time. (2) As long as that has not happened, every call of ecdf2 or ecdf1_new that has ended has ended exactly as if it had run alone (same bits, same exception), in any arithmetic. (3) The same holds for ecdf1_mns2016 if its calls are not interleaved with each other, whatever else runs and whatever its static variable contained at first. (4) If they are interleaved, ecdf1_mns2016_b/B still return the one-sided probability in exact arithmetic. (5) No call waits for another: under every fair schedule every call ends. Limits: any two large calls of ecdf1_new that would return a number alone can meet in the planner; and in floating-point arithmetic the static variable of ecdf1_mns2016 can spoil a result: a call with boundary 0 (probability 1) and, in 80-bit long double, 16447 points or more can return 0 because calls in other threads overwrite its exponents, although the same call alone returns a number within 1/40000 of 1 (up to 1000000 points).", "quantifier": "every set of calls with every argument, every schedule (finite; infinite fair ones for termination), every arithmetic, every FFT library, either build, every content of uninitialised memory", "why_tests_cant": "A test sees a few schedules of a few calls; data races and planner races show up rarely, and the absence of interference must hold for all interleavings.", "anchors": ["src/ecdf1_mns2016.cc:extract_exponent", "src/ecdf1_mns2016.cc:ecdf1_mns2016_b", "src/fftwconvolver.cc:FFTWConvolver::memoized_r2c_plan", "src/fftwconvolver.cc:FFTWConvolver::~FFTWConvolver", "src/ecdf2.cc:ecdf2", "src/ecdf1_new.cc:ecdf1_new_B"]}
{"id": "C81", "title": "Goodness-of-fit testing with the results: boundary functions, p-values, size and power", "statement": "In exact arithmetic: (1) for n independent observations with any common law on the line (atoms allowed) the functions give the probability that the ordered observations stay between two non-decreasing sequences, if they are called with the probabilities that one observation is below (at most) the entries. (2) For non-decreasing boundary functions g, h on [0,1] (0 <= h(0), g(1) <= 1), the probability that g(t) <= F_n(t) <= h(t) for all t, F_n the empirical distribution function of n uniform observations, is ecdf2(b, B) with b_i = inf{t : h(t) >= i/n} (1 if there is none), B_i = sup{t : g(t) <= (i-1)/n} (0 if there is none), i = 1..n; likewise for one boundary function and the one-sided functions. (3) For every law without atoms, n >= 1 and d >= 0, ecdf2 with b_i = max(0, i/n - d), B_i = min(1, (i-1)/n + d) returns P(sup_t |F_n(t) - F(t)| <= d), and the one-sided functions with b (with B) the same for sup (F_n - F) (for sup (F - F_n)). (4) The p-value, one minus the result at the observed statistic, is at most alpha with probability exactly alpha under the null hypothesis, for every alpha in [0,1]. (5) If the observations have another law, ecdf2 with the boundaries P(F(Y) < i/n - d), P(F(Y) <= (i-1)/n + d) returns P(statistic <= d), so one minus it is the power. Limit: the help text of crossprob_mc exchanges the names of the two boundary functions (and counts line 2 from i instead of i - 1): with a file made as it says for n = 1, g(t) = 2t - 1, h(t) = 2t + 1, the estimate is that of probability 0 where the truth is 1/2.", "quantifier": "every law of the observations (without atoms under the null hypothesis), every n >= 1, every d >= 0, every level alpha, every pair of non-decreasing boundary functions, either build, either convolution, every exact FFT", "why_tests_cant": "Laws, boundary functions and levels form continua; a simulation only shows that the size is about alpha for a few of them.", "anchors": ["README.md", "src/ecdf2.cc:ecdf2", "src/ecdf1_new.cc:ecdf1_new_b", "src/ecdf1_new.cc:ecdf1_new_B", "src/ecdf1_mns2016.cc:ecdf1_mns2016_b", "src/ecdf1_mns2016.cc:ecdf1_mns2016_B", "src/crossprob_mc.cc:print_usage", "src/crossprob_mc.cc:ecdf_crossing_probability_montecarlo"]}
{"id": "C82", "title": "The size of Kolmogorov-Smirnov tests computed in double precision", "statement": "In IEEE-754 double precision with a math library accurate to four units in the last place (and, with FFT above 126 points, an FFT library of relative accuracy 2^-45), n <= 100000: a caller computes from the data doubles that are valid boundaries within eta of those of the Kolmogorov-Smirnov test (C81) at the observed statistic, and takes one minus the result as the p-value. Under the null hypothesis (any law without atoms) the p-value is at most alpha with a probability that differs from alpha by at most (2n^2+11000n)e-15 + 2^-1000 + 2n^2*eta for ecdf2 without FFT or up to 126 points, (16n^2+750n*sqrt(n))e-13 + 2n^2*eta for ecdf2 with FFT, and (38n^2+2440n*sqrt(n))e-13 + n^2*eta for ecdf1_new_b (statistic sup(F_n-F)) and ecdf1_new_B (statistic sup(F-F_n)), as compiled with -O3 -ffast-math -march=native in any legal way and as written. For 1000 observations and boundaries rounded to doubles, a test at level 0.05 with FFT has size between 0.049 and 0.051.", "quantifier": "every law without atoms, every n up to 100000, every level alpha, every way of computing boundaries close to the exact ones, every legal compilation, every math and FFT library of the stated accuracy", "why_tests_cant": "The size is a probability over all samples of a continuous law; a simulation estimates it for one law and one level.", "anchors": ["src/ecdf2.cc:ecdf2", "src/ecdf1_new.cc:ecdf1_new_b", "src/ecdf1_new.cc:ecdf1_new_B", "README.md"]}
{"id": "C83", "title": "The exact Berk-Jones test of benchmarks/exactbj.py: size, direction and power", "statement": "For an exact scipy.special and exact arithmetic, a test that rejects when Mn_plus_distribution(n, Mn_plus_statistic(F(Y_1),...,F(Y_n))) <= alpha rejects with probability exactly alpha when the Y_i are independent with the distribution function F and F has no jumps, and with probability at most alpha when F has jumps. For samples in [0,1] that are stochastically smaller than uniform ones the probability is at least alpha, for stochastically larger ones at most alpha. The law of the statistic is the same for every F without jumps. For samples in [0,1] with any law, one minus ecdf1_new_b of the probabilities that one sample is below the entries of Mn_plus_bounds(n, y) is the probability that the statistic is below y (the power). The test 'statistic < r' with the threshold r that inverse_Mn_plus(n, alpha) finds in p-bit arithmetic has a size within e + n 2^-p of alpha, e the error of the computed distribution function (as in C57).", "quantifier": "every n >= 1, every level alpha in [0,1], every law of the observations, either build, every exact FFT", "why_tests_cant": "Size and power are probabilities over all samples; the claim about jumps and stochastic order ranges over all laws.", "anchors": ["benchmarks/exactbj.py:Mn_plus_statistic", "benchmarks/exactbj.py:Mn_plus_bounds", "benchmarks/exactbj.py:Mn_plus_distribution", "benchmarks/exactbj.py:inverse_Mn_plus", "src/ecdf1_new.cc:ecdf1_new_b"]}
{"id": "C84", "title": "crossprob_mc poisson estimates the probability that a Poisson process stays between two boundary functions", "statement": "Let xi be a homogeneous Poisson process of intensity lam on [0,1] (independent exponential waiting times), g and h non-decreasing functions on [0,1] with 0 <= h(0). The probability that g(t) <= xi(t) <= h(t) for all t in [0,1] is the probability that C50, C69 and C73 speak of, for the lines b_i = inf{t : h(t) >= i}, i = 1..floor h(1), and B_i = sup{t : g(t) <= i-1} (0 if there is none), i = 1..ceil g(1); these lines are non-decreasing numbers in [0,1]. In exact arithmetic with independent uniform draws, the simulation called with these lines returns almost surely a number whose mean is one minus that probability (also if the band is impossible because B is longer than b), and it is off by c or more with probability at most 2 exp(-2 N c^2).", "quantifier": "every pair of non-decreasing boundary functions (no continuity), every intensity, every number of simulations 1..INT_MAX, either build", "why_tests_cant": "The event quantifies over the continuum of times and the claim is about a probability over all paths; the boundary functions are arbitrary.", "anchors": ["src/crossprob_mc.cc:poisson_process_crossing_probability_montecarlo", "src/crossprob_mc.cc:does_random_poisson_process_cross", "src/crossprob_mc.cc:print_usage"]}
{"id": "C85", "title": "Indexing and slicing a VectorDouble is indexing and slicing a list, except where it is not", "statement": "For a VectorDouble v of the Python module (at most 2^60-1 elements) and slices with absent or int parts and a step between -2^62 and 2^62: v[s] = xs (xs another sequence) and del v[s] leave the vector as the same statement leaves a list with the same elements, with ValueError in the same cases (wrong length for an extended slice, step 0); v[s] gives what the list gives if the step is negative or the start is absent or before the end; v[i], v[i] = x and del v[i] agree with lists for every int i between -2^63 and 2^63, IndexError included. The exceptions: v[k:stop:step] with positive step and k >= len(v) starts at the first element instead of being empty (v[len(v):] is the whole vector); a slice part that is not None or an int is undefined behaviour; so are steps of about 2^63, and v[i:j] = v; v[::-1] = v makes v a palindrome instead of reversing it.", "quantifier": "every vector, every slice, every assigned sequence", "why_tests_cant": "The clipping rules have many boundary cases (negative parts, steps that do not divide the length, starts and stops outside) and must agree with lists for every combination and every length.", "anchors": ["python_extension/crossprob.cc:slice_adjust", "python_extension/crossprob.cc:getslice", "python_extension/crossprob.cc:setslice", "python_extension/crossprob.cc:delslice", "python_extension/crossprob.cc:check_index", "python_extension/crossprob.cc:std_vector_Sl_double_Sg____getitem____SWIG_0"]}
{"id": "C86", "title": "A VectorDouble stays equal to a list through every history of calls", "statement": "Whatever sequence of append, pop, clear, v[i] = x, del v[i], v[s] = xs and del v[s] a program performs on a VectorDouble (ints and steps in range as in C85, at most 2^60-1 elements in total), every call returns or raises what it does for a list, the contents are those of the list at every point, and nothing is undefined. list(v) gives the elements in order. VectorDouble(n, x), assign, resize and reserve do what their names say for n <= 2^60-1, and terminate the interpreter (an uncaught C++ exception) for larger n. front, back and pop_back of an empty vector are undefined behaviour (pop raises IndexError), and so is continuing an iterator after the vector changed its size.", "quantifier": "every sequence of calls, every contents", "why_tests_cant": "The histories are unbounded, and a failing call in the middle must leave the vector unchanged.", "anchors": ["python_extension/crossprob.cc:std_vector_Sl_double_Sg__pop", "python_extension/crossprob.cc:std_vector_Sl_double_Sg__append", "python_extension/crossprob.cc:SwigPyForwardIteratorClosed_T", "python_extension/crossprob.py:VectorDouble"]}
{"id": "C87", "title": "Sorting the bounds is safe even for NaN, and correct for numbers", "statement": "std::sort, as libstdc++ implements it and ecdf2 calls it on the bounds of both boundaries, terminates, accesses only the vector it is given and leaves a rearrangement of it, for every vector and for every comparison that never holds both ways between two elements, transitive or not; so for doubles with NaN and infinities. The result is sorted if the comparison is a strict weak ordering on the elements, in particular for finite doubles. Consequently ecdf2 with this sort computes the non-crossing probability (C01, C75), does nothing undefined on any doubles, survives any Python call (C49) and throws for NaN (C15). The precondition the C++ standard states for std::sort holds exactly if no location is NaN or no two locations are comparable, so the guarantee for NaN rests on libstdc++, not on the standard; with a comparison that holds both ways (as -ffinite-math-only permits for NaN) sorting 17 bounds leaves the vector.", "quantifier": "every vector of bounds, every comparison", "why_tests_cant": "The inner loops of introsort have no bounds check and rely on sentinels that exist only by an invariant over all inputs; vectors are of every length.", "anchors": ["src/ecdf2.cc:join_all_bounds", "src/ecdf2.cc:operator<"]}
{"id": "C88", "title": "Incremental builds are right, except after changes of headers", "statement": "After any history of edits, makes, partial makes and removals of products, as long as no header, flag or compiler has changed and no make was killed since the last `make clean` (or the checkout): `make` succeeds exactly if both programs can be built from scratch, and then leaves both as a build from scratch gives them; after a successful make the next one does nothing, and after editing one .cc file it compiles this file only and links exactly the programs that contain it. The same programs result from `make -j` in every order of its jobs, if build/ and bin/ exist; in a fresh checkout `make -j` may fail, because nothing orders the compilations after the creation of build/. Changes of headers, flags or compiler are never noticed (the rules written by `make depend` are about src/*.o, the object files are build/*.o): make reports success and leaves programs built from the old headers, or, after a further edit, from a mixture. A make killed while writing an object file leaves a torso that later makes take for up to date. `make python` always rebuilds the extension module from the present files; `python setup.py build` alone does not notice changed headers.", "quantifier": "every history of edits and builds, every compiler, every order of parallel jobs, every point at which make is killed while compiling", "why_tests_cant": "The histories are unbounded, and a stale program looks like a fresh one.", "anchors": ["Makefile:all", "Makefile:build/%.o", "Makefile:clean", "Makefile:python", "Makefile:depend", "setup.py:module1"]}
{"id": "C89", "title": "Python sequences of one's own: exactly which of them are converted, refused, leak or crash the interpreter", "statement": "The functions of the Python module accept any object with __getitem__ as a list of numbers; items are instances of float or int (ints that fit a double). If the object behaves like a list (fixed length, items readable), the call does what C49 says for that list, and all memory made for the arguments is freed, except one vector for a sequence refused with TypeError because of an element that is not a number; n such calls leave n vectors. For an object whose answers do not change over time: if reading the items in order first meets, before the end, an item that is not a number, TypeError is raised and one vector is leaked; if it first meets an exception raised by __getitem__ (say KeyError of a mapping or of a filtered pandas.Series), the interpreter crashes, whichever function is called, because the null pointer is tested too late; without __len__ (or if it raises) ints are refused, and if every index has a float the call never ends. So ecdf1_mns2016_b/_B survive exactly if no such exception comes first and the items end. The length is asked again before each item and compared for equality only: a list that loses an element per item read gives half of its items, or crashes if their number is odd. An exception of __len__ that does not recur is not noticed until the end, when SystemError is raised in place of the result.", "quantifier": "every Python object given by its answers to __len__ and __getitem__, in every state of the interpreter and of the heap; every sequence of calls", "why_tests_cant": "User-defined objects, their states and lengths are unbounded; leaks and the crash depend on the first unreadable item, wherever it is.", "anchors": ["python_extension/crossprob.cc:traits_asptr_stdseq::asptr", "python_extension/crossprob.cc:assign", "python_extension/crossprob.cc:SwigPySequence_Ref", "python_extension/crossprob.cc:traits_as<Type, value_category>::as", "python_extension/crossprob.cc:SWIG_AsVal_double", "python_extension/crossprob.cc:_wrap_ecdf2", "python_extension/crossprob.cc:_wrap_ecdf1_new_b"]}
{"id": "C90", "title": "What arrives when writing to standard output fails, and what the exit code then says", "statement": "Whatever write(2) answers (partial writes, errors at any point), however standard output is buffered, and whenever the process is killed, the text that arrives from crossprob and crossprob_mc is a prefix of the text C59 describes: nothing is repeated, reordered or missing in the middle. If no write fails, all of it arrives; on a device with room for k bytes exactly the first k characters do. Failed writes do not change the exit code: for a run that ends with code 0, every prefix of the number and its newline, even the empty one, is what arrives for some device. So code 0 does not mean that the result was written; but the number is complete if and only if a newline has arrived after it. A run that fails never leaves a number followed by a newline as its only output.", "quantifier": "every sequence of answers of write, every buffering, every kill time, every program arguments and file contents", "why_tests_cant": "Failure points of the output device are unbounded and independent of the input.", "anchors": ["src/crossprob.cc:main", "src/crossprob.cc:handle_command_line_arguments", "src/crossprob.cc:print_usage", "src/crossprob_mc.cc:main"]}
{"id": "C91", "title": "Lines of 2^31 characters or more silently lose numbers; no list read from a file is too long for an int", "statement": "Lengths are converted to int. A line of fewer than 2^31 characters is read as C28 says. Of a longer line of length L the program looks for commas only among the first m characters, where m = L mod 2^32 if that is below 2^31 and 0 otherwise; if it sees k commas there, the numbers of the first k+1 fields are read and the others are dropped without an error. So of a line of 2^31 to 2^32-1 characters (leading blanks count) only the first number is read, and crossprob prints, with exit code 0, the probability for one observation. On every file with two number lines the program does what it would do with exact sizes on the file with only the kept fields. A list that is read never has more than 2^30 elements, so int n holds its size. vector_to_string writes the first m elements of a list of length L; the validation of a list of 2^31 to 2^32-1 elements passed directly to a function does not check its order at all, below 2^31 elements it is that of C14.", "quantifier": "every line, file and list of any length", "why_tests_cant": "Lines of two gigabytes are not in any test-suite, and the kept part depends on the length modulo 2^32.", "anchors": ["src/string_utils.cc:split", "src/string_utils.cc:read_comma_delimited_doubles", "src/string_utils.cc:vector_to_string", "src/common.cc:is_monotone_increasing", "src/common.cc:check_boundary_vector", "src/read_boundaries_file.cc:read_and_check_boundaries_file", "src/crossprob.cc:calculate_ecdf2_ks2001"]}
{"id": "C92", "title": "Iterator objects of VectorDouble: moving, comparing, insert and erase", "statement": "iter(v) points at an index between 0 and len(v) and after every sequence of calls of next, previous, incr, decr, advance, += , -= and value it still does: a move outside stops at the end it passed and raises StopIteration, and next, previous and value return the element at that index; no such sequence is undefined behaviour, as long as the vector keeps its size and -2**63 is not an argument. Adding to an iterator returns a copy moved forward by that many places; a copy can only move forward, and a sum that would have to move a copy back (also it + 0 and it - n for positive n) raises TypeError. Objects from begin() and end() behave in the same way over the vector, and those from rbegin() and rend() over the reversed vector, for every sequence of calls, except that what would raise StopIteration is undefined behaviour. The difference of two iterators is the difference of their indices and == compares indices; comparing or subtracting a forward and a reverse iterator ends the process. v.insert(it, x) puts x before the element at it and returns an iterator to it, v.insert(it, n, x) puts n copies there, v.erase(it) and v.erase(i1, i2) remove exactly these elements and return an iterator to the first element behind them. insert and erase refuse reverse iterators with TypeError.", "quantifier": "every vector, every iterator, every sequence of calls, every number", "why_tests_cant": "A test walks a few short paths; that no sequence of moves of iter(v) leaves the vector must hold for every history.", "anchors": ["python_extension/crossprob.cc:SwigPyIterator_T", "python_extension/crossprob.cc:SwigPyIteratorOpen_T", "python_extension/crossprob.cc:SwigPyIteratorClosed_T", "python_extension/crossprob.cc:_wrap_SwigPyIterator___add__", "python_extension/crossprob.cc:_wrap_SwigPyIterator___sub__", "python_extension/crossprob.cc:_wrap_SwigPyIterator___eq__", "python_extension/crossprob.cc:_wrap_VectorDouble_insert", "python_extension/crossprob.cc:_wrap_VectorDouble_erase", "python_extension/crossprob.py:SwigPyIterator"]}
