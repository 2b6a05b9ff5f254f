{
 "C01": {
  "note": "Exact arithmetic (XR); std::sort and FFTW by contract (SortSpec, FftSpec); asserts compiled out (C13 covers them on). All n, all valid lists."
 },
 "C02": {
  "note": "n >= 1, exact arithmetic; FFTW by contract."
 },
 "C03": {
  "note": "n >= 1, exact arithmetic; FFTW by contract."
 },
 "C04": {
  "note": "Exact arithmetic, any exponent oracle."
 },
 "C05": {
  "note": "Exact arithmetic, any exponent oracle."
 },
 "C06": {
  "note": "FFTW by contract (documented unnormalised DFTs; may clobber inputs)."
 },
 "C22": {
  "note": "Proved for any arithmetic satisfying TieLaws; the XR instance is proved."
 },
 "C39": {
  "note": "Any arithmetic meeting FloatModel/MathLibrary (RoundSpec); instantiated for p-bit binary round-to-nearest with unbounded exponents. std::sort by contract. Reassociation by -ffast-math is outside the model."
 },
 "C47": {
  "note": "Exact arithmetic, ideal i.i.d. uniform draws (the real TinyMT generator is deterministic, C36/C37). Rényi's representation of uniform order statistics and the independence of runs are proved from Mathlib's measure theory."
 },
 "C50": {
  "note": "Exact arithmetic, ideal i.i.d. uniform draws. The conditional law of Poisson arrivals and the independence of paths of random length are proved."
 },
 "C42": {
  "note": "About counted copies of the functions, proved to return the same results. Unit cost per array access, floating-point operation and libm call; FFTW and std::sort priced by parameters."
 },
 "C51": {
  "note": "Blocks from _mm_malloc and FFTW plans are modelled as handles, destructors run on return and on exceptions. Memory of std::vector and allocation failure are not modelled. Freeing a handle that is not live is undefined behaviour in the model, so equality of outcomes with the memory-free model excludes double frees. Objects of one's own: C89."
 },
 "C52": {
  "note": "Assumes the rounding model (FloatModel, SignedOps) and an accuracy bound of the FFT library (FFTAccurate); both are shown to hold for 53-bit arithmetic with a correctly rounded FFT, where the theorem gives an error below 1e-10 on an example. The statement bounds absolute error only."
 },
 "C53": {
  "note": "Assumes the rounding model (FloatModel, SignedOps), an accuracy bound of the FFT library (FFTAccurate) and, for ecdf1_new_b, that 1-x is rounded monotonically; all are shown to hold for 53-bit arithmetic with a correctly rounded FFT, where the theorems give errors below 1e-10 on examples. Absolute error only."
 },
 "C54": {
  "note": "The first two theorems are about exact arithmetic; the third combines them with C52."
 },
 "C55": {
  "note": "Finding: the documented example raises RuntimeError."
 },
 "C56": {
  "note": "scipy.special.betainc/betaincinv and ndarray.sort are parameters with contracts (shown to be satisfiable); exact arithmetic."
 },
 "C57": {
  "note": "Fp p rounds to nearest with ties upwards and has no exponent limits (2^-110 is far from underflow in double). The end-to-end theorem assumes an accuracy sigma of betaincinv and that its quantiles are in order; an example with n = 1 in 53-bit arithmetic is checked."
 },
 "C58": {
  "note": "No overflow or underflow (unbounded exponents), one number type for double and long double, uncontracted evaluation; powi within one rounding. Finding: NaN for a valid boundary of four doubles with positive probability."
 },
 "C59": {
  "note": "operator<<(double) is a parameter with the contract PrintSpec (%.6g, correctly rounded); writes to standard output are assumed to succeed. Findings: the first usage example describes another event than its file, and its second example shows a first line of blanks, which is not an empty line. Failing writes: C90."
 },
 "C60": {
  "note": "operator<< and strtod are parameters with the contracts PrintSpec and StrtodSpec."
 },
 "C61": {
  "note": "IEEE-754 format with subnormals, infinities and NaN (Ieee.lean); +0 and -0 are one number. Evaluation as written: no reassociation, contraction to FMA which -ffast-math in the Makefile would allow. exp/log/lgamma within 4 ulp (exp absolutely when subnormal), FFTW within 2^-45 in the 2-norm, strtod and operator<< correctly rounded. ecdf1_mns2016 is not covered here (C58 covers it with unbounded exponents)."
 },
 "C62": {
  "note": "Any arithmetic, any FFT library. The sharpness statement is at the level of the convolver."
 },
 "C63": {
  "note": "The true probabilities of the test files are evaluated exactly, in integer arithmetic, by the kernel (theorem eval_noncross); -ffast-math reassociation is not modelled here."
 },
 "C64": {
  "note": "Assumes pow(x,i) is accurate to q relative roundings wherever it does not overflow (a product loop satisfies this with q = i); -ffast-math reassociation is not modelled. The threshold on the probability is needed: C58 gives boundaries where the result is NaN without a condition."
 },
 "C65": {
  "note": "double rounding of constants and conversions modelled exactly; libm long double functions assumed accurate to 4 ulp of the x87 format; -ffast-math reassociation is not modelled."
 },
 "C66": {
  "note": "The compiled code is a parameter (FastCode). Varied: inner sums, exponents, exp, product of spectra, final division. As in the source: intensity*(location-prev), comparisons, memory accesses; the FFT library is a separate parameter. No flush-to-zero: the link commands do not pass -ffast-math, so crtfastmath is not linked."
 },
 "C67": {
  "note": "As C66: the compiled code is a parameter (FastCodeNew, FastProgram). As in the source: intensity*(B[i]-prev), comparisons, memory accesses; the FFT library is a separate parameter. C79 has sharper bounds."
 },
 "C68": {
  "note": "The compiled code is a parameter (MnsCode). As in the source: x + add[i], comparisons, memory accesses, frexp and ldexp, 1 - B[i]."
 },
 "C69": {
  "note": "Exact arithmetic, ideal independent uniform draws; C70 and C71 treat the program's arithmetic."
 },
 "C70": {
  "note": "A draw equal to 0 makes log return -inf: the points after it are NaN, which compare false with every boundary. Not claimed for a program compiled with -ffast-math when a draw is 0."
 },
 "C71": {
  "note": "The generator is a parameter of the model here (mcRunWith; with TinyMT64 it is the program, mcRunWith_tinymt). That TinyMT64 seeded from the clock behaves like independent draws is an assumption no model can discharge: it is a deterministic generator with at most 2^64 seeds."
 },
 "C72": {
  "note": "pickle inside gzip is a codec assumed to give back every saved value from the whole file and from the beginning of a file either an exception or the value; file operations are byte-wise and in order (no reordering of writes by the operating system). Findings: dump is not atomic; benchmarks/exactbj.py imports Timer from a module `utils` that is not in the repository, and its own Timer calls time.clock, which Python 3.8 removed - the model assumes a working Timer."
 },
 "C12": {
  "note": "The double-precision theorems are the zero case of the relative-error invariant of C39/C61/C66: products with a zero factor, quotients and fused multiply-adds of zero are zero in the arithmetic (proved for IEEE-754 in Proofs/Ieee.lean and Proofs/FastIeee.lean)."
 },
 "C73": {
  "note": "TinyMT is replaced by a generator of independent 52-bit draws (TinyMT itself is deterministic; C36-C38 and C70 treat it). Up to 2^33 numbers for the undefined behaviour."
 },
 "C74": {
  "note": "The period uses the primality of 2^127-1 (Lucas-Lehmer, Mathlib) and a polynomial of degree 128 annihilating the transition, checked in the kernel. C74_repeating is in exact arithmetic."
 },
 "C75": {
  "note": "Sharpens C61 and C66: the rounding of pois_lambda(k) costs 8*lambda+k*P roundings, and the lambdas of all steps sum to n instead of being bounded by n each. With FFT and more than 126 points see C61/C66. The compiled code is a parameter as in C66; no flush-to-zero."
 },
 "C76": {
  "note": "Sharpens the FFT parts of C61 and C66 (8e-4 for 1000 points there). The FFT library is a parameter with a stated accuracy; the theorems do not say that FFTW has it. No flush-to-zero."
 },
 "C77": {
  "note": "Refines C14, C25, C26, C48 and C59, where only the kind of error is stated. orderLaws_exact and orderLaws_ieee discharge the hypothesis about <. With NaN the converse fails (C15). The text of ifstream::failure belongs to the C++ library and is a parameter."
 },
 "C78": {
  "note": "The model is repeated for the functions that allocate (Model/Oom.lean); C78_enough_* prove that with enough memory it is the model used everywhere else. Not covered: memory FFTW asks for itself (it ends the process), the few bytes of an error message, the Monte-Carlo program."
 },
 "C79": {
  "note": "Sharper than C63 and C67 for ecdf1_new (1.2e-3 at 1000 points there), and for sizes up to 100000. C79_*_error are stated for an arbitrary arithmetic; C79_double, C79_double_source, C79_program_*, C79_source_* for IEEE doubles. Accuracy of libm and FFTW is assumed, see C61."
 },
 "C80": {
  "note": "Loads and stores of the shared int are single steps of the model; formally C++ gives no meaning to a program with a data race, so (4) says what a compiler that keeps the loads and stores does. After two calls have met in the planner, the model allows anything (Process.ended). signgam (written by lgamma, read by nobody) is left out. Under the lock of the Python interpreter, which the extension never releases, calls are not interleaved at all."
 },
 "C81": {
  "note": "Exact arithmetic, like C01-C05; what rounding adds to a result is in C61, C66-C68, C75, C76, C79, and for the size of the tests in C82. Arbitrary boundary functions need no continuity. The help text speaks of strict inequalities; with them the event of (2) can have another probability (a boundary function that is constant at a multiple of 1/n)."
 },
 "C82": {
  "note": "Consequence of C75, C76, C79 and C81. The subtraction from one is taken to be exact. The accuracy of libm and of the FFT library is assumed, see C61 and C76."
 },
 "C83": {
  "note": "Builds on C56, C57 and C81; scipy.special is a parameter with a contract that is shown to be satisfiable. In C83_threshold the statistic itself is exact, the threshold is computed in p-bit arithmetic."
 },
 "C84": {
  "note": "The help text exchanges the names of g and h and counts line 2 from i instead of i-1 (see C81), and has strict inequalities; the theorem is about the lines that are right for what the program computes. crossprob_mc calls the simulation with lam = max(|b|, |B|)."
 },
 "C85": {
  "note": "VectorSpec.lean defines list slices from the Python documentation. Not modelled: ints outside Py_ssize_t as slice parts, old-style __getslice__ etc. Iterator objects: C92."
 },
 "C86": {
  "note": "Not modelled here: swap, capacity, exhaustion of memory; begin, end, erase, insert: C92. Passing a VectorDouble to ecdf2 etc. is passing its contents (C49). Iterator objects: C92."
 },
 "C16": {
  "note": "std::sort is assumed to permute; for NaN locations its precondition (a strict weak ordering) is violated. For libstdc++ that assumption is proved (C87)."
 },
 "C87": {
  "note": "The implementation modelled is libstdc++ 13 (bits/stl_algo.h, stl_heap.h); other standard libraries are covered only by the contract (SortSpec.lean). Moves are modelled as copies; the number of comparisons is not modelled."
 },
 "C49": {
  "note": "For libstdc++ that assumption is proved (C87)."
 },
 "C88": {
  "note": "GNU make's rules for prerequisites, phony targets and times are modelled for the targets of this Makefile. Simplified: edits do not happen during a make; each write gets a new time; a parallel job takes effect at one instant; distutils compiles everything if anything is newer. Not modelled: `make test`, `make depend`, edits of the Makefile's rules."
 },
 "C89": {
  "note": "An object is an arbitrary state machine answering __len__ and __getitem__; the theorems about crashes and refusals are for objects with constant answers, and two changing ones (C89_popping, C89_system_error) show that the others are not better. A vector (object and buffer) is one block. Not modelled: reference counts, message texts, running out of memory (C78)."
 },
 "C90": {
  "note": "cout, the stdout buffer and write(2) are modelled from libstdc++ and glibc, not from /repo; the buffering policy is arbitrary. Continues C59, which says what the programs mean to write."
 },
 "C91": {
  "note": "The functions are modelled a second time with their int casts in 32-bit arithmetic and compared with the model with exact sizes used elsewhere; sizes inside the algorithms are in C40. Memory is unlimited here (C78)."
 },
 "C27": {
  "note": "Lines of 2^31 characters or more: C91."
 },
 "C28": {
  "note": "Lines of 2^31 characters or more: C91."
 },
 "C41": {
  "note": "Lines of 2^31 characters or more: C91."
 },
 "C92": {
  "note": "Simplified: every change of the size of a vector invalidates its iterators. One vector; the lifetime of the vector is not modelled."
 }
}