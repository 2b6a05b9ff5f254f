# Formal model of mosco/crossing-probability in Lean 4

Written before the proofs and kept current.  Theorem names per property: MANIFEST.json.
English properties: properties.jsonl.  Wrong programs the theorems were tried against: seeded/LOG.jsonl.

## 1. Shape of the model

* `lean/Verif/Model/*` – model of the C++ sources, one Lean function per C++ function, each citing file and lines.
* Every function that can fault returns `M α = Except Fault α`.  `Fault` separates `runtimeError` (C++
  `std::runtime_error`, with its message), `ioFailure` (`ifstream::failure`), `assertFailed` (SIGABRT from `assert`), `ub`
  (undefined behaviour: out-of-bounds access, invalid conversion) and `diverge` (non-termination).
* Arrays are lists, indices are `Int`; *every* array access, block copy and element address is bounds-checked by the model
  and out of bounds is `Fault.ub`.  `for` loops are `forRange lo hi body state`; `while` loops are fuelled
  (`Model/While.lean`) and `diverge` is proved absent or proved to be the outcome for every amount of fuel.
* Arithmetic is a class `FOps F` (`+ - * / neg < == exp log lgamma pow frexp ldexp`, int conversion, constants) **without
  laws**.  Theorems about control flow and memory hold for an arbitrary `FOps F`: every rounding mode, NaN, overflow,
  flush to zero.  Theorems about values use the instance `XR` (`Model/XR.lean`): the reals extended by `+inf`, `-inf`,
  `NaN`, IEEE conventions for the special values, *exact* arithmetic on finite ones.  Theorems about rounding use an
  abstract `FloatModel` (`RoundSpec.lean`) and its instance `Fp p`, `p`-bit binary rounding to nearest
  (`Proofs/FpModel.lean`).
* The environment `Env F` carries what the C++ code does not determine: whether assertions are compiled in (Makefile: yes;
  Python extension: no, distutils passes `-DNDEBUG`), the FFTW library, the contents of uninitialised memory.  The result of
  `std::sort` is a separate parameter, specified only up to ties.

## 2. Specifications (they do not mention the model)

* `Spec.lean`: `noncrossProb b B` is the measure, under the product of `n` uniform distributions on [0,1]
  (`Measure.pi`), of the samples whose sorted version (`x ∘ Tuple.sort x`) lies between `b` and `B`; `ValidBound`,
  `StronglyCrossed`.
* `FftSpec.lean`: what FFTW's documentation promises of r2c and c2r.  `SortSpec.lean`: what `std::sort` promises.
* `LibcSpec.lean`: `strtod`, `strtol`, `getline` contracts; a witness satisfying them is built in `Proofs/LibcWitness.lean`.
* `McSpec.lean`, `McLawSpec.lean`: crossing events, i.i.d. uniform draws, Poisson process law.
* `RoundSpec.lean`: the rounding model.

## 3. Per property: what is modelled and how it is proved

| Id | modelled | how proved |
|----|----------|------------|
| C01 | ecdf2.cc, poisson_pmf, common, fftwconvolver | loop invariant: window of the source buffer = e^{-nt} n^m v(m), `v` the sub-probability volumes; law of the counts of a multinomial (CountLaw), events at grid points vs order statistics (Events) |
| C02,C03 | ecdf1_new.cc | loop invariants for block and mini-block; first-exit decomposition and semigroup law of Poisson convolution; reflection |
| C04,C05 | ecdf1_mns2016.cc | polynomials form an Appell sequence; Taylor expansion gives the recursion of C01; reflection |
| C06 | fftwconvolver.cc with exact DFT | orthogonality of roots of unity; no wrap-around because padded >= 2*size |
| C07–C12 | corollaries of C01–C05 plus measure-theoretic facts about the specification; C12 in double precision: zeros are preserved exactly by the invariant of C39/C61/C66 (`exact0` in `Proofs/Rounding.lean`) | `Props/Exact.lean`, `Props/IeeeZero.lean` |
| C13 | asserts on | characterise the negative-window condition along the sorted list |
| C14 | common.cc | induction over the list, in `XR` without NaN |
| C15 | ecdf2 on `XR` with NaN | the first NaN location makes lambda NaN, neither > 0 nor == 0 |
| C16–C18 | all numeric code, arbitrary `FOps` | length/index invariants through all loops |
| C19,C20 | convolver state machine | invariants over all call histories; witness for the loose guard |
| C21 | poisson_pmf | loop invariant + real analysis |
| C22 | ecdf2, arbitrary arithmetic with `TieLaws` | commutation of in-place updates along tie groups |
| C23 | generic-block-size version of C02 | |
| C24 | mns2016 with an exponent oracle | invariant polynomial = 2^delta * exact polynomial |
| C25,C26,C41 | crossprob.cc | case analysis, composition |
| C27–C31,C44 | string_utils.cc, read_boundaries_file.cc | induction over character lists |
| C32–C35,C38,C46,C48 | crossprob_mc.cc | induction; fuelled loops with 32-bit counters |
| C36,C37 | tinymt64.h/.cc | `BitVec` reasoning (kernel-checked), invertibility of the step |
| C39 | ecdf2 direct, any arithmetic satisfying the rounding model | relative-error invariant |
| C52 | ecdf2 with FFT, any arithmetic and FFT library with bounded (signed) errors (`FftAccSpec.lean`) | l1-norm error of the measure after each step; convolution theorem, Parseval and l2 bounds for one FFT convolution; Stirling for the explicit bound |
| C53 | ecdf1_new_B / _b, any arithmetic and FFT library with bounded errors | one block: errors of the exit probabilities and of the subtracted tails charged against the l1 norm of the sub-probability law; at most 3n+1 factors (1+tau); `Proofs/NewAbs.lean` |
| C54 | the exact probability as a function of the boundaries; rounding of decimals (`Fp p`) | symmetric difference of the two events is contained in "some point lies between corresponding boundary points" |
| C55 | all five functions, Python ecdf2 | events of b and of its running maximum coincide, since order statistics are ordered |
| C56 | numeric functions of benchmarks/exactbj.py (`Model/ExactBj.lean`) | the law of an order statistic is a binomial tail, whose derivative telescopes to the beta density (`Proofs/BetaLaw.lean`); the event {M_n^+ < y} is the crossing of the quantile boundary |
| C57 | the bisection loop of inverse_Mn_plus, exact and `p`-bit | loop invariant in two phases (left end still 0; bracket within one binade) (`Proofs/Bisect.lean`); p-values are uniform, so the level has slope at most n |
| C58 | `ecdf1_mns2016_b/B` in any arithmetic with relative error u, and in `p`-bit arithmetic (`MnsAccSpec.lean`) | majorant calculus: each coefficient is within (1+u)^k - 1 of the exact one relative to a majorant polynomial (`Proofs/MnsRound.lean`, `Proofs/MnsFinal.lean`); the majorants satisfy a Fibonacci-like recursion; the NaN run is evaluated operation by operation from exact rounding certificates (`Proofs/MnsNan.lean`) |
| C59 | `main` of both programs with their output (`Model/Output.lean`), `operator<<` as a parameter with contract `PrintSpec` (`OutputSpec.lean`) | writer monad refined to the model of C26/C33; digit arithmetic for `%.6g` (`Proofs/Output.lean`); composed with C41 and C54 |
| C60 | `vector_to_string` | loop invariant; composition of `PrintSpec` with `StrtodSpec`; monotonicity of six-digit rounding; C54 |
| C61 | IEEE-754 arithmetic (`Ieee.lean`): formats with subnormals, infinities, NaN, any rounding to nearest; math library, FFT library, `strtod`, `operator<<` as parameters | shown to be an instance of `FloatModel`, `SignedOps`, `MathLibrary` (`Proofs/Ieee.lean`); C39/C52/C53 with explicit constants (`Proofs/IeeeAcc.lean`, `Props/Ieee.lean`): distances between doubles are at least 2^-1074, so no hypothesis on the boundary remains; composed with C54, C59 (`Props/IeeeProgram.lean`); assumptions satisfiable: correctly rounded libraries (`Proofs/IeeeWit.lean`) |
| C62 | the existing models of `ecdf2`, `ecdf1_new`, the convolver, the program | induction over the loops with the counts of processed points as invariant (`Proofs/SmallFft.lean`): every convolution has size below 128; narrow bands by a counting argument on prefixes of the sorted points; program level and double precision in `Props/SmallFft.lean` |
| C63 | the existing models of the program, in IEEE-754 doubles; `DigitSpec.lean` says when an approximation determines six digits | uniqueness of six-digit rounding away from ties (`Proofs/Digits.lean`) with the error bounds of C61/C62; exact evaluation of the probabilities of the test files by an integer recursion proved equal to the measure (`Proofs/EvalProb.lean`), evaluated in the kernel; `Props/Digits.lean`, `Props/Suite.lean` |
| C64 | the existing model of `ecdf1_mns2016` in an IEEE-754 number system (`Num A`), `pow` contract in `IeeePow.lean` | forward error invariant of the polynomial with every absolute error (subnormals) and every magnitude (overflow) tracked: `Proofs/MnsIeee*.lean`, numeric instances in `Props/IeeeMns.lean` |
| C65 | `Model/LongDouble.lean`: `ecdf1_mns2016` with two number types and the implicit conversions; `LongDoubleSpec.lean`: conversion between formats | widening preserves comparisons and negation, so the two-type program is the one-type program conjugated by the conversions (`Proofs/LongDouble.lean`); then C64 in the wide format and one rounding; the program and the test files as in C63 (`Props/LongDouble.lean`, `Props/LongDoubleProgram.lean`); witnesses with correctly rounded libraries in `Proofs/LibmWit.lean` |
| C66 | `Model/FastMath.lean`: `ecdf2` with the compiler's choices as a parameter (`FastCode`: a summation tree for every inner loop, an expression tree for every exponent, the `exp` called, the association and fusion of every product of spectra, the form of the final quotient); `FastMathSpec.lean`: which choices are legal, accuracy of fused multiply-add and `exp` | error of a summation tree by induction on the tree, with multiplicity of terms from the permutation; then the relative-error invariant of C39/C61 with the larger count of roundings (`Proofs/Fast*.lean`, `Props/FastMath.lean`); with FFT the absolute-error invariant of C52/C61 (`Proofs/FastFft*.lean`, `Props/FastFft.lean`) |
| C67 | `Model/FastNew.lean`: `ecdf1_new` with the compiler's choices as a parameter (as C66, and whether each subtraction is fused); `Model/FastProgram.lean`: the program with all algorithms as compiled | the absolute-error analysis of C53/C61 with signed fused multiply-add (`FastNewSpec.lean`) and summation trees (`Proofs/FastNew*.lean`, `Props/FastNew.lean`); program and test-suite as in C63 (`Props/FastProgram.lean`) |
| C68 | `Model/FastMns.lean`: `ecdf1_mns2016` with the compiler's choices as a parameter and two number types | the error analysis of C64/C65 with summation trees for `evaluate` (`FastMnsSpec.lean`, `Proofs/FastMns*.lean`, `Props/FastMns.lean`); program and whole test-suite as in C65 (`Props/FastMnsProgram.lean`) |
| C69 | the Monte-Carlo model of C33–C36 over a probability space | the samples are independent (`runs_iIndep`), Hoeffding's inequality from Mathlib (`Proofs/Hoeffding.lean`, `Props/Hoeffding.lean`) |
| C70 | `Model/IeeeBits.lean`: the bit pattern conversion of the generator for an IEEE format, the Monte-Carlo model instantiated with `Num A` | monotonicity of rounding; error analysis of the running sum; NaN propagation; program and test files as in C59/C63 (`Proofs/IeeeMc*.lean`, `Props/IeeeMc.lean`) |
| C71 | `Model/McGenerator.lean`: crossprob_mc with the generator as a parameter; `McGridSpec.lean`: independent 52-bit draws | backward error of the sample (`Proofs/GridMc.lean`), anti-concentration of the order statistics near the boundaries (`Proofs/AntiConc.lean`, `Proofs/GridMcLaw.lean`), transfer from 52-bit draws to uniform numbers cut off (`Proofs/GridTransfer.lean`), Hoeffding; test files as in C63 (`Props/GridMc.lean`, `Props/GridMcProgram.lean`) |
| C72 | `Model/Pickler.lean`: pickler.py and the precalc functions of exactbj.py over a file system of byte-wise operations; `PickleSpec.lean`: what pickle and gzip guarantee, what the tables contain | the disk after any prefix of the operations (`Proofs/Pickler.lean`), invariants of the loops, exact values from C01, C03, C04, C56 (`Props/Pickle.lean`) |
| C73 | as C71 (`Model/MonteCarlo.lean`, `Model/McGenerator.lean`), Poisson mode | absolute error of the arrival times, anti-concentration near 1 and near the boundaries, paths decided by comparisons (`Proofs/GridPoisson.lean`); paths of random length are independent (`Proofs/Renewal.lean`), Hoeffding (`Props/GridPoisson.lean`) |
| C74 | `Model/TinyMT.lean` | the transition is linear over GF(2); a polynomial that annihilates it divides X^(2^127) - X and does not vanish at 1 (both checked by the kernel), and 2^127 - 1 is prime (`Proofs/TinyMTPeriod.lean`); a fixed point of the transition for other parameters (`Props/Period.lean`) |
| C75 | as C61 and C66 | the error of a Poisson probability depends on its index and intensity (`SharpPmf`, `Proofs/SharpLibm.lean`); in a convolution the indices of the factors add up, so the number of roundings in the entry with index k at time t is bounded by a linear function of k, t and the step (`Proofs/SharpSum.lean`, `Proofs/SharpRound.lean`); constants for binary64 (`Proofs/SharpIeee.lean`); the source is a legal compilation, in both directions (`Proofs/FastStrictConv.lean`); end to end (`Props/Sharp.lean`) |
| C76 | as C61 and C66 | the error of the Poisson probabilities of a step, summed, is at most `g^2 exp(lambda theta) - 1` (generating function of the Poisson distribution), and the lambdas sum to n; absolute-error invariant `kap^i exp(n t theta) - 1` (`Proofs/SharpAbs.lean`), constants for binary64 (`Proofs/SharpFftErr.lean`), end to end (`Props/SharpFft.lean`) |
| C77 | as C26, C48, C49 and C59 | specification `problem`/`diagnosis` with literal texts (`Props/Diagnosis.lean`); equality of the program's output with it, by cases; converse from C01-C05 through C26 and C59 |
| C78 | `Model/Oom.lean`: the allocating functions with refused requests; a NULL block is an array without elements | simulation of the two runs (`Proofs/Oom.lean`): each step has the same outcome or the run with less memory has died; no arithmetic law used |
| C79 | `ecdf1_new` and its compiled form (`Model/FastNew.lean`) | error recursion with separate accounts for the convolution (per step) and for the Poisson probabilities (per unit of time), `Proofs/SharpNewAbs.lean`, `Proofs/SharpNewErr.lean`; the source via `Proofs/FastNewStrictConv.lean` |
| C80 | calls as trees of accesses to the static variable and the FFTW planner (`Model/Threads.lean`), a scheduler that may run any call at any time | simulation of each tree by the sequential model, for arbitrary values read (`Proofs/Threads.lean`); invariant over schedules (`Proofs/ThreadsRun.lean`); exact arithmetic for arbitrary exponents via C04; limits by constructed schedules (`Proofs/ThreadsIeee.lean`, `Proofs/ThreadsPlan.lean`) |
| C81 | `EcdfSpec.lean`: empirical distribution function, samples from any law, Kolmogorov-Smirnov statistics, with Mathlib's `cdf` | quantile transform of uniform samples (`Proofs/Quantile.lean`), order statistics (`Proofs/KsEvent.lean`, `Proofs/KsLaw.lean`), probability integral transform and continuity in `d` (`Proofs/KsSize.lean`), then C01-C05; the help text by computing its example, with C47 |
| C82 | the samples and statistics of C81 with the floating-point models of C75, C76, C79 | the exact p-value is uniform (C81), the boundaries move the probability by a Lipschitz bound (C54), the result by the bounds of C75, C76, C79 |
| C83 | the functions of exactbj.py (C56, C57) applied to samples with an arbitrary law | the statistic has no atoms (Lipschitz law), so the p-value is uniform; it is monotone in the sample, so a quantile coupling gives the stochastic order |
| C84 | `PoissonSpec.lean`: Poisson process by exponential waiting times, crossing points of boundary functions | waiting times are -log of uniform draws; path-wise equivalence of the band with the conditions on the points, no ties almost surely; then C50, C69 |
| C85 | the slice templates of SWIG in crossprob.cc on iterator positions (`Model/VectorDouble.lean`), `PySlice_GetIndices`; list slices from the Python documentation (`VectorSpec.lean`) | clipped bounds by linear arithmetic, loops by induction on the number of selected positions |
| C86 | calls with results and exceptions, histories, iterators | simulation of the list by induction on the history |
| C87 | libstdc++'s introsort with checked accesses and an arbitrary comparison (`Model/StdSort.lean`) | loop invariants: median of three leaves sentinels on both sides of the pivot, every element from position 16 on has a not greater one before it; permutations composed of swaps and rotations |
| C88 | the rules of the Makefile as data, GNU make's decisions on modification times, distutils, histories of edits and builds, schedules of `make -j`, kills (`Model/Build.lean`); fresh builds as specification (`BuildSpec.lean`) | invariant: what make takes to be up to date is; induction on histories and schedules |
| C89 | `swig::asptr`, `assign`, the item conversion, the error indicator, `new`/`delete` of argument vectors in the wrappers (`Model/PyObject.lean`), on top of the functions with explicit memory of C51 | Python objects as state machines; induction on the items read; classification by the first unreadable item |
| C90 | `cout` with its `badbit`, the buffer of `stdout`, `write(2)` with partial writes and errors, the flush at exit (`Model/Stdout.lean`), under the texts of C59 | invariant: arrived ++ buffer = text so far while no error, prefix afterwards; `room k` device computed exactly |
| C91 | `split`, `read_comma_delimited_doubles`, `vector_to_string`, `check_boundary_vector`, file reading and `main` with `(int)size()` modulo 2^32 (`Model/LongLines.lean`) | loop invariant of `split` up to the wrapped length; uniqueness of splitting; refinement to the model with exact sizes on the shortened file |
| C92 | SWIG iterator objects (`Open`, `Closed`, `Forward` classes), `insert` and `erase` of `VectorDouble` (`Model/VectorIter.lean`) | invariant of the step loops; induction over the sequence of calls; list surgery |
| C40 | 32-bit arithmetic of the size computations | integer reasoning with wrap-around; `ecdf1_mns2016_b` with 32-bit variables (`Model/MnsInt32.lean`), equal to the exact model by an invariant on the exponent total |
| C42 | counted copies of the algorithms (`Model/Counted.lean`) | a cost judgement proving equality of results and the bound together |
| C43 | all numeric code | erasure of assertions |
| C45 | mns2016 with NaN | NaN propagates through the polynomial |
| C51 | all three algorithms once more with constructors, destructors, `_mm_malloc` and `_mm_free` explicit (`Model/Heap.lean`) | simulation by the memory-free model with an ownership invariant (live handles = handles owned by the objects in scope) |
| C47,C50 | crossprob_mc with i.i.d. uniform draws | Rényi representation of order statistics, renewal argument for Poisson paths, independence of blocks of draws |
| C49 | SWIG type conversion (crossprob.i) | case analysis on argument types |

## 4. Trusted base

* Lean 4.33.0 kernel; axioms `propext`, `Classical.choice`, `Quot.sound` only (no axioms of our own, no compiled evaluation).
* The reading of the C++ code into the model.
* External code is a parameter constrained by a contract: FFTW (r2c/c2r compute the documented unnormalised DFTs, write only
  their outputs, may clobber their inputs; planning with FFTW_ESTIMATE touches no array), `std::sort` (a permutation; sorted
  by location when the comparison is a strict weak order; with NaN locations, formally UB, it is modelled as an arbitrary
  permutation; libstdc++'s implementation is proved to meet this contract, C87), libm (exact in `XR`, arbitrary in the generic theorems, bounded error in C39, C52, C53, C58; FFTW bounded l2 error in C52, C53),
  `strtod`/`strtol`/`getline`.  `double` and `long double` (mns2016) are one number type, except in C65 and C68.
* C++ `int` is unbounded except where the property is about width (C34, C40, C46).
* `-ffast-math` (Makefile): allows reassociation, flush-to-zero and assuming away NaN/inf.  The arithmetic-generic theorems
  (C16–C20, C22, C26–C33, C43, C48, C49) do not depend on it; C15, C38 and C45 (NaN) hold for IEEE-conforming compilation
  only, C39, C52, C53, C58, C61, C63–C65 for uncontracted, unreassociated evaluation; C66, C67, C68, C75, C76 and C79 quantify over
  the transformations that `-ffast-math` permits in the sums, exponents and quotients (no flush-to-zero: see section 5, C61).
* C42: unit price per array access, floating-point operation and libm call; FFTW and sort priced by parameters.
* C47, C50: ideal i.i.d. uniform draws and exact arithmetic; the actual generator is deterministic (C36, C37).
* Not modelled: how `operator<<` computes its digits (it is a parameter with the contract `PrintSpec`, printf's `%.6g`), glibc and libstdc++ beyond what C90 uses, memory requests made by FFTW itself and by the Monte-Carlo program (all others: C78),
  SWIG-generated glue beyond the typemaps of crossprob.i and the class VectorDouble (C85, C86), and of benchmarks/ everything but
  the numeric functions and the precalc functions of exactbj.py and pickler.py (plotting and console messages are left out).

## 5. What the proofs found in the code

* Python iterators: only the forward SWIG classes define `copy()`, so `it + 0` and `v.end() - 1` raise TypeError and no copy can move back; comparing or subtracting a forward and a reverse iterator ends the Python process with an uncaught exception (C92).
* A boundary line of 2^31 characters or more silently loses numbers, because its length is cast to `int`: up to 2^32-1 characters only the first number is read, and the program prints the probability for n = 1 with exit code 0 (C91).
* `crossprob` and `crossprob_mc` exit with code 0 even if the result could not be written (full disk): the reader may get `1.5` of `1.5e-05`; only the final newline tells that the number is complete (C90).
* Python: a sequence whose `__getitem__` raises (a mapping, a filtered `pandas.Series`) crashes the interpreter, because `SWIG_AsVal_double` is called on the null pointer before it is tested; a list with an element that is not a number leaks a vector per call (C89; C49 as first stated, for all objects, was false).
* Makefile: the header dependencies are written for `src/*.o`, but the object files are `build/*.o`, so editing a header rebuilds nothing; `make -j` in a fresh checkout can start compiling before `build/` exists (C88).
* With a NaN beside two different numbers the call of `std::sort` violates the precondition of the C++ standard; libstdc++'s implementation tolerates it (C87).
* `VectorDouble`: `v[len(v):]` is the whole vector, `v[::-1] = v` does not reverse, slices with float or numpy parts, `front()` of an empty vector and stale iterators are undefined behaviour, sizes above 2^60-1 end the interpreter (C85, C86).
* Assertion build aborts on strongly crossed (but valid) boundaries (C13) and on `ecdf1_new` with n = 1 (C17).
* `ecdf1_new` with n = 0 reads `B[-1]` in release builds (C17, reachable from Python: C49).
* The convolver's size guard is 2047 too loose (C19).
* NaN passes validation (C14/C15); mns2016 then silently returns NaN (C45).
* Fields accept trailing garbage (C29); one-sided files with CRLF line ends are rejected (C44).
* crossprob_mc: uninitialised generator parameters (C37); more than INT_MAX runs never terminate (C34); Poisson mode with an
  empty first line always reports 0 (C35); a zero draw gives NaN samples counted as non-crossing (C38); the Poisson seed is
  undefined for intensity >= 2148 (C46); n = 0 in ecdf mode is undefined (C48).
* C51: `ecdf1_new` leaks its scratch block `tmp` on every exception after validation (raw pointer, not in a scope); lists with
  a NaN get there.
* C55: the example in the module documentation (crossprob.i:39-43) raises RuntimeError, because its B is not in order.
* C56: `Mn_plus_statistic` sorts a float array passed by the caller in place.  C57: `inverse_Mn_plus` stops only thanks to
  rounding; thresholds below about 2^-55 (double) make it fail.
* C58: `ecdf1_mns2016_b` returns NaN for a valid boundary of four doubles with positive probability (cancellation makes the
  integral negative before its logarithm is taken).
* C59: the first example of the usage text says that the file `0, 0.15, 0.5, / 0.7, 0.9, 1` computes the probability that
  `X_(1)<=0.7 and 0.15<=X_(2)<=0.9 and 0.5<=X_(3)<= 0.7`; the program prints a number above 0.69999 for this file, but the event
  has probability at most 0.343 (the last bound should be 1).  In the second example the first line, said to be empty, is shown
  as twelve blanks; a line of blanks is an error (exit code 3).  Probabilities above 0.9999995 are printed as `1`.  Error
  messages go to standard output.
* C60: `vector_to_string` of an empty vector cannot be read back by `read_comma_delimited_doubles` (it works inside a file).
* C61 holds for evaluation in the order written, each operation rounded once.  The makefile compiles with `-ffast-math`
  (/repo/Makefile:13, setup.py:16), which permits the compiler to reassociate, to contract `a*b+c` and to assume that no NaN or
  infinity occurs; C61 does not cover these transformations, C66, C67 and C68 cover the first two for all three algorithms.  The link steps do not pass `-ffast-math`, so the start-up
  code that flushes subnormal numbers to zero is not linked, and gradual underflow, as in the model, is what happens.
* C72: `pickler.dump` is not atomic: a benchmark killed between `open` and the end of a save loses everything saved before.
  benchmarks/exactbj.py imports `Timer` from a module `utils` that is not in the repository, and its own `Timer` calls
  `time.clock`, which Python 3.8 removed.
* C62: with at most 126 points the FFT commands never execute an FFT, so all small-n tests of the repository (n <= 10) exercise
  only the direct convolution; a broken FFT path would pass /repo/tests/test_crossprob.py.
