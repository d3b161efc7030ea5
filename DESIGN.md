# RustDHT: a machine-checked model in Lean 4

The code under study (`/repo`, ejmahler/RustDHT) computes discrete Hartley transforms (DHT).
It contains nine hard-coded butterflies, a naive O(n^2) transform, five `k x n` mixed-radix
steps, a general mixed-radix step, an iterative radix-4, a split-radix step and Rader's algorithm.
All of them implement one trait, `Dht<T>`, and all combinators take `Arc<dyn Dht<T>>` inner transforms.

## Architecture

| directory | content |
| --- | --- |
| `lean/Verif/Model/` | the model: one executable Lean function per Rust function, with file/line citations |
| `lean/Verif/Spec/`  | what the properties talk about: the DHT as a sum, the trait contract, panic conditions |
| `lean/Verif/Proofs/` | helper lemmas |
| `lean/Verif/Props/` | the property theorems, with non-vacuity `example`s beside them |
| `lean/Verif/Axioms.lean` | `#guard_msgs` on `#print axioms` of every property theorem; the build fails if one gains an axiom |
| `seeded/LOG.jsonl` | mutation tests: one line for each wrong program the theorems were run against |

`Props/` by file: `Exact` C01-C12, `Contract` C13-C21, C24, C25, C36, `Safety` C22, C23, `NumberTheory` C26, `Laws` C27-C33,
`Root` C34, `AnyArith` C37-C39, `Rounding` C35, C40, C41, `Harness` C42-C45,
`Stability` C46, C47, `Ieee` C48, `IeeeTest` C49, `Machine` C50, `MachineRoot` C51,
`MachineSafety` C52, `UnitTests` C53, `MachineShort` C54, `Aliasing` C55, `Stateful` C56, `Calls` C57, `Bench` C58, `Poison` C59,
`Conv` C60, `Sign` C61, `Radix4Repaired` C62, `Unwind` C63, `RoundTrip` C64,
`Circuit` and `CircuitNested` C65, `Lengths` C66, `Scaling` C67, `Patched` C68, `FirstCoefficient` C69, `SmallLengths` C70, `InputKept` C36, `DocExamples` C53, `UserStability` C71, `NonFinite` C72, `Impulse` C73, `Integers` C74, `Stack` C75, `Memory` C76, `Override` C77, `Radix4Defect` C78, `OnlyIf` C79, `RootFree` C80, `FarOff` C81, `RootLoss` C82, `Detected` C83, `Caught` C84, `Formats` C85, `RadersLoss` C86, `ArrayUtils` C87, `Tables` C88, `MathUtilsAll` C89, `Twiddles` C90, `Depth` C91, `Optimal` C92, `Differ` C93, `Periodic` C94, `Spectrum` C95.

### How the code is modelled

* A slice `&mut [T]` is a `List T`; a function that mutates slices returns their new contents.
* The result type is `Res a = Except Fault a`. A fault is a Rust panic (with its kind: which assertion, an index
  out of bounds, `unwrap` on `None`, an integer overflow), **undefined behaviour** (an out-of-bounds
  `get_unchecked`, `RawSlice::load`, `RawSliceMut::store`), or **divergence** (a loop that never ends).
  So panics, memory safety and termination are observable in the model.
* The trait object `dyn Dht<T>` is a record `Dht T` of three numbers and two functions. Combinators take arbitrary
  records, so a user-written (even adversarial) `Dht` is covered, not only the built-in ones.
* The number type is a type `T` with `+ - * neg 0` and an `FftNum T` class that supplies `from_f64`, `cos`, ....
  *No laws* are assumed in the model. Structural properties (panics, memory safety, chunk and scratch
  independence, bit-for-bit agreement) are proved for every such `T`, hence for IEEE `f32` and `f64` and NaNs too.
  Numerical properties are proved for `T = R` with the exact functions: "in exact arithmetic".
* In-place butterflies read and write through two raw slices that alias. The model has an aliasing flag: in aliased
  mode a load sees earlier stores.
* Loops are folds over ranges (`for`) or well-founded recursions (`while`); a `while` that would spin is `diverge`.

### The proof plan

1. *Pure layer*: every loop of the model is shown to succeed and to compute a closed-form function of the input,
   for an arbitrary `T` (files `Proofs/*`). This yields `Implements d f`: "object `d` honours the trait
   contract with chunk transform `f`". `Implements` says: for all buffers and scratch that satisfy the documented
   length conditions the call succeeds, the buffer holds `f` of every chunk, the slice lengths are unchanged
   and the surplus scratch is unchanged.
2. *Exact layer*: for `T = R` the closed form is shown equal to the DHT by trigonometric identities.
   All mixed-radix variants go through one theorem about the pairing `r <-> w - r` of rows.
3. *Plans*: an inductive type `Plan` of composition trees and `Plan.build`, which runs the constructors. Theorems about all
   compositions are inductions over `Plan`. `Plan.SmallRadix4` says that every `Radix4` in the tree is shorter than 128; the
   theorems about values need it, because longer ones are wrong. `Tree` is `Plan` with arbitrary user objects at the leaves.
4. *User objects*: inner objects from outside the crate come with one of four contracts of increasing strength
   (`Spec/Contract.lean`): `SafeDht` (what Rust's type system gives: a call returns, panics or, if allowed, diverges; slices
   keep their lengths), `Accepts` (every valid call returns, values arbitrary), `Rejects` (invalid calls panic with the
   documented message), `Implements d f` (valid calls apply `f`).
5. *Parametricity* (`Proofs/Param*.lean`, `Spec/Arith.lean`): every model function maps related arguments to related results, for any
   relation between two number types that the arithmetic operations respect. Instances of this one theorem: control flow does
   not depend on data (total relation), equivariance (graph of a map), linearity for arbitrary tables (linear forms), rounding
   bounds (relation between a float and a record of size, roundings, underflows).
6. *Rounding* (`FloatModel` in `Spec/Rounding.lean`, `Proofs/Rounding.lean`, `Proofs/Growth*.lean`): the standard model of floating-point
   arithmetic with overflow and underflow. A composition is run once more with numbers of type `Cost`, which count
   roundings; the relation of step 5 turns the count into an error bound. `Growth` bounds the counts by recursion.
   `Spec/Single.lean` shows a concrete arithmetic that satisfies the model.
7. *Stages* (`Proofs/*Stage.lean`): a composition is a sequence of steps, each of which multiplies Euclidean lengths by a known factor in
   exact arithmetic (a permutation, an inner transform on every chunk, a column step, a twist) and whose outputs depend on few
   inputs each. Such a step turns the elementwise bound of 6 into a bound of the norm of its error; `Stage.comp` composes.
   The three steps of `RadersAlgorithm` are measured in norms that weigh the first element differently.
8. *Test code* (`Model/TestUtils.lean`, `Model/Bench.lean`, `Model/UnitTests.lean`): the checker behind most unit tests, the fake objects, the factories of
   the benchmarks and the benchmark functions, and the four unit tests that do not use the checker.

9. *IEEE* (`Spec/Ieee.lean`, `Proofs/Ieee*.lean`): `Flt F` is the set of floats of a binary format `F` (sign and magnitude, infinities, NaN);
   every operation is the exact rational result rounded to nearest, ties to even, with the IEEE rules for zeros, infinities and
   NaN. `f32` and `f64` are `Flt binary32` and `Flt binary64`. The table formulas of the crate run in `Flt binary64` and are
   converted. C48 proves `FloatModel` for both, so that the rounding theorems hold for IEEE arithmetic and not only for
   hypothetical arithmetics. Two things are not IEEE operations: `cos`/`sin` are a parameter (`MathLib`), about which only
   `MathLib.Accurate` is assumed (absolute error at most 2^-52 for arguments of size at most 8; glibc claims less than one ulp);
   and lengths from 2^64 on, which exist in the model but in no program, use exact reals (`Wide.beyond`).
   As a test (not a proof) the Lean definitions were compared with Lean's hardware `Float` and `Float32`: 200000 random operations
   including subnormals, ties and overflows, conversions, and PI; no difference.

10. *Machine integers* (`Model/Machine/`, `Proofs/Machine*.lean`): the model has lengths and indices in the natural numbers. A second copy of it
   has every `+ - *` on `usize`, `u64`, `i64` as an operation that can overflow (panic in a debug build, wrap in a release build).
   `Mode` selects the build and the size of `usize` (64 or 32 bits); the numbers below are for 64 bits, for 32 bits subtract 32 from the exponents.
   C50 proves the two equal as long as no object is longer than 2^61 - 1 (a slice of `f32` has at most 2^61 - 1 elements, because
   no Rust allocation exceeds 2^63 - 1 bytes), so the theorems of the other files hold of the program with machine integers. It also
   shows that no truncated subtraction of the natural numbers hides an underflow. The copy also has the allocation of the tables of
   twiddle factors (`allocate`: a `Vec` of `Complex<f32>` has fewer than 2^60 elements, larger ones panic), the casts between
   `usize` and `i64`, and `transpose::transpose` with wrapping assertions and unchecked reads. C52 proves memory safety for it without
   any bound on the lengths: where a product wraps, either an allocation has panicked before or the object is safe with the wrapped length.

## Property by property

* C01 naive: induction over the input for the running twiddle index `i*k mod n`.
* C02 butterflies: symbolic execution of the straight-line program, then identities between cos/sin at multiples of 2pi/n.
* C03-C08 mixed radix: loop invariant (columns below `c` done) gives closed form; row-pairing identity gives the DHT.
* C09 Radix4: **false of the code for len >= 128** (see Findings). Proved: holds iff len <= 64; `_partial` theorem and refutation.
* C10 split radix: same pairing technique on decimation in frequency.
* C11 Rader: the group `(Z/p)^*` is cyclic, `primitive_root` finds a generator; Hartley form of the cyclic convolution theorem.
* C12 composition: induction on `Plan`.
* C13, C14 panics: case analysis of the three boilerplate macros for all lengths. `Butterfly1` violates them (see Findings).
* C15-C19: consequences of `Implements` for arbitrary `T`.
* C20: arithmetic on scratch formulas; inner objects arbitrary. C21: false (see Findings); refuted, with a `_partial` theorem under the needed guard.
* C22, C23: a Hoare-style predicate "never faults with `bad`" for `bad = ub` and `bad = diverge`, all inner objects arbitrary.
  `C22_unchecked` says when the model reports undefined behaviour.
* C24, C25: constructors; Rader rejects the prime 2 (see Findings), hence `_partial` plus refutation.
* C26: trial division invariant, `f32` rounding modelled bit-exactly on integers, group theory from Mathlib. The rounded root finds every
  divisor up to 2^24 of every number, and there is no prime between 2^24 and 16777259, which gives the sharp bound 16777259^2.
* C27-C33: consequences of C12 and theorems about the sum.
* C34: refuted for exact arithmetic with the f32 value of the constant; a bound on the deviation is the `_partial` theorem.
  `C34_f64_refuted` follows one impulse through IEEE `f64`, where the value of the constant is derived and not assumed.
* C35: induction over the naive loop with a rounding model.
* C36: by induction over the chunks, given that one chunk of input survives. `MixedRadix2xn` to `MixedRadix6xn` lend their input
  to the inner object as scratch, so C19 for a butterfly (which asks for no scratch) gives the claim.
* C37-C39: instances of the parametricity theorem.
* C40, C41: parametricity with the rounding relation; recursion over the composition for the explicit growth.
* C46, C47: induction on `Plan` with `Stage` as the invariant; arithmetic of `Nat.log` for C47.
* C48: rounding to nearest has relative error at most 2^-prec or absolute error at most half the smallest subnormal; error propagation
  through the three table formulas. C49: C46 for the transform, C35 for the reference, a running error for the comparison loop.
* C50: congruence of the monadic code with index bounds as loop invariants; for Rader the coefficients of the Euclidean algorithm are bounded.
* C51: above 2^32 the wrapped squares of 2 are 2^1, ..., 2^32, 0, 0, ...; quadratic reciprocity gives an index that is never read.
  C51_release_raders_iff and C54: a release build runs through the indices of `wrapSeq`; correctness on impulses, one impulse for each
  index, forces these to be the powers of the root, and the powers meet p - 1, so no product can have wrapped.
* C52: the postcondition calculus of C22 for the machine model; the allocated table bounds the length, and below the bound the
  unchecked functions equal those of the unbounded model.
* C53: every list of the tests is shown to be near a list of real numbers (`Near`), for which the laws of C27-C33 give equality.
* C55: the butterflies as programs with loads and stores; a simulation whose invariant is the state of the aliasing rules at every
  location, for programs that load no location after storing to it. The rules are functions on the state of one location
  (`Spec/Aliasing.lean`), because a butterfly's pointers cover the whole buffer.
* C56: objects of the caller with interior mutability (`Model/Stateful.lean`): every method, the length methods included, maps a state
  of a shared memory to an answer and a new state. A call of a combinator is simulated by the memoryless model with each inner
  object frozen in the state in which the call reaches it, so that the lemmas about `Dht` apply (`Proofs/Stateful.lean`). Other
  threads are covered by putting what they do to the memory between two calls into the memory itself (`LiveDht.amid`).
* C57: the memory is a log of calls; partial correctness of the stateful combinators, with the log in the postcondition.
* C58: `Accepts` for every object that a benchmark builds, and an induction over the runs of the closure; the zeros follow from the
  relational lemmas of C37, with the relation `a = 0`.
* C59: the relational lemmas, with the relation "equal in S, or the value in T is bad"; two exact inputs that differ in element j
  witness that the element reaches coefficient k.
* C60: sums over a rotated index.
* C61: C38 with the map that forgets the sign of zero, and with negation.
* C62: the closed form of the repaired order; it is inverse to the order in which the layers combine (`r4Undo_top`, from the top, meets
  `rIndex`, which also goes from the top). For compositions, an induction over the expression with the patched constructor; both
  orders are permutations, so the unpatched object is the patched one after a rearrangement of the input, for every number type,
  and its error bound against the DHT of the rearranged signal carries over.
* C63: a loop over chunks with a remainder is the loop over the complete chunks (`iterChunks_append`), about which `Implements` speaks.
* C64: triangle inequality around C46.
* C65: the model is generic in the number type, so it runs on expressions (`Circ S`). Parametricity (C38) relates that run to
  a run on numbers; the bounds are an induction over the composition, in which butterflies and kernels are counted by the
  kernel evaluator once, on free names for the constants, and the result is substituted.
  For nested `RadersAlgorithm` the same induction, the constant doubling with every level.
* C66: induction over the expression one way, over the length the other.
* C67: parametricity with the relation "is a linear form" on circuits; rounding commutes with shifting the exponent as long as
  numbers stay normal; C65 carries that over from circuits to calls.
* C68: the proofs for the unpatched code with other scratch lengths; where an argument needed a limit on the scratch of the inner
  object there is none now. For rounding, the induction of C46 with `repaired_stab`, a rearrangement followed by the old stage.
* C42-C45: symbolic execution of the checker; a passed check for all signals plus homogeneity gives exactness by scaling;
  inductions over the factories.
* C69: induction over compositions with the closed forms of Proofs/: row 0 and column 0 are not touched by twiddles, so the first
  output is a sum of first outputs of the inner transforms, and the chunks partition a permutation of the input. Sums are related to
  multisets (`AddsUp`), so that the order does not matter.
* C70: the closed forms of the butterflies are sums and differences; each is a multiple of the same power of two and small enough to be a
  number of the format, so nothing is rounded. Converse: twice `cas` of a rational multiple of pi is an algebraic integer (Mathlib's
  Niven file), so a rational value is half an integer, and few values are left.
* C71: the stages of C46 with the DHT itself on the exact side; an object that approximates the DHT is a stage and the other way round.
* C72: induction over the sums of C69.
* C73: parametricity with an abstract arithmetic of two levels, zero and impulse (`Lvl`); the butterflies are run on it by the kernel
  evaluator, the general algorithms by their closed forms.
* C74: `cos` and `sin` of a non-zero angle of odd length stay further from 1 than the error of the library, so they are cut off to 0;
  `1 / (p - 1)` likewise. Then C69 and C73.
* C75: induction over the number of divisions by 4, or over the stack.
* C76: a family of relations between memories is respected by every combinator (a Kripke logical relation); an invariant is such a
  relation of an object with itself, a transitive bound is one invariant for each starting state.
* C77: `process` can be overridden; only `RadersAlgorithm::new` (raders_algorithm.rs:61) calls it on an inner object. What the
  algorithm computes is written as a cyclic correlation with the transform of whatever that call returned; unit impulses
  recover the transform, and the DHT is injective.
* C78: the rearrangement of C09 follows a recursion over the last digit to the base 4; `cas` takes equal values at two
  multiples of 2 pi / 4q only if they are equal or add up to q modulo 4q.
* C79: what comes before and after the inner transforms is onto and one to one, since around the DHT the whole is the DHT; so
  the inner transform can be read off the whole. For `MixedRadix` the column of the first coefficients gives the width first.
  For `RadersAlgorithm` the induction is over a weaker statement, that the composition makes the DHT up to the order of its
  coefficients. The matrix of a composition of length p - 1 has entries in the field of a root of unity of order M, where M is not
  divisible by p (`Proofs/TableEntries.lean`). The numbers cas(2 pi q / p), q = 1, ..., p - 1, are independent over that field
  (`Proofs/Cyclotomic.lean`, from the degrees of cyclotomic polynomials). So the coefficient of each in the result of Rader's algorithm
  must be right by itself, which makes the inner matrix a diagonalisation of the cyclic convolution (`Proofs/RadersMatrix.lean`):
  its rows are characters, and the DHT up to the order of coefficients is left.
* C80: a composition without the factor builds the same tables. A step with the factor is, up to an isometry, a multiplication of
  all but the first row and column by a number other than 1. The induction is that of C79; energy shows the factor. For the theorem on
  real factors and that on energy: a composition with mixed-radix algorithms only lengthens all signals, or shortens all, and strictly so
  those whose entries differ; Rader's algorithm answers an impulse with what its inner object makes of the kernel, applied twice,
  and for the DHT that is a multiple of the kernel, whose entries differ.
* C81: the DHT multiplies norms by the square root of the length, so a signal on which a part is wrong by `√2` times the norm of its
  DHT gives one for the whole: all other rows or columns zero. C46 says how close floating point is to exact arithmetic, also for
  objects that are wrong there.
* C82: the induction of C80 gives, for a composition with the factor, a signal that meets the factor in full, by putting the signal of
  the part into one row or column. C46 is proved again relative to the transform with the wrong factor.
* C83: a sum that is finite has a small relative error, overflow or not, and a sum with NaN or an infinity in it is not below 0.1.
  For `Radix4`, Parseval turns the distance of the outputs into a distance of signals. At length 128 the rearrangement exchanges 16 pairs;
  each pair that has to be close divides the number of signals by five.
* C84: if two signals that differ in one entry both pass, the entries are close; averaging over one entry after the other, in an order in
  which no condition looks at later entries, gives the power. For Radix4 a third of the points moved by the permutation of C78 can be
  chosen with their images outside the choice, and nearly all of these pairs must be close.
* C85: `FloatModel` was proved of IEEE arithmetic for any format in which certain sums of units fit; they fit in all.  For the lower bound
  the table entry `cas(π/4)` is followed exactly: two numbers of `f64` between 1/2 and 1 are multiples of 2⁻⁵³, a wider format adds them
  without rounding, and no multiple of 2⁻⁵³ is nearer to √2 than 2⁻⁵⁶.  The loss by the factor `sqrt(1/2)` is `C82_float` with the constant
  rounded to the format itself as the reference.
* C86: for a signal with a zero in front the energy of the result is at most `(n+1)/n` times a weighted sum of the squares of the first
  inner transform.  The weights are the squares of the spectrum of the kernel, as the inner object makes it.  They are on average at most 1,
  because the inner object gains no energy and has the first coefficient right (C69).  So they are all at most `1 + τ`, and the signal that
  the inner object loses on is lost on, or one is at most `1 - τ/n`, and a signal of which the inner object makes that frequency alone is
  lost on.  The other algorithms pass the loss on: `MixedRadix` gives impulses to its other object, of which any composition makes a
  constant (C73).
* C87: `pieces` and `inTurn` (Spec/Pieces.lean) say what the loops should do, calls that panic included; chunk induction. The transpose is a
  permutation of positions with an explicit inverse.
* C88: by induction over the expression `memory + 4 <= 4 n`, or `n` is odd and `memory + 6 <= 5 n`; only `RadersAlgorithm` gives the second, its length is an odd prime,
  so it is never directly inside another one, nor the half-length part of `SplitRadix`. The layers of `Radix4` are a geometric sum.
* C89: induction over the loop of `modular_exponent` with factors below `2^32` that need not be reduced; a divisor of `n` has no power that is
  1 mod `n`, so the search of `primitive_root` ends at the least prime factor of `n` at the latest.
* C90: the values by `cos`/`sin` of the angle; the last theorem from the fact that negation commutes with the product, the quotient and the
  conversion of IEEE arithmetic exactly, signs of zeros included (Proofs/ExactSign.lean).
* C91: parametricity with the relation "depth at most the number of roundings" between circuits and the numbers of C40, then C41; the
  lower bound because an expression of depth `D` contains at most `2^D` entries of the buffer.
* C92: the values of a circuit are linear forms, rows of a matrix. Take `n` of them, the longest expression last: replacing it by its
  operands splits the determinant into two or multiplies it by a factor, and uses one operation less; so `N` operations give a
  determinant of at most `2^N`. The transform times its transpose is `n` times the identity. That the factors of the compositions are
  small is proved with a version of the parametricity lemmas (`ParamWeak`) for relations on constants that are not closed under
  addition; the table of `RadersAlgorithm` is bounded as the transform of `p - 1` numbers not above `√2/(p-1)`.
* C93: by Cauchy-Schwarz and `cas² ≤ 2` no coefficient of the difference exceeds `√(2s)` times its norm; by Parseval there are then
  at least `n/(2s)` that are not zero. `differ` in `Spec/Differ.lean` counts positions. One entry: `cas (2πik/n)` vanishes
  just if `8ik` is `4m - 1` times `n`; the set of these `k` and its shifts by one, two and three times one of them are disjoint.
* C94: decimation in time for a spread signal, where all interleaved sequences but one are zero; the other half follows since the
  transform is its own inverse up to a factor. `repeated` and `interspersed` are in `Spec/Periodic.lean`.
* C95: real and imaginary part of the DFT are the sums with `cos` and `-sin`; `X[k]` and `X[-k]` are their difference and sum. The
  rotation is C60, the symmetry C30 with injectivity. The power spectrum is the product (C60) of the transforms of the signal and of
  its mirror image.

## Findings (code violates the property)

1. `Radix4` is wrong for every length >= 128: `prepare_radix4_reversed` keeps the sub-sequences of a reversed sequence in
   un-reversed order (radix4.rs:342-360), whereas reversal also exchanges sub-sequence i with 3-i. The tests stop at 64; by C83 a test
   of length 128 would almost certainly have failed.
   C78 says exactly which signals, impulses and coefficients are affected; C81 that the error is larger than the result in `f32` and
   `f64`, in every composition with such a `Radix4` outside `RadersAlgorithm`.
   C62 proves that writing to `output[(3 - i) * (size / 4)..]` there repairs every length and every composition, and that
   permuting the input of the unpatched object is a workaround. C68 proves that small patches remove findings 1, 2, 3, 4, 6 and 8
   completely.
2. `RadersAlgorithm::new` panics for inner length 1 although 2 is prime (`primitive_root(2)` is `None`, math_utils.rs:60).
3. `MixedRadix2xn..6xn` and `SplitRadix` panic for a user-written inner `Dht` whose scratch requirement is large, in spite of
   computing a scratch length for it (radix2.rs:127, 130, 146; split_radix.rs:123-124).
4. `Butterfly1` does not panic on an empty buffer, although the trait documents a panic for `buffer.len() < self.len()`.
5. `iter_chunks_zipped` has a dead branch (array_utils.rs:38 repeats the condition of line 35 with operands exchanged), so a longer second
   buffer is not reported. All callers compare the lengths first, so this is not observable.
6. The constant `sqrt(1/2)` is rounded to `f32` for every `T`, so `f64` results of MixedRadix/3xn/5xn/6xn have f32 accuracy (and so have those of wider types; tables are computed in `f64` whatever `T` is, C85).
   C80 says exactly which compositions are affected, C82 by how much in `f64`.
7. `primitive_root` overflows 64-bit arithmetic for every odd prime above 2^32. A debug build panics. A release build answers 2 (unless 2 has
   an order below 64), also for the half of the primes for which 2 is no primitive root; `RadersAlgorithm::new` then returns an object
   that does not compute the transform (C51; 4294967311 is such a prime).
8. `check_dht_algorithm` passes `output` pre-filled with the expected values, so an out-of-place method that writes nothing passes
   (test_utils.rs:118-120). The tolerance is a mean error of 0.1. A check of length 0 always fails (0/0 is NaN).
9. On 32-bit targets the products `index * root` in `RadersAlgorithm` (raders_algorithm.rs:57, 113, 157, 177, 225) are products of `usize`
   and overflow for many primes above 65536 and for all above 2642246. A debug build panics, a release build returns wrong numbers (C54; 131071).
10. In-place butterflies make a shared and a mutable raw slice of the same buffer (butterflies.rs:15-22). Under Stacked Borrows the second
   invalidates the first, so every in-place butterfly of length 2 or more, and hence nearly every algorithm, has undefined behaviour.
   Under Tree Borrows the code is allowed (C55).
11. `distinct_prime_factors` bounds the trial division by a root rounded to `f32` (math_utils.rs:33, 43). It is right for all numbers below
   16777259^2 (about 2.8e14) and wrong for 16777259^2, which it takes for a prime (C26). `primitive_root` overflows earlier (7).
12. Observations without a failing property: the documentation of `MixedRadix5xn::new` and `MixedRadix6xn::new` says
   `height_dht.len() * 3`, and that of `SplitRadix::new` names a `height_dht` that does not exist (radix5.rs:24, radix6.rs:24,
   split_radix.rs:20; the lengths are 5, 6 and 4 times the inner ones, C24); `make_splitradix` returns length 16 for the lengths 2, 4 and 8;
   `make_5xn_radix5(27)` returns length 25; `bench_raders_power2` uses `Radix4(256)`, which is wrong (1).
   `primitive_root(1)` would loop for ever (`distinct_prime_factors(0)`), and `primitive_root` of a number that is not prime returns
   `Some` (C89), but `RadersAlgorithm::new` asserts primality first. `modular_exponent(b, 0, 1)` is 1 instead of 0 (C89).
   `transpose_half_rev_out` with width 0 and height above 0 would read out of bounds (C87); the crate does not call it so.
   `SplitRadix::new` in a release build accepts inner objects of lengths 2^62+1 and 2^63+2 and reports length 4 (C52_wrapped_length).
   A call with a remainder transforms the complete chunks in place before it panics (C63).
   Integer number types satisfy the trait bound and compile; apart from the lengths 1, 2 and 4 the results are wrong without notice (C74).
   `transpose_half_rev_out` is unsound as a function: its assertion multiplies with wrap-around (C52_assertion_is_not_enough).

## Mutation tests

`seeded/LOG.jsonl` has one line per mutant: the definition edited, the edit, the claim it breaks, the claims found false by running
the mutated model on concrete inputs (`observed_false`, with a witness), and what failed to build. `theorems_failed` lists first the helper
lemmas (`File:lemma`) whose proofs break, then the property theorems that depend on them and whose claim the mutant makes
false. A mutant counts as survived when a property theorem still builds although its claim was observed false.

The rounds: 1 and 2 go through the algorithms, constructors, trait methods and helpers; 3 through the machine-integer model; 4 through
the pointer model, the unit tests and the test utilities; 5 through the patched versions (C68); 6 and 7 through all definitions not yet
tried; 8 to 13 through what later claims (C72 to C95) depend on, with many mutants that are right in exact arithmetic and only use
other operations. Round 5 was not finished. Edits that do not type-check are not listed. In rounds 4 to 13 only the modules of the claims in question were built.

Survivors and what became of them:

* Round 9, `checkDhtAlgorithm` without its calls with dirty scratch: C43 and C83 did not speak of them; they do now.
* Round 7, `setU` and `getU` without undefined behaviour: C22 said that undefined behaviour never happens, and nothing said what
  counts as such, so C22 stayed true of a model in which it cannot happen. `C22_unchecked` and `C22_unchecked_raw` now state that an
  unchecked access is undefined behaviour exactly when it is out of bounds. The edits were tried again in round 11 and are caught.
* A mutant of a patched object or of a benchmark makes C13, C14, C17, C22 or C24 false of that object, but these claims speak of the
  objects of the crate; the claims about the mutated objects (C68, C45) fail, so these do not count as survivors.

## Trusted base

* Lean's kernel; axioms `propext`, `Classical.choice`, `Quot.sound` (see `#print axioms` in `Verif/Axioms.lean`).
* The reading of the Rust source by which the model was written; code was not run.
* Contracts of external crates, modelled as definitions: `transpose::transpose` (out-of-place matrix transpose with two
  length assertions), `primal_check::miller_rabin` (exact primality on u64), `strength_reduce` (ordinary remainder),
  `num_integer::extended_gcd` (the textbook loop), `num_complex` scalar multiplication.
* Integer overflow is modelled for 64-bit and 32-bit targets (C50, C51, C52, C54), not for 16-bit ones. Loop counters of ranges, chunk
  iterators and the code of external crates do not overflow.
* `T::from_f64(..).unwrap()` does not panic (true for f32 and f64). C74: for integer types it drops the fractional part, as `num_traits` does.
* The aliasing rules of Rust are not settled. C55 uses Stacked Borrows and Tree Borrows as published, without protectors and interior
  mutability, for the raw slices of the butterflies; the reborrows inside `as_ptr` and `as_mut_ptr` are merged into one. All other code
  makes its references from `&mut` slices by safe methods and `get_unchecked`, which no rule forbids in bounds.
* Not modelled: allocation failure except `Vec`'s capacity check for the twiddle tables (C52), stack depth except the recursion of `prepare_radix4` (C75), data races
  (no method of the crate has interior mutability, and safe code of the caller has no data races; C56 covers objects of the caller
  that change between two calls), calls back into the crate from an object of the caller (it may keep another transform in its
  memory, but its call is one step of the model), the clock of the benches (how often a loop runs is an argument), the random generator of the tests.
* `0.5f32.sqrt()` is taken to be the correctly rounded value 11863283 * 2^-24 (C34 only).
* Floating point enters C35, C40, C41, C46, C47 through the hypotheses of `FloatModel`; C48 proves them for IEEE `f32` and `f64` from
  `MathLib.Accurate` (C53: also `MathLib32.Accurate`, for `f32::cos` and `f32::sin`). C69 assumes `MathLib.AtZero` instead: `cos` of a zero is 1 and
  `sin` of a zero is that zero, as the C standard has it. That the compiled program performs IEEE operations in source order, without fused multiply-add, is assumed.
