{"id": "C01", "title": "DhtNaive computes the DHT", "statement": "In exact real arithmetic, DhtNaive::new(n) maps every length-n chunk x to the sequence X with X[k] = sum over i<n of x[i]*(cos(2*pi*i*k/n)+sin(2*pi*i*k/n)), through process, process_with_scratch and process_outofplace_with_scratch.", "quantifier": "every length n, every input, every number of chunks, every scratch/output initial content", "why_tests_cant": "the tests compare lengths 1..20 on one random signal with a tolerance of 0.1 mean absolute error", "anchors": ["src/scalar/dht_naive.rs: DhtNaive::new, perform_dht_out_of_place", "src/twiddles.rs: compute_dht_twiddle"]}
{"id": "C02", "title": "Every hard-coded butterfly computes the DHT of its size", "statement": "In exact real arithmetic Butterfly1, 2, 3, 4, 5, 6, 8, 9 and 16 each compute the DHT of their length, in place (input and output aliased) and out of place.", "quantifier": "every input vector of that length, every number of chunks, both aliasing modes", "why_tests_cant": "a test can sample vectors only, and passes with coefficients wrong by up to the 0.1 tolerance", "anchors": ["src/scalar/butterflies.rs: Butterfly1..Butterfly16 perform_dht_contiguous"]}
{"id": "C03", "title": "MixedRadix computes the DHT of length width*height", "statement": "In exact arithmetic, if the two inner Dht objects honour the trait contract and compute the DHT of their own lengths, MixedRadix::new(width_dht, height_dht) computes the DHT of length width*height.", "quantifier": "every width and height (even, odd, 1, 0), every pair of inner implementations that honour the contract, with any scratch requirements, every input", "why_tests_cant": "tests try widths and heights 1..9 with DhtNaive inside", "anchors": ["src/scalar/mixed_radix.rs: MixedRadix::new, apply_twiddles, perform_dht_inplace, perform_dht_out_of_place"]}
{"id": "C04", "title": "MixedRadix2xn computes the DHT of length 2*height", "statement": "In exact arithmetic, if the inner Dht computes the DHT of its length h, needs at most 2*h in-place scratch and no out-of-place scratch, MixedRadix2xn::new(inner) computes the DHT of length 2*h.", "quantifier": "every inner length (even, odd, 1, 0), every conforming inner implementation, every input", "why_tests_cant": "tests try heights 1..7 with DhtNaive inside", "anchors": ["src/scalar/radix2.rs: MixedRadix2xn::new, apply_twiddles, perform_dht_inplace, perform_dht_out_of_place", "src/array_utils.rs: transpose_half_rev_out"]}
{"id": "C05", "title": "MixedRadix3xn computes the DHT of length 3*height", "statement": "In exact arithmetic, if the inner Dht computes the DHT of its length h, needs at most 3*h in-place scratch and no out-of-place scratch, MixedRadix3xn::new(inner) computes the DHT of length 3*h.", "quantifier": "every inner length (even, odd, 1, 0), every conforming inner implementation, every input", "why_tests_cant": "tests try heights 1..7 with DhtNaive inside", "anchors": ["src/scalar/radix3.rs: MixedRadix3xn::new, apply_twiddles, perform_dht_inplace, perform_dht_out_of_place", "src/array_utils.rs: transpose_half_rev_out"]}
{"id": "C06", "title": "MixedRadix4xn computes the DHT of length 4*height", "statement": "In exact arithmetic, if the inner Dht computes the DHT of its length h, needs at most 4*h in-place scratch and no out-of-place scratch, MixedRadix4xn::new(inner) computes the DHT of length 4*h.", "quantifier": "every inner length (even, odd, 1, 0), every conforming inner implementation, every input", "why_tests_cant": "tests try heights 1..7 with DhtNaive inside", "anchors": ["src/scalar/radix4.rs: MixedRadix4xn::new, apply_twiddles, perform_dht_inplace, perform_dht_out_of_place", "src/array_utils.rs: transpose_half_rev_out"]}
{"id": "C07", "title": "MixedRadix5xn computes the DHT of length 5*height", "statement": "In exact arithmetic, if the inner Dht computes the DHT of its length h, needs at most 5*h in-place scratch and no out-of-place scratch, MixedRadix5xn::new(inner) computes the DHT of length 5*h.", "quantifier": "every inner length (even, odd, 1, 0), every conforming inner implementation, every input", "why_tests_cant": "tests try heights 1..7 with DhtNaive inside", "anchors": ["src/scalar/radix5.rs: MixedRadix5xn::new, apply_twiddles, perform_dht_inplace, perform_dht_out_of_place", "src/array_utils.rs: transpose_half_rev_out"]}
{"id": "C08", "title": "MixedRadix6xn computes the DHT of length 6*height", "statement": "In exact arithmetic, if the inner Dht computes the DHT of its length h, needs at most 6*h in-place scratch and no out-of-place scratch, MixedRadix6xn::new(inner) computes the DHT of length 6*h.", "quantifier": "every inner length (even, odd, 1, 0), every conforming inner implementation, every input", "why_tests_cant": "tests try heights 1..7 with DhtNaive inside", "anchors": ["src/scalar/radix6.rs: MixedRadix6xn::new, apply_twiddles, perform_dht_inplace, perform_dht_out_of_place", "src/array_utils.rs: transpose_half_rev_out"]}
{"id": "C09", "title": "Radix4 computes the DHT for every power of two", "statement": "In exact arithmetic, Radix4::new(len) computes the DHT of length len for every power of two len.", "quantifier": "every power of two, every input", "why_tests_cant": "tests stop at length 64; every larger length takes a code path (nested reversed decimation) that no test runs", "anchors": ["src/scalar/radix4.rs: Radix4::new, perform_dht_out_of_place, prepare_radix4, prepare_radix4_reversed, butterfly_4"]}
{"id": "C10", "title": "SplitRadix computes the DHT of length 4*quarter", "statement": "In exact arithmetic, if quarter_dht and half_dht compute the DHTs of lengths q and 2q with half-length scratch at most, SplitRadix::new(quarter_dht, half_dht) computes the DHT of length 4q.", "quantifier": "every q (even, odd, 1, 0), every conforming pair of inner implementations, every input", "why_tests_cant": "tests try q in 1..30 with DhtNaive inside", "anchors": ["src/scalar/split_radix.rs: SplitRadix::new, apply_twiddles, perform_dht_inplace, perform_dht_out_of_place"]}
{"id": "C11", "title": "RadersAlgorithm computes the DHT of every odd prime length", "statement": "In exact arithmetic, for every odd prime p < 2^32 and every inner Dht that computes the DHT of length p-1, RadersAlgorithm::new(inner) succeeds and computes the DHT of length p.", "quantifier": "every odd prime below 2^32, every conforming inner implementation with any scratch requirements, every input", "why_tests_cant": "tests try p = 3, 5, 7", "anchors": ["src/scalar/raders_algorithm.rs: RadersAlgorithm::new, perform_dht_inplace, perform_dht_out_of_place", "src/math_utils.rs: primitive_root"]}
{"id": "C12", "title": "Any nesting of the algorithms computes the DHT", "statement": "In exact arithmetic, any finite composition of the public constructors that construct successfully (Radix4 restricted to the lengths where C09 holds) computes the DHT of its reported len(), through all three entry points.", "quantifier": "every finite composition tree, every input", "why_tests_cant": "the set of compositions is infinite; tests use depth one over DhtNaive", "anchors": ["src/lib.rs: Dht", "src/scalar/mod.rs"]}
{"id": "C13", "title": "In-place processing panics exactly when documented", "statement": "For an instance of length n>0, process_with_scratch returns normally iff buffer.len() >= n, n divides buffer.len() and scratch.len() >= get_inplace_scratch_len(); otherwise it panics with the message of the first violated condition. process panics iff one of the first two fails.", "quantifier": "every composition of constructors, every buffer and scratch length and content, any number type", "why_tests_cant": "the space of buffer and scratch lengths is unbounded and the suite has no panic test", "anchors": ["src/lib.rs: Dht::process_with_scratch, dht_error_inplace", "src/macros.rs: boilerplate_dht, boilerplate_dht_oop", "src/scalar/butterflies.rs: boilerplate_fft_butterfly, Butterfly1"]}
{"id": "C14", "title": "Out-of-place processing panics exactly when documented", "statement": "For an instance of length n>0, process_outofplace_with_scratch returns normally iff output.len() == input.len(), input.len() >= n, n divides input.len() and scratch.len() >= get_outofplace_scratch_len(); otherwise it panics with the message of the first violated condition.", "quantifier": "every composition of constructors, every input, output and scratch length and content, any number type", "why_tests_cant": "the space of lengths is unbounded and the suite has no panic test", "anchors": ["src/lib.rs: Dht::process_outofplace_with_scratch, dht_error_outofplace", "src/macros.rs", "src/array_utils.rs: iter_chunks_zipped", "src/scalar/butterflies.rs: Butterfly1"]}
{"id": "C15", "title": "Chunks are transformed independently", "statement": "Processing a buffer of m*n elements gives, chunk by chunk, exactly (bit for bit) what processing each chunk alone gives: no chunk influences another, although all share one scratch buffer.", "quantifier": "every composition, every number of chunks, every content, any number type (no algebraic laws assumed, so it includes f32 and f64)", "why_tests_cant": "check_dht_algorithm uses one chunk only (n = 1)", "anchors": ["src/lib.rs: Dht", "src/array_utils.rs: iter_chunks, iter_chunks_zipped"]}
{"id": "C16", "title": "Scratch and stale output contents never influence the result", "statement": "The values written to the buffer (or output) do not depend on the initial contents of scratch, on its surplus length, nor on the initial contents of output.", "quantifier": "every composition, every scratch/output content, including NaN or infinity, any number type", "why_tests_cant": "tests try one dirty value (100) at the exact scratch length", "anchors": ["src/lib.rs: Dht::process_with_scratch (contents of scratch should be considered garbage)", "src/scalar/*.rs: perform_dht_inplace, perform_dht_out_of_place"]}
{"id": "C17", "title": "In-place and out-of-place agree bit for bit", "statement": "process, process_with_scratch and process_outofplace_with_scratch produce identical results on the same data, for any arithmetic, because they perform the same operations in the same order.", "quantifier": "every composition, every input, any number type", "why_tests_cant": "tests compare each path with the reference up to tolerance 0.1", "anchors": ["src/lib.rs: Dht::process, process_with_scratch, process_outofplace_with_scratch"]}
{"id": "C18", "title": "Scratch reuse over any history of calls is harmless", "statement": "In any sequence of calls that share one scratch buffer between different instances and buffers, every call returns what it would return with fresh zeroed scratch.", "quantifier": "every finite call history over any set of instances", "why_tests_cant": "histories are unbounded", "anchors": ["src/lib.rs: Dht::process_with_scratch"]}
{"id": "C19", "title": "Surplus scratch is left untouched", "statement": "process_with_scratch and process_outofplace_with_scratch never modify scratch elements beyond the reported scratch length, and never change the length of any slice.", "quantifier": "every composition, every surplus, any number type", "why_tests_cant": "tests only pass exact-length scratch", "anchors": ["src/macros.rs: boilerplate_dht (scratch[..required_scratch])"]}
{"id": "C20", "title": "The reported scratch lengths suffice for MixedRadix and Raders with any inner algorithm", "statement": "For MixedRadix and RadersAlgorithm, whatever scratch lengths the inner implementations request, scratch of exactly the reported length is enough: no inner call panics for lack of scratch.", "quantifier": "every pair of inner lengths and inner scratch requirements (user-implemented Dht included)", "why_tests_cant": "test_mixed_radix_inner_scratch tries 27x27 combinations; nothing tests Raders", "anchors": ["src/scalar/mixed_radix.rs: inplace_scratch_len, outofplace_scratch_len", "src/scalar/raders_algorithm.rs: extra_inner_scratch"]}
{"id": "C21", "title": "The reported scratch lengths suffice for MixedRadixNxn and SplitRadix with any inner algorithm", "statement": "For MixedRadix2xn..6xn and SplitRadix, whatever scratch lengths a user-implemented inner Dht requests, scratch of the reported length is enough for process_with_scratch and process_outofplace_with_scratch.", "quantifier": "every inner length and inner scratch requirement (user-implemented Dht included)", "why_tests_cant": "no test uses an inner algorithm with large scratch in these types", "anchors": ["src/scalar/radix2.rs..radix6.rs: perform_dht_inplace, perform_dht_out_of_place", "src/scalar/split_radix.rs"]}
{"id": "C22", "title": "Every unchecked memory access is in bounds", "statement": "No call of any public method performs an out-of-bounds get_unchecked, get_unchecked_mut, RawSlice::load or RawSliceMut::store, whatever the inner Dht implementations do (they may return garbage or panic), whatever the slice lengths. In the model such an access is undefined behaviour exactly if the index is not less than the length.", "quantifier": "every algorithm, every inner implementation written in safe code, every slice length and content", "why_tests_cant": "an out-of-bounds access may go unnoticed by a test, and adversarial inner implementations are an infinite family", "anchors": ["src/scalar/butterflies.rs: RawSlice, RawSliceMut", "src/array_utils.rs: transpose_half_rev_out", "src/scalar/radix4.rs: prepare_radix4", "src/scalar/split_radix.rs: get_unchecked"]}
{"id": "C23", "title": "Every call terminates", "statement": "No public method of any composition loops or recurses for ever, including for length-0 instances and zero-length chunks, provided the inner implementations terminate.", "quantifier": "every composition, every slice length", "why_tests_cant": "non-termination on an untried length is invisible to tests", "anchors": ["src/array_utils.rs: iter_chunks", "src/macros.rs: if self.len() == 0", "src/scalar/radix4.rs: while current_size <= self.len", "src/math_utils.rs: distinct_prime_factors"]}
{"id": "C24", "title": "Reported lengths", "statement": "len() is width*height for MixedRadix, k*inner.len() for MixedRadixkxn, 4*quarter for SplitRadix, inner+1 for Raders, the argument for Radix4 and DhtNaive; every composition that does not involve a length-0 instance reports out-of-place scratch 0 and in-place scratch at most len().", "quantifier": "every composition", "why_tests_cant": "compositions are infinite", "anchors": ["src/lib.rs: get_inplace_scratch_len, get_outofplace_scratch_len docs", "src/scalar/*.rs: new"]}
{"id": "C25", "title": "Constructors reject exactly the invalid sizes", "statement": "Radix4::new panics iff len is not a power of two; SplitRadix::new panics iff half.len() != 2*quarter.len(); RadersAlgorithm::new panics iff inner.len()+1 is not prime (for sizes below 2^32).", "quantifier": "every length", "why_tests_cant": "tests construct valid sizes only", "anchors": ["src/scalar/radix4.rs: Radix4::new", "src/scalar/split_radix.rs: SplitRadix::new", "src/scalar/raders_algorithm.rs: RadersAlgorithm::new"]}
{"id": "C26", "title": "primitive_root returns the least primitive root of every odd prime", "statement": "For every odd prime p < 2^32, primitive_root(p) is Some(g) with g the least generator of the multiplicative group mod p; no 64-bit product overflows on the way, and the f32 square-root bound of the trial division loses no prime factor: distinct_prime_factors(n) lists the prime factors of n for every 0 < n < 16777259^2 (16777259 is the least prime above 2^24), and for n = 16777259^2 it does not.", "quantifier": "every odd prime below 2^32", "why_tests_cant": "about 200 million primes; the suite has no test of math_utils", "anchors": ["src/math_utils.rs: primitive_root, distinct_prime_factors, modular_exponent"]}
{"id": "C27", "title": "The transform is its own inverse up to a factor n", "statement": "In exact arithmetic, processing a buffer twice with any composition of length n multiplies every element by n.", "quantifier": "every composition covered by C12, every input", "why_tests_cant": "every input and length", "anchors": ["src/lib.rs: Dht"]}
{"id": "C28", "title": "Linearity", "statement": "In exact arithmetic, for every composition, transform(a*x + b*y) = a*transform(x) + b*transform(y).", "quantifier": "every composition covered by C12, all inputs, all scalars", "why_tests_cant": "every input and length", "anchors": ["src/lib.rs: Dht"]}
{"id": "C29", "title": "Parseval", "statement": "In exact arithmetic, the sum of squares of the output is n times the sum of squares of the input.", "quantifier": "every composition covered by C12, all inputs", "why_tests_cant": "every input and length", "anchors": ["src/lib.rs: Dht"]}
{"id": "C30", "title": "Double reversal property", "statement": "Reversing all but the first element of the input and of the output gives the same result as not reversing anything.", "quantifier": "every composition covered by C12, every input", "why_tests_cant": "test_double_reversal_property tries lengths 2..10 with DhtNaive", "anchors": ["src/scalar/radix5.rs: test_double_reversal_property"]}
{"id": "C31", "title": "Reversal property", "statement": "Reversing the whole output equals applying twiddle.im*x[i] + twiddle.re*x[(n-i)%n] (forward DFT twiddles) to the input before the transform; reversing the whole input equals applying the same twiddles to the output.", "quantifier": "every composition covered by C12, every input", "why_tests_cant": "test_reversal_property tries lengths 1..20 with DhtNaive", "anchors": ["src/scalar/radix5.rs: test_reversal_property"]}
{"id": "C32", "title": "Algorithms are interchangeable", "statement": "In exact arithmetic, any two compositions of equal len() give the same output on the same input.", "quantifier": "all pairs of compositions covered by C12, every input", "why_tests_cant": "infinitely many pairs", "anchors": ["src/lib.rs: Dht"]}
{"id": "C33", "title": "The output is Re - Im of the DFT", "statement": "In exact arithmetic the output of every composition is Re(F) - Im(F), where F is the (forward, exp(-2*pi*i*jk/n)) discrete Fourier transform of the input.", "quantifier": "every composition covered by C12, every input", "why_tests_cant": "every input and length", "anchors": ["src/lib.rs: Dht"]}
{"id": "C34", "title": "Rounding of sqrt(1/2) to f32", "statement": "The result of MixedRadix, MixedRadix3xn, 5xn and 6xn is the DHT even though the eighth-turn constant sqrt(1/2) is computed in f32 (T::from_f32(0.5f32.sqrt())) for every number type T.", "quantifier": "every width, height, input; T of higher precision than f32", "why_tests_cant": "tests compare with tolerance 0.1 and f32 inputs; the loss is about 1.7e-8 relative", "anchors": ["src/scalar/mixed_radix.rs: root2", "src/scalar/radix3.rs: root2", "src/scalar/radix5.rs: root2", "src/scalar/radix6.rs: root2"]}
{"id": "C35", "title": "Rounding error of DhtNaive is bounded", "statement": "Under the standard model of floating point (every sum, difference and product whose exact value does not overflow has relative error at most u, a product in addition an underflow error of at most eta, every table constant absolute error at most t*u), DhtNaive of finite inputs gives finite outputs unless (1+u)^(n+t+3)*(2*max(S,1)+n*eta) overflows, S the sum of |x[i]|, and the k-th output differs from the exact DHT by at most (1+u)^(n+t+3)*(2*S+n*eta) - 2*S.", "quantifier": "every n, every input, every rounding behaviour satisfying the standard model", "why_tests_cant": "all rounding patterns cannot be enumerated", "anchors": ["src/scalar/dht_naive.rs: perform_dht_out_of_place"]}
{"id": "C36", "title": "Which out-of-place calls preserve the input", "statement": "process_outofplace_with_scratch of DhtNaive, of every butterfly, of Radix4, and of MixedRadix2xn to 6xn around a butterfly (or around any inner object that does not write to its scratch) leaves the input slice unchanged. SplitRadix overwrites it.", "quantifier": "every input, any number of chunks, every such composition, any number type", "why_tests_cant": "infinitely many inputs and compositions; no test of the crate looks at the input after a call", "anchors": ["src/scalar/dht_naive.rs", "src/scalar/butterflies.rs: boilerplate_fft_butterfly", "src/scalar/radix4.rs", "src/scalar/radix2.rs: perform_dht_out_of_place and its copies", "src/scalar/split_radix.rs"]}
{"id": "C37", "title": "Control flow does not look at the numbers", "statement": "For any two number types, with any arithmetic and any table values whatsoever, a composition of constructors is accepted or rejected alike, reports the same lengths, and on slices of equal lengths every entry point ends alike: it returns, or panics with the same message, or not, depending on the lengths only.", "quantifier": "every composition (Radix4 of any length included), every pair of number types and arithmetics, all slices and scratch lengths, both entry points", "why_tests_cant": "NaN, infinities, overflow and custom number types are never exercised by the tests", "anchors": ["src/lib.rs: Dht", "src/macros.rs", "src/scalar/*.rs"]}
{"id": "C38", "title": "Transforms commute with maps that commute with the arithmetic", "statement": "Any map of numbers that commutes with sums, differences and products by a constant commutes with every entry point of every composition, exactly. In particular negating the input negates the output bit for bit in any arithmetic with -0 = 0, -(a+b) = -a + -b, -(a-b) = -a - -b, -(c*a) = c*(-a) (as in IEEE round-to-nearest with the zeros identified), however it rounds.", "quantifier": "every composition (Radix4 of any length included), every number type with these laws, all inputs", "why_tests_cant": "all inputs and rounding behaviours cannot be enumerated", "anchors": ["src/lib.rs: Dht", "src/scalar/*.rs"]}
{"id": "C39", "title": "Linearity whatever the tables contain", "statement": "Over any commutative ring and with arbitrary values in place of all table constants, every composition computes a linear map: transform(a*x + b*y) = a*transform(x) + b*transform(y). No element of the output contains a product of two inputs or a constant term.", "quantifier": "every composition (Radix4 of any length included), every commutative ring, all constants, all inputs and scalars", "why_tests_cant": "every input, ring and table", "anchors": ["src/lib.rs: Dht", "src/scalar/*.rs"]}
{"id": "C40", "title": "Rounding errors of every composition", "statement": "For every composition of constructors, run the same code once with numbers that count roundings (size, underflows, depth, table factors). In any floating-point arithmetic satisfying the standard model (with overflow, underflow and inexact tables, sqrt(1/2) in f32 included), if the inputs are finite and of size at most A and the size the counting run reports does not overflow, then every output is finite and differs from what the same composition computes in exact arithmetic (the DHT, if every Radix4 in it is shorter than 128) by at most the reported error.", "quantifier": "every composition (Radix4 of any length included), every arithmetic satisfying the model, all inputs", "why_tests_cant": "all rounding patterns and compositions cannot be enumerated", "anchors": ["src/lib.rs: Dht", "src/scalar/*.rs"]}
{"id": "C41", "title": "Explicit error growth of every composition", "statement": "The bound of C40 is at most an expression given by recursion on the composition: each algorithm multiplies the size by an explicit factor and adds an explicit number of roundings and underflows (for instance MixedRadix factor 4 and 6 roundings, one table factor and one sqrt(1/2); Radix4 factor 7 and 5 roundings for each layer). Relative to the size, the error is at most 2*depth*u when depth*u <= 1/2.", "quantifier": "every composition, every arithmetic satisfying the model, all inputs", "why_tests_cant": "all rounding patterns and compositions cannot be enumerated", "anchors": ["src/lib.rs: Dht", "src/scalar/*.rs"]}
{"id": "C42", "title": "check_dht_algorithm raises no false alarm", "statement": "If an object computes the DHT (both entry points, whatever scratch and output held before), then check_dht_algorithm, the checker all unit tests use, returns without a failed assertion, for every signal the random generator may give it; so every composition without a Radix4 of length 128 or more passes.", "quantifier": "every object that computes the DHT, every composition, every positive length, every signal (exact arithmetic)", "why_tests_cant": "the checker is run with one fixed signal per length", "anchors": ["src/test_utils.rs: check_dht_algorithm", "src/test_utils.rs: compare_real_vectors"]}
{"id": "C43", "title": "What a passed check_dht_algorithm says", "statement": "If check_dht_algorithm accepts an object for every signal then the object computes the DHT through process, process_with_scratch and process_outofplace_with_scratch.", "quantifier": "every object, every length, every signal (exact arithmetic)", "why_tests_cant": "a statement about the tests themselves: which wrong objects they let pass", "anchors": ["src/test_utils.rs: check_dht_algorithm", "src/test_utils.rs: compare_real_vectors"]}
{"id": "C44", "title": "Fake inner objects trip no assertion", "statement": "BigScratchAlgorithm (asserts that it gets the scratch it asked for) and Noop accept every valid call, and MixedRadix over any two of them, RadersAlgorithm over any of them of length p-1 (p an odd prime below 2^32), and MixedRadix4xn over any Noop accept every valid call with the scratch they report; slices keep their lengths.", "quantifier": "all lengths and all pairs of requested scratch lengths, all buffers and scratch contents, any number type", "why_tests_cant": "the unit test tries 27 x 27 pairs of inner objects with lengths 1, 5 and 25", "anchors": ["src/test_utils.rs: BigScratchAlgorithm", "src/scalar/mixed_radix.rs: test_mixed_radix_inner_scratch", "benches/bench_dht.rs: Noop"]}
{"id": "C45", "title": "Factories of the benchmarks", "statement": "make_4xn_radix4(2^k), make_3xn_radix3(3^k), make_5xn_radix5(5^k), make_6xn_radix6(6^k) with k >= 1 return an object of that length that computes the DHT; for any other length they panic or return a transform of a smaller power of the radix. make_splitradix(n) with n = 2^k * odd returns a transform of length 2^max(4,k), so the assertion dht.len() == len of bench_splitradix holds exactly for the powers of two from 16 on.", "quantifier": "all lengths (exact arithmetic)", "why_tests_cant": "the benchmarks use a few lengths and check no values", "anchors": ["benches/bench_dht.rs: make_4xn_radix4", "benches/bench_dht.rs: make_splitradix", "benches/bench_dht.rs: make_3xn_radix3", "benches/bench_dht.rs: make_5xn_radix5", "benches/bench_dht.rs: make_6xn_radix6"]}
{"id": "C46", "title": "Normwise stability of every composition", "statement": "In any floating-point arithmetic satisfying the standard model, for every composition: if numbers of an explicit multiple of sqrt(n)*max(|x|,1) do not overflow, all outputs are finite and the Euclidean norm of the error of the whole output is at most sqrt(n)*((1+u)^D*(|x| + C*eta*sqrt(n)) - |x|), where D (weighted roundings) and C (underflows) ADD UP along the composition instead of multiplying; for compositions with Radix4 up to 64 the distance to the DHT, relative to its norm, is at most 2*D*u when D*u <= 1/2, up to underflow. For RadersAlgorithm the errors of the precomputed table are included.", "quantifier": "every composition (inner objects of RadersAlgorithm with Radix4 up to 64), every arithmetic satisfying the model, all inputs", "why_tests_cant": "all rounding patterns and compositions cannot be enumerated; the tests use an absolute tolerance of 0.1", "anchors": ["src/lib.rs: Dht", "src/scalar/*.rs"]}
{"id": "C47", "title": "Errors of fast compositions grow like log n", "statement": "For every composition without RadersAlgorithm, with DhtNaive leaves of length at most L and with both sides of every MixedRadix of length at least 2, the numbers of C46 are bounded by a constant (depending on L and the accuracy of the tables only) times log2 of the length, so the relative error of the whole output is at most const*u*log2(n) (if every Radix4 in it is shorter than 128, where C09 holds).", "quantifier": "every such composition of every length, every arithmetic satisfying the model, all inputs", "why_tests_cant": "an asymptotic statement about all lengths", "anchors": ["src/lib.rs: Dht", "src/scalar/*.rs"]}
{"id": "C48", "title": "IEEE f32 and f64 satisfy the rounding model", "statement": "Binary floating point with n-bit significands, subnormals, signed zeros, infinities and NaN, rounding to nearest with ties to even, together with the table formulas of the crate run in f64 and converted to the element type, satisfies the hypotheses of C35, C40, C41, C46 with the constants of f32 and f64: unit roundoff 2^-24 and 2^-53, underflow 2^-150 and 2^-1075, twiddle factors within 2 and 69 roundings, sqrt(1/2) within 2 and 2^29. So the normwise bounds of C46 hold in f32 and f64; for every composition with Radix4 up to 64 they are stated as bounds of the distance to the DHT. Only the accuracy of the system's cos and sin (error at most 2^-52 for arguments up to 8) is assumed.", "quantifier": "every composition, every length a usize can hold, all finite inputs that do not overflow, every cos/sin of that accuracy", "why_tests_cant": "2^32 or 2^64 values for every input element", "anchors": ["src/lib.rs: Dht", "src/twiddles.rs", "src/scalar/*.rs"]}
{"id": "C49", "title": "The unit tests pass for every random signal", "statement": "check_dht_algorithm::<f32> (::<f64>) accepts every composition (with Radix4 up to 64) of moderate length and rounding depth for every finite signal with entries of size at most 10, rounding errors of the transform, of the reference DhtNaive and of the comparison itself included. In particular every object that the unit tests of the crate hand to check_dht_algorithm passes, at its length, for every such signal, not only for the signal of the fixed seed.", "quantifier": "every composition within the explicit bound with Radix4 up to 64, every signal in the range of the generator, every cos/sin of accuracy 2^-52", "why_tests_cant": "the tests run with one seed; other seeds could fail for rounding reasons", "anchors": ["src/test_utils.rs: check_dht_algorithm", "src/test_utils.rs: compare_real_vectors", "src/test_utils.rs: random_real_signal", "src/scalar/*.rs: unit_tests"]}
{"id": "C50", "title": "Machine integers suffice", "statement": "With usize of 64 or 32 bits and u64 and i64 of 64 bits, where an overflow panics (debug build) or wraps around (release build), every composition whose objects are shorter than 2^61 (2^29 with 32 bits: the largest possible slice of f32), and whose tables of twiddle factors can be allocated (Radix4 shorter than 2^60 or 2^28, (w/2+1)(h/2+1) below the same bound in MixedRadix), builds and behaves exactly as with unbounded integers; Rader's algorithm must in addition be used with primes up to 2^32 only (2^16 with 32 bits) unless the build is a 64-bit debug build. The same holds of every combinator around arbitrary user-written inner objects. So all builds that fit agree; what fits with 32 bits fits in all builds. The bound on the length is attained: MixedRadix3xn of that length or more overflows when it makes its table.", "quantifier": "every composition, both compilation modes, both word sizes, every number type; every inner object", "why_tests_cant": "lengths near 2^61 cannot be allocated, and the absence of overflow for all lengths and index computations cannot be enumerated", "anchors": ["src/array_utils.rs", "src/math_utils.rs", "src/scalar/*.rs"]}
{"id": "C51", "title": "Rader's algorithm above 2^32", "statement": "For every prime p with 2^32 < p < 2^61 primitive_root(p) panics in a debug build. In a release build it returns 2 whenever 2 has order at least 64 modulo p. If also p = 1 or 7 mod 8, then 2 is not a primitive root, and RadersAlgorithm::new accepts every correct inner object of length p-1 but returns an object that does not compute the DHT. In general (order at least 64) the object computes the DHT if and only if 2 is a primitive root and (p-1)(p+1)/2 < 2^64; so it is wrong for all p above 6074000999.", "quantifier": "all primes between 2^32 and 2^61, every correct inner object", "why_tests_cant": "a transform of length 2^32 is too large for a unit test, and the error occurs in release builds only", "anchors": ["src/math_utils.rs: modular_exponent", "src/math_utils.rs: primitive_root", "src/scalar/raders_algorithm.rs: new"]}
{"id": "C52", "title": "Memory safety when integers wrap around", "statement": "With 64-bit or 32-bit integers that panic or wrap around on overflow, no constructor and no call of a method has undefined behaviour, for every nesting of the constructors around arbitrary user-written objects that announce arbitrary lengths that a usize can hold. In particular the assertions in front of unchecked accesses, whose products may wrap, never let a call read or write out of bounds, because the twiddle tables (whose allocation panics beyond isize::MAX bytes) keep the lengths small enough. The assertion of transpose_half_rev_out alone does not suffice: with wrapping products it passes for slices that are too short. A SplitRadix whose length has wrapped around can be built, and is safe.", "quantifier": "every constructor expression, both compilation modes, both word sizes, all lengths that a usize can hold, every safe user-written inner object, all buffers", "why_tests_cant": "lengths of 2^62 and more occur only with adversarial inner objects; undefined behaviour need not show in a test", "anchors": ["src/array_utils.rs: transpose_half_rev_out", "src/scalar/split_radix.rs", "src/scalar/mixed_radix.rs", "src/scalar/radix4.rs", "src/scalar/*.rs"]}
{"id": "C53", "title": "The remaining unit tests pass for every signal", "statement": "test_matches_dht, test_reversal_property and test_double_reversal_property, which do not go through check_dht_algorithm, return normally: in exact arithmetic for every length and every signal, and in f32 at the lengths of the tests for every finite signal with entries of size at most 10, rounding errors of the f32 angles, of cos and sin in f32, of the twiddle factors, of the transforms and of the comparison included. test_mixed_radix_inner_scratch returns normally in every arithmetic, also for all other lengths and scratch lengths of its inner objects. The two examples in the documentation return normally in every arithmetic, and in f32 they leave zeros in the buffer.", "quantifier": "every signal in the range of the generator; every cos/sin of the stated accuracy; every length in exact arithmetic", "why_tests_cant": "the tests run with one seed; other seeds could fail for rounding reasons", "anchors": ["src/scalar/dht_naive.rs: test_matches_dht", "src/scalar/radix5.rs: test_reversal_property", "src/scalar/radix5.rs: test_double_reversal_property", "src/scalar/mixed_radix.rs: test_mixed_radix_inner_scratch"]}
{"id": "C54", "title": "Rader's algorithm on 32-bit targets", "statement": "Let p be an odd prime (below 2^32 and short enough for a slice), g its least primitive root and h < p the inverse of g. A release build of RadersAlgorithm::new around any correct inner object of length p-1 returns an object that computes the DHT if and only if (p-1)g and (p-1)h fit in a usize. A debug build panics in the constructor if (p-1)h does not fit; if only (p-1)g does not fit, the constructor returns an object of which every call panics; otherwise it computes the DHT. On a 32-bit target the products do not fit for any prime above 2642246, so there the algorithm always fails; below 2^16 it always works.", "quantifier": "all odd primes, both compilation modes, both word sizes, every correct inner object", "why_tests_cant": "the tests run on 64-bit machines with primes below 100; a wrapped index in a release build gives wrong numbers silently", "anchors": ["src/scalar/raders_algorithm.rs: new", "src/scalar/raders_algorithm.rs: perform_dht_inplace", "src/scalar/raders_algorithm.rs: perform_dht_out_of_place"]}
{"id": "C55", "title": "The pointers of the butterflies and the aliasing rules", "statement": "Under the aliasing rules of Tree Borrows every butterfly, in place and out of place and on the local arrays of the other algorithms, is free of undefined behaviour whenever it is so without aliasing rules, and computes the same: no butterfly loads from a location after storing to it. Under Stacked Borrows, where RawSliceMut::new(buffer) invalidates the pointer of RawSlice::new(buffer), every in-place call of Butterfly2, 3, 4, 5, 6, 8, 9 and 16 with a buffer that is long enough is undefined behaviour, as is every call on a local array; out of place Butterfly2, 3, 5 and 9 obey the rules, and Butterfly4, 6, 8 and 16 do not, as they run smaller butterflies in place.", "quantifier": "all buffers, every number type, both initial permissions of a mutable reference under Tree Borrows", "why_tests_cant": "a violation of the aliasing rules changes no result unless the compiler makes use of it", "anchors": ["src/scalar/butterflies.rs: perform_dht_butterfly", "src/scalar/butterflies.rs: perform_dht_array", "src/scalar/butterflies.rs: perform_dht_contiguous", "src/array_utils.rs: RawSlice", "src/array_utils.rs: RawSliceMut"]}
{"id": "C56", "title": "Inner objects with memory", "statement": "A user-written Dht may have interior mutability: every method, the length methods included, may then answer differently at every call, depending on all earlier calls and on what other threads do in between. For every nesting of the constructors around such objects: no constructor and no method has undefined behaviour, slices keep their lengths, and every call terminates if the calls of the objects do. If the memory does not show in the answers of the objects, it does not show in those of the nesting, which behaves as the model without memory says. If the objects compute the DHT in every state, but leave contents in the scratch that depend on the state, every combinator around them computes the DHT in every state (MixedRadix2xn to 6xn and SplitRadix: if the objects keep within the scratch limits of C21; RadersAlgorithm: for odd primes below 2^32).", "quantifier": "every constructor expression, every state, every user-written object that safe Rust allows, all buffers, every number type (the DHT in exact arithmetic)", "why_tests_cant": "the unit tests use no inner objects with memory", "anchors": ["src/lib.rs: Dht", "src/scalar/mixed_radix.rs", "src/scalar/split_radix.rs", "src/scalar/raders_algorithm.rs", "src/scalar/*.rs"]}
{"id": "C57", "title": "Calls of the inner objects", "statement": "Each combinator calls its inner objects in a fixed pattern: the constructors ask each of the lengths that they need once (and RadersAlgorithm transforms one kernel with process); the length methods of the result call nothing; for each chunk MixedRadix and SplitRadix make one call of each inner object, MixedRadix2xn to 6xn one call, RadersAlgorithm two, on slices of stated lengths and in the stated order, in place or out of place as stated; for length 0 none. This holds whatever the inner objects compute, whenever the call returns.", "quantifier": "every inner object that safe Rust allows and that logs its calls, all buffers, every state", "why_tests_cant": "the tests do not observe the calls; a repeated or superfluous inner transform changes no result, only the running time", "anchors": ["src/scalar/mixed_radix.rs: perform_dht_inplace", "src/scalar/split_radix.rs: perform_dht_inplace", "src/scalar/raders_algorithm.rs: new", "src/macros.rs: boilerplate_dht"]}
{"id": "C58", "title": "The benchmarks run to the end", "statement": "A benchmark function returns, however often Bencher::iter runs its closure and in every arithmetic, exactly for the arguments that its algorithm is meant for (powers of the radix, odd primes below 2^32, Fermat primes for bench_raders_power2, any lengths for the no-op inner objects), and its buffer has the length announced by the argument; bench_4xn_radix4, which does not check the length, also returns for the numbers that in base four start with 2 or 10, on a shorter buffer. All functions marked #[bench] have suitable arguments. Where zero behaves as usual, every run starts with a buffer of zeros and leaves one.", "quantifier": "all arguments, all numbers of iterations, every number type", "why_tests_cant": "cargo test does not run the benchmarks, and how often a benchmark runs its closure depends on the clock", "anchors": ["benches/bench_dht.rs"]}
{"id": "C59", "title": "NaN and infinities do not vanish", "statement": "Call a set of values absorbing if every operation with an operand in it has a result in it: NaN, or NaN and the infinities. In every arithmetic and for every composition of the constructors without a long Radix4, a bad element j of a chunk makes every coefficient k of that chunk bad for which cas(2 pi j k/n) is not 0: so coefficient 0 always, and all coefficients unless 8 divides n. In particular a NaN in the input gives NaN in every coefficient unless 8 divides n, and a finite coefficient 0 certifies that the whole chunk was finite. The first coefficient also holds for Radix4 of every length. More generally, if in some arithmetic a change of element j can change element k of the output, then in every arithmetic a bad element j makes element k bad.", "quantifier": "all compositions, all chunks, every number type, every absorbing set of values; no assumption about cos and sin", "why_tests_cant": "the tests use finite signals; whether a NaN survives every path through a composition cannot be sampled", "anchors": ["src/lib.rs: Dht", "src/scalar/butterflies.rs", "src/scalar/mixed_radix.rs", "src/scalar/raders_algorithm.rs", "src/scalar/dht_naive.rs"]}
{"id": "C60", "title": "Rotation and circular convolution", "statement": "In exact arithmetic, for every composition without a long Radix4: rotating a chunk by s places turns coefficient k into cos(2 pi k s/n) X[k] - sin(2 pi k s/n) X[-k]; and transforming two chunks, combining the spectra by (X[k](Y[k]+Y[-k]) + X[-k](Y[k]-Y[-k]))/2 and transforming again gives n times the circular convolution of the chunks, also if the three transforms are done by three different compositions of the same length.", "quantifier": "all compositions, all chunks, all rotations", "why_tests_cant": "no test checks either law; a test would check it for a few signals and up to rounding", "anchors": ["src/lib.rs: Dht", "src/scalar/mixed_radix.rs", "src/scalar/raders_algorithm.rs", "src/scalar/split_radix.rs"]}
{"id": "C61", "title": "Symmetry under negation in IEEE arithmetic", "statement": "In every binary IEEE format, rounding to nearest, and for every composition of the constructors (long Radix4 included): negating the input negates the output exactly, rounding errors, infinities and NaN included, apart from the signs of zeros; and changing the signs of zeros in the input changes nothing but signs of zeros in the output. The exception is real: Butterfly2 maps (1,1) and (-1,-1) to signals whose second element is +0 both times.", "quantifier": "all compositions, all buffers (also those that panic), all binary formats, whatever cos and sin return", "why_tests_cant": "the tests compare with a tolerance, and never compare two runs", "anchors": ["src/lib.rs: Dht", "src/scalar/butterflies.rs", "src/scalar/*.rs"]}
{"id": "C62", "title": "The defect of Radix4 is one index", "statement": "If the two recursive calls in prepare_radix4_reversed write to output[(3 - i) * (size / 4)..] instead of output[i * (size / 4)..], then Radix4::new(2^m) computes the DHT for every m in exact arithmetic and honours the trait contract, and everything that can be composed out of the constructors computes the DHT; and for lengths below 128 the change has no effect in any arithmetic. In every arithmetic the changed Radix4 does, bit for bit, what the Radix4 of the crate does on an input rearranged in a way that depends on the length only; so a caller can work around the defect, and the changed Radix4 is as accurate in floating point as C46 says of the short ones. So the failure of C09 has no other cause, and the change cannot be noticed by the existing tests.", "quantifier": "all powers of two; every number type for the second part", "why_tests_cant": "the tests stop at length 64, where right and wrong order agree", "anchors": ["src/scalar/radix4.rs: prepare_radix4_reversed", "src/scalar/radix4.rs: prepare_radix4", "src/scalar/radix4.rs: new"]}
{"id": "C63", "title": "What a call that panics leaves behind", "statement": "The slices that a caller lends outlive a panic. For every composition of the constructors (Butterfly1 apart, which has its own rule) and also around inner objects from outside that meet the contract: if a buffer or the scratch is too short, or input and output differ in length, the call panics before anything is written. If the only fault is that the length is not a multiple of the transform length, the call panics only after every complete chunk has been transformed; the remainder and the surplus scratch are as they were. So a caller who catches the panic, cuts off the remainder and calls again gets, in exact arithmetic, the original signal times the length, and not its transform.", "quantifier": "all compositions, all buffers and scratch of all lengths, every number type (the last sentence in exact arithmetic)", "why_tests_cant": "the tests do not provoke panics, and none looks at a buffer after one", "anchors": ["src/macros.rs: boilerplate_dht", "src/macros.rs: boilerplate_dht_oop", "src/scalar/butterflies.rs: boilerplate_fft_butterfly", "src/array_utils.rs: iter_chunks", "src/array_utils.rs: iter_chunks_zipped", "src/lib.rs: dht_error_inplace"]}
{"id": "C64", "title": "Energy, agreement and round trip in floating point", "statement": "In floating point, for compositions without a long Radix4 and for finite signals within the stated range: the Euclidean norm of the computed spectrum is sqrt(n) times that of the signal, two compositions of the same length agree, and transforming with one and then with the other gives n times the signal; each up to an explicit error, which is the sum of the errors of the compositions (and their product), relative to the norm of the exact result, plus an underflow term. The computed spectrum is the exact DHT of a signal that differs from the given one by no more than the relative error of the composition (backward stability). In IEEE f32, Radix4 of length 64 applied twice to a signal of norm at most 100 returns 64 times the signal up to 0.0002 of it.", "quantifier": "all compositions, all finite signals within the range, every arithmetic that satisfies the standard model; IEEE f32 with accurate cos and sin", "why_tests_cant": "the tests compare a few random signals of a few lengths with a tolerance of 0.1", "anchors": ["src/lib.rs: Dht", "src/scalar/*.rs", "src/test_utils.rs: check_dht_algorithm"]}
{"id": "C65", "title": "The number of arithmetic operations", "statement": "Every composition of the constructors is an arithmetic circuit that does not depend on the data: run on expressions instead of numbers it gives one circuit per length, whose value on a buffer is what the call returns on it, in every arithmetic and bit for bit. The circuit has at most Plan.ops different operations per chunk (operations on constants alone, which construction does once, are not counted). For a composition without RadersAlgorithm whose DhtNaive parts have length at most L, Radix4 included, that is at most (2L+8) n log2 n, and for RadersAlgorithm around such a composition at most 2(2L+8) n log2 n, for every prime; with at most k RadersAlgorithm parts inside one another, anywhere in the composition, it is at most 2^k (2L+8) n log2 n. DhtNaive has at least n(n-1) different operations and at most 2n^2.", "quantifier": "all compositions, all lengths and number types (the lower bound over the reals)", "why_tests_cant": "a test measures one length on one machine; it cannot show a growth rate, and timing does not separate operations from everything else", "anchors": ["src/scalar/*.rs", "src/scalar/dht_naive.rs: DhtNaive", "src/lib.rs: Dht"]}
{"id": "C66", "title": "Which lengths can be composed", "statement": "Without DhtNaive exactly those lengths can be composed out of the constructors whose prime factors are all below 2^32 (so every length below 2^32), and without DhtNaive and RadersAlgorithm exactly the lengths 2^a 3^b 5^c. Every length below 2^32 has a composition without DhtNaive that computes the DHT in exact arithmetic. Every length with prime factors at most L has a composition that computes the DHT with at most (2L+8) n log2 n operations. It has fewer operations than DhtNaive if (2L+8) log2 n < n-1; for the lengths 2^a 3^b 5^c that is so from 128 on.", "quantifier": "all lengths, all number types", "why_tests_cant": "a statement about the existence of a composition for every length, and about the non-existence of any, cannot be sampled", "anchors": ["src/scalar/mod.rs", "src/scalar/raders_algorithm.rs: new", "src/scalar/mixed_radix.rs: new", "src/scalar/radix4.rs: new", "src/scalar/split_radix.rs: new"]}
{"id": "C67", "title": "Outputs are linear forms; scaling by powers of two; the zero signal", "statement": "Every output of every composition is computed as a linear form: entries of the buffer are added, subtracted, negated and multiplied by numbers that do not depend on the buffer; two entries are never multiplied and nothing but zero is added. Hence, in every binary floating point format: multiplying all entries by a power of two multiplies all outputs by it, bit for bit and signs of zeros included, if no operation underflows or overflows with or without the scaling; a buffer of zeros gives zeros or NaN whatever the tables contain; and with accurate tables it gives exactly zeros.", "quantifier": "all compositions, all buffers, every number type for the first sentence, every IEEE format for the rest", "why_tests_cant": "the tests compare with a tolerance on numbers between 0 and 10; bit-for-bit statements about all buffers cannot be sampled", "anchors": ["src/scalar/*.rs", "src/lib.rs: Dht"]}
{"id": "C68", "title": "Patches for the defects, and the full statements", "statement": "The exceptions in the statements above have the causes named there and no others. With these changes - Radix4 orders its blocks as in C62, Butterfly1 uses the macro of the other butterflies, MixedRadix2xn to 6xn and SplitRadix hand scratch to their inner objects as MixedRadix does, primitive_root searches from 1, sqrt(1/2) is rounded to f64, the checker fills the output with zeros - the full statements hold: the constructors return exactly if the documented requirements are met (below 2^32), scratch of the reported lengths is enough around every inner object, every call returns exactly if the documented requirements are met and panics with the documented message otherwise, every composition computes the DHT, and in f64 it is accurate to the precision of f64. Where the code of the crate has none of the defects the patched code returns the same bits. The patched checker accepts every right object, and an object whose results scale and which it accepts for all signals is right in place and out of place.", "quantifier": "all constructor expressions, with objects of the caller in them where these can occur, all buffers, all number types (accuracy: IEEE f64, without RadersAlgorithm of length 2)", "why_tests_cant": "no test shows that a patch leaves no case uncovered", "anchors": ["src/scalar/butterflies.rs: Butterfly1", "src/scalar/radix2.rs: MixedRadix2xn", "src/scalar/split_radix.rs: SplitRadix", "src/math_utils.rs: primitive_root", "src/scalar/mixed_radix.rs: new", "src/scalar/radix4.rs: prepare_radix4_reversed", "src/test_utils.rs: check_dht_algorithm"]}
{"id": "C69", "title": "The first coefficient is a plain sum", "statement": "Every composition computes coefficient 0 with additions alone: each entry of the chunk is added exactly once, in an order that depends on the composition, and nothing but zeros is added besides; no constant and no difference takes part (DhtNaive multiplies by its table entry for the angle 0, which is 1). Hence coefficient 0 is exactly the sum of the entries in exact arithmetic also where the other coefficients are wrong: with Radix4 of length 128 and more, and with any value in place of sqrt(1/2). In every IEEE format it is exact if the entries are multiples of one power of two whose absolute values add up to at most 2^prec units (for instance integers in f32 with a sum of absolute values up to 2^24), and in general its error is at most ((1+u)^(n-1) - 1) times the sum of the absolute values. Around inner objects from outside the crate coefficient 0 is a plain sum if it is one in them (SplitRadix: in the half-length one).", "quantifier": "all compositions, all buffers, every number type in which the table entry for the angle 0 is neutral; every IEEE format, with cos 0 = 1 and sin 0 = 0 as the C standard requires", "why_tests_cant": "the tests compare all coefficients with one tolerance; that one of them is free of rounding for whole classes of inputs, or that no constant takes part in it, cannot be sampled", "anchors": ["src/scalar/*.rs", "src/twiddles.rs: compute_dht_twiddle", "src/lib.rs: Dht"]}
{"id": "C70", "title": "Lengths 1, 2 and 4 are exact in floating point, no others can be", "statement": "Butterfly1, Butterfly2, Butterfly4 and Radix4 of lengths 1, 2 and 4 make no rounding error on numbers that are multiples of one power of two and whose absolute values add up to at most 2^prec units (integers in f32 with a sum of absolute values up to 2^24, in f64 up to 2^53): the outputs are the DHT exactly, and with room for a factor n a second call returns exactly n times the input. For every other length there is a signal of zeros and ones one of whose coefficients is irrational, so that no object of that length can be exact in any binary format.", "quantifier": "all buffers of lengths 1, 2 and 4 in the stated range and every IEEE format; all lengths for the converse", "why_tests_cant": "exactness for all integers in a range, and the impossibility for every other length, cannot be sampled", "anchors": ["src/scalar/butterflies.rs: Butterfly1, Butterfly2, Butterfly4", "src/scalar/radix4.rs: new"]}
{"id": "C71", "title": "Accuracy around inner objects from outside the crate", "statement": "Dht is a public trait, so the accuracy of a composition may rest on objects the crate has not written. If an inner object approximates the DHT - after any call the outputs are finite and their Euclidean distance to the exact DHT is at most sqrt(n) ((1+u)^D (N + C eta sqrt(n)) - N), N the norm of the input, as long as G times the size the outputs can have does not overflow - then so does what is built around it, with numbers D, C, G that are computed from those of the inner objects: MixedRadix, MixedRadix2xn to 6xn and SplitRadix add the numbers of one fixed step, RadersAlgorithm (whose table the inner object computes as well) multiplies by about 13 (sqrt(n)+1). Every composition of the crate with Radix4 below 128 is such an object. The relative error of a call is at most 2 D u, up to underflow.", "quantifier": "all inner objects, all lengths, all finite buffers in range, all floating point arithmetics in the sense of C40; for MixedRadix2xn to 6xn and SplitRadix inner objects within the scratch limits of C21", "why_tests_cant": "no test uses an inner object from outside the crate; a bound for all of them cannot be sampled", "anchors": ["src/scalar/mixed_radix.rs: MixedRadix", "src/scalar/radix2.rs: MixedRadix2xn", "src/scalar/radix3.rs: MixedRadix3xn", "src/scalar/radix4.rs: MixedRadix4xn", "src/scalar/radix5.rs: MixedRadix5xn", "src/scalar/radix6.rs: MixedRadix6xn", "src/scalar/split_radix.rs: SplitRadix", "src/scalar/raders_algorithm.rs: RadersAlgorithm", "src/lib.rs: Dht"]}
{"id": "C72", "title": "NaN and infinities show in coefficient 0", "statement": "A number that is not finite cannot disappear in a transform. In every IEEE format and for every composition: a NaN in a chunk makes coefficient 0 of the chunk NaN; an infinity makes it that infinity or NaN; two opposite infinities make it NaN; so a finite coefficient 0 shows that the whole chunk was finite. The other chunks of the buffer are not affected. DhtNaive leaves no finite coefficient in such a chunk. Other algorithms may: coefficients 1 and 5 of Butterfly8 do not depend on entries 3 and 7 of the chunk.", "quantifier": "all compositions, all chunks and positions, all contents of the rest of the buffer, every IEEE format, with cos 0 = 1 and sin 0 = 0 as the C standard requires (DhtNaive: whatever cos and sin return)", "why_tests_cant": "the tests use finite numbers only; that no position in no composition swallows a NaN cannot be sampled", "anchors": ["src/scalar/*.rs", "src/lib.rs: Dht"]}
{"id": "C73", "title": "An impulse has a flat spectrum, exactly", "statement": "The DHT of a, 0, ..., 0 is a, a, ..., a, and every composition returns exactly that, without any rounding error: a is only ever added to zeros or has zeros subtracted from it, and nothing but zeros is multiplied, except by DhtNaive's table entry for the angle 0. This holds in every arithmetic with the usual laws of zero, also where other signals are transformed wrongly: with Radix4 of length 128 and more, and with any value in place of sqrt(1/2). In every IEEE format, with zeros of either sign in the chunk and a not zero, each output is a bit for bit or NaN whatever the tables contain; with accurate tables and unless something may overflow, each is a. Around inner objects from outside the crate it holds if it holds for them.", "quantifier": "all compositions, all heights of the impulse, every commutative ring, every IEEE format, with cos 0 = 1 and sin 0 = 0 as the C standard requires", "why_tests_cant": "the tests compare with a tolerance on random signals; that a class of signals is transformed without any error by every composition cannot be sampled", "anchors": ["src/scalar/*.rs", "src/twiddles.rs: compute_dht_twiddle", "src/lib.rs: Dht"]}
{"id": "C74", "title": "Integer number types", "statement": "The bound T: FftNum admits i8 to i128, and the constants of the tables are then cut off to integers. Butterfly1, Butterfly2, Butterfly4 and Radix4 of lengths 1, 2 and 4 compute the DHT of integers exactly (modulo a power of two if operations wrap). For every other length the DHT of some signal of zeros and ones is no list of integers, so no object can be right. Every composition still has coefficient 0 right, and the whole answer to an impulse at 0. DhtNaive of odd length up to 2^20 returns in coefficient k the sum of the entries i with n dividing ik, and RadersAlgorithm around any composition of the crate returns the sum of the entries followed by copies of the first entry: 1/(p-1) is cut off to 0.", "quantifier": "all compositions, all buffers, the integers and the integers modulo any number; cos 0 = 1 and sin 0 = 0 as the C standard requires; DhtNaive: all odd lengths up to 2^20 with cos and sin accurate to 2^-52", "why_tests_cant": "the tests use f32 and f64 only; the statements are about all lengths and compositions", "anchors": ["src/twiddles.rs: compute_dht_twiddle, compute_dft_twiddle_inverse", "src/scalar/raders_algorithm.rs: new", "src/scalar/dht_naive.rs: DhtNaive", "src/scalar/butterflies.rs: Butterfly1, Butterfly2, Butterfly4", "src/scalar/radix4.rs: new", "src/lib.rs: Dht"]}
{"id": "C75", "title": "The recursion of Radix4", "statement": "prepare_radix4 and prepare_radix4_reversed, the only recursive functions of the crate, call each other. On a stack with room for f activations they return what the model without a stack says if size divided by 4 (rounding down) fewer than f times gives base_len, and overflow the stack otherwise; if no number of divisions gives base_len, every stack overflows, and exactly then the model says that the call never returns. Radix4 of length 2^m needs max(1, (m-1)/2) activations and no fewer; on a 64-bit machine 31 are always enough, and the length 2^63 needs them.", "quantifier": "all sizes, strides, slices and stack sizes", "why_tests_cant": "a stack overflow shows only for sizes that were tried; that a recursion is endless cannot be observed", "anchors": ["src/scalar/radix4.rs: prepare_radix4, prepare_radix4_reversed, perform_dht_out_of_place"]}
{"id": "C76", "title": "The memory of inner objects is their own business", "statement": "The algorithms use inner objects only through their methods. If two sets of inner objects with memory answer alike as long as their memories are related in some way, then so do the algorithms around them: constructors and calls return the same values or fail alike, and leave related memories behind. An invariant of the memory that every method of the inner objects keeps is kept by every constructor and method around them, and so is every transitive bound on how the memory changes (a counter never goes back, a cell once written stays). Inner objects that compute the DHT only as long as their memory is in order, such as a cache, can therefore be used: the algorithms around them compute the DHT, and keep the memory in order, from every state that is in order.", "quantifier": "all nestings of the constructors, all inner objects with memory, all relations and invariants, all call sequences; for MixedRadix2xn to 6xn and SplitRadix the last part needs inner objects within the scratch limits of C21", "why_tests_cant": "no test has an inner object with memory; a statement about every object and relation cannot be sampled", "anchors": ["src/lib.rs: Dht", "src/scalar/mixed_radix.rs: MixedRadix", "src/scalar/radix2.rs: MixedRadix2xn", "src/scalar/radix3.rs: MixedRadix3xn", "src/scalar/radix4.rs: MixedRadix4xn", "src/scalar/radix5.rs: MixedRadix5xn", "src/scalar/radix6.rs: MixedRadix6xn", "src/scalar/split_radix.rs: SplitRadix", "src/scalar/raders_algorithm.rs: RadersAlgorithm", "src/macros.rs: boilerplate_dht"]}
{"id": "C77", "title": "What RadersAlgorithm takes from process of its inner object", "statement": "process is a provided method of the trait, which an implementation may override. The constructor of RadersAlgorithm calls it once, for the numbers cas(2 pi w^m / p) / (p - 1) with w a generator modulo the prime p; all else uses the two methods that take scratch. Around an inner object that is right in those two methods: if the call fails, the constructor fails in the same way; if it answers y, the algorithm computes the sum that defines the DHT of length p with the numbers cas(2 pi w^m / p) replaced by the DHT of y, and is right if and only if y is the DHT of the argument. So process that normalises (or scales by any factor but 1) and process that does nothing always give a wrong algorithm, though the constructor succeeds.", "quantifier": "all primes from 3 on below 2^32, all inner objects with memory that compute the DHT in the two methods with scratch, all answers of process", "why_tests_cant": "the tests use inner objects whose process is the provided one; a statement about every possible answer cannot be sampled", "anchors": ["src/scalar/raders_algorithm.rs: new", "src/scalar/raders_algorithm.rs: perform_dht_inplace, perform_dht_out_of_place", "src/lib.rs: Dht::process"]}
{"id": "C78", "title": "What the defect of Radix4 leaves intact, and what shows it", "statement": "Radix4 of length 2^m transforms exactly those signals correctly that a certain rearrangement leaves alone; the rearrangement fixes an index if and only if none of its last (m-5)/2 digits to the base 4 is 3. So the unit impulse at i is transformed correctly if and only if none of those digits is 3, and the share of impulses that are is (3/4)^((m-5)/2). The energy of the output is always right. From length 128 on, the coefficients that are right for every signal are those at 0, n/8, n/4, n/2, 5n/8 and 3n/4 and no others, and transforming the impulse at 1 twice does not give it back.", "quantifier": "all powers of two, all signals, real arithmetic", "why_tests_cant": "the tests stop at length 64; which signals and coefficients are affected, for every length, cannot be sampled", "anchors": ["src/scalar/radix4.rs: prepare_radix4, prepare_radix4_reversed, Radix4"]}
{"id": "C79", "title": "A composition is right only if all of its parts are", "statement": "Defects of inner objects do not cancel. Around inner objects that keep the trait contract, MixedRadix2xn to 6xn compute the DHT if and only if their inner object does, SplitRadix if and only if both do, and MixedRadix if and only if both do provided that the first coefficient of the one for the height is the sum of the signal, as it is for every composition of this crate; without that proviso two objects with all signs changed make a right whole. RadersAlgorithm is right also around the DHT with the other sign (cos - sin), and around the DHT whose output k is the coefficient of frequency u k with u prime to the length; but no composition of this crate makes the DHT in another order only, and around a composition RadersAlgorithm is right if and only if the composition is. So a composition computes the DHT if and only if it has no Radix4 of length 128 or more, and if it has one there is a signal for which process returns something else.", "quantifier": "all inner objects with the scratch limits of C21, all compositions of positive length; real arithmetic", "why_tests_cant": "that no choice of a wrong inner object gives a right result is a statement about all objects and all signals", "anchors": ["src/scalar/mixed_radix.rs: MixedRadix", "src/scalar/radix2.rs: MixedRadix2xn", "src/scalar/radix3.rs: MixedRadix3xn", "src/scalar/radix4.rs: MixedRadix4xn, Radix4", "src/scalar/radix5.rs: MixedRadix5xn", "src/scalar/radix6.rs: MixedRadix6xn", "src/scalar/split_radix.rs: SplitRadix", "src/scalar/raders_algorithm.rs: RadersAlgorithm"]}
{"id": "C80", "title": "Which compositions the rounded sqrt(1/2) affects", "statement": "MixedRadix and MixedRadix3xn, 5xn and 6xn multiply table entries by 0.5f32.sqrt(), which has 24 bits for every number type. A composition in which no table has an entry with that factor is, in every arithmetic, the same object whatever the factor is; in f64 it has the full accuracy of f64. In every other composition the error shows: in arithmetic that is exact but for the factor, a composition computes the DHT if and only if the factor does not occur in it and it has no Radix4 of length 128 or more, and otherwise there is a signal for which process returns something else. No second step and no use of the same object twice, as in RadersAlgorithm, makes up for it. Compositions with the factor in mixed-radix algorithms only never gain energy, and lose some of every signal whose entries all differ. For every power of two there is a composition of MixedRadix2xn without the factor; for every odd length that is not prime, other than 1 and 9, only compositions that use DhtNaive of that length are without it.", "quantifier": "all compositions of positive length; every rational value of the factor, the one of the code among them", "why_tests_cant": "the tests use f32 tolerances; that an error never cancels, in any composition, is a statement about all of them", "anchors": ["src/scalar/mixed_radix.rs: new", "src/scalar/radix3.rs: new", "src/scalar/radix5.rs: new", "src/scalar/radix6.rs: new", "src/scalar/radix2.rs: MixedRadix2xn", "src/scalar/radix4.rs: MixedRadix4xn", "src/scalar/split_radix.rs: SplitRadix", "src/scalar/raders_algorithm.rs: RadersAlgorithm"]}
{"id": "C81", "title": "A large Radix4 makes the result wrong by more than the whole result, also in f32 and f64", "statement": "Take a composition with a Radix4 of length 128 or more, not inside RadersAlgorithm. In real arithmetic there is a signal for which the Euclidean norm of the error is at least sqrt(2) times the norm of the DHT, whatever algorithms are around the Radix4. In f32 and f64 there is a signal of finite numbers, with norm between 1/2 and 2, for which process returns finite numbers and an error of at least 5/4 of the norm of the DHT. For Radix4 itself every impulse of height one at an index that C78 says it gets wrong is such a signal. So, while rounding errors are small (C46), a composition is accurate in f32 and f64 if and only if it has no Radix4 of length 128 or more: the relative error is at most 1/8 for all such signals, or at least 5/4 for one.", "quantifier": "all compositions of positive length with no large Radix4 inside RadersAlgorithm, of any depth, with the depth of C46 below 2^18 (f32) or 2^47 (f64) and its underflow and overflow numbers in range", "why_tests_cant": "the tests stop at length 64; that no surrounding algorithm and no rounding hides the defect is a statement about all compositions", "anchors": ["src/scalar/radix4.rs: Radix4, prepare_radix4, prepare_radix4_reversed", "src/scalar/mixed_radix.rs: MixedRadix", "src/scalar/split_radix.rs: SplitRadix", "src/scalar/radix2.rs: MixedRadix2xn", "src/scalar/radix3.rs: MixedRadix3xn", "src/scalar/radix5.rs: MixedRadix5xn", "src/scalar/radix6.rs: MixedRadix6xn"]}
{"id": "C82", "title": "With the rounded sqrt(1/2), f64 has the accuracy of f32", "statement": "Take a composition in which the rounded factor 0.5f32.sqrt() occurs, not inside RadersAlgorithm, and no Radix4 of length 128 or more. In arithmetic that is exact but for the factor there is a signal for which the result is too small by at least the ratio of the factor to sqrt(1/2), so the Euclidean norm of the error is at least 2^-26 times the norm of the DHT, whatever algorithms are around. In f64 there is a signal of finite numbers, with norm between 1/2 and 2, for which process returns finite numbers and an error of at least 2^-27 times the norm of the DHT: the roundings do not undo it. So, while rounding errors are small (C46), a composition is right to 2^-29 in f64, for all signals of such norm, if and only if the factor does not occur in it.", "quantifier": "all compositions of positive length, of any depth, with no Radix4 of length 128 or more and no such factor inside RadersAlgorithm, with the depth of C46 below 2^21 and its underflow and overflow numbers in range", "why_tests_cant": "the tests use f32 tolerances; that no surrounding algorithm and no rounding hides the error is a statement about all compositions", "anchors": ["src/scalar/mixed_radix.rs: new", "src/scalar/radix3.rs: new", "src/scalar/radix5.rs: new", "src/scalar/radix6.rs: new", "src/scalar/radix2.rs: MixedRadix2xn", "src/scalar/radix4.rs: MixedRadix4xn", "src/scalar/split_radix.rs: SplitRadix"]}
{"id": "C83", "title": "What a passed unit test says in f32 and f64", "statement": "The converse of C49. Let check_dht_algorithm accept an object, whatever it is, for a signal with entries of absolute value at most 10. Then the calls whose results it compares (three, and two more with dirty scratch where there is scratch) have returned finite numbers of the right length, and their average distance to the DHT in exact arithmetic is at most 0.1006 + 0.0000012 n (n + 5) in f32 and 0.1006 + 10^-14 n (n + 72) in f64: neither NaN, infinities, overflow nor rounding in the checker hides an error. If it accepts a Radix4 then the rearrangement of C78 changes the signal by little: the sum of the squared changes is at most n (0.1007 + the rounding errors of C49)^2. The unit test of Radix4 stops at length 64; at the next length, 128, at most one of 5^16 signals would pass if the entries are drawn independently from equally likely values of which at most a fifth is within 0.99 of any given one, such as multiples of 10 / 2^23 rounded to f32.", "quantifier": "all objects, all lengths with 20 n (n + 5) <= 1500000 (f32) or 20 n (n + 72) <= 8 10^14 (f64), all signals with entries of absolute value at most 10; all lists of equally likely entries as described", "why_tests_cant": "it is about what the tests themselves can and cannot miss", "anchors": ["src/test_utils.rs: check_dht_algorithm, compare_real_vectors, random_real_signal", "src/scalar/radix4.rs: Radix4, test_radix4_correct"]}
{"id": "C84", "title": "Most signals catch a wrong object", "statement": "The tests use one signal each; how many others would have caught a given error? Let an object compute linear sums with coefficients that are wrong by at least delta in r places, each to the left of right ones in a triangular pattern (r = 1: one wrong coefficient anywhere). If the entries of the signal are drawn independently from values of which at most one in q is within 0.2 n / delta of any given one then check_dht_algorithm accepts the object for at most one signal in q^r; in f32 the same with the explicit rounding errors of C83. A Radix4 test at any length from 128 to 2^20 would fail in f64 for all signals but at most one in 2^(n/12), and at length 256 in f32 for all but one in 1400.", "quantifier": "all lengths, all objects that compute sums (in f32 up to an error epsilon), all sets of sample values; Radix4 for all lengths 2^7 to 2^20 in f64", "why_tests_cant": "a statement about all the signals that the tests do not use", "anchors": ["src/test_utils.rs: check_dht_algorithm", "src/test_utils.rs: compare_real_vectors", "src/test_utils.rs: random_real_signal", "src/scalar/radix4.rs: tests"]}
{"id": "C85", "title": "Number types other than f32 and f64", "statement": "The crate is generic over the number type. In every binary floating-point format whose smallest numbers are at most its unit roundoff 2^-p, a composition has the accuracy of C46 with tables right to 68 units of f64 plus two of the format, and with the constant sqrt(1/2) right to one unit of f32 plus two of the format; in formats of at most 24 bits (half precision, bfloat16) to two units of the format. But a type wider than f64 gains nothing, because tables are computed in f64: in every format of 54 bits or more Butterfly8 returns, for the signal that is one at index 1, a second output which differs from the exact sqrt(2) by at least 2^-56, and in every format of 32 bits or more every composition in which the rounded factor 0.5f32.sqrt() occurs (not inside RadersAlgorithm) has a signal with an error of at least 2^-27 of the result, as in C82; a composition without it is right to the accuracy of the tables.", "quantifier": "all binary formats, of any precision and range; all compositions without a Radix4 of length 128 or more", "why_tests_cant": "the tests run with f32 and f64 only", "anchors": ["src/twiddles.rs: compute_dht_twiddle, compute_dft_twiddle_inverse, compute_dft_twiddle_forward", "src/scalar/butterflies.rs: Butterfly8", "src/scalar/mixed_radix.rs: new", "src/lib.rs: Dht<T: FftNum>"]}
{"id": "C86", "title": "The rounded sqrt(1/2) inside RadersAlgorithm does not cancel", "statement": "RadersAlgorithm uses its inner object three times, for the table and twice for each chunk, so an error of the inner object might cancel. The one of the constant 0.5f32.sqrt() does not: in arithmetic that is exact but for this constant, every composition of length n in which it occurs - inside a RadersAlgorithm or not, but not inside two nested ones - has a signal for which the error is at least 2^-27/n times the norm of the DHT, and the energy of the result is too small. More generally with any value r of the constant below sqrt(1/2) in absolute value the energy is too small by a part (1 - 2 r^2)/(2 n) or more. So a composition that is right to less than 2^-27/n for all signals does not use the constant, and then is right exactly.", "quantifier": "all compositions without a Radix4 of length 128 or more and without the constant inside two nested RadersAlgorithms, all values of the constant below sqrt(1/2)", "why_tests_cant": "the tests accept a mean absolute error below 0.1, which such an error does not reach", "anchors": ["src/scalar/raders_algorithm.rs: new, perform_dht_inplace, perform_dht_out_of_place", "src/scalar/mixed_radix.rs: new", "src/scalar/radix3.rs: new", "src/scalar/radix5.rs: new", "src/scalar/radix6.rs: new"]}
{"id": "C87", "title": "The functions of array_utils by themselves", "statement": "iter_chunks calls its closure once for each complete piece of chunk_size elements, from left to right, whatever the closure does (a panic ends it), stores what the closure made of each piece, leaves the rest alone, and returns Ok exactly if there is no rest. iter_chunks_zipped does the same with pairs of pieces of two buffers of any lengths. Its documented result (Ok if every element of both buffers was in a chunk, else Err) is right except in exactly one case: when the second buffer is longer and the first has no rest it returns Ok, because the second length comparison repeats the first. transpose_half_rev_out returns exactly if both slices have width * height elements (width at least 1); element c of input row r is then element r of output row c, counted from the end in rows after width / 2; the output is a rearrangement of the input. With width 0 and height above 0 its assertions let an out-of-bounds access pass; the crate never calls it so.", "quantifier": "all chunk sizes above 0, all buffers, all closures with captured state, also panicking ones; all widths and heights", "why_tests_cant": "the functions are tested only through the algorithms, which never call them with unequal lengths", "anchors": ["src/array_utils.rs: iter_chunks, iter_chunks_zipped, transpose_half_rev_out"]}
{"id": "C88", "title": "The tables take linear memory", "statement": "The tables of twiddle factors have stated lengths, never more than the capacity requested with Vec::with_capacity, so no table is reallocated while it is filled. However deep the nesting, the tables of an object of length n and of all objects inside it hold fewer than 5 n numbers together, and fewer than 4 n if n is even, provided no object is shorter than 2. With objects of length 1, which have tables but add nothing to the length, there is no bound.", "quantifier": "all lengths; all compositions that can be built and have no object shorter than 2, any depth", "why_tests_cant": "tests do not measure memory, and nest at most two levels", "anchors": ["src/scalar/dht_naive.rs: new", "src/scalar/mixed_radix.rs: new", "src/scalar/radix2.rs: new", "src/scalar/radix3.rs: new", "src/scalar/radix4.rs: MixedRadix4xn::new, Radix4::new", "src/scalar/radix5.rs: new", "src/scalar/radix6.rs: new", "src/scalar/split_radix.rs: new", "src/scalar/raders_algorithm.rs: new"]}
{"id": "C89", "title": "The functions of math_utils for all arguments", "statement": "modular_exponent(b, e, m) with m up to 2^32 returns 1 if e = 0, b^e mod m if e > 0, m > 0 and b < 2^32, and panics otherwise; so it is exponentiation mod m for every m but 1. distinct_prime_factors(n) does not end for n = 0 and for no other n below 16777259^2. primitive_root(n) for n below 2^32 overflows for 0, does not end for 1, returns None for 2 alone, and Some for every other n, whether prime or not: for an n that is not prime it returns the least g from 2 on with g^((n-1)/q) different from 1 mod n for all primes q that divide n - 1, which is at most the least prime factor of n. So None does not tell numbers that are not prime, and RadersAlgorithm::new depends on its primality assertion.", "quantifier": "all arguments in the stated ranges", "why_tests_cant": "the tests try primes and a few small numbers only", "anchors": ["src/math_utils.rs: modular_exponent, distinct_prime_factors, primitive_root", "src/scalar/raders_algorithm.rs: new"]}
{"id": "C90", "title": "The functions of twiddles by themselves", "statement": "In exact arithmetic, for every length n > 0 and every index i, also above n: compute_dht_twiddle is cas(2 pi i/n), compute_dft_twiddle_inverse is exp(2 pi sqrt(-1) i/n), which is the i-th power of a primitive n-th root of unity, and compute_dft_twiddle_forward is its inverse; index i k and length n k give the same as i and n. In every arithmetic the first is the sum of the components of the second. In every IEEE format the forward factor is the conjugate of the inverse one, bit for bit, zeros and NaN included, whatever the accuracy of cos and sin, if they are even and odd.", "quantifier": "all indices and lengths (a usize in the last sentence), all binary formats", "why_tests_cant": "the tests never look at a table; they compare transforms with a tolerance", "anchors": ["src/twiddles.rs: compute_dht_twiddle, compute_dft_twiddle_inverse, compute_dft_twiddle_forward"]}
{"id": "C91", "title": "The longest chain of operations", "statement": "The depth of the circuit of a call (the largest number of additions, subtractions and multiplications that have to wait for one another; changes of sign and operations on constants not counted) is at most the number of roundings that Plan.growth counts, for every composition. For a composition without RadersAlgorithm whose DhtNaive parts have length at most L, Radix4 included, it is at most (L+14) log2 n. DhtNaive has depth at most n+3 and at least n. An expression whose value is the sum of n entries has depth at least log2 n, whatever its form; so a composition that computes the DHT has an output of depth at least log2 n.", "quantifier": "all compositions, all lengths, any number of chunks, all number types (the lower bounds for compositions over the reals)", "why_tests_cant": "dependencies between operations do not show in results, and running times depend on the machine", "anchors": ["src/scalar/*.rs", "src/scalar/dht_naive.rs: DhtNaive", "src/lib.rs: Dht"]}
{"id": "C92", "title": "No circuit with small factors needs much less", "statement": "Every circuit of additions, subtractions, changes of sign and multiplications by factors of absolute value at most 2 that computes the DHT of length n has at least (n/2) log2 n operations (Morgenstern's argument with the determinant of the transform, which is n^(n/2) in absolute value). The factors in the circuits of the compositions that compute the DHT are at most 2 in absolute value, also those that RadersAlgorithm::new computes with its inner object, at any depth. So no composition has fewer than (n/2) log2 n operations, a composition without RadersAlgorithm whose DhtNaive parts have length at most L has at most 4L+16 times the number of operations of the best such circuit for its length, and RadersAlgorithm around such a composition at most 8L+32 times.", "quantifier": "all lengths; all circuits with factors up to 2, of whatever form; all compositions that can be built with Radix4 up to 64", "why_tests_cant": "a lower bound speaks about all circuits, and tests do not count operations", "anchors": ["src/scalar/*.rs", "src/scalar/raders_algorithm.rs: new", "src/lib.rs: Dht"]}
{"id": "C93", "title": "A small change of the signal cannot hide in the spectrum", "statement": "In exact arithmetic, if two signals of the length n of a composition that computes the DHT differ in s > 0 entries, the results of process differ in at least n/(2s) entries. A single changed entry, however small the change, shows in at least three quarters of the results, and in all of them if 8 does not divide n; three quarters is the best bound, since a change of entry n/8 shows in exactly 3n/4 results. Two different signals never have the same result.", "quantifier": "all compositions that can be built with Radix4 up to 64, all lengths, all pairs of signals", "why_tests_cant": "the tests compare one signal at a time with a reference and never two signals with each other", "anchors": ["src/scalar/*.rs", "src/lib.rs: Dht"]}
{"id": "C94", "title": "Compositions of different lengths agree on repeated and on spread signals", "statement": "In exact arithmetic, let a composition have length n and another one length e n. Given a signal of length n e times one after the other, process of the second returns e times the result of the first for the signal, with e - 1 zeros after every entry. Given the signal with e - 1 zeros after every entry, it returns the result of the first for the signal, e times one after the other.", "quantifier": "all pairs of compositions that can be built with Radix4 up to 64 and have lengths n and e n, all e > 0, all signals", "why_tests_cant": "the tests compare objects of the same length only", "anchors": ["src/scalar/*.rs", "src/lib.rs: Dht"]}
{"id": "C95", "title": "The Fourier coefficients and the power spectrum out of the results", "statement": "In exact arithmetic, with X the result of process for x and X[-k] entry (n-k) mod n: coefficient k of the forward DFT of x is (X[k]+X[-k])/2 + sqrt(-1) (X[-k]-X[k])/2, and the power spectrum of x is (X[k]^2+X[-k]^2)/2. The power spectrum stays the same if the signal is rotated. Its transform, by any composition of the same length, is n times the circular autocorrelation of x. The result is symmetric (entry k equal to entry n-k for all k > 0) just if the signal is.", "quantifier": "all compositions that can be built with Radix4 up to 64, all signals of their length, all rotations", "why_tests_cant": "the tests compare with a reference DHT and not with a Fourier transform; rotated signals are not tested", "anchors": ["src/scalar/*.rs", "src/lib.rs: Dht"]}
