{
 "claims": [
  {
   "property": "C01",
   "status": "proved",
   "theorems": [
    "RustDHT.C01_dhtNaive_dht"
   ],
   "note": "Exact real arithmetic, every n, every entry point."
  },
  {
   "property": "C02",
   "status": "proved",
   "theorems": [
    "RustDHT.C02_butterflies_dht"
   ],
   "note": ""
  },
  {
   "property": "C03",
   "status": "proved",
   "theorems": [
    "RustDHT.C03_mixedRadix_dht"
   ],
   "note": "For arbitrary inner objects that compute their DHT."
  },
  {
   "property": "C04",
   "status": "proved",
   "theorems": [
    "RustDHT.C04_mixedRadix2xn_dht"
   ],
   "note": ""
  },
  {
   "property": "C05",
   "status": "proved",
   "theorems": [
    "RustDHT.C05_mixedRadix3xn_dht"
   ],
   "note": ""
  },
  {
   "property": "C06",
   "status": "proved",
   "theorems": [
    "RustDHT.C06_mixedRadix4xn_dht"
   ],
   "note": ""
  },
  {
   "property": "C07",
   "status": "proved",
   "theorems": [
    "RustDHT.C07_mixedRadix5xn_dht"
   ],
   "note": ""
  },
  {
   "property": "C08",
   "status": "proved",
   "theorems": [
    "RustDHT.C08_mixedRadix6xn_dht"
   ],
   "note": ""
  },
  {
   "property": "C09",
   "status": "partial",
   "theorems": [
    "RustDHT.C09_radix4_dht_partial",
    "RustDHT.C09_radix4_refuted",
    "RustDHT.C09_radix4_permuted_partial"
   ],
   "note": "False of the code: Radix4 is wrong for every length 2^m with m >= 7 (C09_radix4_refuted). Proved: right for m <= 6, and for every m the result is the DHT of an explicitly permuted input."
  },
  {
   "property": "C10",
   "status": "proved",
   "theorems": [
    "RustDHT.C10_splitRadix_dht"
   ],
   "note": ""
  },
  {
   "property": "C11",
   "status": "proved",
   "theorems": [
    "RustDHT.C11_raders_dht"
   ],
   "note": "Odd primes p < 2^32 (so that u64 arithmetic does not overflow)."
  },
  {
   "property": "C12",
   "status": "proved",
   "theorems": [
    "RustDHT.C12_plan_dht"
   ],
   "note": "Every composition of constructors that builds, with Radix4 leaves of length at most 64."
  },
  {
   "property": "C13",
   "status": "partial",
   "theorems": [
    "RustDHT.C13_inplace_panics_partial",
    "RustDHT.C13_butterfly1_refuted",
    "RustDHT.C13_user_inner",
    "RustDHT.C13_length_zero"
   ],
   "note": "False of Butterfly1, which accepts empty and ragged buffers (C13_butterfly1_refuted). Proved for all other compositions, and for every combinator around user-written inner objects that accept valid calls (C13_user_inner); length 0 in C13_length_zero."
  },
  {
   "property": "C14",
   "status": "partial",
   "theorems": [
    "RustDHT.C14_oop_panics_partial",
    "RustDHT.C14_user_inner",
    "RustDHT.C14_butterfly1_refuted"
   ],
   "note": "False of Butterfly1 (C14_butterfly1_refuted). Proved for all other compositions, and for every combinator around user-written inner objects that accept valid calls (C14_user_inner)."
  },
  {
   "property": "C15",
   "status": "proved",
   "theorems": [
    "RustDHT.C15_chunks_independent"
   ],
   "note": "For every element type and any arithmetic (no laws assumed)."
  },
  {
   "property": "C16",
   "status": "proved",
   "theorems": [
    "RustDHT.C16_stale_contents"
   ],
   "note": "For every element type and any arithmetic."
  },
  {
   "property": "C17",
   "status": "proved",
   "theorems": [
    "RustDHT.C17_entry_points_agree"
   ],
   "note": "For every element type and any arithmetic."
  },
  {
   "property": "C18",
   "status": "proved",
   "theorems": [
    "RustDHT.C18_scratch_reuse"
   ],
   "note": "For every element type and any arithmetic; any list of calls."
  },
  {
   "property": "C19",
   "status": "proved",
   "theorems": [
    "RustDHT.C19_surplus_scratch"
   ],
   "note": "For every element type and any arithmetic."
  },
  {
   "property": "C20",
   "status": "proved",
   "theorems": [
    "RustDHT.C20_mixedRadix_scratch",
    "RustDHT.C20_raders_scratch",
    "RustDHT.C20_raders_scratch_of_new"
   ],
   "note": ""
  },
  {
   "property": "C21",
   "status": "partial",
   "theorems": [
    "RustDHT.C21_mixedRadix2xn_partial",
    "RustDHT.C21_mixedRadix3xn_partial",
    "RustDHT.C21_mixedRadix4xn_partial",
    "RustDHT.C21_mixedRadix5xn_partial",
    "RustDHT.C21_mixedRadix6xn_partial",
    "RustDHT.C21_splitRadix_partial",
    "RustDHT.C21_refuted"
   ],
   "note": "False of the code (C21_refuted). Proved: the exact condition on the inner scratch lengths (iff) for each constructor."
  },
  {
   "property": "C22",
   "status": "proved",
   "theorems": [
    "RustDHT.C22_no_undefined_behaviour",
    "RustDHT.C22_slices_keep_length",
    "RustDHT.C22_unchecked",
    "RustDHT.C22_unchecked_raw"
   ],
   "note": "For arbitrary inner objects that may return garbage, panic or diverge, as long as they preserve slice lengths (which safe Rust enforces)."
  },
  {
   "property": "C23",
   "status": "proved",
   "theorems": [
    "RustDHT.C23_terminates"
   ],
   "note": ""
  },
  {
   "property": "C24",
   "status": "proved",
   "theorems": [
    "RustDHT.C24_reported_lengths"
   ],
   "note": ""
  },
  {
   "property": "C25",
   "status": "partial",
   "theorems": [
    "RustDHT.C25_radix4_new",
    "RustDHT.C25_splitRadix_new",
    "RustDHT.C25_raders_new_partial",
    "RustDHT.C25_raders_large",
    "RustDHT.C25_raders_refuted"
   ],
   "note": "Radix4 and SplitRadix proved as stated. False of RadersAlgorithm for the prime 2 (C25_raders_refuted); proved for every other size below 2^32."
  },
  {
   "property": "C26",
   "status": "proved",
   "theorems": [
    "RustDHT.C26_primitive_root",
    "RustDHT.C26_distinct_prime_factors",
    "RustDHT.C26_distinct_prime_factors_fails",
    "RustDHT.C26_modular_exponent",
    "RustDHT.C26_root_inverse",
    "RustDHT.C26_overflow"
   ],
   "note": "Includes absence of u64 overflow below 2^32 and a witness of overflow above, and the sharp bound for the f32 square root in the trial division."
  },
  {
   "property": "C27",
   "status": "proved",
   "theorems": [
    "RustDHT.C27_self_inverse"
   ],
   "note": ""
  },
  {
   "property": "C28",
   "status": "proved",
   "theorems": [
    "RustDHT.C28_linear"
   ],
   "note": ""
  },
  {
   "property": "C29",
   "status": "proved",
   "theorems": [
    "RustDHT.C29_parseval"
   ],
   "note": ""
  },
  {
   "property": "C30",
   "status": "proved",
   "theorems": [
    "RustDHT.C30_double_reversal"
   ],
   "note": ""
  },
  {
   "property": "C31",
   "status": "proved",
   "theorems": [
    "RustDHT.C31_reversal"
   ],
   "note": ""
  },
  {
   "property": "C32",
   "status": "proved",
   "theorems": [
    "RustDHT.C32_interchangeable"
   ],
   "note": ""
  },
  {
   "property": "C33",
   "status": "proved",
   "theorems": [
    "RustDHT.C33_dft"
   ],
   "note": ""
  },
  {
   "property": "C34",
   "status": "partial",
   "theorems": [
    "RustDHT.C34_mixedRadix_partial",
    "RustDHT.C34_mixedRadix3xn_partial",
    "RustDHT.C34_mixedRadix5xn_partial",
    "RustDHT.C34_mixedRadix6xn_partial",
    "RustDHT.C34_error_bound_partial",
    "RustDHT.C34_mixedRadix_refuted",
    "RustDHT.C34_mixedRadix3xn_refuted",
    "RustDHT.C34_mixedRadix5xn_refuted",
    "RustDHT.C34_mixedRadix6xn_refuted",
    "RustDHT.C34_f64_refuted"
   ],
   "note": "False of the code: MixedRadix, MixedRadix3xn, 5xn and 6xn are wrong by more than 2^-26 on a unit impulse in arithmetic that is exact but for the f32 constant (C34_*_refuted, for every inner length from 2 on). Proved: exactly what they compute with any value of the constant, and that one step makes an error of at most 2^-25*sqrt2*sum|x|."
  },
  {
   "property": "C35",
   "status": "proved",
   "theorems": [
    "RustDHT.C35_naive_rounding"
   ],
   "note": "f32/f64 enter through FloatModel, the standard axioms of floating point, which C48 proves of IEEE arithmetic."
  },
  {
   "property": "C36",
   "status": "proved",
   "theorems": [
    "RustDHT.C36_input_preserved",
    "RustDHT.C36_radix4_input_preserved",
    "RustDHT.C36_mixedRadixNxn_input_preserved",
    "RustDHT.C36_compositions_input_preserved",
    "RustDHT.C36_splitRadix_overwrites"
   ],
   "note": ""
  },
  {
   "property": "C37",
   "status": "proved",
   "theorems": [
    "RustDHT.C37_data_oblivious"
   ],
   "note": "No law of the arithmetic is used."
  },
  {
   "property": "C38",
   "status": "proved",
   "theorems": [
    "RustDHT.C38_arith_map",
    "RustDHT.C38_commutes",
    "RustDHT.C38_odd"
   ],
   "note": "General form (a map between two arithmetics), the special case of one arithmetic, and negation."
  },
  {
   "property": "C39",
   "status": "proved",
   "theorems": [
    "RustDHT.C39_linear_any_tables"
   ],
   "note": "Any commutative ring, any table values."
  },
  {
   "property": "C40",
   "status": "proved",
   "theorems": [
    "RustDHT.C40_plan_rounding",
    "RustDHT.C40_plan_dht"
   ],
   "note": "C40_plan_rounding compares with the same composition in exact arithmetic, C40_plan_dht with the DHT. Floating point enters through FloatModel."
  },
  {
   "property": "C41",
   "status": "proved",
   "theorems": [
    "RustDHT.C41_plan_growth",
    "RustDHT.C41_plan_dht",
    "RustDHT.C41_error_le"
   ],
   "note": "Bounds by recursion on the composition (Plan.growth)."
  },
  {
   "property": "C42",
   "status": "proved",
   "theorems": [
    "RustDHT.C42_check_accepts",
    "RustDHT.C42_plan_passes"
   ],
   "note": ""
  },
  {
   "property": "C43",
   "status": "partial",
   "theorems": [
    "RustDHT.C43_check_implies_partial",
    "RustDHT.C43_check_all_signals_partial",
    "RustDHT.C43_refuted",
    "RustDHT.C43_radix4_detected"
   ],
   "note": "False of the checker: output already holds the expected values when process_outofplace_with_scratch is called, so an object that writes nothing out of place is accepted for every signal (C43_refuted). Proved: what a single passed check says about each entry point, and that an object that scales with its input and is accepted for every signal computes the DHT through process exactly. Consequence: the checker rejects Radix4 of every length from 128 on for some signal."
  },
  {
   "property": "C44",
   "status": "proved",
   "theorems": [
    "RustDHT.C44_bigScratch_accepts",
    "RustDHT.C44_noop_accepts",
    "RustDHT.C44_mixedRadix_bigScratch",
    "RustDHT.C44_raders_bigScratch",
    "RustDHT.C44_noop_benches"
   ],
   "note": ""
  },
  {
   "property": "C45",
   "status": "proved",
   "theorems": [
    "RustDHT.C45_factories_exact",
    "RustDHT.C45_factories_other",
    "RustDHT.C45_makeSplitradix",
    "RustDHT.C45_splitradix_bench_assertion"
   ],
   "note": ""
  },
  {
   "property": "C46",
   "status": "proved",
   "theorems": [
    "RustDHT.C46_plan_stability",
    "RustDHT.C46_plan_dht",
    "RustDHT.C46_relative_error"
   ],
   "note": "Numbers by recursion on the composition (Plan.stability in Spec/Stability.lean); C46_plan_stability compares with the same composition in exact arithmetic, C46_plan_dht and C46_relative_error with the DHT."
  },
  {
   "property": "C47",
   "status": "proved",
   "theorems": [
    "RustDHT.C47_depth_log",
    "RustDHT.C47_error_log"
   ],
   "note": "C47_depth_log bounds the numbers, C47_error_log the error."
  },
  {
   "property": "C48",
   "status": "proved",
   "theorems": [
    "RustDHT.C48_round_nearest",
    "RustDHT.C48_convert_self",
    "RustDHT.C48_f32",
    "RustDHT.C48_f64",
    "RustDHT.C48_plan_f32",
    "RustDHT.C48_plan_f64"
   ],
   "note": "IEEE arithmetic is a bit-level model (Spec/Ieee.lean: sign, magnitude, infinities, NaN, ties to even). cos and sin of the platform are a parameter with an accuracy hypothesis; lengths from 2^64 on, which no usize holds, use an idealised extension."
  },
  {
   "property": "C49",
   "status": "proved",
   "theorems": [
    "RustDHT.C49_check_f32",
    "RustDHT.C49_check_f64",
    "RustDHT.C49_unit_tests_f32",
    "RustDHT.C49_unit_tests_f64"
   ],
   "note": "C49_check_* for any composition under an explicit condition, C49_unit_tests_* for the list of objects tested by the crate."
  },
  {
   "property": "C50",
   "status": "proved",
   "theorems": [
    "RustDHT.C50_no_overflow",
    "RustDHT.C50_builds_agree",
    "RustDHT.C50_fits_of_short",
    "RustDHT.C50_computes_dht",
    "RustDHT.C50_mixedRadix2xn",
    "RustDHT.C50_mixedRadix3xn",
    "RustDHT.C50_mixedRadix4xn",
    "RustDHT.C50_mixedRadix5xn",
    "RustDHT.C50_mixedRadix6xn",
    "RustDHT.C50_mixedRadix",
    "RustDHT.C50_splitRadix",
    "RustDHT.C50_raders",
    "RustDHT.C50_bound_is_tight"
   ],
   "note": "Machine.build is a second copy of the model with machine integers (Model/Machine); Plan.Fits states the bounds."
  },
  {
   "property": "C51",
   "status": "proved",
   "theorems": [
    "RustDHT.C51_debug_panics",
    "RustDHT.C51_release_root",
    "RustDHT.C51_release_root_wrong",
    "RustDHT.C51_release_raders_wrong",
    "RustDHT.C51_release_raders_iff",
    "RustDHT.C51_release_raders_large"
   ],
   "note": "Proved as a statement about what the code does; it is a finding (DESIGN.md, 7)."
  },
  {
   "property": "C52",
   "status": "proved",
   "theorems": [
    "RustDHT.C52_no_undefined_behaviour",
    "RustDHT.C52_slices_keep_length",
    "RustDHT.C52_wrapped_length",
    "RustDHT.C52_assertion_is_not_enough"
   ],
   "note": "Allocation is modelled for the twiddle tables, with the smallest element size (f32)."
  },
  {
   "property": "C53",
   "status": "proved",
   "theorems": [
    "RustDHT.C53_doc_examples",
    "RustDHT.C53_doc_examples_f32",
    "RustDHT.C53_matches_exact",
    "RustDHT.C53_reversal_exact",
    "RustDHT.C53_double_reversal_exact",
    "RustDHT.C53_empty_panics",
    "RustDHT.C53_matches_f32",
    "RustDHT.C53_reversal_f32",
    "RustDHT.C53_double_reversal_f32",
    "RustDHT.C53_inner_scratch_pair",
    "RustDHT.C53_inner_scratch"
   ],
   "note": "The reference transform of test_matches_dht computes in f32 throughout, so cos and sin of f32 are a second parameter (MathLib32.Accurate: error at most 2^-22 for arguments up to 256)."
  },
  {
   "property": "C54",
   "status": "proved",
   "theorems": [
    "RustDHT.C54_root_exists",
    "RustDHT.C54_release",
    "RustDHT.C54_debug",
    "RustDHT.C54_overflows",
    "RustDHT.C54_fails",
    "RustDHT.C54_works"
   ],
   "note": "Proved as a statement about what the code does; it is a finding (DESIGN.md, 9). The middle case of the debug build needs a least primitive root above 8; it is included because no bound on least primitive roots is proved."
  },
  {
   "property": "C55",
   "status": "proved",
   "theorems": [
    "RustDHT.C55_programs",
    "RustDHT.C55_tree_contiguous",
    "RustDHT.C55_tree_butterflies",
    "RustDHT.C55_stacked_arrays",
    "RustDHT.C55_stacked_in_place",
    "RustDHT.C55_stacked_out_of_place",
    "RustDHT.C55_stacked_out_of_place_ub"
   ],
   "note": "Proved as a statement about what the code does; it is a finding for Stacked Borrows (DESIGN.md, 10). The butterflies are programs with explicit loads and stores (Model/RawSlices.lean); the rules are stated for one location (Spec/Aliasing.lean), without protectors and interior mutability."
  },
  {
   "property": "C56",
   "status": "proved",
   "theorems": [
    "RustDHT.C56_no_undefined_behaviour",
    "RustDHT.C56_slices_keep_length",
    "RustDHT.C56_terminates",
    "RustDHT.C56_other_threads",
    "RustDHT.C56_memory_does_not_show",
    "RustDHT.C56_mixedRadix_dht",
    "RustDHT.C56_mixedRadix2xn_dht",
    "RustDHT.C56_mixedRadix3xn_dht",
    "RustDHT.C56_mixedRadix4xn_dht",
    "RustDHT.C56_mixedRadix5xn_dht",
    "RustDHT.C56_mixedRadix6xn_dht",
    "RustDHT.C56_splitRadix_dht",
    "RustDHT.C56_raders_dht"
   ],
   "note": "Model/Stateful.lean is a second copy of the combinators, in which each call of an inner object changes a memory; it reads lengths where the source does. Calls back from an object into the crate count as one step."
  },
  {
   "property": "C57",
   "status": "proved",
   "theorems": [
    "RustDHT.C57_mixedRadix_calls",
    "RustDHT.C57_mixedRadix2xn_calls",
    "RustDHT.C57_mixedRadix3xn_calls",
    "RustDHT.C57_mixedRadix4xn_calls",
    "RustDHT.C57_mixedRadix5xn_calls",
    "RustDHT.C57_mixedRadix6xn_calls",
    "RustDHT.C57_splitRadix_calls",
    "RustDHT.C57_raders_calls"
   ],
   "note": "Stated for the stateful combinators of Model/Stateful.lean: the log is part of the memory of the inner objects."
  },
  {
   "property": "C58",
   "status": "proved",
   "theorems": [
    "RustDHT.C58_bench_returns_iff",
    "RustDHT.C58_all_benches_return",
    "RustDHT.C58_benches_work_on_zeros"
   ],
   "note": "benches/bench_dht.rs; Bencher::iter is a loop whose number of runs is an argument. What is measured is not modelled."
  },
  {
   "property": "C59",
   "status": "proved",
   "theorems": [
    "RustDHT.C59_poison_flows",
    "RustDHT.C59_poison_dht",
    "RustDHT.C59_poison_everywhere",
    "RustDHT.C59_poison_radix4",
    "RustDHT.C59_nan",
    "RustDHT.C59_finite",
    "RustDHT.C59_nonfinite"
   ],
   "note": "Parametricity: relate the exact run on two inputs that differ in element j with the run on the bad input. NaN payloads and signalling NaN are not modelled."
  },
  {
   "property": "C60",
   "status": "proved",
   "theorems": [
    "RustDHT.C60_rotation",
    "RustDHT.C60_convolution",
    "RustDHT.C60_product"
   ],
   "note": "Consequences of C12 and of the definition of the DHT; the spec (Spec/Conv.lean) is the textbook rule."
  },
  {
   "property": "C61",
   "status": "proved",
   "theorems": [
    "RustDHT.C61_zero_signs",
    "RustDHT.C61_odd",
    "RustDHT.C61_signed_zero"
   ],
   "note": "Instance of C38: Flt F with the two zeros identified is an arithmetic in which negation commutes with everything."
  },
  {
   "property": "C62",
   "status": "proved",
   "theorems": [
    "RustDHT.C62_repaired_dht",
    "RustDHT.C62_unchanged_below_128",
    "RustDHT.C62_plan",
    "RustDHT.C62_rearranged",
    "RustDHT.C62_workaround",
    "RustDHT.C62_stable"
   ],
   "note": "About a patched copy of radix4.rs (Model/Radix4Repaired.lean), not about code of the crate; it shows that the diagnosis of C09 is complete."
  },
  {
   "property": "C63",
   "status": "proved",
   "theorems": [
    "RustDHT.C63_agrees",
    "RustDHT.C63_left",
    "RustDHT.C63_plan",
    "RustDHT.C63_butterfly1",
    "RustDHT.C63_retry"
   ],
   "note": "Model/Unwind.lean models the macros again with the slices kept when a check of theirs fails; C63_agrees ties it to the model used elsewhere. A panic inside the transform of a chunk (possible only for objects that break the contract) is not followed."
  },
  {
   "property": "C64",
   "status": "proved",
   "theorems": [
    "RustDHT.C64_energy",
    "RustDHT.C64_agreement",
    "RustDHT.C64_round_trip",
    "RustDHT.C64_backward",
    "RustDHT.C64_round_trip_f32"
   ],
   "note": "Consequences of C46 and of the Parseval and inversion laws; the bounds are named in Spec/RoundTrip.lean."
  },
  {
   "property": "C65",
   "status": "proved",
   "theorems": [
    "RustDHT.C65_circuit",
    "RustDHT.C65_size",
    "RustDHT.C65_fast",
    "RustDHT.C65_prime",
    "RustDHT.C65_naive_quadratic",
    "RustDHT.C65_nested",
    "RustDHT.C65_nested_all"
   ],
   "note": "Counts additions, subtractions, multiplications and negations of input-dependent values, equal subexpressions once. Loads, stores, index arithmetic and the work of construction are not counted."
  },
  {
   "property": "C66",
   "status": "proved",
   "theorems": [
    "RustDHT.C66_without_naive",
    "RustDHT.C66_without_raders",
    "RustDHT.C66_fast",
    "RustDHT.C66_faster",
    "RustDHT.C66_faster_from_128",
    "RustDHT.C66_any"
   ],
   "note": "In the model with unbounded lengths; the factors below 2^32 come from primitive_root, whose products overflow above (C51)."
  },
  {
   "property": "C67",
   "status": "proved",
   "theorems": [
    "RustDHT.C67_linear",
    "RustDHT.C67_scale",
    "RustDHT.C67_zero",
    "RustDHT.C67_zero_exact"
   ],
   "note": "The circuit of the call (C65) is the list of expressions that the same composition returns when it is run on expressions; the conditions on single operations of C67_scale are stated on that circuit."
  },
  {
   "property": "C68",
   "status": "proved",
   "theorems": [
    "RustDHT.C68_builds",
    "RustDHT.C68_raders_new",
    "RustDHT.C68_accepts",
    "RustDHT.C68_inplace_panics",
    "RustDHT.C68_oop_panics",
    "RustDHT.C68_same",
    "RustDHT.C68_dht",
    "RustDHT.C68_stable",
    "RustDHT.C68_relative_error",
    "RustDHT.C68_constant_f64",
    "RustDHT.C68_plan_f64",
    "RustDHT.C68_checker",
    "RustDHT.C68_checker_accepts",
    "RustDHT.C68_checker_detects"
   ],
   "note": "About patched code (Model/Patched.lean, Model/PatchedFloat.lean, Model/PatchedCheck.lean), not about the crate as it is. The theorems about rounding leave out RadersAlgorithm of length 2, which the crate cannot construct. The bound 2^32 on RadersAlgorithm (finding 7) is not patched."
  },
  {
   "property": "C69",
   "status": "proved",
   "theorems": [
    "RustDHT.C69_sum",
    "RustDHT.C69_around",
    "RustDHT.C69_exact",
    "RustDHT.C69_ieee_exact",
    "RustDHT.C69_ieee_error"
   ],
   "note": "AddsUp (Spec/Sums.lean) is the set of values obtainable by adding up the given numbers in some order. The bound for IEEE formats assumes of the library only cos and sin of zero (MathLib.AtZero)."
  },
  {
   "property": "C70",
   "status": "proved",
   "theorems": [
    "RustDHT.C70_exact",
    "RustDHT.C70_round_trip",
    "RustDHT.C70_only"
   ],
   "note": "Nothing is assumed of cos and sin: no constant takes part."
  },
  {
   "property": "C71",
   "status": "proved",
   "theorems": [
    "RustDHT.C71_plans",
    "RustDHT.C71_mixedRadix",
    "RustDHT.C71_mixedRadixNxn",
    "RustDHT.C71_splitRadix",
    "RustDHT.C71_raders",
    "RustDHT.C71_relative_error"
   ],
   "note": "StableDht (Spec/StableDht.lean) is the hypothesis on inner objects and the conclusion. Around Radix4 of length 128 and more nothing is said: those objects are not close to the DHT."
  },
  {
   "property": "C72",
   "status": "proved",
   "theorems": [
    "RustDHT.C72_shows",
    "RustDHT.C72_finite",
    "RustDHT.C72_naive",
    "RustDHT.C72_butterfly8"
   ],
   "note": "All NaNs are one value in the model (Spec/Ieee.lean), so nothing is said about payloads and signs of NaNs."
  },
  {
   "property": "C73",
   "status": "proved",
   "theorems": [
    "RustDHT.C73_flat",
    "RustDHT.C73_around",
    "RustDHT.C73_ring",
    "RustDHT.C73_exact",
    "RustDHT.C73_ieee",
    "RustDHT.C73_ieee_exact"
   ],
   "note": "Absorbs (Spec/Impulse.lean) lists the laws of zero that are used. The magnitude condition of C73_ieee_exact only excludes NaN in the tables that Rader computes and overflow."
  },
  {
   "property": "C74",
   "status": "proved",
   "theorems": [
    "RustDHT.C74_exact",
    "RustDHT.C74_only",
    "RustDHT.C74_first",
    "RustDHT.C74_naive",
    "RustDHT.C74_raders"
   ],
   "note": "from_f64 of an integer type (num_traits) is modelled as dropping the fractional part (Spec/Integers.lean). Overflow panics of debug builds are not modelled: R is the integers where nothing overflows, the integers modulo a power of two in release builds."
  },
  {
   "property": "C75",
   "status": "proved",
   "theorems": [
    "RustDHT.C75_depth",
    "RustDHT.C75_endless",
    "RustDHT.C75_radix4",
    "RustDHT.C75_at_most_31"
   ],
   "note": "Model/Stack.lean is the recursion of radix4.rs with an explicit limit on nested activations and without the divergence case of Model/Radix4.lean. Bytes of stack are not modelled."
  },
  {
   "property": "C76",
   "status": "proved",
   "theorems": [
    "RustDHT.C76_same_answers",
    "RustDHT.C76_invariant",
    "RustDHT.C76_guarantee",
    "RustDHT.C76_mixedRadix_dht",
    "RustDHT.C76_mixedRadix2xn_dht",
    "RustDHT.C76_mixedRadix3xn_dht",
    "RustDHT.C76_mixedRadix4xn_dht",
    "RustDHT.C76_mixedRadix5xn_dht",
    "RustDHT.C76_mixedRadix6xn_dht",
    "RustDHT.C76_splitRadix_dht",
    "RustDHT.C76_raders_dht"
   ],
   "note": "Model as in C56. Methods are atomic: what other threads do happens between calls of inner objects (LiveDht.amid in C56)."
  },
  {
   "property": "C77",
   "status": "proved",
   "theorems": [
    "RustDHT.C77_process",
    "RustDHT.C77_scaled",
    "RustDHT.C77_identity"
   ],
   "note": "Model as in C56 (LiveDht has process as a field of its own). Over the reals: no rounding."
  },
  {
   "property": "C78",
   "status": "proved",
   "theorems": [
    "RustDHT.C78_signals",
    "RustDHT.C78_impulses",
    "RustDHT.C78_count",
    "RustDHT.C78_energy",
    "RustDHT.C78_coefficients",
    "RustDHT.C78_round_trip"
   ],
   "note": "Says exactly how far C09 is from holding. (m-5)/2 rounds down and is 0 below 7."
  },
  {
   "property": "C79",
   "status": "proved",
   "theorems": [
    "RustDHT.C79_columns",
    "RustDHT.C79_splitRadix",
    "RustDHT.C79_mixedRadix",
    "RustDHT.C79_raders_composition",
    "RustDHT.C79_raders",
    "RustDHT.C79_plan",
    "RustDHT.C79_witness",
    "RustDHT.C79_raders_inner",
    "RustDHT.C79_order",
    "RustDHT.C79_two_wrongs",
    "RustDHT.C79_raders_flipped",
    "RustDHT.C79_raders_reordered"
   ],
   "note": "The converse of C12."
  },
  {
   "property": "C80",
   "status": "proved",
   "theorems": [
    "RustDHT.C80_unaffected",
    "RustDHT.C80_iff",
    "RustDHT.C80_rounded",
    "RustDHT.C80_iff_real",
    "RustDHT.C80_witness",
    "RustDHT.C80_energy",
    "RustDHT.C80_mixedRadix",
    "RustDHT.C80_f64",
    "RustDHT.C80_powers",
    "RustDHT.C80_odd"
   ],
   "note": "RootFree, RootMixed and RadersKnown (Spec/RootFree.lean) say where the factor occurs. For real values of the factor that are not rational C80_iff_real has RadersKnown as a hypothesis; the value of the code is rational."
  },
  {
   "property": "C81",
   "status": "proved",
   "theorems": [
    "RustDHT.C81_exact",
    "RustDHT.C81_exact_impulse",
    "RustDHT.C81_float",
    "RustDHT.C81_dichotomy",
    "RustDHT.C81_impulse",
    "RustDHT.C81_f32",
    "RustDHT.C81_f32_wrong",
    "RustDHT.C81_f64",
    "RustDHT.C81_f64_wrong"
   ],
   "note": "Compositions with a Radix4 of length 128 or more inside RadersAlgorithm are left out (RadersExact); C79 says that they are wrong, not by how much. MathLib.Accurate as in C48."
  },
  {
   "property": "C82",
   "status": "proved",
   "theorems": [
    "RustDHT.C82_exact",
    "RustDHT.C82_float",
    "RustDHT.C82_f64_wrong",
    "RustDHT.C82_f64"
   ],
   "note": "RadersFree (Spec/RootFree.lean) leaves out compositions with the factor inside RadersAlgorithm; C80 says that they are wrong, C86 by how much at least in exact arithmetic. MathLib.Accurate as in C48."
  },
  {
   "property": "C83",
   "status": "proved",
   "theorems": [
    "RustDHT.C83_passed_f32",
    "RustDHT.C83_passed_f64",
    "RustDHT.C83_caught_f32",
    "RustDHT.C83_radix4_f32",
    "RustDHT.C83_radix4_f64",
    "RustDHT.C83_next_length",
    "RustDHT.C83_next_length_random"
   ],
   "note": "absError is the sum of absolute differences. As in C49 the out-of-place call gets an output slice that holds the expected result already (Findings, item 8), so for it the statement is about that call only. rand is not modelled; the seed of the tests is fixed, so the share of signals says nothing about the one signal that would be used. MathLib.Accurate as in C48."
  },
  {
   "property": "C84",
   "status": "proved",
   "theorems": [
    "RustDHT.C84_wrong_coefficients",
    "RustDHT.C84_wrong_coefficients_f32",
    "RustDHT.C84_radix4_f64",
    "RustDHT.C84_radix4_f32"
   ],
   "note": "Counting, not measure: the values may be any finite set, each equally likely. rand is not modelled; the seed of the tests is fixed, so a share of signals says nothing about the one signal used. MathLib.Accurate as in C48."
  },
  {
   "property": "C85",
   "status": "proved",
   "theorems": [
    "RustDHT.C85_any_format",
    "RustDHT.C85_narrow_format",
    "RustDHT.C85_plan",
    "RustDHT.C85_plan_f16",
    "RustDHT.C85_wide_no_gain",
    "RustDHT.C85_unaffected",
    "RustDHT.C85_wide_wrong"
   ],
   "note": "A format is given by precision and exponent range (Spec/Ieee.lean); that a Rust type of such a format converts from f64 and f32 by rounding is assumed, as for f32 and f64. MathLib.Accurate as in C48. In half precision the worst-case bounds of C46 say something for short lengths only."
  },
  {
   "property": "C86",
   "status": "proved",
   "theorems": [
    "RustDHT.C86_loss",
    "RustDHT.C86_exact",
    "RustDHT.C86_accuracy"
   ],
   "note": "Arithmetic is exact but for the constant, as in C80; in floating point see C82 for compositions without the factor inside RadersAlgorithm. RadersOnce (Spec/RadersOnce.lean) leaves out the factor inside two nested RadersAlgorithms; C80 says that those are wrong, not by how much."
  },
  {
   "property": "C87",
   "status": "proved",
   "theorems": [
    "RustDHT.C87_pieces",
    "RustDHT.C87_iter_chunks",
    "RustDHT.C87_iter_chunks_zipped",
    "RustDHT.C87_zipped_promise",
    "RustDHT.C87_transpose",
    "RustDHT.C87_transpose_no_columns"
   ],
   "note": "chunk_size 0 spins for ever (iter_chunks is not called so; Props/Safety.lean has the example); C87_zipped_promise gives the exact case in which the comment in the code is wrong."
  },
  {
   "property": "C88",
   "status": "proved",
   "theorems": [
    "RustDHT.C88_capacities",
    "RustDHT.C88_raders",
    "RustDHT.C88_linear",
    "RustDHT.C88_short_objects"
   ],
   "note": "The five or fewer constants that a butterfly keeps are not counted. Plan.memory counts the lists that the constructors of the model make."
  },
  {
   "property": "C89",
   "status": "proved",
   "theorems": [
    "RustDHT.C89_modular_exponent",
    "RustDHT.C89_modulus_one",
    "RustDHT.C89_factors_end",
    "RustDHT.C89_primitive_root_composite",
    "RustDHT.C89_primitive_root_all"
   ],
   "note": "64-bit integers with the overflow checks of a debug build; wrapping is in C51 and C54. The crate calls the functions only with arguments covered by C26."
  },
  {
   "property": "C90",
   "status": "proved",
   "theorems": [
    "RustDHT.C90_values",
    "RustDHT.C90_roots_of_unity",
    "RustDHT.C90_sum",
    "RustDHT.C90_conjugate"
   ],
   "note": "MathLib.Symmetric is assumed for the last sentence only; the error of the values in floating point is in C48 and C85."
  },
  {
   "property": "C91",
   "status": "proved",
   "theorems": [
    "RustDHT.C91_depth",
    "RustDHT.C91_fast",
    "RustDHT.C91_naive",
    "RustDHT.C91_lower",
    "RustDHT.C91_lower_plan"
   ],
   "note": "Operations of construction and changes of sign are not counted. Compositions with RadersAlgorithm are bounded by Plan.growth only."
  },
  {
   "property": "C92",
   "status": "proved",
   "theorems": [
    "RustDHT.C92_lower",
    "RustDHT.C92_factors",
    "RustDHT.C92_computes",
    "RustDHT.C92_plan",
    "RustDHT.C92_optimal",
    "RustDHT.C92_optimal_prime"
   ],
   "note": "Exact arithmetic. Changes of sign count as operations, operations of construction do not. Radix4 above 64 does not compute the DHT (C09)."
  },
  {
   "property": "C93",
   "status": "proved",
   "theorems": [
    "RustDHT.C93_differ",
    "RustDHT.C93_one",
    "RustDHT.C93_one_sharp",
    "RustDHT.C93_injective"
   ],
   "note": "Exact arithmetic; one chunk. Radix4 above 64 does not compute the DHT (C09)."
  },
  {
   "property": "C94",
   "status": "proved",
   "theorems": [
    "RustDHT.C94_repeated",
    "RustDHT.C94_interspersed"
   ],
   "note": "Exact arithmetic; one chunk. Radix4 above 64 does not compute the DHT (C09)."
  },
  {
   "property": "C95",
   "status": "proved",
   "theorems": [
    "RustDHT.C95_dft",
    "RustDHT.C95_power",
    "RustDHT.C95_rotation",
    "RustDHT.C95_even",
    "RustDHT.C95_autocorrelation"
   ],
   "note": "Exact arithmetic; one chunk. Radix4 above 64 does not compute the DHT (C09)."
  }
 ]
}