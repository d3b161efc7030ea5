import Verif.Props.Aliasing
import Verif.Props.AnyArith
import Verif.Props.ArrayUtils
import Verif.Props.Bench
import Verif.Props.Calls
import Verif.Props.Caught
import Verif.Props.Circuit
import Verif.Props.CircuitNested
import Verif.Props.Contract
import Verif.Props.Conv
import Verif.Props.Depth
import Verif.Props.Detected
import Verif.Props.Differ
import Verif.Props.DocExamples
import Verif.Props.Exact
import Verif.Props.FarOff
import Verif.Props.FirstCoefficient
import Verif.Props.Formats
import Verif.Props.Harness
import Verif.Props.Ieee
import Verif.Props.IeeeTest
import Verif.Props.Impulse
import Verif.Props.InputKept
import Verif.Props.Integers
import Verif.Props.Laws
import Verif.Props.Lengths
import Verif.Props.Machine
import Verif.Props.MachineRoot
import Verif.Props.MachineSafety
import Verif.Props.MachineShort
import Verif.Props.MathUtilsAll
import Verif.Props.Memory
import Verif.Props.NonFinite
import Verif.Props.NumberTheory
import Verif.Props.OnlyIf
import Verif.Props.Optimal
import Verif.Props.Override
import Verif.Props.Patched
import Verif.Props.Periodic
import Verif.Props.Poison
import Verif.Props.RadersLoss
import Verif.Props.Radix4Defect
import Verif.Props.Radix4Repaired
import Verif.Props.Root
import Verif.Props.RootFree
import Verif.Props.RootLoss
import Verif.Props.RoundTrip
import Verif.Props.Rounding
import Verif.Props.Safety
import Verif.Props.Scaling
import Verif.Props.Sign
import Verif.Props.SmallLengths
import Verif.Props.Spectrum
import Verif.Props.Stability
import Verif.Props.Stack
import Verif.Props.Stateful
import Verif.Props.Tables
import Verif.Props.Twiddles
import Verif.Props.UnitTests
import Verif.Props.Unwind
import Verif.Props.UserStability

/-! # Axioms of every property theorem

The build fails if a theorem named in `MANIFEST.json` starts to depend on anything but the three axioms of Lean's standard
library.  Generated from the list of property theorems. -/

/-- info: 'RustDHT.C55_programs' depends on axioms: [propext, Quot.sound] -/
#guard_msgs (whitespace := lax) in #print axioms RustDHT.C55_programs

/-- info: 'RustDHT.C55_tree_contiguous' depends on axioms: [propext, Quot.sound] -/
#guard_msgs (whitespace := lax) in #print axioms RustDHT.C55_tree_contiguous

/-- info: 'RustDHT.C55_tree_butterflies' depends on axioms: [propext, Quot.sound] -/
#guard_msgs (whitespace := lax) in #print axioms RustDHT.C55_tree_butterflies

/-- info: 'RustDHT.C55_stacked_arrays' depends on axioms: [propext] -/
#guard_msgs (whitespace := lax) in #print axioms RustDHT.C55_stacked_arrays

/-- info: 'RustDHT.C55_stacked_in_place' depends on axioms: [propext, Classical.choice, Quot.sound] -/
#guard_msgs (whitespace := lax) in #print axioms RustDHT.C55_stacked_in_place

/-- info: 'RustDHT.C55_stacked_out_of_place' depends on axioms: [propext, Quot.sound] -/
#guard_msgs (whitespace := lax) in #print axioms RustDHT.C55_stacked_out_of_place

/-- info: 'RustDHT.C55_stacked_out_of_place_ub' depends on axioms: [propext, Classical.choice, Quot.sound] -/
#guard_msgs (whitespace := lax) in #print axioms RustDHT.C55_stacked_out_of_place_ub

/-- info: 'RustDHT.C37_data_oblivious' depends on axioms: [propext, Classical.choice, Quot.sound] -/
#guard_msgs (whitespace := lax) in #print axioms RustDHT.C37_data_oblivious

/-- info: 'RustDHT.C38_arith_map' depends on axioms: [propext, Classical.choice, Quot.sound] -/
#guard_msgs (whitespace := lax) in #print axioms RustDHT.C38_arith_map

/-- info: 'RustDHT.C38_commutes' depends on axioms: [propext, Classical.choice, Quot.sound] -/
#guard_msgs (whitespace := lax) in #print axioms RustDHT.C38_commutes

/-- info: 'RustDHT.C38_odd' depends on axioms: [propext, Classical.choice, Quot.sound] -/
#guard_msgs (whitespace := lax) in #print axioms RustDHT.C38_odd

/-- info: 'RustDHT.C39_linear_any_tables' depends on axioms: [propext, Classical.choice, Quot.sound] -/
#guard_msgs (whitespace := lax) in #print axioms RustDHT.C39_linear_any_tables

/-- info: 'RustDHT.C87_pieces' depends on axioms: [propext, Quot.sound] -/
#guard_msgs (whitespace := lax) in #print axioms RustDHT.C87_pieces

/-- info: 'RustDHT.C87_iter_chunks' depends on axioms: [propext, Quot.sound] -/
#guard_msgs (whitespace := lax) in #print axioms RustDHT.C87_iter_chunks

/-- info: 'RustDHT.C87_iter_chunks_zipped' depends on axioms: [propext, Classical.choice, Quot.sound] -/
#guard_msgs (whitespace := lax) in #print axioms RustDHT.C87_iter_chunks_zipped

/-- info: 'RustDHT.C87_zipped_promise' depends on axioms: [propext, Classical.choice, Quot.sound] -/
#guard_msgs (whitespace := lax) in #print axioms RustDHT.C87_zipped_promise

/-- info: 'RustDHT.C87_transpose' depends on axioms: [propext, Classical.choice, Quot.sound] -/
#guard_msgs (whitespace := lax) in #print axioms RustDHT.C87_transpose

/-- info: 'RustDHT.C87_transpose_no_columns' depends on axioms: [propext, Classical.choice, Quot.sound] -/
#guard_msgs (whitespace := lax) in #print axioms RustDHT.C87_transpose_no_columns

/-- info: 'RustDHT.C58_bench_returns_iff' depends on axioms: [propext, Classical.choice, Quot.sound] -/
#guard_msgs (whitespace := lax) in #print axioms RustDHT.C58_bench_returns_iff

/-- info: 'RustDHT.C58_all_benches_return' depends on axioms: [propext, Classical.choice, Quot.sound] -/
#guard_msgs (whitespace := lax) in #print axioms RustDHT.C58_all_benches_return

/-- info: 'RustDHT.C58_benches_work_on_zeros' depends on axioms: [propext, Classical.choice, Quot.sound] -/
#guard_msgs (whitespace := lax) in #print axioms RustDHT.C58_benches_work_on_zeros

/-- info: 'RustDHT.C57_mixedRadix_calls' depends on axioms: [propext, Classical.choice, Quot.sound] -/
#guard_msgs (whitespace := lax) in #print axioms RustDHT.C57_mixedRadix_calls

/-- info: 'RustDHT.C57_mixedRadix2xn_calls' depends on axioms: [propext, Classical.choice, Quot.sound] -/
#guard_msgs (whitespace := lax) in #print axioms RustDHT.C57_mixedRadix2xn_calls

/-- info: 'RustDHT.C57_mixedRadix3xn_calls' depends on axioms: [propext, Classical.choice, Quot.sound] -/
#guard_msgs (whitespace := lax) in #print axioms RustDHT.C57_mixedRadix3xn_calls

/-- info: 'RustDHT.C57_mixedRadix4xn_calls' depends on axioms: [propext, Classical.choice, Quot.sound] -/
#guard_msgs (whitespace := lax) in #print axioms RustDHT.C57_mixedRadix4xn_calls

/-- info: 'RustDHT.C57_mixedRadix5xn_calls' depends on axioms: [propext, Classical.choice, Quot.sound] -/
#guard_msgs (whitespace := lax) in #print axioms RustDHT.C57_mixedRadix5xn_calls

/-- info: 'RustDHT.C57_mixedRadix6xn_calls' depends on axioms: [propext, Classical.choice, Quot.sound] -/
#guard_msgs (whitespace := lax) in #print axioms RustDHT.C57_mixedRadix6xn_calls

/-- info: 'RustDHT.C57_splitRadix_calls' depends on axioms: [propext, Classical.choice, Quot.sound] -/
#guard_msgs (whitespace := lax) in #print axioms RustDHT.C57_splitRadix_calls

/-- info: 'RustDHT.C57_raders_calls' depends on axioms: [propext, Classical.choice, Quot.sound] -/
#guard_msgs (whitespace := lax) in #print axioms RustDHT.C57_raders_calls

/-- info: 'RustDHT.C84_wrong_coefficients' depends on axioms: [propext, Classical.choice, Quot.sound] -/
#guard_msgs (whitespace := lax) in #print axioms RustDHT.C84_wrong_coefficients

/-- info: 'RustDHT.C84_wrong_coefficients_f32' depends on axioms: [propext, Classical.choice, Quot.sound] -/
#guard_msgs (whitespace := lax) in #print axioms RustDHT.C84_wrong_coefficients_f32

/-- info: 'RustDHT.C84_radix4_f64' depends on axioms: [propext, Classical.choice, Quot.sound] -/
#guard_msgs (whitespace := lax) in #print axioms RustDHT.C84_radix4_f64

/-- info: 'RustDHT.C84_radix4_f32' depends on axioms: [propext, Classical.choice, Quot.sound] -/
#guard_msgs (whitespace := lax) in #print axioms RustDHT.C84_radix4_f32

/-- info: 'RustDHT.C65_circuit' depends on axioms: [propext, Classical.choice, Quot.sound] -/
#guard_msgs (whitespace := lax) in #print axioms RustDHT.C65_circuit

/-- info: 'RustDHT.C65_size' depends on axioms: [propext, Classical.choice, Quot.sound] -/
#guard_msgs (whitespace := lax) in #print axioms RustDHT.C65_size

/-- info: 'RustDHT.C65_fast' depends on axioms: [propext, Classical.choice, Quot.sound] -/
#guard_msgs (whitespace := lax) in #print axioms RustDHT.C65_fast

/-- info: 'RustDHT.C65_prime' depends on axioms: [propext, Classical.choice, Quot.sound] -/
#guard_msgs (whitespace := lax) in #print axioms RustDHT.C65_prime

/-- info: 'RustDHT.C65_naive_quadratic' depends on axioms: [propext, Classical.choice, Quot.sound] -/
#guard_msgs (whitespace := lax) in #print axioms RustDHT.C65_naive_quadratic

/-- info: 'RustDHT.C65_nested' depends on axioms: [propext, Classical.choice, Quot.sound] -/
#guard_msgs (whitespace := lax) in #print axioms RustDHT.C65_nested

/-- info: 'RustDHT.C65_nested_all' depends on axioms: [propext, Classical.choice, Quot.sound] -/
#guard_msgs (whitespace := lax) in #print axioms RustDHT.C65_nested_all

/-- info: 'RustDHT.C13_inplace_panics_partial' depends on axioms: [propext, Classical.choice, Quot.sound] -/
#guard_msgs (whitespace := lax) in #print axioms RustDHT.C13_inplace_panics_partial

/-- info: 'RustDHT.C13_butterfly1_refuted' depends on axioms: [propext, Classical.choice, Quot.sound] -/
#guard_msgs (whitespace := lax) in #print axioms RustDHT.C13_butterfly1_refuted

/-- info: 'RustDHT.C13_user_inner' depends on axioms: [propext, Classical.choice, Quot.sound] -/
#guard_msgs (whitespace := lax) in #print axioms RustDHT.C13_user_inner

/-- info: 'RustDHT.C13_length_zero' depends on axioms: [propext, Classical.choice, Quot.sound] -/
#guard_msgs (whitespace := lax) in #print axioms RustDHT.C13_length_zero

/-- info: 'RustDHT.C14_oop_panics_partial' depends on axioms: [propext, Classical.choice, Quot.sound] -/
#guard_msgs (whitespace := lax) in #print axioms RustDHT.C14_oop_panics_partial

/-- info: 'RustDHT.C14_user_inner' depends on axioms: [propext, Classical.choice, Quot.sound] -/
#guard_msgs (whitespace := lax) in #print axioms RustDHT.C14_user_inner

/-- info: 'RustDHT.C14_butterfly1_refuted' depends on axioms: [propext, Classical.choice, Quot.sound] -/
#guard_msgs (whitespace := lax) in #print axioms RustDHT.C14_butterfly1_refuted

/-- info: 'RustDHT.C15_chunks_independent' depends on axioms: [propext, Classical.choice, Quot.sound] -/
#guard_msgs (whitespace := lax) in #print axioms RustDHT.C15_chunks_independent

/-- info: 'RustDHT.C16_stale_contents' depends on axioms: [propext, Classical.choice, Quot.sound] -/
#guard_msgs (whitespace := lax) in #print axioms RustDHT.C16_stale_contents

/-- info: 'RustDHT.C17_entry_points_agree' depends on axioms: [propext, Classical.choice, Quot.sound] -/
#guard_msgs (whitespace := lax) in #print axioms RustDHT.C17_entry_points_agree

/-- info: 'RustDHT.C18_scratch_reuse' depends on axioms: [propext, Classical.choice, Quot.sound] -/
#guard_msgs (whitespace := lax) in #print axioms RustDHT.C18_scratch_reuse

/-- info: 'RustDHT.C19_surplus_scratch' depends on axioms: [propext, Classical.choice, Quot.sound] -/
#guard_msgs (whitespace := lax) in #print axioms RustDHT.C19_surplus_scratch

/-- info: 'RustDHT.C20_mixedRadix_scratch' depends on axioms: [propext, Classical.choice, Quot.sound] -/
#guard_msgs (whitespace := lax) in #print axioms RustDHT.C20_mixedRadix_scratch

/-- info: 'RustDHT.C20_raders_scratch' depends on axioms: [propext, Classical.choice, Quot.sound] -/
#guard_msgs (whitespace := lax) in #print axioms RustDHT.C20_raders_scratch

/-- info: 'RustDHT.C20_raders_scratch_of_new' depends on axioms: [propext, Classical.choice, Quot.sound] -/
#guard_msgs (whitespace := lax) in #print axioms RustDHT.C20_raders_scratch_of_new

/-- info: 'RustDHT.C21_mixedRadix2xn_partial' depends on axioms: [propext, Classical.choice, Quot.sound] -/
#guard_msgs (whitespace := lax) in #print axioms RustDHT.C21_mixedRadix2xn_partial

/-- info: 'RustDHT.C21_mixedRadix3xn_partial' depends on axioms: [propext, Classical.choice, Quot.sound] -/
#guard_msgs (whitespace := lax) in #print axioms RustDHT.C21_mixedRadix3xn_partial

/-- info: 'RustDHT.C21_mixedRadix4xn_partial' depends on axioms: [propext, Classical.choice, Quot.sound] -/
#guard_msgs (whitespace := lax) in #print axioms RustDHT.C21_mixedRadix4xn_partial

/-- info: 'RustDHT.C21_mixedRadix5xn_partial' depends on axioms: [propext, Classical.choice, Quot.sound] -/
#guard_msgs (whitespace := lax) in #print axioms RustDHT.C21_mixedRadix5xn_partial

/-- info: 'RustDHT.C21_mixedRadix6xn_partial' depends on axioms: [propext, Classical.choice, Quot.sound] -/
#guard_msgs (whitespace := lax) in #print axioms RustDHT.C21_mixedRadix6xn_partial

/-- info: 'RustDHT.C21_splitRadix_partial' depends on axioms: [propext, Classical.choice, Quot.sound] -/
#guard_msgs (whitespace := lax) in #print axioms RustDHT.C21_splitRadix_partial

/-- info: 'RustDHT.C21_refuted' depends on axioms: [propext, Classical.choice, Quot.sound] -/
#guard_msgs (whitespace := lax) in #print axioms RustDHT.C21_refuted

/-- info: 'RustDHT.C24_reported_lengths' depends on axioms: [propext, Classical.choice, Quot.sound] -/
#guard_msgs (whitespace := lax) in #print axioms RustDHT.C24_reported_lengths

/-- info: 'RustDHT.C25_radix4_new' depends on axioms: [propext, Classical.choice, Quot.sound] -/
#guard_msgs (whitespace := lax) in #print axioms RustDHT.C25_radix4_new

/-- info: 'RustDHT.C25_splitRadix_new' depends on axioms: [propext, Classical.choice, Quot.sound] -/
#guard_msgs (whitespace := lax) in #print axioms RustDHT.C25_splitRadix_new

/-- info: 'RustDHT.C25_raders_new_partial' depends on axioms: [propext, Classical.choice, Quot.sound] -/
#guard_msgs (whitespace := lax) in #print axioms RustDHT.C25_raders_new_partial

/-- info: 'RustDHT.C25_raders_large' depends on axioms: [propext, Classical.choice, Quot.sound] -/
#guard_msgs (whitespace := lax) in #print axioms RustDHT.C25_raders_large

/-- info: 'RustDHT.C25_raders_refuted' depends on axioms: [propext, Classical.choice, Quot.sound] -/
#guard_msgs (whitespace := lax) in #print axioms RustDHT.C25_raders_refuted

/-- info: 'RustDHT.C36_input_preserved' depends on axioms: [propext, Classical.choice, Quot.sound] -/
#guard_msgs (whitespace := lax) in #print axioms RustDHT.C36_input_preserved

/-- info: 'RustDHT.C60_rotation' depends on axioms: [propext, Classical.choice, Quot.sound] -/
#guard_msgs (whitespace := lax) in #print axioms RustDHT.C60_rotation

/-- info: 'RustDHT.C60_convolution' depends on axioms: [propext, Classical.choice, Quot.sound] -/
#guard_msgs (whitespace := lax) in #print axioms RustDHT.C60_convolution

/-- info: 'RustDHT.C60_product' depends on axioms: [propext, Classical.choice, Quot.sound] -/
#guard_msgs (whitespace := lax) in #print axioms RustDHT.C60_product

/-- info: 'RustDHT.C91_depth' depends on axioms: [propext, Classical.choice, Quot.sound] -/
#guard_msgs (whitespace := lax) in #print axioms RustDHT.C91_depth

/-- info: 'RustDHT.C91_fast' depends on axioms: [propext, Classical.choice, Quot.sound] -/
#guard_msgs (whitespace := lax) in #print axioms RustDHT.C91_fast

/-- info: 'RustDHT.C91_naive' depends on axioms: [propext, Classical.choice, Quot.sound] -/
#guard_msgs (whitespace := lax) in #print axioms RustDHT.C91_naive

/-- info: 'RustDHT.C91_lower' depends on axioms: [propext, Classical.choice, Quot.sound] -/
#guard_msgs (whitespace := lax) in #print axioms RustDHT.C91_lower

/-- info: 'RustDHT.C91_lower_plan' depends on axioms: [propext, Classical.choice, Quot.sound] -/
#guard_msgs (whitespace := lax) in #print axioms RustDHT.C91_lower_plan

/-- info: 'RustDHT.C83_passed_f32' depends on axioms: [propext, Classical.choice, Quot.sound] -/
#guard_msgs (whitespace := lax) in #print axioms RustDHT.C83_passed_f32

/-- info: 'RustDHT.C83_passed_f64' depends on axioms: [propext, Classical.choice, Quot.sound] -/
#guard_msgs (whitespace := lax) in #print axioms RustDHT.C83_passed_f64

/-- info: 'RustDHT.C83_caught_f32' depends on axioms: [propext, Classical.choice, Quot.sound] -/
#guard_msgs (whitespace := lax) in #print axioms RustDHT.C83_caught_f32

/-- info: 'RustDHT.C83_radix4_f32' depends on axioms: [propext, Classical.choice, Quot.sound] -/
#guard_msgs (whitespace := lax) in #print axioms RustDHT.C83_radix4_f32

/-- info: 'RustDHT.C83_radix4_f64' depends on axioms: [propext, Classical.choice, Quot.sound] -/
#guard_msgs (whitespace := lax) in #print axioms RustDHT.C83_radix4_f64

/-- info: 'RustDHT.C83_next_length' depends on axioms: [propext, Classical.choice, Quot.sound] -/
#guard_msgs (whitespace := lax) in #print axioms RustDHT.C83_next_length

/-- info: 'RustDHT.C83_next_length_random' depends on axioms: [propext, Classical.choice, Quot.sound] -/
#guard_msgs (whitespace := lax) in #print axioms RustDHT.C83_next_length_random

/-- info: 'RustDHT.C93_differ' depends on axioms: [propext, Classical.choice, Quot.sound] -/
#guard_msgs (whitespace := lax) in #print axioms RustDHT.C93_differ

/-- info: 'RustDHT.C93_one' depends on axioms: [propext, Classical.choice, Quot.sound] -/
#guard_msgs (whitespace := lax) in #print axioms RustDHT.C93_one

/-- info: 'RustDHT.C93_one_sharp' depends on axioms: [propext, Classical.choice, Quot.sound] -/
#guard_msgs (whitespace := lax) in #print axioms RustDHT.C93_one_sharp

/-- info: 'RustDHT.C93_injective' depends on axioms: [propext, Classical.choice, Quot.sound] -/
#guard_msgs (whitespace := lax) in #print axioms RustDHT.C93_injective

/-- info: 'RustDHT.C53_doc_examples' depends on axioms: [propext, Classical.choice, Quot.sound] -/
#guard_msgs (whitespace := lax) in #print axioms RustDHT.C53_doc_examples

/-- info: 'RustDHT.C53_doc_examples_f32' depends on axioms: [propext, Classical.choice, Quot.sound] -/
#guard_msgs (whitespace := lax) in #print axioms RustDHT.C53_doc_examples_f32

/-- info: 'RustDHT.C01_dhtNaive_dht' depends on axioms: [propext, Classical.choice, Quot.sound] -/
#guard_msgs (whitespace := lax) in #print axioms RustDHT.C01_dhtNaive_dht

/-- info: 'RustDHT.C02_butterflies_dht' depends on axioms: [propext, Classical.choice, Quot.sound] -/
#guard_msgs (whitespace := lax) in #print axioms RustDHT.C02_butterflies_dht

/-- info: 'RustDHT.C03_mixedRadix_dht' depends on axioms: [propext, Classical.choice, Quot.sound] -/
#guard_msgs (whitespace := lax) in #print axioms RustDHT.C03_mixedRadix_dht

/-- info: 'RustDHT.C04_mixedRadix2xn_dht' depends on axioms: [propext, Classical.choice, Quot.sound] -/
#guard_msgs (whitespace := lax) in #print axioms RustDHT.C04_mixedRadix2xn_dht

/-- info: 'RustDHT.C05_mixedRadix3xn_dht' depends on axioms: [propext, Classical.choice, Quot.sound] -/
#guard_msgs (whitespace := lax) in #print axioms RustDHT.C05_mixedRadix3xn_dht

/-- info: 'RustDHT.C06_mixedRadix4xn_dht' depends on axioms: [propext, Classical.choice, Quot.sound] -/
#guard_msgs (whitespace := lax) in #print axioms RustDHT.C06_mixedRadix4xn_dht

/-- info: 'RustDHT.C07_mixedRadix5xn_dht' depends on axioms: [propext, Classical.choice, Quot.sound] -/
#guard_msgs (whitespace := lax) in #print axioms RustDHT.C07_mixedRadix5xn_dht

/-- info: 'RustDHT.C08_mixedRadix6xn_dht' depends on axioms: [propext, Classical.choice, Quot.sound] -/
#guard_msgs (whitespace := lax) in #print axioms RustDHT.C08_mixedRadix6xn_dht

/-- info: 'RustDHT.C09_radix4_dht_partial' depends on axioms: [propext, Classical.choice, Quot.sound] -/
#guard_msgs (whitespace := lax) in #print axioms RustDHT.C09_radix4_dht_partial

/-- info: 'RustDHT.C09_radix4_refuted' depends on axioms: [propext, Classical.choice, Quot.sound] -/
#guard_msgs (whitespace := lax) in #print axioms RustDHT.C09_radix4_refuted

/-- info: 'RustDHT.C09_radix4_permuted_partial' depends on axioms: [propext, Classical.choice, Quot.sound] -/
#guard_msgs (whitespace := lax) in #print axioms RustDHT.C09_radix4_permuted_partial

/-- info: 'RustDHT.C10_splitRadix_dht' depends on axioms: [propext, Classical.choice, Quot.sound] -/
#guard_msgs (whitespace := lax) in #print axioms RustDHT.C10_splitRadix_dht

/-- info: 'RustDHT.C11_raders_dht' depends on axioms: [propext, Classical.choice, Quot.sound] -/
#guard_msgs (whitespace := lax) in #print axioms RustDHT.C11_raders_dht

/-- info: 'RustDHT.C12_plan_dht' depends on axioms: [propext, Classical.choice, Quot.sound] -/
#guard_msgs (whitespace := lax) in #print axioms RustDHT.C12_plan_dht

/-- info: 'RustDHT.C81_exact' depends on axioms: [propext, Classical.choice, Quot.sound] -/
#guard_msgs (whitespace := lax) in #print axioms RustDHT.C81_exact

/-- info: 'RustDHT.C81_exact_impulse' depends on axioms: [propext, Classical.choice, Quot.sound] -/
#guard_msgs (whitespace := lax) in #print axioms RustDHT.C81_exact_impulse

/-- info: 'RustDHT.C81_float' depends on axioms: [propext, Classical.choice, Quot.sound] -/
#guard_msgs (whitespace := lax) in #print axioms RustDHT.C81_float

/-- info: 'RustDHT.C81_dichotomy' depends on axioms: [propext, Classical.choice, Quot.sound] -/
#guard_msgs (whitespace := lax) in #print axioms RustDHT.C81_dichotomy

/-- info: 'RustDHT.C81_impulse' depends on axioms: [propext, Classical.choice, Quot.sound] -/
#guard_msgs (whitespace := lax) in #print axioms RustDHT.C81_impulse

/-- info: 'RustDHT.C81_f32' depends on axioms: [propext, Classical.choice, Quot.sound] -/
#guard_msgs (whitespace := lax) in #print axioms RustDHT.C81_f32

/-- info: 'RustDHT.C81_f32_wrong' depends on axioms: [propext, Classical.choice, Quot.sound] -/
#guard_msgs (whitespace := lax) in #print axioms RustDHT.C81_f32_wrong

/-- info: 'RustDHT.C81_f64' depends on axioms: [propext, Classical.choice, Quot.sound] -/
#guard_msgs (whitespace := lax) in #print axioms RustDHT.C81_f64

/-- info: 'RustDHT.C81_f64_wrong' depends on axioms: [propext, Classical.choice, Quot.sound] -/
#guard_msgs (whitespace := lax) in #print axioms RustDHT.C81_f64_wrong

/-- info: 'RustDHT.C69_sum' depends on axioms: [propext, Classical.choice, Quot.sound] -/
#guard_msgs (whitespace := lax) in #print axioms RustDHT.C69_sum

/-- info: 'RustDHT.C69_around' depends on axioms: [propext, Classical.choice, Quot.sound] -/
#guard_msgs (whitespace := lax) in #print axioms RustDHT.C69_around

/-- info: 'RustDHT.C69_exact' depends on axioms: [propext, Classical.choice, Quot.sound] -/
#guard_msgs (whitespace := lax) in #print axioms RustDHT.C69_exact

/-- info: 'RustDHT.C69_ieee_exact' depends on axioms: [propext, Classical.choice, Quot.sound] -/
#guard_msgs (whitespace := lax) in #print axioms RustDHT.C69_ieee_exact

/-- info: 'RustDHT.C69_ieee_error' depends on axioms: [propext, Classical.choice, Quot.sound] -/
#guard_msgs (whitespace := lax) in #print axioms RustDHT.C69_ieee_error

/-- info: 'RustDHT.C85_any_format' depends on axioms: [propext, Classical.choice, Quot.sound] -/
#guard_msgs (whitespace := lax) in #print axioms RustDHT.C85_any_format

/-- info: 'RustDHT.C85_narrow_format' depends on axioms: [propext, Classical.choice, Quot.sound] -/
#guard_msgs (whitespace := lax) in #print axioms RustDHT.C85_narrow_format

/-- info: 'RustDHT.C85_plan' depends on axioms: [propext, Classical.choice, Quot.sound] -/
#guard_msgs (whitespace := lax) in #print axioms RustDHT.C85_plan

/-- info: 'RustDHT.C85_plan_f16' depends on axioms: [propext, Classical.choice, Quot.sound] -/
#guard_msgs (whitespace := lax) in #print axioms RustDHT.C85_plan_f16

/-- info: 'RustDHT.C85_wide_no_gain' depends on axioms: [propext, Classical.choice, Quot.sound] -/
#guard_msgs (whitespace := lax) in #print axioms RustDHT.C85_wide_no_gain

/-- info: 'RustDHT.C85_unaffected' depends on axioms: [propext, Classical.choice, Quot.sound] -/
#guard_msgs (whitespace := lax) in #print axioms RustDHT.C85_unaffected

/-- info: 'RustDHT.C85_wide_wrong' depends on axioms: [propext, Classical.choice, Quot.sound] -/
#guard_msgs (whitespace := lax) in #print axioms RustDHT.C85_wide_wrong

/-- info: 'RustDHT.C42_check_accepts' depends on axioms: [propext, Classical.choice, Quot.sound] -/
#guard_msgs (whitespace := lax) in #print axioms RustDHT.C42_check_accepts

/-- info: 'RustDHT.C42_plan_passes' depends on axioms: [propext, Classical.choice, Quot.sound] -/
#guard_msgs (whitespace := lax) in #print axioms RustDHT.C42_plan_passes

/-- info: 'RustDHT.C43_check_implies_partial' depends on axioms: [propext, Classical.choice, Quot.sound] -/
#guard_msgs (whitespace := lax) in #print axioms RustDHT.C43_check_implies_partial

/-- info: 'RustDHT.C43_check_all_signals_partial' depends on axioms: [propext, Classical.choice, Quot.sound] -/
#guard_msgs (whitespace := lax) in #print axioms RustDHT.C43_check_all_signals_partial

/-- info: 'RustDHT.C43_refuted' depends on axioms: [propext, Classical.choice, Quot.sound] -/
#guard_msgs (whitespace := lax) in #print axioms RustDHT.C43_refuted

/-- info: 'RustDHT.C43_radix4_detected' depends on axioms: [propext, Classical.choice, Quot.sound] -/
#guard_msgs (whitespace := lax) in #print axioms RustDHT.C43_radix4_detected

/-- info: 'RustDHT.C44_bigScratch_accepts' depends on axioms: [propext, Quot.sound] -/
#guard_msgs (whitespace := lax) in #print axioms RustDHT.C44_bigScratch_accepts

/-- info: 'RustDHT.C44_noop_accepts' does not depend on any axioms -/
#guard_msgs (whitespace := lax) in #print axioms RustDHT.C44_noop_accepts

/-- info: 'RustDHT.C44_mixedRadix_bigScratch' depends on axioms: [propext, Classical.choice, Quot.sound] -/
#guard_msgs (whitespace := lax) in #print axioms RustDHT.C44_mixedRadix_bigScratch

/-- info: 'RustDHT.C44_raders_bigScratch' depends on axioms: [propext, Classical.choice, Quot.sound] -/
#guard_msgs (whitespace := lax) in #print axioms RustDHT.C44_raders_bigScratch

/-- info: 'RustDHT.C44_noop_benches' depends on axioms: [propext, Classical.choice, Quot.sound] -/
#guard_msgs (whitespace := lax) in #print axioms RustDHT.C44_noop_benches

/-- info: 'RustDHT.C45_factories_exact' depends on axioms: [propext, Classical.choice, Quot.sound] -/
#guard_msgs (whitespace := lax) in #print axioms RustDHT.C45_factories_exact

/-- info: 'RustDHT.C45_factories_other' depends on axioms: [propext, Classical.choice, Quot.sound] -/
#guard_msgs (whitespace := lax) in #print axioms RustDHT.C45_factories_other

/-- info: 'RustDHT.C45_makeSplitradix' depends on axioms: [propext, Classical.choice, Quot.sound] -/
#guard_msgs (whitespace := lax) in #print axioms RustDHT.C45_makeSplitradix

/-- info: 'RustDHT.C45_splitradix_bench_assertion' depends on axioms: [propext, Classical.choice, Quot.sound] -/
#guard_msgs (whitespace := lax) in #print axioms RustDHT.C45_splitradix_bench_assertion

/-- info: 'RustDHT.C48_round_nearest' depends on axioms: [propext, Classical.choice, Quot.sound] -/
#guard_msgs (whitespace := lax) in #print axioms RustDHT.C48_round_nearest

/-- info: 'RustDHT.C48_convert_self' depends on axioms: [propext, Classical.choice, Quot.sound] -/
#guard_msgs (whitespace := lax) in #print axioms RustDHT.C48_convert_self

/-- info: 'RustDHT.C48_f32' depends on axioms: [propext, Classical.choice, Quot.sound] -/
#guard_msgs (whitespace := lax) in #print axioms RustDHT.C48_f32

/-- info: 'RustDHT.C48_f64' depends on axioms: [propext, Classical.choice, Quot.sound] -/
#guard_msgs (whitespace := lax) in #print axioms RustDHT.C48_f64

/-- info: 'RustDHT.C48_plan_f32' depends on axioms: [propext, Classical.choice, Quot.sound] -/
#guard_msgs (whitespace := lax) in #print axioms RustDHT.C48_plan_f32

/-- info: 'RustDHT.C48_plan_f64' depends on axioms: [propext, Classical.choice, Quot.sound] -/
#guard_msgs (whitespace := lax) in #print axioms RustDHT.C48_plan_f64

/-- info: 'RustDHT.C49_check_f32' depends on axioms: [propext, Classical.choice, Quot.sound] -/
#guard_msgs (whitespace := lax) in #print axioms RustDHT.C49_check_f32

/-- info: 'RustDHT.C49_check_f64' depends on axioms: [propext, Classical.choice, Quot.sound] -/
#guard_msgs (whitespace := lax) in #print axioms RustDHT.C49_check_f64

/-- info: 'RustDHT.C49_unit_tests_f32' depends on axioms: [propext, Classical.choice, Quot.sound] -/
#guard_msgs (whitespace := lax) in #print axioms RustDHT.C49_unit_tests_f32

/-- info: 'RustDHT.C49_unit_tests_f64' depends on axioms: [propext, Classical.choice, Quot.sound] -/
#guard_msgs (whitespace := lax) in #print axioms RustDHT.C49_unit_tests_f64

/-- info: 'RustDHT.C73_flat' depends on axioms: [propext, Classical.choice, Quot.sound] -/
#guard_msgs (whitespace := lax) in #print axioms RustDHT.C73_flat

/-- info: 'RustDHT.C73_around' depends on axioms: [propext, Classical.choice, Quot.sound] -/
#guard_msgs (whitespace := lax) in #print axioms RustDHT.C73_around

/-- info: 'RustDHT.C73_ring' depends on axioms: [propext, Classical.choice, Quot.sound] -/
#guard_msgs (whitespace := lax) in #print axioms RustDHT.C73_ring

/-- info: 'RustDHT.C73_exact' depends on axioms: [propext, Classical.choice, Quot.sound] -/
#guard_msgs (whitespace := lax) in #print axioms RustDHT.C73_exact

/-- info: 'RustDHT.C73_ieee' depends on axioms: [propext, Classical.choice, Quot.sound] -/
#guard_msgs (whitespace := lax) in #print axioms RustDHT.C73_ieee

/-- info: 'RustDHT.C73_ieee_exact' depends on axioms: [propext, Classical.choice, Quot.sound] -/
#guard_msgs (whitespace := lax) in #print axioms RustDHT.C73_ieee_exact

/-- info: 'RustDHT.C36_radix4_input_preserved' depends on axioms: [propext, Classical.choice, Quot.sound] -/
#guard_msgs (whitespace := lax) in #print axioms RustDHT.C36_radix4_input_preserved

/-- info: 'RustDHT.C36_mixedRadixNxn_input_preserved' depends on axioms: [propext, Classical.choice, Quot.sound] -/
#guard_msgs (whitespace := lax) in #print axioms RustDHT.C36_mixedRadixNxn_input_preserved

/-- info: 'RustDHT.C36_compositions_input_preserved' depends on axioms: [propext, Classical.choice, Quot.sound] -/
#guard_msgs (whitespace := lax) in #print axioms RustDHT.C36_compositions_input_preserved

/-- info: 'RustDHT.C36_splitRadix_overwrites' depends on axioms: [propext, Classical.choice, Quot.sound] -/
#guard_msgs (whitespace := lax) in #print axioms RustDHT.C36_splitRadix_overwrites

/-- info: 'RustDHT.C74_exact' depends on axioms: [propext, Classical.choice, Quot.sound] -/
#guard_msgs (whitespace := lax) in #print axioms RustDHT.C74_exact

/-- info: 'RustDHT.C74_only' depends on axioms: [propext, Classical.choice, Quot.sound] -/
#guard_msgs (whitespace := lax) in #print axioms RustDHT.C74_only

/-- info: 'RustDHT.C74_first' depends on axioms: [propext, Classical.choice, Quot.sound] -/
#guard_msgs (whitespace := lax) in #print axioms RustDHT.C74_first

/-- info: 'RustDHT.C74_naive' depends on axioms: [propext, Classical.choice, Quot.sound] -/
#guard_msgs (whitespace := lax) in #print axioms RustDHT.C74_naive

/-- info: 'RustDHT.C74_raders' depends on axioms: [propext, Classical.choice, Quot.sound] -/
#guard_msgs (whitespace := lax) in #print axioms RustDHT.C74_raders

/-- info: 'RustDHT.C27_self_inverse' depends on axioms: [propext, Classical.choice, Quot.sound] -/
#guard_msgs (whitespace := lax) in #print axioms RustDHT.C27_self_inverse

/-- info: 'RustDHT.C28_linear' depends on axioms: [propext, Classical.choice, Quot.sound] -/
#guard_msgs (whitespace := lax) in #print axioms RustDHT.C28_linear

/-- info: 'RustDHT.C29_parseval' depends on axioms: [propext, Classical.choice, Quot.sound] -/
#guard_msgs (whitespace := lax) in #print axioms RustDHT.C29_parseval

/-- info: 'RustDHT.C30_double_reversal' depends on axioms: [propext, Classical.choice, Quot.sound] -/
#guard_msgs (whitespace := lax) in #print axioms RustDHT.C30_double_reversal

/-- info: 'RustDHT.C31_reversal' depends on axioms: [propext, Classical.choice, Quot.sound] -/
#guard_msgs (whitespace := lax) in #print axioms RustDHT.C31_reversal

/-- info: 'RustDHT.C32_interchangeable' depends on axioms: [propext, Classical.choice, Quot.sound] -/
#guard_msgs (whitespace := lax) in #print axioms RustDHT.C32_interchangeable

/-- info: 'RustDHT.C33_dft' depends on axioms: [propext, Classical.choice, Quot.sound] -/
#guard_msgs (whitespace := lax) in #print axioms RustDHT.C33_dft

/-- info: 'RustDHT.C66_without_naive' depends on axioms: [propext, Classical.choice, Quot.sound] -/
#guard_msgs (whitespace := lax) in #print axioms RustDHT.C66_without_naive

/-- info: 'RustDHT.C66_without_raders' depends on axioms: [propext, Classical.choice, Quot.sound] -/
#guard_msgs (whitespace := lax) in #print axioms RustDHT.C66_without_raders

/-- info: 'RustDHT.C66_fast' depends on axioms: [propext, Classical.choice, Quot.sound] -/
#guard_msgs (whitespace := lax) in #print axioms RustDHT.C66_fast

/-- info: 'RustDHT.C66_faster' depends on axioms: [propext, Classical.choice, Quot.sound] -/
#guard_msgs (whitespace := lax) in #print axioms RustDHT.C66_faster

/-- info: 'RustDHT.C66_faster_from_128' depends on axioms: [propext, Classical.choice, Quot.sound] -/
#guard_msgs (whitespace := lax) in #print axioms RustDHT.C66_faster_from_128

/-- info: 'RustDHT.C66_any' depends on axioms: [propext, Classical.choice, Quot.sound] -/
#guard_msgs (whitespace := lax) in #print axioms RustDHT.C66_any

/-- info: 'RustDHT.C50_no_overflow' depends on axioms: [propext, Classical.choice, Quot.sound] -/
#guard_msgs (whitespace := lax) in #print axioms RustDHT.C50_no_overflow

/-- info: 'RustDHT.C50_builds_agree' depends on axioms: [propext, Classical.choice, Quot.sound] -/
#guard_msgs (whitespace := lax) in #print axioms RustDHT.C50_builds_agree

/-- info: 'RustDHT.C50_fits_of_short' depends on axioms: [propext, Quot.sound] -/
#guard_msgs (whitespace := lax) in #print axioms RustDHT.C50_fits_of_short

/-- info: 'RustDHT.C50_computes_dht' depends on axioms: [propext, Classical.choice, Quot.sound] -/
#guard_msgs (whitespace := lax) in #print axioms RustDHT.C50_computes_dht

/-- info: 'RustDHT.C50_mixedRadix2xn' depends on axioms: [propext, Classical.choice, Quot.sound] -/
#guard_msgs (whitespace := lax) in #print axioms RustDHT.C50_mixedRadix2xn

/-- info: 'RustDHT.C50_mixedRadix3xn' depends on axioms: [propext, Classical.choice, Quot.sound] -/
#guard_msgs (whitespace := lax) in #print axioms RustDHT.C50_mixedRadix3xn

/-- info: 'RustDHT.C50_mixedRadix4xn' depends on axioms: [propext, Classical.choice, Quot.sound] -/
#guard_msgs (whitespace := lax) in #print axioms RustDHT.C50_mixedRadix4xn

/-- info: 'RustDHT.C50_mixedRadix5xn' depends on axioms: [propext, Classical.choice, Quot.sound] -/
#guard_msgs (whitespace := lax) in #print axioms RustDHT.C50_mixedRadix5xn

/-- info: 'RustDHT.C50_mixedRadix6xn' depends on axioms: [propext, Classical.choice, Quot.sound] -/
#guard_msgs (whitespace := lax) in #print axioms RustDHT.C50_mixedRadix6xn

/-- info: 'RustDHT.C50_mixedRadix' depends on axioms: [propext, Classical.choice, Quot.sound] -/
#guard_msgs (whitespace := lax) in #print axioms RustDHT.C50_mixedRadix

/-- info: 'RustDHT.C50_splitRadix' depends on axioms: [propext, Quot.sound] -/
#guard_msgs (whitespace := lax) in #print axioms RustDHT.C50_splitRadix

/-- info: 'RustDHT.C50_raders' depends on axioms: [propext, Classical.choice, Quot.sound] -/
#guard_msgs (whitespace := lax) in #print axioms RustDHT.C50_raders

/-- info: 'RustDHT.C50_bound_is_tight' depends on axioms: [propext, Quot.sound] -/
#guard_msgs (whitespace := lax) in #print axioms RustDHT.C50_bound_is_tight

/-- info: 'RustDHT.C51_debug_panics' depends on axioms: [propext, Classical.choice, Quot.sound] -/
#guard_msgs (whitespace := lax) in #print axioms RustDHT.C51_debug_panics

/-- info: 'RustDHT.C51_release_root' depends on axioms: [propext, Classical.choice, Quot.sound] -/
#guard_msgs (whitespace := lax) in #print axioms RustDHT.C51_release_root

/-- info: 'RustDHT.C51_release_root_wrong' depends on axioms: [propext, Classical.choice, Quot.sound] -/
#guard_msgs (whitespace := lax) in #print axioms RustDHT.C51_release_root_wrong

/-- info: 'RustDHT.C51_release_raders_wrong' depends on axioms: [propext, Classical.choice, Quot.sound] -/
#guard_msgs (whitespace := lax) in #print axioms RustDHT.C51_release_raders_wrong

/-- info: 'RustDHT.C51_release_raders_iff' depends on axioms: [propext, Classical.choice, Quot.sound] -/
#guard_msgs (whitespace := lax) in #print axioms RustDHT.C51_release_raders_iff

/-- info: 'RustDHT.C51_release_raders_large' depends on axioms: [propext, Classical.choice, Quot.sound] -/
#guard_msgs (whitespace := lax) in #print axioms RustDHT.C51_release_raders_large

/-- info: 'RustDHT.C52_no_undefined_behaviour' depends on axioms: [propext, Classical.choice, Quot.sound] -/
#guard_msgs (whitespace := lax) in #print axioms RustDHT.C52_no_undefined_behaviour

/-- info: 'RustDHT.C52_slices_keep_length' depends on axioms: [propext, Classical.choice, Quot.sound] -/
#guard_msgs (whitespace := lax) in #print axioms RustDHT.C52_slices_keep_length

/-- info: 'RustDHT.C52_wrapped_length' depends on axioms: [propext, Quot.sound] -/
#guard_msgs (whitespace := lax) in #print axioms RustDHT.C52_wrapped_length

/-- info: 'RustDHT.C52_assertion_is_not_enough' depends on axioms: [propext, Classical.choice, Quot.sound] -/
#guard_msgs (whitespace := lax) in #print axioms RustDHT.C52_assertion_is_not_enough

/-- info: 'RustDHT.C54_root_exists' depends on axioms: [propext, Classical.choice, Quot.sound] -/
#guard_msgs (whitespace := lax) in #print axioms RustDHT.C54_root_exists

/-- info: 'RustDHT.C54_release' depends on axioms: [propext, Classical.choice, Quot.sound] -/
#guard_msgs (whitespace := lax) in #print axioms RustDHT.C54_release

/-- info: 'RustDHT.C54_debug' depends on axioms: [propext, Classical.choice, Quot.sound] -/
#guard_msgs (whitespace := lax) in #print axioms RustDHT.C54_debug

/-- info: 'RustDHT.C54_overflows' depends on axioms: [propext, Classical.choice, Quot.sound] -/
#guard_msgs (whitespace := lax) in #print axioms RustDHT.C54_overflows

/-- info: 'RustDHT.C54_fails' depends on axioms: [propext, Classical.choice, Quot.sound] -/
#guard_msgs (whitespace := lax) in #print axioms RustDHT.C54_fails

/-- info: 'RustDHT.C54_works' depends on axioms: [propext, Classical.choice, Quot.sound] -/
#guard_msgs (whitespace := lax) in #print axioms RustDHT.C54_works

/-- info: 'RustDHT.C89_modular_exponent' depends on axioms: [propext, Classical.choice, Quot.sound] -/
#guard_msgs (whitespace := lax) in #print axioms RustDHT.C89_modular_exponent

/-- info: 'RustDHT.C89_modulus_one' depends on axioms: [propext, Classical.choice, Quot.sound] -/
#guard_msgs (whitespace := lax) in #print axioms RustDHT.C89_modulus_one

/-- info: 'RustDHT.C89_factors_end' depends on axioms: [propext, Classical.choice, Quot.sound] -/
#guard_msgs (whitespace := lax) in #print axioms RustDHT.C89_factors_end

/-- info: 'RustDHT.C89_primitive_root_composite' depends on axioms: [propext, Classical.choice, Quot.sound] -/
#guard_msgs (whitespace := lax) in #print axioms RustDHT.C89_primitive_root_composite

/-- info: 'RustDHT.C89_primitive_root_all' depends on axioms: [propext, Classical.choice, Quot.sound] -/
#guard_msgs (whitespace := lax) in #print axioms RustDHT.C89_primitive_root_all

/-- info: 'RustDHT.C76_same_answers' depends on axioms: [propext, Classical.choice, Quot.sound] -/
#guard_msgs (whitespace := lax) in #print axioms RustDHT.C76_same_answers

/-- info: 'RustDHT.C76_invariant' depends on axioms: [propext, Classical.choice, Quot.sound] -/
#guard_msgs (whitespace := lax) in #print axioms RustDHT.C76_invariant

/-- info: 'RustDHT.C76_guarantee' depends on axioms: [propext, Classical.choice, Quot.sound] -/
#guard_msgs (whitespace := lax) in #print axioms RustDHT.C76_guarantee

/-- info: 'RustDHT.C76_mixedRadix_dht' depends on axioms: [propext, Classical.choice, Quot.sound] -/
#guard_msgs (whitespace := lax) in #print axioms RustDHT.C76_mixedRadix_dht

/-- info: 'RustDHT.C76_mixedRadix2xn_dht' depends on axioms: [propext, Classical.choice, Quot.sound] -/
#guard_msgs (whitespace := lax) in #print axioms RustDHT.C76_mixedRadix2xn_dht

/-- info: 'RustDHT.C76_mixedRadix3xn_dht' depends on axioms: [propext, Classical.choice, Quot.sound] -/
#guard_msgs (whitespace := lax) in #print axioms RustDHT.C76_mixedRadix3xn_dht

/-- info: 'RustDHT.C76_mixedRadix4xn_dht' depends on axioms: [propext, Classical.choice, Quot.sound] -/
#guard_msgs (whitespace := lax) in #print axioms RustDHT.C76_mixedRadix4xn_dht

/-- info: 'RustDHT.C76_mixedRadix5xn_dht' depends on axioms: [propext, Classical.choice, Quot.sound] -/
#guard_msgs (whitespace := lax) in #print axioms RustDHT.C76_mixedRadix5xn_dht

/-- info: 'RustDHT.C76_mixedRadix6xn_dht' depends on axioms: [propext, Classical.choice, Quot.sound] -/
#guard_msgs (whitespace := lax) in #print axioms RustDHT.C76_mixedRadix6xn_dht

/-- info: 'RustDHT.C76_splitRadix_dht' depends on axioms: [propext, Classical.choice, Quot.sound] -/
#guard_msgs (whitespace := lax) in #print axioms RustDHT.C76_splitRadix_dht

/-- info: 'RustDHT.C76_raders_dht' depends on axioms: [propext, Classical.choice, Quot.sound] -/
#guard_msgs (whitespace := lax) in #print axioms RustDHT.C76_raders_dht

/-- info: 'RustDHT.C72_shows' depends on axioms: [propext, Classical.choice, Quot.sound] -/
#guard_msgs (whitespace := lax) in #print axioms RustDHT.C72_shows

/-- info: 'RustDHT.C72_finite' depends on axioms: [propext, Classical.choice, Quot.sound] -/
#guard_msgs (whitespace := lax) in #print axioms RustDHT.C72_finite

/-- info: 'RustDHT.C72_naive' depends on axioms: [propext, Classical.choice, Quot.sound] -/
#guard_msgs (whitespace := lax) in #print axioms RustDHT.C72_naive

/-- info: 'RustDHT.C72_butterfly8' depends on axioms: [propext, Classical.choice, Quot.sound] -/
#guard_msgs (whitespace := lax) in #print axioms RustDHT.C72_butterfly8

/-- info: 'RustDHT.C26_primitive_root' depends on axioms: [propext, Classical.choice, Quot.sound] -/
#guard_msgs (whitespace := lax) in #print axioms RustDHT.C26_primitive_root

/-- info: 'RustDHT.C26_distinct_prime_factors' depends on axioms: [propext, Classical.choice, Quot.sound] -/
#guard_msgs (whitespace := lax) in #print axioms RustDHT.C26_distinct_prime_factors

/-- info: 'RustDHT.C26_distinct_prime_factors_fails' depends on axioms: [propext, Classical.choice, Quot.sound] -/
#guard_msgs (whitespace := lax) in #print axioms RustDHT.C26_distinct_prime_factors_fails

/-- info: 'RustDHT.C26_modular_exponent' depends on axioms: [propext, Quot.sound] -/
#guard_msgs (whitespace := lax) in #print axioms RustDHT.C26_modular_exponent

/-- info: 'RustDHT.C26_root_inverse' depends on axioms: [propext, Classical.choice, Quot.sound] -/
#guard_msgs (whitespace := lax) in #print axioms RustDHT.C26_root_inverse

/-- info: 'RustDHT.C26_overflow' depends on axioms: [propext, Classical.choice, Quot.sound] -/
#guard_msgs (whitespace := lax) in #print axioms RustDHT.C26_overflow

/-- info: 'RustDHT.C79_columns' depends on axioms: [propext, Classical.choice, Quot.sound] -/
#guard_msgs (whitespace := lax) in #print axioms RustDHT.C79_columns

/-- info: 'RustDHT.C79_splitRadix' depends on axioms: [propext, Classical.choice, Quot.sound] -/
#guard_msgs (whitespace := lax) in #print axioms RustDHT.C79_splitRadix

/-- info: 'RustDHT.C79_mixedRadix' depends on axioms: [propext, Classical.choice, Quot.sound] -/
#guard_msgs (whitespace := lax) in #print axioms RustDHT.C79_mixedRadix

/-- info: 'RustDHT.C79_raders_composition' depends on axioms: [propext, Classical.choice, Quot.sound] -/
#guard_msgs (whitespace := lax) in #print axioms RustDHT.C79_raders_composition

/-- info: 'RustDHT.C79_raders' depends on axioms: [propext, Classical.choice, Quot.sound] -/
#guard_msgs (whitespace := lax) in #print axioms RustDHT.C79_raders

/-- info: 'RustDHT.C79_plan' depends on axioms: [propext, Classical.choice, Quot.sound] -/
#guard_msgs (whitespace := lax) in #print axioms RustDHT.C79_plan

/-- info: 'RustDHT.C79_witness' depends on axioms: [propext, Classical.choice, Quot.sound] -/
#guard_msgs (whitespace := lax) in #print axioms RustDHT.C79_witness

/-- info: 'RustDHT.C79_raders_inner' depends on axioms: [propext, Classical.choice, Quot.sound] -/
#guard_msgs (whitespace := lax) in #print axioms RustDHT.C79_raders_inner

/-- info: 'RustDHT.C79_order' depends on axioms: [propext, Classical.choice, Quot.sound] -/
#guard_msgs (whitespace := lax) in #print axioms RustDHT.C79_order

/-- info: 'RustDHT.C79_two_wrongs' depends on axioms: [propext, Classical.choice, Quot.sound] -/
#guard_msgs (whitespace := lax) in #print axioms RustDHT.C79_two_wrongs

/-- info: 'RustDHT.C79_raders_flipped' depends on axioms: [propext, Classical.choice, Quot.sound] -/
#guard_msgs (whitespace := lax) in #print axioms RustDHT.C79_raders_flipped

/-- info: 'RustDHT.C79_raders_reordered' depends on axioms: [propext, Classical.choice, Quot.sound] -/
#guard_msgs (whitespace := lax) in #print axioms RustDHT.C79_raders_reordered

/-- info: 'RustDHT.C92_lower' depends on axioms: [propext, Classical.choice, Quot.sound] -/
#guard_msgs (whitespace := lax) in #print axioms RustDHT.C92_lower

/-- info: 'RustDHT.C92_factors' depends on axioms: [propext, Classical.choice, Quot.sound] -/
#guard_msgs (whitespace := lax) in #print axioms RustDHT.C92_factors

/-- info: 'RustDHT.C92_computes' depends on axioms: [propext, Classical.choice, Quot.sound] -/
#guard_msgs (whitespace := lax) in #print axioms RustDHT.C92_computes

/-- info: 'RustDHT.C92_plan' depends on axioms: [propext, Classical.choice, Quot.sound] -/
#guard_msgs (whitespace := lax) in #print axioms RustDHT.C92_plan

/-- info: 'RustDHT.C92_optimal' depends on axioms: [propext, Classical.choice, Quot.sound] -/
#guard_msgs (whitespace := lax) in #print axioms RustDHT.C92_optimal

/-- info: 'RustDHT.C92_optimal_prime' depends on axioms: [propext, Classical.choice, Quot.sound] -/
#guard_msgs (whitespace := lax) in #print axioms RustDHT.C92_optimal_prime

/-- info: 'RustDHT.C77_process' depends on axioms: [propext, Classical.choice, Quot.sound] -/
#guard_msgs (whitespace := lax) in #print axioms RustDHT.C77_process

/-- info: 'RustDHT.C77_scaled' depends on axioms: [propext, Classical.choice, Quot.sound] -/
#guard_msgs (whitespace := lax) in #print axioms RustDHT.C77_scaled

/-- info: 'RustDHT.C77_identity' depends on axioms: [propext, Classical.choice, Quot.sound] -/
#guard_msgs (whitespace := lax) in #print axioms RustDHT.C77_identity

/-- info: 'RustDHT.C68_builds' depends on axioms: [propext, Classical.choice, Quot.sound] -/
#guard_msgs (whitespace := lax) in #print axioms RustDHT.C68_builds

/-- info: 'RustDHT.C68_raders_new' depends on axioms: [propext, Classical.choice, Quot.sound] -/
#guard_msgs (whitespace := lax) in #print axioms RustDHT.C68_raders_new

/-- info: 'RustDHT.C68_accepts' depends on axioms: [propext, Classical.choice, Quot.sound] -/
#guard_msgs (whitespace := lax) in #print axioms RustDHT.C68_accepts

/-- info: 'RustDHT.C68_inplace_panics' depends on axioms: [propext, Classical.choice, Quot.sound] -/
#guard_msgs (whitespace := lax) in #print axioms RustDHT.C68_inplace_panics

/-- info: 'RustDHT.C68_oop_panics' depends on axioms: [propext, Classical.choice, Quot.sound] -/
#guard_msgs (whitespace := lax) in #print axioms RustDHT.C68_oop_panics

/-- info: 'RustDHT.C68_same' depends on axioms: [propext, Classical.choice, Quot.sound] -/
#guard_msgs (whitespace := lax) in #print axioms RustDHT.C68_same

/-- info: 'RustDHT.C68_dht' depends on axioms: [propext, Classical.choice, Quot.sound] -/
#guard_msgs (whitespace := lax) in #print axioms RustDHT.C68_dht

/-- info: 'RustDHT.C68_stable' depends on axioms: [propext, Classical.choice, Quot.sound] -/
#guard_msgs (whitespace := lax) in #print axioms RustDHT.C68_stable

/-- info: 'RustDHT.C68_relative_error' depends on axioms: [propext, Classical.choice, Quot.sound] -/
#guard_msgs (whitespace := lax) in #print axioms RustDHT.C68_relative_error

/-- info: 'RustDHT.C68_constant_f64' depends on axioms: [propext, Classical.choice, Quot.sound] -/
#guard_msgs (whitespace := lax) in #print axioms RustDHT.C68_constant_f64

/-- info: 'RustDHT.C68_plan_f64' depends on axioms: [propext, Classical.choice, Quot.sound] -/
#guard_msgs (whitespace := lax) in #print axioms RustDHT.C68_plan_f64

/-- info: 'RustDHT.C68_checker' depends on axioms: [propext, Classical.choice, Quot.sound] -/
#guard_msgs (whitespace := lax) in #print axioms RustDHT.C68_checker

/-- info: 'RustDHT.C68_checker_accepts' depends on axioms: [propext, Classical.choice, Quot.sound] -/
#guard_msgs (whitespace := lax) in #print axioms RustDHT.C68_checker_accepts

/-- info: 'RustDHT.C68_checker_detects' depends on axioms: [propext, Classical.choice, Quot.sound] -/
#guard_msgs (whitespace := lax) in #print axioms RustDHT.C68_checker_detects

/-- info: 'RustDHT.C94_repeated' depends on axioms: [propext, Classical.choice, Quot.sound] -/
#guard_msgs (whitespace := lax) in #print axioms RustDHT.C94_repeated

/-- info: 'RustDHT.C94_interspersed' depends on axioms: [propext, Classical.choice, Quot.sound] -/
#guard_msgs (whitespace := lax) in #print axioms RustDHT.C94_interspersed

/-- info: 'RustDHT.C59_poison_flows' depends on axioms: [propext, Classical.choice, Quot.sound] -/
#guard_msgs (whitespace := lax) in #print axioms RustDHT.C59_poison_flows

/-- info: 'RustDHT.C59_poison_dht' depends on axioms: [propext, Classical.choice, Quot.sound] -/
#guard_msgs (whitespace := lax) in #print axioms RustDHT.C59_poison_dht

/-- info: 'RustDHT.C59_poison_everywhere' depends on axioms: [propext, Classical.choice, Quot.sound] -/
#guard_msgs (whitespace := lax) in #print axioms RustDHT.C59_poison_everywhere

/-- info: 'RustDHT.C59_poison_radix4' depends on axioms: [propext, Classical.choice, Quot.sound] -/
#guard_msgs (whitespace := lax) in #print axioms RustDHT.C59_poison_radix4

/-- info: 'RustDHT.C59_nan' depends on axioms: [propext, Classical.choice, Quot.sound] -/
#guard_msgs (whitespace := lax) in #print axioms RustDHT.C59_nan

/-- info: 'RustDHT.C59_finite' depends on axioms: [propext, Classical.choice, Quot.sound] -/
#guard_msgs (whitespace := lax) in #print axioms RustDHT.C59_finite

/-- info: 'RustDHT.C59_nonfinite' depends on axioms: [propext, Classical.choice, Quot.sound] -/
#guard_msgs (whitespace := lax) in #print axioms RustDHT.C59_nonfinite

/-- info: 'RustDHT.C86_loss' depends on axioms: [propext, Classical.choice, Quot.sound] -/
#guard_msgs (whitespace := lax) in #print axioms RustDHT.C86_loss

/-- info: 'RustDHT.C86_exact' depends on axioms: [propext, Classical.choice, Quot.sound] -/
#guard_msgs (whitespace := lax) in #print axioms RustDHT.C86_exact

/-- info: 'RustDHT.C86_accuracy' depends on axioms: [propext, Classical.choice, Quot.sound] -/
#guard_msgs (whitespace := lax) in #print axioms RustDHT.C86_accuracy

/-- info: 'RustDHT.C78_signals' depends on axioms: [propext, Classical.choice, Quot.sound] -/
#guard_msgs (whitespace := lax) in #print axioms RustDHT.C78_signals

/-- info: 'RustDHT.C78_impulses' depends on axioms: [propext, Classical.choice, Quot.sound] -/
#guard_msgs (whitespace := lax) in #print axioms RustDHT.C78_impulses

/-- info: 'RustDHT.C78_count' depends on axioms: [propext, Classical.choice, Quot.sound] -/
#guard_msgs (whitespace := lax) in #print axioms RustDHT.C78_count

/-- info: 'RustDHT.C78_energy' depends on axioms: [propext, Classical.choice, Quot.sound] -/
#guard_msgs (whitespace := lax) in #print axioms RustDHT.C78_energy

/-- info: 'RustDHT.C78_coefficients' depends on axioms: [propext, Classical.choice, Quot.sound] -/
#guard_msgs (whitespace := lax) in #print axioms RustDHT.C78_coefficients

/-- info: 'RustDHT.C78_round_trip' depends on axioms: [propext, Classical.choice, Quot.sound] -/
#guard_msgs (whitespace := lax) in #print axioms RustDHT.C78_round_trip

/-- info: 'RustDHT.C62_repaired_dht' depends on axioms: [propext, Classical.choice, Quot.sound] -/
#guard_msgs (whitespace := lax) in #print axioms RustDHT.C62_repaired_dht

/-- info: 'RustDHT.C62_unchanged_below_128' depends on axioms: [propext, Classical.choice, Quot.sound] -/
#guard_msgs (whitespace := lax) in #print axioms RustDHT.C62_unchanged_below_128

/-- info: 'RustDHT.C62_plan' depends on axioms: [propext, Classical.choice, Quot.sound] -/
#guard_msgs (whitespace := lax) in #print axioms RustDHT.C62_plan

/-- info: 'RustDHT.C62_rearranged' depends on axioms: [propext, Classical.choice, Quot.sound] -/
#guard_msgs (whitespace := lax) in #print axioms RustDHT.C62_rearranged

/-- info: 'RustDHT.C62_workaround' depends on axioms: [propext, Classical.choice, Quot.sound] -/
#guard_msgs (whitespace := lax) in #print axioms RustDHT.C62_workaround

/-- info: 'RustDHT.C62_stable' depends on axioms: [propext, Classical.choice, Quot.sound] -/
#guard_msgs (whitespace := lax) in #print axioms RustDHT.C62_stable

/-- info: 'RustDHT.C34_mixedRadix_partial' depends on axioms: [propext, Classical.choice, Quot.sound] -/
#guard_msgs (whitespace := lax) in #print axioms RustDHT.C34_mixedRadix_partial

/-- info: 'RustDHT.C34_mixedRadix3xn_partial' depends on axioms: [propext, Classical.choice, Quot.sound] -/
#guard_msgs (whitespace := lax) in #print axioms RustDHT.C34_mixedRadix3xn_partial

/-- info: 'RustDHT.C34_mixedRadix5xn_partial' depends on axioms: [propext, Classical.choice, Quot.sound] -/
#guard_msgs (whitespace := lax) in #print axioms RustDHT.C34_mixedRadix5xn_partial

/-- info: 'RustDHT.C34_mixedRadix6xn_partial' depends on axioms: [propext, Classical.choice, Quot.sound] -/
#guard_msgs (whitespace := lax) in #print axioms RustDHT.C34_mixedRadix6xn_partial

/-- info: 'RustDHT.C34_error_bound_partial' depends on axioms: [propext, Classical.choice, Quot.sound] -/
#guard_msgs (whitespace := lax) in #print axioms RustDHT.C34_error_bound_partial

/-- info: 'RustDHT.C34_mixedRadix_refuted' depends on axioms: [propext, Classical.choice, Quot.sound] -/
#guard_msgs (whitespace := lax) in #print axioms RustDHT.C34_mixedRadix_refuted

/-- info: 'RustDHT.C34_mixedRadix3xn_refuted' depends on axioms: [propext, Classical.choice, Quot.sound] -/
#guard_msgs (whitespace := lax) in #print axioms RustDHT.C34_mixedRadix3xn_refuted

/-- info: 'RustDHT.C34_mixedRadix5xn_refuted' depends on axioms: [propext, Classical.choice, Quot.sound] -/
#guard_msgs (whitespace := lax) in #print axioms RustDHT.C34_mixedRadix5xn_refuted

/-- info: 'RustDHT.C34_mixedRadix6xn_refuted' depends on axioms: [propext, Classical.choice, Quot.sound] -/
#guard_msgs (whitespace := lax) in #print axioms RustDHT.C34_mixedRadix6xn_refuted

/-- info: 'RustDHT.C34_f64_refuted' depends on axioms: [propext, Classical.choice, Quot.sound] -/
#guard_msgs (whitespace := lax) in #print axioms RustDHT.C34_f64_refuted

/-- info: 'RustDHT.C80_unaffected' depends on axioms: [propext, Classical.choice, Quot.sound] -/
#guard_msgs (whitespace := lax) in #print axioms RustDHT.C80_unaffected

/-- info: 'RustDHT.C80_iff' depends on axioms: [propext, Classical.choice, Quot.sound] -/
#guard_msgs (whitespace := lax) in #print axioms RustDHT.C80_iff

/-- info: 'RustDHT.C80_rounded' depends on axioms: [propext, Classical.choice, Quot.sound] -/
#guard_msgs (whitespace := lax) in #print axioms RustDHT.C80_rounded

/-- info: 'RustDHT.C80_iff_real' depends on axioms: [propext, Classical.choice, Quot.sound] -/
#guard_msgs (whitespace := lax) in #print axioms RustDHT.C80_iff_real

/-- info: 'RustDHT.C80_witness' depends on axioms: [propext, Classical.choice, Quot.sound] -/
#guard_msgs (whitespace := lax) in #print axioms RustDHT.C80_witness

/-- info: 'RustDHT.C80_energy' depends on axioms: [propext, Classical.choice, Quot.sound] -/
#guard_msgs (whitespace := lax) in #print axioms RustDHT.C80_energy

/-- info: 'RustDHT.C80_mixedRadix' depends on axioms: [propext, Classical.choice, Quot.sound] -/
#guard_msgs (whitespace := lax) in #print axioms RustDHT.C80_mixedRadix

/-- info: 'RustDHT.C80_f64' depends on axioms: [propext, Classical.choice, Quot.sound] -/
#guard_msgs (whitespace := lax) in #print axioms RustDHT.C80_f64

/-- info: 'RustDHT.C80_powers' depends on axioms: [propext, Classical.choice, Quot.sound] -/
#guard_msgs (whitespace := lax) in #print axioms RustDHT.C80_powers

/-- info: 'RustDHT.C80_odd' depends on axioms: [propext, Classical.choice, Quot.sound] -/
#guard_msgs (whitespace := lax) in #print axioms RustDHT.C80_odd

/-- info: 'RustDHT.C82_exact' depends on axioms: [propext, Classical.choice, Quot.sound] -/
#guard_msgs (whitespace := lax) in #print axioms RustDHT.C82_exact

/-- info: 'RustDHT.C82_float' depends on axioms: [propext, Classical.choice, Quot.sound] -/
#guard_msgs (whitespace := lax) in #print axioms RustDHT.C82_float

/-- info: 'RustDHT.C82_f64_wrong' depends on axioms: [propext, Classical.choice, Quot.sound] -/
#guard_msgs (whitespace := lax) in #print axioms RustDHT.C82_f64_wrong

/-- info: 'RustDHT.C82_f64' depends on axioms: [propext, Classical.choice, Quot.sound] -/
#guard_msgs (whitespace := lax) in #print axioms RustDHT.C82_f64

/-- info: 'RustDHT.C64_energy' depends on axioms: [propext, Classical.choice, Quot.sound] -/
#guard_msgs (whitespace := lax) in #print axioms RustDHT.C64_energy

/-- info: 'RustDHT.C64_agreement' depends on axioms: [propext, Classical.choice, Quot.sound] -/
#guard_msgs (whitespace := lax) in #print axioms RustDHT.C64_agreement

/-- info: 'RustDHT.C64_round_trip' depends on axioms: [propext, Classical.choice, Quot.sound] -/
#guard_msgs (whitespace := lax) in #print axioms RustDHT.C64_round_trip

/-- info: 'RustDHT.C64_backward' depends on axioms: [propext, Classical.choice, Quot.sound] -/
#guard_msgs (whitespace := lax) in #print axioms RustDHT.C64_backward

/-- info: 'RustDHT.C64_round_trip_f32' depends on axioms: [propext, Classical.choice, Quot.sound] -/
#guard_msgs (whitespace := lax) in #print axioms RustDHT.C64_round_trip_f32

/-- info: 'RustDHT.C35_naive_rounding' depends on axioms: [propext, Classical.choice, Quot.sound] -/
#guard_msgs (whitespace := lax) in #print axioms RustDHT.C35_naive_rounding

/-- info: 'RustDHT.C40_plan_rounding' depends on axioms: [propext, Classical.choice, Quot.sound] -/
#guard_msgs (whitespace := lax) in #print axioms RustDHT.C40_plan_rounding

/-- info: 'RustDHT.C40_plan_dht' depends on axioms: [propext, Classical.choice, Quot.sound] -/
#guard_msgs (whitespace := lax) in #print axioms RustDHT.C40_plan_dht

/-- info: 'RustDHT.C41_plan_growth' depends on axioms: [propext, Classical.choice, Quot.sound] -/
#guard_msgs (whitespace := lax) in #print axioms RustDHT.C41_plan_growth

/-- info: 'RustDHT.C41_plan_dht' depends on axioms: [propext, Classical.choice, Quot.sound] -/
#guard_msgs (whitespace := lax) in #print axioms RustDHT.C41_plan_dht

/-- info: 'RustDHT.C41_error_le' depends on axioms: [propext, Classical.choice, Quot.sound] -/
#guard_msgs (whitespace := lax) in #print axioms RustDHT.C41_error_le

/-- info: 'RustDHT.C22_no_undefined_behaviour' depends on axioms: [propext, Classical.choice, Quot.sound] -/
#guard_msgs (whitespace := lax) in #print axioms RustDHT.C22_no_undefined_behaviour

/-- info: 'RustDHT.C22_slices_keep_length' depends on axioms: [propext, Classical.choice, Quot.sound] -/
#guard_msgs (whitespace := lax) in #print axioms RustDHT.C22_slices_keep_length

/-- info: 'RustDHT.C22_unchecked' depends on axioms: [propext] -/
#guard_msgs (whitespace := lax) in #print axioms RustDHT.C22_unchecked

/-- info: 'RustDHT.C22_unchecked_raw' depends on axioms: [propext] -/
#guard_msgs (whitespace := lax) in #print axioms RustDHT.C22_unchecked_raw

/-- info: 'RustDHT.C23_terminates' depends on axioms: [propext, Classical.choice, Quot.sound] -/
#guard_msgs (whitespace := lax) in #print axioms RustDHT.C23_terminates

/-- info: 'RustDHT.C67_linear' depends on axioms: [propext, Classical.choice, Quot.sound] -/
#guard_msgs (whitespace := lax) in #print axioms RustDHT.C67_linear

/-- info: 'RustDHT.C67_scale' depends on axioms: [propext, Classical.choice, Quot.sound] -/
#guard_msgs (whitespace := lax) in #print axioms RustDHT.C67_scale

/-- info: 'RustDHT.C67_zero' depends on axioms: [propext, Classical.choice, Quot.sound] -/
#guard_msgs (whitespace := lax) in #print axioms RustDHT.C67_zero

/-- info: 'RustDHT.C67_zero_exact' depends on axioms: [propext, Classical.choice, Quot.sound] -/
#guard_msgs (whitespace := lax) in #print axioms RustDHT.C67_zero_exact

/-- info: 'RustDHT.C61_zero_signs' depends on axioms: [propext, Classical.choice, Quot.sound] -/
#guard_msgs (whitespace := lax) in #print axioms RustDHT.C61_zero_signs

/-- info: 'RustDHT.C61_odd' depends on axioms: [propext, Classical.choice, Quot.sound] -/
#guard_msgs (whitespace := lax) in #print axioms RustDHT.C61_odd

/-- info: 'RustDHT.C61_signed_zero' depends on axioms: [propext, Classical.choice, Quot.sound] -/
#guard_msgs (whitespace := lax) in #print axioms RustDHT.C61_signed_zero

/-- info: 'RustDHT.C70_exact' depends on axioms: [propext, Classical.choice, Quot.sound] -/
#guard_msgs (whitespace := lax) in #print axioms RustDHT.C70_exact

/-- info: 'RustDHT.C70_round_trip' depends on axioms: [propext, Classical.choice, Quot.sound] -/
#guard_msgs (whitespace := lax) in #print axioms RustDHT.C70_round_trip

/-- info: 'RustDHT.C70_only' depends on axioms: [propext, Classical.choice, Quot.sound] -/
#guard_msgs (whitespace := lax) in #print axioms RustDHT.C70_only

/-- info: 'RustDHT.C95_dft' depends on axioms: [propext, Classical.choice, Quot.sound] -/
#guard_msgs (whitespace := lax) in #print axioms RustDHT.C95_dft

/-- info: 'RustDHT.C95_power' depends on axioms: [propext, Classical.choice, Quot.sound] -/
#guard_msgs (whitespace := lax) in #print axioms RustDHT.C95_power

/-- info: 'RustDHT.C95_rotation' depends on axioms: [propext, Classical.choice, Quot.sound] -/
#guard_msgs (whitespace := lax) in #print axioms RustDHT.C95_rotation

/-- info: 'RustDHT.C95_even' depends on axioms: [propext, Classical.choice, Quot.sound] -/
#guard_msgs (whitespace := lax) in #print axioms RustDHT.C95_even

/-- info: 'RustDHT.C95_autocorrelation' depends on axioms: [propext, Classical.choice, Quot.sound] -/
#guard_msgs (whitespace := lax) in #print axioms RustDHT.C95_autocorrelation

/-- info: 'RustDHT.C46_plan_stability' depends on axioms: [propext, Classical.choice, Quot.sound] -/
#guard_msgs (whitespace := lax) in #print axioms RustDHT.C46_plan_stability

/-- info: 'RustDHT.C46_plan_dht' depends on axioms: [propext, Classical.choice, Quot.sound] -/
#guard_msgs (whitespace := lax) in #print axioms RustDHT.C46_plan_dht

/-- info: 'RustDHT.C46_relative_error' depends on axioms: [propext, Classical.choice, Quot.sound] -/
#guard_msgs (whitespace := lax) in #print axioms RustDHT.C46_relative_error

/-- info: 'RustDHT.C47_depth_log' depends on axioms: [propext, Classical.choice, Quot.sound] -/
#guard_msgs (whitespace := lax) in #print axioms RustDHT.C47_depth_log

/-- info: 'RustDHT.C47_error_log' depends on axioms: [propext, Classical.choice, Quot.sound] -/
#guard_msgs (whitespace := lax) in #print axioms RustDHT.C47_error_log

/-- info: 'RustDHT.C75_depth' depends on axioms: [propext, Quot.sound] -/
#guard_msgs (whitespace := lax) in #print axioms RustDHT.C75_depth

/-- info: 'RustDHT.C75_endless' depends on axioms: [propext, Quot.sound] -/
#guard_msgs (whitespace := lax) in #print axioms RustDHT.C75_endless

/-- info: 'RustDHT.C75_radix4' depends on axioms: [propext, Classical.choice, Quot.sound] -/
#guard_msgs (whitespace := lax) in #print axioms RustDHT.C75_radix4

/-- info: 'RustDHT.C75_at_most_31' depends on axioms: [propext, Classical.choice, Quot.sound] -/
#guard_msgs (whitespace := lax) in #print axioms RustDHT.C75_at_most_31

/-- info: 'RustDHT.C56_no_undefined_behaviour' depends on axioms: [propext, Classical.choice, Quot.sound] -/
#guard_msgs (whitespace := lax) in #print axioms RustDHT.C56_no_undefined_behaviour

/-- info: 'RustDHT.C56_slices_keep_length' depends on axioms: [propext, Classical.choice, Quot.sound] -/
#guard_msgs (whitespace := lax) in #print axioms RustDHT.C56_slices_keep_length

/-- info: 'RustDHT.C56_terminates' depends on axioms: [propext, Classical.choice, Quot.sound] -/
#guard_msgs (whitespace := lax) in #print axioms RustDHT.C56_terminates

/-- info: 'RustDHT.C56_other_threads' depends on axioms: [propext, Quot.sound] -/
#guard_msgs (whitespace := lax) in #print axioms RustDHT.C56_other_threads

/-- info: 'RustDHT.C56_memory_does_not_show' depends on axioms: [propext, Classical.choice, Quot.sound] -/
#guard_msgs (whitespace := lax) in #print axioms RustDHT.C56_memory_does_not_show

/-- info: 'RustDHT.C56_mixedRadix_dht' depends on axioms: [propext, Classical.choice, Quot.sound] -/
#guard_msgs (whitespace := lax) in #print axioms RustDHT.C56_mixedRadix_dht

/-- info: 'RustDHT.C56_mixedRadix2xn_dht' depends on axioms: [propext, Classical.choice, Quot.sound] -/
#guard_msgs (whitespace := lax) in #print axioms RustDHT.C56_mixedRadix2xn_dht

/-- info: 'RustDHT.C56_mixedRadix3xn_dht' depends on axioms: [propext, Classical.choice, Quot.sound] -/
#guard_msgs (whitespace := lax) in #print axioms RustDHT.C56_mixedRadix3xn_dht

/-- info: 'RustDHT.C56_mixedRadix4xn_dht' depends on axioms: [propext, Classical.choice, Quot.sound] -/
#guard_msgs (whitespace := lax) in #print axioms RustDHT.C56_mixedRadix4xn_dht

/-- info: 'RustDHT.C56_mixedRadix5xn_dht' depends on axioms: [propext, Classical.choice, Quot.sound] -/
#guard_msgs (whitespace := lax) in #print axioms RustDHT.C56_mixedRadix5xn_dht

/-- info: 'RustDHT.C56_mixedRadix6xn_dht' depends on axioms: [propext, Classical.choice, Quot.sound] -/
#guard_msgs (whitespace := lax) in #print axioms RustDHT.C56_mixedRadix6xn_dht

/-- info: 'RustDHT.C56_splitRadix_dht' depends on axioms: [propext, Classical.choice, Quot.sound] -/
#guard_msgs (whitespace := lax) in #print axioms RustDHT.C56_splitRadix_dht

/-- info: 'RustDHT.C56_raders_dht' depends on axioms: [propext, Classical.choice, Quot.sound] -/
#guard_msgs (whitespace := lax) in #print axioms RustDHT.C56_raders_dht

/-- info: 'RustDHT.C88_capacities' depends on axioms: [propext, Classical.choice, Quot.sound] -/
#guard_msgs (whitespace := lax) in #print axioms RustDHT.C88_capacities

/-- info: 'RustDHT.C88_raders' depends on axioms: [propext, Classical.choice, Quot.sound] -/
#guard_msgs (whitespace := lax) in #print axioms RustDHT.C88_raders

/-- info: 'RustDHT.C88_linear' depends on axioms: [propext, Classical.choice, Quot.sound] -/
#guard_msgs (whitespace := lax) in #print axioms RustDHT.C88_linear

/-- info: 'RustDHT.C88_short_objects' depends on axioms: [propext, Classical.choice, Quot.sound] -/
#guard_msgs (whitespace := lax) in #print axioms RustDHT.C88_short_objects

/-- info: 'RustDHT.C90_values' depends on axioms: [propext, Classical.choice, Quot.sound] -/
#guard_msgs (whitespace := lax) in #print axioms RustDHT.C90_values

/-- info: 'RustDHT.C90_roots_of_unity' depends on axioms: [propext, Classical.choice, Quot.sound] -/
#guard_msgs (whitespace := lax) in #print axioms RustDHT.C90_roots_of_unity

/-- info: 'RustDHT.C90_sum' does not depend on any axioms -/
#guard_msgs (whitespace := lax) in #print axioms RustDHT.C90_sum

/-- info: 'RustDHT.C90_conjugate' depends on axioms: [propext, Classical.choice, Quot.sound] -/
#guard_msgs (whitespace := lax) in #print axioms RustDHT.C90_conjugate

/-- info: 'RustDHT.C53_matches_exact' depends on axioms: [propext, Classical.choice, Quot.sound] -/
#guard_msgs (whitespace := lax) in #print axioms RustDHT.C53_matches_exact

/-- info: 'RustDHT.C53_reversal_exact' depends on axioms: [propext, Classical.choice, Quot.sound] -/
#guard_msgs (whitespace := lax) in #print axioms RustDHT.C53_reversal_exact

/-- info: 'RustDHT.C53_double_reversal_exact' depends on axioms: [propext, Classical.choice, Quot.sound] -/
#guard_msgs (whitespace := lax) in #print axioms RustDHT.C53_double_reversal_exact

/-- info: 'RustDHT.C53_empty_panics' depends on axioms: [propext, Classical.choice, Quot.sound] -/
#guard_msgs (whitespace := lax) in #print axioms RustDHT.C53_empty_panics

/-- info: 'RustDHT.C53_matches_f32' depends on axioms: [propext, Classical.choice, Quot.sound] -/
#guard_msgs (whitespace := lax) in #print axioms RustDHT.C53_matches_f32

/-- info: 'RustDHT.C53_reversal_f32' depends on axioms: [propext, Classical.choice, Quot.sound] -/
#guard_msgs (whitespace := lax) in #print axioms RustDHT.C53_reversal_f32

/-- info: 'RustDHT.C53_double_reversal_f32' depends on axioms: [propext, Classical.choice, Quot.sound] -/
#guard_msgs (whitespace := lax) in #print axioms RustDHT.C53_double_reversal_f32

/-- info: 'RustDHT.C53_inner_scratch_pair' depends on axioms: [propext, Classical.choice, Quot.sound] -/
#guard_msgs (whitespace := lax) in #print axioms RustDHT.C53_inner_scratch_pair

/-- info: 'RustDHT.C53_inner_scratch' depends on axioms: [propext, Classical.choice, Quot.sound] -/
#guard_msgs (whitespace := lax) in #print axioms RustDHT.C53_inner_scratch

/-- info: 'RustDHT.C63_agrees' depends on axioms: [propext, Quot.sound] -/
#guard_msgs (whitespace := lax) in #print axioms RustDHT.C63_agrees

/-- info: 'RustDHT.C63_left' depends on axioms: [propext, Classical.choice, Quot.sound] -/
#guard_msgs (whitespace := lax) in #print axioms RustDHT.C63_left

/-- info: 'RustDHT.C63_plan' depends on axioms: [propext, Classical.choice, Quot.sound] -/
#guard_msgs (whitespace := lax) in #print axioms RustDHT.C63_plan

/-- info: 'RustDHT.C63_butterfly1' depends on axioms: [propext, Quot.sound] -/
#guard_msgs (whitespace := lax) in #print axioms RustDHT.C63_butterfly1

/-- info: 'RustDHT.C63_retry' depends on axioms: [propext, Classical.choice, Quot.sound] -/
#guard_msgs (whitespace := lax) in #print axioms RustDHT.C63_retry

/-- info: 'RustDHT.C71_plans' depends on axioms: [propext, Classical.choice, Quot.sound] -/
#guard_msgs (whitespace := lax) in #print axioms RustDHT.C71_plans

/-- info: 'RustDHT.C71_mixedRadix' depends on axioms: [propext, Classical.choice, Quot.sound] -/
#guard_msgs (whitespace := lax) in #print axioms RustDHT.C71_mixedRadix

/-- info: 'RustDHT.C71_mixedRadixNxn' depends on axioms: [propext, Classical.choice, Quot.sound] -/
#guard_msgs (whitespace := lax) in #print axioms RustDHT.C71_mixedRadixNxn

/-- info: 'RustDHT.C71_splitRadix' depends on axioms: [propext, Classical.choice, Quot.sound] -/
#guard_msgs (whitespace := lax) in #print axioms RustDHT.C71_splitRadix

/-- info: 'RustDHT.C71_raders' depends on axioms: [propext, Classical.choice, Quot.sound] -/
#guard_msgs (whitespace := lax) in #print axioms RustDHT.C71_raders

/-- info: 'RustDHT.C71_relative_error' depends on axioms: [propext, Classical.choice, Quot.sound] -/
#guard_msgs (whitespace := lax) in #print axioms RustDHT.C71_relative_error

