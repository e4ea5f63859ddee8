{
 "claims": [
  {
   "property": "C01",
   "status": "proved",
   "theorems": [
    "Clarith.C01_ratio_exact"
   ],
   "note": "Exact for every word size >= 16 bits and both profiles; observation = special, primer and answers of any number of egest calls."
  },
  {
   "property": "C02",
   "status": "proved",
   "theorems": [
    "Clarith.C02_ratio_u_exact"
   ],
   "note": "Exact for all usize inputs."
  },
  {
   "property": "C03",
   "status": "proved",
   "theorems": [
    "Clarith.C03_zero_denominator",
    "Clarith.C03_zero_denominator_u"
   ],
   "note": "ratio and ratio_u."
  },
  {
   "property": "C04",
   "status": "proved",
   "theorems": [
    "Clarith.C04_ratio_finite"
   ],
   "note": "Finite symbol list, same for equal values, read in full before None."
  },
  {
   "property": "C05",
   "status": "proved",
   "theorems": [
    "Clarith.C05_none_final"
   ],
   "note": "For every clog that denotes a number."
  },
  {
   "property": "C06",
   "status": "proved",
   "theorems": [
    "Clarith.C06_egest_meaning"
   ],
   "note": "For every clog that denotes a number, with the remaining clog denoting the next value."
  },
  {
   "property": "C07",
   "status": "proved",
   "theorems": [
    "Clarith.C07_same_observation"
   ],
   "note": "Equal cross products give equal observations."
  },
  {
   "property": "C08",
   "status": "proved",
   "theorems": [
    "Clarith.C08_reals",
    "Clarith.C08_whole_line",
    "Clarith.C08_observation"
   ],
   "note": "Over the reals with a separate real specification, and for observations of numbers built by the library."
  },
  {
   "property": "C09",
   "status": "proved",
   "theorems": [
    "Clarith.C09_finite_strings"
   ],
   "note": "Existence and uniqueness by induction on the list."
  },
  {
   "property": "C10",
   "status": "proved",
   "theorems": [
    "Clarith.C10_finite_iff_rational",
    "Clarith.C10_infinite_iff_irrational"
   ],
   "note": "Real specification in Verif/SpecReal.lean; rational case by the termination of the expansion."
  },
  {
   "property": "C11",
   "status": "proved",
   "theorems": [
    "Clarith.C11_infinite_sequences"
   ],
   "note": "Existence by compactness, uniqueness by distance doubling, irrationality by C10."
  },
  {
   "property": "C12",
   "status": "proved",
   "theorems": [
    "Clarith.C12_cover"
   ],
   "note": "Over the reals."
  },
  {
   "property": "C13",
   "status": "proved",
   "theorems": [
    "Clarith.C13_compare"
   ],
   "note": "For every build and every class of operand panics."
  },
  {
   "property": "C14",
   "status": "proved",
   "theorems": [
    "Clarith.C14_total_order",
    "Clarith.C14_order_laws"
   ],
   "note": "compare on ratio-built numbers returns the order of the rationals; order laws stated separately."
  },
  {
   "property": "C15",
   "status": "proved",
   "theorems": [
    "Clarith.C15_compare_terminates"
   ],
   "note": "For every pair of Numbers denoting rationals."
  },
  {
   "property": "C16",
   "status": "proved",
   "theorems": [
    "Clarith.C16_homographic"
   ],
   "note": "With overflow checks; x is any Number denoting a rational (including results of earlier operations)."
  },
  {
   "property": "C17",
   "status": "proved",
   "theorems": [
    "Clarith.C17_homographic_pole",
    "Clarith.C17_homographic_pole_no_value"
   ],
   "note": "With overflow checks."
  },
  {
   "property": "C18",
   "status": "proved",
   "theorems": [
    "Clarith.C18_homographic_pole_panics",
    "Clarith.C18_zero_denominator_accepted"
   ],
   "note": "Proved with the side condition; that the side condition is needed is proved for every build."
  },
  {
   "property": "C19",
   "status": "proved",
   "theorems": [
    "Clarith.C19_no_logic_error"
   ],
   "note": "With overflow checks, pole or not."
  },
  {
   "property": "C20",
   "status": "proved",
   "theorems": [
    "Clarith.C20_combine"
   ],
   "note": "For every build with overflow checks; without them C34 shows wrong values are possible. Denotes covers every later egest."
  },
  {
   "property": "C21",
   "status": "proved",
   "theorems": [
    "Clarith.C21_combine_pole",
    "Clarith.C21_combine_pole_no_value"
   ],
   "note": "Pole: panic with overflow or division by zero, or a clog that amplifies forever, which denotes no rational."
  },
  {
   "property": "C22",
   "status": "proved",
   "theorems": [
    "Clarith.C22_division_by_zero_accepted",
    "Clarith.C22_division_by_zero_special",
    "Clarith.C22_division_by_zero"
   ],
   "note": "Negation proved in every build, with the exact set of dividends for which x/0 is rejected (zero and powers of one half up to sign)."
  },
  {
   "property": "C23",
   "status": "proved",
   "theorems": [
    "Clarith.C23_no_logic_error"
   ],
   "note": "Builds with overflow checks, pole or not."
  },
  {
   "property": "C24",
   "status": "proved",
   "theorems": [
    "Clarith.C24_consume_value"
   ],
   "note": "Every build."
  },
  {
   "property": "C25",
   "status": "proved",
   "theorems": [
    "Clarith.C25_consume_no_overflow",
    "Clarith.C25_consume_panics_of_input"
   ],
   "note": "Every build and word size."
  },
  {
   "property": "C26",
   "status": "proved",
   "theorems": [
    "Clarith.C26_consume_stops",
    "Clarith.C26_consume_all"
   ],
   "note": "Including that the remaining clog is the input clog after the symbols read. C26_consume_all: short inputs are read completely."
  },
  {
   "property": "C27",
   "status": "proved",
   "theorems": [
    "Clarith.C27_consume_rebuild",
    "Clarith.C27_consume_rebuild_exact"
   ],
   "note": "Some(y) with overflow checks; None exact in every build."
  },
  {
   "property": "C28",
   "status": "proved",
   "theorems": [
    "Clarith.C28_plus",
    "Clarith.C28_minus",
    "Clarith.C28_times",
    "Clarith.C28_over",
    "Clarith.C28_plus_comm",
    "Clarith.C28_times_comm",
    "Clarith.C28_minus_plus",
    "Clarith.C28_over_times",
    "Clarith.C28_plus_assoc",
    "Clarith.C28_times_assoc",
    "Clarith.C28_distributive"
   ],
   "note": "plus, minus, times, over through combine; laws observed with compare."
  },
  {
   "property": "C29",
   "status": "proved",
   "theorems": [
    "Clarith.C29_composition"
   ],
   "note": "With overflow checks."
  },
  {
   "property": "C30",
   "status": "proved",
   "theorems": [
    "Clarith.C30_unity",
    "Clarith.C30_negation",
    "Clarith.C30_reciprocal",
    "Clarith.C30_reciprocal_overflow",
    "Clarith.C30_doubling",
    "Clarith.C30_halving",
    "Clarith.C30_doubling_overflow",
    "Clarith.C30_halving_overflow"
   ],
   "note": "Every Number denoting a rational, every build and word size; exact for unity, negation and the reciprocal; sufficient ranges for doubling and halving, and for every word size a range outside them where every number overflows."
  },
  {
   "property": "C31",
   "status": "proved",
   "theorems": [
    "Clarith.C31_safe_size"
   ],
   "note": "Any profile; bound (M*2^(L+1))^2 <= isize::MAX."
  },
  {
   "property": "C32",
   "status": "proved",
   "theorems": [
    "Clarith.C32_add_one",
    "Clarith.C32_not_total",
    "Clarith.C32_before_the_overflow"
   ],
   "note": "Negation proved for every word size and build: reading symbol bits-1 of x+1 panics for every number x above 2^(bits-2)."
  },
  {
   "property": "C33",
   "status": "proved",
   "theorems": [
    "Clarith.C33_release_agrees",
    "Clarith.C33_symbols_agree",
    "Clarith.C33_compare_agrees",
    "Clarith.C33_consume_agrees",
    "Clarith.C33_text_agrees",
    "Clarith.C33_denotes_agrees"
   ],
   "note": "Returns and panics other than the overflow check itself; programs over the whole API, symbols, compare, consume, printed text, denotation."
  },
  {
   "property": "C34",
   "status": "proved",
   "theorems": [
    "Clarith.C34_release_wrong",
    "Clarith.C34_release_wrong_without_min",
    "Clarith.C34_release_logic_error",
    "Clarith.C34_sign_lost",
    "Clarith.C34_wrong_on_the_opposite",
    "Clarith.C34_release_wrong_everywhere",
    "Clarith.C34_release_wrong_without_min_everywhere",
    "Clarith.C34_release_logic_error_everywhere"
   ],
   "note": "Negations, each on 64 bits with the exact numbers and, with suffix _everywhere, on every word size; C34_sign_lost is an equation between two runs for every operand, C34_wrong_on_the_opposite its consequence for the values."
  },
  {
   "property": "C35",
   "status": "proved",
   "theorems": [
    "Clarith.C35_refinement",
    "Clarith.C35_compare"
   ],
   "note": "Programs built from all API operations including consume-and-rebuild and partial reads, over numbers the caller already holds."
  },
  {
   "property": "C36",
   "status": "proved",
   "theorems": [
    "Clarith.C36_partly_read"
   ],
   "note": "Remaining clog with any primer."
  },
  {
   "property": "C37",
   "status": "proved",
   "theorems": [
    "Clarith.C37_unwrap_special",
    "Clarith.C37_unwrap_other"
   ],
   "note": "Both functions, both directions."
  },
  {
   "property": "C38",
   "status": "proved",
   "theorems": [
    "Clarith.C38_compare_reads_clogs"
   ],
   "note": "The expectation is false of the code; the proved theorem is the negation, with witnesses that hang and that panic."
  },
  {
   "property": "C39",
   "status": "proved",
   "theorems": [
    "Clarith.C39_printed",
    "Clarith.C39_printed_identifies"
   ],
   "note": "Text of every Number denoting a rational; iff for ratio-built numbers."
  },
  {
   "property": "C40",
   "status": "proved",
   "theorems": [
    "Clarith.C40_min_checked",
    "Clarith.C40_min_unchecked"
   ],
   "note": "Both profiles."
  },
  {
   "property": "C41",
   "status": "proved",
   "theorems": [
    "Clarith.C41_precision",
    "Clarith.C41_precision_clogs",
    "Clarith.C41_precision_three",
    "Clarith.C41_precision_three_clogs",
    "Clarith.C41_precision_limit"
   ],
   "note": "Every two symbols at least double the distance of two numbers that share them, and every three multiply it by four at least."
  },
  {
   "property": "C42",
   "status": "proved",
   "theorems": [
    "Clarith.C42_safe_size"
   ],
   "note": "Every build and word size."
  },
  {
   "property": "C43",
   "status": "proved",
   "theorems": [
    "Clarith.C43_program"
   ],
   "note": "Every build and word size; text printed before a panic is not modelled, no panic occurs."
  },
  {
   "property": "C44",
   "status": "proved",
   "theorems": [
    "Clarith.C44_history_agrees",
    "Clarith.C44_symbols_agree",
    "Clarith.C44_compare_agrees",
    "Clarith.C44_text_agrees",
    "Clarith.C44_denotes_agrees"
   ],
   "note": "Narrow machine with overflow checks, wide machine any build; programs without consume, whose limit is the word size, symbols, compare, text, denotation."
  },
  {
   "property": "C45",
   "status": "proved",
   "theorems": [
    "Clarith.C45_fraction",
    "Clarith.C45_fraction_reached",
    "Clarith.C45_symbol_count",
    "Clarith.C45_ratio_u",
    "Clarith.C45_ratio",
    "Clarith.C45_ratio_reached",
    "Clarith.C45_homographic_size"
   ],
   "note": "Every build and word size; the bound is tight and the only fraction reaching it is identified."
  },
  {
   "property": "C46",
   "status": "proved",
   "theorems": [
    "Clarith.C46_homographic",
    "Clarith.C46_homographic_pole",
    "Clarith.C46_combine",
    "Clarith.C46_combine_pole"
   ],
   "note": "Every build and word size; linear bound in the coefficients."
  },
  {
   "property": "C47",
   "status": "proved",
   "theorems": [
    "Clarith.C47_small_programs",
    "Clarith.C47_small_compare",
    "Clarith.C47_four_operations",
    "Clarith.C47_limit"
   ],
   "note": "Every build and word size; explicit bounds."
  },
  {
   "property": "C48",
   "status": "proved",
   "theorems": [
    "Clarith.C48_ratio_depth",
    "Clarith.C48_homographic_depth",
    "Clarith.C48_combine_depth",
    "Clarith.C48_compare_depth",
    "Clarith.C48_consume_depth",
    "Clarith.C48_fraction_depth",
    "Clarith.C48_program_depth"
   ],
   "note": "All builds; the program-level theorem is for builds with overflow checks."
  },
  {
   "property": "C49",
   "status": "proved",
   "theorems": [
    "Clarith.C49_rc_unique",
    "Clarith.C49_shared_fails",
    "Clarith.C49_same_answers"
   ],
   "note": "Holds after caught panics, too."
  },
  {
   "property": "C50",
   "status": "proved",
   "theorems": [
    "Clarith.C50_silent",
    "Clarith.C50_homographic_lines",
    "Clarith.C50_constant_silent",
    "Clarith.C50_egest_lines",
    "Clarith.C50_combine_lines",
    "Clarith.C50_combine_egest_lines"
   ],
   "note": "Operands that are fractions; lines of nested maps interleave and are not described."
  },
  {
   "property": "C51",
   "status": "proved",
   "theorems": [
    "Clarith.C51_panics_isolated",
    "Clarith.C51_not_without_restriction"
   ],
   "note": "The unrestricted statement is refuted by C51_not_without_restriction."
  },
  {
   "property": "C52",
   "status": "proved",
   "theorems": [
    "Clarith.C52_session_right",
    "Clarith.C52_session_returns"
   ],
   "note": "Nothing is promised about a call with an unknown operand (used up by a panic), a vanishing denominator, or the same variable twice."
  },
  {
   "property": "C53",
   "status": "proved",
   "theorems": [
    "Clarith.C53_release_session",
    "Clarith.C53_release_right",
    "Clarith.C53_wider_session",
    "Clarith.C53_release_not_right",
    "Clarith.C53_consume_differs"
   ],
   "note": "Sessions in two builds; the excepted panics are arithOverflow (release) and integer overflow (wider words, no consume)."
  },
  {
   "property": "C54",
   "status": "proved",
   "theorems": [
    "Clarith.C54_fractions",
    "Clarith.C54_infinity",
    "Clarith.C54_infinite_looks",
    "Clarith.C54_homographic",
    "Clarith.C54_homographic_pole",
    "Clarith.C54_combine",
    "Clarith.C54_combine_pole",
    "Clarith.C54_compare",
    "Clarith.C54_consume"
   ],
   "note": "Partial correctness (results and panics of calls that end)."
  },
  {
   "property": "C55",
   "status": "proved",
   "theorems": [
    "Clarith.C55_tracks",
    "Clarith.C55_homographic",
    "Clarith.C55_homographic_constant",
    "Clarith.C55_homographic_quotient",
    "Clarith.C55_combine",
    "Clarith.C55_combine_undetermined",
    "Clarith.C55_combine_two_boundless",
    "Clarith.C55_combine_quotient",
    "Clarith.C55_consume",
    "Clarith.C55_compare",
    "Clarith.C55_compare_same"
   ],
   "note": "Complete for homographic maps that are not constant, for consume and for compare of clogs; for combine the cases stated."
  },
  {
   "property": "C56",
   "status": "proved",
   "theorems": [
    "Clarith.C56_consume_exact",
    "Clarith.C56_consume_panics",
    "Clarith.C56_unique"
   ],
   "note": "Every clog, every build."
  },
  {
   "property": "C57",
   "status": "proved",
   "theorems": [
    "Clarith.C57_compare_reads",
    "Clarith.C57_compare_diverges",
    "Clarith.C57_compare_read_diverges",
    "Clarith.C57_exhaustive"
   ],
   "note": "Every pair of clogs, every build; generalises C38 (the negative result) to all operands."
  },
  {
   "property": "C58",
   "status": "proved",
   "theorems": [
    "Clarith.C58_session_right",
    "Clarith.C58_session_returns"
   ],
   "note": "Extends C52 to divisions by zero and to what can be computed with their results; C52 remains the statement over the rationals alone."
  },
  {
   "property": "C59",
   "status": "proved",
   "theorems": [
    "Clarith.C59_settled_is_enough",
    "Clarith.C59_reads_exactly",
    "Clarith.C59_unsettled_reads_on",
    "Clarith.C59_unsettled_waits",
    "Clarith.C59_pole_needed"
   ],
   "note": "Upper and lower bound on what is read; the hypothesis about poles is shown to be needed by C59_pole_needed."
  },
  {
   "property": "C60",
   "status": "proved",
   "theorems": [
    "Clarith.C60_clear_is_enough",
    "Clarith.C60_reads_exactly",
    "Clarith.C60_unclear_reads_on",
    "Clarith.C60_unclear_waits",
    "Clarith.C60_not_optimal"
   ],
   "note": "Exact criterion for what is read, upper and lower bound; C60_not_optimal shows that the distance in it cannot be dropped."
  },
  {
   "property": "C61",
   "status": "proved",
   "theorems": [
    "Clarith.C61_first_on_usual_words",
    "Clarith.C61_power_plus_one",
    "Clarith.C61_exact",
    "Clarith.C61_255"
   ],
   "note": "Both directions, exact boundary, for every word size and build; C61_255 and C61_exact are corollaries. C61_first_on_usual_words: no smaller number overflows, on words of up to 69 bits (finite lemma by evaluation on the narrowest machine, carried to the wider ones)."
  },
  {
   "property": "C62",
   "status": "proved",
   "theorems": [
    "Clarith.C62_constant",
    "Clarith.C62_homographic_special",
    "Clarith.C62_combine_special_first",
    "Clarith.C62_combine_special_second",
    "Clarith.C62_sum_of_255_and_1"
   ],
   "note": "Equations of outcomes, for every operand."
  },
  {
   "property": "C63",
   "status": "proved",
   "theorems": [
    "Clarith.C63_homographic",
    "Clarith.C63_combine",
    "Clarith.C63_compare",
    "Clarith.C63_consume",
    "Clarith.C63_equivalence",
    "Clarith.C63_same_value",
    "Clarith.C63_gives",
    "Clarith.C63_fractions"
   ],
   "note": "For all numbers; equivalence and the case of equal fractions included."
  },
  {
   "property": "C64",
   "status": "proved",
   "theorems": [
    "Clarith.C64_identity",
    "Clarith.C64_negation",
    "Clarith.C64_negation_twice",
    "Clarith.C64_reciprocal"
   ],
   "note": "For every clog, without assuming that it denotes a number."
  },
  {
   "property": "C65",
   "status": "proved",
   "theorems": [
    "Clarith.C65_homographic",
    "Clarith.C65_combine",
    "Clarith.C65_limit"
   ],
   "note": "Full statement for homographic and combine, in every build; plus the near-limit witness C65_limit."
  },
  {
   "property": "C66",
   "status": "proved",
   "theorems": [
    "Clarith.C66_homographic",
    "Clarith.C66_add_one",
    "Clarith.C66_halve",
    "Clarith.C66_double",
    "Clarith.C66_double_small",
    "Clarith.C66_front",
    "Clarith.C66_rest"
   ],
   "note": "Full statement, in every build; the instances x+1, x/2, 2x, and putting in front or taking away any symbols."
  },
  {
   "property": "C67",
   "status": "proved",
   "theorems": [
    "Clarith.C67_rebuild_tiny",
    "Clarith.C67_rebuild_panics",
    "Clarith.C67_rebuild_value",
    "Clarith.C67_limit_sharp"
   ],
   "note": "C67_rebuild_panics: any operand, by its symbols; C67_rebuild_value: by its value; C67_rebuild_tiny: the other range; C67_limit_sharp: witnesses at bits-5 times Amplify. Sharpens C27, which allows an overflow panic."
  },
  {
   "property": "C68",
   "status": "proved",
   "theorems": [
    "Clarith.C68_homographic_lines",
    "Clarith.C68_egest_lines",
    "Clarith.C68_determined",
    "Clarith.C68_lowest_terms"
   ],
   "note": "C68_homographic_lines: the call itself; C68_egest_lines: any later egest, including one that panics; C68_determined: the lines are fixed by this; C68_lowest_terms: what it means for coefficients that are not all even."
  },
  {
   "property": "C69",
   "status": "proved",
   "theorems": [
    "Clarith.C69_difference",
    "Clarith.C69_mean",
    "Clarith.C69_homographic",
    "Clarith.C69_plus",
    "Clarith.C69_times",
    "Clarith.C69_field_difference",
    "Clarith.C69_field_mean",
    "Clarith.C69_field_homographic",
    "Clarith.C69_field_plus",
    "Clarith.C69_field_times"
   ],
   "note": "C69_difference, C69_plus, C69_times, C69_mean, C69_homographic: fractions, the calls end; C69_field_*: the same for values in any ordered field, such as the reals."
  },
  {
   "property": "C70",
   "status": "proved",
   "theorems": [
    "Clarith.C70_answers",
    "Clarith.C70_ratio",
    "Clarith.C70_homographic",
    "Clarith.C70_fraction",
    "Clarith.C70_not_combine"
   ],
   "note": "C70_ratio and C70_homographic build fail-stop numbers, C70_answers says what the caller sees, C70_fraction puts them together with C45 (64 bits: parts up to 512, coefficients up to 255). C70_not_combine: the witness for combine."
  },
  {
   "property": "C71",
   "status": "proved",
   "theorems": [
    "Clarith.C71_egest",
    "Clarith.C71_calls",
    "Clarith.C71_resume",
    "Clarith.C71_answers",
    "Clarith.C71_symbols",
    "Clarith.C71_no_combine",
    "Clarith.C71_not_combine",
    "Clarith.C71_not_combine_ever"
   ],
   "note": "C71_egest and C71_calls: up to the first failure. C71_resume and C71_answers: calling again on an object without combine; C71_symbols for fail-stop numbers (C70); C71_no_combine: which numbers these are. C71_not_combine and C71_not_combine_ever: the witnesses for combine."
  },
  {
   "property": "C72",
   "status": "proved",
   "theorems": [
    "Clarith.C72_program",
    "Clarith.C72_program_fails",
    "Clarith.C72_fails",
    "Clarith.C72_number",
    "Clarith.C72_number_panics",
    "Clarith.C72_fail_stop"
   ],
   "note": "C72_program and C72_program_fails: the program. C72_fails: up to the first failure, any number. C72_number, C72_number_panics: the letters printed for any number; C72_fail_stop with the value."
  },
  {
   "property": "C73",
   "status": "proved",
   "theorems": [
    "Clarith.C73_zero",
    "Clarith.C73_growth",
    "Clarith.C73_size",
    "Clarith.C73_exact",
    "Clarith.C73_64"
   ],
   "note": "C73_zero with the growth, C73_growth and C73_size for fractions, C73_exact for the worst fractions in both directions, C73_64 on 64 bits."
  },
  {
   "property": "C74",
   "status": "proved",
   "theorems": [
    "Clarith.C74_one",
    "Clarith.C74_size",
    "Clarith.C74_exact",
    "Clarith.C74_64"
   ],
   "note": "C74_one with the growth, C74_size for fractions, C74_exact for the worst fractions, C74_64 on 64 bits; each for x / x and for x * (1/x)."
  },
  {
   "property": "C75",
   "status": "proved",
   "theorems": [
    "Clarith.C75_same_answers",
    "Clarith.C75_order_matters",
    "Clarith.C75_sums"
   ],
   "note": "C75_same_answers for all coefficients and operands; C75_order_matters for all word sizes; C75_sums are witnesses by evaluation (64 bits in both build profiles, 32, 16)."
  },
  {
   "property": "C76",
   "status": "proved",
   "theorems": [
    "Clarith.C76_homographic",
    "Clarith.C76_combine",
    "Clarith.C76_four_operations",
    "Clarith.C76_size",
    "Clarith.C76_growth",
    "Clarith.C76_words",
    "Clarith.C76_limit",
    "Clarith.C76_programs"
   ],
   "note": "C76_homographic and C76_combine for all operands and coefficients; C76_size for all b; C76_programs for all programs; C76_words uses a kernel-checked table of all fractions with parts up to 46; C76_limit witnesses by evaluation, for all numbers of the named values."
  },
  {
   "property": "C77",
   "status": "proved",
   "theorems": [
    "Clarith.C77_reads_some",
    "Clarith.C77_reads_last",
    "Clarith.C77_unique",
    "Clarith.C77_value",
    "Clarith.C77_ends",
    "Clarith.C77_count",
    "Clarith.C77_ratio"
   ],
   "note": "Relation Consumes over successive calls of consume; symbols per call from both sides for any clog; end and value for every denoting number; at most bits/2+3 calls for ratio, with a number that takes one call less as a witness."
  },
  {
   "property": "C78",
   "status": "proved",
   "theorems": [
    "Clarith.C78_session",
    "Clarith.C78_room",
    "Clarith.C78_wide",
    "Clarith.C78_programs_room",
    "Clarith.C78_programs",
    "Clarith.C78_threshold"
   ],
   "note": "Answers of a whole session specified over the rationals, without word size; exact under an explicit room condition in both builds, and the room condition holds for all words from some size on; the same for nested programs."
  },
  {
   "property": "C79",
   "status": "proved",
   "theorems": [
    "Clarith.C79_apart",
    "Clarith.C79_size",
    "Clarith.C79_ratio"
   ],
   "note": "Any denoting clogs; fractions by their size; numbers made by ratio, with a pair on 16 bits that has 32 of the at most 44 symbols in common."
  },
  {
   "property": "C80",
   "status": "proved",
   "theorems": [
    "Clarith.C80_parts",
    "Clarith.C80_fits_roomy",
    "Clarith.C80_text",
    "Clarith.C80_sum",
    "Clarith.C80_product",
    "Clarith.C80_polynomial"
   ],
   "note": "Check as a Boolean function of the text; sums, products and polynomials of any length."
  },
  {
   "property": "C81",
   "status": "proved",
   "theorems": [
    "Clarith.C81_same",
    "Clarith.C81_homographic",
    "Clarith.C81_combine",
    "Clarith.C81_compare",
    "Clarith.C81_consume",
    "Clarith.C81_ratio",
    "Clarith.C81_same_program",
    "Clarith.C81_program",
    "Clarith.C81_roomy_program",
    "Clarith.C81_counted",
    "Clarith.C81_ends",
    "Clarith.C81_length",
    "Clarith.C81_text",
    "Clarith.C81_machine"
   ],
   "note": "Fifth model with a count of rounds; linear bounds for every function of the API and for programs; attained; all calls counted."
  },
  {
   "property": "C82",
   "status": "proved",
   "theorems": [
    "Clarith.C82_machine_integers",
    "Clarith.C82_egest",
    "Clarith.C82_egests",
    "Clarith.C82_ratio",
    "Clarith.C82_homographic",
    "Clarith.C82_combine",
    "Clarith.C82_consume",
    "Clarith.C82_program"
   ],
   "note": "Invariant of all reachable states in every build: strategies do not grow in number or depth, fields stay machine integers; lifted to programs. C82_machine_integers says what a machine integer is."
  },
  {
   "property": "C83",
   "status": "proved",
   "theorems": [
    "Clarith.C83_worst_case",
    "Clarith.C83_worst_case_four",
    "Clarith.C83_worst_case_clogs",
    "Clarith.C83_worst_case_attained",
    "Clarith.C83_best_case",
    "Clarith.C83_best_case_attained",
    "Clarith.C83_rate",
    "Clarith.C83_compare",
    "Clarith.C83_compare_size",
    "Clarith.C83_compare_ratio"
   ],
   "note": "Worst and best contraction rates with matching witnesses; sharpened compare bound."
  },
  {
   "property": "C84",
   "status": "proved",
   "theorems": [
    "Clarith.C84_live",
    "Clarith.C84_empty",
    "Clarith.C84_bound",
    "Clarith.C84_unshared",
    "Clarith.C84_same",
    "Clarith.C84_session"
   ],
   "note": "Ownership of Rc allocations through all calls, drops and panics; refinement to the model without frees."
  },
  {
   "property": "C85",
   "status": "proved",
   "theorems": [
    "Clarith.C85_session",
    "Clarith.C85_charge",
    "Clarith.C85_homographic",
    "Clarith.C85_combine"
   ],
   "note": "Amortised account of the debugging lines over whole sessions; sharp for one homographic and one combine."
  },
  {
   "property": "C86",
   "status": "proved",
   "theorems": [
    "Clarith.C86_mul_symbols",
    "Clarith.C86_div_symbols",
    "Clarith.C86_add_symbols",
    "Clarith.C86_sub_symbols",
    "Clarith.C86_mul",
    "Clarith.C86_div",
    "Clarith.C86_add",
    "Clarith.C86_sub",
    "Clarith.C86_mul_large_powers",
    "Clarith.C86_mul_small_powers",
    "Clarith.C86_div_large_powers",
    "Clarith.C86_div_small_powers"
   ],
   "note": "Limits of combine for large and small operands, by symbols and by value; exact for powers of two."
  },
  {
   "property": "C87",
   "status": "proved",
   "theorems": [
    "Clarith.C87_at_least",
    "Clarith.C87_at_most",
    "Clarith.C87_not_settled",
    "Clarith.C87_reads_at_least",
    "Clarith.C87_waits_at_least",
    "Clarith.C87_reads_at_most",
    "Clarith.C87_returns",
    "Clarith.C87_constants",
    "Clarith.C87_at_least_simple",
    "Clarith.C87_at_most_simple",
    "Clarith.C87_simple",
    "Clarith.C87_denoted"
   ],
   "note": "Lower and upper bound for the symbols of the operand read for m symbols of the result."
  },
  {
   "property": "C88",
   "status": "proved",
   "theorems": [
    "Clarith.C88_at_most",
    "Clarith.C88_reads_at_most",
    "Clarith.C88_returns",
    "Clarith.C88_simple_bound",
    "Clarith.C88_sum",
    "Clarith.C88_difference",
    "Clarith.C88_product"
   ],
   "note": "Upper bound for the symbols of both operands read for m symbols of the result."
  },
  {
   "property": "C89",
   "status": "proved",
   "theorems": [
    "Clarith.C89_at_least",
    "Clarith.C89_not_clear",
    "Clarith.C89_reads_at_least",
    "Clarith.C89_waits_at_least",
    "Clarith.C89_simple_bound",
    "Clarith.C89_between",
    "Clarith.C89_sum",
    "Clarith.C89_difference",
    "Clarith.C89_product",
    "Clarith.C89_quotient"
   ],
   "note": "Lower bound for the symbols of each operand read for m symbols of the result, and two-sided bounds for the four operations."
  },
  {
   "property": "C90",
   "status": "proved",
   "theorems": [
    "Clarith.C90_x_ends",
    "Clarith.C90_y_ends",
    "Clarith.C90_x_returns",
    "Clarith.C90_y_returns",
    "Clarith.C90_beside",
    "Clarith.C90_reads_at_most",
    "Clarith.C90_sum",
    "Clarith.C90_product"
   ],
   "note": "Counterpart of C60 and C88 for an operand that ends; counts for sums and products with a fraction."
  },
  {
   "property": "C91",
   "status": "proved",
   "theorems": [
    "Clarith.C91_programs",
    "Clarith.C91_near",
    "Clarith.C91_tells",
    "Clarith.C91_precision",
    "Clarith.C91_fractions_exist",
    "Clarith.C91_condition_needed"
   ],
   "note": "Expressions over the reals: enough symbols and wide enough words give any number of symbols of the value; computed from nearby fractions to any precision."
  },
  {
   "property": "C92",
   "status": "proved",
   "theorems": [
    "Clarith.C92_zero",
    "Clarith.C92_one",
    "Clarith.C92_minus_one",
    "Clarith.C92_quotient",
    "Clarith.C92_limit",
    "Clarith.C92_limit_value",
    "Clarith.C92_exact",
    "Clarith.C92_exact_value",
    "Clarith.C92_exact_negative",
    "Clarith.C92_exact_negative_value"
   ],
   "note": "Neutral elements on arbitrary numbers, and the limit of x/(-1) and 1/x for negative x."
  },
  {
   "property": "C93",
   "status": "proved",
   "theorems": [
    "Clarith.C93_reads_to_the_end",
    "Clarith.C93_short",
    "Clarith.C93_fraction",
    "Clarith.C93_long",
    "Clarith.C93_panics_for_small_fractions",
    "Clarith.C93_mersenne",
    "Clarith.C93_mersenne_turned"
   ],
   "note": "0/x waits for the end of x; safe for short operands, overflow for long ones; 0/(1/4095) panics on 64 bits."
  },
  {
   "property": "C94",
   "status": "proved",
   "theorems": [
    "Clarith.C94_homographic",
    "Clarith.C94_combine_first",
    "Clarith.C94_combine_second",
    "Clarith.C94_combine_both",
    "Clarith.C94_compare",
    "Clarith.C94_compare_both",
    "Clarith.C94_consume"
   ],
   "note": "A result that depends on a number that panics when read never reads to its end; compare never says Equal."
  },
  {
   "property": "C95",
   "status": "proved",
   "theorems": [
    "Clarith.C95_returns",
    "Clarith.C95_counts",
    "Clarith.C95_limit",
    "Clarith.C95_beyond"
   ],
   "note": "Counting from 0 by ones: right below 2^b (256 on 64 bits), unreadable from there on, though each addition returns."
  },
  {
   "property": "C96",
   "status": "proved",
   "theorems": [
    "Clarith.C96_large",
    "Clarith.C96_small",
    "Clarith.C96_negative",
    "Clarith.C96_wide",
    "Clarith.C96_minus_two"
   ],
   "note": "x = x*y in a loop: exact for ever for 2^b, 1/2^b, -1/2^b; for -2^b up to the word size, then a panic."
  },
  {
   "property": "C97",
   "status": "proved",
   "theorems": [
    "Clarith.C97_front",
    "Clarith.C97_value",
    "Clarith.C97_fibonacci"
   ],
   "note": "x = 2^k + 1/x in a loop only puts symbols in front: exact for ever, e.g. all quotients of Fibonacci numbers."
  },
  {
   "property": "C98",
   "status": "proved",
   "theorems": [
    "Clarith.C98_down",
    "Clarith.C98_down_wide",
    "Clarith.C98_up",
    "Clarith.C98_by_a_half"
   ],
   "note": "x = x/y in a loop: exact for ever going down; going up the negative quotients are limited by the word size, then a panic."
  },
  {
   "property": "C99",
   "status": "proved",
   "theorems": [
    "Clarith.C99_front",
    "Clarith.C99_build",
    "Clarith.C99_every"
   ],
   "note": "Any expansion can be put together symbol by symbol with homographic; every rational number is representable and read exactly."
  },
  {
   "property": "C100",
   "status": "proved",
   "theorems": [
    "Clarith.C100_compare",
    "Clarith.C100_special",
    "Clarith.C100_denotes"
   ],
   "note": "compare is exact for all numbers that can be read to their end, also beyond the machine integers."
  },
  {
   "property": "C101",
   "status": "proved",
   "theorems": [
    "Clarith.C101_consume",
    "Clarith.C101_pieces"
   ],
   "note": "consume is exact, without overflow, for all numbers that can be read to their end; its rest is such a number again."
  }
 ]
}