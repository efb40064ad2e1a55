{
 "claims": [
  {
   "property": "C01",
   "status": "proved",
   "theorems": [
    "Micro.Dec.c01_accepts",
    "Micro.Dec.c01_errors",
    "Micro.Dec.c01_value",
    "Micro.Must.c01_accessors"
   ],
   "note": ""
  },
  {
   "property": "C02",
   "status": "proved",
   "theorems": [
    "Micro.Dec.c02_value",
    "Micro.Dec.c02_canonical",
    "Micro.Dec.c02_idempotent"
   ],
   "note": ""
  },
  {
   "property": "C03",
   "status": "partial",
   "theorems": [
    "Micro.Dec.c03_round_trip_refuted",
    "Micro.Dec.c03_round_trip_partial",
    "Micro.Dec.c03_scale18_wrong",
    "Micro.Dec.c03_string_form"
   ],
   "note": "False at scale 18 (c03_round_trip_refuted, and c03_scale18_wrong shows every scale-18 Decimal fails); proved for every scale <= 17."
  },
  {
   "property": "C04",
   "status": "partial",
   "theorems": [
    "Micro.Dec.c04_accepts_refuted",
    "Micro.Dec.c04_exact_partial",
    "Micro.Dec.c04_junk_wrong",
    "Micro.Dec.c04_rejects",
    "Micro.Dec.c04_valid"
   ],
   "note": "False: trailing junk and digit-less strings are accepted (c04_accepts_refuted, c04_junk_wrong); exact for every well formed string, and every accepted result is valid."
  },
  {
   "property": "C05",
   "status": "proved",
   "theorems": [
    "Micro.Dec.c05_cmp",
    "Micro.Dec.c05_order"
   ],
   "note": ""
  },
  {
   "property": "C06",
   "status": "partial",
   "theorems": [
    "Micro.Dec.c06_adjust_partial",
    "Micro.Dec.c06_panics_iff",
    "Micro.Dec.c06_panic_refuted"
   ],
   "note": "AdjustDecimalScale panics for some valid operands (c06_panics_iff characterises them exactly); whenever it returns, the result is characterised."
  },
  {
   "property": "C07",
   "status": "proved",
   "theorems": [
    "Micro.Dec.c07_add_exact",
    "Micro.Dec.c07_exact_iff",
    "Micro.Dec.c07_add",
    "Micro.Dec.c07_sub",
    "Micro.Dec.c07_add_error",
    "Micro.Dec.c07_sub_error"
   ],
   "note": ""
  },
  {
   "property": "C08",
   "status": "partial",
   "theorems": [
    "Micro.Dec.c08_identity_refuted",
    "Micro.Dec.c08_identity_partial",
    "Micro.Dec.c08_comm",
    "Micro.Dec.c08_sub_self",
    "Micro.Dec.c08_add_sub_partial",
    "Micro.Dec.c08_add_sub_refuted",
    "Micro.Dec.c08_identity_iff"
   ],
   "note": "Zero is not an identity at scale 18 (c08_identity_refuted), and c08_identity_iff: exactly there; identity for scale <= 17, commutativity and x-x=0 in full. c08_add_sub_partial: Sub undoes an exact Add, unless the sum is 0 and the operand has 18 fractional digits (c08_add_sub_refuted)."
  },
  {
   "property": "C09",
   "status": "partial",
   "theorems": [
    "Micro.Dec.c09_value",
    "Micro.Dec.c09_iff",
    "Micro.Dec.c09_truncated_refuted",
    "Micro.Dec.c09_exact",
    "Micro.Dec.c09_overflow_partial",
    "Micro.Dec.c09_rounded_partial",
    "Micro.Dec.c09_tenfold_refuted",
    "Micro.Dec.c09_nines_refuted"
   ],
   "note": "Decided exactly: c09_iff says Mul is right (error exactly when the integer part does not fit, otherwise less than one unit in the last place off) for all valid operands except MulWrong, and wrong for each of those (unscaled products in [10^18, 2^63) with a fraction, and carries into eighteen nines). c09_value gives the returned number in closed form. c09_truncated_refuted: it is not round-to-nearest. Partial because the English claim is false on MulWrong."
  },
  {
   "property": "C10",
   "status": "partial",
   "theorems": [
    "Micro.Dec.c10_quorem_partial",
    "Micro.Dec.c10_large_divisor_refuted",
    "Micro.Dec.c10_large_divisor_wrong"
   ],
   "note": "False for every divisor >= 2^63 (c10_large_divisor_refuted, c10_large_divisor_wrong); complete for all smaller divisors."
  },
  {
   "property": "C11",
   "status": "partial",
   "theorems": [
    "Micro.Dec.c11_parts_partial",
    "Micro.Dec.c11_parts_refuted",
    "Micro.Dec.c11_parts_iff"
   ],
   "note": "False for negative dividends and normalized remainders; c11_parts_iff: exactly for these."
  },
  {
   "property": "C12",
   "status": "partial",
   "theorems": [
    "Micro.Dec.c12_ok_iff",
    "Micro.Dec.c12_refused",
    "Micro.Dec.c12_div_partial",
    "Micro.Dec.c12_wrap_refuted",
    "Micro.Dec.c12_hang_refuted",
    "Micro.Dec.c12_zero_panics",
    "Micro.Dec.c12_wrap_wrong"
   ],
   "note": "False: wrap-around (28/3 is negative) and non-termination (c12_hang_refuted); on DivSafe operands termination, error < 1 ulp, sign, exactness and error condition are proved; c12_wrap_wrong: outside, where a prefix of the digits leaves int64, no returned Decimal is within one ulp. c12_ok_iff: exactly for which operands (LongDivision) the result is right; c12_refused: exactly which other ends of the long division are an error or do not return."
  },
  {
   "property": "C13",
   "status": "partial",
   "theorems": [
    "Micro.Dec.c13_div_iff",
    "Micro.Dec.c13_valid_partial",
    "Micro.Dec.c13_safe",
    "Micro.Dec.c13_div_refuted"
   ],
   "note": "Closure proved for every combination of constructors and operations except Div; false for Div (c13_div_refuted). c13_div_iff: which results of Div that are right are valid."
  },
  {
   "property": "C14",
   "status": "proved",
   "theorems": [
    "Micro.Dec.c14_sign",
    "Micro.Dec.c14_negate",
    "Micro.Dec.c14_magnitude"
   ],
   "note": ""
  },
  {
   "property": "C15",
   "status": "proved",
   "theorems": [
    "Micro.MathInt.c15_addInt",
    "Micro.MathInt.c15_addUint",
    "Micro.MathInt.c15_subUint"
   ],
   "note": ""
  },
  {
   "property": "C16",
   "status": "partial",
   "theorems": [
    "Micro.MathInt.c16_subInt_refuted",
    "Micro.MathInt.c16_subInt_partial",
    "Micro.MathInt.c16_subInt_at_min"
   ],
   "note": "False of the code when *sed is the minimum of its type (c16_subInt_refuted); exact for every other subtrahend, and the exact wrong behaviour at the excluded point is proved too."
  },
  {
   "property": "C17",
   "status": "proved",
   "theorems": [
    "Micro.MathInt.c17_mul",
    "Micro.MathInt.c17_mul_side"
   ],
   "note": ""
  },
  {
   "property": "C18",
   "status": "partial",
   "theorems": [
    "Micro.MathInt.c18_div_by_zero",
    "Micro.MathInt.c18_div_unsigned",
    "Micro.MathInt.c18_div_signed_refuted",
    "Micro.MathInt.c18_div_overflow_refuted",
    "Micro.MathInt.c18_div_signed_partial",
    "Micro.MathInt.c18_div_signed_wrong",
    "Micro.MathInt.c18_divBig_partial",
    "Micro.MathInt.c18_divBig_wrong"
   ],
   "note": "Unsigned proved in full. Signed: false when the quotient lies in (-1,-1/2] (stored as +1) and for min/-1; c18_div_signed_partial covers every other input and c18_div_signed_wrong shows every excluded input is wrong. c18_divBig_wrong: the same for *big.Int."
  },
  {
   "property": "C19",
   "status": "proved",
   "theorems": [
    "Micro.MathInt.c19_abs"
   ],
   "note": ""
  },
  {
   "property": "C20",
   "status": "partial",
   "theorems": [
    "Micro.MathInt.c20_setValue",
    "Micro.MathInt.c20_range_partial",
    "Micro.MathInt.c20_history_iff",
    "Micro.MathInt.c20_last_accepted",
    "Micro.MathInt.c20_ofRange_refuted",
    "Micro.MathInt.c20_ofRange_panics",
    "Micro.MathInt.c20_nan_refuted",
    "Micro.MathInt.c20_floats"
   ],
   "note": "OfRange does not check the initial value (c20_ofRange_refuted) and accepts NaN bounds (c20_nan_refuted); for every integer and float type the invariant is proved for every history starting from an in-range value, and the panics of OfRange are characterised exactly. c20_history_iff: the value stays within the bounds exactly if the initial value or some argument was."
  },
  {
   "property": "C21",
   "status": "proved",
   "theorems": [
    "Micro.Conv.c21_to_exact",
    "Micro.Conv.c21_functions_exact",
    "Micro.Conv.c21_round_trip",
    "Micro.Conv.c21_keys_injective",
    "Micro.Conv.c21_bigInt_exact",
    "Micro.Conv.c21_to_bigInt"
   ],
   "note": ""
  },
  {
   "property": "C22",
   "status": "proved",
   "theorems": [
    "Micro.Conv.c22_string_to_integer",
    "Micro.Conv.c22_round_trip",
    "Micro.Conv.c22_cross",
    "Micro.Conv.c22_target_clobbered_refuted",
    "Micro.Conv.c22_failed_target"
   ],
   "note": "Acceptance and value proved exactly for every string and type; c22_target_clobbered_refuted records that int64/uint64 targets are overwritten on error, which the property does not forbid."
  },
  {
   "property": "C23",
   "status": "partial",
   "theorems": [
    "Micro.Conv.c23_complete",
    "Micro.Conv.c23_exact_partial",
    "Micro.Conv.c23_exact_refuted",
    "Micro.Conv.c23_to_partial"
   ],
   "note": "The code tests I(F(i)) == i; what I(f) is for f out of range is left to the platform by the Go specification. Exact on amd64 (c23_exact_partial, c23_to_partial); on a platform whose conversions saturate (arm64) MaxInt64 is accepted inexactly (c23_exact_refuted). Completeness holds on every platform."
  },
  {
   "property": "C24",
   "status": "proved",
   "theorems": [
    "Micro.Iter.c24_next_unread",
    "Micro.Iter.c24_total",
    "Micro.Iter.c24_lifo"
   ],
   "note": ""
  },
  {
   "property": "C25",
   "status": "proved",
   "theorems": [
    "Micro.Iter.c25_error_is_final"
   ],
   "note": ""
  },
  {
   "property": "C26",
   "status": "proved",
   "theorems": [
    "Micro.Iter.c26_slice",
    "Micro.Iter.c26_one",
    "Micro.Iter.c26_empty",
    "Micro.Iter.c26_infinite",
    "Micro.Iter.c26_fibonacci"
   ],
   "note": ""
  },
  {
   "property": "C27",
   "status": "proved",
   "theorems": [
    "Micro.Iter.c27_concat",
    "Micro.Iter.c27_concat_flatten"
   ],
   "note": ""
  },
  {
   "property": "C28",
   "status": "proved",
   "theorems": [
    "Micro.Iter.c28_set_error",
    "Micro.Iter.c28_nil_endless"
   ],
   "note": ""
  },
  {
   "property": "C29",
   "status": "partial",
   "theorems": [
    "Micro.Iter.c29_chunks_iff",
    "Micro.Iter.c29_roundtrip",
    "Micro.Iter.c29_rejects_invalid_refuted",
    "Micro.Iter.c29_short_reads_refuted",
    "Micro.Iter.c29_decode_partial"
   ],
   "note": "Round trip of all Unicode texts proved. False: over-long/surrogate forms accepted (c29_rejects_invalid_refuted) and short reads reported as invalid (c29_short_reads_refuted); c29_decode_partial characterises decoding of arbitrary bytes. c29_chunks_iff says exactly for which short-reading readers the text is decoded."
  },
  {
   "property": "C30",
   "status": "partial",
   "theorems": [
    "Micro.Iter.c30_exact",
    "Micro.Iter.c30_lines_iff",
    "Micro.Iter.c30_lines_refuted",
    "Micro.Iter.c30_lines_partial",
    "Micro.Iter.c30_string_lines_partial",
    "Micro.Iter.c30_surrogate_refuted"
   ],
   "note": "False when an LF follows a lone CR (c30_lines_refuted); c30_exact gives the lines yielded for every text and c30_lines_iff exactly the texts for which they are right. A surrogate, accepted by the rune iterator, becomes U+FFFD (c30_surrogate_refuted)."
  },
  {
   "property": "C31",
   "status": "partial",
   "theorems": [
    "Micro.Iter.c31_data_with_eof_refuted",
    "Micro.Iter.c31_zero_read_refuted",
    "Micro.Iter.c31_reader_partial",
    "Micro.Iter.c31_bytes",
    "Micro.Iter.c31_exact",
    "Micro.Iter.c31_iff"
   ],
   "note": "False for readers that return the last byte together with io.EOF or (0,nil) (refuted); proved for every reader delivering one byte with a nil error per call. c31_exact: what is given for every reader; c31_iff: for which readers it is right."
  },
  {
   "property": "C32",
   "status": "proved",
   "theorems": [
    "Micro.Stream.c32_map",
    "Micro.Stream.c32_mapError",
    "Micro.Stream.c32_filter",
    "Micro.Stream.c32_peek",
    "Micro.Stream.c32_map_prefix"
   ],
   "note": ""
  },
  {
   "property": "C33",
   "status": "proved",
   "theorems": [
    "Micro.Stream.c33_max_min_ordered",
    "Micro.Stream.c33_max_min_cmp",
    "Micro.Stream.c33_count_error",
    "Micro.Stream.c33_reduce",
    "Micro.Stream.c33_reduce_identity",
    "Micro.Stream.c33_reduceTo",
    "Micro.Stream.c33_count",
    "Micro.Stream.c33_max_min"
   ],
   "note": ""
  },
  {
   "property": "C34",
   "status": "proved",
   "theorems": [
    "Micro.Stream.c34_reduceToBool",
    "Micro.Stream.c34_error",
    "Micro.Stream.c34_quantifiers",
    "Micro.Stream.c34_short_circuit"
   ],
   "note": ""
  },
  {
   "property": "C35",
   "status": "proved",
   "theorems": [
    "Micro.Stream.c35_skip",
    "Micro.Stream.c35_limit",
    "Micro.Stream.c35_limit_reads_at_most_n",
    "Micro.Stream.c35_limit_then_skip"
   ],
   "note": ""
  },
  {
   "property": "C36",
   "status": "proved",
   "theorems": [
    "Micro.Stream.c36_reduceToSlice",
    "Micro.Stream.c36_expandSlices",
    "Micro.Stream.c36_inverse",
    "Micro.Stream.c36_reduceIntoSlice"
   ],
   "note": ""
  },
  {
   "property": "C37",
   "status": "proved",
   "theorems": [
    "Micro.Stream.c37_error",
    "Micro.Stream.c37_reduceToMap"
   ],
   "note": ""
  },
  {
   "property": "C38",
   "status": "proved",
   "theorems": [
    "Micro.Stream.c38_distinct_go",
    "Micro.Stream.c38_duplicate_go",
    "Micro.Stream.c38_nan",
    "Micro.Stream.c38_distinct",
    "Micro.Stream.c38_distinct_spec",
    "Micro.Stream.c38_duplicate",
    "Micro.Stream.c38_duplicate_spec"
   ],
   "note": ""
  },
  {
   "property": "C39",
   "status": "proved",
   "theorems": [
    "Micro.Stream.c39_sliceReverse",
    "Micro.Stream.c39_reverse",
    "Micro.Stream.c39_reverse_twice",
    "Micro.Stream.c39_sort"
   ],
   "note": ""
  },
  {
   "property": "C40",
   "status": "partial",
   "theorems": [
    "Micro.Stream.c40_avgUint",
    "Micro.Stream.c40_avgInt_refuted",
    "Micro.Stream.c40_avgInt_partial",
    "Micro.Stream.c40_avgInt_wrong",
    "Micro.Stream.c40_avg_rest"
   ],
   "note": "Signed average inherits the rounding bug of math.Div for means in (-1,-1/2]; proved elsewhere. c40_avgInt_wrong: at every excluded mean the result is +1."
  },
  {
   "property": "C41",
   "status": "proved",
   "theorems": [
    "Micro.Stream.c41_float",
    "Micro.Stream.c41_float_partition",
    "Micro.Stream.c41_partition",
    "Micro.Stream.c41_threads",
    "Micro.Stream.c41_items",
    "Micro.Stream.c41_default"
   ],
   "note": "The sizes are computed by the code in float64: c41_float shows that below 2^49 items they are the exact ones (for any correctly rounded math.Sqrt), and c41_float_partition that below 2^53 items the ranges are a partition."
  },
  {
   "property": "C42",
   "status": "proved",
   "theorems": [
    "Micro.Stream.c42_map",
    "Micro.Stream.c42_map_inplace",
    "Micro.Stream.c42_machine_is_map",
    "Micro.Stream.c42_machine_is_mapError",
    "Micro.Stream.c42_machine_failing",
    "Micro.Stream.c42_source_error",
    "Micro.Stream.c42_mapError",
    "Micro.Stream.c42_map_finishes"
   ],
   "note": ""
  },
  {
   "property": "C43",
   "status": "partial",
   "theorems": [
    "Micro.Stream.c43_exact",
    "Micro.Stream.c43_iff",
    "Micro.Stream.c43_filter_iff",
    "Micro.Stream.c43_expanding_crashes",
    "Micro.Stream.c43_interfaces_refuted",
    "Micro.Stream.c43_output_iff",
    "Micro.Stream.c43_agrees_partial",
    "Micro.Stream.c43_agrees_refuted",
    "Micro.Stream.c43_expanding_refuted"
   ],
   "note": "False: Parallel + Filter leaves stale elements, expanding transforms crash, two different interface types panic (refuted); proved for length preserving transforms. c43_exact, c43_iff, c43_filter_iff, c43_expanding_crashes, c43_output_iff: exactly what happens in the excluded cases."
  },
  {
   "property": "C44",
   "status": "partial",
   "theorems": [
    "Micro.Funcs.c44_total",
    "Micro.Funcs.c44_history_iff",
    "Micro.Funcs.c44_add_pairs",
    "Micro.Funcs.c44_search",
    "Micro.Funcs.c44_history_partial",
    "Micro.Funcs.c44_history_refuted",
    "Micro.Funcs.c44_add_iff"
   ],
   "note": "Adding a key below the current minimum puts it in the wrong place (c44_history_refuted); proved for histories whose keys are not below the minimum. The search itself is proved in full. c44_add_iff: such additions, and no others, break the order. c44_history_iff: a history is represented after every operation iff no addition is below all keys; c44_total: no history panics; c44_add_pairs: no addition is lost even in unsorted slices."
  },
  {
   "property": "C45",
   "status": "partial",
   "theorems": [
    "Micro.Funcs.c45_all_receivers",
    "Micro.Funcs.c45_send_partial",
    "Micro.Funcs.c45_no_receivers",
    "Micro.Funcs.c45_remove_exact",
    "Micro.Funcs.c45_order_refuted",
    "Micro.Funcs.c45_remove_refuted"
   ],
   "note": "Same ordering bug as C44, and Remove compares code pointers so that it can remove another closure (both refuted); c45_send_partial covers the rest. c45_all_receivers: whatever the id order, every registered receiver is applied exactly as often as registered."
  },
  {
   "property": "C46",
   "status": "proved",
   "theorems": [
    "Micro.Funcs.c46_remove",
    "Micro.Funcs.c46_index"
   ],
   "note": ""
  },
  {
   "property": "C47",
   "status": "proved",
   "theorems": [
    "Micro.Funcs.c47_and",
    "Micro.Funcs.c47_or",
    "Micro.Funcs.c47_deMorgan"
   ],
   "note": ""
  },
  {
   "property": "C48",
   "status": "partial",
   "theorems": [
    "Micro.Funcs.c48_closers",
    "Micro.Funcs.c48_handler_exact",
    "Micro.Funcs.c48_handler_partial",
    "Micro.Funcs.c48_missed_iff",
    "Micro.Funcs.c48_no_panic",
    "Micro.Funcs.c48_handler_refuted"
   ],
   "note": "panic(nil) is not passed to the handler (c48_handler_refuted, go 1.18 semantics); closers proved in full. c48_handler_exact (no hypothesis): with which value panicFn is called; c48_missed_iff: a panic is missed exactly if the latest one is panic(nil)."
  },
  {
   "property": "C49",
   "status": "partial",
   "theorems": [
    "Micro.Funcs.c49_supplierOf",
    "Micro.Funcs.c49_once_partial",
    "Micro.Funcs.c49_exact",
    "Micro.Funcs.c49_once_iff",
    "Micro.Funcs.c49_once_refuted"
   ],
   "note": "If the supplier panics it is called again (c49_once_refuted); proved otherwise. c49_exact and c49_once_iff: exactly what happens if it panics."
  },
  {
   "property": "C50",
   "status": "partial",
   "theorems": [
    "Micro.Funcs.c50_utf8_iff",
    "Micro.Funcs.c50_utf8_refuted",
    "Micro.Funcs.c50_roundtrip_iff",
    "Micro.Funcs.c50_snake_shape",
    "Micro.Funcs.c50_empty_refuted",
    "Micro.Funcs.c50_panics_iff",
    "Micro.Funcs.c50_camel_panics_iff",
    "Micro.Funcs.c50_roundtrip_partial"
   ],
   "note": "SnakeToCamelCase panics on strings with no letters left (refuted, c50_panics_iff exactly), and breaks UTF-8 if a word begins with a non-ASCII character (c50_utf8_iff exactly). Round trip exactly for lower case words joined by single underscores (c50_roundtrip_iff)."
  },
  {
   "property": "C51",
   "status": "partial",
   "theorems": [
    "Micro.Funcs.c51_types",
    "Micro.Funcs.c51_slice_of_slices",
    "Micro.Funcs.c51_returns_iff",
    "Micro.Funcs.c51_flatten_partial",
    "Micro.Funcs.c51_refuted"
   ],
   "note": "Panics for nil interface elements (more than one dimension) and for defined slice types (one dimension): c51_refuted; c51_returns_iff: exactly then; c51_flatten_partial: whenever it returns, the result is the concatenation of the leaves. c51_types: all panics exactly, for arguments of any type; c51_slice_of_slices: with a slice type for T it always panics."
  },
  {
   "property": "C52",
   "status": "proved",
   "theorems": [
    "Micro.Union.c52_which",
    "Micro.Union.c52_two",
    "Micro.Union.c52_three",
    "Micro.Union.c52_four",
    "Micro.Union.c52_constructors",
    "Micro.Union.c52_string"
   ],
   "note": ""
  },
  {
   "property": "C53",
   "status": "proved",
   "theorems": [
    "Micro.Union.c53_history",
    "Micro.Union.c53_nil",
    "Micro.Union.c53_constructors",
    "Micro.Union.c53_setOrError",
    "Micro.Union.c53_string"
   ],
   "note": ""
  },
  {
   "property": "C54",
   "status": "partial",
   "theorems": [
    "Micro.Union.c54_xor",
    "Micro.Union.c54_constructors",
    "Micro.Union.c54_string",
    "Micro.Union.c54_ofResultError_partial",
    "Micro.Union.c54_interface",
    "Micro.Union.c54_interface_refuted"
   ],
   "note": "OfResultError with an interface type R panics for nil and accepts any(0) with an error (refuted); proved for concrete types. c54_interface: exactly what happens for interface types."
  },
  {
   "property": "C55",
   "status": "partial",
   "theorems": [
    "Micro.IO.c55_read_refuted",
    "Micro.IO.c55_spare_refuted",
    "Micro.IO.c55_read_partial",
    "Micro.IO.c55_read_wrong",
    "Micro.IO.c55_one_byte",
    "Micro.IO.c55_spec_meaning"
   ],
   "note": "Read ignores the position when it limits the length: panics or leaks spare capacity (refuted); c55_read_partial and c55_read_wrong characterise exactly which histories work."
  },
  {
   "property": "C56",
   "status": "proved",
   "theorems": [
    "Micro.IO.c56_error_writer",
    "Micro.IO.c56_negative",
    "Micro.IO.c56_full"
   ],
   "note": ""
  },
  {
   "property": "C57",
   "status": "proved",
   "theorems": [
    "Micro.IO.c57_success",
    "Micro.IO.c57_failure",
    "Micro.IO.c57_slice",
    "Micro.IO.c57_map",
    "Micro.IO.c57_io_success",
    "Micro.IO.c57_io_error",
    "Micro.IO.c57_buffer",
    "Micro.IO.c57_failing",
    "Micro.IO.c57_failing_strings"
   ],
   "note": ""
  },
  {
   "property": "C58",
   "status": "proved",
   "theorems": [
    "Micro.IO.c58_runes",
    "Micro.IO.c58_text"
   ],
   "note": ""
  },
  {
   "property": "C59",
   "status": "partial",
   "theorems": [
    "Micro.Json.c59_roundtrip_partial",
    "Micro.Json.c59_text_partial",
    "Micro.Json.c59_refuted",
    "Micro.Json.c59_roundtrip_iff",
    "Micro.Json.c59_invalid"
   ],
   "note": "False: Write does not escape strings (c59_refuted). For values whose strings need no escaping: the text is in the RFC 8259 grammar and parses back. c59_roundtrip_iff: exactly these values survive, also if the order of members is ignored; c59_invalid: invalid parts become null."
  },
  {
   "property": "C60",
   "status": "partial",
   "theorems": [
    "Micro.Json.c60_terminates",
    "Micro.Json.c60_exact_partial",
    "Micro.Json.c60_accepts",
    "Micro.Json.c60_unique",
    "Micro.Json.c60_junk_refuted",
    "Micro.Json.c60_comma_refuted",
    "Micro.Json.c60_trailing_refuted"
   ],
   "note": "Termination, the exact accepted language with its meaning, and acceptance of every RFC 8259 document without \\u0022 are proved; false: [,], {\"a\":1,} and []x are accepted (c60_*_refuted)."
  },
  {
   "property": "C61",
   "status": "partial",
   "theorems": [
    "Micro.Json.c61_exact_partial",
    "Micro.Json.c61_decodes",
    "Micro.Json.c61_quote_refuted",
    "Micro.Json.c61_swapped_refuted"
   ],
   "note": "Exact language and decoding of string literals proved; false for \\u0022 (ends the string) and swapped surrogates (c61_*_refuted)."
  },
  {
   "property": "C62",
   "status": "partial",
   "theorems": [
    "Micro.Json.c62_exact_partial",
    "Micro.Json.c62_longest",
    "Micro.Json.c62_accepts",
    "Micro.Json.c62_refuted"
   ],
   "note": "Exact language, longest match; false: -01 is accepted (c62_refuted)."
  },
  {
   "property": "C63",
   "status": "partial",
   "theorems": [
    "Micro.Json.c63_roundtrip_partial",
    "Micro.Json.c63_parsed",
    "Micro.Json.c63_number_string",
    "Micro.Json.c63_integer",
    "Micro.Json.c63_go_roundtrip",
    "Micro.Json.c63_refuted"
   ],
   "note": "False for the invalid Value, for numbers without a digit (NaN) and for map[string]Value/[]Value (c63_refuted); the exact set that round-trips is characterised."
  },
  {
   "property": "C64",
   "status": "proved",
   "theorems": [
    "Micro.Json.c64_parse",
    "Micro.Json.c64_roundtrip",
    "Micro.Json.c64_lookup",
    "Micro.Json.c64_parsed_distinct",
    "Micro.Json.c64_compose"
   ],
   "note": ""
  },
  {
   "property": "C65",
   "status": "proved",
   "theorems": [
    "Micro.Rest.c65_called",
    "Micro.Rest.c65_405",
    "Micro.Rest.c65_404",
    "Micro.Rest.c65_handle",
    "Micro.Rest.c65_handle_errors",
    "Micro.Rest.c65_history"
   ],
   "note": ""
  },
  {
   "property": "C66",
   "status": "proved",
   "theorems": [
    "Micro.Code.c66_operators",
    "Micro.Code.c66_named",
    "Micro.Code.c66_types",
    "Micro.Code.c66_unary",
    "Micro.Code.c66_binary",
    "Micro.Code.c66_boolean",
    "Micro.Code.c66_constructors",
    "Micro.Code.c66_values",
    "Micro.Code.c66_access"
   ],
   "note": ""
  },
  {
   "property": "C67",
   "status": "partial",
   "theorems": [
    "Micro.Code.c67_returns_iff",
    "Micro.Code.c67_kept",
    "Micro.Code.c67_left",
    "Micro.Code.c67_getBasePath_unset",
    "Micro.Code.c67_basePath",
    "Micro.Code.c67_again_refuted",
    "Micro.Code.c67_wiped_refuted",
    "Micro.Code.c67_dir_refuted",
    "Micro.Code.c67_first_partial",
    "Micro.Code.c67_mode_refuted",
    "Micro.Code.c67_dir_partial",
    "Micro.Code.c67_src_partial"
   ],
   "note": "False: a second SetBasePath does not panic and wipes the directory it names (c67_again_refuted, c67_wiped_refuted); Dir panics in every reachable state because its map is nil (c67_dir_refuted); directories are created without permissions, so a non-root user cannot create anything in them (c67_mode_refuted). Proved: base path is that of the first call after every history, effect of a first SetBasePath, of Dir and of Src on the file system; when SetBasePath returns, exactly (c67_returns_iff), and that it leaves the file system alone when a file or an unusable directory is in the way (c67_kept). c67_left: what a failed SetBasePath leaves behind for a user who is not root."
  },
  {
   "property": "C68",
   "status": "proved",
   "theorems": [
    "Micro.IO.c68_lines"
   ],
   "note": ""
  },
  {
   "property": "C69",
   "status": "proved",
   "theorems": [
    "Micro.Json.c69_write",
    "Micro.Json.c69_roundtrip",
    "Micro.Json.c69_fail_after",
    "Micro.Must.c69_direct",
    "Micro.Must.c69_direct_other"
   ],
   "note": "Also for WriteObject and WriteArray called directly (c69_direct); given a value of another type they write the opening bracket before panicking (c69_direct_other)."
  },
  {
   "property": "C70",
   "status": "proved",
   "theorems": [
    "Micro.Json.c70_iterate",
    "Micro.Json.c70_array"
   ],
   "note": ""
  },
  {
   "property": "C71",
   "status": "proved",
   "theorems": [
    "Micro.Json.c71_truncated",
    "Micro.Json.c71_reader_error",
    "Micro.Json.c71_reader_error_any"
   ],
   "note": ""
  },
  {
   "property": "C72",
   "status": "partial",
   "theorems": [
    "Micro.Rest.c72_lost_registration_refuted",
    "Micro.Rest.c72_sound_partial",
    "Micro.Rest.c72_one_writer_partial"
   ],
   "note": "False: two concurrent Handle calls can both return nil and one registration is lost (c72_lost_registration_refuted). Proved: never an invented or duplicated registration under any interleaving; nothing lost with one registering goroutine. C149 has the same question with the memory of the slice and with requests."
  },
  {
   "property": "C73",
   "status": "partial",
   "theorems": [
    "Micro.Rest.c73_json",
    "Micro.Rest.c73_parameter_refuted"
   ],
   "note": "Exact for the literal header application/json; false for a media type with parameters (c73_parameter_refuted)."
  },
  {
   "property": "C74",
   "status": "proved",
   "theorems": [
    "Micro.Funcs.c74_map",
    "Micro.Funcs.c74_map2",
    "Micro.Funcs.c74_slice",
    "Micro.Funcs.c74_slice2"
   ],
   "note": ""
  },
  {
   "property": "C75",
   "status": "partial",
   "theorems": [
    "Micro.Funcs.c75_sliceToMap",
    "Micro.Funcs.c75_sliceToMapBy",
    "Micro.Funcs.c75_keys",
    "Micro.Funcs.c75_unique",
    "Micro.Funcs.c75_sort",
    "Micro.Funcs.c75_complex_refuted",
    "Micro.Funcs.c75_rank",
    "Micro.Funcs.c75_rank_iff"
   ],
   "note": "Proved for ordered keys; false for MapSortComplex, which orders by absolute value only (c75_complex_refuted). c75_rank, c75_rank_iff: the result is determined exactly if no two keys have the same rank (absolute value)."
  },
  {
   "property": "C76",
   "status": "proved",
   "theorems": [
    "Micro.Funcs.c76_slice",
    "Micro.Funcs.c76_slice2",
    "Micro.Funcs.c76_map",
    "Micro.Must.c76_assertType"
   ],
   "note": ""
  },
  {
   "property": "C77",
   "status": "proved",
   "theorems": [
    "Micro.Funcs.c77_in",
    "Micro.Funcs.c77_compose"
   ],
   "note": ""
  },
  {
   "property": "C78",
   "status": "partial",
   "theorems": [
    "Micro.Conv.c78_int_refuted",
    "Micro.Conv.c78_int_partial",
    "Micro.Conv.c78_uint_partial",
    "Micro.Conv.c78_special",
    "Micro.Conv.c78_bigInt",
    "Micro.Conv.c78_big64",
    "Micro.Conv.c78_int_iff",
    "Micro.Conv.c78_uint_iff",
    "Micro.Conv.c78_error_iff"
   ],
   "note": "False for FloatToInt/FloatToUint above ten significant digits, which go through the decimal text of a *big.Float (c78_int_refuted); proved for numbers of at most ten digits, for NaN/Inf and in full for all the other functions. c78_int_iff, c78_uint_iff: exactly those; c78_error_iff: exactly when an error is reported."
  },
  {
   "property": "C79",
   "status": "partial",
   "theorems": [
    "Micro.Conv.c79_bits",
    "Micro.Conv.c79_int",
    "Micro.Conv.c79_bigInt",
    "Micro.Conv.c79_uint_refuted",
    "Micro.Conv.c79_uint_partial",
    "Micro.Conv.c79_rat_refuted",
    "Micro.Conv.c79_special",
    "Micro.Conv.c79_far_refuted",
    "Micro.Conv.c79_rat_partial",
    "Micro.Conv.c79_rat_iff",
    "Micro.Conv.c79_uint_iff",
    "Micro.Conv.c79_ratFloat_dyadic",
    "Micro.Conv.c79_moderate",
    "Micro.Conv.c79_float64_rat"
   ],
   "note": "False for UintToBigFloat above 2^53, FloatToBigRat/BigFloatToBigRat above ten digits and BigRatToBigFloat of small non-integers (refuted); proved for the rest. c79_uint_iff, c79_rat_iff: exactly which values are kept; c79_ratFloat_dyadic: only binary fractions can be. c79_far_refuted: BigFloatToBigRat of a number with a place beyond 10^\u00b11000000 (e.g. 1e1000001) stores a nil pointer and reports no error. c79_bits: the precision computed in float64 (ceil(n*log2(10))) is the exact one for up to 174000 digits."
  },
  {
   "property": "C80",
   "status": "proved",
   "theorems": [
    "Micro.Conv.c80_narrow",
    "Micro.Conv.c80_exact",
    "Micro.Conv.c80_special"
   ],
   "note": ""
  },
  {
   "property": "C81",
   "status": "partial",
   "theorems": [
    "Micro.Conv.c81_big",
    "Micro.Conv.c81_to_refuted",
    "Micro.Conv.c81_to_partial",
    "Micro.Conv.c81_to_exact"
   ],
   "note": "Proved in full for the named functions; To for *big.Int to float32 goes through float64 and rounds silently (c81_to_refuted). c81_to_exact: complete description of that entry."
  },
  {
   "property": "C82",
   "status": "partial",
   "theorems": [
    "Micro.MathInt.c82_float",
    "Micro.MathInt.c82_complex_float",
    "Micro.MathInt.c82_ordered_partial",
    "Micro.MathInt.c82_nan_refuted",
    "Micro.MathInt.c82_complex",
    "Micro.MathInt.c82_cmp"
   ],
   "note": "False for NaN (c82_nan_refuted); proved for every linearly ordered type, for complex numbers (absolute value as parameter) and for every Cmp that is an order. c82_float: exactly what happens for all floats, with NaN, infinities and both zeros."
  },
  {
   "property": "C83",
   "status": "partial",
   "theorems": [
    "Micro.MathInt.c83_named_refuted",
    "Micro.MathInt.c83_predeclared_partial",
    "Micro.MathInt.c83_named_panics"
   ],
   "note": "False for user defined types: panic, or silently no effect (c83_named_refuted, c83_named_panics); proved for the predeclared types."
  },
  {
   "property": "C84",
   "status": "partial",
   "theorems": [
    "Micro.Conv.c84_copy_partial",
    "Micro.Conv.c84_independent_refuted",
    "Micro.Conv.c84_shared",
    "Micro.Conv.c84_independent_partial",
    "Micro.Conv.c84_methods"
   ],
   "note": "False: the copy shares the backing array (c84_independent_refuted, c84_shared); proved: new pointer, equal value, nothing else changed, and independence where no array is shared."
  },
  {
   "property": "C85",
   "status": "partial",
   "theorems": [
    "Micro.Reflect.c85_derefType",
    "Micro.Reflect.c85_numPointers",
    "Micro.Reflect.c85_maxOne",
    "Micro.Reflect.c85_valueMaxOne",
    "Micro.Reflect.c85_returns_refuted",
    "Micro.Reflect.c85_returns_partial"
   ],
   "note": "False for `type P *P` (does not return, c85_returns_refuted); results characterised exactly for every type, and termination proved for every other type."
  },
  {
   "property": "C86",
   "status": "partial",
   "theorems": [
    "Micro.Reflect.c86_derefValue",
    "Micro.Reflect.c86_maxOne",
    "Micro.Reflect.c86_returns_refuted",
    "Micro.Reflect.c86_returns_partial"
   ],
   "note": "False for cyclic pointer types (does not return); results characterised exactly and termination proved for every value of any other type."
  },
  {
   "property": "C87",
   "status": "proved",
   "theorems": [
    "Micro.Reflect.c87_kinds",
    "Micro.Reflect.c87_nillable",
    "Micro.Reflect.c87_isNil"
   ],
   "note": ""
  },
  {
   "property": "C88",
   "status": "partial",
   "theorems": [
    "Micro.Reflect.c88_typeToBaseType",
    "Micro.Reflect.c88_value_partial",
    "Micro.Reflect.c88_nil_refuted",
    "Micro.Reflect.c88_panics_iff",
    "Micro.Reflect.c88_defined_pointer_refuted"
   ],
   "note": "TypeToBaseType proved in full. ValueToBaseType leaves nil pointers unconverted (c88_nil_refuted); proved for everything else. Also false for pointer types with a name, for which it panics (c88_defined_pointer_refuted); c88_panics_iff: exactly when."
  },
  {
   "property": "C89",
   "status": "partial",
   "theorems": [
    "Micro.Reflect.c89_nil_refuted",
    "Micro.Reflect.c89_typeAssert_partial"
   ],
   "note": "Panics for the invalid Value and nil interfaces (c89_nil_refuted); proved for every other value."
  },
  {
   "property": "C90",
   "status": "partial",
   "theorems": [
    "Micro.Reflect.c90_get_partial",
    "Micro.Reflect.c90_nil",
    "Micro.Reflect.c90_set_partial",
    "Micro.Reflect.c90_set_get_partial",
    "Micro.Reflect.c90_not_maybe",
    "Micro.Reflect.c90_unaddressable",
    "Micro.Reflect.c90_nil_refuted",
    "Micro.Reflect.c90_type_refuted"
   ],
   "note": "Panics for a **Maybe with a nil inner pointer and for values of the wrong type (refuted); proved for chains of non-nil pointers, for values that are no Maybe, nil pointers and unaddressable ones."
  },
  {
   "property": "C91",
   "status": "proved",
   "theorems": [
    "Micro.Reflect.c91_set",
    "Micro.Reflect.c91_panics"
   ],
   "note": ""
  },
  {
   "property": "C92",
   "status": "proved",
   "theorems": [
    "Micro.Reflect.c92_fields",
    "Micro.Reflect.c92_distinct",
    "Micro.Reflect.c92_get",
    "Micro.Reflect.c92_blank"
   ],
   "note": ""
  },
  {
   "property": "C93",
   "status": "partial",
   "theorems": [
    "Micro.Strukt.c93_refuted",
    "Micro.Strukt.c93_not_documented",
    "Micro.Strukt.c93_unchanged_partial"
   ],
   "note": "MapToStruct is a stub: every documented demand is false (c93_refuted); c93_unchanged_partial gives what it does."
  },
  {
   "property": "C94",
   "status": "partial",
   "theorems": [
    "Micro.Conv.Dispatch.c94_to",
    "Micro.Conv.Dispatch.c94_anyTo_refuted",
    "Micro.Conv.Dispatch.c94_anyTo_panics_iff",
    "Micro.Conv.Dispatch.c94_anyTo_partial",
    "Micro.Conv.Dispatch.c94_bigOps_refuted",
    "Micro.Conv.Dispatch.c94_bigOps_partial",
    "Micro.Conv.Dispatch.c94_reflectTo_refuted",
    "Micro.Conv.Dispatch.c94_reflectTo_partial",
    "Micro.Conv.Dispatch.c94_reflectTo_iff",
    "Micro.Conv.Dispatch.c94_reflectTo_panics_iff"
   ],
   "note": "To proved in full. AnyTo(nil) panics, ToBigOps panics for user defined sources, ReflectTo fails for equal types and user defined sources (refuted); proved elsewhere. User defined pointer types make AnyTo and ReflectTo panic: c94_anyTo_panics_iff and c94_reflectTo_panics_iff say exactly when."
  },
  {
   "property": "C95",
   "status": "partial",
   "theorems": [
    "Micro.Conv.c95_bigInt",
    "Micro.Conv.c95_bigInt_roundtrip",
    "Micro.Conv.c95_rat_roundtrip",
    "Micro.Conv.c95_ratio",
    "Micro.Conv.c95_number_partial",
    "Micro.Conv.c95_decimal_partial",
    "Micro.Conv.c95_far_refuted",
    "Micro.Conv.c95_rejected",
    "Micro.Conv.c95_ratio_rejected",
    "Micro.Conv.c95_inf_refuted",
    "Micro.Conv.c95_target_refuted"
   ],
   "note": "Target is clobbered on error, FloatStringToBigRat(\"Inf\") succeeds with nil, and \"1e1000001\" is an error for StringToBigRat and a nil result without error for FloatStringToBigRat (refuted); exactness, acceptance and round trips proved, for plain decimals and for texts with exponents. Other forms (other bases, underscores, p exponents, ratios beyond the modelled) enter only through TextLib, a parameter for the standard library parser."
  },
  {
   "property": "C96",
   "status": "partial",
   "theorems": [
    "Micro.Conv.c96_accepts_iff",
    "Micro.Conv.c96_float32_refuted",
    "Micro.Conv.c96_float64_refuted",
    "Micro.Conv.c96_nearest_partial",
    "Micro.Conv.c96_exact_partial",
    "Micro.Conv.c96_short_partial",
    "Micro.Conv.c96_special"
   ],
   "note": "\"0.1\" is an error for float32 and the text of 0.1+0.2 for float64 (refuted); what is accepted is a nearest float, and short exact texts are accepted. c96_accepts_iff: exactly which decimal texts, with or without exponent (up to 10^\u00b150), are accepted."
  },
  {
   "property": "C97",
   "status": "partial",
   "theorems": [
    "Micro.Conv.c97_value_partial",
    "Micro.Conv.c97_alias_refuted",
    "Micro.Conv.c97_alias",
    "Micro.Conv.c97_rat_independent"
   ],
   "note": "BigRatToBigInt returns the numerator of its argument (c97_alias_refuted); values and BigIntToBigRat proved."
  },
  {
   "property": "C98",
   "status": "partial",
   "theorems": [
    "Micro.MathInt.c98_int_partial",
    "Micro.MathInt.c98_inplace_refuted",
    "Micro.MathInt.c98_zero",
    "Micro.MathInt.c98_rat",
    "Micro.MathInt.c98_inplace_iff"
   ],
   "note": "Wrong when the *big.Int quotient goes into the divisor (refuted) and on the inputs of C18; otherwise proved. c98_inplace_iff says exactly when the in-place quotient is right."
  },
  {
   "property": "C99",
   "status": "partial",
   "theorems": [
    "Micro.Stream.c99_sum_exact",
    "Micro.Stream.c99_avg_rat",
    "Micro.Stream.c99_avg_int_refuted",
    "Micro.Stream.c99_avg_int_partial",
    "Micro.Stream.c99_float_refuted",
    "Micro.Stream.c99_float_partial",
    "Micro.Stream.c99_avg_int_wrong",
    "Micro.Stream.c99_float_bits",
    "Micro.Stream.c99_float_count"
   ],
   "note": "*big.Float sums have 4 bits (refuted), *big.Int averages inherit C18 (refuted); *big.Int and *big.Rat sums and *big.Rat averages proved exact. c99_avg_int_wrong, c99_float_bits, c99_float_count: what the excluded inputs give."
  },
  {
   "property": "C100",
   "status": "partial",
   "theorems": [
    "Micro.Stream.c100_sum_wrap",
    "Micro.Stream.c100_sum_refuted",
    "Micro.Stream.c100_sum_partial",
    "Micro.Stream.c100_abs",
    "Micro.Stream.c100_absBig_refuted",
    "Micro.Stream.c100_absBig_partial",
    "Micro.Stream.c100_absBig_error",
    "Micro.Stream.c100_sum_iff"
   ],
   "note": "Sum overflows silently and AbsBigOps changes the source (refuted); Sum is exact modulo 2^bits, and exact without overflow; Abs proved. c100_sum_iff: right exactly if the sum is in range."
  },
  {
   "property": "C101",
   "status": "partial",
   "theorems": [
    "Micro.Stream.c101_expandMaps_iff",
    "Micro.Stream.c101_refuted",
    "Micro.Stream.c101_inverse_partial"
   ],
   "note": "Panics for nil interface keys or values (c101_refuted); c101_expandMaps_iff: otherwise exactly the entries."
  },
  {
   "property": "C102",
   "status": "partial",
   "theorems": [
    "Micro.Stream.c102_refuted",
    "Micro.Stream.c102_fresh",
    "Micro.Stream.c102_partial",
    "Micro.Stream.c102_nil",
    "Micro.Stream.c102_iff"
   ],
   "note": "Generator makes a new function on every use (c102_refuted); documented behaviour proved for histories without immediate repetition. c102_iff: those are exactly the histories for which it holds."
  },
  {
   "property": "C103",
   "status": "partial",
   "theorems": [
    "Micro.Json.c103_error_iff",
    "Micro.Json.c103_document_iff",
    "Micro.Json.c103_accepts",
    "Micro.Json.c103_panic_refuted",
    "Micro.Json.c103_error_partial",
    "Micro.Json.c103_number_refuted",
    "Micro.Json.c103_document_partial"
   ],
   "note": "Panics for user defined string types, NaN becomes invalid JSON (refuted); acceptance proved exactly, and the JSON round trip for values without characters that need escapes. c103_error_iff: exactly which error or panic for which value; c103_document_iff: exactly which Go values survive ToValue, Write and Parse."
  },
  {
   "property": "C104",
   "status": "proved",
   "theorems": [
    "Micro.Json.c104_accessors",
    "Micro.Json.c104_toMap",
    "Micro.Json.c104_constructors",
    "Micro.Json.c104_must",
    "Micro.Json.c104_names"
   ],
   "note": ""
  },
  {
   "property": "C105",
   "status": "partial",
   "theorems": [
    "Micro.Funcs.c105_copy",
    "Micro.Funcs.c105_of",
    "Micro.Funcs.c105_of_spread",
    "Micro.Funcs.c105_add",
    "Micro.Funcs.c105_remove",
    "Micro.Funcs.c105_reverse",
    "Micro.Funcs.c105_sort",
    "Micro.Funcs.c105_remove_refuted"
   ],
   "note": "SliceRemove returns its argument itself, not a new slice, if the value is absent and all is not given (c105_remove_refuted); everything else proved."
  },
  {
   "property": "C106",
   "status": "partial",
   "theorems": [
    "Micro.Event.c106_reach",
    "Micro.Event.c106_send_partial",
    "Micro.Event.c106_quiet",
    "Micro.Event.c106_terminates",
    "Micro.Event.c106_plain",
    "Micro.Event.c106_operations",
    "Micro.Event.c106_history",
    "Micro.Event.c106_removeId_refuted",
    "Micro.Event.c106_register_refuted",
    "Micro.Event.c106_removeId_order",
    "Micro.Event.c106_removeId_exact",
    "Micro.Event.c106_register_exact",
    "Micro.Event.c106_register_new",
    "Micro.Event.c106_remove_exact"
   ],
   "note": "A receiver that calls RemoveId makes Send skip the next id and call the last one twice, and the visibility of a registration during Send depends on the backing array (refuted); proved for all receivers that do not call RemoveId, any nesting. c106_operations and c106_history tie the registry in memory to the ordered slices of C44. c106_removeId_order: what holds for any receivers that call RemoveId; c106_removeId_exact, c106_register_exact, c106_register_new, c106_remove_exact: exactly which ids and receivers are called if one receiver makes one change."
  },
  {
   "property": "C107",
   "status": "proved",
   "theorems": [
    "Micro.Iter.c107_rows",
    "Micro.Iter.c107_nil",
    "Micro.Iter.c107_rows_shared"
   ],
   "note": "Proved; c107_rows_shared makes the documented reuse precise."
  },
  {
   "property": "C108",
   "status": "partial",
   "theorems": [
    "Micro.Iter.c108_maybe_partial",
    "Micro.Iter.c108_maybe_interface_refuted"
   ],
   "note": "Proved for all element types whose zero value is not a nil interface; for interface types Maybe panics at the end (refuted)."
  },
  {
   "property": "C109",
   "status": "partial",
   "theorems": [
    "Micro.Iter.c109_valid",
    "Micro.Iter.c109_total",
    "Micro.Iter.c109_agree_iff",
    "Micro.Iter.c109_agree_refuted"
   ],
   "note": "Agreement holds exactly for valid UTF-8 (c109_agree_iff); refuted for other strings."
  },
  {
   "property": "C110",
   "status": "partial",
   "theorems": [
    "Micro.Rest.c110_csv",
    "Micro.Rest.c110_csv_parameter_refuted",
    "Micro.Rest.c110_gzip_partial",
    "Micro.Rest.c110_gzip_plain_body_refuted",
    "Micro.Rest.c110_gzip_list_refuted"
   ],
   "note": "CSV and gzip proved for the exact header values; parameters, header lists and plain bodies refuted."
  },
  {
   "property": "C111",
   "status": "partial",
   "theorems": [
    "Micro.Funcs.c111_linear",
    "Micro.Funcs.c111_float_partial",
    "Micro.Funcs.c111_sign",
    "Micro.Funcs.c111_nan_refuted"
   ],
   "note": "Proved for linear orders and floats that are not NaN; NaN refuted."
  },
  {
   "property": "C112",
   "status": "proved",
   "theorems": [
    "Micro.Funcs.c112_compose",
    "Micro.Funcs.c112_assoc",
    "Micro.Funcs.c112_ternary"
   ],
   "note": "Proved."
  },
  {
   "property": "C113",
   "status": "partial",
   "theorems": [
    "Micro.Funcs.c113_nil_partial",
    "Micro.Funcs.c113_nil_refuted",
    "Micro.Funcs.c113_must"
   ],
   "note": "Exact description proved; the documented behaviour fails for interface types and unsafe.Pointer (refuted)."
  },
  {
   "property": "C114",
   "status": "proved",
   "theorems": [
    "Micro.Must.c114_toBigInt",
    "Micro.Must.c114_toBig",
    "Micro.Must.c114_to",
    "Micro.Must.c114_funcs",
    "Micro.Must.c114_slices",
    "Micro.Must.c114_writeDirect",
    "Micro.Must.c114_value",
    "Micro.Must.c114_must",
    "Micro.Must.c114_decimals",
    "Micro.Must.c114_mustDecimal",
    "Micro.Must.c114_sum",
    "Micro.Must.c114_adjust",
    "Micro.Must.c114_integers",
    "Micro.Must.c114_bigInt",
    "Micro.Must.c114_big64",
    "Micro.Must.c114_text",
    "Micro.Must.c114_floats",
    "Micro.Must.c114_narrow",
    "Micro.Must.c114_convs",
    "Micro.Must.c114_parse",
    "Micro.Must.c114_write",
    "Micro.Must.c114_write_parse",
    "Micro.Must.c114_handle"
   ],
   "note": "Proved; end-to-end where the plain function is fully specified (integers, big numbers, texts, Decimals, parse, write, handle)."
  },
  {
   "property": "C115",
   "status": "partial",
   "theorems": [
    "Micro.Funcs.c115_after_first_partial",
    "Micro.Funcs.c115_first_alone_partial",
    "Micro.Funcs.c115_overlap_refuted",
    "Micro.Funcs.c115_values",
    "Micro.Funcs.c115_calls",
    "Micro.Funcs.c115_calls_all",
    "Micro.Funcs.c115_once_iff",
    "Micro.Funcs.c115_zero"
   ],
   "note": "Proved for calls after the first has returned and for a first call alone; overlapping first calls refuted. c115_calls, c115_once_iff: exactly how often the supplier is called, for every schedule; c115_zero: exactly who gets the zero value when it is called once."
  },
  {
   "property": "C116",
   "status": "proved",
   "theorems": [
    "Micro.Stream.c116_map",
    "Micro.Stream.c116_peek",
    "Micro.Stream.c116_limit_skip",
    "Micro.Stream.c116_filter",
    "Micro.Stream.c116_distinct",
    "Micro.Stream.c116_match",
    "Micro.Stream.c116_reduce_hangs",
    "Micro.Stream.c116_search_hangs",
    "Micro.Stream.c116_infinite",
    "Micro.Stream.c116_concat",
    "Micro.Stream.c116_expand"
   ],
   "note": "Proved."
  },
  {
   "property": "C117",
   "status": "partial",
   "theorems": [
    "Micro.Stream.c117_congruence",
    "Micro.Stream.c117_unread",
    "Micro.Stream.c117_map_map",
    "Micro.Stream.c117_filter_map",
    "Micro.Stream.c117_filter_filter",
    "Micro.Stream.c117_filter_and",
    "Micro.Stream.c117_distinct",
    "Micro.Stream.c117_identity",
    "Micro.Stream.c117_skip_skip",
    "Micro.Stream.c117_limit_limit",
    "Micro.Stream.c117_map_skip_limit",
    "Micro.Stream.c117_limit_skip_partial",
    "Micro.Stream.c117_limit_skip_refuted",
    "Micro.Stream.c117_reduce_map",
    "Micro.Stream.c117_count_map",
    "Micro.Stream.c117_congruence_reduce",
    "Micro.Stream.c117_match_map",
    "Micro.Stream.c117_de_morgan",
    "Micro.Stream.c117_map_concat",
    "Micro.Stream.c117_concat_concat",
    "Micro.Stream.c117_filter_concat"
   ],
   "note": "Every law proved for every source; Skip/Limit exchange only for n > 0 (c117_limit_skip_partial), and refuted for n = 0 (c117_limit_skip_refuted). The congruence theorems let the laws be applied anywhere in a pipeline."
  },
  {
   "property": "C118",
   "status": "partial",
   "theorems": [
    "Micro.Conv.c118_exact_iff",
    "Micro.Conv.c118_complete_iff",
    "Micro.Conv.c118_clean_iff",
    "Micro.Conv.c118_refuted",
    "Micro.Conv.c118_to_partial"
   ],
   "note": "False for the pairs listed in lossy, refusing and clobbering (c118_refuted). c118_exact_iff, c118_complete_iff, c118_clean_iff: exactly these pairs, on amd64 and arm64; c118_to_partial: the full demand for all others. For a nil source see C122."
  },
  {
   "property": "C119",
   "status": "partial",
   "theorems": [
    "Micro.Conv.c119_round_trip_partial",
    "Micro.Conv.c119_path_partial",
    "Micro.Conv.c119_path_refuted",
    "Micro.Conv.c119_round_trip_refuted"
   ],
   "note": "Refuted for the lossy pairs (c119_path_refuted, c119_round_trip_refuted); proved for all types between which To is exact."
  },
  {
   "property": "C120",
   "status": "partial",
   "theorems": [
    "Micro.Iter.c120_map_iff",
    "Micro.Iter.c120_map_panics",
    "Micro.Iter.c120_map_refuted",
    "Micro.Iter.c120_map_partial"
   ],
   "note": "Panics for nil interface keys or values (c120_map_refuted); c120_map_iff: otherwise always delivers exactly the entries; c120_map_panics: where it panics."
  },
  {
   "property": "C121",
   "status": "partial",
   "theorems": [
    "Micro.Stream.c121_numbers_partial",
    "Micro.Stream.c121_after_nan",
    "Micro.Stream.c121_refuted"
   ],
   "note": "Max(3, NaN, 1) = 1 (c121_refuted); c121_numbers_partial: right without NaN; c121_after_nan: exactly what is computed with NaN."
  },
  {
   "property": "C122",
   "status": "partial",
   "theorems": [
    "Micro.Conv.c122_numeric",
    "Micro.Conv.c122_pointer",
    "Micro.Conv.c122_numeric_partial",
    "Micro.Conv.c122_refuted",
    "Micro.Conv.c122_text",
    "Micro.Json.c122_json_refuted"
   ],
   "note": "False for strings and for json.NumberToValue (c122_refuted, c122_json_refuted); c122_numeric: exact result for numeric targets; c122_text: for string targets."
  },
  {
   "property": "C123",
   "status": "partial",
   "theorems": [
    "Micro.Dec.c123_comm",
    "Micro.Dec.c123_zero",
    "Micro.Dec.c123_negate",
    "Micro.Dec.c123_sign",
    "Micro.Dec.c123_one_partial",
    "Micro.Dec.c123_one_refuted",
    "Micro.Dec.c123_mono_partial",
    "Micro.Dec.c123_mono_refuted",
    "Micro.Dec.c123_close",
    "Micro.Dec.c123_mono_close",
    "Micro.Dec.c123_mono_apart",
    "Micro.Dec.c123_one_iff"
   ],
   "note": "Commutativity, zero, sign and negation proved in full; one is false for 1 with fractional digits and the order is not kept (c123_one_refuted, c123_mono_refuted); _partial: 1 without fractional digits, exact products. c123_one_iff: exactly for which Decimals and which representation of 1 it holds. c123_close, c123_mono_close, c123_mono_apart: for all operands Mul is right about (c09_iff) the order is kept up to the rounding."
  },
  {
   "property": "C124",
   "status": "partial",
   "theorems": [
    "Micro.Dec.c124_error",
    "Micro.Dec.c124_orders",
    "Micro.Dec.c124_sum_partial",
    "Micro.Dec.c124_order_partial",
    "Micro.Dec.c124_assoc_partial",
    "Micro.Dec.c124_mono_partial",
    "Micro.Dec.c124_refuted"
   ],
   "note": "False in general (c124_refuted); _partial: at most 17 fractional digits and magnitudes that add up to less than 10^(18-m). c124_error, c124_orders: without those conditions, every sum that is returned is within half the number of additions, and two orders differ by at most that number."
  },
  {
   "property": "C125",
   "status": "partial",
   "theorems": [
    "Micro.Dec.c125_multiple",
    "Micro.Dec.c125_one",
    "Micro.Dec.c125_self",
    "Micro.Dec.c125_zero",
    "Micro.Dec.c125_negate",
    "Micro.Dec.c125_one_refuted",
    "Micro.Dec.c125_one_iff",
    "Micro.Dec.c125_short",
    "Micro.Dec.c125_roundtrip"
   ],
   "note": "False for 1 with 17 fractional digits (c125_one_refuted); everything else proved; c125_negate excludes the smallest int64 as a result, which is not a valid Decimal. c125_one_iff: exactly which Decimals a one with fractional digits leaves unchanged. c125_short, c125_roundtrip: Div is exact whenever the dividend with zeros appended is a multiple of at most 18 digits; so it undoes every exact Mul."
  },
  {
   "property": "C126",
   "status": "proved",
   "theorems": [
    "Micro.Json.c126_toValue",
    "Micro.Json.c126_frame",
    "Micro.Json.c126_unique",
    "Micro.Json.c126_toAny_returns",
    "Micro.Json.c126_toAny",
    "Micro.Json.c126_any_frame",
    "Micro.Json.c126_map_live",
    "Micro.Json.c126_slice_live",
    "Micro.Json.c126_shared_witness",
    "Micro.Json.c126_cyclic"
   ],
   "note": "Proved as stated. c126_map_live and c126_slice_live say exactly what a write to a shared map or slice does; c126_cyclic: a Value can be put into its own map, and then ToAny does not return."
  },
  {
   "property": "C127",
   "status": "proved",
   "theorems": [
    "Micro.MathInt.c127_float_errors",
    "Micro.MathInt.c127_float_finite",
    "Micro.MathInt.c127_float_infinite",
    "Micro.MathInt.c127_nil",
    "Micro.MathInt.c127_precision_refuted"
   ],
   "note": "Everything stated is proved; the wish that the quotient is as precise as the operands is refuted for nil quotients (c127_precision_refuted)."
  },
  {
   "property": "C128",
   "status": "proved",
   "theorems": [
    "Micro.Rest.c128_copies",
    "Micro.Rest.c128_both",
    "Micro.Rest.c128_copies_refuted"
   ],
   "note": "First sentence c128_copies, second c128_both (exact outcome, for every growth policy); c128_copies_refuted: a concrete history with the wrong handler."
  },
  {
   "property": "C129",
   "status": "proved",
   "theorems": [
    "Micro.Iter.c129_live",
    "Micro.Iter.c129_add",
    "Micro.Iter.c129_inplace",
    "Micro.Iter.c129_filter",
    "Micro.Iter.c129_ahead_refuted"
   ],
   "note": "The statement has the condition that never more is written than read; c129_ahead_refuted shows the condition is needed."
  },
  {
   "property": "C130",
   "status": "proved",
   "theorems": [
    "Micro.MathInt.c130_div",
    "Micro.MathInt.c130_div_finite",
    "Micro.MathInt.c130_div_special",
    "Micro.MathInt.c130_abs",
    "Micro.MathInt.c130_absBig",
    "Micro.MathInt.c130_absBigFloat"
   ],
   "note": "Everything stated is proved. The payload of NaNs is not modelled."
  },
  {
   "property": "C131",
   "status": "proved",
   "theorems": [
    "Micro.Stream.c131_map",
    "Micro.Stream.c131_filter",
    "Micro.Stream.c131_filter_state",
    "Micro.Stream.c131_limit",
    "Micro.Stream.c131_skip",
    "Micro.Stream.c131_match",
    "Micro.Stream.c131_toSlice",
    "Micro.Stream.c131_finished",
    "Micro.Stream.c131_shared",
    "Micro.Stream.c131_concat",
    "Micro.Stream.c131_concat_reads",
    "Micro.Stream.c131_unread",
    "Micro.Stream.c131_unread_source"
   ],
   "note": "Everything stated is proved."
  },
  {
   "property": "C132",
   "status": "partial",
   "theorems": [
    "Micro.Funcs.c132_ordinary",
    "Micro.Funcs.c132_nan_key",
    "Micro.Funcs.c132_nothing_lost",
    "Micro.Funcs.c132_nan_refuted",
    "Micro.Funcs.c132_elements"
   ],
   "note": "Proved for slices and keys without NaN, and exactly what happens for a NaN key; refuted for ordinary keys when a NaN key is present."
  },
  {
   "property": "C133",
   "status": "partial",
   "theorems": [
    "Micro.Conv.c133_bigFloat_refuted",
    "Micro.Conv.c133_bigFloat_nil_refuted",
    "Micro.Conv.c133_big_refuted",
    "Micro.Conv.c133_unchanged_partial",
    "Micro.Conv.c133_float_refuted"
   ],
   "note": "Refuted: what each target holds after an error is proved exactly; unchanged only for FloatStringToBigRat and for texts that are not numbers with floats."
  },
  {
   "property": "C134",
   "status": "partial",
   "theorems": [
    "Micro.Conv.c134_bigFloat",
    "Micro.Conv.c134_rat",
    "Micro.Conv.c134_normalized",
    "Micro.Conv.c134_float_partial",
    "Micro.Conv.c134_short",
    "Micro.Conv.c134_special",
    "Micro.Conv.c134_float32_refuted",
    "Micro.Json.c134_json"
   ],
   "note": "The read back of float texts is proved up to errors, which do occur (c134_float32_refuted: the float32 nearest to 1/10, written 0.1); strconv's shortest digits are a parameter with the property that they identify the float."
  },
  {
   "property": "C135",
   "status": "partial",
   "theorems": [
    "Micro.Json.c135_parse",
    "Micro.Json.c135_text",
    "Micro.Json.c135_rfc",
    "Micro.Json.c135_roundtrip",
    "Micro.Json.c135_total",
    "Micro.Json.c135_bytes_partial",
    "Micro.Json.c135_prefix",
    "Micro.Json.c135_nil",
    "Micro.Json.c135_must",
    "Micro.Json.c135_endless",
    "Micro.Json.c135_readers_refuted",
    "Micro.Json.c135_invalid_refuted",
    "Micro.Json.c135_iterate",
    "Micro.Json.c135_iterate_text",
    "Micro.Json.c135_stream",
    "Micro.Json.c135_iterate_same",
    "Micro.Json.c135_roundtrip_iff"
   ],
   "note": "Code-level refinement of lexer and parser from bytes; refuted for readers with short reads or data with EOF and for invalid UTF-8 (both inherited from C29). c135_roundtrip_iff: which documents come back through bytes, exactly."
  },
  {
   "property": "C136",
   "status": "proved",
   "theorems": [
    "Micro.Regex.c136_language",
    "Micro.Regex.c136_leftmost",
    "Micro.Regex.c136_decimal",
    "Micro.Regex.c136_number",
    "Micro.Regex.c136_path",
    "Micro.Regex.c136_camel",
    "Micro.Regex.c136_route",
    "Micro.Regex.c136_route_unique",
    "Micro.Regex.c136_serve",
    "Micro.Regex.c136_serve_errors",
    "Micro.Regex.c136_unanchored",
    "Micro.Regex.c136_unanchored_serves",
    "Micro.Regex.c136_unescaped_serves",
    "Micro.Regex.c136_sources",
    "Micro.Regex.c136_route_text",
    "Micro.Regex.c136_handle_text",
    "Micro.Regex.c136_serve_text",
    "Micro.Regex.c136_serve_text_errors",
    "Micro.Regex.c136_unbalanced_text"
   ],
   "note": "Regular expression semantics and the parser of patterns; the scanners used by the other models are derived from it; routes of a ServeMux end to end, from the texts given to Handle. Flags, POSIX and Unicode classes of user patterns are not modelled."
  },
  {
   "property": "C137",
   "status": "partial",
   "theorems": [
    "Micro.IO.c137_new",
    "Micro.IO.c137_write",
    "Micro.IO.c137_output",
    "Micro.IO.c137_append_refuted",
    "Micro.IO.c137_nil_map",
    "Micro.IO.c137_write_panic",
    "Micro.IO.c137_panic_refuted"
   ],
   "note": "Refuted for callers that append to the returned slice and for the documented panics; everything else proved for all histories."
  },
  {
   "property": "C138",
   "status": "proved",
   "theorems": [
    "Micro.Tuple.c138_values",
    "Micro.Tuple.c138_same",
    "Micro.Tuple.c138_determined",
    "Micro.Tuple.c138_string"
   ],
   "note": "Proved."
  },
  {
   "property": "C139",
   "status": "partial",
   "theorems": [
    "Micro.Code.c139_texts_partial",
    "Micro.Code.c139_kept",
    "Micro.Code.c139_src_iff",
    "Micro.Code.c139_same_path_refuted",
    "Micro.Code.c139_existing_refuted",
    "Micro.Code.c139_removed"
   ],
   "note": "Exact when Src returns; contents of the files of all sources at different paths, whatever the history; other files unchanged without SetBasePath. Refuted: that Src panics if the file already exists, and sources of different names at the same path."
  },
  {
   "property": "C140",
   "status": "partial",
   "theorems": [
    "Micro.Json.c140_document_partial",
    "Micro.Json.c140_numbers",
    "Micro.Json.c140_float_refuted"
   ],
   "note": "Whole documents; integers and *big.Int always come back, floats come back or give an error and always come back if their text has at most 15 runes. Missing: strings that need escapes, NaN and infinities (refuted under C59 and C103), floats with long texts (refuted)."
  },
  {
   "property": "C141",
   "status": "partial",
   "theorems": [
    "Micro.Funcs.Try.c141_order",
    "Micro.Funcs.Try.c141_calls",
    "Micro.Funcs.Try.c141_handler",
    "Micro.Funcs.Try.c141_ends",
    "Micro.Funcs.Try.c141_recover_refuted",
    "Micro.Funcs.Try.c141_caught_partial",
    "Micro.Funcs.Try.c141_ignoreResult"
   ],
   "note": "All but the last sentence is proved exactly; the last one is refuted for closers that recover, and proved for closers that neither recover, exit nor panic with nil (c141_caught_partial)."
  },
  {
   "property": "C142",
   "status": "partial",
   "theorems": [
    "Micro.Stream.Crash.c142_avgInt",
    "Micro.Stream.Crash.c142_avgUint",
    "Micro.Stream.Crash.c142_avg_refuted",
    "Micro.Stream.Crash.c142_stopped",
    "Micro.Stream.Crash.c142_unread",
    "Micro.Stream.Crash.c142_map",
    "Micro.Stream.Crash.c142_peek",
    "Micro.Stream.Crash.c142_filter",
    "Micro.Stream.Crash.c142_mapError",
    "Micro.Stream.Crash.c142_fusion",
    "Micro.Stream.Crash.c142_reduceTo",
    "Micro.Stream.Crash.c142_reduceTo_zero",
    "Micro.Stream.Crash.c142_reduce",
    "Micro.Stream.Crash.c142_toSlice",
    "Micro.Stream.Crash.c142_toBool",
    "Micro.Stream.Crash.c142_once",
    "Micro.Stream.Crash.c142_skip",
    "Micro.Stream.Crash.c142_limit",
    "Micro.Stream.Crash.c142_plain"
   ],
   "note": "Exact for all transforms listed, including which value is lost; false for AvgInt/AvgUint, for which the behaviour is proved exactly as well (c142_avgInt, c142_avgUint, with overflow)."
  },
  {
   "property": "C143",
   "status": "partial",
   "theorems": [
    "Micro.Stream.Crash.c143_expandSlices_partial",
    "Micro.Stream.Crash.c143_expandSlices_stuck",
    "Micro.Stream.Crash.c143_expandSlices_refuted",
    "Micro.Stream.Crash.c143_expandMaps_partial",
    "Micro.Stream.Crash.c143_expandMaps_stuck",
    "Micro.Stream.Crash.c143_expandMaps_refuted",
    "Micro.Stream.Crash.c143_concat",
    "Micro.Stream.Crash.c143_setError",
    "Micro.Stream.Crash.c143_infinite",
    "Micro.Stream.Crash.c143_intoSlice",
    "Micro.Stream.Crash.c143_distinct",
    "Micro.Stream.Crash.c143_eager"
   ],
   "note": "Exact for all iterators listed. ExpandSlices and ExpandMaps: proved under the exact condition (no panic right after an empty non-nil slice or map), and proved to be stuck forever otherwise. The order in which a map is iterated is any list order; sort.Slice is a function of the slice."
  },
  {
   "property": "C144",
   "status": "partial",
   "theorems": [
    "Micro.Stream.ParCrash.c144_exact",
    "Micro.Stream.ParCrash.c144_partial",
    "Micro.Stream.ParCrash.c144_fatal",
    "Micro.Stream.ParCrash.c144_map",
    "Micro.Stream.ParCrash.c144_source",
    "Micro.Stream.ParCrash.c144_one",
    "Micro.Stream.ParCrash.c144_refuted"
   ],
   "note": "Proved: the exact set of outcomes (c144_exact), that the program is terminated under every schedule that gives the threads enough steps (c144_fatal, c144_map), that it never is without a panic (c144_partial), the cases of a panicking source and of one element. Refuted: a result with missing values may be seen before the program ends. A panic of the call of `transforms` itself in a thread is the case of a machine whose first action is a panic; for a source of one element, where Parallel itself would panic, it is not modelled."
  },
  {
   "property": "C145",
   "status": "proved",
   "theorems": [
    "Micro.Regex.c145_empty",
    "Micro.Regex.c145_greedy",
    "Micro.Regex.c145_shortest",
    "Micro.Regex.c145_longest",
    "Micro.Regex.c145_compile",
    "Micro.Regex.c145_unbalanced",
    "Micro.Regex.c145_name",
    "Micro.Regex.c145_dangling",
    "c145_escape",
    "c145_class",
    "c145_bounds",
    "c145_handle",
    "c145_serve",
    "c145_letters",
    "c145_number",
    "c145_number_bad"
   ],
   "note": "Proved for every pattern of the grammar in Verif/Regex/RoundSpec.lean, of any size. The reader models regexp/syntax of Go's library, on which Handle relies."
  },
  {
   "property": "C146",
   "status": "proved",
   "theorems": [
    "Micro.Event.c146_send",
    "Micro.Event.c146_again",
    "Micro.Event.c146_conservative",
    "Micro.Event.c146_history",
    "Micro.Event.c146_terminates",
    "Micro.Event.c146_prefix",
    "Micro.Event.c146_removed"
   ],
   "note": "Proved. c146_prefix and c146_terminates are for receivers that do not send; for receivers that do, c146_history and c146_conservative hold."
  },
  {
   "property": "C147",
   "status": "proved",
   "theorems": [
    "Micro.Stream.Race.c147_raceFree",
    "Micro.Stream.Race.c147_accesses",
    "Micro.Stream.Race.c147_same",
    "Micro.Stream.Race.c147_possible"
   ],
   "note": "Proved. Variables a transform captures itself are not part of the model: sharing them between threads is up to the caller."
  },
  {
   "property": "C148",
   "status": "partial",
   "theorems": [
    "Micro.Stream.GenRace.c148_generated",
    "Micro.Stream.GenRace.c148_last",
    "Micro.Stream.GenRace.c148_own_iff",
    "Micro.Stream.GenRace.c148_shared_iff",
    "Micro.Stream.GenRace.c148_refuted",
    "Micro.Stream.GenRace.c148_partial"
   ],
   "note": "Refuted for overlapping calls, which the documentation warns of; exact characterisation by c148_own_iff and c148_shared_iff, proved for calls that do not overlap between store and read."
  },
  {
   "property": "C149",
   "status": "partial",
   "theorems": [
    "Micro.Rest.Conc.c149_answer",
    "Micro.Rest.Conc.c149_earlier",
    "Micro.Rest.Conc.c149_kept",
    "Micro.Rest.Conc.c149_answered",
    "Micro.Rest.Conc.c149_registers",
    "Micro.Rest.Conc.c149_holds_partial",
    "Micro.Rest.Conc.c149_snapshot_partial",
    "Micro.Rest.Conc.c149_one_goroutine",
    "Micro.Rest.Conc.c149_lost_refuted",
    "Micro.Rest.Conc.c149_wiped_refuted",
    "Micro.Rest.Conc.c149_overwritten_refuted"
   ],
   "note": "Refuted for overlapping calls of Handle; c149_answer, c149_earlier and c149_kept hold for all schedules, the rest when calls of Handle do not overlap (requests may overlap with them). Reads and writes of slice headers and elements are taken to be atomic. Also proved: every request is answered and every goroutine makes all its registrations with its own steps alone, whatever the others do."
  },
  {
   "property": "C150",
   "status": "partial",
   "theorems": [
    "Micro.Event.Conc.c150_no_panic",
    "Micro.Event.Conc.c150_calls",
    "Micro.Event.Conc.c150_returns",
    "Micro.Event.Conc.c150_undisturbed",
    "Micro.Event.Conc.c150_no_panic_partial",
    "Micro.Event.Conc.c150_calls_partial",
    "Micro.Event.Conc.c150_holds_partial",
    "Micro.Event.Conc.c150_send_partial",
    "Micro.Event.Conc.c150_registered_partial",
    "Micro.Event.Conc.c150_one_goroutine",
    "Micro.Event.Conc.c150_changes_return",
    "Micro.Event.Conc.c150_changes_return_partial",
    "Micro.Event.Conc.c150_lost_refuted",
    "Micro.Event.Conc.c150_panic_refuted",
    "Micro.Event.Conc.c150_id_refuted",
    "Micro.Event.Conc.c150_removeId_refuted"
   ],
   "note": "Refuted for overlapping calls of Register, RemoveId and Remove (lost receivers, a panic, receivers under a wrong id) and for RemoveId during a Send; c150_no_panic (Sends), c150_calls, c150_returns and c150_undisturbed hold for all schedules, the rest when calls that change the registry do not overlap with one another (Sends may overlap with them). Reads and writes of slice headers and elements are taken to be atomic; the search of a call is one step and its second reading of the registry another. Also proved: every goroutine that changes the registry ends its calls with its own steps alone, whatever the others do; none panics if only one goroutine changes the registry."
  },
  {
   "property": "C151",
   "status": "partial",
   "theorems": [
    "Micro.Json.c151_written_iff",
    "Micro.Json.c151_collected",
    "Micro.Json.c151_written_partial",
    "Micro.Json.c151_written_refuted",
    "Micro.Json.c151_bad_element",
    "Micro.Json.c151_bad_document"
   ],
   "note": "Writing the result back holds for values without characters that need an escape (c151_written_refuted, see C59); everything else without restriction. c151_written_iff: exactly the elements without such characters come back."
  },
  {
   "property": "C152",
   "status": "partial",
   "theorems": [
    "Micro.Conv.c152_error",
    "Micro.Conv.c152_names_partial",
    "Micro.Conv.c152_other",
    "Micro.Conv.c152_true",
    "Micro.Conv.c152_text_error",
    "Micro.Conv.c152_text_names_partial",
    "Micro.Conv.c152_text_other",
    "Micro.Conv.c152_refuted"
   ],
   "note": "False of the conversions through a wider type (c152_refuted); c152_names_partial and c152_text_names_partial cover all others, c152_other and c152_text_other say exactly what the message is for these, c152_true that every message is true, c152_error and c152_text_error that there is one iff the call fails. Texts of values are not modelled."
  },
  {
   "property": "C153",
   "status": "proved",
   "theorems": [
    "Micro.IO.c153_runes",
    "Micro.IO.c153_lines",
    "Micro.IO.c153_failed_writer",
    "Micro.IO.c153_prefix",
    "Micro.Json.c153_json",
    "Micro.Json.c153_written"
   ],
   "note": "c153_runes, c153_lines (exactly what is given, with the specification LastPart), c153_prefix (the same for every k, in terms of the written lines only), c153_failed_writer (what an ErrorWriter took), c153_json and c153_written. Other readers than a byte reader are those of C29 and C31."
  },
  {
   "property": "C154",
   "status": "partial",
   "theorems": [
    "Micro.Iter.Csv.c154_ends",
    "Micro.Iter.Csv.c154_exact",
    "Micro.Iter.Csv.c154_roundtrip_partial",
    "Micro.Iter.Csv.c154_before",
    "Micro.Iter.Csv.c154_cut",
    "Micro.Iter.Csv.c154_crlf_refuted",
    "Micro.Iter.Csv.c154_empty_refuted",
    "Micro.Rest.c154_request_partial"
   ],
   "note": "c154_exact: exactly which texts are read to the end without an error, and the rows; c154_ends: every text; c154_before and c154_cut: complete rows come first, a cut gives at most one more; c154_roundtrip_partial and c154_request_partial leave out fields with CR LF and unquoted rows of one empty field (refuted). encoding/csv is modelled from its published source (Go 1.18), as characters; sources that fail with another error than EOF are C156."
  },
  {
   "property": "C155",
   "status": "partial",
   "theorems": [
    "Micro.Json.c155_prefix_partial",
    "Micro.Json.c155_failed_reader",
    "Micro.Json.c155_array_partial",
    "Micro.Json.c155_bytes_partial",
    "Micro.Json.c155_number_refuted",
    "Micro.Rest.c155_request_partial"
   ],
   "note": "c155_prefix_partial: any two texts of which one begins the other; c155_failed_reader: true without exception if the reader fails; c155_array_partial and c155_bytes_partial: arrays in RFC 8259 notation, all but a last number that is cut off (c155_number_refuted); c155_request_partial: the same for NegotiateJSONContent."
  },
  {
   "property": "C156",
   "status": "proved",
   "theorems": [
    "Micro.Iter.Csv.c156_prefix",
    "Micro.Iter.Csv.c156_complete",
    "Micro.Rest.c156_request"
   ],
   "note": "c156_prefix: every text and continuation; c156_complete: complete rows and a piece of a line; c156_request: the same for NegotiateCSVContent. encoding/csv is modelled from its published source (Go 1.18); what its Read gives after an error is left out (Iter.Next does not call it again)."
  },
  {
   "property": "C157",
   "status": "proved",
   "theorems": [
    "Micro.IO.Nil.c157_new",
    "Micro.IO.Nil.c157_success",
    "Micro.IO.Nil.c157_stopped",
    "Micro.IO.Nil.c157_append",
    "Micro.IO.Nil.c157_nothing",
    "Micro.IO.Nil.c157_destination"
   ],
   "note": "c157_success, c157_stopped: every writing function; c157_nothing: the six constructors with nil; c157_destination: the results of C57 otherwise. An io.Writer that itself panics is a writing function of c157_stopped; non-nil interfaces that hold nil pointers are such Writers."
  }
 ]
}