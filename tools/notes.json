{
 "C16": {
  "note": "False of the code when *sed is the minimum of its type (c16_subInt_refuted); exact for every other subtrahend, and the exact wrong behaviour at the excluded point is proved too."
 },
 "C18": {
  "note": "Unsigned proved in full. Signed: false when the quotient lies in (-1,-1/2] (stored as +1) and for min/-1; c18_div_signed_partial covers every other input and c18_div_signed_wrong shows every excluded input is wrong. c18_divBig_wrong: the same for *big.Int."
 },
 "C20": {
  "note": "OfRange does not check the initial value (c20_ofRange_refuted) and accepts NaN bounds (c20_nan_refuted); for every integer and float type the invariant is proved for every history starting from an in-range value, and the panics of OfRange are characterised exactly. c20_history_iff: the value stays within the bounds exactly if the initial value or some argument was."
 },
 "C22": {
  "status": "proved",
  "note": "Acceptance and value proved exactly for every string and type; c22_target_clobbered_refuted records that int64/uint64 targets are overwritten on error, which the property does not forbid."
 },
 "C29": {
  "note": "Round trip of all Unicode texts proved. False: over-long/surrogate forms accepted (c29_rejects_invalid_refuted) and short reads reported as invalid (c29_short_reads_refuted); c29_decode_partial characterises decoding of arbitrary bytes. c29_chunks_iff says exactly for which short-reading readers the text is decoded."
 },
 "C30": {
  "note": "False when an LF follows a lone CR (c30_lines_refuted); c30_exact gives the lines yielded for every text and c30_lines_iff exactly the texts for which they are right. A surrogate, accepted by the rune iterator, becomes U+FFFD (c30_surrogate_refuted)."
 },
 "C31": {
  "note": "False for readers that return the last byte together with io.EOF or (0,nil) (refuted); proved for every reader delivering one byte with a nil error per call. c31_exact: what is given for every reader; c31_iff: for which readers it is right."
 },
 "C40": {
  "note": "Signed average inherits the rounding bug of math.Div for means in (-1,-1/2]; proved elsewhere. c40_avgInt_wrong: at every excluded mean the result is +1."
 },
 "C43": {
  "note": "False: Parallel + Filter leaves stale elements, expanding transforms crash, two different interface types panic (refuted); proved for length preserving transforms. c43_exact, c43_iff, c43_filter_iff, c43_expanding_crashes, c43_output_iff: exactly what happens in the excluded cases."
 },
 "C44": {
  "note": "Adding a key below the current minimum puts it in the wrong place (c44_history_refuted); proved for histories whose keys are not below the minimum. The search itself is proved in full. c44_add_iff: such additions, and no others, break the order. c44_history_iff: a history is represented after every operation iff no addition is below all keys; c44_total: no history panics; c44_add_pairs: no addition is lost even in unsorted slices."
 },
 "C45": {
  "note": "Same ordering bug as C44, and Remove compares code pointers so that it can remove another closure (both refuted); c45_send_partial covers the rest. c45_all_receivers: whatever the id order, every registered receiver is applied exactly as often as registered."
 },
 "C48": {
  "note": "panic(nil) is not passed to the handler (c48_handler_refuted, go 1.18 semantics); closers proved in full. c48_handler_exact (no hypothesis): with which value panicFn is called; c48_missed_iff: a panic is missed exactly if the latest one is panic(nil)."
 },
 "C49": {
  "note": "If the supplier panics it is called again (c49_once_refuted); proved otherwise. c49_exact and c49_once_iff: exactly what happens if it panics."
 },
 "C50": {
  "note": "SnakeToCamelCase panics on strings with no letters left (refuted, c50_panics_iff exactly), and breaks UTF-8 if a word begins with a non-ASCII character (c50_utf8_iff exactly). Round trip exactly for lower case words joined by single underscores (c50_roundtrip_iff)."
 },
 "C54": {
  "note": "OfResultError with an interface type R panics for nil and accepts any(0) with an error (refuted); proved for concrete types. c54_interface: exactly what happens for interface types."
 },
 "C55": {
  "note": "Read ignores the position when it limits the length: panics or leaks spare capacity (refuted); c55_read_partial and c55_read_wrong characterise exactly which histories work."
 },
 "C03": {
  "note": "False at scale 18 (c03_round_trip_refuted, and c03_scale18_wrong shows every scale-18 Decimal fails); proved for every scale <= 17."
 },
 "C04": {
  "note": "False: trailing junk and digit-less strings are accepted (c04_accepts_refuted, c04_junk_wrong); exact for every well formed string, and every accepted result is valid."
 },
 "C06": {
  "note": "AdjustDecimalScale panics for some valid operands (c06_panics_iff characterises them exactly); whenever it returns, the result is characterised."
 },
 "C08": {
  "note": "Zero is not an identity at scale 18 (c08_identity_refuted), and c08_identity_iff: exactly there; identity for scale <= 17, commutativity and x-x=0 in full. c08_add_sub_partial: Sub undoes an exact Add, unless the sum is 0 and the operand has 18 fractional digits (c08_add_sub_refuted)."
 },
 "C09": {
  "note": "Decided exactly: c09_iff says Mul is right (error exactly when the integer part does not fit, otherwise less than one unit in the last place off) for all valid operands except MulWrong, and wrong for each of those (unscaled products in [10^18, 2^63) with a fraction, and carries into eighteen nines). c09_value gives the returned number in closed form. c09_truncated_refuted: it is not round-to-nearest. Partial because the English claim is false on MulWrong."
 },
 "C10": {
  "note": "False for every divisor >= 2^63 (c10_large_divisor_refuted, c10_large_divisor_wrong); complete for all smaller divisors."
 },
 "C11": {
  "note": "False for negative dividends and normalized remainders; c11_parts_iff: exactly for these."
 },
 "C12": {
  "note": "False: wrap-around (28/3 is negative) and non-termination (c12_hang_refuted); on DivSafe operands termination, error < 1 ulp, sign, exactness and error condition are proved; c12_wrap_wrong: outside, where a prefix of the digits leaves int64, no returned Decimal is within one ulp. c12_ok_iff: exactly for which operands (LongDivision) the result is right; c12_refused: exactly which other ends of the long division are an error or do not return."
 },
 "C13": {
  "note": "Closure proved for every combination of constructors and operations except Div; false for Div (c13_div_refuted). c13_div_iff: which results of Div that are right are valid."
 },
 "C59": {
  "note": "False: Write does not escape strings (c59_refuted). For values whose strings need no escaping: the text is in the RFC 8259 grammar and parses back. c59_roundtrip_iff: exactly these values survive, also if the order of members is ignored; c59_invalid: invalid parts become null."
 },
 "C60": {
  "note": "Termination, the exact accepted language with its meaning, and acceptance of every RFC 8259 document without \\u0022 are proved; false: [,], {\"a\":1,} and []x are accepted (c60_*_refuted)."
 },
 "C61": {
  "note": "Exact language and decoding of string literals proved; false for \\u0022 (ends the string) and swapped surrogates (c61_*_refuted)."
 },
 "C62": {
  "note": "Exact language, longest match; false: -01 is accepted (c62_refuted)."
 },
 "C63": {
  "note": "False for the invalid Value, for numbers without a digit (NaN) and for map[string]Value/[]Value (c63_refuted); the exact set that round-trips is characterised."
 },
 "C72": {
  "note": "False: two concurrent Handle calls can both return nil and one registration is lost (c72_lost_registration_refuted). Proved: never an invented or duplicated registration under any interleaving; nothing lost with one registering goroutine. C149 has the same question with the memory of the slice and with requests."
 },
 "C73": {
  "note": "Exact for the literal header application/json; false for a media type with parameters (c73_parameter_refuted)."
 },
 "C67": {
  "note": "False: a second SetBasePath does not panic and wipes the directory it names (c67_again_refuted, c67_wiped_refuted); Dir panics in every reachable state because its map is nil (c67_dir_refuted); directories are created without permissions, so a non-root user cannot create anything in them (c67_mode_refuted). Proved: base path is that of the first call after every history, effect of a first SetBasePath, of Dir and of Src on the file system; when SetBasePath returns, exactly (c67_returns_iff), and that it leaves the file system alone when a file or an unusable directory is in the way (c67_kept). c67_left: what a failed SetBasePath leaves behind for a user who is not root."
 },
 "C75": {
  "note": "Proved for ordered keys; false for MapSortComplex, which orders by absolute value only (c75_complex_refuted). c75_rank, c75_rank_iff: the result is determined exactly if no two keys have the same rank (absolute value)."
 },
 "C23": {
  "note": "The code tests I(F(i)) == i; what I(f) is for f out of range is left to the platform by the Go specification. Exact on amd64 (c23_exact_partial, c23_to_partial); on a platform whose conversions saturate (arm64) MaxInt64 is accepted inexactly (c23_exact_refuted). Completeness holds on every platform."
 },
 "C78": {
  "note": "False for FloatToInt/FloatToUint above ten significant digits, which go through the decimal text of a *big.Float (c78_int_refuted); proved for numbers of at most ten digits, for NaN/Inf and in full for all the other functions. c78_int_iff, c78_uint_iff: exactly those; c78_error_iff: exactly when an error is reported."
 },
 "C79": {
  "note": "False for UintToBigFloat above 2^53, FloatToBigRat/BigFloatToBigRat above ten digits and BigRatToBigFloat of small non-integers (refuted); proved for the rest. c79_uint_iff, c79_rat_iff: exactly which values are kept; c79_ratFloat_dyadic: only binary fractions can be. c79_far_refuted: BigFloatToBigRat of a number with a place beyond 10^\u00b11000000 (e.g. 1e1000001) stores a nil pointer and reports no error. c79_bits: the precision computed in float64 (ceil(n*log2(10))) is the exact one for up to 174000 digits."
 },
 "C81": {
  "note": "Proved in full for the named functions; To for *big.Int to float32 goes through float64 and rounds silently (c81_to_refuted). c81_to_exact: complete description of that entry."
 },
 "C82": {
  "note": "False for NaN (c82_nan_refuted); proved for every linearly ordered type, for complex numbers (absolute value as parameter) and for every Cmp that is an order. c82_float: exactly what happens for all floats, with NaN, infinities and both zeros."
 },
 "C83": {
  "note": "False for user defined types: panic, or silently no effect (c83_named_refuted, c83_named_panics); proved for the predeclared types."
 },
 "C84": {
  "note": "False: the copy shares the backing array (c84_independent_refuted, c84_shared); proved: new pointer, equal value, nothing else changed, and independence where no array is shared."
 },
 "C85": {
  "note": "False for `type P *P` (does not return, c85_returns_refuted); results characterised exactly for every type, and termination proved for every other type."
 },
 "C86": {
  "note": "False for cyclic pointer types (does not return); results characterised exactly and termination proved for every value of any other type."
 },
 "C88": {
  "note": "TypeToBaseType proved in full. ValueToBaseType leaves nil pointers unconverted (c88_nil_refuted); proved for everything else. Also false for pointer types with a name, for which it panics (c88_defined_pointer_refuted); c88_panics_iff: exactly when."
 },
 "C89": {
  "note": "Panics for the invalid Value and nil interfaces (c89_nil_refuted); proved for every other value."
 },
 "C90": {
  "note": "Panics for a **Maybe with a nil inner pointer and for values of the wrong type (refuted); proved for chains of non-nil pointers, for values that are no Maybe, nil pointers and unaddressable ones."
 },
 "C93": {
  "note": "MapToStruct is a stub: every documented demand is false (c93_refuted); c93_unchanged_partial gives what it does."
 },
 "C94": {
  "note": "To proved in full. AnyTo(nil) panics, ToBigOps panics for user defined sources, ReflectTo fails for equal types and user defined sources (refuted); proved elsewhere. User defined pointer types make AnyTo and ReflectTo panic: c94_anyTo_panics_iff and c94_reflectTo_panics_iff say exactly when."
 },
 "C95": {
  "note": "Target is clobbered on error, FloatStringToBigRat(\"Inf\") succeeds with nil, and \"1e1000001\" is an error for StringToBigRat and a nil result without error for FloatStringToBigRat (refuted); exactness, acceptance and round trips proved, for plain decimals and for texts with exponents. Other forms (other bases, underscores, p exponents, ratios beyond the modelled) enter only through TextLib, a parameter for the standard library parser."
 },
 "C96": {
  "note": "\"0.1\" is an error for float32 and the text of 0.1+0.2 for float64 (refuted); what is accepted is a nearest float, and short exact texts are accepted. c96_accepts_iff: exactly which decimal texts, with or without exponent (up to 10^\u00b150), are accepted."
 },
 "C97": {
  "note": "BigRatToBigInt returns the numerator of its argument (c97_alias_refuted); values and BigIntToBigRat proved."
 },
 "C98": {
  "note": "Wrong when the *big.Int quotient goes into the divisor (refuted) and on the inputs of C18; otherwise proved. c98_inplace_iff says exactly when the in-place quotient is right."
 },
 "C99": {
  "note": "*big.Float sums have 4 bits (refuted), *big.Int averages inherit C18 (refuted); *big.Int and *big.Rat sums and *big.Rat averages proved exact. c99_avg_int_wrong, c99_float_bits, c99_float_count: what the excluded inputs give."
 },
 "C100": {
  "note": "Sum overflows silently and AbsBigOps changes the source (refuted); Sum is exact modulo 2^bits, and exact without overflow; Abs proved. c100_sum_iff: right exactly if the sum is in range."
 },
 "C102": {
  "note": "Generator makes a new function on every use (c102_refuted); documented behaviour proved for histories without immediate repetition. c102_iff: those are exactly the histories for which it holds."
 },
 "C103": {
  "note": "Panics for user defined string types, NaN becomes invalid JSON (refuted); acceptance proved exactly, and the JSON round trip for values without characters that need escapes. c103_error_iff: exactly which error or panic for which value; c103_document_iff: exactly which Go values survive ToValue, Write and Parse."
 },
 "C105": {
  "note": "SliceRemove returns its argument itself, not a new slice, if the value is absent and all is not given (c105_remove_refuted); everything else proved."
 },
 "C106": {
  "note": "A receiver that calls RemoveId makes Send skip the next id and call the last one twice, and the visibility of a registration during Send depends on the backing array (refuted); proved for all receivers that do not call RemoveId, any nesting. c106_operations and c106_history tie the registry in memory to the ordered slices of C44. c106_removeId_order: what holds for any receivers that call RemoveId; c106_removeId_exact, c106_register_exact, c106_register_new, c106_remove_exact: exactly which ids and receivers are called if one receiver makes one change."
 },
 "C107": {
  "note": "Proved; c107_rows_shared makes the documented reuse precise."
 },
 "C108": {
  "note": "Proved for all element types whose zero value is not a nil interface; for interface types Maybe panics at the end (refuted)."
 },
 "C109": {
  "note": "Agreement holds exactly for valid UTF-8 (c109_agree_iff); refuted for other strings."
 },
 "C110": {
  "note": "CSV and gzip proved for the exact header values; parameters, header lists and plain bodies refuted."
 },
 "C111": {
  "note": "Proved for linear orders and floats that are not NaN; NaN refuted."
 },
 "C112": {
  "note": "Proved."
 },
 "C113": {
  "note": "Exact description proved; the documented behaviour fails for interface types and unsafe.Pointer (refuted)."
 },
 "C114": {
  "note": "Proved; end-to-end where the plain function is fully specified (integers, big numbers, texts, Decimals, parse, write, handle)."
 },
 "C115": {
  "note": "Proved for calls after the first has returned and for a first call alone; overlapping first calls refuted. c115_calls, c115_once_iff: exactly how often the supplier is called, for every schedule; c115_zero: exactly who gets the zero value when it is called once."
 },
 "C116": {
  "note": "Proved."
 },
 "C117": {
  "note": "Every law proved for every source; Skip/Limit exchange only for n > 0 (c117_limit_skip_partial), and refuted for n = 0 (c117_limit_skip_refuted). The congruence theorems let the laws be applied anywhere in a pipeline."
 },
 "C69": {
  "note": "Also for WriteObject and WriteArray called directly (c69_direct); given a value of another type they write the opening bracket before panicking (c69_direct_other)."
 },
 "C118": {
  "note": "False for the pairs listed in lossy, refusing and clobbering (c118_refuted). c118_exact_iff, c118_complete_iff, c118_clean_iff: exactly these pairs, on amd64 and arm64; c118_to_partial: the full demand for all others. For a nil source see C122."
 },
 "C119": {
  "note": "Refuted for the lossy pairs (c119_path_refuted, c119_round_trip_refuted); proved for all types between which To is exact."
 },
 "C120": {
  "note": "Panics for nil interface keys or values (c120_map_refuted); c120_map_iff: otherwise always delivers exactly the entries; c120_map_panics: where it panics."
 },
 "C51": {
  "note": "Panics for nil interface elements (more than one dimension) and for defined slice types (one dimension): c51_refuted; c51_returns_iff: exactly then; c51_flatten_partial: whenever it returns, the result is the concatenation of the leaves. c51_types: all panics exactly, for arguments of any type; c51_slice_of_slices: with a slice type for T it always panics."
 },
 "C101": {
  "note": "Panics for nil interface keys or values (c101_refuted); c101_expandMaps_iff: otherwise exactly the entries."
 },
 "C121": {
  "note": "Max(3, NaN, 1) = 1 (c121_refuted); c121_numbers_partial: right without NaN; c121_after_nan: exactly what is computed with NaN."
 },
 "C122": {
  "note": "False for strings and for json.NumberToValue (c122_refuted, c122_json_refuted); c122_numeric: exact result for numeric targets; c122_text: for string targets."
 },
 "C123": {
  "note": "Commutativity, zero, sign and negation proved in full; one is false for 1 with fractional digits and the order is not kept (c123_one_refuted, c123_mono_refuted); _partial: 1 without fractional digits, exact products. c123_one_iff: exactly for which Decimals and which representation of 1 it holds. c123_close, c123_mono_close, c123_mono_apart: for all operands Mul is right about (c09_iff) the order is kept up to the rounding."
 },
 "C124": {
  "note": "False in general (c124_refuted); _partial: at most 17 fractional digits and magnitudes that add up to less than 10^(18-m). c124_error, c124_orders: without those conditions, every sum that is returned is within half the number of additions, and two orders differ by at most that number."
 },
 "C125": {
  "note": "False for 1 with 17 fractional digits (c125_one_refuted); everything else proved; c125_negate excludes the smallest int64 as a result, which is not a valid Decimal. c125_one_iff: exactly which Decimals a one with fractional digits leaves unchanged. c125_short, c125_roundtrip: Div is exact whenever the dividend with zeros appended is a multiple of at most 18 digits; so it undoes every exact Mul."
 },
 "C126": {
  "note": "Proved as stated. c126_map_live and c126_slice_live say exactly what a write to a shared map or slice does; c126_cyclic: a Value can be put into its own map, and then ToAny does not return."
 },
 "C127": {
  "note": "Everything stated is proved; the wish that the quotient is as precise as the operands is refuted for nil quotients (c127_precision_refuted).",
  "status": "proved"
 },
 "C128": {
  "note": "First sentence c128_copies, second c128_both (exact outcome, for every growth policy); c128_copies_refuted: a concrete history with the wrong handler.",
  "status": "proved"
 },
 "C129": {
  "status": "proved",
  "note": "The statement has the condition that never more is written than read; c129_ahead_refuted shows the condition is needed."
 },
 "C130": {
  "note": "Everything stated is proved. The payload of NaNs is not modelled."
 },
 "C131": {
  "note": "Everything stated is proved."
 },
 "C132": {
  "note": "Proved for slices and keys without NaN, and exactly what happens for a NaN key; refuted for ordinary keys when a NaN key is present."
 },
 "C133": {
  "note": "Refuted: what each target holds after an error is proved exactly; unchanged only for FloatStringToBigRat and for texts that are not numbers with floats."
 },
 "C134": {
  "note": "The read back of float texts is proved up to errors, which do occur (c134_float32_refuted: the float32 nearest to 1/10, written 0.1); strconv's shortest digits are a parameter with the property that they identify the float."
 },
 "C135": {
  "note": "Code-level refinement of lexer and parser from bytes; refuted for readers with short reads or data with EOF and for invalid UTF-8 (both inherited from C29). c135_roundtrip_iff: which documents come back through bytes, exactly."
 },
 "C136": {
  "note": "Regular expression semantics and the parser of patterns; the scanners used by the other models are derived from it; routes of a ServeMux end to end, from the texts given to Handle. Flags, POSIX and Unicode classes of user patterns are not modelled."
 },
 "C137": {
  "note": "Refuted for callers that append to the returned slice and for the documented panics; everything else proved for all histories."
 },
 "C138": {
  "note": "Proved."
 },
 "C41": {
  "note": "The sizes are computed by the code in float64: c41_float shows that below 2^49 items they are the exact ones (for any correctly rounded math.Sqrt), and c41_float_partition that below 2^53 items the ranges are a partition."
 },
 "C139": {
  "note": "Exact when Src returns; contents of the files of all sources at different paths, whatever the history; other files unchanged without SetBasePath. Refuted: that Src panics if the file already exists, and sources of different names at the same path."
 },
 "C140": {
  "note": "Whole documents; integers and *big.Int always come back, floats come back or give an error and always come back if their text has at most 15 runes. Missing: strings that need escapes, NaN and infinities (refuted under C59 and C103), floats with long texts (refuted)."
 },
 "C141": {
  "note": "All but the last sentence is proved exactly; the last one is refuted for closers that recover, and proved for closers that neither recover, exit nor panic with nil (c141_caught_partial)."
 },
 "C142": {
  "note": "Exact for all transforms listed, including which value is lost; false for AvgInt/AvgUint, for which the behaviour is proved exactly as well (c142_avgInt, c142_avgUint, with overflow)."
 },
 "C143": {
  "note": "Exact for all iterators listed. ExpandSlices and ExpandMaps: proved under the exact condition (no panic right after an empty non-nil slice or map), and proved to be stuck forever otherwise. The order in which a map is iterated is any list order; sort.Slice is a function of the slice."
 },
 "C144": {
  "note": "Proved: the exact set of outcomes (c144_exact), that the program is terminated under every schedule that gives the threads enough steps (c144_fatal, c144_map), that it never is without a panic (c144_partial), the cases of a panicking source and of one element. Refuted: a result with missing values may be seen before the program ends. A panic of the call of `transforms` itself in a thread is the case of a machine whose first action is a panic; for a source of one element, where Parallel itself would panic, it is not modelled."
 },
 "C145": {
  "note": "Proved for every pattern of the grammar in Verif/Regex/RoundSpec.lean, of any size. The reader models regexp/syntax of Go's library, on which Handle relies."
 },
 "C146": {
  "note": "Proved. c146_prefix and c146_terminates are for receivers that do not send; for receivers that do, c146_history and c146_conservative hold."
 },
 "C147": {
  "note": "Proved. Variables a transform captures itself are not part of the model: sharing them between threads is up to the caller."
 },
 "C148": {
  "note": "Refuted for overlapping calls, which the documentation warns of; exact characterisation by c148_own_iff and c148_shared_iff, proved for calls that do not overlap between store and read."
 },
 "C149": {
  "note": "Refuted for overlapping calls of Handle; c149_answer, c149_earlier and c149_kept hold for all schedules, the rest when calls of Handle do not overlap (requests may overlap with them). Reads and writes of slice headers and elements are taken to be atomic. Also proved: every request is answered and every goroutine makes all its registrations with its own steps alone, whatever the others do."
 },
 "C150": {
  "note": "Refuted for overlapping calls of Register, RemoveId and Remove (lost receivers, a panic, receivers under a wrong id) and for RemoveId during a Send; c150_no_panic (Sends), c150_calls, c150_returns and c150_undisturbed hold for all schedules, the rest when calls that change the registry do not overlap with one another (Sends may overlap with them). Reads and writes of slice headers and elements are taken to be atomic; the search of a call is one step and its second reading of the registry another. Also proved: every goroutine that changes the registry ends its calls with its own steps alone, whatever the others do; none panics if only one goroutine changes the registry."
 },
 "C151": {
  "note": "Writing the result back holds for values without characters that need an escape (c151_written_refuted, see C59); everything else without restriction. c151_written_iff: exactly the elements without such characters come back."
 },
 "C152": {
  "note": "False of the conversions through a wider type (c152_refuted); c152_names_partial and c152_text_names_partial cover all others, c152_other and c152_text_other say exactly what the message is for these, c152_true that every message is true, c152_error and c152_text_error that there is one iff the call fails. Texts of values are not modelled."
 },
 "C153": {
  "note": "c153_runes, c153_lines (exactly what is given, with the specification LastPart), c153_prefix (the same for every k, in terms of the written lines only), c153_failed_writer (what an ErrorWriter took), c153_json and c153_written. Other readers than a byte reader are those of C29 and C31."
 },
 "C154": {
  "note": "c154_exact: exactly which texts are read to the end without an error, and the rows; c154_ends: every text; c154_before and c154_cut: complete rows come first, a cut gives at most one more; c154_roundtrip_partial and c154_request_partial leave out fields with CR LF and unquoted rows of one empty field (refuted). encoding/csv is modelled from its published source (Go 1.18), as characters; sources that fail with another error than EOF are C156."
 },
 "C155": {
  "note": "c155_prefix_partial: any two texts of which one begins the other; c155_failed_reader: true without exception if the reader fails; c155_array_partial and c155_bytes_partial: arrays in RFC 8259 notation, all but a last number that is cut off (c155_number_refuted); c155_request_partial: the same for NegotiateJSONContent."
 },
 "C156": {
  "note": "c156_prefix: every text and continuation; c156_complete: complete rows and a piece of a line; c156_request: the same for NegotiateCSVContent. encoding/csv is modelled from its published source (Go 1.18); what its Read gives after an error is left out (Iter.Next does not call it again)."
 },
 "C157": {
  "note": "c157_success, c157_stopped: every writing function; c157_nothing: the six constructors with nil; c157_destination: the results of C57 otherwise. An io.Writer that itself panics is a writing function of c157_stopped; non-nil interfaces that hold nil pointers are such Writers."
 }
}