{"id": "C01", "title": "Decimal construction is exact and validated", "statement": "OfDecimal(v, s) succeeds exactly when s <= 18 and |v| <= 999_999_999_999_999_999; on success the Decimal denotes exactly v / 10^s, and unless normalized=false was passed (or v is 0) it has no trailing fractional zeros. Every other argument yields an error and the zero Decimal.", "quantifier": "every int64 value, every uint scale, both normalization flags", "why_tests_cant": "2^64 values x scales cannot be enumerated", "anchors": ["math/decimal.go: OfDecimal, applyNormalization, Normalize"]}
{"id": "C02", "title": "Normalize is value preserving and canonical", "statement": "Normalize never changes the rational number a Decimal denotes, is idempotent, and gives a canonical form: two Decimals denoting the same number have identical value and scale after Normalize.", "quantifier": "every pair of valid Decimals", "why_tests_cant": "needs all values and all counts of trailing zeros", "anchors": ["math/decimal.go: Decimal.Normalize"]}
{"id": "C03", "title": "Decimal String/StringToDecimal round trip", "statement": "StringToDecimal(d.String()) returns a Decimal with the same value and scale as d, without an error.", "quantifier": "every valid Decimal (|value| < 10^18, scale 0..18)", "why_tests_cant": "all digit/scale combinations; the boundary scale is where it breaks", "anchors": ["math/decimal.go: Decimal.String, StringToDecimal, decimalRegex"]}
{"id": "C04", "title": "StringToDecimal accepts exactly decimal strings and parses them exactly", "statement": "StringToDecimal accepts exactly the strings of the form -?[0-9]*(.[0-9]*)? with at least one digit and at most 18 digits, and the result denotes exactly the number written, with scale = number of fractional digits.", "quantifier": "every string", "why_tests_cant": "unbounded set of strings", "anchors": ["math/decimal.go: StringToDecimal, decimalRegex"]}
{"id": "C05", "title": "Decimal.Cmp is numeric comparison", "statement": "d.Cmp(o) is -1, 0, 1 exactly when the rational value of d is <, =, > that of o, whatever the scales and signs (hence it is a total order: antisymmetric and transitive).", "quantifier": "every pair of valid Decimals", "why_tests_cant": "all scale/sign/magnitude combinations", "anchors": ["math/decimal.go: Decimal.Cmp, AdjustDecimalFormat"]}
{"id": "C06", "title": "AdjustDecimalScale makes scales equal and changes at most the one allowed operand", "statement": "AdjustDecimalScale never panics; on success both scales are equal, and either both denoted values are unchanged (the smaller-scale operand was extended), or the larger-scale operand was rounded half away from zero to the smaller scale; on error neither operand changes.", "quantifier": "every pair of valid Decimals", "why_tests_cant": "all digit-count/scale-difference combinations; index arithmetic fails off the tested points", "anchors": ["math/decimal.go: AdjustDecimalScale"]}
{"id": "C07", "title": "Decimal Add and Sub are exact when operands can be aligned", "statement": "When the operand with fewer fractional digits has room for the needed zeros (or scales agree), Add/Sub return exactly the rational sum/difference if it fits in 18 digits at the larger of the two scales and an overflow/underflow error otherwise; in every case a returned result is a valid Decimal within half a unit in the last place of the coarser operand.", "quantifier": "every pair of valid Decimals", "why_tests_cant": "2^128 pairs", "anchors": ["math/decimal.go: addDecimal, Decimal.Add, Decimal.Sub"]}
{"id": "C08", "title": "Decimal Add: identity, commutativity, inverse", "statement": "x.Add(0) denotes x; x.Add(y) and y.Add(x) denote the same number or both fail; x.Sub(x) is 0 scale 0; if x.Add(y) is exact, Sub(y) of it is x.", "quantifier": "every pair of valid Decimals", "why_tests_cant": "algebraic laws over all values", "anchors": ["math/decimal.go: Decimal.Add, Decimal.Sub, Negate"]}
{"id": "C09", "title": "Decimal Mul returns the exact product when it fits and a correctly rounded one otherwise", "statement": "If |d.value*o.value| < 10^18 and the scales add up to at most 18 the result denotes exactly d*o; otherwise the result differs from the exact product by no more than a unit in the last place, or an error is returned if the integer part does not fit.", "quantifier": "every pair of valid Decimals", "why_tests_cant": "overflow/rounding boundaries are sparse in 2^128 pairs", "anchors": ["math/decimal.go: Decimal.Mul"]}
{"id": "C10", "title": "DivIntQuoRem is Euclidean-style division", "statement": "For 0 < o <= |integer part of d|: d = q*o + r exactly, |r| < o units in the last place, r has the sign of d, q has the scale of d. o = 0 and o larger than the integer part are errors.", "quantifier": "every valid Decimal and every uint divisor", "why_tests_cant": "all values and all divisors, including those above 2^63", "anchors": ["math/decimal.go: Decimal.DivIntQuoRem"]}
{"id": "C11", "title": "DivIntAdd parts sum to the dividend", "statement": "The slice returned by DivIntAdd(o) has o elements that add up to exactly d and differ from one another by at most one unit in the last place.", "quantifier": "every valid Decimal and every valid divisor", "why_tests_cant": "needs all remainders", "anchors": ["math/decimal.go: Decimal.DivIntAdd"]}
{"id": "C12", "title": "Div returns the quotient to within one unit in the last place", "statement": "For o != 0, d.Div(o) either reports an over/underflow or returns a q with |q - d/o| < 1 unit in the last place of q; when the division terminates within 18 digits the result is exact; the call terminates; the sign is right.", "quantifier": "every pair of valid Decimals with o != 0", "why_tests_cant": "loop over remainders with int64 arithmetic; failing inputs are sparse", "anchors": ["math/decimal.go: Decimal.Div"]}
{"id": "C13", "title": "Decimal results stay valid", "statement": "Every Decimal returned by the API (construction, Add, Sub, Mul, Div, DivInt*) has |value| < 10^18 and scale <= 18, so later calls (String, MagnitudeLessThanOne, Cmp) cannot misbehave.", "quantifier": "every sequence of API calls", "why_tests_cant": "closure of an invariant under all operations", "anchors": ["math/decimal.go: all constructors and arithmetic"]}
{"id": "C14", "title": "MagnitudeLessThanOne, Sign, Negate agree with the denoted number", "statement": "MagnitudeLessThanOne is true iff |d| < 1; Sign is the sign of d; Negate denotes -d and is an involution.", "quantifier": "every valid Decimal", "why_tests_cant": "all values", "anchors": ["math/decimal.go: MagnitudeLessThanOne, Sign, Negate"]}
{"id": "C15", "title": "AddInt/AddUint/SubUint detect overflow exactly", "statement": "AddInt, AddUint and SubUint return nil iff the mathematical result is representable in the type, in which case the target holds it; the error is Overflow/Underflow according to the side on which it fell out.", "quantifier": "every width and every pair of values", "why_tests_cant": "2^128 pairs for 64-bit", "anchors": ["math/math.go: AddInt, AddUint, SubUint"]}
{"id": "C16", "title": "SubInt detects overflow exactly", "statement": "SubInt(me, &sed) returns nil iff me - sed is representable, in which case *sed holds it.", "quantifier": "every signed width and every pair of values", "why_tests_cant": "2^128 pairs; fails on a single column", "anchors": ["math/math.go: SubInt"]}
{"id": "C17", "title": "math.Mul detects overflow exactly and leaves the target alone on error", "statement": "Mul(mp, &ma) returns nil iff mp*ma is representable in the type, in which case ma holds it; otherwise ma is unchanged and the error is Overflow if the product is non-negative, else Underflow.", "quantifier": "every integer type and every pair of values", "why_tests_cant": "2^128 pairs", "anchors": ["math/math.go: Mul", "conv/conv.go: *big.Int -> integers"]}
{"id": "C18", "title": "Integer Div rounds half away from zero", "statement": "For divisor != 0 the integer Div stores the quotient rounded to nearest, ties away from zero; divisor 0 gives DivByZeroErr and leaves the quotient alone.", "quantifier": "every integer type and every pair of values", "why_tests_cant": "2^128 pairs; sign of a zero truncated quotient", "anchors": ["math/math.go: Div, divSInt, divUInt, toDiv"]}
{"id": "C19", "title": "Abs is exact or an error", "statement": "Abs(&v) stores |v| and returns nil unless v is the minimum of its signed type, in which case it returns an error; unsigned values are never changed.", "quantifier": "every integer type and value", "why_tests_cant": "all 64-bit values", "anchors": ["math/math.go: Abs, toAbs"]}
{"id": "C20", "title": "Range value always lies in its bounds", "statement": "After OfRange (which panics if the initial value is out of bounds or min >= max) and any sequence of SetValue calls, GetValue lies within the bounds and modes; a SetValue that returns an error changes nothing; one that returns nil stores exactly its argument.", "quantifier": "every ordered type, bounds, modes and history of SetValue calls", "why_tests_cant": "all histories", "anchors": ["math/range.go: OfRange, SetValue"]}
{"id": "C21", "title": "Integer conversions are exact or errors", "statement": "conv.To between any two of the ten integer types returns nil iff the source value is representable in the target type, and then the target equals the source; otherwise an error and the target is unchanged.", "quantifier": "every ordered pair of integer types and every value", "why_tests_cant": "100 type pairs x 2^64 values", "anchors": ["conv/int.go: IntToInt, UintToInt, IntToUint, UintToUint", "conv/conv.go: convertFromTo, To"]}
{"id": "C22", "title": "Integer/string conversion round trips", "statement": "Converting any integer to a string and back yields the same integer; converting a string to a narrower integer type succeeds iff the number it spells is in range.", "quantifier": "every integer value and every numeric string", "why_tests_cant": "2^64 values, unbounded strings", "anchors": ["conv/string.go: IntToString, UintToString", "conv/int.go: StringToInt64, StringToUint64"]}
{"id": "C23", "title": "Integer to float conversion is exact or an error", "statement": "IntToFloat returns nil only if the float equals the integer exactly, and returns nil for every exactly representable integer.", "quantifier": "every 64-bit integer, both float widths", "why_tests_cant": "2^64 values; rounding to the type boundary", "anchors": ["conv/float.go: IntToFloat"]}
{"id": "C24", "title": "Iter: Unread is a LIFO push-back and Next is otherwise the source", "statement": "For any interleaving of Next and Unread on an iterator, Next returns the most recently unread value not yet returned, else the next source value; nothing is lost, duplicated or reordered.", "quantifier": "every source and every sequence of Next/Unread calls", "why_tests_cant": "all histories", "anchors": ["iter/iter.go: IterImpl.Next, Unread"]}
{"id": "C25", "title": "Iter: errors are sticky and the source is not called again", "statement": "Once the source function returned an error, every later Next (with nothing unread) returns (zero, that same error) and the source function is never invoked again.", "quantifier": "every source and every sequence of calls", "why_tests_cant": "all histories", "anchors": ["iter/iter.go: IterImpl.Next"]}
{"id": "C26", "title": "Basic generators yield exactly the advertised sequence", "statement": "Of/OfSlice/OfOne/OfEmpty iterate exactly their items then EOI forever; InfiniteIterGen yields the literals then f(seed), f(f(seed)), ...; FibonnaciIterGen yields 1,1,2,3,5,... (mod 2^64).", "quantifier": "every slice, function, seed list and call count", "why_tests_cant": "unbounded sequences", "anchors": ["iter/gen.go: SliceIterGen, SingleValueIterGen, NoValueIterGen, InfiniteIterGen, FibonnaciIterGen"]}
{"id": "C27", "title": "Concat is list concatenation with first-error stop", "statement": "Concat(i1..in) iterates all values of i1, then i2, ... ; the first non-EOI error ends it and is repeated forever; nil iterators are skipped.", "quantifier": "every list of iterators", "why_tests_cant": "unbounded lists", "anchors": ["iter/gen.go: ConcatIterGen", "iter/iter.go: Concat"]}
{"id": "C28", "title": "SetError replaces the terminal error only", "statement": "SetError(it, e) yields the values of it and then e instead of it's terminal error.", "quantifier": "every iterator and error", "why_tests_cant": "all iterators", "anchors": ["iter/iter.go: SetError"]}
{"id": "C29", "title": "UTF-8 rune reader is the inverse of UTF-8 encoding", "statement": "Reading the UTF-8 encoding of any sequence of Unicode scalar values through OfReaderAsRunes yields exactly that sequence and then EOI, and bytes that are not valid UTF-8 give InvalidUTF8EncodingError.", "quantifier": "every rune sequence and every byte sequence", "why_tests_cant": "1.1M code points in unbounded sequences", "anchors": ["iter/gen.go: ReaderAsRunesIterGen"]}
{"id": "C30", "title": "Line reader splits at LF, CR and CRLF", "statement": "OfReaderAsLines/OfStringAsLines return the text split at every LF, CR or CRLF, without terminators, a final unterminated non-empty line included.", "quantifier": "every text", "why_tests_cant": "all texts and terminator mixes", "anchors": ["iter/gen.go: readLines"]}
{"id": "C31", "title": "Byte reader yields all bytes and repeats its error", "statement": "OfReader yields every byte the reader delivers, then EOI (or the reader's error) forever.", "quantifier": "every conforming io.Reader behaviour", "why_tests_cant": "reader behaviours are unbounded", "anchors": ["iter/gen.go: ReaderIterGen"]}
{"id": "C32", "title": "Map/MapError/Filter/Peek denote list map, prefix-map, filter, identity", "statement": "Map f yields f of each element; MapError yields mapped elements up to the first error, which it returns; Filter p yields exactly the elements satisfying p in order; the source's terminal error is passed on.", "quantifier": "every iterator and function", "why_tests_cant": "all sequences", "anchors": ["stream/stream.go: Map, MapError, Filter, Peek"]}
{"id": "C33", "title": "Reduce family denotes left fold", "statement": "Reduce/ReduceTo yield exactly one value, the left fold (starting at the identity, or first element/zero value), nothing for an empty source without identity, and the error if the source fails with a non-EOI error.", "quantifier": "every iterator, reducer, optional identity", "why_tests_cant": "all sequences", "anchors": ["stream/stream.go: Reduce, ReduceTo, Count, Sum, Max, Min"]}
{"id": "C34", "title": "AllMatch/AnyMatch/NoneMatch are the quantifiers and short circuit", "statement": "AllMatch = forall, AnyMatch = exists, NoneMatch = forall-not (true/false/true on empty); no element after the deciding one is read; if the source fails before an element decides, the result is that error and no answer, and if it would fail only later, the answer is given.", "quantifier": "every iterator and predicate", "why_tests_cant": "all sequences", "anchors": ["stream/stream.go: ReduceToBool, AllMatch, AnyMatch, NoneMatch"]}
{"id": "C35", "title": "Skip and Limit are drop and take", "statement": "Skip(n) drops the first n values, Limit(n) yields the first n and never reads more than n from its source; Limit then concatenated with Skip is the whole.", "quantifier": "every iterator and n", "why_tests_cant": "all sequences", "anchors": ["stream/stream.go: Skip, Limit"]}
{"id": "C36", "title": "ReduceToSlice/ExpandSlices are inverse up to concatenation", "statement": "ReduceToSlice yields one slice of all values (empty slice for empty source); ExpandSlices yields the concatenation of its slices skipping nil/empty ones.", "quantifier": "every iterator", "why_tests_cant": "all sequences", "anchors": ["stream/stream.go: ReduceToSlice, ExpandSlices, ReduceIntoSlice"]}
{"id": "C37", "title": "ReduceToMap keeps the last value per key", "statement": "ReduceToMap yields one map in which each key is bound to the last value paired with it in iteration order; if the source fails, the result is that error and no map.", "quantifier": "every iterator of pairs", "why_tests_cant": "all sequences", "anchors": ["stream/stream.go: ReduceToMap"]}
{"id": "C38", "title": "Distinct and Duplicate", "statement": "Distinct yields the first occurrence of each value in order; Duplicate yields each value occurring at least twice exactly once, in order of second occurrence.", "quantifier": "every iterator", "why_tests_cant": "all sequences", "anchors": ["stream/stream.go: Distinct, Duplicate, Generator"]}
{"id": "C39", "title": "Reverse and sorting", "statement": "Reverse yields the reversed sequence (reversing twice is the identity); SliceReverse reverses in place; errors of the source are returned instead.", "quantifier": "every iterator/slice", "why_tests_cant": "all sequences", "anchors": ["stream/stream.go: Reverse", "funcs/funcs.go: SliceReverse"]}
{"id": "C40", "title": "AvgInt/AvgUint are the rounded mean or an overflow error", "statement": "AvgInt/AvgUint yield exactly one value, the mean rounded half away from zero, if no running sum overflows; an overflow error otherwise; nothing for an empty source.", "quantifier": "every sequence of integers", "why_tests_cant": "all sequences", "anchors": ["stream/stream.go: AvgInt, AvgUint"]}
{"id": "C41", "title": "Parallel slice ranges partition the input", "statement": "The ranges computed for Parallel are non-empty, contiguous, start at 0, end at the number of items; with Threads the count is min(items, max(1,N)) and sizes differ by at most one; with Items every bucket but the last has exactly min(items, max(1,N)) items.", "quantifier": "every item count and PInfo", "why_tests_cant": "all sizes", "anchors": ["stream/stream.go: generateRanges"]}
{"id": "C42", "title": "Parallel result is independent of the thread schedule", "statement": "Parallel(Map(f)) yields map f of the input for every interleaving of its threads and every PInfo; if some thread fails the first failing thread's error (by range order) is returned.", "quantifier": "every input, f, PInfo and interleaving", "why_tests_cant": "schedules cannot be enumerated by tests", "anchors": ["stream/stream.go: Parallel, ReduceIntoSlice"]}
{"id": "C43", "title": "Parallel agrees with sequential application for any transform", "statement": "Parallel(t) yields the concatenation of t applied to each range, also for transforms that drop elements (e.g. Filter).", "quantifier": "every transform and input", "why_tests_cant": "all transforms", "anchors": ["stream/stream.go: Parallel, ReduceIntoSlice"]}
{"id": "C44", "title": "Ordered tuple slice behaves as a sorted multimap", "statement": "After any sequence of OrderedTuple2SliceAdd/RemoveKey/RemoveValue the slice is strictly sorted by key and represents the map key -> values in insertion order.", "quantifier": "every sequence of operations", "why_tests_cant": "all histories", "anchors": ["funcs/funcs.go: OrderedTuple2Search, OrderedTuple2SliceAdd, OrderedTuple2SliceRemoveKey, OrderedTuple2SliceRemoveValue"]}
{"id": "C45", "title": "Event registry sends in id order then registration order", "statement": "Send applies the receivers in increasing id order, and within an id in registration order, each exactly once per registration; Remove/RemoveId take out exactly what they name; with no receivers Send returns its argument.", "quantifier": "every history of Register/Remove/RemoveId and every event", "why_tests_cant": "all histories", "anchors": ["event/event.go: Registry"]}
{"id": "C46", "title": "SliceRemove, SliceIndex meet their contracts", "statement": "SliceRemove removes the first (or all) occurrences and keeps the order of the rest; SliceIndex returns the element, counting from the end for negative indexes, else the default, else the zero value, and never panics.", "quantifier": "every slice, index, value", "why_tests_cant": "all slices", "anchors": ["funcs/funcs.go: SliceRemove, SliceRemoveUncomparable, SliceIndex"]}
{"id": "C47", "title": "And/Or/Not filters are short-circuit conjunction/disjunction/negation", "statement": "And(fs) is true iff all are (true for none), Or(fs) iff any is (true for none), no filter after the deciding one is called; De Morgan holds for non-empty lists.", "quantifier": "every list of filters and value", "why_tests_cant": "all lists", "anchors": ["funcs/funcs.go: And, Or, Not"]}
{"id": "C48", "title": "TryTo always runs all closers, in reverse order, exactly once, before the panic handler", "statement": "Whatever tryFn and the closers do (return or panic), every closer runs exactly once, in reverse order of the arguments, after tryFn; panicFn is called iff some panic is pending at the end, exactly once, with the latest panic value, after all closers.", "quantifier": "every tryFn outcome and every list of closers with any outcomes", "why_tests_cant": "all combinations of panics", "anchors": ["funcs/funcs.go: TryTo"]}
{"id": "C49", "title": "SupplierCached calls its supplier at most once", "statement": "However often the cached supplier is called, the underlying supplier is invoked at most once and all calls return its value.", "quantifier": "every supplier and number of calls", "why_tests_cant": "all histories", "anchors": ["funcs/funcs.go: SupplierCached"]}
{"id": "C50", "title": "snake_case/CamelCase conversion", "statement": "SnakeToCamelCase never panics, maps the empty string to the empty string, and CamelCaseToSnakeCase inverts it on identifiers made of lower-case words joined by single underscores.", "quantifier": "every string", "why_tests_cant": "all strings", "anchors": ["funcs/funcs.go: SnakeToCamelCase, CamelCaseToSnakeCase"]}
{"id": "C51", "title": "SliceFlatten concatenates nested slices in order", "statement": "SliceFlatten of a slice of any number of dimensions is the in-order concatenation of its leaves.", "quantifier": "every depth and shape", "why_tests_cant": "unbounded depth", "anchors": ["funcs/funcs.go: SliceFlatten"]}
{"id": "C52", "title": "Unions hold exactly the last value set", "statement": "After any sequence of SetT/SetU/SetV/SetW, Which names the last setter, its getter returns the last value set, every other getter panics.", "quantifier": "every history of setters", "why_tests_cant": "all histories", "anchors": ["union/union.go: Two, Three, Four, check"]}
{"id": "C53", "title": "Maybe behaves as an option type", "statement": "A Maybe is present iff the last effective Set stored a non-nil value; Get panics iff empty; OrElse/OrError agree with it; SetOrError overwrites only when empty and otherwise returns an error and changes nothing.", "quantifier": "every history of Set/SetEmpty/SetOrError", "why_tests_cant": "all histories", "anchors": ["union/union.go: Maybe"]}
{"id": "C54", "title": "Result never holds both a value and an error", "statement": "Every constructed Result has HasResult xor HasError, and Get is the zero value whenever there is an error; OfResultError panics otherwise.", "quantifier": "every value and error", "why_tests_cant": "all values", "anchors": ["union/union.go: Result, OfResultError, OfError"]}
{"id": "C55", "title": "ErrorReader delivers all its input then the error", "statement": "Whatever buffer sizes are used, successive Reads return consecutive chunks whose concatenation is the input, never panic, and then return (0, err) forever.", "quantifier": "every input and every sequence of read sizes", "why_tests_cant": "all read-size histories", "anchors": ["io/io.go: ErrorReader.Read"]}
{"id": "C56", "title": "ErrorWriter accepts exactly count bytes", "statement": "Over any sequence of Writes the recorded output is the first count bytes of everything offered, and once count bytes are stored every Write returns (0, err).", "quantifier": "every count and history of writes", "why_tests_cant": "all histories", "anchors": ["io/io.go: ErrorWriter.Write"]}
{"id": "C57", "title": "Writer.Write writes the prefix before the first failure", "statement": "Write(vals...) passes the values in order to the destination, stops at and returns the first error; slice/map writers append/insert all values.", "quantifier": "every destination behaviour and value list", "why_tests_cant": "all histories", "anchors": ["io/writer/writer.go: WriterImpl.Write", "io/writer/gen.go: SliceWriterGen, MapWriterGen, IOWriterGen, IOWriterAsRunesGen, IOWriterAsStringsGen, IOWriterAsLinesGen"]}
{"id": "C58", "title": "Rune writer and rune reader are inverse", "statement": "Writing any sequence of Unicode scalar values with OfIOWriterAsRunes and reading the bytes with OfReaderAsRunes yields the same sequence.", "quantifier": "every rune sequence", "why_tests_cant": "all sequences", "anchors": ["io/writer/gen.go: IOWriterAsRunesGen", "iter/gen.go: ReaderAsRunesIterGen"]}
{"id": "C59", "title": "JSON write/parse round trip", "statement": "Parse(Write(v)) = v for every document value v.", "quantifier": "every JSON object or array value, every map iteration order", "why_tests_cant": "unbounded documents", "anchors": ["encoding/json/write/write.go: Write", "encoding/json/parse/parse.go: Parse"]}
{"id": "C60", "title": "JSON parser accepts only JSON documents", "statement": "If Parse succeeds the text is a JSON document (RFC 8259 grammar with object/array at top level) and the value is its meaning; in particular no Invalid values occur in the result.", "quantifier": "every text", "why_tests_cant": "all texts", "anchors": ["encoding/json/parse/parse.go: Parse, parseValue, parseArray, parseObject", "encoding/json/parse/lex.go"]}
{"id": "C61", "title": "JSON string lexing decodes escapes", "statement": "Lexing a JSON string literal yields the sequence of characters it denotes and consumes exactly the literal, for every combination of plain characters, short escapes, \\uXXXX escapes and surrogate pairs.", "quantifier": "every string literal", "why_tests_cant": "all strings and escapes", "anchors": ["encoding/json/parse/lex.go: lexString"]}
{"id": "C62", "title": "JSON number lexing accepts exactly the number grammar", "statement": "Lexing a number consumes the longest prefix in -?(0|[1-9][0-9]*)([.][0-9]+)?([eE][+-]?[0-9]+)? and returns it verbatim; anything else starting with - or a digit is an error.", "quantifier": "every text", "why_tests_cant": "all texts", "anchors": ["encoding/json/parse/lex.go: lexNumber"]}
{"id": "C63", "title": "JSON Value/Go value round trip", "statement": "ToValue(v.ToAny()) = v for every Value, and ToValue accepts every type its constraint admits.", "quantifier": "every Value", "why_tests_cant": "unbounded nesting", "anchors": ["encoding/json/value.go: ToAny, ToMap, ToSlice, toValue, MapToValue, SliceToValue, numberToValue"]}
{"id": "C64", "title": "JSON path parsing and lookup", "statement": "Rendering any list of keys (non-empty, without . [ ]) and indexes as a path and parsing it gives the same list; applying it walks the value key by key / index by index; it errors iff some step has the wrong type or is missing; malformed paths are errors.", "quantifier": "every path and value", "why_tests_cant": "unbounded paths and values", "anchors": ["encoding/json/search.go: parsePath, lookupsToFunc, ParsePath"]}
{"id": "C65", "title": "ServeMux dispatches to the first matching registration, 405 vs 404", "statement": "ServeHTTP calls exactly the first registered handler whose pattern matches the URL and whose method equals the request's; if none, 405 iff some pattern matches, else 404. Handle rejects empty method/pattern, nil handler and bad patterns without changing the mux.", "quantifier": "every history of Handle calls and every request", "why_tests_cant": "all histories", "anchors": ["rest/rest.go: ServeMux.Handle, ServeHTTP"]}
{"id": "C66", "title": "Operator and type classification", "statement": "Every operator is exactly one of unary, binary, boolean, every type exactly one of scalar, aggregate, and the expression constructors fill exactly the operand slots their operator needs.", "quantifier": "every operator/type code", "why_tests_cant": "all uint codes", "anchors": ["code/statements.go: IsUnary, IsBinary, IsBoolean, OfUnaryExpr, OfBinaryExpr, OfBooleanExpr", "code/types.go: IsScalar, IsAggregate"]}
{"id": "C67", "title": "Code generator base path and directories", "statement": "SetBasePath may succeed only once (a second call panics) and Dir creates a directory below it the first time it is named.", "quantifier": "every history of SetBasePath/Dir calls", "why_tests_cant": "all histories", "anchors": ["code/api.go: BaseGenerator"]}
{"id": "C68", "title": "Line writer and line reader are inverse", "statement": "Any sequence of lines without CR and LF (including empty lines), written with OfIOWriterAsLines with either OS line ending and read back with OfReaderAsLines, is returned unchanged.", "quantifier": "every sequence of lines over all Unicode scalar values, both line endings", "why_tests_cant": "all texts", "anchors": ["io/writer/gen.go: IOWriterAsLinesGen", "iter/gen.go: ReaderAsLinesIterGen, readLines"]}
{"id": "C69", "title": "JSON Write stops at the writer's first error", "statement": "Write passes the text of a value to the writer piece by piece in document order; it stops at the first call that fails, returns that error and makes no further call; if no call fails the writer has received the whole text.", "quantifier": "every value, every writer (however it behaves and fails), every map iteration order", "why_tests_cant": "all values and all failure points", "anchors": ["encoding/json/write/write.go: Write, WriteObject, WriteArray"]}
{"id": "C70", "title": "Iterate agrees with Parse", "statement": "For every text, Iterate yields the elements of the array that Parse returns and then EOI forever, or the single object that Parse returns, or, where Parse fails, some elements followed by the same error forever (never EOI).", "quantifier": "every text and every way the reader ends", "why_tests_cant": "unbounded documents", "anchors": ["encoding/json/parse/parse.go: Iterate, Parse, parseArray"]}
{"id": "C71", "title": "Truncated JSON is never accepted and reader errors surface", "statement": "Parse rejects every proper prefix of a document; if the reader fails before the document is complete, Parse returns that reader's error; no parse error is ever the end-of-iteration marker.", "quantifier": "every document, every truncation point, every reader error", "why_tests_cant": "every crash point of the reader", "anchors": ["encoding/json/parse/parse.go: Parse", "encoding/json/parse/lex.go: lex"]}
{"id": "C72", "title": "Handle may be called at any time", "statement": "As documented, Handle may be called at any time: registrations made by several goroutines are all kept, whatever the interleaving; the mux never holds a registration nobody made.", "quantifier": "every number of goroutines, every interleaving", "why_tests_cant": "every schedule", "anchors": ["rest/rest.go: ServeMux.Handle", "funcs/funcs.go: SliceAdd"]}
{"id": "C73", "title": "JSON content negotiation", "statement": "NegotiateJSONContent returns an iterator over exactly the elements of the body when the request's media type is application/json, and nil otherwise.", "quantifier": "every header, every body, every way the body ends", "why_tests_cant": "all headers and bodies", "anchors": ["rest/content.go: NegotiateJSONContent"]}
{"id": "C74", "title": "Map helpers are finite map and multimap operations", "statement": "Starting from a nil map, no history of MapSet/MapUnset, Map2Set/Map2Unset, MapSliceAdd/MapSliceRemove or Map2SliceAdd/Map2SliceRemove panics; MapTest/Map2Test/MapIndex then report exactly the last operation on each key, and slice maps hold at each key the values added in order less those removed.", "quantifier": "every history of operations over any key and value types", "why_tests_cant": "all histories", "anchors": ["funcs/funcs.go: MapIndex, MapSet, MapTest, MapUnset, Map2Set, Map2Test, Map2Unset, MapSliceAdd, MapSliceRemove, Map2SliceAdd, Map2SliceRemove"]}
{"id": "C75", "title": "Collecting and sorting maps does not depend on iteration order", "statement": "SliceToMap, SliceToMapBy, SliceUniqueValues and MapKeysToSlice give exactly the distinct elements/keys; MapSort* give exactly the pairs of the map ordered by key, and the result depends neither on Go's map iteration order nor on the instability of sort.Slice.", "quantifier": "every map, every iteration order, every correct sorting algorithm", "why_tests_cant": "map iteration order is random", "anchors": ["funcs/funcs.go: SliceToMap, SliceToMapBy, SliceUniqueValues, MapKeysToSlice, MapSortOrdered, MapSortCmp, MapSortBy, MapSortComplex"]}
{"id": "C76", "title": "ConvertToSlice/ConvertToMap are all or nothing", "statement": "ConvertToSlice, ConvertToSlice2 and ConvertToMap succeed exactly when every element has the target type and then return all elements unchanged (in order, under their keys); otherwise they return no value and an error naming the first (for maps: some) offending element.", "quantifier": "every value", "why_tests_cant": "all values and shapes", "anchors": ["funcs/funcs.go: ConvertToSlice, ConvertToSlice2, ConvertToMap"]}
{"id": "C77", "title": "In and Compose", "statement": "In(vs...) accepts exactly the listed values; Compose(f0, fs...) applies its functions from first to last.", "quantifier": "every list of values / functions", "why_tests_cant": "all lists", "anchors": ["funcs/funcs.go: In, Compose"]}
{"id": "C78", "title": "Float to integer conversion is exact or an error", "statement": "FloatToInt, FloatToUint, FloatToBigInt, BigFloatToBigInt, BigFloatToInt64/Uint64 and BigRatToInt64/Uint64 return nil only if the integer equals the given number exactly, succeed for every integral number in range, and on error (also for NaN and the infinities) leave the target unchanged.", "quantifier": "every float (finite, NaN, infinite), every *big.Float and *big.Rat, every integer type", "why_tests_cant": "2^64 floats, unboundedly many big numbers", "anchors": ["conv/int.go: FloatToInt, FloatToUint, BigFloatToInt64, BigFloatToUint64, BigRatToInt64, BigRatToUint64", "conv/bigint.go: FloatToBigInt, BigFloatToBigInt"]}
{"id": "C79", "title": "Numbers reach *big.Float and *big.Rat unchanged", "statement": "IntToBigFloat, UintToBigFloat, BigIntToBigFloat, FloatToBigRat, BigFloatToBigRat, BigRatToBigFloat and the integer to *big.Rat conversions give a number equal to the one converted.", "quantifier": "every integer, every float, every big number", "why_tests_cant": "unboundedly many numbers", "anchors": ["conv/bigfloat.go: IntToBigFloat, UintToBigFloat, BigIntToBigFloat, BigRatToBigFloat", "conv/bigrat.go: FloatToBigRat, BigFloatToBigRat"]}
{"id": "C80", "title": "Narrowing a float rounds to nearest or is an error", "statement": "FloatToFloat maps a number in the range of float32 to a nearest float32, every number that is a float32 to itself, NaN and infinities to themselves, and every other number to an error that leaves the target unchanged; widening is always exact.", "quantifier": "every float64 and float32", "why_tests_cant": "2^64 values", "anchors": ["conv/float.go: FloatToFloat"]}
{"id": "C81", "title": "Big numbers become floats exactly or not at all", "statement": "BigIntToFloat32/64, BigFloatToFloat32/64, BigRatToFloat32/64, and To applied to them, succeed precisely for the numbers the float type can represent, and then give exactly that number.", "quantifier": "every *big.Int, *big.Float and *big.Rat", "why_tests_cant": "unboundedly many numbers", "anchors": ["conv/float.go: BigIntToFloat32, BigIntToFloat64, BigFloatToFloat32, BigFloatToFloat64, BigRatToFloat32, BigRatToFloat64", "conv/conv.go: To"]}
{"id": "C82", "title": "Comparison, minimum and maximum", "statement": "CmpOrdered/CmpComplex are -1, 0, 1 exactly as the first value is less than, equal to or greater than the second; MinOrdered/MaxOrdered, MinComplex/MaxComplex and MinCmp/MaxCmp return an argument that is least/greatest in that order.", "quantifier": "every pair of values of every ordered type, every Cmp implementation that is an order", "why_tests_cant": "unboundedly many types and values", "anchors": ["math/math.go: CmpOrdered, CmpComplex, MinOrdered, MaxOrdered, MinComplex, MaxComplex, MinCmp, MaxCmp"]}
{"id": "C83", "title": "Abs and Div accept every type of their constraint", "statement": "Abs and Div work for every type satisfying their constraint, including user defined types such as `type Delta int`, exactly as for the underlying type.", "quantifier": "every integer kind, every user defined type name and package", "why_tests_cant": "open-ended set of types", "anchors": ["math/math.go: Abs, absBig, Div"]}
{"id": "C84", "title": "Copies of big numbers made by To are independent", "statement": "As documented, To from a big type to the same big type makes a new pointer with a copy of the value, which can be modified without affecting the original.", "quantifier": "every heap of big numbers, every later operation on the copy", "why_tests_cant": "all heaps and histories", "anchors": ["conv/conv.go: To, ToBigOps"]}
{"id": "C85", "title": "Dereferencing types", "statement": "DerefType returns the type at the end of a chain of pointers, DerefTypeMaxOnePtr at most one pointer to it, NumPointers the length of the chain; ValueMaxOnePtrType of a value with at most one pointer is the type at the end, and nil for the invalid value and for more pointers.", "quantifier": "every type", "why_tests_cant": "types nest without bound", "anchors": ["reflect/reflect.go: DerefType, DerefTypeMaxOnePtr, NumPointers, ValueMaxOnePtrType"]}
{"id": "C86", "title": "Dereferencing values", "statement": "DerefValue returns the variable at the end of a chain of pointers, DerefValueMaxOnePtr the last pointer of it; a nil pointer on the way gives the invalid Value.", "quantifier": "every value in every memory", "why_tests_cant": "all memories, chains of any length", "anchors": ["reflect/reflect.go: DerefValue, DerefValueMaxOnePtr"]}
{"id": "C87", "title": "Classification of types and nil", "statement": "IsSignedInteger/IsUnsignedInteger/IsNumeric hold exactly of the types satisfying the constraints of those names, IsPrimitive of the primitive kinds, IsNillable of the kinds that have a nil, and IsNil exactly of nil values, without panicking.", "quantifier": "every type and every value", "why_tests_cant": "open-ended set of types", "anchors": ["reflect/reflect.go: IsSignedInteger, IsUnsignedInteger, IsNumeric, IsPrimitive, IsNillable, IsNil, IsBigPtr"]}
{"id": "C88", "title": "Conversion to base types", "statement": "TypeToBaseType gives the predeclared type of a user defined primitive type and nil otherwise; ValueToBaseType converts values of such types, and pointers to them, keeping the value (pointers still point to the same variable), and leaves everything else alone.", "quantifier": "every type, every value, every memory", "why_tests_cant": "open-ended set of types", "anchors": ["reflect/reflect.go: TypeToBaseType, ValueToBaseType"]}
{"id": "C89", "title": "Type assertions on reflected values", "statement": "TypeAssert reports an error exactly when the value, or the value inside an interface, is not of the given type; it does not panic. ResolveValueType keeps the contents.", "quantifier": "every value (including invalid and nil interfaces), every type", "why_tests_cant": "open-ended set of types", "anchors": ["reflect/reflect.go: TypeAssert, ResolveValueType"]}
{"id": "C90", "title": "Reflected access to a Maybe", "statement": "Through any number of pointers GetMaybeValue and MaybeValueIsPresent report what Get and Present of the Maybe do, SetMaybeValue and SetMaybeValueEmpty change exactly that Maybe; after a set, get returns the value; values that are no Maybe, cannot be set or have the wrong type give an error (or the invalid Value), never a panic.", "quantifier": "every type, every value, every memory", "why_tests_cant": "all memories", "anchors": ["union/reflect/reflect.go: GetMaybeType, MaybeValueIsPresent, GetMaybeValue, SetMaybeValue, SetMaybeValueEmpty"]}
{"id": "C91", "title": "SetPointerValue stores where the pointer leads", "statement": "SetPointerValue stores the value, converted to the type of the variable, in the variable at the end of the chain of pointers and changes no other variable; it panics exactly if there is no such variable or no such conversion.", "quantifier": "every chain of pointers, every memory, every value", "why_tests_cant": "all memories", "anchors": ["reflect/reflect.go: SetPointerValue"]}
{"id": "C92", "title": "FieldsByName", "statement": "FieldsByName maps exactly the field names of a struct to their fields, and is nil for other types and for structs without fields. GetFieldByName returns the same field for each of these names (if no name occurs twice, as only the blank one can), and panics for every other name that no embedded field promotes, and for types that are no struct.", "quantifier": "every type", "why_tests_cant": "open-ended set of types", "anchors": ["reflect/reflect.go: FieldsByName, GetFieldByName"]}
{"id": "C93", "title": "MapToStruct populates the struct", "statement": "As documented, MapToStruct returns an error for a nil pointer, for a type that is no struct and (unless told to ignore it) for a key without a field; when it returns nil, every key's value is in the field whose name is the key in CamelCase.", "quantifier": "every map, every struct, both ignore modes", "why_tests_cant": "all maps and structs", "anchors": ["strukt/reflect.go: MapToStruct, mapToStruct"]}
{"id": "C94", "title": "To, AnyTo, ToBigOps and ReflectTo find the conversion", "statement": "For every pair of number or string types, user defined ones included, To, AnyTo, ToBigOps and ReflectTo run the conversion between the underlying types, or copy if they are the same; for other arguments they return an error. They never panic.", "quantifier": "every pair of types", "why_tests_cant": "user defined types are open-ended", "anchors": ["conv/conv.go: convertFromTo, To, AnyTo, ToBigOps, ReflectTo"]}
{"id": "C95", "title": "Text becomes a big integer or ratio exactly", "statement": "StringToBigInt accepts exactly the optionally signed decimal integers, of any length, StringToBigRat reads decimals and ratios and FloatStringToBigRat only decimals, each exactly; what BigIntToString and BigRatToString wrote is read back unchanged; anything else is an error that leaves the target alone.", "quantifier": "every string, every big integer and ratio", "why_tests_cant": "strings of unbounded length", "anchors": ["conv/bigint.go: StringToBigInt", "conv/bigrat.go: StringToBigRat, FloatStringToBigRat", "conv/string.go: BigIntToString, BigRatToString"]}
{"id": "C96", "title": "Text becomes the nearest float", "statement": "StringToFloat32/64 read every decimal number in range as a nearest float, so that the text FloatToString gives for a float is read back as that float; NaN and infinities are recognised.", "quantifier": "every decimal text, every float", "why_tests_cant": "unboundedly many texts", "anchors": ["conv/float.go: StringToFloat32, StringToFloat64"]}
{"id": "C97", "title": "Conversions between *big.Rat and *big.Int give independent numbers", "statement": "BigRatToBigInt succeeds exactly for integral ratios and BigIntToBigRat always, with the same value, and the result is a number of its own: changing it does not change the number converted.", "quantifier": "every heap of big numbers, every later change", "why_tests_cant": "all heaps and histories", "anchors": ["conv/bigint.go: BigRatToBigInt", "conv/bigrat.go: BigIntToBigRat"]}
{"id": "C98", "title": "Division into an operand", "statement": "Div on big numbers stores the quotient (rounded half away from zero for *big.Int, exact for *big.Rat) where it is told to, also if that is the dividend or the divisor, and changes nothing else; a zero divisor is an error that changes nothing.", "quantifier": "every pair of numbers, every choice of the destination", "why_tests_cant": "aliasing of arguments", "anchors": ["math/math.go: Div, toDiv"]}
{"id": "C99", "title": "Sums and averages of big numbers", "statement": "SumBigOps and AvgBigOps give the sum and the mean of all elements of a stream of big numbers (the mean of integers rounded), nothing for an empty stream, and pass on an error of the source.", "quantifier": "every stream of big numbers", "why_tests_cant": "streams of any length, numbers of any size", "anchors": ["stream/stream.go: SumBigOps, AvgBigOps"]}
{"id": "C100", "title": "Sum and Abs over streams", "statement": "Sum gives the sum of all elements, Abs and AbsBigOps the stream of absolute values, with an error where there is none; the elements of the source are left alone.", "quantifier": "every stream of numbers of every kind", "why_tests_cant": "streams of any length", "anchors": ["stream/stream.go: Sum, Abs, AbsBigOps"]}
{"id": "C101", "title": "ExpandMaps is the inverse of reducing into maps", "statement": "ExpandMaps replaces every map of the stream by its entries, each exactly once, maps in order; reducing the entries to a map again gives the map.", "quantifier": "every stream of maps, every map iteration order", "why_tests_cant": "map iteration order is random", "anchors": ["stream/stream.go: ExpandMaps, ReduceToMap"]}
{"id": "C102", "title": "Generator starts anew for each data set", "statement": "As documented, Generator makes a new function when the iterator it is applied to differs from that of the previous use, and otherwise reuses the function, so that state is kept within a data set and never carried over to another one.", "quantifier": "every history of uses on any iterators", "why_tests_cant": "all histories", "anchors": ["stream/stream.go: Generator"]}
{"id": "C103", "title": "Go values become JSON values", "statement": "ToValue, MapToValue and SliceToValue succeed exactly for values built, to any depth, from nil, bool, strings, numbers, NumberStrings that hold a number, map[string]any and []any, and return an error (no panic) for everything else; the Value made from a map or slice is written as a JSON document that parses back to the same Value.", "quantifier": "every Go value, of any depth", "why_tests_cant": "unbounded nesting", "anchors": ["encoding/json/value.go: ToValue, MapToValue, SliceToValue, NumberToValue", "encoding/json/write/write.go: Write", "encoding/json/parse/parse.go: Parse"]}
{"id": "C104", "title": "Accessors of JSON values", "statement": "AsMap, AsSlice, AsString, AsNumber, AsBool, ToMap and ToSlice return exactly the content of the Value and panic exactly for a Value of another Type; IsNull, IsDocument and Type describe it; constructors and accessors are inverse; the Must versions panic exactly when the plain ones do not return a Value.", "quantifier": "every Value", "why_tests_cant": "unbounded nesting", "anchors": ["encoding/json/value.go: AsMap, AsSlice, AsString, AsNumber, AsBool, IsNull, IsDocument, ToMap, ToSlice, StringToValue, BoolToValue, MustToValue"]}
{"id": "C105", "title": "Which slice functions copy and which work in place", "statement": "SliceCopy and SliceRemove leave every slice of the program as it is and return a new slice that never shares memory with an older one, so that any later history of assignments, additions, sorts and reversals of either is invisible in the other; SliceReverse and the sort functions rearrange exactly their argument; SliceAdd appends to the variable. SliceOf of listed values gives a slice of its own; SliceOf of a slice is that slice.", "quantifier": "every memory with any slices on shared arrays, every later interleaved history of operations", "why_tests_cant": "aliasing shows only in later histories and depends on capacities", "anchors": ["funcs/funcs.go: SliceAdd, SliceCopy, SliceOf, SliceRemove, SliceRemoveUncomparable, SliceReverse, SliceSortOrdered, SliceSortComplex, SliceSortCmp, SliceSortBy"]}
{"id": "C106", "title": "Receivers may use the registry while an event is sent", "statement": "As documented, receivers can be registered at any time and a receiver may also be a sender: whatever receivers do with the registry during Send, Send returns (if they do not send themselves), and every receiver that is registered at the start and is not removed is called exactly once, in order of ids and of registration.", "quantifier": "every registry, every family of receivers that register, remove and send during Send, nested to any depth", "why_tests_cant": "all programs of receivers and their interleaving with the loop", "anchors": ["event/event.go: Register, RemoveId, Remove, Send", "funcs/funcs.go: OrderedTuple2SliceAdd, OrderedTuple2SliceRemoveKey, OrderedTuple2SliceRemoveUncomparable"]}
{"id": "C107", "title": "OfCSV gives the rows of a document", "statement": "OfCSV gives the rows of a CSV document in order, each complete when it is returned; after the last row EOI, and at an erroneous record or one with another number of fields than the first its error, repeated forever. As documented, all rows are the same slice, so that a row is valid only until the next one is read.", "quantifier": "every document, every number of rows", "why_tests_cant": "documents of any length; sharing shows only later", "anchors": ["iter/gen.go: CSVIterGen", "iter/iter.go: OfCSV"]}
{"id": "C108", "title": "iter.Maybe gives the outcome of Next", "statement": "Maybe gives each value of the iterator as a Result and then its error, again and again, as Next does; it does not panic.", "quantifier": "every element type, every iterator", "why_tests_cant": "all iterators and element types", "anchors": ["iter/iter.go: Maybe", "union/union.go: OfResultError"]}
{"id": "C109", "title": "Two ways to iterate the runes of a string agree", "statement": "OfStringAsRunes and the rune readers (StringAsRunesIterGen, OfReaderAsRunes on the same bytes) give the same runes and the same end.", "quantifier": "every string, valid UTF-8 or not", "why_tests_cant": "strings of any length", "anchors": ["iter/iter.go: OfStringAsRunes, OfReaderAsRunes", "iter/gen.go: StringAsRunesIterGen, ReaderAsRunesIterGen"]}
{"id": "C110", "title": "CSV and gzip requests", "statement": "NegotiateCSVContent gives the rows of the body of a text/csv request and nil for other content; AcceptGzip gives a reader of the (decompressed) body of every request.", "quantifier": "every request header and body", "why_tests_cant": "all headers and bodies", "anchors": ["rest/content.go: AcceptGzip, NegotiateCSVContent"]}
{"id": "C111", "title": "Comparison filters partition the values", "statement": "LessThan, LessThanEqual, Equal, GreaterThan, GreaterThanEqual and their complements decide the order of their argument and the given value, so that for every value exactly one of less, equal and greater holds; IsNegative, IsNonNegative and IsPositive decide the sign.", "quantifier": "every value of every ordered type", "why_tests_cant": "all values, including the special floats", "anchors": ["funcs/funcs.go: LessThan, LessThanEqual, Equal, GreaterThan, GreaterThanEqual, IsNegative, IsNonNegative, IsPositive"]}
{"id": "C112", "title": "Compose is composition, Ternary picks one", "statement": "Compose2 to Compose10 apply their functions in the order given, each once; composing compositions does not depend on the grouping; Ternary gives the one or the other value, TernaryResult calls only the supplier it picks.", "quantifier": "all functions and values", "why_tests_cant": "all functions of every type", "anchors": ["funcs/funcs.go: Compose, Compose2 ... Compose10, Ternary, TernaryResult"]}
{"id": "C113", "title": "Nil checks tell nil", "statement": "IsNil and IsNonNil tell for every value of a type with nil values whether it is nil; MustNonNilValue, MustNonZero and MustNonEmptySlice return the value they are given, or panic exactly if it is nil, zero or empty.", "quantifier": "every type and value", "why_tests_cant": "all types, also types of interfaces and values within interfaces", "anchors": ["funcs/funcs.go: IsNil, IsNonNil, MustNonNilValue, MustNonZeroValue"]}
{"id": "C114", "title": "Must versions", "statement": "The Must version of a function returns what the function returns, with the same effects, and panics exactly if the function gives an error, with this error.", "quantifier": "all arguments of every Must function of conv, math, json and rest", "why_tests_cant": "all arguments", "anchors": ["funcs/funcs.go: Must, MustValue, MustValue2", "conv/int.go: MustIntToInt, MustStringToInt64", "math/decimal.go: MustDecimal, MustAdd, MustDiv", "encoding/json/parse/parse.go: MustParse", "encoding/json/write/write.go: MustWrite", "rest/rest.go: MustHandle"]}
{"id": "C115", "title": "SupplierCached under concurrent calls", "statement": "The function SupplierCached returns calls the given supplier once, at the first call, and all calls, also concurrent ones, return its result.", "quantifier": "every supplier, every number of calls, every schedule of goroutines", "why_tests_cant": "all schedules", "anchors": ["funcs/funcs.go: SupplierCached"]}
{"id": "C116", "title": "Endless sources: lazy where possible", "statement": "Over a source that never ends, Map, MapError, Peek, Filter, Distinct, Duplicate, Skip, ExpandSlices and Concat give out the transformed endless sequence, each result after finitely many reads and no read beyond what the result needs; Limit ends after n values; AnyMatch, AllMatch and NoneMatch answer at the deciding value. What needs the whole source (reductions, collecting, reversing, sorting, a search without a match) does not return.", "quantifier": "every endless source, every function and predicate, every number of results", "why_tests_cant": "no test observes an endless run or that a call never returns", "anchors": ["stream/stream.go: Map, MapError, Filter, Peek, Skip, Limit, Distinct, Duplicate, ExpandSlices, AllMatch, AnyMatch, NoneMatch, Reduce, ReduceTo, ReduceToSlice, ReduceToMap, Reverse, SortBy", "iter/iter.go: InfiniteIterGen, ConcatIterGen"]}
{"id": "C117", "title": "Pipelines may be rewritten", "statement": "Over any source (ending, failing, endless, or blocking) these pipelines cannot be told apart by any sequence of Next and Unread: two Maps and one Map of the composition; two MapErrors and one; two Filters and one Filter with both predicates; Filter after Map and Map after Filter; Distinct and Filter in either order; two Skips and one Skip of the sum; two Limits and one Limit of the smaller number; Map swapped with Skip or Limit; Skip(m) then Limit(n) and Limit(m+n) then Skip(m); Map of a Concat and Concat of Maps; Filter of a Concat and Concat of Filters; nested Concats and one Concat; Map before Reduce, Count or a match and the mapping built into the function; AllMatch(p), NoneMatch(p) and the negation of AnyMatch. Map(identity), Filter(true), Skip(0) and Peek change nothing. A law may be applied anywhere inside a longer pipeline.", "quantifier": "every source, every function and predicate, every count, every sequence of Next and Unread", "why_tests_cant": "a test compares two pipelines on one finite slice", "anchors": ["stream/stream.go: Map, MapError, Filter, Distinct, Skip, Limit, Peek, Reduce, ReduceTo, ReduceToSlice, AllMatch, AnyMatch, NoneMatch, Count", "iter/gen.go: ConcatIterGen"]}
{"id": "C118", "title": "To between numeric types, all 225 pairs", "statement": "For every pair of the fifteen numeric types, To never panics; it returns no error exactly for the numbers that the target type has (NaN and infinities included), and then the target holds that very number; otherwise it returns an error and the target is as it was.", "quantifier": "every pair of types, every value of the source type, every content of the target (nil for big types included), amd64 and arm64", "why_tests_cant": "225 pairs, most with 2^64 or infinitely many values", "anchors": ["conv/conv.go: To, convertFromTo"]}
{"id": "C119", "title": "Chains of conversions agree", "statement": "Converting there and back with To gives the value converted, if the first conversion succeeds; converting through a third type that has the number gives what converting directly gives.", "quantifier": "every triple of numeric types, every value, every content of the targets", "why_tests_cant": "3375 triples of types", "anchors": ["conv/conv.go: To, convertFromTo"]}
{"id": "C120", "title": "OfMap delivers every entry once", "statement": "OfMap(m) delivers every entry of m exactly once, in any order, and then EOI forever.", "quantifier": "every map of any key and value type, every iteration order", "why_tests_cant": "map iteration order is random; nil interface values are rare in tests", "anchors": ["iter/gen.go: MapIterGen", "iter/iter.go: OfMap"]}
{"id": "C121", "title": "Max and Min of a stream of floats", "statement": "Max and Min of a non-empty stream are numbers of the stream, and no number of the stream is greater than the one or less than the other.", "quantifier": "every stream of any ordered type, floats with infinities and NaN included", "why_tests_cant": "all sequences; NaN at any position", "anchors": ["stream/stream.go: Max, Min"]}
{"id": "C122", "title": "Nil big pointers are never turned into numbers", "statement": "conv.To of a nil *big.Int, *big.Float or *big.Rat never produces a number or a text: if it returns without an error, the target is a nil pointer. json.NumberToValue of a nil big pointer does not produce a number Value.", "quantifier": "every big type, every target type and every previous content of the target", "why_tests_cant": "all pairs of source and target types, no matter what the target held", "anchors": ["conv/conv.go: To, AnyTo, convertFromTo", "conv/string.go: BigIntToString", "conv/bigfloat.go: BigIntToBigFloat", "encoding/json/value.go: NumberToValue, numberToValue"]}
{"id": "C123", "title": "Decimal Mul is commutative, respects zero, one, sign and order", "statement": "x.Mul(y) and y.Mul(x) return the same number or the same error; a product with zero is zero and with one is the other factor; negating a factor negates the result, or exchanges overflow and underflow; the result is on the side of zero of the exact product; multiplying by a non-negative number keeps the order of two numbers.", "quantifier": "every pair (triple) of valid Decimals of every scale and representation", "why_tests_cant": "all pairs of 18 digit numbers and scales, including those where the product leaves int64", "anchors": ["math/decimal.go: Decimal.Mul, Decimal.Negate"]}
{"id": "C124", "title": "Sums of Decimals do not depend on the order and keep the order of numbers", "statement": "Adding up several Decimals gives the same number in every order and however they are grouped, and x <= y implies x+z <= y+z.", "quantifier": "every list of valid Decimals and every permutation of it, every triple", "why_tests_cant": "lists of any length", "anchors": ["math/decimal.go: Decimal.Add, AdjustDecimalScale, addDecimal"]}
{"id": "C125", "title": "Decimal Div: identities", "statement": "x.Div(1) is x, x.Div(-1) is -x, x.Div(x) is 1, 0.Div(x) is 0; if the unscaled dividend is a multiple of the unscaled divisor and the divisor has no more fractional digits, the quotient is exact; negating the dividend negates the quotient or exchanges overflow and underflow; if x.Mul(y) is exact and y is not zero, Div(y) of it is x.", "quantifier": "every pair of valid Decimals, of every scale and representation", "why_tests_cant": "all pairs of 18 digit numbers and scales", "anchors": ["math/decimal.go: Decimal.Div, Decimal.Negate"]}
{"id": "C126", "title": "JSON Values: which maps and slices are shared with the caller", "statement": "ToValue, MapToValue and SliceToValue of map[string]any and []any build the Value from new maps and slices only, and ToAny, ToMap and ToSlice return new maps and slices only: later changes on one side are never seen on the other, and nothing that existed before is changed. Given a map[string]Value or []Value, and with AsMap and AsSlice, the Value and the caller share the map or slice: an assignment changes the Value. ToAny returns for exactly the Values that stand for a finite document.", "quantifier": "every memory, every (nested) Go value and every Value in it, every later change of memory", "why_tests_cant": "aliasing shows up only after later writes, and nesting is unbounded", "anchors": ["encoding/json/value.go: ToValue, MapToValue, SliceToValue, ToAny, ToMap, ToSlice, AsMap, AsSlice"]}
{"id": "C127", "title": "Div of *big.Float: NaN is an error, the rest is the rounded quotient", "statement": "Div and DivBigOps of *big.Float (pointers, nil quotient allowed): the result is the error big.ErrNaN exactly for 0/0 and Inf/Inf, never a panic; otherwise the quotient is the exact quotient rounded to nearest at the precision of the quotient variable (53 bits for a nil pointer, the larger operand precision when unset), with infinities and zeros of the right sign. A nil quotient is allocated; no other number changes. (The precision of the operands is lost for a nil quotient.)", "quantifier": "every three pointers, precisions, values and signs", "why_tests_cant": "precisions and values are unbounded, the aliasing of the three pointers matters", "anchors": ["math/math.go: Div, DivBigOps"]}
{"id": "C128", "title": "Copies of a ServeMux", "statement": "Assigning a ServeMux, or passing it by value as http.Handler, and registering more on one variable only: every copy answers by the registrations it had when copied. (Registering on both: the later registration replaces the earlier one of the other variable if the array had room, so it can be served by the wrong handler.)", "quantifier": "every history of Handle calls and assignments, every growth policy of append, every request", "why_tests_cant": "depends on the capacity left by the history of appends", "anchors": ["rest/rest.go: ServeMux.Handle, ServeMux.ServeHTTP"]}
{"id": "C129", "title": "Iterators and writers over slices that share memory", "statement": "The k-th Next of OfSlice(slc) returns the value element k of the slice has at the time of the call, whatever happened to memory before, and EOI from the end of the slice on; elements appended later are not seen and do not disturb what is still to come. Reading from OfSlice(s) and writing what f makes of each value with OfSliceWriter(&d), d = s[:0], gives what f makes of all the elements s had at first, in order, if never more is written than was read (so Map and Filter work in place); the elements of s after these are unchanged. (If more is written than read, elements are overwritten before they are read.)", "quantifier": "every memory, slice, function, growth policy of append and history of writes between calls", "why_tests_cant": "the slice and the writer share an array; the interleaving of reads and writes is unbounded", "anchors": ["iter/gen.go: SliceIterGen", "iter/iter.go: Of, OfSlice", "io/writer/gen.go: SliceWriterGen", "io/writer/writer.go: OfSliceWriter, Write"]}
{"id": "C130", "title": "Abs and Div of floats, Abs of big numbers", "statement": "Div of float32 and float64 never returns an error, not even for a zero divisor: the quotient is the IEEE 754 one, i.e. the exact quotient rounded half to even, an infinity from half a unit above the largest number of the type on, NaN exactly if an operand is NaN, both are zero or both are infinite, and with the sign of the operands' signs. Abs of a float never fails and gives the same magnitude without a sign (+0 for -0, NaN for NaN); the way of a float32 through float64 changes nothing. Abs of a *big.Int, *big.Float or *big.Rat variable changes the number it points to, so for every variable with the same pointer, and no other number, and panics exactly for a nil pointer.", "quantifier": "every two values of either float type, every memory and pointer", "why_tests_cant": "2^128 pairs of operands; rounding boundaries are rarely met by examples; aliasing", "anchors": ["math/math.go: Div, Abs"]}
{"id": "C131", "title": "Iterators are shared objects: what a transform consumes", "statement": "An Iter is an object that may be used by several pipelines. Map and Peek read one value of the source per value yielded, Filter up to and including the value it yields, Limit(n) exactly n and then none at all, Skip(m) nothing until asked and then m more, AllMatch/AnyMatch/NoneMatch up to the deciding value, ReduceToSlice nothing until asked and then all; whoever reads the source next gets the values after these. Pipelines over one source, asked in any order, get each value exactly once, in the order of the calls. A pipeline that has returned an error repeats it without asking its source, even if the source has values again. Concat of iterators of which some are the same object yields the values of each object once, where it first occurs; at any time the iterators before some place are finished, those behind it untouched. A value put back into a pipeline is the next one it yields, without touching its source; a value put back into a source is the next one any pipeline over it gets, and no other iterator sees it.", "quantifier": "every source, number of values, schedule of calls of any number of pipelines, list of iterators with repetitions", "why_tests_cant": "all sources and interleavings", "anchors": ["iter/iter.go: IterImpl, Next, Unread, Concat", "iter/gen.go: ConcatIterGen", "stream/stream.go: Map, Filter, Peek, Limit, Skip, AllMatch, ReduceToSlice"]}
{"id": "C132", "title": "Floats as keys of ordered tuple slices and as elements", "statement": "With float keys that are not NaN, OrderedTuple2Search, SliceAdd and SliceRemoveKey work as over the real numbers with the two infinities: the result is the one of the same calls on the numbers. SliceRemove and In compare floats as numbers and never remove or find a NaN. A NaN key is never found, each addition appends an entry of its own, removal does nothing. With NaN keys anywhere no call panics, an addition changes or adds one entry, a removal removes at most one entry with the key, and all other entries stay. (The code loses the order after that: with a NaN key present, existing keys are no longer found and get second entries.)", "quantifier": "every slice of float keys, key, value", "why_tests_cant": "all float keys including infinities and NaN", "anchors": ["funcs/funcs.go: OrderedTuple2Search, OrderedTuple2SliceAdd, OrderedTuple2SliceRemoveKey, SliceRemove, In"]}
{"id": "C133", "title": "Targets of failed conversions from text", "statement": "When StringToBigInt, StringToBigFloat, StringToBigRat, FloatStringToBigRat, StringToFloat32 or StringToFloat64 returns an error, the target keeps its former value. (The code keeps it only for FloatStringToBigRat and, for texts that are not numbers, for the floats: a *big.Float target becomes the number read before the error or nil, a *big.Rat target becomes nil, a float target takes the nearest float of a number it refuses.)", "quantifier": "every text and former value of the target", "why_tests_cant": "all texts, all ways in which a text is not a number", "anchors": ["conv/bigfloat.go: StringToBigFloat", "conv/bigint.go: StringToBigInt", "conv/bigrat.go: StringToBigRat, FloatStringToBigRat", "conv/float.go: StringToFloat32, StringToFloat64"]}
{"id": "C134", "title": "Texts of floats", "statement": "BigFloatToString writes the number of ten significant digits nearest to the value, BigRatToNormalizedString writes whole numbers exactly and all others with ten digits, BigFloatToBigRat is what reading that text gives. The text of a float32 or float64 read back is that float or an error, never another float; texts of at most 15 characters, NaN and the infinities are read back. All texts of finite floats and of rationals are JSON numbers, those of NaN and infinities are not. (Reading back can be an error for longer texts.)", "quantifier": "every float32, float64, *big.Float and *big.Rat", "why_tests_cant": "all values, and for the text of a float any rule choosing digits that identify it", "anchors": ["conv/string.go: FloatToString, BigFloatToString, BigRatToNormalizedString", "conv/bigrat.go: BigFloatToBigRat", "conv/float.go: StringToFloat32, StringToFloat64"]}
{"id": "C135", "title": "Parsing from a reader", "statement": "Parse of a reader that delivers the UTF-8 encoding of a text returns the meaning of the document the text begins with, and an error if there is none; it returns and never panics whatever the bytes are; a nil reader is an empty document. It reads no further than the end of the document, so it returns even if the reader then fails or blocks. Iterate yields the elements of an array as they arrive, and what it yields agrees with what Parse returns. Bytes that are not UTF-8 are refused, and the result does not depend on how many bytes a call of Read returns. (The code violates the last sentence: surrogates and over-long sequences are accepted, and readers that return fewer bytes than asked for, or the last bytes together with EOF, can make it fail.)", "quantifier": "every reader, every sequence of bytes, every way the reader goes on after the document", "why_tests_cant": "all texts and bytes, readers without an end", "anchors": ["encoding/json/parse/lex.go: lex, lexer, lexString, lexNumber, lexBooleanNull", "encoding/json/parse/parse.go: Parse, Iterate, MustParse, parseValue, parseObject, parseArray", "iter/gen.go: ReaderAsRunesIterGen", "stream/stream.go: ReduceToSlice"]}
{"id": "C136", "title": "Routes and regular expressions", "statement": "A ServeMux whose patterns are routes, `^` then texts and UUIDGroups then `$`, calls for a request the handler of the first route with its method whose pieces make up the URL, and passes it the URL and the UUIDs in the URL in order; otherwise it answers 405 if a route of another method is made up like the URL, and 404 if none is. A pattern without the anchors matches every URL that contains its pieces, and an unescaped dot any rune. The regular expressions in StringToDecimal, CamelCaseToSnakeCase, the conversions of NumberString and ParsePath find, for every text, the leftmost match (and the first that a backtracking search finds there), with the submatches these functions are documented to work with.", "quantifier": "every list of routes, every method and URL, every text", "why_tests_cant": "all URLs, all texts, all lists of routes", "anchors": ["rest/rest.go: UUIDGroup, ServeMux.Handle, ServeMux.ServeHTTP", "math/decimal.go: decimalRegex, StringToDecimal", "funcs/funcs.go: camelWordsRegexp, CamelCaseToSnakeCase", "encoding/json/value.go: numberStringRegex", "encoding/json/search.go: regexPathParts, parsePath"]}
{"id": "C137", "title": "The memory behind an ErrorWriter, nil maps and failing destinations", "statement": "A slice returned by ErrorWriter.Output keeps its bytes whatever is written later, and the output at any later time begins with them, as long as nobody writes through such a slice; Write changes no other slice, and works even if the bytes written are part of the output. A caller may append to the slice it got. A writer for a nil map panics exactly when a first value is written. The writers to an io.Writer panic if a write fails. (The code violates the last two: appended bytes are overwritten by the next Write, and an error is returned instead of a panic.)", "quantifier": "every count, every history of Writes and of changes elsewhere in memory, every slice", "why_tests_cant": "all histories and all ways slices overlap", "anchors": ["io/io.go: NewErrorWriter, ErrorWriter.Write, ErrorWriter.Output", "io/writer/gen.go: MapWriterGen, IOWriterGen", "io/writer/writer.go: OfMapWriter, OfIOWriterAsBytes, WriterImpl.Write"]}
{"id": "C138", "title": "Tuples keep their values", "statement": "A tuple of two, three or four values gives back exactly the values it was made of, in the order given, through Values, through its fields and through FirstValue, SecondValue and ThirdValue; it is determined by them (two tuples are equal exactly if all values are), and its text names every value by its letter in order, whatever characters the texts of the values contain.", "quantifier": "every value of every type, every formatting of values", "why_tests_cant": "all values of all types, including texts with formatting verbs", "anchors": ["tuple/tuple.go: Of2, Of2Same, Of3, Of3Same, Of4, Of4Same, Values, String", "funcs/funcs.go: FirstValue2, FirstValue3, SecondValue2, SecondValue3, ThirdValue3"]}
{"id": "C139", "title": "What is written to CurrentSrc is in the file of its Src", "statement": "CurrentSrc is the writer of the latest Src that returned (nil before the first); after any history of calls and writes, also through writers kept from before, each source file contains exactly what was written to its writer in order; Src panics if the file already exists, and no other file changes unless SetBasePath is called.", "quantifier": "every file system, every user, every history of SetBasePath, Dir, Src and writes, including calls that panic and are recovered", "why_tests_cant": "histories are unbounded and the file system is arbitrary", "anchors": ["code/api.go: BaseGenerator, Src, CurrentSrc", "io/writer/writer.go: OfIOWriterAsStrings, Write", "io/writer/gen.go: IOWriterAsStringsGen"]}
{"id": "C140", "title": "Go values survive a trip through JSON", "statement": "A map or slice of Go values (nil, booleans, strings, numbers, maps and slices, to any depth) converted to a Value, written and parsed again has everywhere what was sent: the same keys in the same places, the same strings and booleans, and number texts from which conv.To gives back exactly the number that was sent, in its type.", "quantifier": "every tree of Go values, every integer of every type, every float32 and float64", "why_tests_cant": "trees of unbounded depth and all numbers", "anchors": ["encoding/json/value.go: MapToValue, SliceToValue, toValue", "encoding/json/write/write.go: Write", "encoding/json/parse/parse.go: Parse", "conv/string.go: FloatToString, BigIntToString", "conv/float.go: StringToFloat64, StringToFloat32", "conv/conv.go: To"]}
{"id": "C141", "title": "TryTo with functions that have effects, recover or end the goroutine", "statement": "Whatever tryFn, the closers and panicFn do to shared state, and whether they return, panic, call recover, end the goroutine (Goexit) or are nil: tryFn is called first, then every closer exactly once in reverse order, each on the state left by the one before; panicFn is called exactly when a panic with a value other than nil is then in progress, with that value; no panic of tryFn or a closer leaves TryTo, only one of panicFn; the goroutine ends only if a function ended it. A closer made with IgnoreResult never takes the panic away from panicFn. If tryFn panics, panicFn is called.", "quantifier": "every world, tryFn, panicFn, list of closers (nil included), with outcomes that depend on the state", "why_tests_cant": "all functions and all interactions through shared state", "anchors": ["funcs/funcs.go: TryTo, IgnoreResult"]}
{"id": "C142", "title": "Functions with effects, and panics, in pipelines", "statement": "The functions given to Map, MapError, Filter, Peek, Reduce, ReduceTo, ReduceToBool (AllMatch, AnyMatch, NoneMatch) are called exactly once per value, in the order of the values, when the value is asked for, and in a chain value by value from first to last function. If a function or the source panics and the caller of Next recovers, the iterators remain usable: Map, MapError, Filter, Peek, Skip and Limit go on with the next value, having lost only the value that caused the panic; a transform that reduces the whole source reads nothing more and reports no result, only EOI.", "quantifier": "every source (values and panics in any order, then any error), every function with its own or a shared state, any number of calls", "why_tests_cant": "every point at which a panic may occur, every state", "anchors": ["iter/iter.go: IterImpl.Next, OfIter", "stream/stream.go: Map, MapError, Filter, Peek, Reduce, ReduceTo, ReduceToBool, ReduceToSlice, Skip, Limit, AvgInt, AvgUint"]}
{"id": "C143", "title": "Panics in the sources of expanding, concatenating, collecting and sorting iterators", "statement": "If a source (or a function of the user) panics and the caller recovers, the other iterators remain usable as well: ExpandSlices and ExpandMaps go on with the next slice or map, Concat with the same iterator, SetError, Distinct and Duplicate with the next value (remembering what they have seen), an iterator made by InfiniteIterGen calls its function again with the last value it returned. ReduceIntoSlice keeps the values read before the panic in the slice, reports no result afterwards and never writes past the end of the slice. Reverse and the sorting transforms panic when they are created, and the source is left just behind the panic.", "quantifier": "every source (values and panics in any order, then any error), every list of iterators (nil ones included), every initial slice, any number of calls", "why_tests_cant": "every point at which a panic may occur, every state", "anchors": ["stream/stream.go: ExpandSlices, ExpandMaps, ReduceIntoSlice, Distinct, Duplicate, Reverse, SortBy, SortOrdered, SortComplex, SortCmp", "iter/gen.go: ConcatIterGen, InfiniteIterGen", "iter/iter.go: SetError"]}
{"id": "C144", "title": "Panics in the transforms of Parallel", "statement": "If the transform given to Parallel panics (or gives more values than its range has elements) the caller gets no result that misses values: with no or one element no thread is started, and a panic is raised in the goroutine that calls Next, where it can be recovered; with two or more elements the panic of any thread terminates the program, whatever the schedule. A panic of the source is raised in the goroutine that calls Parallel before any thread is started.", "quantifier": "every transform, source (values, panics, then any error), number of elements, partition and schedule", "why_tests_cant": "all interleavings, including the moment between the deferred wg.Done of a panicking thread and the end of the program", "anchors": ["stream/stream.go: Parallel, ReduceIntoSlice, generateRanges"]}
{"id": "C145", "title": "A regex pattern is read as what it stands for", "statement": "A pattern written with runes (escaped or not, or by their numbers, as in \\x41, \\x{41} and \\101), `.`, classes, `^`, `$`, groups, capturing groups (with or without a name), alternatives and repetitions (greedy or lazy), nested in any way, is accepted by Handle, and what it matches and captures is what it stands for: repetition binds tighter than sequence, sequence tighter than `|`, and capturing groups are numbered by their opening parentheses. A repetition is refused exactly when its bounds are over 1000 or out of order, or when nested repetitions multiply to more than 1000. Parentheses that do not match, empty classes, classes that do not end, ranges out of order, a repetition with nothing to repeat or directly after another, names that are empty or not of letters, digits and `_`, a backslash at the end, a reference to a group (as in \\1), and numbers of runes without digits, without their } or beyond the last rune are refused; a `]` at the beginning of a class and a `-` at its end are runes of it; the escaped letters d, w, s, their capitals, a, f, n, r, t, v (and outside of classes A and z) stand for the classes, control runes and ends of the text they are documented for, an escaped letter or digit never stands for itself, and without a meaning it is refused. Whether repetitions are lazy makes no difference to which patterns are accepted and which URLs they match, but to what is captured: between two texts, `(.*?)` captures what is before the first occurrence of the second, `(.*)` what is before the last. A repetition ends at an iteration that matches nothing: `(?:|x)` with any repetition captures nothing, whatever x is. A request is given to the first registration of its method whose pattern matches the URL, with the leftmost match and one part for every capturing group.", "quantifier": "every pattern of the grammar (any size and nesting), list of registrations, method and URL", "why_tests_cant": "patterns and URLs of any length", "anchors": ["rest/rest.go: ServeMux.Handle, ServeMux.ServeHTTP (regexp.Compile of the Go library)"]}
{"id": "C146", "title": "Receivers that panic", "statement": "If a receiver panics, Send panics with the same value, no receiver after it is called, those before it have been called exactly as if it had not panicked, and the registry is what the Register, RemoveId and Remove calls the receivers made up to then make of it, never half changed. The registry can be used afterwards: a later Send starts again with the first receiver, and after Remove of the receiver that panics the event reaches all the others. Without panics all is as in C45 and C106. Send never panics by itself.", "quantifier": "every registry, receivers (which may use the registry, send events themselves, recover and panic), event and nesting depth", "why_tests_cant": "histories of calls and panics of any length", "anchors": ["event/event.go: Registry.Send, Register, RemoveId, Remove"]}
{"id": "C147", "title": "Parallel has no data races", "statement": "Of two accesses to the same element of the slices that the goroutines of Parallel share (input, output, errors), at least one of them a write, one happens before the other in the sense of the Go memory model, whatever the transforms do with their iterators, however the goroutines are scheduled and whether or not the slice is modified in place. Threads that run before others have been started, and the caller running beside them, make no difference to the result; when the caller goes on every thread has ended.", "quantifier": "every transform, number of elements, partition, schedule of all goroutines including the caller, and every prefix of an execution", "why_tests_cant": "all interleavings; a race need not show in a test", "anchors": ["stream/stream.go: Parallel, ReduceIntoSlice, generateRanges", "iter/gen.go: SliceIterGen"]}
{"id": "C148", "title": "Generator and goroutines", "statement": "Generator's transform calls the generator once per call and gives each call a function that no other call gets, so that the state of a transform never serves two data sets, also when goroutines (such as those of Parallel) call it at the same time.", "quantifier": "every schedule of any number of calls, on any iterators, and every prefix of an execution", "why_tests_cant": "all interleavings of the calls", "anchors": ["stream/stream.go: Generator, Parallel"]}
{"id": "C149", "title": "Registering while requests are served", "statement": "Handle may be called at any time, also by several goroutines and while requests are being served, as documented: no request panics or calls a handler that nobody registered, every request is answered and every call of Handle returns without waiting for others, registrations that were there before stay and keep their precedence, a request is answered according to the registrations made when it began, and all registrations whose calls have returned are in the mux in that order.", "quantifier": "every mux, every number of goroutines that register and of requests, every schedule of their reads and writes of the slice and its array, every growth of the array", "why_tests_cant": "all interleavings of memory accesses", "anchors": ["rest/rest.go: ServeMux.Handle, ServeMux.ServeHTTP", "funcs/funcs.go: SliceAdd"]}
{"id": "C150", "title": "Changing the registry while events are sent by other goroutines", "statement": "Receivers can be registered at any time, as documented, also by other goroutines while events are sent: no call panics, every call returns without waiting for others, a Send makes one round per id there was when it began and calls only receivers registered with that id; every receiver whose Register call returned before the Send began, and that is not removed, is called exactly once, in order; and after any number of calls the registry is what they make of it one after the other.", "quantifier": "every registry, every number of goroutines that call Register, RemoveId and Remove or Send, every schedule of their reads and writes of the slice and its arrays", "why_tests_cant": "all interleavings of memory accesses", "anchors": ["event/event.go: Register, RemoveId, Remove, Send", "funcs/funcs.go: OrderedTuple2SliceAdd, OrderedTuple2SliceRemoveKey, OrderedTuple2SliceRemoveUncomparable"]}
{"id": "C151", "title": "JSON documents as streams", "statement": "A program may read a JSON array with Iterate, keep elements with Filter, convert them with MapError, collect them with ReduceToSlice and write the slice as an array: what Parse reads from that is exactly the converted elements that were kept, in order. If an element cannot be converted, or the document is incomplete or malformed, nothing is collected and the iterator ends with an error that is not EOI - that of the first element that failed, if the document is well formed.", "quantifier": "every reader of finitely many runes, every array, every predicate and conversion", "why_tests_cant": "all documents, predicates and conversions; the parts are tested apart", "anchors": ["encoding/json/parse/parse.go: Iterate, Parse", "encoding/json/write/write.go: Write", "stream/stream.go: Filter, MapError, ReduceToSlice"]}
{"id": "C152", "title": "What the error of a failed conversion says", "statement": "When To cannot convert a number or a string into a variable of a numeric type, the error says so for the value that was to be converted, with its own type, and for the type of the variable; what it says is true, and there is an error exactly if the conversion failed.", "quantifier": "every value of the fifteen numeric types, every string and every numeric target type", "why_tests_cant": "all values and all 225 pairs of types; a test compares a few messages", "anchors": ["conv/conv.go: To, errMsg", "conv/int.go: BigIntToInt64, IntToInt, UintToUint", "conv/float.go: FloatToFloat, BigRatToFloat64"]}
{"id": "C153", "title": "Text cut off at any byte", "statement": "If only the first k bytes of a text that was written are there (the program died, or the destination failed), then reading them gives nothing that was not written: OfReaderAsRunes yields exactly the complete characters and then EOI, or InvalidUTF8 if the cut is inside a character; OfReaderAsLines yields the completely written lines and at most the beginning of the next one, which is left out, with InvalidUTF8, if the cut is inside a character; and Parse refuses a JSON document cut off before its end.", "quantifier": "every text, every list of lines without line ends, both line endings, every document, and every byte count k", "why_tests_cant": "every crash point; a test cuts a text in a few places", "anchors": ["io/writer/writer.go: OfIOWriterAsLines", "io/io.go: ErrorWriter", "iter/gen.go: ReaderAsRunesIterGen, readLines", "encoding/json/parse/parse.go: Parse"]}
{"id": "C154", "title": "CSV texts and their rows", "statement": "OfCSV (and NegotiateCSVContent for a text/csv request) gives for every text some rows with the same number of fields, and then EOI or an error of package csv, forever. Rows written as RFC 4180 says, with LF or CR LF as line ending and any text in the fields, come back unchanged; whatever follows them, rows that were written completely come first, and a text that is cut off gives at most one row more than the complete ones.", "quantifier": "every text, every table of fields of any text, every way to quote fields and end lines, and every point at which the text is cut off", "why_tests_cant": "unboundedly many texts and tables; a test reads one small document", "anchors": ["iter/iter.go: OfCSV", "iter/gen.go: CSVIterGen", "rest/content.go: NegotiateCSVContent"]}
{"id": "C155", "title": "Elements of an array that is cut off", "statement": "What Iterate yields before it returns an error are elements of the document: when the text of an array stops somewhere, because the reader fails or the input ends (at any byte, also inside a character), Iterate yields the first elements of the array, as it would if the text went on, and then an error that is not EOI.", "quantifier": "every text and continuation, every cut, every way the reader ends", "why_tests_cant": "unboundedly many texts and cuts; a test cuts one document at one point", "anchors": ["encoding/json/parse/parse.go: Iterate", "encoding/json/parse/parse.go: parseArray", "encoding/json/parse/lex.go: lexNumber", "rest/content.go: NegotiateJSONContent"]}
{"id": "C156", "title": "Rows of a CSV source that fails", "statement": "When the source of OfCSV (or the body of a text/csv request) fails, every row given before the error is a row of the text, as it would be given if the source had gone on: never a row made of a line that was only read in part. All rows that were read completely are given, and the iterator ends with the error of the source or one of package csv, never with EOI.", "quantifier": "every text read before the failure, every continuation, every error but the ends of input", "why_tests_cant": "unboundedly many texts, cuts and continuations; a test fails one source at one point", "anchors": ["iter/iter.go: OfCSV", "iter/gen.go: CSVIterGen", "rest/content.go: NegotiateCSVContent"]}
{"id": "C157", "title": "Writers without a destination and functions that panic", "statement": "NewWriter panics exactly if the writing function is nil. The other constructors accept a nil slice pointer, nil map or nil io.Writer; Write without values returns nil on them, and Write with any value panics with the run time error of Go. If a writing function panics in the middle of a Write, the panic reaches the caller, all earlier values have been written and no later value reaches the function. With a destination, no Write of these writers panics by itself.", "quantifier": "every writing function (returning nil, an error, or panicking), every destination, every list of values", "why_tests_cant": "unboundedly many functions and lists; a test panics at one value", "anchors": ["io/writer/writer.go: NewWriter, OfSliceWriter, OfMapWriter, OfIOWriterAsBytes, OfIOWriterAsRunes, OfIOWriterAsStrings, OfIOWriterAsLines, WriterImpl.Write", "io/writer/gen.go: SliceWriterGen, MapWriterGen, IOWriterGen, IOWriterAsRunesGen, IOWriterAsStringsGen, IOWriterAsLinesGen"]}
