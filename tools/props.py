#!/usr/bin/env python3
# Generates /verif/properties.jsonl (kept as source so that the list can grow).
import json, os
P = []
def p(title, statement, quantifier, why, anchors):
    P.append(dict(id="C%02d" % (len(P)+1), title=title, statement=statement, quantifier=quantifier,
                  why_tests_cant=why, anchors=anchors))

# ---- math/decimal
p("Decimal construction is exact and validated",
  "OfDecimal(v, s) succeeds exactly when s <= 18 and |v| <= 999_999_999_999_999_999; on success the Decimal denotes exactly v / 10^s, and unless normalized=false was passed (or v is 0) it has no trailing fractional zeros. Every other argument yields an error and the zero Decimal.",
  "every int64 value, every uint scale, both normalization flags", "2^64 values x scales cannot be enumerated",
  ["math/decimal.go: OfDecimal, applyNormalization, Normalize"])
p("Normalize is value preserving and canonical",
  "Normalize never changes the rational number a Decimal denotes, is idempotent, and gives a canonical form: two Decimals denoting the same number have identical value and scale after Normalize.",
  "every pair of valid Decimals", "needs all values and all counts of trailing zeros",
  ["math/decimal.go: Decimal.Normalize"])
p("Decimal String/StringToDecimal round trip",
  "StringToDecimal(d.String()) returns a Decimal with the same value and scale as d, without an error.",
  "every valid Decimal (|value| < 10^18, scale 0..18)", "all digit/scale combinations; the boundary scale is where it breaks",
  ["math/decimal.go: Decimal.String, StringToDecimal, decimalRegex"])
p("StringToDecimal accepts exactly decimal strings and parses them exactly",
  "StringToDecimal accepts exactly the strings of the form -?[0-9]*(.[0-9]*)? with at least one digit and at most 18 digits, and the result denotes exactly the number written, with scale = number of fractional digits.",
  "every string", "unbounded set of strings", ["math/decimal.go: StringToDecimal, decimalRegex"])
p("Decimal.Cmp is numeric comparison",
  "d.Cmp(o) is -1, 0, 1 exactly when the rational value of d is <, =, > that of o, whatever the scales and signs (hence it is a total order: antisymmetric and transitive).",
  "every pair of valid Decimals", "all scale/sign/magnitude combinations",
  ["math/decimal.go: Decimal.Cmp, AdjustDecimalFormat"])
p("AdjustDecimalScale makes scales equal and changes at most the one allowed operand",
  "AdjustDecimalScale never panics; on success both scales are equal, and either both denoted values are unchanged (the smaller-scale operand was extended), or the larger-scale operand was rounded half away from zero to the smaller scale; on error neither operand changes.",
  "every pair of valid Decimals", "all digit-count/scale-difference combinations; index arithmetic fails off the tested points",
  ["math/decimal.go: AdjustDecimalScale"])
p("Decimal Add and Sub are exact when operands can be aligned",
  "When the operand with fewer fractional digits has room for the needed zeros (or scales agree), Add/Sub return exactly the rational sum/difference if it fits in 18 digits at the larger of the two scales and an overflow/underflow error otherwise; in every case a returned result is a valid Decimal within half a unit in the last place of the coarser operand.",
  "every pair of valid Decimals", "2^128 pairs", ["math/decimal.go: addDecimal, Decimal.Add, Decimal.Sub"])
p("Decimal Add: identity, commutativity, inverse",
  "x.Add(0) denotes x; x.Add(y) and y.Add(x) denote the same number or both fail; x.Sub(x) is 0 scale 0; if x.Add(y) is exact, Sub(y) of it is x.",
  "every pair of valid Decimals", "algebraic laws over all values", ["math/decimal.go: Decimal.Add, Decimal.Sub, Negate"])
p("Decimal Mul returns the exact product when it fits and a correctly rounded one otherwise",
  "If |d.value*o.value| < 10^18 and the scales add up to at most 18 the result denotes exactly d*o; otherwise the result differs from the exact product by no more than a unit in the last place, or an error is returned if the integer part does not fit.",
  "every pair of valid Decimals", "overflow/rounding boundaries are sparse in 2^128 pairs", ["math/decimal.go: Decimal.Mul"])
p("DivIntQuoRem is Euclidean-style division",
  "For 0 < o <= |integer part of d|: d = q*o + r exactly, |r| < o units in the last place, r has the sign of d, q has the scale of d. o = 0 and o larger than the integer part are errors.",
  "every valid Decimal and every uint divisor", "all values and all divisors, including those above 2^63", ["math/decimal.go: Decimal.DivIntQuoRem"])
p("DivIntAdd parts sum to the dividend",
  "The slice returned by DivIntAdd(o) has o elements that add up to exactly d and differ from one another by at most one unit in the last place.",
  "every valid Decimal and every valid divisor", "needs all remainders", ["math/decimal.go: Decimal.DivIntAdd"])
p("Div returns the quotient to within one unit in the last place",
  "For o != 0, d.Div(o) either reports an over/underflow or returns a q with |q - d/o| < 1 unit in the last place of q; when the division terminates within 18 digits the result is exact; the call terminates; the sign is right.",
  "every pair of valid Decimals with o != 0", "loop over remainders with int64 arithmetic; failing inputs are sparse", ["math/decimal.go: Decimal.Div"])
p("Decimal results stay valid",
  "Every Decimal returned by the API (construction, Add, Sub, Mul, Div, DivInt*) has |value| < 10^18 and scale <= 18, so later calls (String, MagnitudeLessThanOne, Cmp) cannot misbehave.",
  "every sequence of API calls", "closure of an invariant under all operations", ["math/decimal.go: all constructors and arithmetic"])
p("MagnitudeLessThanOne, Sign, Negate agree with the denoted number",
  "MagnitudeLessThanOne is true iff |d| < 1; Sign is the sign of d; Negate denotes -d and is an involution.",
  "every valid Decimal", "all values", ["math/decimal.go: MagnitudeLessThanOne, Sign, Negate"])

# ---- math
p("AddInt/AddUint/SubUint detect overflow exactly",
  "AddInt, AddUint and SubUint return nil iff the mathematical result is representable in the type, in which case the target holds it; the error is Overflow/Underflow according to the side on which it fell out.",
  "every width and every pair of values", "2^128 pairs for 64-bit", ["math/math.go: AddInt, AddUint, SubUint"])
p("SubInt detects overflow exactly",
  "SubInt(me, &sed) returns nil iff me - sed is representable, in which case *sed holds it.",
  "every signed width and every pair of values", "2^128 pairs; fails on a single column", ["math/math.go: SubInt"])
p("math.Mul detects overflow exactly and leaves the target alone on error",
  "Mul(mp, &ma) returns nil iff mp*ma is representable in the type, in which case ma holds it; otherwise ma is unchanged and the error is Overflow if the product is non-negative, else Underflow.",
  "every integer type and every pair of values", "2^128 pairs", ["math/math.go: Mul", "conv/conv.go: *big.Int -> integers"])
p("Integer Div rounds half away from zero",
  "For divisor != 0 the integer Div stores the quotient rounded to nearest, ties away from zero; divisor 0 gives DivByZeroErr and leaves the quotient alone.",
  "every integer type and every pair of values", "2^128 pairs; sign of a zero truncated quotient", ["math/math.go: Div, divSInt, divUInt, toDiv"])
p("Abs is exact or an error",
  "Abs(&v) stores |v| and returns nil unless v is the minimum of its signed type, in which case it returns an error; unsigned values are never changed.",
  "every integer type and value", "all 64-bit values", ["math/math.go: Abs, toAbs"])
p("Range value always lies in its bounds",
  "After OfRange (which panics if the initial value is out of bounds or min >= max) and any sequence of SetValue calls, GetValue lies within the bounds and modes; a SetValue that returns an error changes nothing; one that returns nil stores exactly its argument.",
  "every ordered type, bounds, modes and history of SetValue calls", "all histories", ["math/range.go: OfRange, SetValue"])

# ---- conv
p("Integer conversions are exact or errors",
  "conv.To between any two of the ten integer types returns nil iff the source value is representable in the target type, and then the target equals the source; otherwise an error and the target is unchanged.",
  "every ordered pair of integer types and every value", "100 type pairs x 2^64 values", ["conv/int.go: IntToInt, UintToInt, IntToUint, UintToUint", "conv/conv.go: convertFromTo, To"])
p("Integer/string conversion round trips",
  "Converting any integer to a string and back yields the same integer; converting a string to a narrower integer type succeeds iff the number it spells is in range.",
  "every integer value and every numeric string", "2^64 values, unbounded strings", ["conv/string.go: IntToString, UintToString", "conv/int.go: StringToInt64, StringToUint64"])
p("Integer to float conversion is exact or an error",
  "IntToFloat returns nil only if the float equals the integer exactly, and returns nil for every exactly representable integer.",
  "every 64-bit integer, both float widths", "2^64 values; rounding to the type boundary", ["conv/float.go: IntToFloat"])

# ---- iter
p("Iter: Unread is a LIFO push-back and Next is otherwise the source",
  "For any interleaving of Next and Unread on an iterator, Next returns the most recently unread value not yet returned, else the next source value; nothing is lost, duplicated or reordered.",
  "every source and every sequence of Next/Unread calls", "all histories", ["iter/iter.go: IterImpl.Next, Unread"])
p("Iter: errors are sticky and the source is not called again",
  "Once the source function returned an error, every later Next (with nothing unread) returns (zero, that same error) and the source function is never invoked again.",
  "every source and every sequence of calls", "all histories", ["iter/iter.go: IterImpl.Next"])
p("Basic generators yield exactly the advertised sequence",
  "Of/OfSlice/OfOne/OfEmpty iterate exactly their items then EOI forever; InfiniteIterGen yields the literals then f(seed), f(f(seed)), ...; FibonnaciIterGen yields 1,1,2,3,5,... (mod 2^64).",
  "every slice, function, seed list and call count", "unbounded sequences", ["iter/gen.go: SliceIterGen, SingleValueIterGen, NoValueIterGen, InfiniteIterGen, FibonnaciIterGen"])
p("Concat is list concatenation with first-error stop",
  "Concat(i1..in) iterates all values of i1, then i2, ... ; the first non-EOI error ends it and is repeated forever; nil iterators are skipped.",
  "every list of iterators", "unbounded lists", ["iter/gen.go: ConcatIterGen", "iter/iter.go: Concat"])
p("SetError replaces the terminal error only",
  "SetError(it, e) yields the values of it and then e instead of it's terminal error.",
  "every iterator and error", "all iterators", ["iter/iter.go: SetError"])
p("UTF-8 rune reader is the inverse of UTF-8 encoding",
  "Reading the UTF-8 encoding of any sequence of Unicode scalar values through OfReaderAsRunes yields exactly that sequence and then EOI, and bytes that are not valid UTF-8 give InvalidUTF8EncodingError.",
  "every rune sequence and every byte sequence", "1.1M code points in unbounded sequences", ["iter/gen.go: ReaderAsRunesIterGen"])
p("Line reader splits at LF, CR and CRLF",
  "OfReaderAsLines/OfStringAsLines return the text split at every LF, CR or CRLF, without terminators, a final unterminated non-empty line included.",
  "every text", "all texts and terminator mixes", ["iter/gen.go: readLines"])
p("Byte reader yields all bytes and repeats its error",
  "OfReader yields every byte the reader delivers, then EOI (or the reader's error) forever.",
  "every conforming io.Reader behaviour", "reader behaviours are unbounded", ["iter/gen.go: ReaderIterGen"])

# ---- stream
p("Map/MapError/Filter/Peek denote list map, prefix-map, filter, identity",
  "Map f yields f of each element; MapError yields mapped elements up to the first error, which it returns; Filter p yields exactly the elements satisfying p in order; the source's terminal error is passed on.",
  "every iterator and function", "all sequences", ["stream/stream.go: Map, MapError, Filter, Peek"])
p("Reduce family denotes left fold",
  "Reduce/ReduceTo yield exactly one value, the left fold (starting at the identity, or first element/zero value), nothing for an empty source without identity, and the error if the source fails with a non-EOI error.",
  "every iterator, reducer, optional identity", "all sequences", ["stream/stream.go: Reduce, ReduceTo, Count, Sum, Max, Min"])
p("AllMatch/AnyMatch/NoneMatch are the quantifiers and short circuit",
  "AllMatch = forall, AnyMatch = exists, NoneMatch = forall-not (true/false/true on empty); no element after the deciding one is read; if the source fails before an element decides, the result is that error and no answer, and if it would fail only later, the answer is given.",
  "every iterator and predicate", "all sequences", ["stream/stream.go: ReduceToBool, AllMatch, AnyMatch, NoneMatch"])
p("Skip and Limit are drop and take",
  "Skip(n) drops the first n values, Limit(n) yields the first n and never reads more than n from its source; Limit then concatenated with Skip is the whole.",
  "every iterator and n", "all sequences", ["stream/stream.go: Skip, Limit"])
p("ReduceToSlice/ExpandSlices are inverse up to concatenation",
  "ReduceToSlice yields one slice of all values (empty slice for empty source); ExpandSlices yields the concatenation of its slices skipping nil/empty ones.",
  "every iterator", "all sequences", ["stream/stream.go: ReduceToSlice, ExpandSlices, ReduceIntoSlice"])
p("ReduceToMap keeps the last value per key",
  "ReduceToMap yields one map in which each key is bound to the last value paired with it in iteration order; if the source fails, the result is that error and no map.",
  "every iterator of pairs", "all sequences", ["stream/stream.go: ReduceToMap"])
p("Distinct and Duplicate",
  "Distinct yields the first occurrence of each value in order; Duplicate yields each value occurring at least twice exactly once, in order of second occurrence.",
  "every iterator", "all sequences", ["stream/stream.go: Distinct, Duplicate, Generator"])
p("Reverse and sorting",
  "Reverse yields the reversed sequence (reversing twice is the identity); SliceReverse reverses in place; errors of the source are returned instead.",
  "every iterator/slice", "all sequences", ["stream/stream.go: Reverse", "funcs/funcs.go: SliceReverse"])
p("AvgInt/AvgUint are the rounded mean or an overflow error",
  "AvgInt/AvgUint yield exactly one value, the mean rounded half away from zero, if no running sum overflows; an overflow error otherwise; nothing for an empty source.",
  "every sequence of integers", "all sequences", ["stream/stream.go: AvgInt, AvgUint"])
p("Parallel slice ranges partition the input",
  "The ranges computed for Parallel are non-empty, contiguous, start at 0, end at the number of items; with Threads the count is min(items, max(1,N)) and sizes differ by at most one; with Items every bucket but the last has exactly min(items, max(1,N)) items.",
  "every item count and PInfo", "all sizes", ["stream/stream.go: generateRanges"])
p("Parallel result is independent of the thread schedule",
  "Parallel(Map(f)) yields map f of the input for every interleaving of its threads and every PInfo; if some thread fails the first failing thread's error (by range order) is returned.",
  "every input, f, PInfo and interleaving", "schedules cannot be enumerated by tests", ["stream/stream.go: Parallel, ReduceIntoSlice"])
p("Parallel agrees with sequential application for any transform",
  "Parallel(t) yields the concatenation of t applied to each range, also for transforms that drop elements (e.g. Filter).",
  "every transform and input", "all transforms", ["stream/stream.go: Parallel, ReduceIntoSlice"])

# ---- funcs / event
p("Ordered tuple slice behaves as a sorted multimap",
  "After any sequence of OrderedTuple2SliceAdd/RemoveKey/RemoveValue the slice is strictly sorted by key and represents the map key -> values in insertion order.",
  "every sequence of operations", "all histories", ["funcs/funcs.go: OrderedTuple2Search, OrderedTuple2SliceAdd, OrderedTuple2SliceRemoveKey, OrderedTuple2SliceRemoveValue"])
p("Event registry sends in id order then registration order",
  "Send applies the receivers in increasing id order, and within an id in registration order, each exactly once per registration; Remove/RemoveId take out exactly what they name; with no receivers Send returns its argument.",
  "every history of Register/Remove/RemoveId and every event", "all histories", ["event/event.go: Registry"])
p("SliceRemove, SliceIndex meet their contracts",
  "SliceRemove removes the first (or all) occurrences and keeps the order of the rest; SliceIndex returns the element, counting from the end for negative indexes, else the default, else the zero value, and never panics.",
  "every slice, index, value", "all slices", ["funcs/funcs.go: SliceRemove, SliceRemoveUncomparable, SliceIndex"])
p("And/Or/Not filters are short-circuit conjunction/disjunction/negation",
  "And(fs) is true iff all are (true for none), Or(fs) iff any is (true for none), no filter after the deciding one is called; De Morgan holds for non-empty lists.",
  "every list of filters and value", "all lists", ["funcs/funcs.go: And, Or, Not"])
p("TryTo always runs all closers, in reverse order, exactly once, before the panic handler",
  "Whatever tryFn and the closers do (return or panic), every closer runs exactly once, in reverse order of the arguments, after tryFn; panicFn is called iff some panic is pending at the end, exactly once, with the latest panic value, after all closers.",
  "every tryFn outcome and every list of closers with any outcomes", "all combinations of panics", ["funcs/funcs.go: TryTo"])
p("SupplierCached calls its supplier at most once",
  "However often the cached supplier is called, the underlying supplier is invoked at most once and all calls return its value.",
  "every supplier and number of calls", "all histories", ["funcs/funcs.go: SupplierCached"])
p("snake_case/CamelCase conversion",
  "SnakeToCamelCase never panics, maps the empty string to the empty string, and CamelCaseToSnakeCase inverts it on identifiers made of lower-case words joined by single underscores.",
  "every string", "all strings", ["funcs/funcs.go: SnakeToCamelCase, CamelCaseToSnakeCase"])
p("SliceFlatten concatenates nested slices in order",
  "SliceFlatten of a slice of any number of dimensions is the in-order concatenation of its leaves.",
  "every depth and shape", "unbounded depth", ["funcs/funcs.go: SliceFlatten"])

# ---- union
p("Unions hold exactly the last value set",
  "After any sequence of SetT/SetU/SetV/SetW, Which names the last setter, its getter returns the last value set, every other getter panics.",
  "every history of setters", "all histories", ["union/union.go: Two, Three, Four, check"])
p("Maybe behaves as an option type",
  "A Maybe is present iff the last effective Set stored a non-nil value; Get panics iff empty; OrElse/OrError agree with it; SetOrError overwrites only when empty and otherwise returns an error and changes nothing.",
  "every history of Set/SetEmpty/SetOrError", "all histories", ["union/union.go: Maybe"])
p("Result never holds both a value and an error",
  "Every constructed Result has HasResult xor HasError, and Get is the zero value whenever there is an error; OfResultError panics otherwise.",
  "every value and error", "all values", ["union/union.go: Result, OfResultError, OfError"])

# ---- io
p("ErrorReader delivers all its input then the error",
  "Whatever buffer sizes are used, successive Reads return consecutive chunks whose concatenation is the input, never panic, and then return (0, err) forever.",
  "every input and every sequence of read sizes", "all read-size histories", ["io/io.go: ErrorReader.Read"])
p("ErrorWriter accepts exactly count bytes",
  "Over any sequence of Writes the recorded output is the first count bytes of everything offered, and once count bytes are stored every Write returns (0, err).",
  "every count and history of writes", "all histories", ["io/io.go: ErrorWriter.Write"])
p("Writer.Write writes the prefix before the first failure",
  "Write(vals...) passes the values in order to the destination, stops at and returns the first error; slice/map writers append/insert all values.",
  "every destination behaviour and value list", "all histories", ["io/writer/writer.go: WriterImpl.Write", "io/writer/gen.go: SliceWriterGen, MapWriterGen, IOWriterGen, IOWriterAsRunesGen, IOWriterAsStringsGen, IOWriterAsLinesGen"])
p("Rune writer and rune reader are inverse",
  "Writing any sequence of Unicode scalar values with OfIOWriterAsRunes and reading the bytes with OfReaderAsRunes yields the same sequence.",
  "every rune sequence", "all sequences", ["io/writer/gen.go: IOWriterAsRunesGen", "iter/gen.go: ReaderAsRunesIterGen"])

# ---- json
p("JSON write/parse round trip",
  "Parse(Write(v)) = v for every document value v.",
  "every JSON object or array value, every map iteration order", "unbounded documents", ["encoding/json/write/write.go: Write", "encoding/json/parse/parse.go: Parse"])
p("JSON parser accepts only JSON documents",
  "If Parse succeeds the text is a JSON document (RFC 8259 grammar with object/array at top level) and the value is its meaning; in particular no Invalid values occur in the result.",
  "every text", "all texts", ["encoding/json/parse/parse.go: Parse, parseValue, parseArray, parseObject", "encoding/json/parse/lex.go"])
p("JSON string lexing decodes escapes",
  "Lexing a JSON string literal yields the sequence of characters it denotes and consumes exactly the literal, for every combination of plain characters, short escapes, \\uXXXX escapes and surrogate pairs.",
  "every string literal", "all strings and escapes", ["encoding/json/parse/lex.go: lexString"])
p("JSON number lexing accepts exactly the number grammar",
  "Lexing a number consumes the longest prefix in -?(0|[1-9][0-9]*)([.][0-9]+)?([eE][+-]?[0-9]+)? and returns it verbatim; anything else starting with - or a digit is an error.",
  "every text", "all texts", ["encoding/json/parse/lex.go: lexNumber"])
p("JSON Value/Go value round trip",
  "ToValue(v.ToAny()) = v for every Value, and ToValue accepts every type its constraint admits.",
  "every Value", "unbounded nesting", ["encoding/json/value.go: ToAny, ToMap, ToSlice, toValue, MapToValue, SliceToValue, numberToValue"])
p("JSON path parsing and lookup",
  "Rendering any list of keys (non-empty, without . [ ]) and indexes as a path and parsing it gives the same list; applying it walks the value key by key / index by index; it errors iff some step has the wrong type or is missing; malformed paths are errors.",
  "every path and value", "unbounded paths and values", ["encoding/json/search.go: parsePath, lookupsToFunc, ParsePath"])

# ---- rest
p("ServeMux dispatches to the first matching registration, 405 vs 404",
  "ServeHTTP calls exactly the first registered handler whose pattern matches the URL and whose method equals the request's; if none, 405 iff some pattern matches, else 404. Handle rejects empty method/pattern, nil handler and bad patterns without changing the mux.",
  "every history of Handle calls and every request", "all histories", ["rest/rest.go: ServeMux.Handle, ServeHTTP"])

# ---- code
p("Operator and type classification",
  "Every operator is exactly one of unary, binary, boolean, every type exactly one of scalar, aggregate, and the expression constructors fill exactly the operand slots their operator needs.",
  "every operator/type code", "all uint codes", ["code/statements.go: IsUnary, IsBinary, IsBoolean, OfUnaryExpr, OfBinaryExpr, OfBooleanExpr", "code/types.go: IsScalar, IsAggregate"])
p("Code generator base path and directories",
  "SetBasePath may succeed only once (a second call panics) and Dir creates a directory below it the first time it is named.",
  "every history of SetBasePath/Dir calls", "all histories", ["code/api.go: BaseGenerator"])
extra = os.path.join(os.path.dirname(__file__), "props_extra.py")
if os.path.exists(extra):
    exec(open(extra).read())
with open(os.path.join(os.path.dirname(__file__), "..", "properties.jsonl"), "w") as f:
    for x in P: f.write(json.dumps(x) + "\n")
print(len(P)); 
for x in P: print(x["id"], x["title"])
