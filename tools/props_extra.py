p("Line writer and line reader are inverse",
  "Any sequence of lines without CR and LF (including empty lines), written with OfIOWriterAsLines with either OS line ending and read back with OfReaderAsLines, is returned unchanged.",
  "every sequence of lines over all Unicode scalar values, both line endings", "all texts", ["io/writer/gen.go: IOWriterAsLinesGen", "iter/gen.go: ReaderAsLinesIterGen, readLines"])

p("JSON Write stops at the writer's first error",
  "Write passes the text of a value to the writer piece by piece in document order; it stops at the first call that fails, returns that error and makes no further call; if no call fails the writer has received the whole text.",
  "every value, every writer (however it behaves and fails), every map iteration order", "all values and all failure points", ["encoding/json/write/write.go: Write, WriteObject, WriteArray"])
p("Iterate agrees with Parse",
  "For every text, Iterate yields the elements of the array that Parse returns and then EOI forever, or the single object that Parse returns, or, where Parse fails, some elements followed by the same error forever (never EOI).",
  "every text and every way the reader ends", "unbounded documents", ["encoding/json/parse/parse.go: Iterate, Parse, parseArray"])
p("Truncated JSON is never accepted and reader errors surface",
  "Parse rejects every proper prefix of a document; if the reader fails before the document is complete, Parse returns that reader's error; no parse error is ever the end-of-iteration marker.",
  "every document, every truncation point, every reader error", "every crash point of the reader", ["encoding/json/parse/parse.go: Parse", "encoding/json/parse/lex.go: lex"])
p("Handle may be called at any time",
  "As documented, Handle may be called at any time: registrations made by several goroutines are all kept, whatever the interleaving; the mux never holds a registration nobody made.",
  "every number of goroutines, every interleaving", "every schedule", ["rest/rest.go: ServeMux.Handle", "funcs/funcs.go: SliceAdd"])
p("JSON content negotiation",
  "NegotiateJSONContent returns an iterator over exactly the elements of the body when the request's media type is application/json, and nil otherwise.",
  "every header, every body, every way the body ends", "all headers and bodies", ["rest/content.go: NegotiateJSONContent"])
p("Map helpers are finite map and multimap operations",
  "Starting from a nil map, no history of MapSet/MapUnset, Map2Set/Map2Unset, MapSliceAdd/MapSliceRemove or Map2SliceAdd/Map2SliceRemove panics; MapTest/Map2Test/MapIndex then report exactly the last operation on each key, and slice maps hold at each key the values added in order less those removed.",
  "every history of operations over any key and value types", "all histories", ["funcs/funcs.go: MapIndex, MapSet, MapTest, MapUnset, Map2Set, Map2Test, Map2Unset, MapSliceAdd, MapSliceRemove, Map2SliceAdd, Map2SliceRemove"])
p("Collecting and sorting maps does not depend on iteration order",
  "SliceToMap, SliceToMapBy, SliceUniqueValues and MapKeysToSlice give exactly the distinct elements/keys; MapSort* give exactly the pairs of the map ordered by key, and the result depends neither on Go's map iteration order nor on the instability of sort.Slice.",
  "every map, every iteration order, every correct sorting algorithm", "map iteration order is random", ["funcs/funcs.go: SliceToMap, SliceToMapBy, SliceUniqueValues, MapKeysToSlice, MapSortOrdered, MapSortCmp, MapSortBy, MapSortComplex"])
p("ConvertToSlice/ConvertToMap are all or nothing",
  "ConvertToSlice, ConvertToSlice2 and ConvertToMap succeed exactly when every element has the target type and then return all elements unchanged (in order, under their keys); otherwise they return no value and an error naming the first (for maps: some) offending element.",
  "every value", "all values and shapes", ["funcs/funcs.go: ConvertToSlice, ConvertToSlice2, ConvertToMap"])
p("In and Compose",
  "In(vs...) accepts exactly the listed values; Compose(f0, fs...) applies its functions from first to last.",
  "every list of values / functions", "all lists", ["funcs/funcs.go: In, Compose"])
p("Float to integer conversion is exact or an error",
  "FloatToInt, FloatToUint, FloatToBigInt, BigFloatToBigInt, BigFloatToInt64/Uint64 and BigRatToInt64/Uint64 return nil only if the integer equals the given number exactly, succeed for every integral number in range, and on error (also for NaN and the infinities) leave the target unchanged.",
  "every float (finite, NaN, infinite), every *big.Float and *big.Rat, every integer type", "2^64 floats, unboundedly many big numbers", ["conv/int.go: FloatToInt, FloatToUint, BigFloatToInt64, BigFloatToUint64, BigRatToInt64, BigRatToUint64", "conv/bigint.go: FloatToBigInt, BigFloatToBigInt"])
p("Numbers reach *big.Float and *big.Rat unchanged",
  "IntToBigFloat, UintToBigFloat, BigIntToBigFloat, FloatToBigRat, BigFloatToBigRat, BigRatToBigFloat and the integer to *big.Rat conversions give a number equal to the one converted.",
  "every integer, every float, every big number", "unboundedly many numbers", ["conv/bigfloat.go: IntToBigFloat, UintToBigFloat, BigIntToBigFloat, BigRatToBigFloat", "conv/bigrat.go: FloatToBigRat, BigFloatToBigRat"])
p("Narrowing a float rounds to nearest or is an error",
  "FloatToFloat maps a number in the range of float32 to a nearest float32, every number that is a float32 to itself, NaN and infinities to themselves, and every other number to an error that leaves the target unchanged; widening is always exact.",
  "every float64 and float32", "2^64 values", ["conv/float.go: FloatToFloat"])
p("Big numbers become floats exactly or not at all",
  "BigIntToFloat32/64, BigFloatToFloat32/64, BigRatToFloat32/64, and To applied to them, succeed precisely for the numbers the float type can represent, and then give exactly that number.",
  "every *big.Int, *big.Float and *big.Rat", "unboundedly many numbers", ["conv/float.go: BigIntToFloat32, BigIntToFloat64, BigFloatToFloat32, BigFloatToFloat64, BigRatToFloat32, BigRatToFloat64", "conv/conv.go: To"])

p("Comparison, minimum and maximum",
  "CmpOrdered/CmpComplex are -1, 0, 1 exactly as the first value is less than, equal to or greater than the second; MinOrdered/MaxOrdered, MinComplex/MaxComplex and MinCmp/MaxCmp return an argument that is least/greatest in that order.",
  "every pair of values of every ordered type, every Cmp implementation that is an order", "unboundedly many types and values", ["math/math.go: CmpOrdered, CmpComplex, MinOrdered, MaxOrdered, MinComplex, MaxComplex, MinCmp, MaxCmp"])
p("Abs and Div accept every type of their constraint",
  "Abs and Div work for every type satisfying their constraint, including user defined types such as `type Delta int`, exactly as for the underlying type.",
  "every integer kind, every user defined type name and package", "open-ended set of types", ["math/math.go: Abs, absBig, Div"])
p("Copies of big numbers made by To are independent",
  "As documented, To from a big type to the same big type makes a new pointer with a copy of the value, which can be modified without affecting the original.",
  "every heap of big numbers, every later operation on the copy", "all heaps and histories", ["conv/conv.go: To, ToBigOps"])
p("Dereferencing types",
  "DerefType returns the type at the end of a chain of pointers, DerefTypeMaxOnePtr at most one pointer to it, NumPointers the length of the chain; ValueMaxOnePtrType of a value with at most one pointer is the type at the end, and nil for the invalid value and for more pointers.",
  "every type", "types nest without bound", ["reflect/reflect.go: DerefType, DerefTypeMaxOnePtr, NumPointers, ValueMaxOnePtrType"])
p("Dereferencing values",
  "DerefValue returns the variable at the end of a chain of pointers, DerefValueMaxOnePtr the last pointer of it; a nil pointer on the way gives the invalid Value.",
  "every value in every memory", "all memories, chains of any length", ["reflect/reflect.go: DerefValue, DerefValueMaxOnePtr"])
p("Classification of types and nil",
  "IsSignedInteger/IsUnsignedInteger/IsNumeric hold exactly of the types satisfying the constraints of those names, IsPrimitive of the primitive kinds, IsNillable of the kinds that have a nil, and IsNil exactly of nil values, without panicking.",
  "every type and every value", "open-ended set of types", ["reflect/reflect.go: IsSignedInteger, IsUnsignedInteger, IsNumeric, IsPrimitive, IsNillable, IsNil, IsBigPtr"])
p("Conversion to base types",
  "TypeToBaseType gives the predeclared type of a user defined primitive type and nil otherwise; ValueToBaseType converts values of such types, and pointers to them, keeping the value (pointers still point to the same variable), and leaves everything else alone.",
  "every type, every value, every memory", "open-ended set of types", ["reflect/reflect.go: TypeToBaseType, ValueToBaseType"])
p("Type assertions on reflected values",
  "TypeAssert reports an error exactly when the value, or the value inside an interface, is not of the given type; it does not panic. ResolveValueType keeps the contents.",
  "every value (including invalid and nil interfaces), every type", "open-ended set of types", ["reflect/reflect.go: TypeAssert, ResolveValueType"])
p("Reflected access to a Maybe",
  "Through any number of pointers GetMaybeValue and MaybeValueIsPresent report what Get and Present of the Maybe do, SetMaybeValue and SetMaybeValueEmpty change exactly that Maybe; after a set, get returns the value; values that are no Maybe, cannot be set or have the wrong type give an error (or the invalid Value), never a panic.",
  "every type, every value, every memory", "all memories", ["union/reflect/reflect.go: GetMaybeType, MaybeValueIsPresent, GetMaybeValue, SetMaybeValue, SetMaybeValueEmpty"])
p("SetPointerValue stores where the pointer leads",
  "SetPointerValue stores the value, converted to the type of the variable, in the variable at the end of the chain of pointers and changes no other variable; it panics exactly if there is no such variable or no such conversion.",
  "every chain of pointers, every memory, every value", "all memories", ["reflect/reflect.go: SetPointerValue"])
p("FieldsByName",
  "FieldsByName maps exactly the field names of a struct to their fields, and is nil for other types and for structs without fields. GetFieldByName returns the same field for each of these names (if no name occurs twice, as only the blank one can), and panics for every other name that no embedded field promotes, and for types that are no struct.",
  "every type", "open-ended set of types", ["reflect/reflect.go: FieldsByName, GetFieldByName"])
p("MapToStruct populates the struct",
  "As documented, MapToStruct returns an error for a nil pointer, for a type that is no struct and (unless told to ignore it) for a key without a field; when it returns nil, every key's value is in the field whose name is the key in CamelCase.",
  "every map, every struct, both ignore modes", "all maps and structs", ["strukt/reflect.go: MapToStruct, mapToStruct"])
p("To, AnyTo, ToBigOps and ReflectTo find the conversion",
  "For every pair of number or string types, user defined ones included, To, AnyTo, ToBigOps and ReflectTo run the conversion between the underlying types, or copy if they are the same; for other arguments they return an error. They never panic.",
  "every pair of types", "user defined types are open-ended", ["conv/conv.go: convertFromTo, To, AnyTo, ToBigOps, ReflectTo"])

p("Text becomes a big integer or ratio exactly",
  "StringToBigInt accepts exactly the optionally signed decimal integers, of any length, StringToBigRat reads decimals and ratios and FloatStringToBigRat only decimals, each exactly; what BigIntToString and BigRatToString wrote is read back unchanged; anything else is an error that leaves the target alone.",
  "every string, every big integer and ratio", "strings of unbounded length", ["conv/bigint.go: StringToBigInt", "conv/bigrat.go: StringToBigRat, FloatStringToBigRat", "conv/string.go: BigIntToString, BigRatToString"])
p("Text becomes the nearest float",
  "StringToFloat32/64 read every decimal number in range as a nearest float, so that the text FloatToString gives for a float is read back as that float; NaN and infinities are recognised.",
  "every decimal text, every float", "unboundedly many texts", ["conv/float.go: StringToFloat32, StringToFloat64"])
p("Conversions between *big.Rat and *big.Int give independent numbers",
  "BigRatToBigInt succeeds exactly for integral ratios and BigIntToBigRat always, with the same value, and the result is a number of its own: changing it does not change the number converted.",
  "every heap of big numbers, every later change", "all heaps and histories", ["conv/bigint.go: BigRatToBigInt", "conv/bigrat.go: BigIntToBigRat"])
p("Division into an operand",
  "Div on big numbers stores the quotient (rounded half away from zero for *big.Int, exact for *big.Rat) where it is told to, also if that is the dividend or the divisor, and changes nothing else; a zero divisor is an error that changes nothing.",
  "every pair of numbers, every choice of the destination", "aliasing of arguments", ["math/math.go: Div, toDiv"])
p("Sums and averages of big numbers",
  "SumBigOps and AvgBigOps give the sum and the mean of all elements of a stream of big numbers (the mean of integers rounded), nothing for an empty stream, and pass on an error of the source.",
  "every stream of big numbers", "streams of any length, numbers of any size", ["stream/stream.go: SumBigOps, AvgBigOps"])
p("Sum and Abs over streams",
  "Sum gives the sum of all elements, Abs and AbsBigOps the stream of absolute values, with an error where there is none; the elements of the source are left alone.",
  "every stream of numbers of every kind", "streams of any length", ["stream/stream.go: Sum, Abs, AbsBigOps"])
p("ExpandMaps is the inverse of reducing into maps",
  "ExpandMaps replaces every map of the stream by its entries, each exactly once, maps in order; reducing the entries to a map again gives the map.",
  "every stream of maps, every map iteration order", "map iteration order is random", ["stream/stream.go: ExpandMaps, ReduceToMap"])
p("Generator starts anew for each data set",
  "As documented, Generator makes a new function when the iterator it is applied to differs from that of the previous use, and otherwise reuses the function, so that state is kept within a data set and never carried over to another one.",
  "every history of uses on any iterators", "all histories", ["stream/stream.go: Generator"])
p("Go values become JSON values",
  "ToValue, MapToValue and SliceToValue succeed exactly for values built, to any depth, from nil, bool, strings, numbers, NumberStrings that hold a number, map[string]any and []any, and return an error (no panic) for everything else; the Value made from a map or slice is written as a JSON document that parses back to the same Value.",
  "every Go value, of any depth", "unbounded nesting", ["encoding/json/value.go: ToValue, MapToValue, SliceToValue, NumberToValue", "encoding/json/write/write.go: Write", "encoding/json/parse/parse.go: Parse"])
p("Accessors of JSON values",
  "AsMap, AsSlice, AsString, AsNumber, AsBool, ToMap and ToSlice return exactly the content of the Value and panic exactly for a Value of another Type; IsNull, IsDocument and Type describe it; constructors and accessors are inverse; the Must versions panic exactly when the plain ones do not return a Value.",
  "every Value", "unbounded nesting", ["encoding/json/value.go: AsMap, AsSlice, AsString, AsNumber, AsBool, IsNull, IsDocument, ToMap, ToSlice, StringToValue, BoolToValue, MustToValue"])
p("Which slice functions copy and which work in place",
  "SliceCopy and SliceRemove leave every slice of the program as it is and return a new slice that never shares memory with an older one, so that any later history of assignments, additions, sorts and reversals of either is invisible in the other; SliceReverse and the sort functions rearrange exactly their argument; SliceAdd appends to the variable. SliceOf of listed values gives a slice of its own; SliceOf of a slice is that slice.",
  "every memory with any slices on shared arrays, every later interleaved history of operations", "aliasing shows only in later histories and depends on capacities", ["funcs/funcs.go: SliceAdd, SliceCopy, SliceOf, SliceRemove, SliceRemoveUncomparable, SliceReverse, SliceSortOrdered, SliceSortComplex, SliceSortCmp, SliceSortBy"])
p("Receivers may use the registry while an event is sent",
  "As documented, receivers can be registered at any time and a receiver may also be a sender: whatever receivers do with the registry during Send, Send returns (if they do not send themselves), and every receiver that is registered at the start and is not removed is called exactly once, in order of ids and of registration.",
  "every registry, every family of receivers that register, remove and send during Send, nested to any depth", "all programs of receivers and their interleaving with the loop", ["event/event.go: Register, RemoveId, Remove, Send", "funcs/funcs.go: OrderedTuple2SliceAdd, OrderedTuple2SliceRemoveKey, OrderedTuple2SliceRemoveUncomparable"])

p("OfCSV gives the rows of a document",
  "OfCSV gives the rows of a CSV document in order, each complete when it is returned; after the last row EOI, and at an erroneous record or one with another number of fields than the first its error, repeated forever. As documented, all rows are the same slice, so that a row is valid only until the next one is read.",
  "every document, every number of rows", "documents of any length; sharing shows only later", ["iter/gen.go: CSVIterGen", "iter/iter.go: OfCSV"])
p("iter.Maybe gives the outcome of Next",
  "Maybe gives each value of the iterator as a Result and then its error, again and again, as Next does; it does not panic.",
  "every element type, every iterator", "all iterators and element types", ["iter/iter.go: Maybe", "union/union.go: OfResultError"])
p("Two ways to iterate the runes of a string agree",
  "OfStringAsRunes and the rune readers (StringAsRunesIterGen, OfReaderAsRunes on the same bytes) give the same runes and the same end.",
  "every string, valid UTF-8 or not", "strings of any length", ["iter/iter.go: OfStringAsRunes, OfReaderAsRunes", "iter/gen.go: StringAsRunesIterGen, ReaderAsRunesIterGen"])
p("CSV and gzip requests",
  "NegotiateCSVContent gives the rows of the body of a text/csv request and nil for other content; AcceptGzip gives a reader of the (decompressed) body of every request.",
  "every request header and body", "all headers and bodies", ["rest/content.go: AcceptGzip, NegotiateCSVContent"])

p("Comparison filters partition the values",
  "LessThan, LessThanEqual, Equal, GreaterThan, GreaterThanEqual and their complements decide the order of their argument and the given value, so that for every value exactly one of less, equal and greater holds; IsNegative, IsNonNegative and IsPositive decide the sign.",
  "every value of every ordered type", "all values, including the special floats", ["funcs/funcs.go: LessThan, LessThanEqual, Equal, GreaterThan, GreaterThanEqual, IsNegative, IsNonNegative, IsPositive"])
p("Compose is composition, Ternary picks one",
  "Compose2 to Compose10 apply their functions in the order given, each once; composing compositions does not depend on the grouping; Ternary gives the one or the other value, TernaryResult calls only the supplier it picks.",
  "all functions and values", "all functions of every type", ["funcs/funcs.go: Compose, Compose2 ... Compose10, Ternary, TernaryResult"])
p("Nil checks tell nil",
  "IsNil and IsNonNil tell for every value of a type with nil values whether it is nil; MustNonNilValue, MustNonZero and MustNonEmptySlice return the value they are given, or panic exactly if it is nil, zero or empty.",
  "every type and value", "all types, also types of interfaces and values within interfaces", ["funcs/funcs.go: IsNil, IsNonNil, MustNonNilValue, MustNonZeroValue"])
p("Must versions",
  "The Must version of a function returns what the function returns, with the same effects, and panics exactly if the function gives an error, with this error.",
  "all arguments of every Must function of conv, math, json and rest", "all arguments", ["funcs/funcs.go: Must, MustValue, MustValue2", "conv/int.go: MustIntToInt, MustStringToInt64", "math/decimal.go: MustDecimal, MustAdd, MustDiv", "encoding/json/parse/parse.go: MustParse", "encoding/json/write/write.go: MustWrite", "rest/rest.go: MustHandle"])
p("SupplierCached under concurrent calls",
  "The function SupplierCached returns calls the given supplier once, at the first call, and all calls, also concurrent ones, return its result.",
  "every supplier, every number of calls, every schedule of goroutines", "all schedules", ["funcs/funcs.go: SupplierCached"])

p("Endless sources: lazy where possible",
  "Over a source that never ends, Map, MapError, Peek, Filter, Distinct, Duplicate, Skip, ExpandSlices and Concat give out the transformed endless sequence, each result after finitely many reads and no read beyond what the result needs; Limit ends after n values; AnyMatch, AllMatch and NoneMatch answer at the deciding value. What needs the whole source (reductions, collecting, reversing, sorting, a search without a match) does not return.",
  "every endless source, every function and predicate, every number of results", "no test observes an endless run or that a call never returns",
  ["stream/stream.go: Map, MapError, Filter, Peek, Skip, Limit, Distinct, Duplicate, ExpandSlices, AllMatch, AnyMatch, NoneMatch, Reduce, ReduceTo, ReduceToSlice, ReduceToMap, Reverse, SortBy", "iter/iter.go: InfiniteIterGen, ConcatIterGen"])

p("Pipelines may be rewritten",
  "Over any source (ending, failing, endless, or blocking) these pipelines cannot be told apart by any sequence of Next and Unread: two Maps and one Map of the composition; two MapErrors and one; two Filters and one Filter with both predicates; Filter after Map and Map after Filter; Distinct and Filter in either order; two Skips and one Skip of the sum; two Limits and one Limit of the smaller number; Map swapped with Skip or Limit; Skip(m) then Limit(n) and Limit(m+n) then Skip(m); Map of a Concat and Concat of Maps; Filter of a Concat and Concat of Filters; nested Concats and one Concat; Map before Reduce, Count or a match and the mapping built into the function; AllMatch(p), NoneMatch(p) and the negation of AnyMatch. Map(identity), Filter(true), Skip(0) and Peek change nothing. A law may be applied anywhere inside a longer pipeline.",
  "every source, every function and predicate, every count, every sequence of Next and Unread", "a test compares two pipelines on one finite slice",
  ["stream/stream.go: Map, MapError, Filter, Distinct, Skip, Limit, Peek, Reduce, ReduceTo, ReduceToSlice, AllMatch, AnyMatch, NoneMatch, Count", "iter/gen.go: ConcatIterGen"])

p("To between numeric types, all 225 pairs",
  "For every pair of the fifteen numeric types, To never panics; it returns no error exactly for the numbers that the target type has (NaN and infinities included), and then the target holds that very number; otherwise it returns an error and the target is as it was.",
  "every pair of types, every value of the source type, every content of the target (nil for big types included), amd64 and arm64", "225 pairs, most with 2^64 or infinitely many values",
  ["conv/conv.go: To, convertFromTo"])
p("Chains of conversions agree",
  "Converting there and back with To gives the value converted, if the first conversion succeeds; converting through a third type that has the number gives what converting directly gives.",
  "every triple of numeric types, every value, every content of the targets", "3375 triples of types",
  ["conv/conv.go: To, convertFromTo"])

p("OfMap delivers every entry once",
  "OfMap(m) delivers every entry of m exactly once, in any order, and then EOI forever.",
  "every map of any key and value type, every iteration order", "map iteration order is random; nil interface values are rare in tests",
  ["iter/gen.go: MapIterGen", "iter/iter.go: OfMap"])

p("Max and Min of a stream of floats",
  "Max and Min of a non-empty stream are numbers of the stream, and no number of the stream is greater than the one or less than the other.",
  "every stream of any ordered type, floats with infinities and NaN included", "all sequences; NaN at any position",
  ["stream/stream.go: Max, Min"])

p("Nil big pointers are never turned into numbers",
  "conv.To of a nil *big.Int, *big.Float or *big.Rat never produces a number or a text: if it returns without an error, the target is a nil pointer. json.NumberToValue of a nil big pointer does not produce a number Value.",
  "every big type, every target type and every previous content of the target", "all pairs of source and target types, no matter what the target held",
  ["conv/conv.go: To, AnyTo, convertFromTo", "conv/string.go: BigIntToString", "conv/bigfloat.go: BigIntToBigFloat", "encoding/json/value.go: NumberToValue, numberToValue"])

p("Decimal Mul is commutative, respects zero, one, sign and order",
  "x.Mul(y) and y.Mul(x) return the same number or the same error; a product with zero is zero and with one is the other factor; negating a factor negates the result, or exchanges overflow and underflow; the result is on the side of zero of the exact product; multiplying by a non-negative number keeps the order of two numbers.",
  "every pair (triple) of valid Decimals of every scale and representation", "all pairs of 18 digit numbers and scales, including those where the product leaves int64",
  ["math/decimal.go: Decimal.Mul, Decimal.Negate"])
p("Sums of Decimals do not depend on the order and keep the order of numbers",
  "Adding up several Decimals gives the same number in every order and however they are grouped, and x <= y implies x+z <= y+z.",
  "every list of valid Decimals and every permutation of it, every triple", "lists of any length",
  ["math/decimal.go: Decimal.Add, AdjustDecimalScale, addDecimal"])
p("Decimal Div: identities",
  "x.Div(1) is x, x.Div(-1) is -x, x.Div(x) is 1, 0.Div(x) is 0; if the unscaled dividend is a multiple of the unscaled divisor and the divisor has no more fractional digits, the quotient is exact; negating the dividend negates the quotient or exchanges overflow and underflow; if x.Mul(y) is exact and y is not zero, Div(y) of it is x.",
  "every pair of valid Decimals, of every scale and representation", "all pairs of 18 digit numbers and scales",
  ["math/decimal.go: Decimal.Div, Decimal.Negate"])

p("JSON Values: which maps and slices are shared with the caller",
  "ToValue, MapToValue and SliceToValue of map[string]any and []any build the Value from new maps and slices only, and ToAny, ToMap and ToSlice return new maps and slices only: later changes on one side are never seen on the other, and nothing that existed before is changed. Given a map[string]Value or []Value, and with AsMap and AsSlice, the Value and the caller share the map or slice: an assignment changes the Value. ToAny returns for exactly the Values that stand for a finite document.",
  "every memory, every (nested) Go value and every Value in it, every later change of memory", "aliasing shows up only after later writes, and nesting is unbounded",
  ["encoding/json/value.go: ToValue, MapToValue, SliceToValue, ToAny, ToMap, ToSlice, AsMap, AsSlice"])

p("Div of *big.Float: NaN is an error, the rest is the rounded quotient",
  "Div and DivBigOps of *big.Float (pointers, nil quotient allowed): the result is the error big.ErrNaN exactly for 0/0 and Inf/Inf, never a panic; otherwise the quotient is the exact quotient rounded to nearest at the precision of the quotient variable (53 bits for a nil pointer, the larger operand precision when unset), with infinities and zeros of the right sign. A nil quotient is allocated; no other number changes. (The precision of the operands is lost for a nil quotient.)",
  "every three pointers, precisions, values and signs", "precisions and values are unbounded, the aliasing of the three pointers matters",
  ["math/math.go: Div, DivBigOps"])
p("Copies of a ServeMux",
  "Assigning a ServeMux, or passing it by value as http.Handler, and registering more on one variable only: every copy answers by the registrations it had when copied. (Registering on both: the later registration replaces the earlier one of the other variable if the array had room, so it can be served by the wrong handler.)",
  "every history of Handle calls and assignments, every growth policy of append, every request", "depends on the capacity left by the history of appends",
  ["rest/rest.go: ServeMux.Handle, ServeMux.ServeHTTP"])

p("Iterators and writers over slices that share memory",
  "The k-th Next of OfSlice(slc) returns the value element k of the slice has at the time of the call, whatever happened to memory before, and EOI from the end of the slice on; elements appended later are not seen and do not disturb what is still to come. Reading from OfSlice(s) and writing what f makes of each value with OfSliceWriter(&d), d = s[:0], gives what f makes of all the elements s had at first, in order, if never more is written than was read (so Map and Filter work in place); the elements of s after these are unchanged. (If more is written than read, elements are overwritten before they are read.)",
  "every memory, slice, function, growth policy of append and history of writes between calls", "the slice and the writer share an array; the interleaving of reads and writes is unbounded",
  ["iter/gen.go: SliceIterGen", "iter/iter.go: Of, OfSlice", "io/writer/gen.go: SliceWriterGen", "io/writer/writer.go: OfSliceWriter, Write"])

p("Abs and Div of floats, Abs of big numbers",
  "Div of float32 and float64 never returns an error, not even for a zero divisor: the quotient is the IEEE 754 one, i.e. the exact quotient rounded half to even, an infinity from half a unit above the largest number of the type on, NaN exactly if an operand is NaN, both are zero or both are infinite, and with the sign of the operands' signs. Abs of a float never fails and gives the same magnitude without a sign (+0 for -0, NaN for NaN); the way of a float32 through float64 changes nothing. Abs of a *big.Int, *big.Float or *big.Rat variable changes the number it points to, so for every variable with the same pointer, and no other number, and panics exactly for a nil pointer.",
  "every two values of either float type, every memory and pointer", "2^128 pairs of operands; rounding boundaries are rarely met by examples; aliasing",
  ["math/math.go: Div, Abs"])

p("Iterators are shared objects: what a transform consumes",
  "An Iter is an object that may be used by several pipelines. Map and Peek read one value of the source per value yielded, Filter up to and including the value it yields, Limit(n) exactly n and then none at all, Skip(m) nothing until asked and then m more, AllMatch/AnyMatch/NoneMatch up to the deciding value, ReduceToSlice nothing until asked and then all; whoever reads the source next gets the values after these. Pipelines over one source, asked in any order, get each value exactly once, in the order of the calls. A pipeline that has returned an error repeats it without asking its source, even if the source has values again. Concat of iterators of which some are the same object yields the values of each object once, where it first occurs; at any time the iterators before some place are finished, those behind it untouched. A value put back into a pipeline is the next one it yields, without touching its source; a value put back into a source is the next one any pipeline over it gets, and no other iterator sees it.",
  "every source, number of values, schedule of calls of any number of pipelines, list of iterators with repetitions", "all sources and interleavings",
  ["iter/iter.go: IterImpl, Next, Unread, Concat", "iter/gen.go: ConcatIterGen", "stream/stream.go: Map, Filter, Peek, Limit, Skip, AllMatch, ReduceToSlice"])

p("Floats as keys of ordered tuple slices and as elements",
  "With float keys that are not NaN, OrderedTuple2Search, SliceAdd and SliceRemoveKey work as over the real numbers with the two infinities: the result is the one of the same calls on the numbers. SliceRemove and In compare floats as numbers and never remove or find a NaN. A NaN key is never found, each addition appends an entry of its own, removal does nothing. With NaN keys anywhere no call panics, an addition changes or adds one entry, a removal removes at most one entry with the key, and all other entries stay. (The code loses the order after that: with a NaN key present, existing keys are no longer found and get second entries.)",
  "every slice of float keys, key, value", "all float keys including infinities and NaN",
  ["funcs/funcs.go: OrderedTuple2Search, OrderedTuple2SliceAdd, OrderedTuple2SliceRemoveKey, SliceRemove, In"])

p("Targets of failed conversions from text",
  "When StringToBigInt, StringToBigFloat, StringToBigRat, FloatStringToBigRat, StringToFloat32 or StringToFloat64 returns an error, the target keeps its former value. (The code keeps it only for FloatStringToBigRat and, for texts that are not numbers, for the floats: a *big.Float target becomes the number read before the error or nil, a *big.Rat target becomes nil, a float target takes the nearest float of a number it refuses.)",
  "every text and former value of the target", "all texts, all ways in which a text is not a number",
  ["conv/bigfloat.go: StringToBigFloat", "conv/bigint.go: StringToBigInt", "conv/bigrat.go: StringToBigRat, FloatStringToBigRat", "conv/float.go: StringToFloat32, StringToFloat64"])
p("Texts of floats",
  "BigFloatToString writes the number of ten significant digits nearest to the value, BigRatToNormalizedString writes whole numbers exactly and all others with ten digits, BigFloatToBigRat is what reading that text gives. The text of a float32 or float64 read back is that float or an error, never another float; texts of at most 15 characters, NaN and the infinities are read back. All texts of finite floats and of rationals are JSON numbers, those of NaN and infinities are not. (Reading back can be an error for longer texts.)",
  "every float32, float64, *big.Float and *big.Rat", "all values, and for the text of a float any rule choosing digits that identify it",
  ["conv/string.go: FloatToString, BigFloatToString, BigRatToNormalizedString", "conv/bigrat.go: BigFloatToBigRat", "conv/float.go: StringToFloat32, StringToFloat64"])

p("Parsing from a reader",
  "Parse of a reader that delivers the UTF-8 encoding of a text returns the meaning of the document the text begins with, and an error if there is none; it returns and never panics whatever the bytes are; a nil reader is an empty document. It reads no further than the end of the document, so it returns even if the reader then fails or blocks. Iterate yields the elements of an array as they arrive, and what it yields agrees with what Parse returns. Bytes that are not UTF-8 are refused, and the result does not depend on how many bytes a call of Read returns. (The code violates the last sentence: surrogates and over-long sequences are accepted, and readers that return fewer bytes than asked for, or the last bytes together with EOF, can make it fail.)",
  "every reader, every sequence of bytes, every way the reader goes on after the document", "all texts and bytes, readers without an end",
  ["encoding/json/parse/lex.go: lex, lexer, lexString, lexNumber, lexBooleanNull", "encoding/json/parse/parse.go: Parse, Iterate, MustParse, parseValue, parseObject, parseArray", "iter/gen.go: ReaderAsRunesIterGen", "stream/stream.go: ReduceToSlice"])

p("Routes and regular expressions",
  "A ServeMux whose patterns are routes, `^` then texts and UUIDGroups then `$`, calls for a request the handler of the first route with its method whose pieces make up the URL, and passes it the URL and the UUIDs in the URL in order; otherwise it answers 405 if a route of another method is made up like the URL, and 404 if none is. A pattern without the anchors matches every URL that contains its pieces, and an unescaped dot any rune. The regular expressions in StringToDecimal, CamelCaseToSnakeCase, the conversions of NumberString and ParsePath find, for every text, the leftmost match (and the first that a backtracking search finds there), with the submatches these functions are documented to work with.",
  "every list of routes, every method and URL, every text", "all URLs, all texts, all lists of routes",
  ["rest/rest.go: UUIDGroup, ServeMux.Handle, ServeMux.ServeHTTP", "math/decimal.go: decimalRegex, StringToDecimal", "funcs/funcs.go: camelWordsRegexp, CamelCaseToSnakeCase", "encoding/json/value.go: numberStringRegex", "encoding/json/search.go: regexPathParts, parsePath"])

p("The memory behind an ErrorWriter, nil maps and failing destinations",
  "A slice returned by ErrorWriter.Output keeps its bytes whatever is written later, and the output at any later time begins with them, as long as nobody writes through such a slice; Write changes no other slice, and works even if the bytes written are part of the output. A caller may append to the slice it got. A writer for a nil map panics exactly when a first value is written. The writers to an io.Writer panic if a write fails. (The code violates the last two: appended bytes are overwritten by the next Write, and an error is returned instead of a panic.)",
  "every count, every history of Writes and of changes elsewhere in memory, every slice", "all histories and all ways slices overlap",
  ["io/io.go: NewErrorWriter, ErrorWriter.Write, ErrorWriter.Output", "io/writer/gen.go: MapWriterGen, IOWriterGen", "io/writer/writer.go: OfMapWriter, OfIOWriterAsBytes, WriterImpl.Write"])

p("Tuples keep their values",
  "A tuple of two, three or four values gives back exactly the values it was made of, in the order given, through Values, through its fields and through FirstValue, SecondValue and ThirdValue; it is determined by them (two tuples are equal exactly if all values are), and its text names every value by its letter in order, whatever characters the texts of the values contain.",
  "every value of every type, every formatting of values", "all values of all types, including texts with formatting verbs",
  ["tuple/tuple.go: Of2, Of2Same, Of3, Of3Same, Of4, Of4Same, Values, String", "funcs/funcs.go: FirstValue2, FirstValue3, SecondValue2, SecondValue3, ThirdValue3"])

p("What is written to CurrentSrc is in the file of its Src",
  "CurrentSrc is the writer of the latest Src that returned (nil before the first); after any history of calls and writes, also through writers kept from before, each source file contains exactly what was written to its writer in order; Src panics if the file already exists, and no other file changes unless SetBasePath is called.",
  "every file system, every user, every history of SetBasePath, Dir, Src and writes, including calls that panic and are recovered", "histories are unbounded and the file system is arbitrary",
  ["code/api.go: BaseGenerator, Src, CurrentSrc", "io/writer/writer.go: OfIOWriterAsStrings, Write", "io/writer/gen.go: IOWriterAsStringsGen"])

p("Go values survive a trip through JSON",
  "A map or slice of Go values (nil, booleans, strings, numbers, maps and slices, to any depth) converted to a Value, written and parsed again has everywhere what was sent: the same keys in the same places, the same strings and booleans, and number texts from which conv.To gives back exactly the number that was sent, in its type.",
  "every tree of Go values, every integer of every type, every float32 and float64", "trees of unbounded depth and all numbers",
  ["encoding/json/value.go: MapToValue, SliceToValue, toValue", "encoding/json/write/write.go: Write", "encoding/json/parse/parse.go: Parse", "conv/string.go: FloatToString, BigIntToString", "conv/float.go: StringToFloat64, StringToFloat32", "conv/conv.go: To"])

p("TryTo with functions that have effects, recover or end the goroutine",
  "Whatever tryFn, the closers and panicFn do to shared state, and whether they return, panic, call recover, end the goroutine (Goexit) or are nil: tryFn is called first, then every closer exactly once in reverse order, each on the state left by the one before; panicFn is called exactly when a panic with a value other than nil is then in progress, with that value; no panic of tryFn or a closer leaves TryTo, only one of panicFn; the goroutine ends only if a function ended it. A closer made with IgnoreResult never takes the panic away from panicFn. If tryFn panics, panicFn is called.",
  "every world, tryFn, panicFn, list of closers (nil included), with outcomes that depend on the state", "all functions and all interactions through shared state",
  ["funcs/funcs.go: TryTo, IgnoreResult"])

p("Functions with effects, and panics, in pipelines",
  "The functions given to Map, MapError, Filter, Peek, Reduce, ReduceTo, ReduceToBool (AllMatch, AnyMatch, NoneMatch) are called exactly once per value, in the order of the values, when the value is asked for, and in a chain value by value from first to last function. If a function or the source panics and the caller of Next recovers, the iterators remain usable: Map, MapError, Filter, Peek, Skip and Limit go on with the next value, having lost only the value that caused the panic; a transform that reduces the whole source reads nothing more and reports no result, only EOI.",
  "every source (values and panics in any order, then any error), every function with its own or a shared state, any number of calls", "every point at which a panic may occur, every state",
  ["iter/iter.go: IterImpl.Next, OfIter", "stream/stream.go: Map, MapError, Filter, Peek, Reduce, ReduceTo, ReduceToBool, ReduceToSlice, Skip, Limit, AvgInt, AvgUint"])

p("Panics in the sources of expanding, concatenating, collecting and sorting iterators",
  "If a source (or a function of the user) panics and the caller recovers, the other iterators remain usable as well: ExpandSlices and ExpandMaps go on with the next slice or map, Concat with the same iterator, SetError, Distinct and Duplicate with the next value (remembering what they have seen), an iterator made by InfiniteIterGen calls its function again with the last value it returned. ReduceIntoSlice keeps the values read before the panic in the slice, reports no result afterwards and never writes past the end of the slice. Reverse and the sorting transforms panic when they are created, and the source is left just behind the panic.",
  "every source (values and panics in any order, then any error), every list of iterators (nil ones included), every initial slice, any number of calls", "every point at which a panic may occur, every state",
  ["stream/stream.go: ExpandSlices, ExpandMaps, ReduceIntoSlice, Distinct, Duplicate, Reverse, SortBy, SortOrdered, SortComplex, SortCmp", "iter/gen.go: ConcatIterGen, InfiniteIterGen", "iter/iter.go: SetError"])

p("Panics in the transforms of Parallel",
  "If the transform given to Parallel panics (or gives more values than its range has elements) the caller gets no result that misses values: with no or one element no thread is started, and a panic is raised in the goroutine that calls Next, where it can be recovered; with two or more elements the panic of any thread terminates the program, whatever the schedule. A panic of the source is raised in the goroutine that calls Parallel before any thread is started.",
  "every transform, source (values, panics, then any error), number of elements, partition and schedule", "all interleavings, including the moment between the deferred wg.Done of a panicking thread and the end of the program",
  ["stream/stream.go: Parallel, ReduceIntoSlice, generateRanges"])

p("A regex pattern is read as what it stands for",
  "A pattern written with runes (escaped or not, or by their numbers, as in \\x41, \\x{41} and \\101), `.`, classes, `^`, `$`, groups, capturing groups (with or without a name), alternatives and repetitions (greedy or lazy), nested in any way, is accepted by Handle, and what it matches and captures is what it stands for: repetition binds tighter than sequence, sequence tighter than `|`, and capturing groups are numbered by their opening parentheses. A repetition is refused exactly when its bounds are over 1000 or out of order, or when nested repetitions multiply to more than 1000. Parentheses that do not match, empty classes, classes that do not end, ranges out of order, a repetition with nothing to repeat or directly after another, names that are empty or not of letters, digits and `_`, a backslash at the end, a reference to a group (as in \\1), and numbers of runes without digits, without their } or beyond the last rune are refused; a `]` at the beginning of a class and a `-` at its end are runes of it; the escaped letters d, w, s, their capitals, a, f, n, r, t, v (and outside of classes A and z) stand for the classes, control runes and ends of the text they are documented for, an escaped letter or digit never stands for itself, and without a meaning it is refused. Whether repetitions are lazy makes no difference to which patterns are accepted and which URLs they match, but to what is captured: between two texts, `(.*?)` captures what is before the first occurrence of the second, `(.*)` what is before the last. A repetition ends at an iteration that matches nothing: `(?:|x)` with any repetition captures nothing, whatever x is. A request is given to the first registration of its method whose pattern matches the URL, with the leftmost match and one part for every capturing group.",
  "every pattern of the grammar (any size and nesting), list of registrations, method and URL", "patterns and URLs of any length",
  ["rest/rest.go: ServeMux.Handle, ServeMux.ServeHTTP (regexp.Compile of the Go library)"])

p("Receivers that panic",
  "If a receiver panics, Send panics with the same value, no receiver after it is called, those before it have been called exactly as if it had not panicked, and the registry is what the Register, RemoveId and Remove calls the receivers made up to then make of it, never half changed. The registry can be used afterwards: a later Send starts again with the first receiver, and after Remove of the receiver that panics the event reaches all the others. Without panics all is as in C45 and C106. Send never panics by itself.",
  "every registry, receivers (which may use the registry, send events themselves, recover and panic), event and nesting depth", "histories of calls and panics of any length",
  ["event/event.go: Registry.Send, Register, RemoveId, Remove"])

p("Parallel has no data races",
  "Of two accesses to the same element of the slices that the goroutines of Parallel share (input, output, errors), at least one of them a write, one happens before the other in the sense of the Go memory model, whatever the transforms do with their iterators, however the goroutines are scheduled and whether or not the slice is modified in place. Threads that run before others have been started, and the caller running beside them, make no difference to the result; when the caller goes on every thread has ended.",
  "every transform, number of elements, partition, schedule of all goroutines including the caller, and every prefix of an execution", "all interleavings; a race need not show in a test",
  ["stream/stream.go: Parallel, ReduceIntoSlice, generateRanges", "iter/gen.go: SliceIterGen"])

p("Generator and goroutines",
  "Generator's transform calls the generator once per call and gives each call a function that no other call gets, so that the state of a transform never serves two data sets, also when goroutines (such as those of Parallel) call it at the same time.",
  "every schedule of any number of calls, on any iterators, and every prefix of an execution", "all interleavings of the calls",
  ["stream/stream.go: Generator, Parallel"])

p("Registering while requests are served",
  "Handle may be called at any time, also by several goroutines and while requests are being served, as documented: no request panics or calls a handler that nobody registered, every request is answered and every call of Handle returns without waiting for others, registrations that were there before stay and keep their precedence, a request is answered according to the registrations made when it began, and all registrations whose calls have returned are in the mux in that order.",
  "every mux, every number of goroutines that register and of requests, every schedule of their reads and writes of the slice and its array, every growth of the array", "all interleavings of memory accesses",
  ["rest/rest.go: ServeMux.Handle, ServeMux.ServeHTTP", "funcs/funcs.go: SliceAdd"])

p("Changing the registry while events are sent by other goroutines",
  "Receivers can be registered at any time, as documented, also by other goroutines while events are sent: no call panics, every call returns without waiting for others, a Send makes one round per id there was when it began and calls only receivers registered with that id; every receiver whose Register call returned before the Send began, and that is not removed, is called exactly once, in order; and after any number of calls the registry is what they make of it one after the other.",
  "every registry, every number of goroutines that call Register, RemoveId and Remove or Send, every schedule of their reads and writes of the slice and its arrays", "all interleavings of memory accesses",
  ["event/event.go: Register, RemoveId, Remove, Send", "funcs/funcs.go: OrderedTuple2SliceAdd, OrderedTuple2SliceRemoveKey, OrderedTuple2SliceRemoveUncomparable"])

p("JSON documents as streams",
  "A program may read a JSON array with Iterate, keep elements with Filter, convert them with MapError, collect them with ReduceToSlice and write the slice as an array: what Parse reads from that is exactly the converted elements that were kept, in order. If an element cannot be converted, or the document is incomplete or malformed, nothing is collected and the iterator ends with an error that is not EOI - that of the first element that failed, if the document is well formed.",
  "every reader of finitely many runes, every array, every predicate and conversion", "all documents, predicates and conversions; the parts are tested apart",
  ["encoding/json/parse/parse.go: Iterate, Parse", "encoding/json/write/write.go: Write", "stream/stream.go: Filter, MapError, ReduceToSlice"])

p("What the error of a failed conversion says",
  "When To cannot convert a number or a string into a variable of a numeric type, the error says so for the value that was to be converted, with its own type, and for the type of the variable; what it says is true, and there is an error exactly if the conversion failed.",
  "every value of the fifteen numeric types, every string and every numeric target type", "all values and all 225 pairs of types; a test compares a few messages",
  ["conv/conv.go: To, errMsg", "conv/int.go: BigIntToInt64, IntToInt, UintToUint", "conv/float.go: FloatToFloat, BigRatToFloat64"])

p("Text cut off at any byte",
  "If only the first k bytes of a text that was written are there (the program died, or the destination failed), then reading them gives nothing that was not written: OfReaderAsRunes yields exactly the complete characters and then EOI, or InvalidUTF8 if the cut is inside a character; OfReaderAsLines yields the completely written lines and at most the beginning of the next one, which is left out, with InvalidUTF8, if the cut is inside a character; and Parse refuses a JSON document cut off before its end.",
  "every text, every list of lines without line ends, both line endings, every document, and every byte count k", "every crash point; a test cuts a text in a few places",
  ["io/writer/writer.go: OfIOWriterAsLines", "io/io.go: ErrorWriter", "iter/gen.go: ReaderAsRunesIterGen, readLines", "encoding/json/parse/parse.go: Parse"])

p("CSV texts and their rows",
  "OfCSV (and NegotiateCSVContent for a text/csv request) gives for every text some rows with the same number of fields, and then EOI or an error of package csv, forever. Rows written as RFC 4180 says, with LF or CR LF as line ending and any text in the fields, come back unchanged; whatever follows them, rows that were written completely come first, and a text that is cut off gives at most one row more than the complete ones.",
  "every text, every table of fields of any text, every way to quote fields and end lines, and every point at which the text is cut off", "unboundedly many texts and tables; a test reads one small document",
  ["iter/iter.go: OfCSV", "iter/gen.go: CSVIterGen", "rest/content.go: NegotiateCSVContent"])

p("Elements of an array that is cut off",
  "What Iterate yields before it returns an error are elements of the document: when the text of an array stops somewhere, because the reader fails or the input ends (at any byte, also inside a character), Iterate yields the first elements of the array, as it would if the text went on, and then an error that is not EOI.",
  "every text and continuation, every cut, every way the reader ends", "unboundedly many texts and cuts; a test cuts one document at one point",
  ["encoding/json/parse/parse.go: Iterate", "encoding/json/parse/parse.go: parseArray", "encoding/json/parse/lex.go: lexNumber", "rest/content.go: NegotiateJSONContent"])

p("Rows of a CSV source that fails",
  "When the source of OfCSV (or the body of a text/csv request) fails, every row given before the error is a row of the text, as it would be given if the source had gone on: never a row made of a line that was only read in part. All rows that were read completely are given, and the iterator ends with the error of the source or one of package csv, never with EOI.",
  "every text read before the failure, every continuation, every error but the ends of input", "unboundedly many texts, cuts and continuations; a test fails one source at one point",
  ["iter/iter.go: OfCSV", "iter/gen.go: CSVIterGen", "rest/content.go: NegotiateCSVContent"])

p("Writers without a destination and functions that panic",
  "NewWriter panics exactly if the writing function is nil. The other constructors accept a nil slice pointer, nil map or nil io.Writer; Write without values returns nil on them, and Write with any value panics with the run time error of Go. If a writing function panics in the middle of a Write, the panic reaches the caller, all earlier values have been written and no later value reaches the function. With a destination, no Write of these writers panics by itself.",
  "every writing function (returning nil, an error, or panicking), every destination, every list of values", "unboundedly many functions and lists; a test panics at one value",
  ["io/writer/writer.go: NewWriter, OfSliceWriter, OfMapWriter, OfIOWriterAsBytes, OfIOWriterAsRunes, OfIOWriterAsStrings, OfIOWriterAsLines, WriterImpl.Write", "io/writer/gen.go: SliceWriterGen, MapWriterGen, IOWriterGen, IOWriterAsRunesGen, IOWriterAsStringsGen, IOWriterAsLinesGen"])
