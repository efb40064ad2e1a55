# Formal model of bantling/micro in Lean 4 — design

## 1. Trusted base

* Lean 4.33.0's kernel. No compiled evaluation is trusted (no `native_decide`, no `bv_decide`).
* Axioms: at most Lean's standard `propext`, `Classical.choice`, `Quot.sound` (`#print axioms` on every
  property theorem; vcheck reports them). The project adds none.
* The reading of the Go source: the code cannot be built or run in this sandbox, so the tie between
  model and code is the citation `file:lines` carried by every model definition.
* Assumed, not modelled, Go runtime / standard library behaviour:
  * `int64`/`uint64` two's complement arithmetic wraps, `/` and `%` truncate towards zero (modelled
    explicitly with `Int.tdiv/tmod` and a wrap function, parametric in the width);
  * `strconv`, `fmt.Sprintf("%d"/"%0*d")`, `strings.Repeat`, `[]rune(s)` have their documented meaning and
    are modelled as list functions;
  * `regexp`: leftmost-first matching as documented, modelled for the syntax the repository uses (Verif/Regex/Model.lean); the
    deterministic scanners of the models are proved to be the results of that search (C136); patterns supplied by users
    (ServeMux) are an uninterpreted predicate in C65, C72, C128 and C149, and the patterns themselves, read from their text, in C136 and C145
    (not: flags, POSIX and Unicode classes, \b, \x41);
  * `encoding/csv`: how it makes records of a text is modelled from its published source (Go 1.18) for the options the code sets (C154; a source that fails: C156); in C107 and
    C110 the records are a parameter;
  * maps are modelled as association lists/functions; iteration order is universally quantified where it
    is observable;
  * user supplied functions are total, pure Lean functions, except where panics and effects are the subject (C48, C106, C141-C144, C146): there they
    return an explicit outcome and change a state;
  * goroutines: interleaving semantics at the level of individual slice reads/writes; `sync.WaitGroup`
    gives "all threads finished" before the result is read; C147 and C148 prove the absence of data races in Go's sense (happens before); C149 and C150
    describe programs that do have races and take single reads and writes of slice headers and elements as atomic.
  * `sort.Slice` is any function that returns an ordered permutation of its argument;
  * binary floating point: a float is a rational `m*2^e` of its format (or NaN/Inf); conversions round to nearest, ties to
    even; -0 is identified with 0; a float to integer conversion that is out of range is a platform parameter (amd64 and
    arm64 instances); `big.Float` operations round to their precision; `big.Float.String` is ten significant decimal
    digits; the float64 arithmetic inside `generateRanges` is modelled (`generateRangesFloat`, math.Sqrt as any correctly rounded square root) and proved
    to give the exact sizes below 2^49 items (`c41_float`); `math.Ceil(n*log2(10))` is taken as exact, which
    the float64 computation is proved to be for up to 174000 digits (`c79_bits`);
  * file system (`code/api.go`): a map from paths to nodes with a permission flag; path resolution is a parameter.
* Out of the model: `math/big` internals, float texts other than decimals with an optional e-exponent,
  the texts of values in error messages (which value and which type a conversion error names is modelled, C152), network transport, GC, performance, code that is commented out (`conv/struct.go`, `code/generate.go`,
  `code/golang/`).

## 2. Modelling conventions

* Every model definition has a comment naming file and lines, and any simplification.
* Go outcomes: `Out α = ok a | err e | panic m` (Go.lean): an error return is a value, a runtime panic or
  `panic(..)` is separate.  A function mutating through a pointer returns the new contents also on error,
  so "target unchanged on error" is expressible.
* Fixed-width integers are `Int` restricted by a range predicate and every arithmetic operation which
  can leave the range is wrapped explicitly, so overflow bugs are visible in the model.
* Strings are `List Char`, bytes are `Nat` (range hypothesis < 256 where it matters).
* Iterators are state machines: `step : σ → Option (Except Err α × σ)`; `none` is divergence
  (e.g. Filter over an infinite source whose elements never match). `Yields it xs e` is the
  specification relation "produces exactly the values xs and then the error e, and e forever after".
* Each area has `Model.lean` (code), `Spec.lean` (independent specification vocabulary where one is
  needed), `Lemmas.lean`, and `Props.lean` (property theorems, refutations and non-vacuity examples).
* A property that the code violates is recorded here (section 4), its negation is proved with a concrete
  witness (`..._refuted`), and the part which does hold is proved with the suffix `_partial` under the
  weakest hypothesis found.

## 3. Plan per property

| id | modelled | proof |
|---|---|---|
| C01 | OfDecimal, Normalize on Int with range checks | case analysis + normalize lemmas |
| C02 | Normalize loop (structural on scale) | induction on scale; canonicity by divisibility argument |
| C03 | String as digit lists, StringToDecimal scanner | digits round trip lemma; refuted at scale 18, partial for scale <= 17 |
| C04 | decimalRegex as scanner | full characterisation of accepted strings; "12abc" refutes; partial for well-formed strings |
| C05 | AdjustDecimalFormat + lexicographic compare | padded digit strings compare as numbers |
| C06 | AdjustDecimalScale incl. panics | exact characterisation; panic witness refutes "never panics" |
| C07,C08 | addDecimal with wrap | arithmetic; identity refuted at scale 18 |
| C09 | Mul incl. 128-bit path | closed form of the result (c09_value) and exact set of wrong operands (c09_iff) |
| C10,C11 | DivIntQuoRem, DivIntAdd | Int.tdiv/tmod algebra; refutations for large o, negative / denormalized d |
| C12 | Div long-division loop (fuel-free: well-founded where it terminates, step machine otherwise) | invariant d = q*o + r; witness for scale > 18 |
| C13 | union of the above | corollaries; refuted for Div |
| C14 | MagnitudeLessThanOne, Sign, Negate | direct arithmetic |
| C15..C19 | math.go with width parameter w and wrap | omega/nlinarith over all widths |
| C20 | Range over any ordered type (integers, floats with NaN and infinities) | invariant over operation sequences; refuted for initial value and NaN bounds |
| C21 | integer conversion functions for source/target width and signedness, dispatch table | exact characterisation for all widths |
| C22 | decimal printing and ParseInt/ParseUint | digit round trip |
| C23 | IntToFloat with rounding to the format; out of range conversion as platform parameter | rounding lemmas; exact on amd64, complete on every platform, refuted for saturating platforms |
| C24,C25 | IterImpl state machine | refinement to stack ++ source, induction over operation lists |
| C26..C28 | generators as state machines | coinductive-style `Yields` by induction |
| C29,C58 | UTF-8 decoder state machine over reader | encode/decode round trip for all scalar values |
| C30 | readLines scanner | fold invariant; lone CR then LF refutes; partial |
| C31 | ReaderIterGen with general reader contract | refuted for (1, EOF) readers; partial for readers which return (0, EOF) |
| C32..C40 | stream transformers on state machines | `Yields` transport theorems |
| C41 | generateRanges, with exact sizes and with the float64 computation of the code (sqrt a parameter, correctly rounded) | induction on bucket count; nearest-float argument |
| C42,C43 | step machine of threads over disjoint ranges | invariant for every schedule; Filter refutes C43 |
| C44,C45 | binary search and insert/remove loops | refuted (key below minimum), partial: keys >= current minimum |
| C46..C51 | list functions | induction |
| C52..C54 | state machines over setters | induction over operation lists |
| C55..C57 | reader/writer state machines | induction over call sequences |
| C59..C64 | lexer, parser, writer, value conversion, path | grammar spec + inversion; refutations by witness; partial round trip |
| C65 | mux list of handlers, match predicate parameter | list induction |
| C66 | enum classification | exhaustive case analysis (finite domain, complete) |
| C67 | BaseGenerator with file system as parameter | refutation + partial |
| C68 | IOWriterAsLinesGen composed with ReaderAsLinesIterGen | induction over lines |
| C69 | Write as a sequence of writer calls against an arbitrary stateful writer | mutual induction over values |
| C70 | Iterate as state machine over the parser | refinement against Parse |
| C71 | Parse over readers that end at any point | prefix lemmas by induction over the parser |
| C72 | Handle as read-then-write threads | lost registration witness; invariant (nothing invented) for every schedule |
| C73 | NegotiateJSONContent | composition with Iterate; refuted for media type parameters |
| C74 | map helpers on nil-able maps | induction over histories |
| C75 | iteration order and sort function universally quantified | permutation + order uniqueness; refuted for MapSortComplex |
| C76, C77 | ConvertTo*, In, Compose | induction over lists |
| C78..C81 | float and big number conversions on rationals | rounding lemmas; refutations by exact evaluation |
| C82 | comparison helpers over any ordered type, NaN as a partial order | order lemmas; refuted for NaN |
| C83 | Abs/Div dispatch on type names | refuted for user defined types; exact for predeclared ones |
| C84 | heap of big.Int objects with shared backing arrays | refuted by witness; invariant for what is independent |
| C85..C92 | universe of types (kind, element, fields as parameters with laws), memory of typed variables, reflect.Value | inductive chains of pointers; loops as partial fixpoints, termination by absence of an endless chain |
| C93 | MapToStruct (a stub) | refutation of each documented demand |
| C94 | type name concatenation as key into the table of 240 conversions | keys are uniquely decodable (case analysis over the complete finite set of names) |
| C95, C96 | big.Int.SetString, big.Rat.SetString and big.Float parsing of decimals with and without e-exponents (other bases, underscores and p-exponents are the parameter TextLib; big.Float's own rounding of far exponents is its field `inexact`) | grammar equivalence, rounding lemmas |
| C97, C98 | heap of big numbers with embedded numerator/denominator; memory of destinations | invariants; refuted by witness |
| C99..C101 | stream functions over big numbers and maps | iterator refinement (YieldsForever) |
| C102 | Generator as a state machine over histories of iterators | induction over histories |
| C103, C104 | toValue and the accessors of Value | mutual induction over Go values; reuse of C59 |
| C105 | slices as windows (array, offset, length, capacity) on shared arrays, append in place or by reallocation with any growth | refinement: histories on two variables equal histories on two lists, from disjointness of arrays |
| C106 | registry in memory, receivers as programs that register, remove and send, Send as a loop that rereads the array | invariant: arrays keep ids, receivers only grow; induction on nesting depth |
| C107 | csv.Reader with record reuse in slice memory, the iterating function over it | induction over the rows, invariant on the reused record |
| C108 | Maybe as Next followed by OfResultError, reflect as a parameter | case analysis on the outcome; refuted for interface types |
| C109 | Go's []rune conversion of arbitrary bytes, the rune reader of C29 | decoding of encodings is exact; a length argument shows that only valid UTF-8 makes them agree |
| C110 | headers as in C73, gzip.NewReader as a parameter | case analysis; refuted for plain bodies and header lists |
| C111 | the filters over a linear order; over floats with NaN | order arithmetic; refuted for NaN |
| C112 | the functions themselves | equational |
| C113 | values with a kind and nil flag, interface holding a value | case analysis; refuted for interface types |
| C114 | Must versions over the models of the plain functions | case analysis, end-to-end by the theorems of the plain functions |
| C115 | goroutines as step machines that read and write the captured variables | invariants over all schedules; overlapping calls refuted |
| C116 | the stream calls over a source given by an infinite sequence of values and states | induction over reads; non-termination by partial correctness of the loops |
| C117 | the stream calls, composed, over an arbitrary source function; `Same`: equal results of any number of calls | bisimulation; partial correctness of the Filter, Reduce and match loops in both directions |
| C118 | To as one function from values of fifteen types and contents of variables; the table of 240 entries compared by script | the pairs that meet each of three demands determined exactly: proof for the ones, witness for the others |
| C119 | the same | from C118; witnesses |
| C120 | MapIterGen with Go's type assertion of interface values | exact condition (no nil interface); witness |
| C121 | Max and Min with Go's < on any ordered type, NaN included | exact result: the values after the last NaN; witness |
| C122 | conv.To and json.NumberToValue of a nil pointer, with math/big's behaviour on nil receivers | exact result for each pair of types; witnesses |
| C123 | Decimal.Mul | the magnitude of the result is a symmetric function of the magnitudes of the operands (case analysis of the int64 and big.Int paths); witnesses for one and order |
| C124 | Decimal.Add folded over a list | induction over the list with a bound for the sum of the magnitudes; witnesses |
| C125 | Decimal.Div | the first division leaves no remainder; sign analysis for the rest; witness |
| C126 | value.go conversions with memory: maps and arrays by address | refinement of the conversions without memory by mutual induction over the tree, with a frame condition; partial correctness of the recursion for the converse; witnesses |
| C127 | Div/DivBigOps of *big.Float with pointers (BFMem) | case analysis over zero/finite/infinite; rounding specified independently (nearest, ties to even) |
| C128 | ServeMux variables sharing arrays (SMem) | invariant over histories (only the owner writes above every copy's length); exact clobber condition; witness |
| C129 | OfSlice and OfSliceWriter over arrays with addresses (SMem) | induction over the calls; loop invariant (written ≤ read); witness when more is written than read |
| C130 | float entries of Div and Abs with signed zeros, infinities, NaN (GoFlt); big entries of Abs with pointers | exact rounding against an independent specification (nearest, half to even, overflow limit); case analysis |
| C131 | IterImpl.Next with the source iterators in a world of their own (addresses), shared by closures | induction on the values taken, on the schedule, and on the iterators of Concat with the set of exhausted ones |
| C132 | binary search, add, remove, SliceRemove, In over Go's comparison operators of floats with NaN | the operators on floats other than NaN embed in a linear order; the search follows it step by step; NaN by induction on the search interval |
| C133 | the targets written by the conversions from text, with the number big.ParseFloat returns beside its error | by cases on where the text stops being a number |
| C134 | big.Float's %g with ten digits and strconv's %f written out over digit strings; strconv's choice of shortest digits is a parameter (digits that identify the float) | the value of the written text computed from the digit string; nearest number of ten digits from roundSig |
| C135 | the lexer and the parser statement by statement on iterators of runes and tokens with Next and Unread (Verif/Json/CodeModel.lean), composed with OfReaderAsRunes of an arbitrary reader | refinement: the code-level lexer and parser return what the text-level ones (C60, C70) return, by induction on the text and by partial correctness of the text-level parser; a second reading of the relation in which nothing is known about what follows the runes gives laziness |
| C136 | regular expressions as syntax (Verif/Regex/Model.lean), with all ways to match in the order of a backtracking search, search, FindAll and ReplaceAll; the order-free language as specification | agreement of the two by induction on the expression; the scanners of the other models are the results of the search; routes match in at most one way; the parser of patterns (Verif/Regex/SyntaxModel.lean) reads the texts in the source and the texts of routes as these expressions, so that Handle and ServeHTTP are covered from the pattern texts on |
| C137 | ErrorWriter with its slice in memory (Verif/IO/MemModel.lean), steps of the rest of the program as any change of other arrays; map writer on nil maps | refinement of C56's writer; invariant that the capacity suffices, so Write only touches memory behind the output |
| C138 | tuples as structures, the selectors, String through a model of Sprintf with %v verbs (Verif/Tuple/Model.lean) | evaluation for arbitrary values |
| C139 | the file system with contents, open files with positions, programs of calls and writes (Verif/Code/FileModel.lean) | invariant over histories: names, writers, positions and contents (`c139_texts_partial`, `c139_kept`, `c139_src_iff`); witnesses against "panics if the file already exists" |
| C140 | composition of the models of conversion to Values, writer, parser and number texts (Verif/Json/TripProps.lean) | structural induction over the Go value, from the round trips C22, C59, C95, C103 and C134 |
| C141 | tryFn, closers and panicFn as functions on a world that may call recover, panic or exit (Verif/Funcs/TryModel.lean), with a record of every call | invariant along the stack of deferred calls that the state of the goroutine is the panic in progress according to the record |
| C142 | Next and the transforms with a world and panics as a third outcome (Verif/Stream/CrashModel.lean): a panic leaves iterator and captured variables as they were at that point | induction on what the source gives; fusion of two Maps by simulation |
| C143 | the remaining iterators with panics as a third outcome (Verif/Stream/ExpandCrashModel.lean), captured variables included | induction on what the source gives; exact condition under which ExpandSlices and ExpandMaps get stuck, and what they do then |
| C144 | threads whose transform may panic: the deferred wg.Done is a step of its own, the end of the program the next (Verif/Stream/ParCrashModel.lean) | simulation by a transform that reads forever where it would panic, then the projection theorem of C42 for any schedule; the exact set of outcomes, and termination of the program under every schedule that gives the threads enough steps |
| C145 | the grammar of patterns, how a pattern is written and what it stands for as a separate specification (Verif/Regex/RoundSpec.lean); the reader of Verif/Regex/SyntaxModel.lean | mutual induction over patterns: lexing a written pattern gives its tokens, building the tokens gives its meaning; then composition with Handle and ServeHTTP; the first hit of a repetition for what lazy repetitions and repetitions of the empty text capture |
| C146 | Process functions that may panic after changes to the registry and may recover from nested events (Verif/Event/CrashModel.lean), over the registry in memory of C106 | induction over the loops of Send and over Process functions; the state left behind is reached by whole calls; equal to the model of C106 if nothing panics |
| C147 | the caller as one more goroutine, threads started one by one, each access to a shared element and each go, Done and Wait an event of a trace (Verif/Stream/RaceModel.lean); happens-before as in the Go memory model | an invariant of the trace (a thread acts after its go, only on its own range, Done is its last event, Wait comes after all Done); that the events name all accesses of a step; simulation by the machine of C42 |
| C148 | the calls of Generator's transform as a step machine over the shared variables `currentIter` and `fn`, with a trace of what is generated, stored and read (Verif/Stream/GenRaceModel.lean) | an invariant of the trace; exact conditions for a call to get its own function, and for two calls to share one; a schedule in which two calls share one |
| C149 | goroutines that register and requests as step machines over the slice header and the backing arrays, with in-place append, copying element by element, and the nil check of SliceAdd (Verif/Rest/ConcModel.lean) | an invariant for all schedules (what a slice in circulation holds, what a request has read so far); a second one for schedules in which calls of Handle do not overlap; schedules in which a registration is lost |
| C150 | goroutines that change the registry (the search is a step, so is reading the registry again at the index found, which may panic, and so is each visible write; RemoveId shifts element by element) and goroutines that send (each element read and each receiver call is a step) over the slice header and the arrays (Verif/Event/ConcModel.lean) | an invariant for all schedules (writes under way stay within the memory and store only registered receivers); one for calls that do not overlap (the writes still to make lead to the sequential result); a Send is related to the registry it found by any relation its arrays keep; schedules in which a receiver is lost or skipped |
| C151 | the composition of Iterate of a reader, Filter, MapError and ReduceToSlice (models of C135, C32, C36), and Write and Parse (Verif/Json/PipeProps.lean) | composition of c135_iterate, c32_filter, c32_mapError, c36_reduceToSlice and c135_roundtrip |
| C152 | the value shown and the type named by the error of each conversion, function by function; the wording of the value is left to fmt (Verif/Conv/MsgModel.lean) | case analysis; the staged conversions with the exactness theorems of C21, C81 and C87 |
| C153 | no new model: the writers of C57, the iterators of C29 and C30 and Parse of C135, on the first k bytes of what was written | where a cut falls (after or inside a character), by induction over the text; lines by induction over the complete lines; JSON from C71 (Verif/IO/CutProps.lean, Verif/Json/CutProps.lean) |
| C154 | how encoding/csv makes records of a text, for the options CSVIterGen sets: readLine, the search for a line, plain and quoted fields, errors and where reading goes on after them (Verif/Iter/CsvModel.lean); grammar and texts in Verif/Iter/CsvSpec.lean | the reader is shown to be an automaton over the text with normalised line endings, and the automaton to accept exactly the grammar, by induction (Verif/Iter/CsvLemmas.lean, CsvProps.lean, Verif/Rest/CsvProps.lean) |
| C155 | `iterate` and `iterateReader` of C70 and C135, nothing new | one step of the iterating function on a text and on a continuation of it (Verif/Json/CutIterLemmas.lean), then induction on what the shorter text yields; the byte level through C135 and C153 (Verif/Json/CutIterProps.lean, Verif/Rest/CutProps.lean) |
| C156 | as C154, for a source that fails with another error than io.EOF: the error of readLine is kept while the record is parsed and returned with it (Verif/Iter/CsvFailModel.lean) | lines, fields and records that do not touch the failure are the same in any text that goes on, and complete rows do not touch it, by induction on the text (Verif/Iter/CsvFailLemmas.lean, CsvFailProps.lean, Verif/Rest/CsvFailProps.lean) |
| C157 | writing functions that return or panic, over destinations that may be nil (Verif/IO/NilModel.lean) | Write returns nil iff the function took every value, stops in another way iff it took a prefix and stopped so at the next value, by induction on the values; nil destinations and the refinement to the model of C57 (Verif/IO/NilProps.lean) |

## 4. Findings (code versus property)

Every entry is proved with a concrete witness by a `cNN_*_refuted` theorem; what does hold is in the `_partial` theorems.

* C03 a Decimal of scale 18 does not survive String / StringToDecimal. C04 "12abc", "-" and "." are accepted.
* C06 AdjustDecimalScale panics for valid operands without room. C08 0 is no identity at scale 18.
* C09 Mul is off by a factor of ten for products in [10^18, 2^63) and when a carry runs into eighteen nines, and nowhere
  else more than a unit off (c09_iff); it adds the rounding carry only if the last kept digit is at least 5. C10 DivIntQuoRem with a divisor
  >= 2^63 gets the sign wrong. C11 DivIntAdd parts do not add up (11.21/11, -10.01/3).
* C12/C13 Div: 28/3 negative, wrapping, non-termination, division by zero panics, results of scale 22. Exactly: c12_ok_iff.
* C16 SubInt of the minimum. C18 signed Div rounds (-1,-1/2] to +1. C20 OfRange does not check its initial value, and does not panic for NaN bounds. C69 WriteObject/WriteArray of a value of another type write the opening bracket before they panic.
* C22 StringToInt64/Uint64 overwrite the target on error. C23, C78, C79, C81: see the MANIFEST notes.
* C29 over-long encodings, surrogates, short reads. C30 LF after a lone CR. C31 readers returning data with EOF.
* C40 AvgInt inherits C18. C43 Parallel with Filter or expanding transforms; Parallel panics for two different interface types T and U, because reflect.TypeOf of both zero values is nil.
* C44/C45 keys below the minimum are inserted at the wrong place; closures of the same code are confused by Remove.
* C48 panic(nil). C49 supplier called again after a panic. C50 SnakeToCamelCase without letters panics; it takes the first byte of a word for a character, so a word that begins with a non-ASCII character gives malformed UTF-8 (c50_utf8_iff: exactly then).
* C54 OfResultError with interface types. C55/C56 ErrorReader/ErrorWriter boundary errors.
* C59..C64 JSON: Write does not escape; number syntax unanchored; "-01", `[,]`, `{"a":1,}`, trailing text accepted;
  `\u0022` ends a string; Invalid becomes Null; ToValue of typed maps and slices.
* C67 a second SetBasePath wipes the directory; Dir always panics (nil map); directories have no permissions; with two missing directories and no root rights SetBasePath panics and leaves the first one behind, unusable.
* C72 concurrent Handle loses registrations. C73 "application/json; charset=utf-8" is not recognised.
* C75 MapSortComplex depends on map order for keys of equal absolute value.
* C82 CmpOrdered(NaN, 1) = 0 and MinOrdered depends on argument order. C83 Abs/Div panic for `type Delta int`; Abs does nothing for a
  signed type of a package whose name starts with "uint".
* C84 To copies the big.Int struct: SetInt64 on the copy changes the original. C85/C86 `type P *P` hangs the dereferencing functions.
* C88 nil pointers to user defined types are not converted. C89 TypeAssert panics for nil interfaces.
* C90 a **Maybe with nil inner pointer panics; SetMaybeValue of a wrong type panics. C93 MapToStruct does nothing.
* C94 AnyTo(nil) panics; ToBigOps panics for user defined sources; ReflectTo fails for equal types and user defined sources.
* C95 FloatStringToBigRat("Inf") returns no error and a nil pointer; StringToBigInt and StringToBigRat overwrite the target (0, nil) on error.
* C79, C95 numbers with a place beyond 10^±1000000: StringToBigRat("1e1000001") is an error, FloatStringToBigRat of it and BigFloatToBigRat of the value return no error and store nil.
* C96 StringToFloat32("0.1") and StringToFloat64("0.30000000000000004") are errors: precision is taken from the length of the text, and then exactness is required. What FloatToString writes is in general not read back.
* C97 BigRatToBigInt returns the *big.Rat's own numerator. C98 Div(x, y, &y) on *big.Int compares the remainder with the overwritten divisor: 7/2 gives 3.
* C99 SumBigOps/AvgBigOps on *big.Float accumulate with 4 bits of precision (16+1 = 16, average of 16 and 1 = 8); AvgBigOps on *big.Int inherits the rounding error of C18.
* C100 Sum wraps around silently; AbsBigOps changes the elements of the source. C102 Generator never stores the iterator, so it makes a new function on every use; a nil iterator first panics.
* C103 MapToValue panics on a user defined string type; NaN and infinities become Numbers that are written as invalid JSON.
* C105 SliceRemove and SliceRemoveUncomparable return the argument itself when nothing is removed (unless all is true): writing to the result then writes to the original, although the comment says a new slice is returned.
* C106 A receiver that calls RemoveId with its own (or an earlier) id during Send shifts the array under the loop: the receivers of the next id are skipped, those of the last id are called twice. A receiver registered during Send under a later id is called in that Send, unless a new id was registered before. If the removed id is the last one it is called although it is gone (`c106_removeId_exact`).
* C108 iter.Maybe panics at the end of iteration for interface element types (any, error): OfResultError asks reflect whether the nil interface is zero.
* C109 OfStringAsRunes turns invalid bytes into U+FFFD without an error, where StringAsRunesIterGen and OfReaderAsRunes stop with InvalidUTF8Error, and the over-long and surrogate forms those accept are U+FFFD for OfStringAsRunes.
* C110 AcceptGzip looks at Accept-Encoding, which describes the response: a request with Accept-Encoding: gzip and a plain (or empty) body panics; a gzip body is not decompressed if the header lists other encodings too. NegotiateCSVContent does not recognise text/csv with parameters.
* C111 With NaN none of less, equal and greater holds, and the filters named as complements both fail.
* C113 IsNil and IsNonNil panic for interface types, for a nil interface and unsafe.Pointer; MustNonNilValue panics for a non-nil interface that holds a value of a type without nil, or a typed nil.
* C115 SupplierCached is not safe for concurrent use: overlapping first calls invoke the supplier twice, and a call may return the zero value before the first result is stored.
* C116 No defect found: laziness holds, and the operations that need the whole source are the only ones that do not return.
* C117 All the laws hold, but one: Skip(m) then Limit(0) does not read the source, Limit(m) then Skip(m) does, and reports the source's error.
* C118 The pairs To is not exact for: uint, uint64 to *big.Float; float32 to 64 bit integers and *big.Rat; float64 to every integer type, float32 and *big.Rat; every big type to float32; *big.Float to *big.Rat and back; on arm64 also the wide integers to floats. float32 and float64 to int and int64 refuse numbers they could hold (-2^63). Errors of big types to float64 change the target.
* C119 The float64 2^40 is 1099511628000 as an int64 directly and 1099511627776 through a *big.Int.
* C120 (also C51, C101) OfMap, ExpandMaps and SliceFlatten of more than one dimension panic when a value (or key) is a nil interface, e.g. OfMap(map[string]any{"a": nil}): `mi.Value().Interface().(V)` is an assertion on the nil any. C51 SliceFlatten of a one dimensional slice panics if its type is a defined type (type Ints []int).
* C28 SetError(it, nil) never ends: zero values follow the values of it (c28_nil_endless).
* C121 Max of 3, NaN, 1 is 1: the values up to the last NaN are forgotten. (C38: Distinct delivers every NaN, Duplicate none, which is what == says.)
* C122 To of a nil *big.Int into a string gives "<nil>" without an error; json.NumberToValue of it is a Number Value that is written as `<nil>` (ToValue of it is null). To of a nil *big.Int into a *big.Float gives nil without an error, to other numeric types it panics.
* C123 500000000000000000 times 1.0 is a tenth of it, and 500000000000000000 times 0.2 is less than 499999999999999999 times 0.2 (the tenfold defect of C09).
* C124 (10^17 - 10^17) + 0.5 is 0.5, but 10^17 + (-10^17 + 0.5) is 1; 99999999999999999.9 < 10^17, but adding -0.5 reverses the order.
* C125 99999999999999999 divided by 1.00000000000000000 is 39.0301220395011277.
* C126 MapToValue of a map[string]Value does not copy: after m["self"] = MapToValue(m) the Value contains itself and ToAny never returns (stack overflow).
* C88/C94 Pointers of a user defined pointer type (`type P *Age`): ValueToBaseType panics, hence AnyTo and ReflectTo do; ReflectTo into a `type P *int` panics in the type assertion of the conversion function.
* C127 Div of *big.Float into a nil quotient gives 53 bits whatever the precision of the operands (toDiv allocates with big.NewFloat).
* C128 ServeMux copied by value and then registered on both sides: handlers of one replace handlers of the other when append finds room.
* C129 in place loops over OfSlice(s) and OfSliceWriter(s[:0]) are right exactly when they never write ahead of reading; nothing in the library checks it.
* C130 Div reports a zero divisor as an error for integers and big numbers, but not for floats (documented in the code: left to the hardware).
* C131 Concat(it, it) yields the values once. C30: a surrogate in the input, which the rune iterator accepts (C29), becomes U+FFFD in a line (c30_surrogate_refuted).
* C132 a NaN key in an ordered tuple slice hides the keys before it: they are not found, a second entry is made (c132_nan_refuted).
* C133 StringToBigFloat("12x", &f) returns an error and makes f = 12; StringToBigFloat("x", &f) makes f nil (c133_bigFloat_refuted, c133_bigFloat_nil_refuted).
* C134 BigRatToNormalizedString keeps ten significant digits of rationals that are not whole (c134_normalized), FloatToString keeps all; FloatToString's text may be refused by StringToFloat64. A float32 whose text is not read back: `c134_float32_refuted`.
* C135 Parse of `[]` from a reader that returns the last byte together with io.EOF fails, as does `["€"]` from a reader that returns one byte at a time (c135_readers_refuted); the invalid bytes `["` ED A0 80 `"]` are accepted (c135_invalid_refuted).
* C136 no defect; a route without anchors or with an unescaped dot serves other URLs as well (c136_unanchored_serves, c136_unescaped_serves), as the documentation of regexp says.
* C137 append to the slice returned by ErrorWriter.Output is overwritten by the next Write (c137_append_refuted); the documentation of OfIOWriterAsBytes, -Runes, -Strings and -Lines says they panic if a write fails, but they return an error (c137_panic_refuted).
* C139 **Refuted parts**: Src does not panic if the file already exists: only names given to the same generator before are recognised, by their text. Any other file is emptied (`c139_existing_refuted`), and `Src("./c")` after `Src("c")` empties the source just written (`c139_same_path_refuted`).
* C140 **Refuted for floats**: a float64 whose shortest text has 16 or more digits is sent correctly, but StringToFloat64 mostly refuses to read it back (0.1 + 0.2, `c140_float_refuted`); it never reads another number (`c140_document_partial`).
* C141 **Refuted**: a closer that calls recover (closers are deferred directly) hides a panic of tryFn from panicFn (`c141_recover_refuted`).
* C142 **Refuted for AvgInt and AvgUint**: after a panic in the source (recovered), the next call of Next yields the average of the remaining values only (`c142_avg_refuted`).
* C143 **Refuted for ExpandSlices and ExpandMaps**: if the source panics right after an empty, non-nil slice (with elements before) or an empty, non-nil map, every later call of Next panics (index out of range, MapIter.Next on an exhausted iterator) and the rest of the source is never read.
* C144 **Refuted**: `defer wg.Done()` is executed while a thread panics, before the program is terminated. So Parallel may return an iterator without an error, in which elements of the source (or zero values) stand in the place of missing results, and the caller goes on working with it until the other goroutine has terminated the program. (A panic of a transform can be recovered with one element, but not with two or more.)
* C145 Proved for every pattern of the grammar. Flags, POSIX and Unicode classes, \b and \Q are not in it; about those the model says nothing (result `outside`).
* C146 Proved.
* C147 Proved. With it the interleaving semantics of C42 to C44 and C144 is justified: Go promises sequentially consistent executions to programs without data races.
* C148 Violated (and documented: Generator is not thread safe): two calls at the same time may both get the function generated for one of them (`c148_refuted`). So Parallel(Generator(g)) may apply one stateful transform to two partitions. Distinct and Duplicate are not affected: they make a Generator per call.
* C149 Violated for calls of Handle that overlap: a registration may be lost although Handle returned nil (`c149_lost_refuted`), the first one may be undone by a call that had seen the nil slice (`c149_wiped_refuted`), and a request may see one overwritten by another (`c149_overwritten_refuted`). Proved for all schedules: earlier registrations stay and requests they match are not affected, no request panics. Proved if one goroutine registers at a time: every request is answered according to the registrations made when it began.
* C150 Violated for calls of Register, RemoveId and Remove that overlap with one another: they search first and read the registry again at the index found, so a call may panic (`c150_panic_refuted`), or receivers of one id may end up under another, which is then in the registry twice (`c150_id_refuted`); a receiver may be lost although its Register call returned (`c150_lost_refuted`). Violated also for RemoveId while another goroutine sends: the Send skips the receivers of an id that is still registered and calls others twice (`c150_removeId_refuted`). Proved for all schedules: no Send panics, every Send returns, makes as many rounds as there were ids and calls only registered receivers. Proved for calls that do not overlap with one another: none panics, a Send calls only receivers registered with the id of the round, and (Register and Remove) every receiver registered before it began and not removed, once and in order.
* C151 Violated where C59 is: a collected string that needs an escape is written wrongly (`c151_written_refuted`). Reading, filtering, converting and collecting hold without restriction; the way back through Write and Parse for values that need no escape.
* C152 False of the conversions that go through a wider type: a *big.Int, *big.Float, *big.Rat or string that does not fit an integer type other than int64 and uint64 is reported either as a value that cannot be converted to int64 or uint64 (`To(big.NewInt(1<<70), &i8)`, `To("x", &i8)`), or as "The int64 value of 300 cannot be converted to int8" although a *big.Int or string was converted; the same for the big types into float32 through float64 (`c152_refuted`; exactly these: `c152_names_partial`, `c152_other`, `c152_text_other`). What an error says is always true (`c152_true`).
* C153 holds: every cut of a written text is recognised, except that a line whose ending was cut off is given as if it were complete (as C30 says of a last line without an ending), and that an empty line whose ending was cut off completely is not given (`c153_lines`).
* C154 False of fields that contain CR LF, which come back with LF (`c154_crlf_refuted`), and of rows with a single empty field that is not quoted, which are skipped (`c154_empty_refuted`); both are properties of encoding/csv. Otherwise true (`c154_roundtrip_partial`); which texts are read without an error, and to which rows: `c154_exact`.
* C155 False of numbers when the input ends: from [12,345] cut off after [12,34 Iterate yields 12 and 34, which is not an element of the array, and only then an error, because it does not look at what follows an element before it yields it (`c155_number_refuted`). True if the reader fails (`c155_failed_reader`), and of everything but that last number (`c155_prefix_partial`, `c155_array_partial`, `c155_bytes_partial`).
* C156 True. It is the other way round if the input just ends: then the piece of the last line is given as a row (C154, `c154_cut`).
* C157 True. A nil destination is only noticed by the first value written, not by the constructor, and with an error of Go rather than errNewWriterNeedsFn.
