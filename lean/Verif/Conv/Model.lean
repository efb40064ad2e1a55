import Verif.Go
import Verif.Digits
/-
Model of package conv: conversions between integers, strings and *big.Int.
-/
namespace Micro.Conv
open Micro

/-- A conversion writes its target and returns an error flag: (contents of *oval afterwards, failed). -/
structure Res (α : Type) where
  target : α
  failed : Bool
  deriving DecidableEq, Repr

/-- conv/int.go:19-24 `minIntValue` (a missing key reads as 0). -/
def minIntValue : Nat → Int
  | 8 => -128 | 16 => -32768 | 32 => -2147483648 | 64 => -9223372036854775808 | _ => 0

/-- conv/int.go:26-31 `maxIntValue`. -/
def maxIntValue : Nat → Int
  | 8 => 127 | 16 => 32767 | 32 => 2147483647 | 64 => 9223372036854775807 | _ => 0

/-- conv/int.go:33-38 `maxUintValue`. -/
def maxUintValue : Nat → Int
  | 8 => 255 | 16 => 65535 | 32 => 4294967295 | 64 => 18446744073709551615 | _ => 0

/-- conv/int.go:50-62 `IntToInt`; `cur` is the previous contents of *oval. -/
def intToInt (s t : Kind) (ival cur : Int) : Res Int :=
  if s.bits > t.bits ∧ (ival < s.wrap (minIntValue t.bits) ∨ ival > s.wrap (maxIntValue t.bits)) then
    ⟨cur, true⟩
  else ⟨t.wrap ival, false⟩

/-- conv/int.go:71-83 `UintToInt`. -/
def uintToInt (s t : Kind) (ival cur : Int) : Res Int :=
  if s.bits ≥ t.bits ∧ ival > s.wrap (maxIntValue t.bits) then ⟨cur, true⟩
  else ⟨t.wrap ival, false⟩

/-- conv/int.go:114-126 `IntToUint`. -/
def intToUint (s t : Kind) (ival cur : Int) : Res Int :=
  if ival < 0 ∨ (s.bits > t.bits ∧ ival > s.wrap (maxUintValue t.bits)) then ⟨cur, true⟩
  else ⟨t.wrap ival, false⟩

/-- conv/int.go:135-147 `UintToUint`. -/
def uintToUint (s t : Kind) (ival cur : Int) : Res Int :=
  if s.bits > t.bits ∧ ival > s.wrap (maxUintValue t.bits) then ⟨cur, true⟩
  else ⟨t.wrap ival, false⟩

/-- What an entry of the conversion table does: a plain Go cast, or a call of one of the four
checked conversion functions. -/
inductive Entry where
  | cast | intToInt | uintToInt | intToUint | uintToUint
  deriving DecidableEq, Repr

/-- conv/conv.go:30-636 `convertFromTo`, the integer to integer entries, one line per map entry
(the list was extracted from the source; no entry exists for equal types). -/
def convertFromTo : Kind → Kind → Option Entry
  | .int8, .int => some .cast -- conv/conv.go:32
  | .int16, .int => some .cast -- conv/conv.go:36
  | .int32, .int => some .cast -- conv/conv.go:40
  | .int64, .int => some .intToInt -- conv/conv.go:44
  | .uint, .int => some .uintToInt -- conv/conv.go:47
  | .uint8, .int => some .cast -- conv/conv.go:50
  | .uint16, .int => some .cast -- conv/conv.go:54
  | .uint32, .int => some .uintToInt -- conv/conv.go:58
  | .uint64, .int => some .uintToInt -- conv/conv.go:61
  | .int, .int8 => some .intToInt -- conv/conv.go:100
  | .int16, .int8 => some .intToInt -- conv/conv.go:103
  | .int32, .int8 => some .intToInt -- conv/conv.go:106
  | .int64, .int8 => some .intToInt -- conv/conv.go:109
  | .uint, .int8 => some .uintToInt -- conv/conv.go:112
  | .uint8, .int8 => some .uintToInt -- conv/conv.go:115
  | .uint16, .int8 => some .uintToInt -- conv/conv.go:118
  | .uint32, .int8 => some .uintToInt -- conv/conv.go:121
  | .uint64, .int8 => some .uintToInt -- conv/conv.go:124
  | .int, .int16 => some .intToInt -- conv/conv.go:163
  | .int8, .int16 => some .cast -- conv/conv.go:166
  | .int32, .int16 => some .intToInt -- conv/conv.go:170
  | .int64, .int16 => some .intToInt -- conv/conv.go:173
  | .uint, .int16 => some .uintToInt -- conv/conv.go:176
  | .uint8, .int16 => some .cast -- conv/conv.go:179
  | .uint16, .int16 => some .uintToInt -- conv/conv.go:183
  | .uint32, .int16 => some .uintToInt -- conv/conv.go:186
  | .uint64, .int16 => some .uintToInt -- conv/conv.go:189
  | .int, .int32 => some .intToInt -- conv/conv.go:228
  | .int8, .int32 => some .cast -- conv/conv.go:231
  | .int16, .int32 => some .cast -- conv/conv.go:235
  | .int64, .int32 => some .intToInt -- conv/conv.go:239
  | .uint, .int32 => some .uintToInt -- conv/conv.go:242
  | .uint8, .int32 => some .cast -- conv/conv.go:245
  | .uint16, .int32 => some .cast -- conv/conv.go:249
  | .uint32, .int32 => some .uintToInt -- conv/conv.go:253
  | .uint64, .int32 => some .uintToInt -- conv/conv.go:256
  | .int, .int64 => some .cast -- conv/conv.go:295
  | .int8, .int64 => some .cast -- conv/conv.go:299
  | .int16, .int64 => some .cast -- conv/conv.go:303
  | .int32, .int64 => some .cast -- conv/conv.go:307
  | .uint, .int64 => some .uintToInt -- conv/conv.go:311
  | .uint8, .int64 => some .cast -- conv/conv.go:314
  | .uint16, .int64 => some .cast -- conv/conv.go:318
  | .uint32, .int64 => some .cast -- conv/conv.go:322
  | .uint64, .int64 => some .uintToInt -- conv/conv.go:326
  | .int, .uint => some .intToUint -- conv/conv.go:349
  | .int8, .uint => some .intToUint -- conv/conv.go:352
  | .int16, .uint => some .intToUint -- conv/conv.go:355
  | .int32, .uint => some .intToUint -- conv/conv.go:358
  | .int64, .uint => some .intToUint -- conv/conv.go:361
  | .uint8, .uint => some .cast -- conv/conv.go:364
  | .uint16, .uint => some .cast -- conv/conv.go:368
  | .uint32, .uint => some .cast -- conv/conv.go:372
  | .uint64, .uint => some .uintToUint -- conv/conv.go:376
  | .int, .uint8 => some .intToUint -- conv/conv.go:415
  | .int8, .uint8 => some .intToUint -- conv/conv.go:418
  | .int16, .uint8 => some .intToUint -- conv/conv.go:421
  | .int32, .uint8 => some .intToUint -- conv/conv.go:424
  | .int64, .uint8 => some .intToUint -- conv/conv.go:427
  | .uint, .uint8 => some .uintToUint -- conv/conv.go:430
  | .uint16, .uint8 => some .uintToUint -- conv/conv.go:433
  | .uint32, .uint8 => some .uintToUint -- conv/conv.go:436
  | .uint64, .uint8 => some .uintToUint -- conv/conv.go:439
  | .int, .uint16 => some .intToUint -- conv/conv.go:478
  | .int8, .uint16 => some .intToUint -- conv/conv.go:481
  | .int16, .uint16 => some .intToUint -- conv/conv.go:484
  | .int32, .uint16 => some .intToUint -- conv/conv.go:487
  | .int64, .uint16 => some .intToUint -- conv/conv.go:490
  | .uint, .uint16 => some .uintToUint -- conv/conv.go:493
  | .uint8, .uint16 => some .cast -- conv/conv.go:496
  | .uint32, .uint16 => some .uintToUint -- conv/conv.go:500
  | .uint64, .uint16 => some .uintToUint -- conv/conv.go:503
  | .int, .uint32 => some .intToUint -- conv/conv.go:542
  | .int8, .uint32 => some .intToUint -- conv/conv.go:545
  | .int16, .uint32 => some .intToUint -- conv/conv.go:548
  | .int32, .uint32 => some .intToUint -- conv/conv.go:551
  | .int64, .uint32 => some .intToUint -- conv/conv.go:554
  | .uint, .uint32 => some .uintToUint -- conv/conv.go:557
  | .uint8, .uint32 => some .cast -- conv/conv.go:560
  | .uint16, .uint32 => some .cast -- conv/conv.go:564
  | .uint64, .uint32 => some .uintToUint -- conv/conv.go:568
  | .int, .uint64 => some .intToUint -- conv/conv.go:607
  | .int8, .uint64 => some .intToUint -- conv/conv.go:610
  | .int16, .uint64 => some .intToUint -- conv/conv.go:613
  | .int32, .uint64 => some .intToUint -- conv/conv.go:616
  | .int64, .uint64 => some .intToUint -- conv/conv.go:619
  | .uint, .uint64 => some .cast -- conv/conv.go:622
  | .uint8, .uint64 => some .cast -- conv/conv.go:626
  | .uint16, .uint64 => some .cast -- conv/conv.go:630
  | .uint32, .uint64 => some .cast -- conv/conv.go:634
  | _, _ => none

/-- Execution of a table entry. -/
def Entry.run (e : Entry) (s t : Kind) (ival cur : Int) : Res Int :=
  match e with
  | .cast => ⟨t.wrap ival, false⟩
  | .intToInt => Conv.intToInt s t ival cur
  | .uintToInt => Conv.uintToInt s t ival cur
  | .intToUint => Conv.intToUint s t ival cur
  | .uintToUint => Conv.uintToUint s t ival cur

/-- conv/conv.go:1018-1061 `To` for integer source and target (non-nil target): copy when the types
are equal, otherwise look up and run the table entry; a missing entry would be a call of a nil
function, i.e. a panic (`none`). -/
def toInt (s t : Kind) (ival cur : Int) : Option (Res Int) :=
  if s = t then some ⟨ival, false⟩
  else (convertFromTo s t).map (fun e => e.run s t ival cur)

/-- conv/int.go:178-185 `BigIntToInt64`. -/
def bigIntToInt64 (ival cur : Int) : Res Int :=
  if Kind.int64.InRange ival then ⟨ival, false⟩ else ⟨cur, true⟩

/-- conv/int.go:245-252 `BigIntToUint64`. -/
def bigIntToUint64 (ival cur : Int) : Res Int :=
  if Kind.uint64.InRange ival then ⟨ival, false⟩ else ⟨cur, true⟩

/-- conv/conv.go:70,133,198,265,335,385,448,512,577,644: the `*big.Int` to integer entries: directly
for int64/uint64, through an int64/uint64 intermediate otherwise. -/
def bigIntTo (t : Kind) (ival cur : Int) : Res Int :=
  match t with
  | .int64 => bigIntToInt64 ival cur
  | .uint64 => bigIntToUint64 ival cur
  | .int | .int8 | .int16 | .int32 =>
    let r := bigIntToInt64 ival 0
    if r.failed then ⟨cur, true⟩ else intToInt .int64 t r.target cur
  | .uint | .uint8 | .uint16 | .uint32 =>
    let r := bigIntToUint64 ival 0
    if r.failed then ⟨cur, true⟩ else uintToUint .uint64 t r.target cur

/-- conv/bigint.go:17-19 `IntToBigInt`, 22-25 `UintToBigInt`, 28-36 `IntegerToBigInt`: *big.Int values are
mathematical integers, so widening to int64/uint64 first is the only step. -/
def integerToBigInt (k : Kind) (ival : Int) : Int :=
  if k.signed then Kind.int64.wrap ival else Kind.uint64.wrap ival

/-! ### Strings -/

/-- strconv.FormatInt(v, 10) (standard library, modelled from its documentation). -/
def formatInt (v : Int) : List Char :=
  if v < 0 then '-' :: natChars v.natAbs else natChars v.natAbs

/-- conv/string.go:14-16 `IntToString`, 19-21 `UintToString`: widen, then format. -/
def integerToString (k : Kind) (v : Int) : List Char :=
  if k.signed then formatInt (Kind.int64.wrap v) else formatInt (Kind.uint64.wrap v)

/-- How strconv's integer parsers end. -/
inductive PStatus where
  | ok | syntaxErr | rangeErr
  deriving DecidableEq, Repr

/-- The digit loop of strconv.ParseUint(s, 10, 64): stops with 0 at the first non-digit and with
MaxUint64 at the first overflow (standard library). -/
def parseUintLoop : List Char → Nat → Nat × PStatus
  | [], n => (n, .ok)
  | c :: cs, n =>
    if isDigit c then
      if n * 10 + digitVal c > 18446744073709551615 then (18446744073709551615, .rangeErr)
      else parseUintLoop cs (n * 10 + digitVal c)
    else (0, .syntaxErr)

/-- strconv.ParseUint(s, 10, 64): the empty string is a syntax error. -/
def parseUint64 (cs : List Char) : Nat × PStatus :=
  if cs = [] then (0, .syntaxErr) else parseUintLoop cs 0

/-- strconv.ParseInt(s, 10, 64): optional sign, then ParseUint; range errors are clamped. -/
def parseInt64 (cs : List Char) : Int × PStatus :=
  let neg : Bool := cs.head? = some '-'
  let body := if cs.head? = some '-' ∨ cs.head? = some '+' then cs.tail else cs
  let (un, st) := parseUint64 body
  if st = .syntaxErr then (0, .syntaxErr)
  else if ¬ neg ∧ un ≥ 9223372036854775808 then (9223372036854775807, .rangeErr)
  else if neg ∧ un > 9223372036854775808 then (-9223372036854775808, .rangeErr)
  else (if neg then -(un : Int) else un, .ok)

/-- conv/int.go:226-234 `StringToInt64`: note *oval is overwritten even when an error is returned. -/
def stringToInt64 (cs : List Char) (_cur : Int) : Res Int :=
  ⟨(parseInt64 cs).1, (parseInt64 cs).2 ≠ .ok⟩

/-- conv/int.go:293-300 `StringToUint64`. -/
def stringToUint64 (cs : List Char) (_cur : Int) : Res Int :=
  ⟨(parseUint64 cs).1, (parseUint64 cs).2 ≠ .ok⟩

/-- conv/conv.go:91,154,219,286,344,406,469,533,598,653: the string to integer entries. -/
def stringTo (t : Kind) (cs : List Char) (cur : Int) : Res Int :=
  match t with
  | .int64 => stringToInt64 cs cur
  | .uint64 => stringToUint64 cs cur
  | .int | .int8 | .int16 | .int32 =>
    let r := stringToInt64 cs 0
    if r.failed then ⟨cur, true⟩ else intToInt .int64 t r.target cur
  | .uint | .uint8 | .uint16 | .uint32 =>
    let r := stringToUint64 cs 0
    if r.failed then ⟨cur, true⟩ else uintToUint .uint64 t r.target cur

end Micro.Conv
