import Verif.Json.Model
import Verif.Conv.Model
import Verif.Stream.Model
/-
Model of encoding/json/value.go (conversion between Values and Go values), encoding/json/search.go (paths),
the writer calls of encoding/json/write and encoding/json/parse Iterate.
-/
namespace Micro.Json
open Micro Micro.Iter

/-! ### Values and Go values -/

/-- The text conv makes of a float32, float64, *big.Int, *big.Float or *big.Rat (conv/string.go:24-55): NaN, an infinity, or a decimal number.
Which digits are printed is not part of this model (see C79, C80, C96). -/
inductive NumText where
  | nan
  | inf (neg : Bool)
  | dec (neg : Bool) (int frac exp : List Char)

/-- conv/string.go:24-27 `FloatToString`, `BigIntToString`, `BigFloatToString`, `BigRatToNormalizedString`: the notation of strconv.FormatFloat
and big.Float.String (standard library). -/
def NumText.text : NumText → List Char
  | .nan => "NaN".toList
  | .inf neg => if neg then "-Inf".toList else "+Inf".toList
  | .dec neg i f x => (if neg then ['-'] else []) ++ i ++ (if f = [] then [] else '.' :: f) ++ (if x = [] then [] else 'e' :: x)

/-- The Go values (of static type `any`) that reach `toValue`: nil, map[string]any, []any, bool, string, NumberString, a user
defined type whose underlying type is string, the integer types, the floating point and big types, map[string]Value and []Value
(non-nil), and `other`, a value of any type that conv.AnyTo does not know. A nil map[string]Value, []Value or big pointer is `nil`. -/
inductive GoAny where
  | nil
  | bool (b : Bool)
  | str (s : List Char)
  | numStr (s : List Char)
  | namedStr (s : List Char)
  | num (t : NumText)
  | int (k : Kind) (v : Int)
  | map (kvs : List (List Char × GoAny))
  | slice (vs : List GoAny)
  | mapV (kvs : List (List Char × JVal))
  | sliceV (vs : List JVal)
  | other

/-- encoding/json/value.go:18 `numberStringRegex.MatchString`: the regular expression is not anchored, so it finds a match
iff the string contains a digit (`matchNumber_iff` proves this from the regular expression). -/
def matchNumber (s : List Char) : Bool := s.any isDigit

/-- Errors of this file: errNotNumber and conv's errAnyToInvalidIMsg; `panic` is not an error that is returned but a panic, which goes through
all callers just the same. -/
inductive VErr where
  | notNumber | invalidType | panic
  deriving DecidableEq, Repr

mutual
/-- encoding/json/value.go:81-125 `toValue`, and numberToValue (encoding/json/value.go:218-239). -/
def toValue : GoAny → Except VErr JVal
  | .map kvs => mapToValue kvs
  | .slice vs => sliceToValue vs
  | .bool b => .ok (.bool b)
  | .nil => .ok .null
  | .str s => .ok (.str s)
  | .numStr s => if matchNumber s = true then .ok (.num s) else .error .notNumber
  | .namedStr _ => .error .panic
  | .num t => .ok (.num t.text)
  | .int k v => .ok (.num (Conv.integerToString k v))
  | .mapV _ => .error .invalidType
  | .sliceV _ => .error .invalidType
  | .other => .error .invalidType

/-- encoding/json/value.go:146-170 `MapToValue` for a map[string]any, in the order of the entries. -/
def mapToValue (kvs : List (List Char × GoAny)) : Except VErr JVal :=
  match convFields kvs with
  | .error e => .error e
  | .ok r => .ok (.obj r)

/-- encoding/json/value.go:158-164: the loop over the map. -/
def convFields : List (List Char × GoAny) → Except VErr (List (List Char × JVal))
  | [] => .ok []
  | (k, v) :: kvs =>
    match toValue v with
    | .error e => .error e
    | .ok jv => match convFields kvs with
      | .error e => .error e
      | .ok r => .ok ((k, jv) :: r)

/-- encoding/json/value.go:181-205 `SliceToValue` for a []any. -/
def sliceToValue (vs : List GoAny) : Except VErr JVal :=
  match convElems vs with
  | .error e => .error e
  | .ok r => .ok (.arr r)

/-- encoding/json/value.go:193-199: the loop over the slice. -/
def convElems : List GoAny → Except VErr (List JVal)
  | [] => .ok []
  | v :: vs =>
    match toValue v with
    | .error e => .error e
    | .ok jv => match convElems vs with
      | .error e => .error e
      | .ok r => .ok (jv :: r)
end

mutual
/-- encoding/json/value.go:328-343 `ToAny`. -/
def toAny : JVal → GoAny
  | .obj kvs => .map (anyFields kvs)
  | .arr vs => .slice (anyElems vs)
  | .str s => .str s
  | .num s => .numStr s
  | .bool b => .bool b
  | .null => .nil
  | .invalid => .nil

/-- encoding/json/value.go:352-358: the loop of `ToMap`. -/
def anyFields : List (List Char × JVal) → List (List Char × GoAny)
  | [] => []
  | (k, v) :: kvs => (k, toAny v) :: anyFields kvs

/-- encoding/json/value.go:369-375: the loop of `ToSlice`. -/
def anyElems : List JVal → List GoAny
  | [] => []
  | v :: vs => toAny v :: anyElems vs
end

/-! ### Paths -/

/-- One step of a path: an object key or an array index. -/
inductive Step where
  | key (k : List Char) | idx (n : Int)
  deriving DecidableEq, Repr

/-- `[^.\[\]]` (encoding/json/search.go:17). -/
def isKeyChar (c : Char) : Bool := c ≠ '.' && c ≠ '[' && c ≠ ']'

/-- A match of regexPathParts: the submatches key and index (one of them is empty). -/
structure Part where
  key : List Char
  index : List Char
  deriving DecidableEq, Repr

/-- encoding/json/search.go:17 `regexPathParts` `(?:\.([^.\[\]]+)|\[([0-9]+)\])`, tried at the start of the text: the match
and the text after it. The repetitions are greedy; backtracking cannot help, as what may follow cannot be repeated. -/
def matchPart : List Char → Option (Part × List Char)
  | [] => none
  | c :: t =>
    if c = '.' then
      if t.takeWhile isKeyChar = [] then none else some (⟨t.takeWhile isKeyChar, []⟩, t.dropWhile isKeyChar)
    else if c = '[' then
      if t.takeWhile isDigit = [] then none
      else match t.dropWhile isDigit with
        | [] => none
        | d :: r => if d = ']' then some (⟨[], t.takeWhile isDigit⟩, r) else none
    else none

theorem matchPart_length {t : List Char} {p : Part} {r : List Char} (h : matchPart t = some (p, r)) : r.length < t.length := by
  cases t with
  | nil => simp [matchPart] at h
  | cons c t =>
    have h1 := congrArg List.length (List.takeWhile_append_dropWhile (p := isKeyChar) (l := t))
    have h2 := congrArg List.length (List.takeWhile_append_dropWhile (p := isDigit) (l := t))
    simp only [List.length_append] at h1 h2
    unfold matchPart at h
    simp only at h
    split at h
    · split at h
      · cases h
      · cases h; simp; omega
    · split at h
      · split at h
        · cases h
        · split at h
          · cases h
          · split at h
            · cases h
              rename_i heq
              rw [heq] at h2
              simp at h2 ⊢; omega
            · cases h
      · cases h

/-- regexp.ReplaceAllLiteralString and FindAllStringSubmatch: the successive leftmost matches, and the text outside of them. -/
def findAll (t : List Char) : List Part × List Char :=
  match t with
  | [] => ([], [])
  | c :: u =>
    match h : matchPart (c :: u) with
    | some (p, r) => (p :: (findAll r).1, (findAll r).2)
    | none => ((findAll u).1, c :: (findAll u).2)
termination_by t.length
decreasing_by
  all_goals first | exact matchPart_length h | simp

/-- encoding/json/search.go:58-75: the loop converting matches to steps. -/
def partsToSteps : List Part → Option (List Step)
  | [] => some []
  | p :: ps =>
    if p.key ≠ [] then (partsToSteps ps).map (.key p.key :: ·)
    else
      let r := Conv.stringTo .int p.index 0
      if r.failed = true then none else (partsToSteps ps).map (.idx r.target :: ·)

/-- encoding/json/search.go:31-78 `parsePath`; `none` is an error. The full path strings, which only occur in error
messages, are left out. -/
def parsePath (p : List Char) : Option (List Step) :=
  if (findAll p).2 ≠ [] then none
  else if (findAll p).1 = [] then none
  else partsToSteps (findAll p).1

/-- encoding/json/search.go:86-146 `lookupsToFunc`: the function it returns, which is also that of 152-162 `ParsePath`. Slices are indexed with an int, and the index is
not negative, as it was parsed from digits; a negative index would panic in Go and is an error here. -/
def lookup : List Step → JVal → Option JVal
  | [], v => some v
  | .key k :: ss, v =>
    match v with
    | .obj kvs => match kvs.lookup k with
      | some u => lookup ss u
      | none => none
    | _ => none
  | .idx n :: ss, v =>
    match v with
    | .arr vs => if (vs.length : Int) > n then
        match vs[n.toNat]? with
        | some u => lookup ss u
        | none => none
      else none
    | _ => none

/-! ### Writing to a writer that may fail -/

/-- `dst.Write(runes...)`: nil or an error, and the new state of the writer. -/
abbrev W (σ : Type) := σ → List Char → Option Err × σ

mutual
/-- encoding/json/write/write.go:12-27 `Write`. -/
def writeTo {σ : Type} (w : W σ) (s : σ) : JVal → Option Err × σ
  | .obj kvs =>
    match w s ['{'] with
    | (some e, s) => (some e, s)
    | (none, s) => match fieldsTo w s 0 kvs with
      | (some e, s) => (some e, s)
      | (none, s) => w s ['}']
  | .arr vs =>
    match w s ['['] with
    | (some e, s) => (some e, s)
    | (none, s) => match elemsTo w s 0 vs with
      | (some e, s) => (some e, s)
      | (none, s) => w s [']']
  | .str t => w s ('"' :: t ++ ['"'])
  | .num t => w s t
  | .bool b => w s (if b then ['t', 'r', 'u', 'e'] else ['f', 'a', 'l', 's', 'e'])
  | .null => w s ['n', 'u', 'l', 'l']
  | .invalid => w s ['n', 'u', 'l', 'l']

/-- encoding/json/write/write.go:40-57: the loop of `WriteObject`. -/
def fieldsTo {σ : Type} (w : W σ) (s : σ) (i : Nat) : List (List Char × JVal) → Option Err × σ
  | [] => (none, s)
  | (k, v) :: kvs =>
    match w s ((if i > 0 then [','] else []) ++ ['"'] ++ k ++ ['"', ':']) with
    | (some e, s) => (some e, s)
    | (none, s) => match writeTo w s v with
      | (some e, s) => (some e, s)
      | (none, s) => fieldsTo w s (i + 1) kvs

/-- encoding/json/write/write.go:73-83: the loop of `WriteArray`. -/
def elemsTo {σ : Type} (w : W σ) (s : σ) (i : Nat) : List JVal → Option Err × σ
  | [] => (none, s)
  | v :: vs =>
    match (if i > 0 then w s [','] else (none, s)) with
    | (some e, s) => (some e, s)
    | (none, s) => match writeTo w s v with
      | (some e, s) => (some e, s)
      | (none, s) => elemsTo w s (i + 1) vs
end

/-! ### Iterate -/

/-- encoding/json/parse/parse.go:180-246: the iterating function of `parseArray`, after the opening bracket; the state is `first` and the
text not yet read. -/
def arrayCall (fin : Err) : Call (Bool × List Char) JVal := fun (first, t) =>
  if first = true then
    match lex fin t with
    | .error e => some (.error (endErr e eArrValueOrBracket), (first, []))
    | .ok (tok, t) =>
      if tok = .cBracket then some (.error .eoi, (first, t))
      else match parseValue fin tok t with
        | none => none
        | some (.error e) => some (.error e, (first, []))
        | some (.ok (v, t)) => some (.ok v, (false, t))
  else
    match lex fin t with
    | .error e => some (.error (endErr e eArrCommaOrBracket), (first, []))
    | .ok (.comma, t) =>
      match lex fin t with
      | .error e => some (.error (endErr e eArrValue), (first, []))
      | .ok (tok, t) =>
        match parseValue fin tok t with
        | none => none
        | some (.error e) => some (.error e, (first, []))
        | some (.ok (v, t)) => some (.ok v, (first, t))
    | .ok (.cBracket, t) => some (.error .eoi, (first, t))
    | .ok (_, t) => some (.error eArrCommaOrBracket, (first, t))

/-- encoding/json/parse/parse.go:255-294 `Iterate`. -/
def iterate (fin : Err) (t : List Char) : Option (Stream.AnyIter JVal) :=
  match lex fin t with
  | .error e => some (Stream.anyError (endErr e eEmptyDocument))
  | .ok (tok, t) =>
    if tok = .oBrace then
      match parseObject fin [] t with
      | none => none
      | some (.error e) => some (Stream.anyError e)
      | some (.ok (v, _)) => some ⟨_, It.next (singleValueCall v), ofIter false⟩
    else if tok = .oBracket then some ⟨_, It.next (arrayCall fin), ofIter (true, t)⟩
    else some (Stream.anyError eObjOrArr)

end Micro.Json
