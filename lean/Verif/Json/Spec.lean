import Verif.Json.Model
/-
Specification of JSON texts, independent of the lexer and the parser: RFC 8259, with switches for the
deviations of this parser. Only `isDigit`, `isWs` and the type of values are shared with the model.
-/
namespace Micro.Json
open Micro

/-- Deviations from RFC 8259 (`quoteEscape` is what RFC 8259 says). -/
structure Mode where
  /-- the escape \u0022 stands for a quotation mark inside a string -/
  quoteEscape : Bool
  /-- the escape \u0022 ends a string -/
  quoteCloses : Bool
  /-- the low surrogate may come first -/
  swapped : Bool
  /-- a negative number may have leading zeros -/
  minusZero : Bool
  /-- one of ] } , : may stand for a value (which is then invalid) -/
  junk : Bool
  /-- an object may have a comma after the last member -/
  trailingComma : Bool

/-- RFC 8259. -/
def rfc : Mode := ⟨true, false, false, false, false, false⟩
/-- What this parser accepts. -/
def code : Mode := ⟨false, true, true, true, true, true⟩
/-- What both accept: RFC 8259 without the escape \u0022. -/
def common : Mode := ⟨false, false, false, false, false, false⟩

/-- c is the hexadecimal digit d. -/
def HexDigit (c : Char) (d : Nat) : Prop :=
  "0123456789abcdef".toList[d]? = some c ∨ "0123456789ABCDEF".toList[d]? = some c

/-- s are four hexadecimal digits of value n. -/
def Hex4 (s : List Char) (n : Nat) : Prop :=
  ∃ a b c d x y z u, s = [a, b, c, d] ∧ HexDigit a x ∧ HexDigit b y ∧ HexDigit c z ∧ HexDigit d u ∧
    n = ((x * 16 + y) * 16 + z) * 16 + u

/-- The escapes of one character and what they mean. -/
def shortEscapes : List (Char × Char) :=
  [('"', '"'), ('\\', '\\'), ('/', '/'), ('b', '\x08'), ('f', '\x0c'), ('n', '\n'), ('r', '\r'), ('t', '\t')]

def IsHigh (n : Nat) : Prop := 0xD800 ≤ n ∧ n ≤ 0xDBFF
def IsLow (n : Nat) : Prop := 0xDC00 ≤ n ∧ n ≤ 0xDFFF

/-- The code point of a surrogate pair. -/
def pairVal (hi lo : Nat) : Nat := 0x10000 + (hi - 0xD800) * 0x400 + (lo - 0xDC00)

/-- The text between the quotes of a string, and the string it stands for. -/
inductive StrBody (m : Mode) : List Char → List Char → Prop
  | nil : StrBody m [] []
  | plain (c : Char) (s v) : 0x20 ≤ c.toNat → c ≠ '"' → c ≠ '\\' → StrBody m s v → StrBody m (c :: s) (c :: v)
  | short (e c : Char) (s v) : (e, c) ∈ shortEscapes → StrBody m s v → StrBody m ('\\' :: e :: s) (c :: v)
  | uni (h : List Char) (n : Nat) (s v) : Hex4 h n → ¬ IsHigh n → ¬ IsLow n → (n = 0x22 → m.quoteEscape = true) →
      StrBody m s v → StrBody m ('\\' :: 'u' :: h ++ s) (Char.ofNat n :: v)
  | pair (h1 h2 : List Char) (n1 n2 : Nat) (s v) : Hex4 h1 n1 → Hex4 h2 n2 → IsHigh n1 → IsLow n2 →
      StrBody m s v → StrBody m ('\\' :: 'u' :: h1 ++ '\\' :: 'u' :: h2 ++ s) (Char.ofNat (pairVal n1 n2) :: v)
  | swapped (h1 h2 : List Char) (n1 n2 : Nat) (s v) : m.swapped = true → Hex4 h1 n1 → Hex4 h2 n2 → IsLow n1 → IsHigh n2 →
      StrBody m s v → StrBody m ('\\' :: 'u' :: h1 ++ '\\' :: 'u' :: h2 ++ s) (Char.ofNat (pairVal n2 n1) :: v)

/-- What ends a string. -/
def Closer (m : Mode) (q : List Char) : Prop :=
  q = ['"'] ∨ (m.quoteCloses = true ∧ ∃ h, Hex4 h 0x22 ∧ q = '\\' :: 'u' :: h)

/-- A string literal and the string it stands for. -/
def StrLit (m : Mode) (s v : List Char) : Prop :=
  ∃ body q, StrBody m body v ∧ Closer m q ∧ s = '"' :: body ++ q

def AllDigits (ds : List Char) : Prop := ∀ c ∈ ds, isDigit c = true

def IsInt (m : Mode) (neg : Bool) (ds : List Char) : Prop :=
  ds ≠ [] ∧ AllDigits ds ∧ (ds.head? = some '0' → ds = ['0'] ∨ (m.minusZero = true ∧ neg = true))

def IsFrac (f : List Char) : Prop := f = [] ∨ ∃ ds, ds ≠ [] ∧ AllDigits ds ∧ f = '.' :: ds

def IsExp (x : List Char) : Prop :=
  x = [] ∨ ∃ e sign ds, (e = 'e' ∨ e = 'E') ∧ (sign = [] ∨ sign = ['+'] ∨ sign = ['-']) ∧ ds ≠ [] ∧ AllDigits ds ∧
    x = e :: sign ++ ds

/-- A number: -?(0|[1-9][0-9]*)([.][0-9]+)?([eE][+-]?[0-9]+)? -/
def NumLit (m : Mode) (s : List Char) : Prop :=
  ∃ (neg : Bool) (int f x : List Char), IsInt m neg int ∧ IsFrac f ∧ IsExp x ∧
    s = (if neg then ['-'] else []) ++ int ++ f ++ x

def Ws (w : List Char) : Prop := ∀ c ∈ w, isWs c = true

def junkTexts : List (List Char) := [[']'], ['}'], [','], [':']]

mutual
/-- A JSON value (without white space around it) and its meaning. -/
inductive IsVal (m : Mode) : List Char → JVal → Prop
  | null : IsVal m ['n', 'u', 'l', 'l'] .null
  | true : IsVal m ['t', 'r', 'u', 'e'] (.bool true)
  | false : IsVal m ['f', 'a', 'l', 's', 'e'] (.bool false)
  | num (s) : NumLit m s → IsVal m s (.num s)
  | str (s v) : StrLit m s v → IsVal m s (.str v)
  | arr0 (w) : Ws w → IsVal m ('[' :: w ++ [']']) (.arr [])
  | arr (s vs) : IsElems m s vs → (s.dropWhile isWs).head? ≠ some ']' → IsVal m ('[' :: s) (.arr vs)
  | obj (s kvs) : IsMembers m s kvs → (kvs.map Prod.fst).Nodup → IsVal m ('{' :: s) (.obj kvs)
  | junk (s) : m.junk = true → s ∈ junkTexts → IsVal m s .invalid

/-- The elements of a non-empty array up to and including the closing bracket. -/
inductive IsElems (m : Mode) : List Char → List JVal → Prop
  | last (w1 s w2 v) : Ws w1 → IsVal m s v → Ws w2 → IsElems m (w1 ++ s ++ w2 ++ [']']) [v]
  | more (w1 s w2 v r vs) : Ws w1 → IsVal m s v → Ws w2 → IsElems m r vs → IsElems m (w1 ++ s ++ w2 ++ ',' :: r) (v :: vs)

/-- The members of an object up to and including the closing brace. -/
inductive IsMembers (m : Mode) : List Char → List (List Char × JVal) → Prop
  | empty (w) : Ws w → IsMembers m (w ++ ['}']) []
  | last (w1 k key w2 w3 s w4 v) : Ws w1 → StrLit m k key → Ws w2 → Ws w3 → IsVal m s v → Ws w4 →
      IsMembers m (w1 ++ k ++ w2 ++ ':' :: w3 ++ s ++ w4 ++ ['}']) [(key, v)]
  | more (w1 k key w2 w3 s w4 v r kvs) : Ws w1 → StrLit m k key → Ws w2 → Ws w3 → IsVal m s v → Ws w4 →
      IsMembers m r kvs → (kvs = [] → m.trailingComma = true) →
      IsMembers m (w1 ++ k ++ w2 ++ ':' :: w3 ++ s ++ w4 ++ ',' :: r) ((key, v) :: kvs)
end

/-- A JSON document as this package understands it: an object or an array (encoding/json/parse/parse.go:296-299). -/
def IsDoc (m : Mode) (t : List Char) (v : JVal) : Prop :=
  ∃ w s, Ws w ∧ IsVal m s v ∧ (s.head? = some '{' ∨ s.head? = some '[') ∧ t = w ++ s

/-- The next character does not continue the number s. -/
def NumStop (s rest : List Char) : Prop :=
  ∀ c, rest.head? = some c → isDigit c = false ∧ (c = '.' → '.' ∈ s ∨ 'e' ∈ s ∨ 'E' ∈ s) ∧
    (c = 'e' ∨ c = 'E' → 'e' ∈ s ∨ 'E' ∈ s)

end Micro.Json
