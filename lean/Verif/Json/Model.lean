import Verif.Iter.Model
import Verif.Digits
/-
Model of encoding/json/parse (lexer and parser) and encoding/json/write.

The rune iterator `iter.Iter[rune]` is modelled by the list of runes it has still to deliver, followed by the
error `fin` it then reports for ever (iter.EOI at the end of the text, or the error of the reader). Unread puts a
rune back at the front of that list. C24 (`c24_next_unread`) proves that this is how every iterator behaves.
Runes are Unicode scalar values (`Char`), so texts are what OfReaderAsRunes delivers for valid UTF-8 (C29).
After a lexing error the token iterator never calls lex again (C25), so an error discards the text.
Error messages carry no data in the model, only which message it is.
-/
namespace Micro.Json
open Micro Micro.Iter

/-! ### Errors: encoding/json/parse/lex.go:31-42 and encoding/json/parse/parse.go:16-27 -/

abbrev eIncompleteString : Err := .user 1
abbrev eControlChar : Err := .user 2
abbrev eIncompleteEscape : Err := .user 3
abbrev eIllegalEscape : Err := .user 4
abbrev eOneSurrogate : Err := .user 5
abbrev eSurrogateNonSurrogate : Err := .user 6
abbrev eSurrogateDecode : Err := .user 7
abbrev eInvalidNumber : Err := .user 8
abbrev eInvalidBooleanNull : Err := .user 9
abbrev eInvalidChar : Err := .user 10
abbrev eObjKeyOrBrace : Err := .user 11
abbrev eObjDuplicate : Err := .user 12
abbrev eObjColon : Err := .user 13
abbrev eObjValue : Err := .user 14
abbrev eObjCommaOrBrace : Err := .user 15
abbrev eArrValue : Err := .user 16
abbrev eArrValueOrBracket : Err := .user 17
abbrev eArrCommaOrBracket : Err := .user 18
abbrev eEmptyDocument : Err := .user 19
abbrev eObjOrArr : Err := .user 20

/-- encoding/json/parse/lex.go:13-61: a token with its type; string and number tokens carry their value. -/
inductive Tok where
  | oBracket | cBracket | oBrace | cBrace | comma | colon
  | str (s : List Char) | num (s : List Char) | bool (b : Bool) | null
  deriving DecidableEq, Repr

/-- `if err == iter.EOI { return msg }; return err`, the pattern at encoding/json/parse/lex.go:104-107 and the
other calls of Next: at the end of the text (`fin = EOI`) the given message, else the reader's error. -/
def endErr (fin msg : Err) : Err := if fin = .eoi then msg else fin

/-! ### Strings -/

/-- encoding/json/parse/lex.go:83-91: the value of a hex digit. -/
def hexVal (c : Char) : Option Nat :=
  if '0' ≤ c ∧ c ≤ '9' then some (c.toNat - '0'.toNat)
  else if 'A' ≤ c ∧ c ≤ 'F' then some (c.toNat - 'A'.toNat + 10)
  else if 'a' ≤ c ∧ c ≤ 'f' then some (c.toNat - 'a'.toNat + 10)
  else none

/-- encoding/json/parse/lex.go:71-95 `readUTF16Hex`: `n` digits left, `v` the value so far. -/
def readHex (fin : Err) : Nat → Nat → List Char → Except Err (Nat × List Char)
  | 0, v, t => .ok (v, t)
  | _ + 1, _, [] => .error (endErr fin eIncompleteEscape)
  | n + 1, v, c :: t =>
    match hexVal c with
    | some d => readHex fin n (v * 16 + d) t
    | none => .error eIllegalEscape

/-- unicode/utf16.IsSurrogate. -/
def isSurrogate (r : Nat) : Bool := 0xD800 ≤ r && r < 0xE000

/-- unicode/utf16.DecodeRune. -/
def decodeRune (r1 r2 : Nat) : Nat :=
  if 0xD800 ≤ r1 ∧ r1 < 0xDC00 ∧ 0xDC00 ≤ r2 ∧ r2 < 0xE000 then (r1 - 0xD800) * 1024 + (r2 - 0xDC00) + 0x10000
  else 0xFFFD

/-- encoding/json/parse/lex.go:193-199: the pair decoded in either order. -/
def decodePair (h1 h2 : Nat) : Except Err Nat :=
  if decodeRune h1 h2 = 0xFFFD then
    if decodeRune h2 h1 = 0xFFFD then .error eSurrogateDecode else .ok (decodeRune h2 h1)
  else .ok (decodeRune h1 h2)

/-- encoding/json/parse/lex.go:154-202: what follows \uXXXX of value h. -/
def lexSurrogate (fin : Err) (h : Nat) (t : List Char) : Except Err (Nat × List Char) :=
  if isSurrogate h = true then
    match t with
    | [] => .error (endErr fin eOneSurrogate)
    | c :: t =>
      if c ≠ '\\' then .error eOneSurrogate
      else match t with
        | [] => .error (endErr fin eOneSurrogate)
        | c :: t =>
          if c ≠ 'u' then .error eOneSurrogate
          else match readHex fin 4 0 t with
            | .error e => .error e
            | .ok (h2, t) =>
              if isSurrogate h2 = false then .error eSurrogateNonSurrogate
              else match decodePair h h2 with
                | .error e => .error e
                | .ok r => .ok (r, t)
  else .ok (h, t)

/-- encoding/json/parse/lex.go:124-142: the one character escapes other than `\"` and `\u`. -/
def shortEscape (c : Char) : Option Char :=
  if c = '\\' then some '\\' else if c = '/' then some '/' else if c = 'b' then some '\x08'
  else if c = 'f' then some '\x0c' else if c = 'n' then some '\n' else if c = 'r' then some '\r'
  else if c = 't' then some '\t' else none

/-- encoding/json/parse/lex.go:117-206: the escape after a backslash. The Bool tells that the rune has been appended
and the loop continues (only for `\"`); otherwise the code after the switch looks at the rune. -/
def lexEscape (fin : Err) : List Char → Except Err ((Bool × Char) × List Char)
  | [] => .error (endErr fin eIncompleteEscape)
  | c :: t =>
    if c = '"' then .ok ((true, '"'), t)
    else match shortEscape c with
      | some x => .ok ((false, x), t)
      | none =>
        if c = 'u' then
          match readHex fin 4 0 t with
          | .error e => .error e
          | .ok (h, t) =>
            match lexSurrogate fin h t with
            | .error e => .error e
            | .ok (r, t) => .ok ((false, Char.ofNat r), t)
        else .error eIllegalEscape

theorem readHex_length {fin : Err} {n v : Nat} {t : List Char} {h : Nat} {t' : List Char}
    (e : readHex fin n v t = .ok (h, t')) : t'.length + n = t.length := by
  induction n generalizing v t with
  | zero => simp [readHex] at e; rw [e.2]; rfl
  | succ n ih =>
    cases t with
    | nil => simp [readHex] at e
    | cons c t =>
      unfold readHex at e
      cases hx : hexVal c with
      | none => rw [hx] at e; simp at e
      | some d => rw [hx] at e; have := ih e; simp; omega

theorem lexSurrogate_length {fin : Err} {h : Nat} {t : List Char} {r : Nat} {t' : List Char}
    (e : lexSurrogate fin h t = .ok (r, t')) : t'.length ≤ t.length := by
  unfold lexSurrogate at e
  split at e
  · split at e
    · cases e
    · split at e
      · cases e
      · split at e
        · cases e
        · split at e
          · cases e
          · split at e
            · cases e
            · rename_i heq
              have := readHex_length heq
              split at e
              · cases e
              · split at e
                · cases e
                · cases e; simp; omega
  · cases e; exact Nat.le_refl _

theorem lexEscape_length {fin : Err} {t : List Char} {x : Bool × Char} {t' : List Char}
    (e : lexEscape fin t = .ok (x, t')) : t'.length < t.length := by
  unfold lexEscape at e
  split at e
  · cases e
  · split at e
    · cases e; simp
    · split at e
      · cases e; simp
      · split at e
        · split at e
          · cases e
          · rename_i heq
            have := readHex_length heq
            split at e
            · cases e
            · rename_i heq2
              have := lexSurrogate_length heq2
              cases e; simp; omega
        · cases e

/-- encoding/json/parse/lex.go:102-214: the loop of `lexString`; `str` is the string so far. -/
def lexStrLoop (fin : Err) (str : List Char) (t : List Char) : Except Err (List Char × List Char) :=
  match t with
  | [] => .error (endErr fin eIncompleteString)
  | c :: t =>
    if c < ' ' then .error eControlChar
    else if c = '\\' then
      match h : lexEscape fin t with
      | .error e => .error e
      | .ok ((cont, x), t') =>
        if cont = false ∧ x = '"' then .ok (str, t') else lexStrLoop fin (str ++ [x]) t'
    else if c = '"' then .ok (str, t)
    else lexStrLoop fin (str ++ [c]) t
termination_by t.length
decreasing_by
  · have := lexEscape_length h; simp; omega
  · simp

/-- encoding/json/parse/lex.go:65-217 `lexString`; `t` is the text after the opening quote. -/
def lexString (fin : Err) (t : List Char) : Except Err (Tok × List Char) :=
  match lexStrLoop fin [] t with
  | .error e => .error e
  | .ok (s, t) => .ok (.str s, t)

/-! ### Numbers -/

/-- encoding/json/parse/lex.go:345-365: digits of the exponent. -/
def numExpLoop (fin : Err) (str : List Char) (haveDigit : Bool) : List Char → Except Err (List Char × List Char)
  | [] => if fin = .eoi ∧ haveDigit = true then .ok (str, []) else .error (endErr fin eInvalidNumber)
  | c :: t =>
    if isDigit c = true then numExpLoop fin (str ++ [c]) true t
    else if haveDigit = true then .ok (str, c :: t)
    else .error eInvalidNumber

/-- encoding/json/parse/lex.go:331-343: after e or E. -/
def numExp (fin : Err) (str : List Char) : List Char → Except Err (List Char × List Char)
  | [] => .error (endErr fin eInvalidNumber)
  | c :: t => if c = '+' ∨ c = '-' then numExpLoop fin (str ++ [c]) false t else numExpLoop fin str false (c :: t)

/-- encoding/json/parse/lex.go:293-329: after the dot. -/
def numFrac (fin : Err) (str : List Char) (haveDigit : Bool) : List Char → Except Err (List Char × List Char)
  | [] => if fin = .eoi then (if haveDigit = true then .ok (str, []) else .error eInvalidNumber) else .error fin
  | c :: t =>
    if isDigit c = true then numFrac fin (str ++ [c]) true t
    else if c = 'e' ∨ c = 'E' then
      if haveDigit = true then numExp fin (str ++ [c]) t else .error eInvalidNumber
    else if haveDigit = true then .ok (str, c :: t)
    else .error eInvalidNumber

/-- encoding/json/parse/lex.go:249-290: the integer digits. -/
def numInt (fin : Err) (str : List Char) (haveDigit leadingZero : Bool) : List Char → Except Err (List Char × List Char)
  | [] => if fin = .eoi then (if haveDigit = true then .ok (str, []) else .error eInvalidNumber) else .error fin
  | c :: t =>
    if isDigit c = true then
      if leadingZero = true then .error eInvalidNumber else numInt fin (str ++ [c]) true leadingZero t
    else if c = '.' then
      if haveDigit = true then numFrac fin (str ++ [c]) false t else .error eInvalidNumber
    else if c = 'e' ∨ c = 'E' then
      if haveDigit = true then numExp fin (str ++ [c]) t else .error eInvalidNumber
    else if haveDigit = true then .ok (str, c :: t)
    else .error eInvalidNumber

/-- encoding/json/parse/lex.go:221-368 `lexNumber`; `c` is the first rune, a minus or a digit. -/
def lexNumber (fin : Err) (c : Char) (t : List Char) : Except Err (Tok × List Char) :=
  match numInt fin [c] (decide (c ≠ '-')) (decide (c = '0')) t with
  | .error e => .error e
  | .ok (s, t) => .ok (.num s, t)

/-! ### true, false, null; the lexer -/

/-- `(val >= 'a') && (val <= 'z')` (encoding/json/parse/lex.go:389). -/
def isLower (c : Char) : Bool := decide ('a' ≤ c ∧ c ≤ 'z')

/-- encoding/json/parse/lex.go:371-409 `lexBooleanNull`; `t` starts with the first letter. -/
def lexBooleanNull (fin : Err) (t : List Char) : Except Err (Tok × List Char) :=
  let str := t.takeWhile isLower
  let rest := t.dropWhile isLower
  if rest = [] ∧ fin ≠ .eoi then .error fin
  else if str = ['t', 'r', 'u', 'e'] then .ok (.bool true, rest)
  else if str = ['f', 'a', 'l', 's', 'e'] then .ok (.bool false, rest)
  else if str = ['n', 'u', 'l', 'l'] then .ok (.null, rest)
  else .error eInvalidBooleanNull

/-- White space (encoding/json/parse/lex.go:431). -/
def isWs (c : Char) : Bool := c == ' ' || c == '\n' || c == '\r' || c == '\t'

/-- encoding/json/parse/lex.go:413-463 `lex`. Reading and putting back the first rune (lines 416-422) only detects the
end of the text, which the loop skipping white space detects as well. -/
def lex (fin : Err) (t : List Char) : Except Err (Tok × List Char) :=
  match t.dropWhile isWs with
  | [] => .error fin
  | c :: t =>
    if c = '[' then .ok (.oBracket, t)
    else if c = ']' then .ok (.cBracket, t)
    else if c = '{' then .ok (.oBrace, t)
    else if c = '}' then .ok (.cBrace, t)
    else if c = ',' then .ok (.comma, t)
    else if c = ':' then .ok (.colon, t)
    else if c = '"' then lexString fin t
    else if c = '-' ∨ isDigit c = true then lexNumber fin c t
    else if c = 't' ∨ c = 'f' ∨ c = 'n' then lexBooleanNull fin (c :: t)
    else .error eInvalidChar

/-! ### Values and the parser -/

/-- encoding/json/value.go:31-78: a Value by its Type; an object is the list of its entries, with distinct keys, in the
order in which the map iterates (so a theorem about all lists is a theorem about all iteration orders). -/
inductive JVal where
  | invalid | null
  | bool (b : Bool)
  | num (s : List Char)
  | str (s : List Char)
  | arr (vs : List JVal)
  | obj (kvs : List (List Char × JVal))

/-- What a parsing function returns: an error, or a result and the rest of the text. `none`: it does not return. -/
abbrev PRes := Option (Except Err (JVal × List Char))

mutual
/-- encoding/json/parse/parse.go:36-65 `parseValue`, given its first token: every caller reads it to see that there is one,
puts it back with Unread, and parseValue reads it again. MustNumberToValue does not panic: a number token
contains a digit, so numberStringRegex finds a match (`tok_match` in Verif/Json/CodeLemmas.lean). -/
def parseValue (fin : Err) (tok : Tok) (t : List Char) : PRes :=
  match tok with
  | .oBrace => parseObject fin [] t
  | .oBracket => parseArrFirst fin t
  | .str s => some (.ok (.str s, t))
  | .num s => some (.ok (.num s, t))
  | .bool b => some (.ok (.bool b, t))
  | .null => some (.ok (.null, t))
  | _ => some (.ok (.invalid, t))
partial_fixpoint

/-- encoding/json/parse/parse.go:85-162: the loop of `parseObject`, after the opening brace; `obj` is the object so far. -/
def parseObject (fin : Err) (obj : List (List Char × JVal)) (t : List Char) : PRes :=
  match lex fin t with
  | .error e => some (.error (endErr e eObjKeyOrBrace))
  | .ok (.cBrace, t) => some (.ok (.obj obj, t))
  | .ok (.str k, t) =>
    if k ∈ obj.map Prod.fst then some (.error eObjDuplicate)
    else match lex fin t with
      | .error e => some (.error (endErr e eObjColon))
      | .ok (.colon, t) =>
        match lex fin t with
        | .error e => some (.error (endErr e eObjValue))
        | .ok (tok, t) =>
          parseValue fin tok t >>= fun r => match r with
          | .error e => some (.error e)
          | .ok (v, t) =>
            match lex fin t with
            | .error e => some (.error (endErr e eObjCommaOrBrace))
            | .ok (.comma, t) => parseObject fin (obj ++ [(k, v)]) t
            | .ok (.cBrace, t) => some (.ok (.obj (obj ++ [(k, v)]), t))
            | .ok _ => some (.error eObjCommaOrBrace)
      | .ok _ => some (.error eObjColon)
  | .ok _ => some (.error eObjKeyOrBrace)
partial_fixpoint

/-- encoding/json/parse/parse.go:170-209: the first call of the iterating function of `parseArray`, and the calls that
stream.ReduceToSlice (stream/stream.go:360-394) then makes until EOI. -/
def parseArrFirst (fin : Err) (t : List Char) : PRes :=
  match lex fin t with
  | .error e => some (.error (endErr e eArrValueOrBracket))
  | .ok (tok, t) =>
    if tok = .cBracket then some (.ok (.arr [], t))
    else parseValue fin tok t >>= fun r => match r with
      | .error e => some (.error e)
      | .ok (v, t) => parseArrRest fin [v] t
partial_fixpoint

/-- encoding/json/parse/parse.go:211-245: the further calls; `vs` are the elements so far. -/
def parseArrRest (fin : Err) (vs : List JVal) (t : List Char) : PRes :=
  match lex fin t with
  | .error e => some (.error (endErr e eArrCommaOrBracket))
  | .ok (.comma, t) =>
    match lex fin t with
    | .error e => some (.error (endErr e eArrValue))
    | .ok (tok, t) =>
      parseValue fin tok t >>= fun r => match r with
      | .error e => some (.error e)
      | .ok (v, t) => parseArrRest fin (vs ++ [v]) t
  | .ok (.cBracket, t) => some (.ok (.arr vs, t))
  | .ok _ => some (.error eArrCommaOrBracket)
partial_fixpoint
end

/-- encoding/json/parse/parse.go:300-332 `Parse`. The unread rest of the text is returned as well, to see what was consumed. -/
def parse (fin : Err) (t : List Char) : PRes :=
  match lex fin t with
  | .error e => some (.error (endErr e eEmptyDocument))
  | .ok (tok, t) =>
    if tok = .oBrace ∨ tok = .oBracket then parseValue fin tok t else some (.error eObjOrArr)

/-! ### Writing -/

mutual
/-- encoding/json/write/write.go:12-27 `Write`: the runes passed to the writer, call by call. -/
def writeChunks : JVal → List (List Char)
  | .obj kvs => ['{'] :: writeFields true kvs ++ [['}']]
  | .arr vs => ['['] :: writeElems true vs ++ [[']']]
  | .str s => [['"'] ++ s ++ ['"']]
  | .num s => [s]
  | .bool b => [if b then ['t', 'r', 'u', 'e'] else ['f', 'a', 'l', 's', 'e']]
  | .null => [['n', 'u', 'l', 'l']]
  | .invalid => [['n', 'u', 'l', 'l']]

/-- encoding/json/write/write.go:40-57: the loop of `WriteObject`; `first` is `i == 0`. -/
def writeFields : Bool → List (List Char × JVal) → List (List Char)
  | _, [] => []
  | first, (k, v) :: kvs =>
    ((if first then [] else [',']) ++ ['"'] ++ k ++ ['"', ':']) :: writeChunks v ++ writeFields false kvs

/-- encoding/json/write/write.go:73-83: the loop of `WriteArray`. -/
def writeElems : Bool → List JVal → List (List Char)
  | _, [] => []
  | first, v :: vs => (if first then [] else [[',']]) ++ writeChunks v ++ writeElems false vs
end

/-- The text written when no call of the writer fails. -/
def written (v : JVal) : List Char := (writeChunks v).flatten

end Micro.Json
