import Verif.Json.ValueModel
import Verif.Stream.ShareModel
/-
The lexer and the parser of encoding/json/parse as the code is written: on an iterator of runes with Next and Unread, an iterator of tokens made of it
by OfIter, and iterators of array elements that share the iterator of tokens. Verif/Json/Model.lean is the same on the text that is still to be
read; Verif/Json/CodeProps.lean proves that both give the same results.

`ι` is the state of the iterator of runes, `nx` its method Next and `un` its method Unread. A rune is a number (an int32 that is not negative);
string(runes) replaces the runes that have no UTF-8 encoding by U+FFFD (`writeRune`). `none`: does not return, or a panic.
-/
namespace Micro.Json
open Micro Micro.Iter Micro.Stream

/-- A rune as a character of a Go string. -/
def ch (r : Nat) : Char := Char.ofNat (writeRune r)

/-- `string(str)` for a []rune, encoding/json/parse/lex.go:216. -/
def goStr (str : List Nat) : List Char := str.map ch

section
variable {ι : Type} (nx : Call ι Nat) (un : ι → Nat → ι)

/-! ### Strings -/

/-- encoding/json/parse/lex.go:71-95 `readUTF16Hex`; `n` digits are still to be read, `v` is hexVal. -/
def gReadHex : Nat → Nat → ι → Option (Except Err Nat × ι)
  | 0, v, i => some (.ok v, i)
  | n + 1, v, i =>
    match nx i with
    | none => none
    | some (.error e, i) => some (.error (if e = .eoi then eIncompleteEscape else e), i)
    | some (.ok val, i) =>
      if 0x30 ≤ val ∧ val ≤ 0x39 then gReadHex n (v * 16 + val - 0x30) i
      else if 0x41 ≤ val ∧ val ≤ 0x46 then gReadHex n (v * 16 + val - 0x41 + 10) i
      else if 0x61 ≤ val ∧ val ≤ 0x66 then gReadHex n (v * 16 + val - 0x61 + 10) i
      else some (.error eIllegalEscape, i)

/-- encoding/json/parse/lex.go:154-202: what follows \uXXXX of value hexVal. -/
def gSurrogate (hexVal : Nat) (i : ι) : Option (Except Err Nat × ι) :=
  if isSurrogate hexVal = true then
    match nx i with
    | none => none
    | some (.error e, i) => some (.error (if e = .eoi then eOneSurrogate else e), i)
    | some (.ok val, i) =>
      if val ≠ 0x5C then some (.error eOneSurrogate, i)
      else match nx i with
        | none => none
        | some (.error e, i) => some (.error (if e = .eoi then eOneSurrogate else e), i)
        | some (.ok val, i) =>
          if val ≠ 0x75 then some (.error eOneSurrogate, i)
          else match gReadHex nx 4 0 i with
            | none => none
            | some (.error e, i) => some (.error e, i)
            | some (.ok hexVal2, i) =>
              if isSurrogate hexVal2 = false then some (.error eSurrogateNonSurrogate, i)
              else if decodeRune hexVal hexVal2 = 0xFFFD then
                if decodeRune hexVal2 hexVal = 0xFFFD then some (.error eSurrogateDecode, i)
                else some (.ok (decodeRune hexVal2 hexVal), i)
              else some (.ok (decodeRune hexVal hexVal2), i)
  else some (.ok hexVal, i)

/-- encoding/json/parse/lex.go:117-206: after a backslash; the Bool tells that the loop continues at line 128. -/
def gEscape (i : ι) : Option (Except Err (Bool × Nat) × ι) :=
  match nx i with
  | none => none
  | some (.error e, i) => some (.error (if e = .eoi then eIncompleteEscape else e), i)
  | some (.ok val, i) =>
    if val = 0x22 then some (.ok (true, 0x22), i)
    else if val = 0x5C then some (.ok (false, 0x5C), i)
    else if val = 0x2F then some (.ok (false, 0x2F), i)
    else if val = 0x62 then some (.ok (false, 0x08), i)
    else if val = 0x66 then some (.ok (false, 0x0C), i)
    else if val = 0x6E then some (.ok (false, 0x0A), i)
    else if val = 0x72 then some (.ok (false, 0x0D), i)
    else if val = 0x74 then some (.ok (false, 0x09), i)
    else if val = 0x75 then
      match gReadHex nx 4 0 i with
      | none => none
      | some (.error e, i) => some (.error e, i)
      | some (.ok hexVal, i) =>
        match gSurrogate nx hexVal i with
        | none => none
        | some (.error e, i) => some (.error e, i)
        | some (.ok val, i) => some (.ok (false, val), i)
    else some (.error eIllegalEscape, i)

/-- encoding/json/parse/lex.go:102-216: the loop of `lexString`. -/
def gStrLoop (str : List Nat) (i : ι) : Option (Except Err Tok × ι) :=
  match nx i with
  | none => none
  | some (.error e, i) => some (.error (if e = .eoi then eIncompleteString else e), i)
  | some (.ok val, i) =>
    if val < 0x20 then some (.error eControlChar, i)
    else if val = 0x5C then
      match gEscape nx i with
      | none => none
      | some (.error e, i) => some (.error e, i)
      | some (.ok (true, val), i) => gStrLoop (str ++ [val]) i
      | some (.ok (false, val), i) => if val = 0x22 then some (.ok (.str (goStr str)), i) else gStrLoop (str ++ [val]) i
    else if val = 0x22 then some (.ok (.str (goStr str)), i)
    else gStrLoop (str ++ [val]) i
partial_fixpoint

/-- encoding/json/parse/lex.go:65-217 `lexString`: what Next returns for the opening quote is dropped. -/
def gLexString (i : ι) : Option (Except Err Tok × ι) :=
  match nx i with
  | none => none
  | some (_, i) => gStrLoop nx [] i

/-! ### Numbers -/

/-- encoding/json/parse/lex.go:229-237 `die`, given the last error. -/
def gDie (err : Option Err) (i : ι) : Option (Except Err Tok × ι) :=
  match err with
  | none => some (.error eInvalidNumber, i)
  | some e => some (.error (if e = .eoi then eInvalidNumber else e), i)

/-- encoding/json/parse/lex.go:238-243 `tok`; `val` is the rune read last, if the last Next returned one. -/
def gTok (str : List Nat) (val : Option Nat) (i : ι) : Option (Except Err Tok × ι) :=
  match val with
  | none => some (.ok (.num (goStr str)), i)
  | some val => some (.ok (.num (goStr str)), un i val)

/-- encoding/json/parse/lex.go:345-367: digits of the exponent. -/
def gExpLoop (str : List Nat) (haveDigit : Bool) (i : ι) : Option (Except Err Tok × ι) :=
  match nx i with
  | none => none
  | some (.error e, i) => if e = .eoi ∧ haveDigit = true then gTok un str none i else gDie (some e) i
  | some (.ok val, i) =>
    if 0x30 ≤ val ∧ val ≤ 0x39 then gExpLoop (str ++ [val]) true i
    else if haveDigit = true then gTok un str (some val) i
    else gDie none i
partial_fixpoint

/-- encoding/json/parse/lex.go:331-343: after e or E. -/
def gExp (str : List Nat) (i : ι) : Option (Except Err Tok × ι) :=
  match nx i with
  | none => none
  | some (.error e, i) => gDie (some e) i
  | some (.ok val, i) =>
    if val = 0x2B ∨ val = 0x2D then gExpLoop nx un (str ++ [val]) false i
    else gExpLoop nx un str false (un i val)

/-- encoding/json/parse/lex.go:293-329: after the dot. -/
def gFrac (str : List Nat) (haveDigit : Bool) (i : ι) : Option (Except Err Tok × ι) :=
  match nx i with
  | none => none
  | some (.error e, i) =>
    if e = .eoi then if haveDigit = false then gDie (some e) i else gTok un str none i
    else some (.error e, i)
  | some (.ok val, i) =>
    if 0x30 ≤ val ∧ val ≤ 0x39 then gFrac (str ++ [val]) true i
    else if val = 0x65 ∨ val = 0x45 then
      if haveDigit = true then gExp nx un (str ++ [val]) i else gDie none i
    else if haveDigit = true then gTok un str (some val) i
    else gDie none i
partial_fixpoint

/-- encoding/json/parse/lex.go:249-290: the integer digits. -/
def gInt (str : List Nat) (haveDigit leadingZero : Bool) (i : ι) : Option (Except Err Tok × ι) :=
  match nx i with
  | none => none
  | some (.error e, i) =>
    if e = .eoi then if haveDigit = false then gDie (some e) i else gTok un str none i
    else some (.error e, i)
  | some (.ok val, i) =>
    if 0x30 ≤ val ∧ val ≤ 0x39 then
      if leadingZero = true then gDie none i else gInt (str ++ [val]) true leadingZero i
    else if val = 0x2E then
      if haveDigit = true then gFrac nx un (str ++ [val]) false i else gDie none i
    else if val = 0x65 ∨ val = 0x45 then
      if haveDigit = true then gExp nx un (str ++ [val]) i else gDie none i
    else if haveDigit = true then gTok un str (some val) i
    else gDie none i
partial_fixpoint

/-- encoding/json/parse/lex.go:221-368 `lexNumber`; the caller has put the first rune back. (Were Next to return an error here, val would be 0.) -/
def gLexNumber (i : ι) : Option (Except Err Tok × ι) :=
  match nx i with
  | none => none
  | some (r, i) =>
    let val := match r with | .ok val => val | .error _ => 0
    gInt nx un [val] (val != 0x2D) (val == 0x30) i

/-! ### true, false, null; lex -/

/-- encoding/json/parse/lex.go:398-408: the token for the letters read. -/
def gWord (str : List Nat) (i : ι) : Option (Except Err Tok × ι) :=
  if goStr str = "true".toList then some (.ok (.bool true), i)
  else if goStr str = "false".toList then some (.ok (.bool false), i)
  else if goStr str = "null".toList then some (.ok .null, i)
  else some (.error eInvalidBooleanNull, i)

/-- encoding/json/parse/lex.go:371-409 `lexBooleanNull`, with the letters read so far. -/
def gLexBooleanNull (str : List Nat) (i : ι) : Option (Except Err Tok × ι) :=
  match nx i with
  | none => none
  | some (.error e, i) => if e = .eoi then gWord str i else some (.error e, i)
  | some (.ok val, i) =>
    if 0x61 ≤ val ∧ val ≤ 0x7A then gLexBooleanNull (str ++ [val]) i
    else gWord str (un i val)
partial_fixpoint

/-- encoding/json/parse/lex.go:437-462: the first rune that is not white space. -/
def gLexAt (val : Nat) (i : ι) : Option (Except Err Tok × ι) :=
  if val = 0x5B then some (.ok .oBracket, i)
  else if val = 0x5D then some (.ok .cBracket, i)
  else if val = 0x7B then some (.ok .oBrace, i)
  else if val = 0x7D then some (.ok .cBrace, i)
  else if val = 0x2C then some (.ok .comma, i)
  else if val = 0x3A then some (.ok .colon, i)
  else if val = 0x22 then gLexString nx (un i val)
  else if val = 0x2D ∨ (0x30 ≤ val ∧ val ≤ 0x39) then gLexNumber nx un (un i val)
  else if val = 0x74 ∨ val = 0x66 ∨ val = 0x6E then gLexBooleanNull nx un [] (un i val)
  else some (.error eInvalidChar, i)

/-- encoding/json/parse/lex.go:425-434: skipping white space, and what follows. -/
def gSkip (i : ι) : Option (Except Err Tok × ι) :=
  match nx i with
  | none => none
  | some (.error e, i) => some (.error e, i)
  | some (.ok val, i) =>
    if val = 0x20 ∨ val = 0x0A ∨ val = 0x0D ∨ val = 0x09 then gSkip i
    else gLexAt nx un val i
partial_fixpoint

/-- encoding/json/parse/lex.go:413-463 `lex`; 466-470 `lexer` is OfIter of it. -/
def gLex : Call ι Tok := fun i =>
  match nx i with
  | none => none
  | some (.error e, i) => some (.error e, i)
  | some (.ok val, i) => gSkip nx un (un i val)

end

/-! ### The parser, on an iterator of tokens -/

open Lean.Order in
/-- Next of a shared iterator depends monotonically on its function (for the recursive definitions below). -/
@[partial_fixpoint_monotone]
theorem nextOn_mono {ℓ η α : Type} {γ : Sort _} [PartialOrder γ] (f : γ → Call (ℓ × η) α) (hf : monotone f) (it : It ℓ α) (h : η) :
    monotone (fun x => nextOn (f x) it h) := by
  unfold nextOn
  split
  · exact monotone_const _
  · split
    · rename_i l _
      intro x y hxy
      have h1 : f x (l, h) ⊑ f y (l, h) := hf x y hxy (l, h)
      simp only []
      generalize f x (l, h) = a at h1
      generalize f y (l, h) = b at h1
      cases h1 with
      | bot => exact FlatOrder.rel.bot
      | refl => exact FlatOrder.rel.refl
    · exact monotone_const _

section
variable {κ : Type} (lx : Call κ Tok)

mutual
/-- encoding/json/parse/parse.go:36-65 `parseValue`. The error of Next is not looked at; the token is then the zero value, whose type is tOBracket. -/
def gValue (it : It κ Tok) : Option (Except Err JVal × It κ Tok) :=
  match It.next lx it with
  | none => none
  | some (r, it) =>
    match (match r with | .ok tok => tok | .error _ => .oBracket) with
    | .oBrace =>
      match It.next lx (it.unread .oBrace) with
      | none => none
      | some (_, it) => gObject [] it
    | .oBracket =>
      gReduce [] (ofIter true) (it.unread .oBracket) >>= fun r => match r with
      | (.error e, it) => some (.error e, it)
      | (.ok slc, it) => some (.ok (.arr slc), it)
    | .str s => some (.ok (.str s), it)
    | .num s => if matchNumber s = true then some (.ok (.num s), it) else none
    | .bool b => some (.ok (.bool b), it)
    | .null => some (.ok .null, it)
    | _ => some (.ok .invalid, it)
partial_fixpoint

/-- encoding/json/parse/parse.go:85-162: the loop of `parseObject`, after the opening brace has been dropped (line 71). -/
def gObject (obj : List (List Char × JVal)) (it : It κ Tok) : Option (Except Err JVal × It κ Tok) :=
  match It.next lx it with
  | none => none
  | some (.error e, it) => some (.error (if e = .eoi then eObjKeyOrBrace else e), it)
  | some (.ok .cBrace, it) => some (.ok (.obj obj), it)
  | some (.ok (.str key), it) =>
    if (obj.lookup key).isSome then some (.error eObjDuplicate, it)
    else match It.next lx it with
      | none => none
      | some (.error e, it) => some (.error (if e = .eoi then eObjColon else e), it)
      | some (.ok .colon, it) =>
        match It.next lx it with
        | none => none
        | some (.error e, it) => some (.error (if e = .eoi then eObjValue else e), it)
        | some (.ok valueTok, it) =>
          gValue (it.unread valueTok) >>= fun r => match r with
          | (.error e, it) => some (.error e, it)
          | (.ok value, it) =>
            match It.next lx it with
            | none => none
            | some (.error e, it) => some (.error (if e = .eoi then eObjCommaOrBrace else e), it)
            | some (.ok .comma, it) => gObject (obj ++ [(key, value)]) it
            | some (.ok .cBrace, it) => some (.ok (.obj (obj ++ [(key, value)])), it)
            | some (.ok _, it) => some (.error eObjCommaOrBrace, it)
      | some (.ok _, it) => some (.error eObjColon, it)
  | some (.ok _, it) => some (.error eObjKeyOrBrace, it)
partial_fixpoint

/-- encoding/json/parse/parse.go:180-246: the iterating function of `parseArray`; it captures `first` and uses the iterator of tokens. -/
def gArray (p : Bool × It κ Tok) : Option (Except Err JVal × Bool × It κ Tok) :=
  if p.1 = true then
    match It.next lx p.2 with
    | none => none
    | some (_, it) =>
      match It.next lx it with
      | none => none
      | some (.error e, it) => some (.error (if e = .eoi then eArrValueOrBracket else e), true, it)
      | some (.ok .cBracket, it) => some (.error .eoi, true, it)
      | some (.ok tok, it) =>
        gValue (it.unread tok) >>= fun r => match r with
        | (.error e, it) => some (.error e, true, it)
        | (.ok value, it) => some (.ok value, false, it)
  else
    match It.next lx p.2 with
    | none => none
    | some (.error e, it) => some (.error (if e = .eoi then eArrCommaOrBracket else e), false, it)
    | some (.ok .comma, it) =>
      match It.next lx it with
      | none => none
      | some (.error e, it) => some (.error (if e = .eoi then eArrValue else e), false, it)
      | some (.ok tok, it) =>
        gValue (it.unread tok) >>= fun r => match r with
        | (.error e, it) => some (.error e, false, it)
        | (.ok value, it) => some (.ok value, false, it)
    | some (.ok .cBracket, it) => some (.error .eoi, false, it)
    | some (.ok _, it) => some (.error eArrCommaOrBracket, false, it)
partial_fixpoint

/-- stream/stream.go:376-389: the loop of `ReduceToSlice` over the iterator that `parseArray` returns, called once (encoding/json/parse/parse.go:49). -/
def gReduce (slc : List JVal) (arr : It Bool JVal) (it : It κ Tok) : Option (Except Err (List JVal) × It κ Tok) :=
  nextOn (fun p => gArray p) arr it >>= fun r => match r with
  | (.error e, _, it) => if e = .eoi then some (.ok slc, it) else some (.error e, it)
  | (.ok v, arr, it) => gReduce (slc ++ [v]) arr it
partial_fixpoint
end

/-- encoding/json/parse/parse.go:300-332 `Parse`, from the iterator of tokens on. -/
def gParseTokens (it : It κ Tok) : Option (Except Err JVal) :=
  match It.next lx it with
  | none => none
  | some (.error e, _) => some (.error (if e = .eoi then eEmptyDocument else e))
  | some (.ok tok, it) =>
    if tok = .oBrace ∨ tok = .oBracket then
      match gValue lx (it.unread tok) with
      | none => none
      | some (r, _) => some r
    else some (.error eObjOrArr)

/-- encoding/json/parse/parse.go:255-294 `Iterate`, from the iterator of tokens on. The iterator of array elements is the only user of the iterator of
tokens, which is therefore part of its state. -/
def gIterateTokens (it : It κ Tok) : Option (AnyIter JVal) :=
  match It.next lx it with
  | none => none
  | some (.error e, _) => some (anyError (if e = .eoi then eEmptyDocument else e))
  | some (.ok tok, it) =>
    if tok = .oBrace then
      match It.next lx (it.unread tok) with
      | none => none
      | some (_, it) =>
        match gObject lx [] it with
        | none => none
        | some (.error e, _) => some (anyError e)
        | some (.ok v, _) => some ⟨_, It.next (singleValueCall v), ofIter false⟩
    else if tok = .oBracket then some ⟨_, It.next (gArray lx), ofIter (true, it.unread tok)⟩
    else some (anyError eObjOrArr)

end

section
variable {ρ : Type} (rd : Reader ρ)

/-- encoding/json/parse/parse.go:304 `lexer(iter.OfReaderAsRunes(src))`: the function of the iterator of tokens. -/
def readerLex : Call (It (RuneState ρ) Nat) Tok := gLex (It.next (runeCall rd)) It.unread

/-- The iterator of tokens at the start; `isNil`: the reader is nil, and the iterator of runes is done from the start (iter/gen.go:235-236). -/
def readerTokens (isNil : Bool) (src : ρ) : It (It (RuneState ρ) Nat) Tok := ofIter (ofIter ⟨isNil, .eoi, src⟩)

/-- encoding/json/parse/parse.go:300-332 `Parse` of a reader. -/
def parseReader (src : ρ) : Option (Except Err JVal) := gParseTokens (readerLex rd) (readerTokens false src)

/-- encoding/json/parse/parse.go:300-332 `Parse` of the nil reader, which is never read. -/
def parseNil (src : ρ) : Option (Except Err JVal) := gParseTokens (readerLex rd) (readerTokens true src)

/-- encoding/json/parse/parse.go:255-294 `Iterate` of a reader. -/
def iterateReader (src : ρ) : Option (AnyIter JVal) := gIterateTokens (readerLex rd) (readerTokens false src)

/-- encoding/json/parse/parse.go:335-337 `MustParse`: `none` is a panic (with the error) or no return. -/
def mustParseReader (src : ρ) : Option JVal :=
  match parseReader rd src with
  | some (.ok v) => some v
  | _ => none

end
end Micro.Json
