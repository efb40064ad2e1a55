import Verif.Regex.Model
import Verif.Rest.Model
/-
Model of the part of the standard library's `regexp/syntax` parser that reads the patterns of this repository and of routes: from the text of a pattern
to the expression of Verif/Regex/Model.lean. The repository calls it in regexp.MustCompile (math/decimal.go:19, funcs/funcs.go:39,
encoding/json/value.go:18, encoding/json/search.go:17) and in ServeMux.Handle (rest/rest.go:71).

Texts that use a part of the syntax that Verif/Regex/Model.lean leaves out (flags, the escapes \pL, \b, \Q, the numbers of surrogates,
[[:alpha:]]) are `outside`: the model says nothing about them. The limits on the depth and the size of an expression are not modelled.
-/
namespace Micro.Regex
open Micro

/-- What regexp.Compile makes of a text: an expression, an error, or something outside of the model. -/
inductive Compiled (α : Type) where
  | ok (a : α)
  | bad
  | outside
  deriving DecidableEq, Repr

def Compiled.map {α β : Type} (f : α → β) : Compiled α → Compiled β
  | .ok a => .ok (f a)
  | .bad => .bad
  | .outside => .outside

/-- The parts of a pattern. -/
inductive Tok where
  | atom (a : Re)
  | rep (min : Nat) (max : Option Nat)
  | lazy (min : Nat) (max : Option Nat)
  | bar
  | open
  | openGrp
  | close
  deriving DecidableEq, Repr

/-- A digit of a number. -/
def digitVal (c : Char) : Option Nat := if '0' ≤ c ∧ c ≤ '9' then some (c.toNat - 48) else none

/-- regexp/syntax parseInt: the digits at the beginning, their number and how many there are; no leading zero. -/
def digitsAt (v : Nat) : List Char → Nat × Nat
  | [] => (v, 0)
  | c :: s => match digitVal c with
    | none => (v, 0)
    | some d => let r := digitsAt (v * 10 + d) s
      (r.1, r.2 + 1)

def intAt (s : List Char) : Option (Nat × Nat) :=
  match s with
  | [] => none
  | c :: s' => match digitVal c with
    | none => none
    | some d =>
      let r := digitsAt d s'
      if c = '0' ∧ r.2 ≠ 0 then none else some (r.1, r.2 + 1)

/-- regexp/syntax parser.repeat: what follows a `{`, if it is a repetition `{n}`, `{n,}` or `{n,m}`: its bounds and its length without the `{`. -/
def braceAt (s : List Char) : Option (Nat × Option Nat × Nat) :=
  match intAt s with
  | none => none
  | some (n, k) =>
    match s.drop k with
    | '}' :: _ => some (n, some n, k + 1)
    | ',' :: '}' :: _ => some (n, none, k + 2)
    | ',' :: s' =>
      match intAt s' with
      | none => none
      | some (m, j) =>
        match s'.drop j with
        | '}' :: _ => some (n, some m, k + 1 + j + 1)
        | _ => none
    | _ => none

/-- A punctuation rune of ASCII: those which a backslash makes a literal. -/
def isPunct (c : Char) : Bool := decide (c.toNat < 128) && !c.isAlphanum

/-- regexp/syntax perlGroup: the classes `\d`, `\w`, `\s` of ASCII (true: with a capital letter, the runes that are not in it). -/
def perlClass (c : Char) : Option (Bool × List (Char × Char)) :=
  if c = 'd' ∨ c = 'D' then some (decide (c = 'D'), [('0', '9')])
  else if c = 'w' ∨ c = 'W' then some (decide (c = 'W'), [('0', '9'), ('A', 'Z'), ('_', '_'), ('a', 'z')])
  else if c = 's' ∨ c = 'S' then some (decide (c = 'S'), [('\t', '\n'), ('\x0c', '\r'), (' ', ' ')])
  else none

/-- regexp/syntax parseEscape: the letters for control runes (`\a`, `\f`, `\n`, `\r`, `\t`, `\v`). -/
def ctlChar (c : Char) : Option Char :=
  if c = 'a' then some '\x07' else if c = 'f' then some '\x0c' else if c = 'n' then some '\n' else if c = 'r' then some '\r'
  else if c = 't' then some '\t' else if c = 'v' then some '\x0b' else none

/-- regexp/syntax appendNegatedClass: the ranges from lo on that are not in those given (which are in order, and all of ASCII here). -/
def gaps : Nat → List (Char × Char) → List (Char × Char)
  | lo, [] => [(Char.ofNat lo, Char.ofNat 0x10FFFF)]
  | lo, r :: rs => if lo < r.1.toNat then (Char.ofNat lo, Char.ofNat (r.1.toNat - 1)) :: gaps (r.2.toNat + 1) rs else gaps (r.2.toNat + 1) rs

/-- regexp/syntax parsePerlClassEscape: the ranges of a `\d`, `\D`, ... at the beginning of a text. -/
def perlAt : List Char → Option (List (Char × Char))
  | '\\' :: d :: _ => (perlClass d).map fun g => if g.1 then gaps 0 g.2 else g.2
  | _ => none

/-- A backslash and a letter outside of a class: `\A` and `\z` are the beginning and the end of the text. -/
def escRe (d : Char) : Option Re :=
  match perlClass d with
  | some g => some (.cls g.1 g.2)
  | none =>
    match ctlChar d with
    | some c => some (.lit c)
    | none => if d = 'A' then some .bol else if d = 'z' then some .eol else none

/-- Letters that mean something after a backslash which is not modelled (classes of Unicode). -/
def unread (d : Char) : Bool := "pP".toList.contains d

/-- regexp/syntax unhex: a hexadecimal digit. -/
def hexVal (c : Char) : Option Nat :=
  if '0' ≤ c ∧ c ≤ '9' then some (c.toNat - 48)
  else if 'a' ≤ c ∧ c ≤ 'f' then some (c.toNat - 97 + 10)
  else if 'A' ≤ c ∧ c ≤ 'F' then some (c.toNat - 65 + 10)
  else none

/-- regexp/syntax parseEscape, after `x{` and some digits: the number, and how many runes it takes with the `}`. -/
def hexRun (v : Nat) : List Char → Option (Nat × Nat)
  | [] => none
  | c :: s =>
    if c = '}' then some (v, 1)
    else match hexVal c with
      | none => none
      | some d => if 0x10FFFF < v * 16 + d then none else (hexRun (v * 16 + d) s).map fun r => (r.1, r.2 + 1)

/-- An octal digit. -/
def octVal (c : Char) : Option Nat := if '0' ≤ c ∧ c ≤ '7' then some (c.toNat - 48) else none

/-- regexp/syntax parseEscape: at most n more octal digits. -/
def octRun : Nat → Nat → List Char → Nat × Nat
  | 0, v, _ => (v, 0)
  | _, v, [] => (v, 0)
  | n + 1, v, c :: s => match octVal c with
    | none => (v, 0)
    | some d => let r := octRun n (v * 8 + d) s
      (r.1, r.2 + 1)

/-- regexp/syntax parseEscape, after an `x`: two hexadecimal digits, or `{...}`. -/
def hexAt : List Char → Option (Nat × Nat)
  | '{' :: s => if s.head? = some '}' then none else (hexRun 0 s).map fun r => (r.1, r.2 + 2)
  | a :: b :: _ => match hexVal a, hexVal b with
    | some x, some y => some (x * 16 + y, 3)
    | _, _ => none
  | _ => none

/-- regexp/syntax parseEscape: the number of a rune after a backslash, and how many runes it takes: `x` and two hexadecimal digits, `x{...}`, or up to three
octal digits (not one alone, except 0). -/
def numAt : List Char → Option (Nat × Nat)
  | [] => none
  | c :: s =>
    if c = 'x' then hexAt s
    else match octVal c with
      | none => none
      | some d => if c ≠ '0' ∧ (s.head?.bind octVal) = none then none else let r := octRun 2 d s
        some (r.1, r.2 + 1)

/-- A rune by its number, after a backslash. -/
def escNum (s : List Char) : Compiled (Char × Nat) :=
  match numAt s with
  | none => .bad
  | some (v, n) => if v.isValidChar then .ok (Char.ofNat v, n) else .outside

/-- regexp/syntax parseClassChar: one rune of a class, and how many runes it is written with. -/
def classChar : List Char → Compiled (Char × Nat)
  | [] => .bad
  | '\\' :: c :: s =>
    if isPunct c then .ok (c, 2)
    else match ctlChar c with
      | some d => .ok (d, 2)
      | none => if unread c then .outside else (escNum (c :: s)).map fun r => (r.1, r.2 + 1)
  | ['\\'] => .bad
  | c :: _ => .ok (c, 1)

/-- regexp/syntax parseClass, from after the `[` and the `^`: the ranges, and the length up to and with the `]`. A `]` that comes first is a rune.
The first argument is the number of runes to skip (they belong to the range read before). -/
def classAt (first : Bool) : Nat → List Char → Compiled (List (Char × Char) × Nat)
  | _, [] => .bad
  | k + 1, _ :: s => (classAt first k s).map fun r => (r.1, r.2 + 1)
  | 0, c :: s =>
    if c = ']' ∧ first = false then .ok ([], 1)
    else if c = '[' ∧ s.head? = some ':' then .outside
    else match perlAt (c :: s) with
      | some rs => (classAt false 1 s).map fun r => (rs ++ r.1, r.2 + 1)
      | none =>
        match classChar (c :: s) with
        | .bad => .bad
        | .outside => .outside
        | .ok (lo, n) =>
          match (c :: s).drop n with
          | '-' :: d :: s' =>
            if d = ']' then (classAt false (n - 1) s).map fun r => ((lo, lo) :: r.1, r.2 + 1)
            else match classChar (d :: s') with
              | .bad => .bad
              | .outside => .outside
              | .ok (hi, m) => if hi < lo then .bad else (classAt false (n + m) s).map fun r => ((lo, hi) :: r.1, r.2 + 1)
          | _ => (classAt false (n - 1) s).map fun r => ((lo, lo) :: r.1, r.2 + 1)

/-- A repetition, and the length of what follows its first rune; a `?` after it makes it lazy. -/
def repTok (min : Nat) (max : Option Nat) (len : Nat) (s : List Char) : Compiled (Tok × Nat) :=
  if 1000 < min ∨ (∃ m, max = some m ∧ (1000 < m ∨ m < min)) then .bad
  else if (s.drop len).head? = some '?' then .ok (.lazy min max, len + 1)
  else .ok (.rep min max, len)

instance (max : Option Nat) (min : Nat) : Decidable (∃ m, max = some m ∧ (1000 < m ∨ m < min)) :=
  match max with
  | none => isFalse (by simp)
  | some m => decidable_of_iff (1000 < m ∨ m < min) (by simp)

/-- regexp/syntax parsePerlFlags: what follows `(?P<`, a name up to `>`; the name is of letters, digits and `_`. The runes to skip are counted from the `?`.
Names may be used more than once, and the code never asks for them: the group is like one without a name. -/
def nameTok (s : List Char) : Compiled (Tok × Nat) :=
  let name := s.takeWhile (· ≠ '>')
  if s.dropWhile (· ≠ '>') = [] then .bad
  else if name = [] ∨ (name.all fun c => c.isAlphanum || c = '_') = false then .bad
  else .ok (.open, 3 + name.length + 1)

/-- regexp/syntax parse: what begins with the rune c (s follows it), and how many more runes it takes. -/
def tokAt (c : Char) (s : List Char) : Compiled (Tok × Nat) :=
  if c = '(' then
    match s with
    | '?' :: ':' :: _ => .ok (.openGrp, 2)
    | '?' :: 'P' :: '<' :: s' => nameTok s'
    | '?' :: _ => .outside
    | _ => .ok (.open, 0)
  else if c = ')' then .ok (.close, 0)
  else if c = '|' then .ok (.bar, 0)
  else if c = '^' then .ok (.atom .bol, 0)
  else if c = '$' then .ok (.atom .eol, 0)
  else if c = '.' then .ok (.atom .any, 0)
  else if c = '[' then
    match s with
    | '^' :: s' => (classAt true 0 s').map fun r => (.atom (.cls true r.1), r.2 + 1)
    | _ => (classAt true 0 s).map fun r => (.atom (.cls false r.1), r.2)
  else if c = '*' then repTok 0 none 0 s
  else if c = '+' then repTok 1 none 0 s
  else if c = '?' then repTok 0 (some 1) 0 s
  else if c = '{' then
    match braceAt s with
    | none => .ok (.atom (.lit '{'), 0)
    | some (min, max, len) => repTok min max len s
  else if c = '\\' then
    match s with
    | [] => .bad
    | d :: s' =>
      if isPunct d then .ok (.atom (.lit d), 1)
      else match escRe d with
        | some r => .ok (.atom r, 1)
        | none => if unread d || d = 'b' || d = 'B' || d = 'Q' then .outside else (escNum (d :: s')).map fun r => (.atom (.lit r.1), r.2)
  else .ok (.atom (.lit c), 0)

/-- The parts of a text, in order; the first argument is the number of runes to skip. -/
def lexRe : Nat → List Char → Compiled (List Tok)
  | _, [] => .ok []
  | k + 1, _ :: s => lexRe k s
  | 0, c :: s =>
    match tokAt c s with
    | .bad => .bad
    | .outside => .outside
    | .ok (t, n) => (lexRe n s).map (t :: ·)

/-- A group that is being read: its number if it captures, the alternatives read before, and the sequence being read; both last first. -/
structure Frame where
  cap : Option Nat
  alts : List Re
  cur : List Re
  deriving DecidableEq, Repr

/-- A sequence. -/
def seqRe (l : List Re) : Re := l.foldr .seq .eps

/-- The alternatives a, b, ... -/
def altRe : List Re → Re
  | [] => .eps
  | [a] => a
  | a :: as => .alt a (altRe as)

/-- The expression of a group, without its parentheses. -/
def Frame.body (f : Frame) : Re := altRe (f.alts.reverse ++ [seqRe f.cur.reverse])

/-- regexp/syntax repeatIsValid: repetitions of repetitions are at most 1000 in all. -/
def repValid : Re → Nat → Bool
  | .eps, _ | .lit _, _ | .any, _ | .cls _ _, _ | .bol, _ | .eol, _ => true
  | .seq a b, n | .alt a b, n => repValid a n && repValid b n
  | .grp a, n | .cap _ a, n => repValid a n
  | .rep a min max, n | .lazy a min max, n =>
    let m := max.getD min
    if max = some 0 then true
    else if n < m then false
    else repValid a (if 0 < m then n / m else n)

/-- regexp/syntax parse: the parts put together. `stack` are the groups around the one being read, `n` the number of capturing groups begun so far, and
`rep`: the last part was a repetition. -/
def build (f : Frame) (stack : List Frame) (n : Nat) (rep : Bool) : List Tok → Compiled Re
  | [] => match stack with
    | [] => .ok f.body
    | _ :: _ => .bad
  | .atom a :: ts => build { f with cur := a :: f.cur } stack n false ts
  | .rep min max :: ts =>
    match f.cur with
    | [] => .bad
    | a :: cur =>
      if rep = true then .bad
      else if (2 ≤ min ∨ 2 ≤ max.getD 0) ∧ repValid (.rep a min max) 1000 = false then .bad
      else build { f with cur := .rep a min max :: cur } stack n true ts
  | .lazy min max :: ts =>
    match f.cur with
    | [] => .bad
    | a :: cur =>
      if rep = true then .bad
      else if (2 ≤ min ∨ 2 ≤ max.getD 0) ∧ repValid (.lazy a min max) 1000 = false then .bad
      else build { f with cur := .lazy a min max :: cur } stack n true ts
  | .bar :: ts => build { f with alts := seqRe f.cur.reverse :: f.alts, cur := [] } stack n false ts
  | .open :: ts => build ⟨some (n + 1), [], []⟩ (f :: stack) (n + 1) false ts
  | .openGrp :: ts => build ⟨none, [], []⟩ (f :: stack) n false ts
  | .close :: ts =>
    match stack with
    | [] => .bad
    | g :: stack' =>
      build { g with cur := (match f.cap with | some i => .cap i f.body | none => .grp f.body) :: g.cur } stack' n false ts

/-- regexp.Compile. -/
def compile (s : List Char) : Compiled Re :=
  match lexRe 0 s with
  | .ok ts => build ⟨none, [], []⟩ [] 0 false ts
  | .bad => .bad
  | .outside => .outside

/-- rest/rest.go:54-80 `ServeMux.Handle` for patterns inside of the model: `compile` as a parameter of Verif/Rest/Model.lean. -/
def compileOpt (s : List Char) : Option Re :=
  match compile s with
  | .ok re => some re
  | _ => none

/-- rest/rest.go:24 `UUIDGroup` -/
def uuidGroup : List Char := "([0-9A-Fa-f]{8}-[0-9A-Fa-f]{4}-[0-9A-Fa-f]{4}-[0-9A-Fa-f]{4}-[0-9A-Fa-f]{12})".toList

end Micro.Regex
