import Verif.Go
/-
Model of the part of the standard library's `regexp` package that the repository uses: the syntax its patterns are written in, and the
leftmost-first ("Perl-like") search that regexp documents: "it returns the one that a backtracking engine would have found first".

Patterns of the repository: math/decimal.go:19, funcs/funcs.go:39, encoding/json/value.go:18, encoding/json/search.go:17,
rest/rest.go:24 (UUIDGroup), and the patterns of ServeMux.Handle (rest/rest.go:71), which are the user's.

Simplifications: flags, back-references of names and the escapes of character classes (\d, \pL, ...) are left out. Repetitions are those of the programs
regexp/syntax makes (simplify.go, compile.go; from Go 1.17 on): `{n,m}` is n copies and m - n nested `?`, `{n,}` is n - 1 copies and a `+`, `*` of something
that can match the empty text is `(x+)?`. Texts are lists of runes (or, for funcs.go, of bytes: its pattern only
matches ASCII, and no byte of a multi-byte rune is ASCII).
-/
namespace Micro.Regex

/-- The code of a rune or of a byte. -/
class Sym (α : Type) where
  code : α → Nat

instance : Sym Char := ⟨Char.toNat⟩
instance : Sym Nat := ⟨id⟩

/-- Regular expressions: a rune, `.` (any rune but a newline), a class `[...]` or `[^...]` of ranges, sequence, alternatives, greedy repetition (`?`, `*`, `+`, `{n}`), lazy
repetition (with a `?` after it), group `(?:...)`, capturing group `(...)` number i, `^` and `$`. -/
inductive Re where
  | eps
  | lit (c : Char)
  | any
  | cls (neg : Bool) (ranges : List (Char × Char))
  | seq (a b : Re)
  | alt (a b : Re)
  | rep (a : Re) (min : Nat) (max : Option Nat)
  | lazy (a : Re) (min : Nat) (max : Option Nat)
  | grp (a : Re)
  | cap (i : Nat) (a : Re)
  | bol
  | eol
  deriving DecidableEq, Repr

/-- A sequence of expressions. -/
def Re.all : List Re → Re
  | [] => .eps
  | [a] => a
  | a :: as => .seq a (Re.all as)

/-- How a range of a class is written. -/
def renderRange (r : Char × Char) : List Char :=
  let esc (c : Char) := if c = '[' ∨ c = ']' then ['\\', c] else [c]
  if r.1 = r.2 then esc r.1 else esc r.1 ++ ['-'] ++ esc r.2

/-- Runes that must be escaped outside of a class (regexp.QuoteMeta). -/
def isMeta (c : Char) : Bool := "\\.+*?()|[]{}^$".toList.contains c

/-- How a repetition is written. -/
def renderRep (min : Nat) (max : Option Nat) : List Char :=
  match min, max with
  | 0, some 1 => ['?']
  | 0, none => ['*']
  | 1, none => ['+']
  | n, some _ => ['{'] ++ (Nat.toDigits 10 n) ++ ['}']
  | n, none => ['{'] ++ (Nat.toDigits 10 n) ++ [',', '}']

/-- How an expression is written in Go's syntax. -/
def render : Re → List Char
  | .eps => []
  | .lit c => if isMeta c then ['\\', c] else [c]
  | .any => ['.']
  | .cls neg rs => ['['] ++ (if neg then ['^'] else []) ++ (rs.map renderRange).flatten ++ [']']
  | .seq a b => render a ++ render b
  | .alt a b => render a ++ ['|'] ++ render b
  | .rep a min max => render a ++ renderRep min max
  | .lazy a min max => render a ++ renderRep min max ++ ['?']
  | .grp a => "(?:".toList ++ render a ++ [')']
  | .cap _ a => ['('] ++ render a ++ [')']
  | .bol => ['^']
  | .eol => ['$']

/-- The number of capturing groups. -/
def Re.caps : Re → Nat
  | .eps | .lit _ | .any | .cls _ _ | .bol | .eol => 0
  | .seq a b | .alt a b => a.caps + b.caps
  | .rep a _ _ | .lazy a _ _ | .grp a => a.caps
  | .cap _ a => a.caps + 1

variable {α : Type} [Sym α]

/-- A way to match: the text matched, the text left, and the captured texts, last first. -/
structure Hit (α : Type) where
  txt : List α
  rest : List α
  caps : List (Nat × List α)
  deriving DecidableEq, Repr

/-- Is the rune in one of the ranges (or, negated, in none)? -/
def inClass (neg : Bool) (rs : List (Char × Char)) (c : α) : Bool :=
  (rs.any fun r => decide (r.1.toNat ≤ Sym.code c) && decide (Sym.code c ≤ r.2.toNat)) != neg

/-- Matching one rune. -/
def one (p : α → Bool) : List α → List (Hit α)
  | [] => []
  | c :: s => if p c then [⟨[c], s, []⟩] else []

/-- One match after the other. -/
def andThen (f g : Bool → List α → List (Hit α)) (bg : Bool) (s : List α) : List (Hit α) :=
  (f bg s).flatMap fun r => (g (bg && r.txt.isEmpty) r.rest).map fun q => ⟨r.txt ++ q.txt, q.rest, q.caps ++ r.caps⟩

/-- `{n}`: exactly n times. -/
def times (f : Bool → List α → List (Hit α)) : Nat → Bool → List α → List (Hit α)
  | 0, _, s => [⟨[], s, []⟩]
  | n + 1, bg, s => andThen f (times f n) bg s

/-- Again and again, at most n times, as often as possible first (the loop of `*` and `+` after an iteration that matched something). An iteration that
matches nothing is not tried: it would come back to the same place of the program and of the text, which the engines of regexp visit once. -/
def upTo (f : Bool → List α → List (Hit α)) : Nat → Bool → List α → List (Hit α)
  | 0, _, s => [⟨[], s, []⟩]
  | n + 1, bg, s =>
    andThen (fun bg s => (f bg s).filter fun r => !r.txt.isEmpty) (upTo f n) bg s ++ [⟨[], s, []⟩]

/-- The same, as seldom as possible first. -/
def upToLazy (f : Bool → List α → List (Hit α)) : Nat → Bool → List α → List (Hit α)
  | 0, _, s => [⟨[], s, []⟩]
  | n + 1, bg, s =>
    ⟨[], s, []⟩ :: andThen (fun bg s => (f bg s).filter fun r => !r.txt.isEmpty) (upToLazy f n) bg s

/-- `+`: once, and then more; a first iteration that matches nothing ends the repetition. -/
def plus (f more : Bool → List α → List (Hit α)) (bg : Bool) (s : List α) : List (Hit α) :=
  (f bg s).flatMap fun r =>
    if r.txt.isEmpty then [r] else (more false r.rest).map fun q => ⟨r.txt ++ q.txt, q.rest, q.caps ++ r.caps⟩

/-- `(x(x(x)?)?)?`, as which `{0,n}` is compiled: at most n times, as often as possible first. -/
def quests (f : Bool → List α → List (Hit α)) : Nat → Bool → List α → List (Hit α)
  | 0, _, s => [⟨[], s, []⟩]
  | n + 1, bg, s => andThen f (quests f n) bg s ++ [⟨[], s, []⟩]

/-- `(x(x(x)??)??)??`: at most n times, as seldom as possible first. -/
def questsLazy (f : Bool → List α → List (Hit α)) : Nat → Bool → List α → List (Hit α)
  | 0, _, s => [⟨[], s, []⟩]
  | n + 1, bg, s => ⟨[], s, []⟩ :: andThen f (questsLazy f n) bg s

/-- All ways to match at the beginning of the text, in the order in which a backtracking engine finds them; `bg`: it is the beginning of
the whole text. -/
def outs : Re → Bool → List α → List (Hit α)
  | .eps, _, s => [⟨[], s, []⟩]
  | .lit c, _, s => one (fun x => Sym.code x == c.toNat) s
  | .any, _, s => one (fun x => !(Sym.code x == 10)) s
  | .cls neg rs, _, s => one (inClass neg rs) s
  | .seq a b, bg, s => andThen (outs a) (outs b) bg s
  | .alt a b, bg, s => outs a bg s ++ outs b bg s
  | .rep a min (some m), bg, s => andThen (times (outs a) min) (quests (outs a) (m - min)) bg s
  | .rep a 0 none, bg, s => plus (outs a) (fun bg s => upTo (outs a) s.length bg s) bg s ++ [⟨[], s, []⟩]
  | .rep a (n + 1) none, bg, s => andThen (times (outs a) n) (plus (outs a) (fun bg s => upTo (outs a) s.length bg s)) bg s
  | .lazy a min (some m), bg, s => andThen (times (outs a) min) (questsLazy (outs a) (m - min)) bg s
  | .lazy a 0 none, bg, s => ⟨[], s, []⟩ :: plus (outs a) (fun bg s => upToLazy (outs a) s.length bg s) bg s
  | .lazy a (n + 1) none, bg, s => andThen (times (outs a) n) (plus (outs a) (fun bg s => upToLazy (outs a) s.length bg s)) bg s
  | .grp a, bg, s => outs a bg s
  | .cap i a, bg, s => (outs a bg s).map fun r => ⟨r.txt, r.rest, (i, r.txt) :: r.caps⟩
  | .bol, bg, s => if bg then [⟨[], s, []⟩] else []
  | .eol, _, s => if s.isEmpty then [⟨[], s, []⟩] else []

/-- The first match that begins at position p. -/
def execAt (re : Re) (s : List α) (p : Nat) : Option (Hit α) := (outs re (p == 0) (s.drop p)).head?

/-- The leftmost match that begins at position p or later (n positions are tried). -/
def searchLoop (re : Re) (s : List α) : Nat → Nat → Option (Nat × Hit α)
  | 0, _ => none
  | n + 1, p => match execAt re s p with
    | some r => some (p, r)
    | none => searchLoop re s n (p + 1)

/-- regexp doExecute from position p. -/
def search (re : Re) (s : List α) (p : Nat) : Option (Nat × Hit α) := searchLoop re s (s.length + 1 - p) p

/-- The match and the texts of the groups; the text of a group that did not take part is "". -/
def parts (re : Re) (r : Hit α) : List (List α) :=
  r.txt :: (List.range re.caps).map fun i => (r.caps.lookup (i + 1)).getD []

/-- Regexp.MatchString. -/
def matchString (re : Re) (s : List α) : Bool := (search re s 0).isSome

/-- Regexp.FindStringSubmatch; `none` is nil. -/
def findSub (re : Re) (s : List α) : Option (List (List α)) := (search re s 0).map fun m => parts re m.2

/-- The loop of regexp allMatches (n: the iterations that are left; each moves on by at least one rune): an empty match right
after the previous match is left out. -/
def allLoop (re : Re) (s : List α) : Nat → Nat → Option Nat → List (Hit α)
  | 0, _, _ => []
  | n + 1, p, prev =>
    if p > s.length then [] else
    match search re s p with
    | none => []
    | some (b, r) =>
      let e := b + r.txt.length
      if e = p then
        (if some b = prev then [] else [r]) ++ allLoop re s n (p + 1) (some e)
      else r :: allLoop re s n e (some e)

/-- Regexp.FindAllStringSubmatch(s, -1). -/
def findAllSub (re : Re) (s : List α) : List (List (List α)) := (allLoop re s (s.length + 1) 0 none).map (parts re)

/-- Regexp.FindAllString(s, -1). -/
def findAllString (re : Re) (s : List α) : List (List α) := (allLoop re s (s.length + 1) 0 none).map Hit.txt

/-- The loop of regexp replaceAll with position p and the end of the last match; what is appended to the buffer. -/
def replLoop (re : Re) (repl s : List α) : Nat → Nat → Nat → List α
  | 0, _, last => s.drop last
  | n + 1, p, last =>
    if p > s.length then s.drop last else
    match search re s p with
    | none => s.drop last
    | some (b, r) =>
      let e := b + r.txt.length
      (s.drop last).take (b - last) ++ (if e > last ∨ b = 0 then repl else []) ++ replLoop re repl s n (max (p + 1) e) e

/-- Regexp.ReplaceAllLiteralString. -/
def replaceAll (re : Re) (s repl : List α) : List α := replLoop re repl s (s.length + 1) 0 0

/-! ### The patterns of the repository -/

/-- `[0-9]` -/
def digitRe : Re := .cls false [('0', '9')]

/-- math/decimal.go:19 `decimalRegex` -/
def decimalRe : Re :=
  .all [.cap 1 (.rep (.lit '-') 0 (some 1)), .cap 2 (.rep digitRe 0 none), .rep (.cls false [('.', '.')]) 0 (some 1), .cap 3 (.rep digitRe 0 none)]

/-- funcs/funcs.go:39 `camelWordsRegexp` -/
def camelRe : Re := .seq (.cls false [('A', 'Z')]) (.rep (.cls false [('a', 'z')]) 0 none)

/-- encoding/json/value.go:18 `numberStringRegex` -/
def numberRe : Re :=
  .all [.rep (.lit '-') 0 (some 1), .rep digitRe 1 none, .rep (.cap 1 (.seq (.cls false [('.', '.')]) (.rep digitRe 1 none))) 0 (some 1),
    .rep (.cap 2 (.seq (.lit 'e') (.rep digitRe 1 none))) 0 (some 1)]

/-- encoding/json/search.go:17 `regexPathParts` -/
def pathRe : Re :=
  .grp (.alt (.seq (.lit '.') (.cap 1 (.rep (.cls true [('.', '.'), ('[', '['), (']', ']')]) 1 none)))
    (.all [.lit '[', .cap 2 (.rep digitRe 1 none), .lit ']']))

/-- `[0-9A-Fa-f]` -/
def hexRe : Re := .cls false [('0', '9'), ('A', 'F'), ('a', 'f')]

/-- rest/rest.go:24 `UUIDGroup`, as group number i -/
def uuidRe (i : Nat) : Re :=
  .cap i (.all [.rep hexRe 8 (some 8), .lit '-', .rep hexRe 4 (some 4), .lit '-', .rep hexRe 4 (some 4), .lit '-', .rep hexRe 4 (some 4), .lit '-',
    .rep hexRe 12 (some 12)])

/-- The models are the patterns as they are written in the source. -/
example : render decimalRe = "(-?)([0-9]*)[.]?([0-9]*)".toList := by decide
example : render camelRe = "[A-Z][a-z]*".toList := by decide
example : render numberRe = "-?[0-9]+([.][0-9]+)?(e[0-9]+)?".toList := by decide
example : render pathRe = "(?:\\.([^.\\[\\]]+)|\\[([0-9]+)\\])".toList := by decide
example : render (uuidRe 1) = "([0-9A-Fa-f]{8}-[0-9A-Fa-f]{4}-[0-9A-Fa-f]{4}-[0-9A-Fa-f]{4}-[0-9A-Fa-f]{12})".toList := by decide

/-- Routes, the patterns for ServeMux.Handle: `^`, then pieces, then `$`. A piece is a text (written with the metacharacters escaped) or a UUIDGroup. -/
inductive Piece where
  | text (s : List Char)
  | uuid
  deriving DecidableEq, Repr

/-- A text as an expression. -/
def textRe (s : List Char) : Re := s.foldr (fun c r => .seq (.lit c) r) .eps

/-- The pieces, whose first group has number i. -/
def piecesRe : Nat → List Piece → Re
  | _, [] => .eps
  | i, .text s :: ps => .seq (textRe s) (piecesRe i ps)
  | i, .uuid :: ps => .seq (uuidRe i) (piecesRe (i + 1) ps)

/-- `^pieces$` -/
def routeRe (ps : List Piece) : Re := .seq .bol (.seq (piecesRe 1 ps) .eol)

example : render (routeRe [.text "/customer/".toList, .uuid]) =
    ("^/customer/" ++ "([0-9A-Fa-f]{8}-[0-9A-Fa-f]{4}-[0-9A-Fa-f]{4}-[0-9A-Fa-f]{4}-[0-9A-Fa-f]{12})" ++ "$").toList := by decide

end Micro.Regex
