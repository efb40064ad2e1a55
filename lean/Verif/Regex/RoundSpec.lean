import Verif.Regex.SyntaxModel
/-
Specification for C145: the patterns one can write, how they are written, and what they stand for.
-/
namespace Micro.Regex

/-- A repetition: `*`, `+`, `?`, `{n}`, `{n,}`, `{n,m}`. -/
inductive Quant where
  | star
  | plus
  | opt
  | exactly (n : Nat)
  | atLeast (n : Nat)
  | between (n m : Nat)

def Quant.min : Quant → Nat
  | .star => 0
  | .plus => 1
  | .opt => 0
  | .exactly n => n
  | .atLeast n => n
  | .between n _ => n

/-- none: no upper bound. -/
def Quant.max : Quant → Option Nat
  | .star => none
  | .plus => none
  | .opt => some 1
  | .exactly n => some n
  | .atLeast _ => none
  | .between _ m => some m

def Quant.txt : Quant → List Char
  | .star => ['*']
  | .plus => ['+']
  | .opt => ['?']
  | .exactly n => '{' :: (Nat.toDigits 10 n ++ ['}'])
  | .atLeast n => '{' :: (Nat.toDigits 10 n ++ [',', '}'])
  | .between n m => '{' :: (Nat.toDigits 10 n ++ (',' :: (Nat.toDigits 10 m ++ ['}'])))

/-- Bounds are at most 1000, and in order. -/
def Quant.ok : Quant → Prop
  | .exactly n => n ≤ 1000
  | .atLeast n => n ≤ 1000
  | .between n m => n ≤ m ∧ m ≤ 1000
  | _ => True

/-- A rune written by its number after a backslash: `\x41`, `\x{1F600}`, `\101`. -/
inductive Num where
  | two (a b : Char)
  | braces (ds : List Char)
  | octal (a b c : Char)

def Num.txt : Num → List Char
  | .two a b => ['\\', 'x', a, b]
  | .braces ds => '\\' :: 'x' :: '{' :: (ds ++ ['}'])
  | .octal a b c => ['\\', a, b, c]

/-- The number that hexadecimal digits stand for, in capitals or not. -/
def hexNum (ds : List Char) : Nat := ds.foldl (fun v c => v * 16 + "0123456789abcdef".toList.idxOf c.toLower) 0

/-- The number that octal digits stand for. -/
def octNum (ds : List Char) : Nat := ds.foldl (fun v c => v * 8 + "01234567".toList.idxOf c) 0

def Num.c : Num → Char
  | .two a b => Char.ofNat (hexNum [a, b])
  | .braces ds => Char.ofNat (hexNum ds)
  | .octal a b c => Char.ofNat (octNum [a, b, c])

/-- The digits are digits, and the number is that of a rune (and of no surrogate). -/
def Num.ok : Num → Prop
  | .two a b => ∀ d ∈ [a, b], d ∈ "0123456789abcdefABCDEF".toList
  | .braces ds => ds ≠ [] ∧ (∀ d ∈ ds, d ∈ "0123456789abcdefABCDEF".toList) ∧ (hexNum ds).isValidChar
  | .octal a b c => ∀ d ∈ [a, b, c], d ∈ "01234567".toList

/-- A rune of a class, written with a backslash or without, or by its number. -/
inductive CRune where
  | rune (c : Char) (esc : Bool)
  | num (n : Num)

def CRune.c : CRune → Char
  | .rune c _ => c
  | .num n => n.c

def CRune.txt : CRune → List Char
  | .rune c esc => if esc then ['\\', c] else [c]
  | .num n => n.txt

/-- Only runes of ASCII which are no letters and no digits have a backslash, those with a meaning of their own in classes must have one. -/
def CRune.ok : CRune → Prop
  | .rune c esc => if esc then c.toNat < 128 ∧ c.isAlphanum = false else c ∉ ['\\', ']', '[', '^', '-']
  | .num n => n.ok

/-- The greatest rune. -/
def lastRune : Char := Char.ofNat 0x10FFFF

/-- What a letter after a backslash means in a class, as ranges from and to: digits, runes of words, blanks, the runes that are none of those, and
control runes. -/
def classLetters : List (Char × List (Char × Char)) :=
  [('d', [('0', '9')]),
   ('D', [('\x00', '/'), (':', lastRune)]),
   ('w', [('0', '9'), ('A', 'Z'), ('_', '_'), ('a', 'z')]),
   ('W', [('\x00', '/'), (':', '@'), ('[', '^'), ('`', '`'), ('{', lastRune)]),
   ('s', [('\t', '\n'), ('\x0c', '\r'), (' ', ' ')]),
   ('S', [('\x00', '\x08'), ('\x0b', '\x0b'), ('\x0e', '\x1f'), ('!', lastRune)]),
   ('a', [('\x07', '\x07')]), ('f', [('\x0c', '\x0c')]), ('n', [('\n', '\n')]), ('r', [('\r', '\r')]), ('t', [('\t', '\t')]),
   ('v', [('\x0b', '\x0b')])]

/-- A part of a class: a rune, a range `lo-hi`, or a letter after a backslash (`\d`, `\t`, ...). -/
inductive CRange where
  | one (r : CRune)
  | span (lo hi : CRune)
  | letter (l : Char)

def CRange.txt : CRange → List Char
  | .one r => r.txt
  | .span lo hi => lo.txt ++ '-' :: hi.txt
  | .letter l => ['\\', l]

/-- The first and the last runes of what it stands for. -/
def CRange.bounds : CRange → List (Char × Char)
  | .one r => [(r.c, r.c)]
  | .span lo hi => [(lo.c, hi.c)]
  | .letter l => (classLetters.lookup l).getD []

/-- A range is in order. -/
def CRange.ok : CRange → Prop
  | .one r => r.ok
  | .span lo hi => lo.ok ∧ hi.ok ∧ lo.c ≤ hi.c
  | .letter l => l ∈ classLetters.map Prod.fst

/-- The runes that a class lists. -/
def classBounds (rs : List CRange) (dash : Bool) : List (Char × Char) := rs.flatMap CRange.bounds ++ if dash then [('-', '-')] else []

/-- What a letter after a backslash means outside of a class: what it means in one, or the beginning or the end of the text. -/
def letters : List (Char × Re) :=
  [('d', .cls false [('0', '9')]), ('D', .cls true [('0', '9')]),
   ('w', .cls false [('0', '9'), ('A', 'Z'), ('_', '_'), ('a', 'z')]), ('W', .cls true [('0', '9'), ('A', 'Z'), ('_', '_'), ('a', 'z')]),
   ('s', .cls false [('\t', '\n'), ('\x0c', '\r'), (' ', ' ')]), ('S', .cls true [('\t', '\n'), ('\x0c', '\r'), (' ', ' ')]),
   ('a', .lit '\x07'), ('f', .lit '\x0c'), ('n', .lit '\n'), ('r', .lit '\r'), ('t', .lit '\t'), ('v', .lit '\x0b'),
   ('A', .bol), ('z', .eol)]

mutual

/-- What is repeated: a rune (written with a backslash or without, or by its number), a letter after a backslash (`\d`, `\t`, ...), `.`, a class (dash: with a `-` at its
end), `^`, `$`, a group, a capturing group without or with a name. -/
inductive Item where
  | lit (c : Char) (esc : Bool)
  | num (n : Num)
  | letter (l : Char)
  | any
  | cls (neg : Bool) (rs : List CRange) (dash : Bool)
  | bol
  | eol
  | group (b : Body)
  | capture (b : Body)
  | named (name : List Char) (b : Body)

/-- Items one after the other, some of them with a repetition, greedy (many) or lazy. -/
inductive Seqn where
  | nil
  | one (a : Item) (s : Seqn)
  | many (a : Item) (q : Quant) (s : Seqn)
  | lazily (a : Item) (q : Quant) (s : Seqn)

/-- Alternatives. -/
inductive Body where
  | last (s : Seqn)
  | or (s : Seqn) (b : Body)

end

mutual

/-- How it is written. -/
def Item.txt : Item → List Char
  | .lit c esc => if esc then ['\\', c] else [c]
  | .num n => n.txt
  | .letter l => ['\\', l]
  | .any => ['.']
  | .cls neg rs dash => '[' :: ((if neg then ['^'] else []) ++ (rs.flatMap CRange.txt ++ ((if dash then ['-'] else []) ++ [']'])))
  | .bol => ['^']
  | .eol => ['$']
  | .group b => '(' :: '?' :: ':' :: (b.txt ++ [')'])
  | .capture b => '(' :: (b.txt ++ [')'])
  | .named name b => '(' :: '?' :: 'P' :: '<' :: (name ++ '>' :: (b.txt ++ [')']))

def Seqn.txt : Seqn → List Char
  | .nil => []
  | .one a s => a.txt ++ s.txt
  | .many a q s => a.txt ++ (q.txt ++ s.txt)
  | .lazily a q s => a.txt ++ (q.txt ++ '?' :: s.txt)

def Body.txt : Body → List Char
  | .last s => s.txt
  | .or s b => s.txt ++ '|' :: b.txt

end

mutual

/-- What it stands for; the capturing groups are numbered from n + 1 in the order of their parentheses. -/
def Item.re (n : Nat) : Item → Re
  | .lit c _ => .lit c
  | .num n => .lit n.c
  | .letter l => (letters.lookup l).getD .eps
  | .any => .any
  | .cls neg rs dash => .cls neg (classBounds rs dash)
  | .bol => .bol
  | .eol => .eol
  | .group b => .grp (b.re n)
  | .capture b => .cap (n + 1) (b.re (n + 1))
  | .named _ b => .cap (n + 1) (b.re (n + 1))

def Seqn.re (n : Nat) : Seqn → Re
  | .nil => .eps
  | .one a s => .seq (a.re n) (s.re (n + a.groups))
  | .many a q s => .seq (.rep (a.re n) q.min q.max) (s.re (n + a.groups))
  | .lazily a q s => .seq (.lazy (a.re n) q.min q.max) (s.re (n + a.groups))

def Body.re (n : Nat) : Body → Re
  | .last s => s.re n
  | .or s b => .alt (s.re n) (b.re (n + s.groups))

/-- The number of capturing groups. -/
def Item.groups : Item → Nat
  | .group b => b.groups
  | .capture b => b.groups + 1
  | .named _ b => b.groups + 1
  | _ => 0

def Seqn.groups : Seqn → Nat
  | .nil => 0
  | .one a s => a.groups + s.groups
  | .many a _ s => a.groups + s.groups
  | .lazily a _ s => a.groups + s.groups

def Body.groups : Body → Nat
  | .last s => s.groups
  | .or s b => s.groups + b.groups

end

/-- A repetition of something that is repeated k times. -/
def Quant.reps (q : Quant) (k : Nat) : Nat :=
  if q.max = some 0 then 1 else Nat.max 1 (q.max.getD q.min) * k

mutual

/-- How often the innermost part is repeated at least, or at most if there is an upper bound: the product of the counts of the repetitions around it. A
repetition `{0}` or `{0,0}` ends the count. -/
def Item.reps : Item → Nat
  | .group b => b.reps
  | .capture b => b.reps
  | .named _ b => b.reps
  | _ => 1

def Seqn.reps : Seqn → Nat
  | .nil => 1
  | .one a s => Nat.max a.reps s.reps
  | .many a q s => Nat.max (q.reps a.reps) s.reps
  | .lazily a q s => Nat.max (q.reps a.reps) s.reps

def Body.reps : Body → Nat
  | .last s => s.reps
  | .or s b => Nat.max s.reps b.reps

end

mutual

/-- It may be written so: only runes of ASCII which are no letters and no digits have a backslash, those with a meaning of their own must have one;
a class is not empty, and its ranges are in order; bounds are at most 1000, also if repetitions of repetitions are multiplied; names
are of letters, digits and `_`. -/
def Item.ok : Item → Prop
  | .lit c esc => if esc then c.toNat < 128 ∧ c.isAlphanum = false else c ∉ ['\\', '.', '+', '*', '?', '(', ')', '|', '[', '{', '^', '$']
  | .num n => n.ok
  | .letter l => l ∈ letters.map Prod.fst
  | .cls _ rs dash => (rs ≠ [] ∨ dash = true) ∧ ∀ r ∈ rs, r.ok
  | .group b => b.ok
  | .capture b => b.ok
  | .named name b => name ≠ [] ∧ (∀ c ∈ name, c.isAlphanum = true ∨ c = '_') ∧ b.ok
  | _ => True

def Seqn.ok : Seqn → Prop
  | .nil => True
  | .one a s => a.ok ∧ s.ok
  | .many a q s => a.ok ∧ q.ok ∧ q.reps a.reps ≤ 1000 ∧ s.ok
  | .lazily a q s => a.ok ∧ q.ok ∧ q.reps a.reps ≤ 1000 ∧ s.ok

def Body.ok : Body → Prop
  | .last s => s.ok
  | .or s b => s.ok ∧ b.ok

end

end Micro.Regex
