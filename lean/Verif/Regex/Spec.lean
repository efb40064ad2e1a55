import Verif.Regex.Model
/-
What it means for a regular expression to match, without an order in which to try: which texts an expression stands for.
-/
namespace Micro.Regex
variable {α : Type} [Sym α]

/-- n texts one after the other, each in the language. -/
def Times (L : Bool → List α → List α → Prop) : Nat → Bool → List α → List α → Prop
  | 0, _, u, _ => u = []
  | n + 1, bg, u, t => ∃ v w, u = v ++ w ∧ L bg v (w ++ t) ∧ Times L n (bg && v.isEmpty) w t

/-- `Matches re bg u t`: the expression stands for the text u, where t is what follows it, and bg says whether it is at the beginning of the
whole text. (In `{n,m}`, m is not less than n; if it were, it would be ignored.) -/
def Matches : Re → Bool → List α → List α → Prop
  | .eps, _, u, _ => u = []
  | .lit c, _, u, _ => ∃ x, u = [x] ∧ Sym.code x = c.toNat
  | .any, _, u, _ => ∃ x, u = [x] ∧ Sym.code x ≠ 10
  | .cls neg rs, _, u, _ => ∃ x, u = [x] ∧ ((∃ r ∈ rs, r.1.toNat ≤ Sym.code x ∧ Sym.code x ≤ r.2.toNat) ↔ neg = false)
  | .seq a b, bg, u, t => ∃ v w, u = v ++ w ∧ Matches a bg v (w ++ t) ∧ Matches b (bg && v.isEmpty) w t
  | .alt a b, bg, u, t => Matches a bg u t ∨ Matches b bg u t
  | .rep a min max, bg, u, t => ∃ n, min ≤ n ∧ (∀ m, max = some m → n = min ∨ n ≤ m) ∧ Times (Matches a) n bg u t
  | .lazy a min max, bg, u, t => ∃ n, min ≤ n ∧ (∀ m, max = some m → n = min ∨ n ≤ m) ∧ Times (Matches a) n bg u t
  | .grp a, bg, u, t => Matches a bg u t
  | .cap _ a, bg, u, t => Matches a bg u t
  | .bol, bg, u, _ => u = [] ∧ bg = true
  | .eol, _, u, t => u = [] ∧ t = []

/-- A hexadecimal digit. -/
def HexDigit (c : Char) : Prop := ('0' ≤ c ∧ c ≤ '9') ∨ ('A' ≤ c ∧ c ≤ 'F') ∨ ('a' ≤ c ∧ c ≤ 'f')

/-- n hexadecimal digits. -/
def HexDigits (n : Nat) (s : List Char) : Prop := s.length = n ∧ ∀ c ∈ s, HexDigit c

/-- The text form of a UUID: 8-4-4-4-12 hexadecimal digits. -/
def IsUUID (s : List Char) : Prop :=
  ∃ a b c d e, HexDigits 8 a ∧ HexDigits 4 b ∧ HexDigits 4 c ∧ HexDigits 4 d ∧ HexDigits 12 e ∧
    s = a ++ '-' :: (b ++ '-' :: (c ++ '-' :: (d ++ '-' :: e)))

/-- The URL consists of the pieces of the route, and the UUIDs in it are these. -/
inductive Fits : List Piece → List Char → List (List Char) → Prop
  | nil : Fits [] [] []
  | text (s ps u qs) : Fits ps u qs → Fits (.text s :: ps) (s ++ u) qs
  | uuid (x ps u qs) : IsUUID x → Fits ps u qs → Fits (.uuid :: ps) (x ++ u) (x :: qs)

end Micro.Regex
