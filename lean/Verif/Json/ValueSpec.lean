import Verif.Json.Spec
import Verif.Json.ValueModel
/-
Specification vocabulary for conversions, paths, writing and iterating; it shares the types of values, steps and iterators
with the model, not its functions.
-/
namespace Micro.Json
open Micro Micro.Iter

/-- The regular expression `-?[0-9]+([.][0-9]+)?(e[0-9]+)?` matches all of s. -/
def NumberRegex (s : List Char) : Prop :=
  ∃ sign i f x, (sign = [] ∨ sign = ['-']) ∧ i ≠ [] ∧ AllDigits i ∧ IsFrac f ∧
    (x = [] ∨ ∃ ds, ds ≠ [] ∧ AllDigits ds ∧ x = 'e' :: ds) ∧ s = sign ++ i ++ f ++ x

/-- A Value that consists of proper JSON values only: no invalid Value in it, and in every number a digit. -/
inductive Convertible : JVal → Prop
  | null : Convertible .null
  | bool (b) : Convertible (.bool b)
  | str (s) : Convertible (.str s)
  | num (s) : (∃ c ∈ s, isDigit c = true) → Convertible (.num s)
  | arr (vs) : (∀ v ∈ vs, Convertible v) → Convertible (.arr vs)
  | obj (kvs : List (List Char × JVal)) : (∀ kv ∈ kvs, Convertible kv.2) → Convertible (.obj kvs)

/-- A Go value made of nil, bool, string, NumberString, map[string]any and []any only. -/
inductive PlainGo : GoAny → Prop
  | nil : PlainGo .nil
  | bool (b) : PlainGo (.bool b)
  | str (s) : PlainGo (.str s)
  | numStr (s) : PlainGo (.numStr s)
  | map (kvs : List (List Char × GoAny)) : (∀ kv ∈ kvs, PlainGo kv.2) → PlainGo (.map kvs)
  | slice (vs) : (∀ v ∈ vs, PlainGo v) → PlainGo (.slice vs)

/-- No object in the value has two entries for one key. -/
inductive DistinctKeys : JVal → Prop
  | invalid : DistinctKeys .invalid
  | null : DistinctKeys .null
  | bool (b) : DistinctKeys (.bool b)
  | str (s) : DistinctKeys (.str s)
  | num (s) : DistinctKeys (.num s)
  | arr (vs) : (∀ v ∈ vs, DistinctKeys v) → DistinctKeys (.arr vs)
  | obj (kvs : List (List Char × JVal)) : (kvs.map Prod.fst).Nodup → (∀ kv ∈ kvs, DistinctKeys kv.2) → DistinctKeys (.obj kvs)

/-- Following the steps from v leads to u. -/
inductive At : JVal → List Step → JVal → Prop
  | here (v) : At v [] v
  | key (kvs k u ss w) : (k, u) ∈ kvs → At u ss w → At (.obj kvs) (.key k :: ss) w
  | idx (vs : List JVal) (i : Nat) (u ss w) : vs[i]? = some u → At u ss w → At (.arr vs) (.idx i :: ss) w

/-- The text of one step: a dot and a non-empty key without dots and brackets, or an index in brackets that is an int. -/
def StepText : List Char → Step → Prop
  | t, .key k => k ≠ [] ∧ (∀ c ∈ k, c ≠ '.' ∧ c ≠ '[' ∧ c ≠ ']') ∧ t = '.' :: k
  | t, .idx n => ∃ ds, ds ≠ [] ∧ AllDigits ds ∧ t = '[' :: ds ++ [']'] ∧ n = digitsVal ds ∧ n ≤ 9223372036854775807

/-- A path and its steps. -/
inductive PathText : List Char → List Step → Prop
  | one (t s) : StepText t s → PathText t [s]
  | more (t s u ss) : StepText t s → PathText u ss → PathText (t ++ u) (s :: ss)

/-- The usual way to write steps as a path. -/
def renderPath : List Step → List Char
  | [] => []
  | .key k :: ss => '.' :: k ++ renderPath ss
  | .idx n :: ss => '[' :: natChars n.toNat ++ ']' :: renderPath ss

/-- Passing the chunks to the writer one by one, until it fails. -/
inductive WritesAll {σ : Type} (w : W σ) : σ → List (List Char) → Option Err → σ → Prop
  | done (s) : WritesAll w s [] none s
  | next (s c s' cs r s'') : w s c = (none, s') → WritesAll w s' cs r s'' → WritesAll w s (c :: cs) r s''
  | fail (s c e s' cs) : w s c = (some e, s') → WritesAll w s (c :: cs) (some e) s'

end Micro.Json
