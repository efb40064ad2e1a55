import Verif.Json.CodeProps
import Verif.Stream.Props
/-
C151: a JSON document read element by element, filtered and mapped as a stream, collected, written and parsed again.
-/
namespace Micro.Json
open Micro Micro.Iter Micro.Stream

variable {ρ : Type}

/-- A program a user writes with Iterate (encoding/json/parse/parse.go:255-294 `Iterate`), Filter (stream/stream.go:82-104 `Filter`), MapError
(stream/stream.go:62-77 `MapError`) and ReduceToSlice (stream/stream.go:360-395 `ReduceToSlice`): the elements that satisfy `p`, converted with `f`,
collected into a slice. -/
def pipe (p : JVal → Bool) (f : JVal → Except Err JVal) (it : AnyIter JVal) : AnyIter (List JVal) :=
  ⟨_, It.next (reduceToSliceCall (It.next (mapErrorCall f (It.next (filterCall (pure p) it.call))))), ofIter (false, ofIter (ofIter (it.s, ())))⟩

theorem pipe_yields (p : JVal → Bool) (f : JVal → Except Err JVal) (it : AnyIter JVal) (vs : List JVal) (e : Err) (h : it.YieldsForever vs e) :
    (pipe p f it).YieldsForever (if (mapUntil f e (vs.filter p)).2 = .eoi then [(mapUntil f e (vs.filter p)).1] else []) (mapUntil f e (vs.filter p)).2 :=
  c36_reduceToSlice _ _ _ _ (yields_of_forever (c32_mapError f _ _ _ _ (yields_of_forever (c32_filter p it.call it.s vs e (yields_of_forever h)))))

theorem mapUntil_ok {α β : Type} (f : α → Except Err β) (g : α → β) (e : Err) (vs : List α) (h : ∀ v ∈ vs, f v = .ok (g v)) :
    mapUntil f e vs = (vs.map g, e) := by
  induction vs with
  | nil => rfl
  | cons v vs ih =>
    have h1 := h v (by simp)
    have h2 := ih (fun w hw => h w (by simp [hw]))
    simp [mapUntil, h1, h2]

theorem mapUntil_fail {α β : Type} (f : α → Except Err β) (e e' : Err) (g : α → β) (a b : List α) (v : α) (h : ∀ v ∈ a, f v = .ok (g v))
    (hv : f v = .error e') : mapUntil f e (a ++ v :: b) = (a.map g, e') := by
  induction a with
  | nil => simp [mapUntil, hv]
  | cons w a ih =>
    have h1 := h w (by simp)
    have h2 := ih (fun x hx => h x (by simp [hx]))
    simp [mapUntil, h1, h2]

theorem mapUntil_err {α β : Type} (f : α → Except Err β) (e : Err) (he : e ≠ .eoi) (hf : ∀ v, f v ≠ .error .eoi) (vs : List α) :
    (mapUntil f e vs).2 ≠ .eoi := by
  induction vs with
  | nil => exact he
  | cons v vs ih =>
    cases hv : f v with
    | ok y => simpa [mapUntil, hv] using ih
    | error e' => simp only [mapUntil, hv]; rintro rfl; exact hf v hv

/-- C151: the elements of an array that satisfy `p`, converted, are collected in order. Any reader of finitely many runes; whatever follows the
document. -/
theorem c151_collected (rd : Reader ρ) (src : ρ) (rs : List Nat) (fin : Err) (h : Yields (runeCall rd) ⟨false, .eoi, src⟩ rs fin)
    (vs : List JVal) (hp : parseReader rd src = some (.ok (.arr vs))) (p : JVal → Bool) (f : JVal → Except Err JVal) (g : JVal → JVal)
    (hf : ∀ v ∈ vs, p v = true → f v = .ok (g v)) :
    ∃ it, iterateReader rd src = some it ∧ (pipe p f it).YieldsForever [(vs.filter p).map g] .eoi := by
  obtain ⟨it, h1, h2, -, -⟩ := c135_iterate rd src rs fin h
  refine ⟨it, h1, ?_⟩
  have := pipe_yields p f it vs .eoi (h2 vs hp)
  rw [mapUntil_ok f g .eoi (vs.filter p) (fun v hv => by rw [List.mem_filter] at hv; exact hf v hv.1 hv.2)] at this
  simpa using this

/-- C151: an array that was written is read as a stream, and what is collected is written (encoded in UTF-8) and parsed back as the converted elements:
nothing is lost and nothing changes order between two programs that exchange JSON. Partial: for values without characters that need an escape
(c151_written_refuted). -/
theorem c151_written_partial (vs : List JVal) (hc : Clean code (.arr vs)) (p : JVal → Bool) (g : JVal → JVal)
    (hg : Clean code (.arr ((vs.filter p).map g))) :
    ∃ it, iterateReader bytesReader ((written (.arr vs)).flatMap utf8) = some it ∧
      (pipe p (fun v => .ok (g v)) it).YieldsForever [(vs.filter p).map g] .eoi ∧
      parseReader bytesReader ((written (.arr ((vs.filter p).map g))).flatMap utf8) = some (.ok (.arr ((vs.filter p).map g))) := by
  have h := yields_of_ofIter (yields_of_forever (c29_roundtrip (written (.arr vs))))
  obtain ⟨it, h1, h2⟩ := c151_collected bytesReader _ _ _ h vs (c135_roundtrip _ rfl hc) p (fun v => .ok (g v)) g (fun _ _ _ => rfl)
  exact ⟨it, h1, h2, c135_roundtrip _ rfl hg⟩

/-- C151 is false of strings that need an escape: a conversion that makes the string `","` of the string `a` gives, written and parsed, two empty
strings. -/
theorem c151_written_refuted : ∃ (vs : List JVal) (g : JVal → JVal), vs.length = 1 ∧ Clean code (.arr vs) ∧
    ∃ it, iterateReader bytesReader ((written (.arr vs)).flatMap utf8) = some it ∧
      (pipe (fun _ => true) (fun v => .ok (g v)) it).YieldsForever [vs.map g] .eoi ∧
      parseReader bytesReader ((written (.arr (vs.map g))).flatMap utf8) = some (.ok (.arr [.str [], .str []])) := by
  have hc : Clean code (.arr [.str ['a']]) := .arr _ (by intro v hv; simp at hv; subst hv; exact .str _ (by unfold PlainStr; decide))
  refine ⟨[.str ['a']], fun _ => .str ['"', ',', '"'], rfl, hc, ?_⟩
  have h := yields_of_ofIter (yields_of_forever (c29_roundtrip (written (.arr [.str ['a']]))))
  obtain ⟨it, h1, h2⟩ := c151_collected bytesReader _ _ _ h _ (c135_roundtrip _ rfl hc) (fun _ => true)
    (fun _ => .ok (.str ['"', ',', '"'])) (fun _ => .str ['"', ',', '"']) (fun _ _ _ => rfl)
  refine ⟨it, h1, h2, ?_⟩
  have e := c59_refuted.1
  simp only [List.map_cons, List.map_nil]
  rw [e]
  exact c135_roundtrip _ rfl (.arr _ (by intro v hv; simp at hv; subst hv; exact .str [] (by intro c hc; cases hc)))

/-- C151: an element that cannot be converted: no slice is collected, and the error is that of the first such element. -/
theorem c151_bad_element (rd : Reader ρ) (src : ρ) (rs : List Nat) (fin : Err) (h : Yields (runeCall rd) ⟨false, .eoi, src⟩ rs fin)
    (a b : List JVal) (v : JVal) (hp : parseReader rd src = some (.ok (.arr (a ++ v :: b)))) (p : JVal → Bool) (f : JVal → Except Err JVal)
    (g : JVal → JVal) (e : Err) (he : e ≠ .eoi) (ha : ∀ v ∈ a, p v = true → f v = .ok (g v)) (hv : p v = true) (hfv : f v = .error e) :
    ∃ it, iterateReader rd src = some it ∧ (pipe p f it).YieldsForever [] e := by
  obtain ⟨it, h1, h2, -, -⟩ := c135_iterate rd src rs fin h
  refine ⟨it, h1, ?_⟩
  have := pipe_yields p f it _ .eoi (h2 _ hp)
  rw [List.filter_append, List.filter_cons, if_pos hv,
    mapUntil_fail f .eoi e g (a.filter p) (b.filter p) v (fun v hv => by rw [List.mem_filter] at hv; exact ha v hv.1 hv.2) hfv] at this
  simpa [he] using this

/-- C151: of a text that Parse refuses no slice is collected, and the error is not EOI: half a document is never taken for a whole one. (Functions do
not return EOI as their error.) -/
theorem c151_bad_document (rd : Reader ρ) (src : ρ) (rs : List Nat) (fin : Err) (h : Yields (runeCall rd) ⟨false, .eoi, src⟩ rs fin)
    (e : Err) (hp : parseReader rd src = some (.error e)) (p : JVal → Bool) (f : JVal → Except Err JVal) (hf : ∀ v, f v ≠ .error .eoi) :
    ∃ it e', iterateReader rd src = some it ∧ (pipe p f it).YieldsForever [] e' ∧ e' ≠ .eoi := by
  obtain ⟨it, h1, -, -, h2⟩ := c135_iterate rd src rs fin h
  obtain ⟨he, vs, h3⟩ := h2 e hp
  have hne := mapUntil_err f e he hf (vs.filter p)
  have := pipe_yields p f it vs e h3
  rw [if_neg hne] at this
  exact ⟨it, _, h1, this, hne⟩

/-- `[true, null, "ab", false]` without null, with the booleans negated. -/
def exElems : List JVal := [.bool true, .null, .str ['a', 'b'], .bool false]
def exKeep : JVal → Bool
  | .null => false
  | _ => true
def exNot : JVal → JVal
  | .bool b => .bool (!b)
  | v => v

/-- Non-vacuity of c151_written_partial, and so of c151_collected. -/
example : ∃ it, iterateReader bytesReader ((written (.arr exElems)).flatMap utf8) = some it ∧
    (pipe exKeep (fun v => .ok (exNot v)) it).YieldsForever [[.bool false, .str ['a', 'b'], .bool true]] .eoi ∧
    parseReader bytesReader ((written (.arr [.bool false, .str ['a', 'b'], .bool true])).flatMap utf8) =
      some (.ok (.arr [.bool false, .str ['a', 'b'], .bool true])) :=
  c151_written_partial exElems (.arr _ (by
    intro v hv
    simp only [exElems, List.mem_cons, List.not_mem_nil, or_false] at hv
    rcases hv with rfl | rfl | rfl | rfl
    · exact .bool _
    · exact .null
    · exact .str _ (by unfold PlainStr; decide)
    · exact .bool _)) exKeep exNot (.arr _ (by
    intro v hv
    have : v ∈ [JVal.bool false, .str ['a', 'b'], .bool true] := hv
    simp only [List.mem_cons, List.not_mem_nil, or_false] at this
    rcases this with rfl | rfl | rfl
    · exact .bool _
    · exact .str _ (by unfold PlainStr; decide)
    · exact .bool _))

/-- Non-vacuity of c151_bad_element: the string is the one that cannot be converted. -/
example : exElems = [.bool true, .null] ++ .str ['a', 'b'] :: [.bool false] ∧ exKeep (.str ['a', 'b']) = true := ⟨rfl, rfl⟩

/-- Non-vacuity of c151_bad_document: `[nul` -/
example : ∃ e, parseReader bytesReader (['[', 'n', 'u', 'l'].flatMap utf8) = some (.error e) := by
  have hd : IsDoc common (written (.arr [.null])) (.arr [.null]) :=
    written_doc (.arr _ (by intro v hv; simp at hv; subst hv; exact .null)) rfl
  have ht : written (.arr [.null]) = ['[', 'n', 'u', 'l'] ++ ['l', ']'] := by simp [written, writeChunks, writeElems]
  rw [ht] at hd
  obtain ⟨e, he, -⟩ := c71_truncated .eoi _ _ _ hd (by simp)
  obtain ⟨r, h1, h2⟩ := c135_parse bytesReader _ _ _ (yields_of_ofIter (yields_of_forever (c29_roundtrip ['[', 'n', 'u', 'l'])))
  have h3 : (List.map Char.toNat ['[', 'n', 'u', 'l']).map ch = ['[', 'n', 'u', 'l'] := by decide
  rw [h3, he] at h1
  cases h1
  exact ⟨e, h2⟩

end Micro.Json
