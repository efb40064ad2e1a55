import Verif.Json.PipeProps
import Verif.Json.RoundProps

/-!
C135, C151: which documents come back from the bytes they are written as.
-/

namespace Micro.Json

open Micro Iter

/-- C135. Write and then Parse, through bytes, gives the same value (numbers and names as written; SameValue, C59) exactly for the documents whose
strings and numbers need no escape and no correction (`Clean code`). -/
theorem c135_roundtrip_iff (v : JVal) (hd : v.isDocument = true) (hv : NoInvalid v) :
    (∃ u, parseReader bytesReader ((written v).flatMap utf8) = some (.ok u) ∧ SameValue v u) ↔ Clean code v := by
  rw [← c59_roundtrip_iff .eoi v hd hv]
  obtain ⟨r, h1, h2⟩ := c135_parse bytesReader _ _ _ (yields_of_ofIter (yields_of_forever (c29_roundtrip (written v))))
  rw [map_ch_toNat] at h1
  constructor
  · rintro ⟨u, hu, hs⟩
    rw [h2] at hu
    cases r with
    | error e => cases hu
    | ok p =>
      obtain ⟨v', rest⟩ := p
      cases hu
      exact ⟨_, rest, h1, hs⟩
  · rintro ⟨u, rest, hu, hs⟩
    rw [h1] at hu
    cases hu
    exact ⟨u, h2, hs⟩

/-- C151. The whole program, for every array that was read, every filter and every conversion: the slice is always collected, and what Parse makes of
it after it was written is the same array exactly if the elements kept need no escape. -/
theorem c151_written_iff (rd : Reader ρ) (src : ρ) (rs : List Nat) (fin : Err) (h : Yields (runeCall rd) ⟨false, .eoi, src⟩ rs fin)
    (vs : List JVal) (hp : parseReader rd src = some (.ok (.arr vs))) (p : JVal → Bool) (f : JVal → Except Err JVal) (g : JVal → JVal)
    (hf : ∀ v ∈ vs, p v = true → f v = .ok (g v)) (hv : NoInvalid (.arr ((vs.filter p).map g))) :
    ∃ it, iterateReader rd src = some it ∧ (pipe p f it).YieldsForever [(vs.filter p).map g] .eoi ∧
      ((∃ u, parseReader bytesReader ((written (.arr ((vs.filter p).map g))).flatMap utf8) = some (.ok u) ∧
          SameValue (.arr ((vs.filter p).map g)) u) ↔
        ∀ v ∈ vs, p v = true → Clean code (g v)) := by
  obtain ⟨it, h1, h2⟩ := c151_collected rd src rs fin h vs hp p f g hf
  refine ⟨it, h1, h2, ?_⟩
  rw [c135_roundtrip_iff _ rfl hv]
  constructor
  · intro hc v hv hpv
    cases hc with
    | arr _ hc => exact hc _ (List.mem_map_of_mem (List.mem_filter.2 ⟨hv, hpv⟩))
  · intro hc
    refine .arr _ fun w hw => ?_
    obtain ⟨v, hv, rfl⟩ := List.mem_map.1 hw
    rw [List.mem_filter] at hv
    exact hc v hv.1 hv.2

/-- Non-vacuity: `["a"]`, converted to a string that needs an escape. -/
example : NoInvalid (.arr [.str ['"', ',', '"']]) := .arr _ (by intro v hv; simp at hv; subst hv; exact .str _)
example := c135_roundtrip_iff (.arr [.str ['"', ',', '"']]) rfl (.arr _ (by intro v hv; simp at hv; subst hv; exact .str _))
example := c151_written_iff bytesReader _ _ _ (yields_of_ofIter (yields_of_forever (c29_roundtrip (written (.arr [.str ['a']])))))
  [.str ['a']] (c135_roundtrip _ rfl (.arr _ (by intro v hv; simp at hv; subst hv; exact .str _ (by unfold PlainStr; decide))))
  (fun _ => true) (fun _ => .ok (.str ['"', ',', '"'])) (fun _ => .str ['"', ',', '"']) (fun _ _ _ => rfl)
  (.arr _ (by intro v hv; simp at hv; subst hv; exact .str _))

end Micro.Json
