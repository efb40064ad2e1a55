import Verif.Json.CodeProps
import Verif.Json.ValueProps
import Verif.IO.CutProps
/-
C153 for JSON: a document cut off at any byte.
-/
namespace Micro.Json
open Micro Micro.Iter Micro.IO

/-- C153, JSON: a document (RFC 8259, object or array at the top) in UTF-8 cut off anywhere before its end is refused by Parse; with InvalidUTF8 if the cut
is inside a character. (Whitespace after the document is not part of it.) -/
theorem c153_json (text : List Char) (v : JVal) (h : IsDoc common text v) (k : Nat) (hk : k < size text) :
    ∃ e, parseReader bytesReader ((text.flatMap utf8).take k) = some (.error e) ∧ e ≠ .eoi ∧
      ((∀ p q, text = p ++ q → size p ≠ k) → e = .invalidUTF8) := by
  rcases cut_at text k (by omega) with ⟨p, q, rfl, rfl, h1⟩ | ⟨p, c, q, j, rfl, h2, h3, rfl, h1⟩
  · have hq : q ≠ [] := by rintro rfl; simp at hk
    obtain ⟨e, he, hne⟩ := c71_truncated .eoi p q v h hq
    obtain ⟨r, h4, h5⟩ := c135_parse bytesReader _ _ _ (yields_whole p .eoi)
    rw [map_ch_toNat, he] at h4
    cases h4
    exact ⟨e, by rw [h1]; exact h5, hne, fun hn => absurd rfl (hn p q rfl)⟩
  · have he := c71_reader_error .invalidUTF8 (by decide) p (c :: q) v h (by simp)
    obtain ⟨r, h4, h5⟩ := c135_parse bytesReader _ _ _ (yields_broken p c j h2 h3 .eoi)
    rw [map_ch_toNat, he] at h4
    cases h4
    exact ⟨.invalidUTF8, by rw [h1]; exact h5, by decide, fun _ => rfl⟩

/-- C153, JSON written by Write: a value without characters that need an escape is read back from all of the bytes, and refused if any are missing. -/
theorem c153_written (v : JVal) (hd : v.isDocument = true) (hc : Clean common v) (k : Nat) :
    (size (written v) ≤ k → parseReader bytesReader (((written v).flatMap utf8).take k) = some (.ok v)) ∧
    (k < size (written v) → ∃ e, parseReader bytesReader (((written v).flatMap utf8).take k) = some (.error e)) := by
  have h := written_doc hc hd
  constructor
  · intro hk
    rw [List.take_of_length_le hk]
    have := c135_rfc (written v) [] v h
    rwa [List.append_nil] at this
  · intro hk
    obtain ⟨e, he, -⟩ := c153_json _ _ h k hk
    exact ⟨e, he⟩

/-- Non-vacuity: ["€"], cut inside the euro sign. -/
example : ∃ e, parseReader bytesReader [0x5B, 0x22, 0xE2, 0x82] = some (.error e) ∧ e ≠ .eoi := by
  obtain ⟨e, h1, h2, -⟩ := c153_json ['[', '"', '€', '"', ']'] _ ⟨[], _, by intro c hc; simp at hc,
    .arr _ _ (.last [] ['"', '€', '"'] [] _ (by intro c hc; simp at hc)
      (.str _ _ ⟨['€'], ['"'], one_char (by decide), .inl rfl, rfl⟩) (by intro c hc; simp at hc)) (by decide), .inr rfl, rfl⟩ 4 (by decide)
  exact ⟨e, h1, h2⟩

example (k : Nat) := c153_written (.arr [.null]) rfl (.arr _ (by simp [Clean.null])) k

end Micro.Json
