import Verif.Proofs.Ids
import Verif.Proofs.Encoding

/-!
# Texts of distribution ids: C107
-/

namespace Verif

open Doc

/-- **C107**. Parsing a text gives an id exactly if the text is one of the ways to write that id. -/
theorem C107_texts_of_an_id (b : Bytes) (d : DistId) : parseDistId b = .ok d ↔ Writes d b := parseDistId_iff b d

/-- C107: every other text is refused with an error by Parse, and with a panic by MustParse. -/
theorem C107_other_texts (b : Bytes) (h : ∀ d, ¬ Writes d b) :
    (∃ e, parseDistIdString b = .err e) ∧ mustParseDistId b = .panic := by
  have : ∃ e, parseDistIdString b = .err e := by
    unfold parseDistIdString
    rcases hp : parseDistId b with d | e | _
    · exact absurd ((parseDistId_iff b d).1 hp) (h d)
    · exact ⟨e, rfl⟩
    · exact absurd hp (parseDistId_ne_panic b)
  refine ⟨this, ?_⟩
  obtain ⟨e, he⟩ := this
  simp [mustParseDistId, he]

/-- C107: no text is a way to write two ids. -/
theorem C107_text_has_one_meaning (b : Bytes) (d e : DistId) (hd : Writes d b) (he : Writes e b) : d = e := by
  have h1 := (parseDistId_iff b d).2 hd
  rw [(parseDistId_iff b e).2 he] at h1
  exact (Res.ok.inj h1).symm

/-- C107: String gives the hyphenated form in lower case. -/
theorem C107_text_form (d : DistId) : Hyphenated d.string d ∧ ∀ c ∈ d.string, c ∈ ascii "0123456789abcdef-" := by
  refine ⟨d.string_hyphenated, fun c hc => ?_⟩
  have sub : ∀ c ∈ ascii "0123456789abcdef", c ∈ ascii "0123456789abcdef-" := by decide
  have dash : (45 : UInt8) ∈ ascii "0123456789abcdef-" := by decide
  simp only [DistId.string, List.mem_append, List.mem_singleton] at hc
  rcases hc with (((((((h | rfl) | h) | rfl) | h) | rfl) | h) | rfl) | h
  all_goals first | exact dash | exact sub c (hexEncode_lower _ c h)

/-! ## Instances -/

/-- braces, and other bytes in their place -/
example : ∃ d, parseDistId (ascii "{00112233-4455-6677-8899-aAbBcCdDeEfF}") = .ok d ∧
    parseDistId (ascii "x00112233-4455-6677-8899-aAbBcCdDeEfFy") = .ok d ∧ parseDistId (ascii "URN:uuid:00112233-4455-6677-8899-aabbccddeeff") = .ok d ∧
    parseDistId (ascii "00112233445566778899AABBCCDDEEFF") = .ok d ∧ d.string = ascii "00112233-4455-6677-8899-aabbccddeeff" :=
  ⟨⟨[0, 17, 34, 51, 68, 85, 102, 119, 136, 153, 170, 187, 204, 221, 238, 255], rfl⟩, by decide +kernel, by decide +kernel, by decide +kernel,
    by decide +kernel, by decide +kernel⟩

example : ∀ d, ¬ Writes d (ascii "00112233-4455-6677-8899-aabbccddeefg") := by
  intro d h
  have := (parseDistId_iff _ d).2 h
  have e : parseDistId (ascii "00112233-4455-6677-8899-aabbccddeefg") = .err .badUUID := by decide +kernel
  rw [e] at this
  cases this

end Verif
