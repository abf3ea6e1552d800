import Verif.Proofs.Grammar
import Verif.Proofs.RoundTrip
import Verif.Props.Samples
/-!
# C40: the binary decoders accept exactly the documents of their grammar
-/
namespace Musli
open Grammar

section
variable [Host] (o : Options) (env : Env)

/-- **C40.** A binary decoder accepts an input exactly if it begins with a document of
the format for the type, and then returns the value of that document and leaves what
follows it. So everything else is rejected: wrong tags, booleans other than 0 and 1,
zero for `NonZero`, strings that are not UTF-8, surrogates, unknown variants,
missing fields, arrays and tuples of the wrong length. For options without the
bitwise fast path. -/
theorem C40_accepts_exactly (hn : Opt.isNativeFixed o = false) (m : Mode) (t : Ty)
    (ht : Named t = true) (s : Bytes) (v : t.Val) (rest : Bytes) :
    decode o env m t s = .ok (v, rest) ↔ ∃ doc, s = doc ++ rest ∧ Doc o env t m v doc rest :=
  reads_decD o env hn t m ht s v rest

/-- **C40.** Anything that does not begin with a document is an error. -/
theorem C40_rejects_the_rest (hn : Opt.isNativeFixed o = false) (m : Mode) (t : Ty)
    (ht : Named t = true) (s : Bytes)
    (h : ∀ v doc rest, s = doc ++ rest → ¬Doc o env t m v doc rest) :
    ∃ e, decode o env m t s = .error e := by
  cases hd : decode o env m t s with
  | error e => exact ⟨e, rfl⟩
  | ok p =>
    obtain ⟨v, rest⟩ := p
    obtain ⟨doc, h1, h2⟩ := (C40_accepts_exactly o env hn m t ht s v rest).mp hd
    exact (h v doc rest h1 h2).elim

end

/-! Examples: the hypotheses hold, and the grammar tells documents from other bytes. -/
section
open Sample
attribute [local instance] Sample.host

example : Opt.isNativeFixed varOpts = false ∧ Named person = true ∧ Named account = true := by decide

example : Doc varOpts env (.prim .bool) .wire true [0xC1#8] [] := rfl
example : ¬Doc varOpts env (.prim .bool) .wire true [0xC2#8] [] := by
  show ¬([0xC2#8] = [0xC1#8]); decide
example : Doc varOpts env (.vec (.option (.prim .bool))) .wire [some true, none]
    [0x82#8, 0x81#8, 0xC1#8, 0x80#8] [] :=
  ⟨[0x82#8], _, rfl, .inl ⟨by decide, rfl⟩, [0x81#8, 0xC1#8], _, rfl,
    ⟨[0x81#8], _, rfl, rfl, rfl⟩, [0x80#8], _, rfl, rfl, rfl⟩
example : decode varOpts env .wire (.vec (.option (.prim .bool))) [0x82#8, 0x81#8, 0xC1#8, 0x80#8] =
    .ok ([some true, none], []) := by decide
end

/-! ## Consequences -/
section
variable [Host] (o : Options) (env : Env)

/-- **C40.** A boolean in storage is one byte, 0 or 1. -/
theorem C40_storage_bool (b : Byte) (s : Bytes) (v : Bool) (rest : Bytes) :
    decode o env .storage (.prim .bool) (b :: s) = .ok (v, rest) ↔
      s = rest ∧ ((b = 0#8 ∧ v = false) ∨ (b = 1#8 ∧ v = true)) := by
  refine (Storage.reads_bool _ _ _).trans ?_
  constructor
  · rintro ⟨a, h1, rfl⟩
    cases v <;> cases h1 <;> simp
  · rintro ⟨rfl, ⟨rfl, rfl⟩ | ⟨rfl, rfl⟩⟩
    · exact ⟨[0#8], rfl, rfl⟩
    · exact ⟨[1#8], rfl, rfl⟩

/-- **C40.** A string which is accepted by any binary decoder is UTF-8, and its bytes are
those of the document. -/
theorem C40_string_bytes (hn : Opt.isNativeFixed o = false) (m : Mode) (s : Bytes) (v : Str)
    (rest : Bytes) (h : decode o env m .string s = .ok (v, rest)) :
    Utf8.valid v.bytes = true ∧ ∃ head, s = head ++ (v.bytes ++ rest) := by
  refine ⟨v.valid, ?_⟩
  obtain ⟨doc, rfl, h2⟩ := (C40_accepts_exactly o env hn m .string rfl s v rest).mp h
  clear h
  cases m <;> obtain ⟨x, _, rfl⟩ := h2 <;> exact ⟨x, by simp⟩

/-- **C40.** What an encoder writes is a document for the value. -/
theorem C40_encodings_are_documents (hn : Opt.isNativeFixed o = false) (m : Mode) (t : Ty)
    (hs : Supported o m t = true) (ht : Named t = true) (henv : t.envOk env) (v : t.Val)
    (bs rest : Bytes) (he : encode o env m t v = .ok bs) : Doc o env t m v bs rest := by
  have h := rtD o env t m false hs henv v bs rest he (by simp)
  obtain ⟨doc, h1, h2⟩ := (C40_accepts_exactly o env hn m t ht _ _ _).mp h
  rw [List.append_cancel_right h1]; exact h2

end

end Musli
