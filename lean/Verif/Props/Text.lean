import Verif.Proofs.Text
import Verif.Props.Binary
import Verif.Props.Json
import Verif.Props.Samples
/-!
# C116: strings in allocated memory
-/
set_option linter.unusedSectionVars false
namespace Musli.Text
open Musli

/-! ### Memory for the examples -/

/-- The system allocator, which always has memory. -/
def plenty : Memory := ⟨Unit, fun _ _ _ => (true, ())⟩

/-- A block of 8 bytes. -/
def eight : Memory := ⟨Unit, fun _ len n => (decide (len + n ≤ 8), ())⟩

/-- `write!(f, "{}{}", s, c)`: two writes, with `?` behind each of them. -/
def pair (s : Str) (c : Char) : Show :=
  .str s fun b => if b then .chr c fun b => .ret b else .ret false

/-- An implementation that ignores the result of its first write. -/
def careless (s : Str) (c : Char) : Show := .str s fun _ => .chr c fun b => .ret b

def hello : Str := ⟨utf8% "hello", by decide⟩

theorem pair_honest (s : Str) (c : Char) : (pair s c).Honest := by
  refine ⟨rfl, rfl, trivial⟩

section
variable {A : Memory}

/-- **C116**: a string which a program has got without `unsafe` holds UTF-8, so it is no undefined behaviour
to look at it. -/
theorem C116_utf8 {t : Text A} (h : Made t) : ∃ s : Str, t.asStr = some s ∧ s.bytes = t.vec.bytes :=
  ⟨_, asStr_valid (made_valid h), rfl⟩

example : Made (A := eight) (runOps (Text.new ()) [.pushStr hello, .push 'é', .push 'é']).2 :=
  .step _ (.push 'é') (.step _ (.push 'é') (.step _ (.pushStr hello) (.new (A := eight) ())))

/-- **C116**: after any calls, with any answers of the allocator, a string has what was in it and then, in
order, what the calls have written. A `push` or `push_str` that fails has written nothing. -/
theorem C116_contents {t : Text A} (h : Made t) (ops : List Op) :
    ∃ w, Wrotes ops (runOps t ops).1 w ∧ (runOps t ops).2.vec.bytes = t.vec.bytes ++ w := by
  obtain ⟨w, h1, h2, _⟩ := runOps_wrotes ops t (made_valid h)
  exact ⟨w, h1, h2⟩

example : (runOps (A := eight) (Text.new ()) [.pushStr hello, .push 'é', .push 'é', .push '!']).1 =
    [true, true, false, true] := by decide

example : (runOps (A := eight) (Text.new ()) [.pushStr hello, .push 'é', .push 'é', .push '!']).2.vec.bytes =
    utf8% "helloé!" := by decide

/-- **C116**: `push` and `push_str` only fail if memory is not granted. -/
theorem C116_push_granted (t : Text A) (c : Char)
    (h : (A.resize t.vec.st t.vec.bytes.length (Utf8.encodeChar c).length).1 = true) :
    (t.push c).1 = true ∧ (t.push c).2.vec.bytes = t.vec.bytes ++ Utf8.encodeChar c := by
  have e := push_spec t c
  have hb : (t.push c).1 = true := by
    show (t.vec.extend _).1 = true
    unfold ByteVec.extend
    split
    · rename_i e; rw [e] at h; cases h
    · rfl
  rw [hb] at e
  exact ⟨hb, e⟩

theorem C116_pushStr_granted (t : Text A) (s : Str)
    (h : (A.resize t.vec.st t.vec.bytes.length s.bytes.length).1 = true) :
    (t.pushStr s).1 = true ∧ (t.pushStr s).2.vec.bytes = t.vec.bytes ++ s.bytes := by
  have e := pushStr_spec t s
  have hb : (t.pushStr s).1 = true := by
    show (t.vec.extend _).1 = true
    unfold ByteVec.extend
    split
    · rename_i e; rw [e] at h; cases h
    · rfl
  rw [hb] at e
  exact ⟨hb, e⟩

/-- **C116**: `from_utf8` accepts the encodings of texts, and nothing else; otherwise the bytes are given back.
`into_bytes` is its inverse. -/
theorem C116_from_utf8 (v : ByteVec A) :
    ((∃ cs, v.bytes = Utf8.encode cs) ∧ ∃ t, Text.fromUtf8 v = .inl t ∧ t.intoBytes = v) ∨
    ((¬ ∃ cs, v.bytes = Utf8.encode cs) ∧ Text.fromUtf8 v = .inr v) := by
  unfold Text.fromUtf8
  by_cases hv : Utf8.valid v.bytes = true
  · rw [if_pos hv]; exact .inl ⟨(Utf8.valid_iff _).mp hv, _, rfl, rfl⟩
  · rw [if_neg hv]; exact .inr ⟨fun h => hv ((Utf8.valid_iff _).mpr h), rfl⟩

/-- **C116**: a string that is returned by `collect_string` is the text of the value, if its `Display`
implementation passes on errors. -/
theorem C116_collect (st : A.State) (d : Show) (hd : d.Honest) (t : Text A) (h : collect st d = .ok t) :
    d.ok = true ∧ t.vec.bytes = d.text := by
  obtain ⟨w, hw, e⟩ := run_accepts d (Text.new st)
  unfold collect at h
  split at h
  · rename_i t' h'
    cases h
    rw [h'] at hw e
    obtain ⟨h1, h2⟩ := accepts_honest hw hd rfl
    have e : t.vec.bytes = [] ++ w := e
    exact ⟨h1, by rw [e, h2]; rfl⟩
  · cases h

/-- **C116**: if there is memory then `collect_string` fails only if the implementation does. -/
theorem C116_collect_granted (hA : ∀ st n k, (A.resize st n k).1 = true) (st : A.State) (d : Show) :
    (d.ok = true ∧ ∃ t, collect st d = .ok t ∧ t.vec.bytes = d.text) ∨
    (d.ok = false ∧ collect st d = .error ()) := by
  obtain ⟨h1, h2⟩ := run_granted hA d (Text.new st)
  unfold collect
  cases hd : d.ok with
  | true =>
    rw [hd] at h1
    generalize d.run (Text.new st) = r at *
    obtain ⟨b, t⟩ := r
    cases h1
    exact .inl ⟨rfl, t, rfl, h2⟩
  | false =>
    rw [hd] at h1
    generalize d.run (Text.new st) = r at *
    obtain ⟨b, t⟩ := r
    cases h1
    exact .inr ⟨rfl, rfl⟩

example : ∃ t, collect (A := plenty) () (pair hello 'é') = .ok t ∧ t.vec.bytes = utf8% "helloé" :=
  ⟨_, rfl, by decide⟩

/-- If errors are not passed on then a part of the text may be missing. -/
example : ∃ t, collect (A := eight) () (careless ⟨utf8% "too long!", by decide⟩ '!') = .ok t ∧
    t.vec.bytes = utf8% "!" := ⟨_, rfl, by decide⟩

/-- **C116**: with `Encoder::collect_string` a value is encoded as the string which is its text, and it is never
undefined behaviour. -/
theorem C116_encode {β} (encodeString : Str → Except Err β) (st : A.State) (d : Show) (hd : d.Honest)
    (b : β) (h : encCollect encodeString st d = .ok b) :
    ∃ s : Str, s.bytes = d.text ∧ encodeString s = .ok b := by
  unfold encCollect at h
  split at h
  · cases h
  · rename_i t ht
    obtain ⟨_, e⟩ := C116_collect st d hd t ht
    rw [asStr_valid (made_valid (.collect st d t ht))] at h
    dsimp only at h
    refine ⟨⟨t.vec.bytes, made_valid (.collect st d t ht)⟩, e, ?_⟩
    split at h
    · rename_i e'; cases h; exact e'
    · cases h

theorem C116_encode_defined {β} (encodeString : Str → Except Err β) (st : A.State) (d : Show) :
    encCollect encodeString st d ≠ .error .ub := by
  unfold encCollect
  split
  · intro h; cases h
  · rename_i t ht
    rw [asStr_valid (made_valid (.collect st d t ht))]
    dsimp only
    split
    · intro h; cases h
    · intro h; cases h

/-- **C116**: and it can be decoded as a string, with all options. -/
theorem C116_decode [Host] (o : Options) (env : Env) (m : Mode) (st : A.State) (d : Show) (hd : d.Honest)
    (bs rest : Bytes) (h : encCollect (encode o env m .string) st d = .ok bs) :
    ∃ s : Str, s.bytes = d.text ∧ decode o env m .string (bs ++ rest) = .ok (s, rest) := by
  obtain ⟨s, e, he⟩ := C116_encode _ st d hd bs h
  exact ⟨s, e, rtD o env .string m false rfl trivial s bs rest he (by simp)⟩

example : letI := Sample.host
    encCollect (A := plenty) (encode Sample.varOpts Sample.env .wire .string) () (pair hello 'é') =
      .ok (0x47#8 :: utf8% "helloé") := by decide +kernel

/-- **C116**: also in JSON. -/
theorem C116_json (full : Bool) (env : Env) (st : A.State) (d : Show) (hd : d.Honest)
    (bs rest : Bytes) (h : encCollect (Json.encode env .string) st d = .ok bs) (hr : Json.Spec.NoNumber rest) :
    ∃ s : Str, s.bytes = d.text ∧ Json.decode full env .string (bs ++ rest) = .ok (s, rest) := by
  obtain ⟨s, e, he⟩ := C116_encode _ st d hd bs h
  exact ⟨s, e, Json.C30_round_trip full env .string rfl rfl trivial s bs rest he hr⟩

/-- **C116**: a `String` is encoded as its text, and it is never undefined behaviour. -/
theorem C116_encode_string {β} (encodeString : Str → Except Err β) {t : Text A} (h : Made t) :
    ∃ s : Str, s.bytes = t.vec.bytes ∧
      encText encodeString t = match encodeString s with
        | .ok b => .ok b
        | .error e => .error (.format e) := by
  refine ⟨⟨t.vec.bytes, made_valid h⟩, rfl, ?_⟩
  unfold encText
  rw [asStr_valid (made_valid h)]
  rfl

/-- **C116**: decoding a string copies what the decoder shows, or takes it over; it fails only if memory is not
granted. -/
theorem C116_visit (st : A.State) (s : Str) (v : Seen A)
    (hv : v = .borrowed s ∨ v = .ref s ∨ ∃ u, v = .owned u ∧ u.asStr = some s) :
    (∃ t, visit st v = .ok t ∧ t.asStr = some s) ∨
    (visit st v = .error () ∧ (A.resize st 0 s.bytes.length).1 = false) := by
  have key : (∃ t, visit st (.ref s) = .ok t ∧ t.asStr = some s) ∨
      (visit st (.ref s) = .error () ∧ (A.resize st 0 s.bytes.length).1 = false) := by
    have e := pushStr_spec (Text.new st) s
    have g := C116_pushStr_granted (Text.new st) s
    unfold visit
    dsimp only
    cases hr : (A.resize st 0 s.bytes.length).1 with
    | true =>
      obtain ⟨g1, g2⟩ := g hr
      generalize (Text.new st).pushStr s = r at *
      obtain ⟨b, t⟩ := r
      cases g1
      have e' : t.vec.bytes = s.bytes := g2
      refine .inl ⟨t, rfl, ?_⟩
      rw [asStr_valid (by rw [e']; exact s.valid)]
      obtain ⟨x, hx⟩ := s
      cases e'
      rfl
    | false =>
      have g1 : ((Text.new st).pushStr s).1 = false := by
        show (ByteVec.extend _ _).1 = false
        unfold ByteVec.extend
        split
        · rfl
        · rename_i e
          have : (A.resize st 0 s.bytes.length).1 = true := congrArg Prod.fst e
          rw [hr] at this
          cases this
      generalize (Text.new st).pushStr s = r at *
      obtain ⟨b, t⟩ := r
      cases g1
      exact .inr ⟨rfl, rfl⟩
  rcases hv with rfl | rfl | ⟨u, rfl, hu⟩
  · exact key
  · exact key
  · exact .inl ⟨u, rfl, hu⟩

example : ∃ t, visit (A := eight) () (.ref hello) = .ok t ∧ t.asStr = some hello := ⟨_, rfl, by decide⟩

example : visit (A := eight) () (.ref ⟨utf8% "too long!", by decide⟩) = .error () := rfl

/-- **C116**: strings are equal if their characters are, and are in the order of their characters. -/
theorem C116_order (a b : Text A) (cs ds : List Char) (ha : a.vec.bytes = Utf8.encode cs)
    (hb : b.vec.bytes = Utf8.encode ds) :
    a.cmp b = cmpChars cs ds ∧ (a.eq b = true ↔ cs = ds) := by
  refine ⟨?_, ?_⟩
  · unfold Text.cmp; rw [ha, hb]; exact cmp_encode cs ds
  · unfold Text.eq
    rw [beq_iff_eq, ha, hb]
    constructor
    · intro h
      have h' := cmp_encode cs ds
      rw [h, (cmpBytes_eq_iff _ _).mpr rfl] at h'
      exact cmpChars_eq h'.symm
    · rintro rfl; rfl

/-- Every string that a program has is the encoding of characters. -/
theorem C116_order_applies {t : Text A} (h : Made t) : ∃ cs, t.vec.bytes = Utf8.encode cs :=
  (Utf8.valid_iff _).mp (made_valid h)

example : (Text.ofStd (A := plenty) () ⟨utf8% "zoo", by decide⟩).cmp (.ofStd () ⟨utf8% "éa", by decide⟩) = .lt := by
  decide

end

end Musli.Text
