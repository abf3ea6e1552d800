import Verif.Proofs.Json.Std
import Verif.Proofs.Std
import Verif.Props.Json
import Verif.Props.Std
import Verif.Props.Borrow
/-!
# C123: types of the standard library in JSON

Addresses, ranges, C strings and paths. `Spec/Json/Std.lean` says what they look like.
-/
set_option linter.unusedSectionVars false
namespace Musli.Std
open Musli.Json Musli.Json.Spec

section
variable (T : NetText) (full : Bool) (env : Env)

/-- The type of the bounds of a range is one which JSON supports. -/
def boundOk (s : StdTy) : Prop :=
  ∀ t, s.bound = some t → t.jsonOk = true ∧ t.jsonNames = true ∧ t.envOk env

/-- **C123.** A value is written as the value of its shape. -/
theorem C123_encode (s : StdTy) (v : s.Val) : encStdJ T env s v = Json.encode env s.shape (s.toShape T v) :=
  encStdJ_shape T env s v

/-- **C123.** What is accepted, for every input: what the shape accepts, if it stands for a value; that value is the
result, and the same part of the input is consumed. -/
theorem C123_decode (s : StdTy) (hs : s ≠ .rangeFull) (i r : Bytes) (v : s.Val) :
    decStdJ T full env s i = .ok (v, r) ↔
      ∃ w, Json.decode full env s.shape i = .ok (w, r) ∧ s.ofShape T w = some v :=
  decStdJ_shape T full env s hs i r v

theorem addr_inverse (n : Nat) (tf : TextForm (Arr n)) (h : ∀ a, tf.parse (tf.disp a) = some a) (f : Form) (v : Arr n) :
    ofAddr n tf f (toAddr n tf f v) = some v := by
  cases f
  · rfl
  · exact h v

theorem sock4_inverse (hT : T.Lawful) (f : Form) (v : SockV4) : ofSock4 T f (toSock4 T f v) = some v := by
  cases f
  · rfl
  · exact hT.s4 v

theorem sock6_inverse (hT : T.Lawful) (f : Form) (v : SockV6) (hv : f = .text → v.2.2.1 = 0#32) :
    ofSock6 T f (toSock6 T f v) = some v := by
  cases f
  · rfl
  · obtain ⟨a, p, w, s⟩ := v
    have := hv rfl
    dsimp only at this
    subst this
    exact hT.s6 a p _ s

/-- **C123.** What a value is written as stands for it, but for exhausted ranges and, in the text mode, flow
information. -/
theorem C123_inverse (hT : T.Lawful) (s : StdTy) (v : s.Val) (hv : s.valOk v) :
    s.ofShape T (s.toShape T v) = some v := by
  cases s with
  | ipv4 f => exact addr_inverse 4 T.v4 hT.v4 f v
  | ipv6 f => exact addr_inverse 16 T.v6 hT.v6 f v
  | ipAddr f =>
    cases v with
    | inl a => simp only [StdTy.ofShape, StdTy.toShape, addr_inverse 4 T.v4 hT.v4 f a, Option.map_some]
    | inr a => simp only [StdTy.ofShape, StdTy.toShape, addr_inverse 16 T.v6 hT.v6 f a, Option.map_some]
  | sockV4 f => exact sock4_inverse T hT f v
  | sockV6 f => exact sock6_inverse T hT f v (fun h => by subst h; exact hv)
  | sockAddr f =>
    cases v with
    | inl a => simp only [StdTy.ofShape, StdTy.toShape, sock4_inverse T hT f a, Option.map_some]
    | inr a =>
      simp only [StdTy.ofShape, StdTy.toShape, sock6_inverse T hT f a (fun h => by subst h; exact hv), Option.map_some]
  | range t => rfl
  | rangeInclusive t =>
    obtain ⟨a, b, e⟩ := v
    have : e = false := hv
    subst this
    rfl
  | rangeFrom t => rfl
  | rangeTo t => rfl
  | rangeToInclusive t => rfl
  | rangeFull => rfl
  | cstring => exact (fromBytesWithNul_iff T _ v).mp (fromBytes_nul v)
  | unixPath f => rfl
  | windowsPath f => exact congrArg some (wide_units_bytes v)

theorem shape_ok (s : StdTy) (hs : boundOk env s) :
    s.shape.jsonOk = true ∧ s.shape.jsonNames = true ∧ s.shape.envOk env := by
  cases s with
  | ipv4 f => cases f <;> exact ⟨rfl, rfl, trivial⟩
  | ipv6 f => cases f <;> exact ⟨rfl, rfl, trivial⟩
  | ipAddr f => cases f <;> exact ⟨by decide, by decide, trivial, trivial, trivial⟩
  | sockV4 f =>
    cases f
    · exact ⟨by decide, by decide, trivial, trivial, trivial⟩
    · exact ⟨rfl, rfl, trivial⟩
  | sockV6 f =>
    cases f
    · exact ⟨by decide, by decide, trivial, trivial, trivial, trivial, trivial⟩
    · exact ⟨rfl, rfl, trivial⟩
  | sockAddr f =>
    cases f
    · exact ⟨by decide, by decide, ⟨trivial, trivial, trivial⟩, ⟨trivial, trivial, trivial, trivial, trivial⟩, trivial⟩
    · exact ⟨by decide, by decide, trivial, trivial, trivial⟩
  | range t =>
    obtain ⟨h1, h2, h3⟩ := hs t rfl
    refine ⟨?_, ?_, h3, h3, trivial⟩
    · simp only [StdTy.shape, Ty.jsonOk, Tys.jsonOk, h1, Bool.and_self]
    · simp only [StdTy.shape, Ty.jsonNames, Tys.jsonNames, h2, Bool.and_self]
  | rangeInclusive t =>
    obtain ⟨h1, h2, h3⟩ := hs t rfl
    refine ⟨?_, ?_, h3, h3, trivial⟩
    · simp only [StdTy.shape, Ty.jsonOk, Tys.jsonOk, h1, Bool.and_self]
    · simp only [StdTy.shape, Ty.jsonNames, Tys.jsonNames, h2, Bool.and_self]
  | rangeFrom t =>
    obtain ⟨h1, h2, h3⟩ := hs t rfl
    refine ⟨?_, ?_, h3, trivial⟩
    · simp only [StdTy.shape, Ty.jsonOk, Tys.jsonOk, h1, Bool.and_self]
    · simp only [StdTy.shape, Ty.jsonNames, Tys.jsonNames, h2, Bool.and_self]
  | rangeTo t =>
    obtain ⟨h1, h2, h3⟩ := hs t rfl
    refine ⟨?_, ?_, h3, trivial⟩
    · simp only [StdTy.shape, Ty.jsonOk, Tys.jsonOk, h1, Bool.and_self]
    · simp only [StdTy.shape, Ty.jsonNames, Tys.jsonNames, h2, Bool.and_self]
  | rangeToInclusive t =>
    obtain ⟨h1, h2, h3⟩ := hs t rfl
    refine ⟨?_, ?_, h3, trivial⟩
    · simp only [StdTy.shape, Ty.jsonOk, Tys.jsonOk, h1, Bool.and_self]
    · simp only [StdTy.shape, Ty.jsonNames, Tys.jsonNames, h2, Bool.and_self]
  | rangeFull => exact ⟨rfl, rfl, trivial⟩
  | cstring => exact ⟨rfl, rfl, trivial⟩
  | unixPath f => cases f <;> exact ⟨by decide, by decide, trivial, trivial, trivial⟩
  | windowsPath f => cases f <;> exact ⟨by decide, by decide, trivial, trivial, trivial⟩

theorem shape_not_float (s : StdTy) : s.shape.isFloat = false := by
  cases s with
  | ipv4 f => cases f <;> rfl
  | ipv6 f => cases f <;> rfl
  | sockV4 f => cases f <;> rfl
  | sockV6 f => cases f <;> rfl
  | _ => rfl

/-- **C123.** Every text which represents the value is decoded to it: whitespace, escapes and unknown members make no
difference. -/
theorem C123_any_representation_partial (hT : T.Lawful) (s : StdTy) (hs : boundOk env s) (v : s.Val) (hv : s.valOk v)
    (ws x rest : Bytes) (hw : Ws ws) (hx : Denotes env s.shape (s.toShape T v) x) (hr : NoNumber rest) :
    decStdJ T full env s (ws ++ (x ++ rest)) = .ok (v, rest) := by
  by_cases h : s = .rangeFull
  · subst h
    simp only [decStdJ, decJ]
    exact skip_isValue hw (denotes_isValue env _ _ x hx) hr
  · rw [decStdJ_shape T full env s h]
    exact ⟨_, decJ_denotes full env s.shape (shape_ok env s hs).2.1 _ x hx ws (lead_of (shape_not_float s) hw) rest hr,
      C123_inverse T hT s v hv⟩

/-- **C123.** The round trip. -/
theorem C123_round_trip_partial (hT : T.Lawful) (s : StdTy) (hs : boundOk env s) (v : s.Val) (hv : s.valOk v)
    (bs rest : Bytes) (he : encStdJ T env s v = .ok bs) (hr : NoNumber rest) :
    decStdJ T full env s (bs ++ rest) = .ok (v, rest) := by
  rw [encStdJ_shape] at he
  obtain ⟨h1, h2, h3⟩ := shape_ok env s hs
  exact C123_any_representation_partial T full env hT s hs v hv [] bs rest (fun _ h => nomatch h)
    (encJ_denotes env _ h1 h2 h3 _ bs he) hr

/-- **C123.** What is written is JSON, and UTF-8, and can be skipped. -/
theorem C123_output_is_json (s : StdTy) (v : s.Val) (bs : Bytes) (he : encStdJ T env s v = .ok bs) :
    IsValue bs ∧ Utf8.valid bs = true ∧ ∀ rest, NoNumber rest → skip (bs ++ rest) = .ok ((), rest) := by
  rw [encStdJ_shape] at he
  have h := encJ_isValue env _ _ bs he
  exact ⟨h, valid_text h, fun rest hr => skip_isValue (ws := []) (fun _ h => nomatch h) h hr⟩

/-- **C123.** What does not stand for a value is rejected: a string which is no address, an array without a zero byte at
its end as a C string, a path of the other platform. -/
theorem C123_rejects (s : StdTy) (hs : s ≠ .rangeFull) (i r : Bytes) (w : s.shape.Val)
    (hd : Json.decode full env s.shape i = .ok (w, r)) (hw : s.ofShape T w = none) :
    ∃ e, decStdJ T full env s i = .error e := by
  cases h : decStdJ T full env s i with
  | error e => exact ⟨e, rfl⟩
  | ok x =>
    obtain ⟨w', h1, h2⟩ := (decStdJ_shape T full env s hs i x.2 x.1).mp h
    have h3 : decJ full env s.shape i = .ok (w, r) := hd
    rw [h3] at h1
    cases h1
    rw [hw] at h2
    cases h2

/-- **C123.** Paths of the other platform, whatever they are. -/
theorem C123_platforms (f : Form) (bs rest : Bytes) (hr : NoNumber rest) :
    (∀ v, encStdJ T env (.windowsPath f) v = .ok bs → ∃ e, decStdJ T full env (.unixPath f) (bs ++ rest) = .error e) ∧
    (∀ v, encStdJ T env (.unixPath f) v = .ok bs → ∃ e, decStdJ T full env (.windowsPath f) (bs ++ rest) = .error e) := by
  constructor
  · intro v he
    rw [encStdJ_shape] at he
    obtain ⟨h1, h2, h3⟩ := shape_ok env (.windowsPath f) (fun t h => nomatch h)
    exact C123_rejects T full env (.unixPath f) (fun h => nomatch h) _ rest (.inr (.inl (wideBytes v)))
      (decJ_denotes full env _ h2 _ bs (encJ_denotes env _ h1 h2 h3 _ bs he) [] lead_nil rest hr) rfl
  · intro v he
    rw [encStdJ_shape] at he
    obtain ⟨h1, h2, h3⟩ := shape_ok env (.unixPath f) (fun t h => nomatch h)
    exact C123_rejects T full env (.windowsPath f) (fun h => nomatch h) _ rest (.inl v)
      (decJ_denotes full env _ h2 _ bs (encJ_denotes env _ h1 h2 h3 _ bs he) [] lead_nil rest hr) rfl

/-- **C123.** `RangeFull` is written as an empty array, but decoded from every value of JSON. -/
theorem C123_violated_rangeFull (x rest : Bytes) (hx : IsValue x) (hr : NoNumber rest) :
    encStdJ T env .rangeFull () = .ok [0x5B#8, 0x5D#8] ∧ decStdJ T full env .rangeFull (x ++ rest) = .ok ((), rest) := by
  refine ⟨rfl, ?_⟩
  simp only [decStdJ, decJ]
  exact skip_isValue (ws := []) (fun _ h => nomatch h) hx hr

/-- **C123.** `&CStr` is never decoded. -/
theorem C123_violated_cstr (i : Bytes) : ∃ e, decCStrJ full i = .error e := by
  cases h : decCStrJ full i with
  | error e => exact ⟨e, rfl⟩
  | ok x =>
    obtain ⟨b, s, h1, -⟩ := P.bind_eq_ok.mp h
    exact absurd h1 (Json.C107_violated_json_bytes full i s b)

/-- **C123.** Exhausted ranges and flow information (text mode) are lost. -/
theorem C123_violated_lost (hT : T.Lawful) (t : Ty) (a b : t.Val) (ip : Arr 16) (p : BitVec 16) (w w' s : BitVec 32) :
    encStdJ T env (.rangeInclusive t) (a, b, true) = encStdJ T env (.rangeInclusive t) (a, b, false) ∧
    encStdJ T env (.sockV6 .text) (ip, p, w, s) = encStdJ T env (.sockV6 .text) (ip, p, w', s) := by
  refine ⟨rfl, ?_⟩
  simp only [encStdJ, encSockV6J, encTextJ, hT.noFlow ip p w w' s]

/-! ### Keys of objects -/

/-- The types which are strings. -/
def StdTy.isText : StdTy → Bool
  | .ipv4 .text => true
  | .ipv6 .text => true
  | .sockV4 .text => true
  | .sockV6 .text => true
  | _ => false

/-- **C123.** Addresses in the text mode can be keys, where they are the same strings. -/
theorem C123_keys (hT : T.Lawful) (s : StdTy) (hs : s.isText = true) (v : s.Val) :
    encStdKeyJ T s v = encStdJ T env s v ∧
    (s.valOk v → ∀ bs, encStdKeyJ T s v = .ok bs → ∀ rest, NoNumber rest → decStdKeyJ T s (bs ++ rest) = .ok (v, rest)) := by
  have key : encStdKeyJ T s v = encStdJ T env s v ∧ decStdKeyJ T s = decStdJ T true env s ∧ s.bound = none := by
    cases s with
    | ipv4 f => cases f <;> first | exact ⟨rfl, rfl, rfl⟩ | cases hs
    | ipv6 f => cases f <;> first | exact ⟨rfl, rfl, rfl⟩ | cases hs
    | sockV4 f => cases f <;> first | exact ⟨rfl, rfl, rfl⟩ | cases hs
    | sockV6 f => cases f <;> first | exact ⟨rfl, rfl, rfl⟩ | cases hs
    | _ => cases hs
  refine ⟨key.1, fun hv bs he rest hr => ?_⟩
  rw [key.2.1]
  rw [key.1] at he
  exact C123_round_trip_partial T true env hT s (fun t h => by rw [key.2.2] at h; cases h) v hv bs rest he hr

/-- **C123.** All others cannot: so no map with `IpAddr` as its key can be written or read. -/
theorem C123_violated_keys (s : StdTy) (hs : s.isText = false) :
    (∀ v, encStdKeyJ T s v = .error .unsupported) ∧ ∀ i, ∃ e, decStdKeyJ T s i = .error e := by
  cases s with
  | ipv4 f => cases f <;> first | exact ⟨fun _ => rfl, fun _ => ⟨_, rfl⟩⟩ | cases hs
  | ipv6 f => cases f <;> first | exact ⟨fun _ => rfl, fun _ => ⟨_, rfl⟩⟩ | cases hs
  | sockV4 f => cases f <;> first | exact ⟨fun _ => rfl, fun _ => ⟨_, rfl⟩⟩ | cases hs
  | sockV6 f => cases f <;> first | exact ⟨fun _ => rfl, fun _ => ⟨_, rfl⟩⟩ | cases hs
  | _ => exact ⟨fun _ => rfl, fun _ => ⟨_, rfl⟩⟩

end

/-! ### Examples -/

section

/-- `SocketAddr::V6` as numbers, and `IpAddr::V4` as text. -/
example : boundOk Sample.env (.sockAddr .binary) ∧ (StdTy.sockAddr .binary).valOk (.inr loop6) ∧
    encStdJ sampleText Sample.env (.sockAddr .binary) (.inr loop6) =
      .ok (utf8% "{\"1\":[[0,0,0,0,0,0,0,0,0,0,0,0,0,0,0,1],8080,0,3]}") ∧
    encStdJ sampleText Sample.env (.ipAddr .text) (.inl ⟨[127#8, 0#8, 0#8, 1#8], rfl⟩) =
      .ok (utf8% "{\"ipv4\":\"hpaaaaab\"}") :=
  ⟨fun _ h => (nomatch h), trivial, by decide +kernel, by decide +kernel⟩

/-- A range of options, a C string and paths. -/
example : boundOk Sample.env (.rangeInclusive (.option (.prim (.uint .w32)))) ∧
    encStdJ sampleText Sample.env (.rangeInclusive (.option (.prim (.uint .w32)))) (none, some 300#32, false) =
      .ok (utf8% "[null,300]") ∧
    encStdJ sampleText Sample.env .cstring ⟨[0x61#8], by decide⟩ = .ok (utf8% "[97,0]") ∧
    encStdJ sampleText Sample.env (.unixPath .text) [0x61#8, 0x62#8] = .ok (utf8% "{\"Unix\":[97,98]}") ∧
    encStdJ sampleText Sample.env (.windowsPath .text) [0x261#16] = .ok (utf8% "{\"Windows\":[97,2]}") :=
  ⟨fun t h => by cases h; exact ⟨rfl, rfl, trivial⟩, by decide +kernel, by decide +kernel, by decide +kernel,
    by decide +kernel⟩

/-- Not an address, and not a C string. -/
example : (StdTy.ipv4 .text).ofShape sampleText (⟨utf8% "no", by decide⟩ : Str) = none ∧
    StdTy.cstring.ofShape sampleText [0x61#8] = none ∧ StdTy.cstring.ofShape sampleText [0#8, 0#8] = none := by
  decide +kernel

end

end Musli.Std
