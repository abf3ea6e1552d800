import Verif.Model.Value.Std
import Verif.Proofs.Value.Read
import Verif.Props.Value
import Verif.Props.Std
/-!
# C124: types of the standard library as a `Value`
-/
set_option linter.unusedSectionVars false
namespace Musli.Std

section
variable [Host] (T : NetText) (o : Options) (env : Env)

/-- The claim: what `value::encode` makes of a value of a type of the standard library, `value::decode` makes into the
same value; the bounds of ranges are supposed to round-trip, and to be written at all (C63). -/
def C124Full : Prop :=
  ∀ (T : NetText), T.Lawful → ∀ (s : StdTy),
    (∀ t, s.bound = some t → Supported o .descriptive t = true ∧ t.unitFree = true ∧ t.writes = true) →
    s.envOk env → ∀ (v : s.Val) (x : Value), stdToValue T o env s v = .ok x → stdFromValue T o env s x = .ok v

/-- The types which round-trip. -/
def StdTy.valueOk : StdTy → Bool
  | .rangeFull => false
  | .unixPath _ => false
  | _ => true

theorem rtv_text {α : Type} {tf : TextForm α} {v w : α} (h : tf.parse (tf.disp v) = some w) :
    ∃ x, encTextV tf v = .ok (some x) ∧ decTextV tf x = .ok w := by
  refine ⟨_, rfl, ?_⟩
  simp only [decTextV, readStr]
  show (match tf.parse (tf.disp v) with
    | some v => pure v
    | none => .error .invalid : Except Err α) = _
  rw [h]
  rfl

theorem rtv_arr {n : Nat} {tf : TextForm (Arr n)} (h : ∀ a, tf.parse (tf.disp a) = some a) (f : Form) (v : Arr n) :
    ∃ x, encArrV n tf f v = .ok (some x) ∧ decArrV n tf f x = .ok v := by
  cases f with
  | binary =>
    refine ⟨_, rfl, ?_⟩
    show toArray n v.1 = _
    simp [toArray, v.2]
  | text => exact rtv_text (h v)

theorem onPack_of {α : Type} {d : Dec α} {b : Bytes} {a : α} (h : d (b ++ []) = .ok (a, [])) : onPack d b = .ok a := by
  rw [List.append_nil] at h
  unfold onPack
  rw [h]

theorem rtv_sock4 (hT : T.Lawful) (f : Form) (v : SockV4) (x : Option Value)
    (h : encSockV4V T o env f v = .ok x) : ∃ y, x = some y ∧ decSockV4V T o env f y = .ok v := by
  cases f with
  | text =>
    obtain ⟨y, h1, h2⟩ := rtv_text (hT.s4 v)
    rw [show encSockV4V T o env .text v = _ from h1] at h
    cases h
    exact ⟨y, rfl, h2⟩
  | binary =>
    simp only [encSockV4V] at h
    cases hb : ((Mode.packed.fmt o).encArr v.1.1 +> viaE o env u16 .packed v.2) with
    | error e => rw [hb] at h; cases h
    | ok b =>
      rw [hb] at h
      cases h
      refine ⟨_, rfl, ?_⟩
      obtain ⟨p, q, hp, hq, rfl⟩ := Enc.seq_eq_ok.mp hb
      refine onPack_of ?_
      rw [List.append_assoc, Dec.bind_ok (rt_arr hT hT.v4 .binary .packed hp),
        Dec.bind_ok (rt_via u16 (.inl rfl) hq)]
      rfl

theorem rtv_sock6 (hT : T.Lawful) (f : Form) (v : SockV6) (hv : f = .text → v.2.2.1 = 0#32) (x : Option Value)
    (h : encSockV6V T o env f v = .ok x) : ∃ y, x = some y ∧ decSockV6V T o env f y = .ok v := by
  cases f with
  | text =>
    obtain ⟨a, p, w, s⟩ := v
    have hw : w = 0#32 := hv rfl
    subst hw
    obtain ⟨y, h1, h2⟩ := rtv_text (hT.s6 a p 0#32 s)
    rw [show encSockV6V T o env .text _ = _ from h1] at h
    cases h
    exact ⟨y, rfl, h2⟩
  | binary =>
    simp only [encSockV6V] at h
    cases hb : ((Mode.packed.fmt o).encArr v.1.1 +> viaE o env u16 .packed v.2.1 +>
      viaE o env u32 .packed v.2.2.1 +> viaE o env u32 .packed v.2.2.2) with
    | error e => rw [hb] at h; cases h
    | ok b =>
      rw [hb] at h
      cases h
      refine ⟨_, rfl, ?_⟩
      obtain ⟨p, q, hp, hq, rfl⟩ := Enc.seq_eq_ok.mp hb
      obtain ⟨y1, y2, y3, h1, h2, h3, rfl⟩ := seq3 hq
      refine onPack_of ?_
      rw [List.append_assoc, Dec.bind_ok (rt_arr hT hT.v6 .binary .packed hp), List.append_assoc,
        Dec.bind_ok (rt_via u16 (.inl rfl) h1), List.append_assoc,
        Dec.bind_ok (rt_via u32 (.inr rfl) h2), Dec.bind_ok (rt_via u32 (.inr rfl) h3)]
      rfl

theorem seqV2 (t : Ty) (a b : t.Val) :
    seqV [encV o env t a, encV o env t b] = encTysV o env (.cons t (.cons t .nil)) (a, b, ()) := by
  simp only [seqV, encTysV]
  rfl

theorem seqV1 (t : Ty) (a : t.Val) : seqV [encV o env t a] = encTysV o env (.cons t .nil) (a, ()) := by
  simp only [seqV, encTysV]
  rfl

/-- A variant which was written. -/
theorem outVariant_ok {n : Name} {d : Out} {x : Value} (h : (outVariant (nameV n) d).slot = .ok x) :
    ∃ y, d.slot = .ok y ∧ x = .variant (nameV n) y := by
  unfold outVariant at h
  cases hd : d.slot with
  | error e => rw [hd] at h; cases h
  | ok y => rw [hd] at h; cases h; exact ⟨y, rfl, rfl⟩

/-- Reading a tag. -/
theorem tag_read {n : Name} {nt : NameTy} (hn : n.ty = nt) : readName o false nt (nameV n) = .ok n := by
  subst hn
  exact readName_nameV o false n

theorem ok_bind {α β : Type} (a : α) (f : α → Except Err β) : ((Except.ok a : Except Err α) >>= f) = f a := rfl

theorem tuple2_ok {t : Ty} (h : Supported o .descriptive t = true) (hu : t.unitFree = true) (hw : t.writes = true) :
    Supported o .descriptive (.tuple (.cons t (.cons t .nil))) = true ∧
      (Ty.tuple (.cons t (.cons t .nil))).unitFree = true ∧
    Supported o .descriptive (.tuple (.cons t .nil)) = true ∧ (Ty.tuple (.cons t .nil)).unitFree = true := by
  have hf : Mode.descriptive.fast (Opt.isNativeFixed o) = false := rfl
  have h' : t.ok (Opt.isNativeFixed o) (hostOrder o) .descriptive false = true := h
  refine ⟨?_, ?_, ?_, ?_⟩
  · simp [Supported, Ty.ok, Tys.ok, hf, h']
  · simp [Ty.unitFree, Tys.unitFree, hu, hw]
  · simp [Supported, Ty.ok, Tys.ok, hf, h']
  · simp [Ty.unitFree, Tys.unitFree, hu, hw]

/-- A sequence which was written, through C63. -/
theorem tuple_read (ts : Tys) (h : Supported o .descriptive (.tuple ts) = true) (hu : (Ty.tuple ts).unitFree = true)
    (he : (Ty.tuple ts).envOk env) (v : ts.Val) (x : Value) (hx : (outSeq (encTysV o env ts v)).slot = .ok x) :
    decV o env (.tuple ts) false x = .ok v := by
  refine C63_value_roundtrip_partial o env (.tuple ts) h hu he v x ?_
  unfold toValue
  simp only [encV]
  exact hx

/-- **C124.** It holds but for `RangeFull` and paths on Unix, exhausted ranges, and flow information in the text
mode. -/
theorem C124_roundtrip_partial (hT : T.Lawful) (s : StdTy) (hs : s.valueOk = true)
    (hb : ∀ t, s.bound = some t → Supported o .descriptive t = true ∧ t.unitFree = true ∧ t.writes = true)
    (henv : s.envOk env) (v : s.Val) (hv : s.valOk v) (x : Value) (hx : stdToValue T o env s v = .ok x) :
    stdFromValue T o env s x = .ok v := by
  unfold stdToValue at hx
  unfold stdFromValue
  cases s with
  | ipv4 f =>
    obtain ⟨y, h1, h2⟩ := rtv_arr hT.v4 f v
    rw [show encStdV T o env (.ipv4 f) v = _ from h1] at hx
    cases hx
    exact h2
  | ipv6 f =>
    obtain ⟨y, h1, h2⟩ := rtv_arr hT.v6 f v
    rw [show encStdV T o env (.ipv6 f) v = _ from h1] at hx
    cases hx
    exact h2
  | ipAddr f =>
    cases v with
    | inl a =>
      obtain ⟨y, hy, rfl⟩ := outVariant_ok hx
      obtain ⟨z, h1, h2⟩ := rtv_arr hT.v4 f a
      rw [h1] at hy
      cases hy
      simp only [decStdV, readVariant]
      rw [ok_bind, tag_read o (tag_ty f true).1, ok_bind, if_pos rfl, h2]
      rfl
    | inr a =>
      obtain ⟨y, hy, rfl⟩ := outVariant_ok hx
      obtain ⟨z, h1, h2⟩ := rtv_arr hT.v6 f a
      rw [h1] at hy
      cases hy
      simp only [decStdV, readVariant]
      rw [ok_bind, tag_read o (tag_ty f false).1, ok_bind, if_neg (tag_ne f).1, if_pos rfl, h2]
      rfl
  | sockV4 f =>
    cases he : encSockV4V T o env f v with
    | error e => rw [show encStdV T o env (.sockV4 f) v = _ from he] at hx; cases hx
    | ok w =>
      rw [show encStdV T o env (.sockV4 f) v = _ from he] at hx
      obtain ⟨y, rfl, h2⟩ := rtv_sock4 T o env hT f v w he
      cases hx
      exact h2
  | sockV6 f =>
    cases he : encSockV6V T o env f v with
    | error e => rw [show encStdV T o env (.sockV6 f) v = _ from he] at hx; cases hx
    | ok w =>
      rw [show encStdV T o env (.sockV6 f) v = _ from he] at hx
      obtain ⟨y, rfl, h2⟩ := rtv_sock6 T o env hT f v (fun h => by subst h; exact hv) w he
      cases hx
      exact h2
  | sockAddr f =>
    cases v with
    | inl a =>
      obtain ⟨y, hy, rfl⟩ := outVariant_ok hx
      cases he : encSockV4V T o env f a with
      | error e => rw [he] at hy; cases hy
      | ok w =>
        obtain ⟨z, rfl, h2⟩ := rtv_sock4 T o env hT f a w he
        rw [he] at hy
        cases hy
        simp only [decStdV, readVariant]
        rw [ok_bind, tag_read o (tag_ty f true).2.1, ok_bind, if_pos rfl, h2]
        rfl
    | inr a =>
      obtain ⟨y, hy, rfl⟩ := outVariant_ok hx
      cases he : encSockV6V T o env f a with
      | error e => rw [he] at hy; cases hy
      | ok w =>
        obtain ⟨z, rfl, h2⟩ := rtv_sock6 T o env hT f a (fun h => by subst h; exact hv) w he
        rw [he] at hy
        cases hy
        simp only [decStdV, readVariant]
        rw [ok_bind, tag_read o (tag_ty f false).2.1, ok_bind, if_neg (tag_ne f).2.1, if_pos rfl, h2]
        rfl
  | range t =>
    obtain ⟨h1, h2, h3⟩ := hb t rfl
    obtain ⟨g1, g2, -, -⟩ := tuple2_ok o h1 h2 h3
    simp only [encStdV, seqV2] at hx
    simp only [decStdV]
    rw [tuple_read o env _ g1 g2 ⟨henv, henv, trivial⟩ _ x hx]
    rfl
  | rangeInclusive t =>
    obtain ⟨h1, h2, h3⟩ := hb t rfl
    obtain ⟨g1, g2, -, -⟩ := tuple2_ok o h1 h2 h3
    obtain ⟨a, b, e⟩ := v
    have : e = false := hv
    subst this
    simp only [encStdV, seqV2] at hx
    simp only [decStdV]
    rw [tuple_read o env _ g1 g2 ⟨henv, henv, trivial⟩ _ x hx]
    rfl
  | rangeFrom t =>
    obtain ⟨h1, h2, h3⟩ := hb t rfl
    obtain ⟨-, -, g1, g2⟩ := tuple2_ok o h1 h2 h3
    simp only [encStdV, seqV1] at hx
    simp only [decStdV]
    rw [tuple_read o env _ g1 g2 ⟨henv, trivial⟩ _ x hx]
    rfl
  | rangeTo t =>
    obtain ⟨h1, h2, h3⟩ := hb t rfl
    obtain ⟨-, -, g1, g2⟩ := tuple2_ok o h1 h2 h3
    simp only [encStdV, seqV1] at hx
    simp only [decStdV]
    rw [tuple_read o env _ g1 g2 ⟨henv, trivial⟩ _ x hx]
    rfl
  | rangeToInclusive t =>
    obtain ⟨h1, h2, h3⟩ := hb t rfl
    obtain ⟨-, -, g1, g2⟩ := tuple2_ok o h1 h2 h3
    simp only [encStdV, seqV1] at hx
    simp only [decStdV]
    rw [tuple_read o env _ g1 g2 ⟨henv, trivial⟩ _ x hx]
    rfl
  | rangeFull => cases hs
  | cstring =>
    cases hx
    exact fromBytes_nul v
  | unixPath f => cases hs
  | windowsPath f =>
    obtain ⟨y, hy, rfl⟩ := outVariant_ok (n := platformTag f false) (d := wrote (.bytes (wideBytes v))) hx
    cases hy
    simp only [decStdV, readVariant]
    rw [ok_bind, tag_read o (tag_ty f false).2.2, ok_bind, if_neg (tag_ne f).2.2, if_pos rfl]
    exact congrArg Except.ok (wide_units_bytes v)

/-- **C124.** `RangeFull` becomes an empty sequence, which is not `()`; a path on Unix becomes bytes, which are not the
sequence expected. Neither is ever decoded from what it was encoded as. -/
theorem C124_violated (f : Form) (p : Bytes) :
    (∃ x, stdToValue T o env .rangeFull () = .ok x ∧ stdFromValue T o env .rangeFull x = .error .invalid) ∧
    (∃ x, stdToValue T o env (.unixPath f) p = .ok x ∧ stdFromValue T o env (.unixPath f) x = .error .invalid) := by
  refine ⟨⟨_, rfl, by simp only [stdFromValue, decStdV, decV]; rfl⟩, ⟨.variant (nameV (platformTag f true)) (.bytes p), rfl, ?_⟩⟩
  simp only [stdFromValue, decStdV, readVariant]
  rw [ok_bind, tag_read o (tag_ty f true).2.2, ok_bind]
  refine (if_pos rfl).trans ?_
  simp only [decV]
  rfl

/-- **C124.** A path of the other platform is rejected. -/
theorem C124_platforms (f : Form) (x : Value) :
    (∀ v, stdToValue T o env (.windowsPath f) v = .ok x → stdFromValue T o env (.unixPath f) x = .error .invalid) ∧
    (∀ v, stdToValue T o env (.unixPath f) v = .ok x → stdFromValue T o env (.windowsPath f) x = .error .invalid) := by
  constructor
  · intro v hx
    obtain ⟨y, hy, rfl⟩ := outVariant_ok (n := platformTag f false) (d := wrote (.bytes (wideBytes v))) hx
    simp only [stdFromValue, decStdV, readVariant]
    rw [ok_bind, tag_read o (tag_ty f false).2.2, ok_bind]
    exact (if_neg (tag_ne f).2.2).trans (if_pos rfl)
  · intro v hx
    obtain ⟨y, hy, rfl⟩ := outVariant_ok (n := platformTag f true) (d := wrote (.bytes v)) hx
    simp only [stdFromValue, decStdV, readVariant]
    rw [ok_bind, tag_read o (tag_ty f true).2.2, ok_bind, if_pos rfl]

/-- **C124.** The claim does not hold of the code as it is. -/
theorem C124_full_statement_false : ¬C124Full o env := by
  intro h
  obtain ⟨⟨x, h1, h2⟩, -⟩ := C124_violated sampleText o env .binary []
  have := h sampleText sampleText_lawful .rangeFull (fun t h => nomatch h) trivial () x h1
  rw [h2] at this
  cases this

end

/-! ### Examples -/

section
local instance : Host := Sample.host

/-- `SocketAddr::V6` as bytes, and `IpAddr::V4` as text. -/
example : (StdTy.sockAddr .binary).valueOk = true ∧ (StdTy.sockAddr .binary).valOk (.inr loop6) ∧
    stdToValue sampleText Sample.varOpts Sample.env (.sockAddr .binary) (.inr loop6) =
      .ok (.variant (.number (.usize 1#64))
        (.bytes (List.replicate 15 0#8 ++ [1#8, 0x90#8, 0x3F#8, 0#8, 3#8]))) ∧
    stdToValue sampleText Sample.varOpts Sample.env (.ipAddr .text) (.inl ⟨[127#8, 0#8, 0#8, 1#8], rfl⟩) =
      .ok (.variant (.string ⟨utf8% "ipv4", by decide⟩) (.string ⟨utf8% "hpaaaaab", by decide⟩)) :=
  ⟨rfl, trivial, rfl, rfl⟩

/-- A range, a C string and a path. -/
example : Supported Sample.varOpts .descriptive (.prim (.uint .w32)) = true ∧
    stdToValue sampleText Sample.varOpts Sample.env (.range (.prim (.uint .w32))) (1#32, 300#32) =
      .ok (.seq [.number (.uint .w32 1#32), .number (.uint .w32 300#32)]) ∧
    stdToValue sampleText Sample.varOpts Sample.env .cstring ⟨[0x61#8], by decide⟩ = .ok (.bytes [0x61#8, 0#8]) ∧
    stdToValue sampleText Sample.varOpts Sample.env (.windowsPath .binary) [0x261#16] =
      .ok (.variant (.number (.usize 1#64)) (.bytes [0x61#8, 2#8])) :=
  ⟨by decide +kernel, rfl, rfl, rfl⟩

end

end Musli.Std
