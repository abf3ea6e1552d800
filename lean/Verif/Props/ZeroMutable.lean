import Verif.Proofs.Zero.Mutable
/-!
# C126: changing what is in a buffer
-/
set_option linter.unusedSectionVars false
namespace Musli.Zero.MutableProps
open Musli Musli.Zero Musli.Zero.LayoutProps

section
variable [Host]

/-- **C126** (partial). Assigning through `load_mut`, or `load_at_mut`, to a reference of any offset, in a buffer with any
contents and address: it succeeds exactly if the value there can be loaded, is otherwise an error, and overwrites the
memory of the value and nothing else.

Missing are the types which are not loaded properly, and offsets so large that the sum with the size overflows (C51). -/
theorem C126_assign_partial {base : Nat} {bs : Bytes} {t : ZTy} {off : Nat} {value : Memory} (hw : t.WF) (hlo : t.LoadOk)
    (hv : Mem t value) (ho : off + t.size < 2 ^ 64) :
    ((∃ d, assign base (bs.map some) t off value = .ok d) ↔ off + t.size ≤ bs.length ∧ (base + off) % 2 ^ t.lg = 0 ∧
      IsValue t (range bs off t.size)) ∧
    (∀ d, assign base (bs.map some) t off value = .ok d → Overwritten (bs.map some) off value d) ∧
    assign base (bs.map some) t off value ≠ .error .ub ∧ assign base (bs.map some) t off value ≠ .error .panic := by
  have hr := loadSized_right (base := base) (buf := bs) hw hlo ho
  have hlen := mem_length t value hw hv
  have e : assign base (bs.map some) t off value =
      (loadSized base bs t off >>= fun _ => .ok (splice (bs.map some) off value)) := by
    rw [assign, initialised_map]; rfl
  rw [e]
  cases hld : loadSized base bs t off with
  | ok s =>
    have hs := (hr.1 s).1 hld
    refine ⟨⟨fun _ => ⟨hs.1, hs.2.1, hs.2.2.1 ▸ hs.2.2.2⟩, fun _ => ⟨_, rfl⟩⟩, fun d hd => ?_, ?_, ?_⟩
    · cases hd
      exact splice_overwritten (by rw [List.length_map, hlen]; exact hs.1)
    · exact fun h => (nomatch h)
    · exact fun h => (nomatch h)
  | error x =>
    refine ⟨⟨fun h => (by obtain ⟨_, h⟩ := h; exact nomatch h), fun h => ?_⟩, fun d hd => (nomatch hd), ?_, ?_⟩
    · have := (hr.1 _).2 ⟨h.1, h.2.1, rfl, h.2.2⟩
      rw [hld] at this
      exact nomatch this
    · intro h
      cases h
      exact hr.2.1 hld
    · intro h
      cases h
      exact hr.2.2 hld

/-- **C126** (partial). Assigning a value without uninitialised padding leaves a buffer the bytes of which are initialised,
from which the value is loaded; everything which does not overlap with it, of any type, is loaded as before.

Missing is what `C126_assign_partial` is missing, and values with uninitialised padding, for which it is false
(`C126_violated_by_padding`). -/
theorem C126_assigned_partial {base : Nat} {bs : Bytes} {t : ZTy} {off : Nat} {value d : Memory} (hw : t.WF)
    (hlo : t.LoadOk) (hv : Mem t value) (ho : off + t.size < 2 ^ 64) (hn : none ∉ value)
    (h : assign base (bs.map some) t off value = .ok d) :
    ∃ bs' : Bytes, d = bs'.map some ∧ loadSized base bs' t off = .ok (bytesOf value) ∧
      ∀ t' off', off' + t'.size ≤ off ∨ off + t.size ≤ off' → loadSized base bs' t' off' = loadSized base bs t' off' := by
  obtain ⟨h1, h2, _⟩ := C126_assign_partial (base := base) (bs := bs) hw hlo hv ho
  obtain ⟨g1, g2, _⟩ := h1.1 ⟨d, h⟩
  obtain ⟨new, rfl⟩ := full_of_no_none hn
  have hlen : new.length = t.size := by simpa using mem_length t _ hw hv
  have hle : off + new.length ≤ bs.length := by omega
  have hd : d = (splice bs off new).map some := by
    rw [assign, initialised_map] at h
    rw [← splice_map]
    cases hld : loadSized base bs t off with
    | ok s =>
      have h : (loadSized base bs t off >>= fun _ => Except.ok (splice (bs.map some) off (new.map some))) = .ok d := h
      rw [hld] at h
      exact (Except.ok.inj h).symm
    | error x =>
      have h : (loadSized base bs t off >>= fun _ => Except.ok (splice (bs.map some) off (new.map some))) = .ok d := h
      rw [hld] at h
      exact nomatch h
  have hbo : bytesOf (new.map some) = new := by
    rw [bytesOf, List.map_map]
    exact List.map_id' new
  refine ⟨splice bs off new, hd, ?_, fun t' off' ha => ?_⟩
  · refine ((loadSized_right hw hlo ho).1 _).2 ⟨by rw [splice_length hle]; omega, g2, ?_, ?_⟩
    · rw [hbo, range, ← hlen, splice_at hle]
    · rw [hbo]; exact ⟨_, hv, agree_self new⟩
  · unfold loadSized
    rw [splice_length hle, splice_apart hle (by rw [hlen]; exact ha)]

/-- **C126** (partial). Assigning to an element of a slice which has been loaded through `load_mut`: it succeeds exactly if
the slice can be loaded and has the element; it overwrites the memory of the element and nothing else. If the index is
too large it panics, and nothing is written. -/
theorem C126_element_partial {base : Nat} {bs : Bytes} {t : ZTy} {start len i : Nat} {value : Memory} (hw : t.WF)
    (hlo : t.LoadOk) (hv : Mem t value) (hbuf : bs.length < 2 ^ 63) :
    ((∃ d, assignElement base (bs.map some) t start len i value = .ok d) ↔
      i < len ∧ start + len * t.size ≤ bs.length ∧ (base + start) % 2 ^ t.lg = 0 ∧
      IsValue (.array t len) (range bs start (len * t.size))) ∧
    (∀ d, assignElement base (bs.map some) t start len i value = .ok d →
      Overwritten (bs.map some) (start + i * t.size) value d) ∧
    assignElement base (bs.map some) t start len i value ≠ .error .ub ∧
    (assignElement base (bs.map some) t start len i value = .error .panic → len ≤ i) := by
  have hr := C51_load_slice_partial (base := base) (buf := bs) (start := start) (len := len) hw hlo hbuf
  unfold LoadsRight at hr
  rw [ZTy.size] at hr
  have hlen := mem_length t value hw hv
  have e : assignElement base (bs.map some) t start len i value =
      (loadSlice base bs t start len >>= fun _ =>
        if i < len then .ok (splice (bs.map some) (start + i * t.size) value) else .error .panic) := by
    rw [assignElement, initialised_map]; rfl
  rw [e]
  cases hld : loadSlice base bs t start len with
  | ok s =>
    have hs := (hr.1 s).1 hld
    show ((∃ d, (if i < len then _ else _) = _) ↔ _) ∧ (∀ d, (if i < len then _ else _) = _ → _) ∧ (if i < len then _ else _) ≠ _ ∧
      ((if i < len then _ else _) = _ → _)
    by_cases hi : i < len
    · simp only [if_pos hi]
      refine ⟨⟨fun _ => ⟨hi, hs.1, hs.2.1, hs.2.2.1 ▸ hs.2.2.2⟩, fun _ => ⟨_, rfl⟩⟩, fun d hd => ?_, fun h => (nomatch h),
        fun h => (nomatch h)⟩
      cases hd
      refine splice_overwritten ?_
      rw [List.length_map, hlen]
      have : (i + 1) * t.size ≤ len * t.size := Nat.mul_le_mul_right _ hi
      rw [Nat.add_mul] at this
      have := hs.1
      omega
    · simp only [if_neg hi]
      refine ⟨⟨fun h => (by obtain ⟨_, h⟩ := h; exact nomatch h), fun h => absurd h.1 hi⟩, fun d hd => (nomatch hd),
        fun h => (nomatch h), fun _ => by omega⟩
  | error x =>
    refine ⟨⟨fun h => (by obtain ⟨_, h⟩ := h; exact nomatch h), fun h => ?_⟩, fun d hd => (nomatch hd), ?_, ?_⟩
    · have := (hr.1 _).2 ⟨h.2.1, h.2.2.1, rfl, h.2.2.2⟩
      rw [hld] at this
      exact nomatch this
    · intro h
      cases h
      exact absurd hld hr.2.1
    · intro h
      cases h
      exact absurd hld hr.2.2

omit [Host] in
/-- **C126**. Changing a string which has been loaded through `load_mut` to another one of the same length succeeds exactly
if it can be loaded, and then the new string is loaded and nothing else has changed. -/
theorem C126_str {bs : Bytes} {start : Nat} {s : List Char} :
    (∃ d, assignStr (bs.map some) start (Utf8.encode s).length (Utf8.encode s) = .ok d) ↔
      start + (Utf8.encode s).length ≤ bs.length ∧
      (∃ cs : List Char, range bs start (Utf8.encode s).length = Utf8.encode cs) ∧
      ∃ bs' : Bytes, assignStr (bs.map some) start (Utf8.encode s).length (Utf8.encode s) = .ok (bs'.map some) ∧
        Overwritten (bs.map some) start ((Utf8.encode s).map some) (bs'.map some) ∧
        loadStr bs' start (Utf8.encode s).length = .ok (Utf8.encode s) := by
  have hr := C51_load_str (buf := bs) (start := start) (len := (Utf8.encode s).length)
  have e : assignStr (bs.map some) start (Utf8.encode s).length (Utf8.encode s) =
      (loadStr bs start (Utf8.encode s).length >>= fun _ => .ok (splice (bs.map some) start ((Utf8.encode s).map some))) := by
    rw [assignStr, initialised_map]; rfl
  constructor
  · rintro ⟨d, hd⟩
    cases hld : loadStr bs start (Utf8.encode s).length with
    | ok x =>
      obtain ⟨h1, h2, h3⟩ := (hr.1 x).1 hld
      refine ⟨h1, h2 ▸ h3, splice bs start (Utf8.encode s), ?_, ?_, ?_⟩
      · rw [e, hld, ← splice_map]; rfl
      · rw [← splice_map]
        exact splice_overwritten (by simpa using h1)
      · exact ((C51_load_str.1 _).2 ⟨by rw [splice_length h1]; exact h1, by rw [range, splice_at h1], s, rfl⟩)
    | error x =>
      rw [e, hld] at hd
      exact nomatch hd
  · rintro ⟨_, _, bs', h, _⟩
    exact ⟨_, h⟩

omit [Host] in
/-- **C126**. `get_mut` of a position gives this byte and no other one, exactly if it is in the buffer. -/
theorem C126_byte {bs : Bytes} {i : Nat} {b : Byte} :
    if i < bs.length then ∃ bs' : Bytes, setByte (bs.map some) i b = .ok (bs'.map some) ∧
      Overwritten (bs.map some) i [some b] (bs'.map some)
    else setByte (bs.map some) i b = .error .bounds := by
  have e : setByte (bs.map some) i b = if i < bs.length then .ok (splice (bs.map some) i [some b]) else .error .bounds := by
    rw [setByte, initialised_map]; rfl
  by_cases h : i < bs.length
  · rw [if_pos h]
    refine ⟨splice bs i [b], ?_, ?_⟩
    · rw [e, if_pos h, ← splice_map]; rfl
    · rw [← splice_map]
      exact splice_overwritten (by simp; omega)
  · rw [if_neg h, e, if_neg h]

/-- **C126** (partial). `load_uninit_mut` of a reference with any offset, and writing a value to it: if it is in the buffer,
this overwrites it with the bytes of the value, and zeros where the padding is, so that the bytes of the buffer are
initialised; nothing else is written. Otherwise it panics.

Missing are the types the padding of which is not found (C52), and, in builds without overflow checks, offsets so large
that the sum with the size overflows, with which it is false (`C126_violated_by_offset`). -/
theorem C126_uninit_partial {checked : Bool} {bs : Bytes} {t : ZTy} {off : Nat} {value : Memory} (hw : t.WF) (hs : t.StoreOk)
    (hv : Mem t value) (hc : checked = true ∨ off + t.size < 2 ^ 64) (hb : bs.length < 2 ^ 64) :
    if off + t.size ≤ bs.length then ∃ bs' : Bytes, writeUninit checked (bs.map some) t off value = .ok (bs'.map some) ∧
      Overwritten (bs.map some) off ((bytesOf value).map some) (bs'.map some)
    else writeUninit checked (bs.map some) t off value = .error .panic := by
  rw [writeUninit_ok hw hs hv hc hb]
  have hlen : (bytesOf value).length = t.size := by rw [bytesOf, List.length_map]; exact mem_length t value hw hv
  by_cases h : off + t.size ≤ bs.length
  · rw [if_pos h, if_pos h]
    refine ⟨_, rfl, ?_⟩
    rw [← splice_map]
    exact splice_overwritten (by simp only [List.length_map]; omega)
  · rw [if_neg h, if_neg h]

/-- **C126** (partial). References to values which do not overlap are variables: whatever is assigned to them through
`load_mut`, written to them through `load_uninit_mut` and exchanged with `swap`, in any order, succeeds; in the end each
of them loads what was assigned to it last; all bytes of the buffer are initialised, and those which do not belong to any
of the references are unchanged.

Missing are the types which are not loaded or stored properly (C51, C52) and the assignment of values with uninitialised
padding (`C126_violated_by_padding`). -/
theorem C126_variables_partial {base : Nat} {checked : Bool} {bs : Bytes} {places : List Place} {values : List Memory}
    (hl : Layable base bs.length places) (hn : values.length = places.length)
    (hv : ∀ (k : Nat) (p : Place) (v : Memory), places[k]? = some p → values[k]? = some v → Mem p.t v ∧ Agree v (range bs p.off p.t.size))
    {acts : List Act} (ht : ∀ act ∈ acts, act.Typed places) :
    ∃ bs' : Bytes, runActs base checked places acts (bs.map some) = .ok (bs'.map some) ∧ bs'.length = bs.length ∧
      (∀ (k : Nat) (p : Place), places[k]? = some p → ∃ v s, (outcome values acts)[k]? = some v ∧
        loadSized base bs' p.t p.off = .ok s ∧ Agree v s) ∧
      ∀ i, Elsewhere places i → bs'[i]? = bs[i]? := by
  obtain ⟨bs', h1, h2, h3, h4⟩ := runActs_spec (checked := checked) hl acts rfl ⟨hn, hv⟩ ht
  refine ⟨bs', h1, h2, fun k p hp => ?_, h4⟩
  obtain ⟨v, hvk⟩ := h3.value hp
  exact ⟨v, _, hvk, h3.load (by rw [h2]; exact hl) hp hvk, (h3.at_ k p v hp hvk).2⟩

end

/-! ### Examples -/

/-- Two records, and a `bool` between them. -/
def places : List Place := [⟨record, 0⟩, ⟨.bool, 13⟩, ⟨record, 16⟩]

def bytes0 : Bytes := [5, 9, 9, 9, 1, 0, 0, 0, 1, 8, 8, 8, 77, 0, 77, 77, 6, 9, 9, 9, 2, 0, 0, 0, 0, 8, 8, 8].map (BitVec.ofNat 8)

def recOf (a n c : Byte) : Memory := [some a, none, none, none, some n, some 0#8, some 0#8, some 0#8, some c, none, none, none]

theorem recOf_mem (a : Byte) {n c : Byte} (hn : n ≠ 0#8) (hc : c = 0#8 ∨ c = 1#8) : Mem record (recOf a n c) := by
  rw [show recOf a n c = [some a] ++ gap 3 ++ [some n, some 0#8, some 0#8, some 0#8] ++ [some c] ++ gap 3 from rfl, record, Mem]
  refine ⟨[some a] ++ gap 3 ++ [some n, some 0#8, some 0#8, some 0#8] ++ [some c], rfl, ?_⟩
  simp only [MemFields, Mem]
  exact ⟨[some a], gap 3 ++ ([some n, some 0#8, some 0#8, some 0#8] ++ [some c]), rfl, ⟨[a], rfl, rfl⟩,
    [some n, some 0#8, some 0#8, some 0#8], [some c], rfl, ⟨[n, 0#8, 0#8, 0#8], rfl, rfl, n, by simp, hn⟩, [some c], [], rfl,
    by rcases hc with rfl | rfl <;> simp, [], [], rfl, rfl, rfl⟩

def sampleActs : List Act := [.write 0 (recOf 3#8 4#8 0#8), .exchange 0 2, .assign 1 [some 1#8], .write 0 (recOf 8#8 1#8 1#8)]

/-- The hypotheses of `C126_variables_partial` hold. -/
theorem places_layable : Layable 64 bytes0.length places := by
  have hrec : record.WF ∧ record.LoadOk ∧ record.StoreOk := by
    refine ⟨by simp [record, ZTy.WF, ZFields.WF, ZTy.zeroSized], ?_, ?_⟩
    · right; simp [ZFields.LoadOk, ZTy.LoadOk, ZTy.need, capped, ZTy.lg]
    · right; simp [ZFields.StoreOk, ZTy.StoreOk, capped, ZTy.lg]
  refine ⟨by decide, ?_, ?_⟩
  · intro p hp
    simp only [places, List.mem_cons, List.not_mem_nil, or_false] at hp
    rcases hp with rfl | rfl | rfl
    · exact ⟨hrec.1, hrec.2.1, hrec.2.2, by decide, by decide⟩
    · exact ⟨by simp [ZTy.WF], by simp [ZTy.LoadOk], by simp [ZTy.StoreOk], by decide, by decide⟩
    · exact ⟨hrec.1, hrec.2.1, hrec.2.2, by decide, by decide⟩
  · intro j k p q hjk hp hq
    match j, k, hjk, hp, hq with
    | 0, 0, h, _, _ | 1, 1, h, _, _ | 2, 2, h, _, _ => exact absurd rfl h
    | 0, 1, _, hp, hq | 0, 2, _, hp, hq | 1, 0, _, hp, hq | 1, 2, _, hp, hq | 2, 0, _, hp, hq | 2, 1, _, hp, hq =>
      cases hp; cases hq; decide
    | _ + 3, _, _, hp, _ => exact nomatch hp
    | _, _ + 3, _, _, hq => exact nomatch hq

theorem places_values : ∀ (k : Nat) (p : Place) (v : Memory), places[k]? = some p → [recOf 5#8 1#8 1#8, [some 0#8], recOf 6#8 2#8 0#8][k]? = some v →
    Mem p.t v ∧ Agree v (range bytes0 p.off p.t.size) := by
  intro k p v hp hv
  match k, hp, hv with
  | 0, hp, hv =>
    cases hp; cases hv
    exact ⟨recOf_mem _ (by decide) (.inr rfl), by
      show Agree _ [5#8, 9#8, 9#8, 9#8, 1#8, 0#8, 0#8, 0#8, 1#8, 8#8, 8#8, 8#8]; repeat constructor⟩
  | 1, hp, hv =>
    cases hp; cases hv
    exact ⟨by simp [Mem], by show Agree _ [0#8]; repeat constructor⟩
  | 2, hp, hv =>
    cases hp; cases hv
    exact ⟨recOf_mem _ (by decide) (.inl rfl), by
      show Agree _ [6#8, 9#8, 9#8, 9#8, 2#8, 0#8, 0#8, 0#8, 0#8, 8#8, 8#8, 8#8]; repeat constructor⟩
  | _ + 3, hp, _ => exact nomatch hp

theorem sampleActs_typed : ∀ act ∈ sampleActs, act.Typed places := by
  intro act ha
  simp only [sampleActs, List.mem_cons, List.not_mem_nil, or_false] at ha
  rcases ha with rfl | rfl | rfl | rfl
  · exact ⟨⟨record, 0⟩, rfl, recOf_mem _ (by decide) (.inl rfl)⟩
  · exact ⟨_, _, rfl, rfl, rfl⟩
  · exact ⟨⟨.bool, 13⟩, rfl, by simp [Mem], by simp⟩
  · exact ⟨⟨record, 0⟩, rfl, recOf_mem _ (by decide) (.inr rfl)⟩

example : ∃ bs' : Bytes, runActs 64 false places sampleActs (bytes0.map some) = .ok (bs'.map some) ∧
    bs' = [8, 0, 0, 0, 1, 0, 0, 0, 1, 0, 0, 0, 77, 1, 77, 77, 3, 0, 0, 0, 4, 0, 0, 0, 0, 0, 0, 0].map (BitVec.ofNat 8) := by
  obtain ⟨bs', h, _⟩ := C126_variables_partial (checked := false) places_layable rfl places_values sampleActs_typed
  refine ⟨bs', h, ?_⟩
  have hrun : runActs 64 false places sampleActs (bytes0.map some) =
      .ok (([8, 0, 0, 0, 1, 0, 0, 0, 1, 0, 0, 0, 77, 1, 77, 77, 3, 0, 0, 0, 4, 0, 0, 0, 0, 0, 0, 0].map (BitVec.ofNat 8)).map some) := by
    decide +kernel
  rw [hrun] at h
  exact (List.map_inj_right (by simp)).1 (Except.ok.inj h.symm)

example : outcome [recOf 5#8 1#8 1#8, [some 0#8], recOf 6#8 2#8 0#8] sampleActs =
    [recOf 8#8 1#8 1#8, [some 1#8], recOf 3#8 4#8 0#8] := by decide +kernel

/-- Elements and strings. -/
example : assignElement 64 ([1#8, 0#8, 2#8, 0#8, 9#8].map some) u16 0 2 1 [some 7#8, some 0#8] =
    .ok ([1#8, 0#8, 7#8, 0#8, 9#8].map some) := by decide +kernel
example : assignElement 64 ([1#8, 0#8, 2#8, 0#8, 9#8].map some) u16 0 2 2 [some 7#8, some 0#8] = .error .panic := by
  decide +kernel
example : assignStr ([0x61#8, 0x62#8].map some) 1 1 [0x42#8] = .ok ([0x61#8, 0x42#8].map some) := by decide +kernel
example : setByte ([0x61#8, 0x62#8].map some) 1 0#8 = .ok ([0x61#8, 0#8].map some) := by decide +kernel
example : setByte ([0x61#8, 0x62#8].map some) 2 0#8 = .error .bounds := by decide +kernel

/-! ### Where C126 is false -/

/-- **C126 is false** for values with padding: assigning one through `load_mut` copies its padding, which is not
initialised, into the buffer, the bytes of which can be read. (`store` and `MaybeUninit::write` fill padding.) -/
theorem C126_violated_by_padding :
    Mem record (recOf 3#8 4#8 0#8) ∧ record.WF ∧ record.LoadOk ∧ record.StoreOk ∧
    ∃ d, assign 64 (bytes0.map some) record 0 (recOf 3#8 4#8 0#8) = .ok d ∧ d[1]? = some none ∧ initialised d = .error .ub := by
  obtain ⟨h1, h2, h3, _⟩ := places_layable.2.1 ⟨record, 0⟩ (by simp [places])
  exact ⟨recOf_mem _ (by decide) (.inl rfl), h1, h2, h3, splice (bytes0.map some) 0 (recOf 3#8 4#8 0#8), by decide +kernel,
    by decide +kernel, by decide +kernel⟩

/-- **C126 is false** for values of the type `MaybeUninit`: assigning `MaybeUninit::uninit()` to what `load_uninit_mut`
returns makes bytes of the buffer uninitialised. -/
theorem C126_violated_by_uninit :
    ∃ d, clearUninit true ([1#8, 2#8].map some) .bool 1 = .ok d ∧ initialised d = .error .ub :=
  ⟨[some 1#8, none], by decide +kernel, by decide +kernel⟩

/-- **C126 is false** in builds without overflow checks: with a reference `Ref::<MaybeUninit<u32>, _, usize>::new(usize::MAX - 3)`
`load_uninit_mut` does not panic, and writing to what it returns writes in front of the buffer. -/
theorem C126_violated_by_offset (bs : Bytes) (hb : bs.length < 2 ^ 63) (a b c d : Byte) :
    writeUninit false (bs.map some) u32 (2 ^ 64 - 4) [some a, some b, some c, some d] = .error .ub := by
  have h1 : loadUninitMut false (bs.map some) u32 (2 ^ 64 - 4) = .ok () := by
    rw [loadUninitMut, if_neg (by simp)]
    exact if_pos (by simp [ZTy.size])
  unfold writeUninit
  rw [h1]
  show writeAt (bs.map some) (2 ^ 64 - 4) [some a, some b, some c, some d] = _
  rw [writeAt, if_neg]
  simp
  omega

end Musli.Zero.MutableProps
