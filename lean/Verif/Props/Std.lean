import Verif.Proofs.Std
import Verif.Proofs.Utf8
import Verif.Props.Samples
/-!
# C93: types of the standard library round-trip

Addresses, ranges, C strings and paths.
-/
namespace Musli.Std

/-! ### A text of addresses, for the examples -/

/-- Two letters for every byte. -/
def letters : Bytes → Bytes
  | [] => []
  | b :: l => (0x61#8 + (b >>> 4)) :: (0x61#8 + (b &&& 0xF#8)) :: letters l

/-- The inverse of `letters`. -/
def unletters : Bytes → Bytes
  | a :: b :: l => ((a - 0x61#8) <<< 4 ||| (b - 0x61#8)) :: unletters l
  | _ => []

theorem unletters_letters (l : Bytes) : unletters (letters l) = l := by
  induction l with
  | nil => rfl
  | cons b l ih =>
    simp only [letters, unletters, ih]
    congr 1
    revert b
    decide +kernel

theorem letters_valid (l : Bytes) : Utf8.valid (letters l) = true := by
  induction l with
  | nil => rfl
  | cons b l ih =>
    have h : ∀ b : Byte, (0x61#8 + (b >>> 4)).toNat < 128 ∧ (0x61#8 + (b &&& 0xF#8)).toNat < 128 := by
      decide +kernel
    rw [letters, Utf8.valid_cons1 _ (h b).1, Utf8.valid_cons1 _ (h b).2, ih]

/-- The array at the start, if long enough. -/
def firstArr (n : Nat) (b : Bytes) : Option (Arr n) :=
  if h : (b.take n).length = n then some ⟨b.take n, h⟩ else none

theorem firstArr_append {n : Nat} (a : Arr n) (r : Bytes) : firstArr n (a.1 ++ r) = some a := by
  have h : (a.1 ++ r).take n = a.1 := by
    have := List.take_left (l₁ := a.1) (l₂ := r)
    rw [a.2] at this
    exact this
  unfold firstArr
  rw [dif_pos (by rw [h]; exact a.2)]
  congr 1
  exact Subtype.ext h

/-- A text of addresses: two letters for every byte, and nothing for the flow
information. -/
def sampleText : NetText where
  v4 := ⟨fun a => ⟨letters a.1, letters_valid _⟩, fun s => firstArr 4 (unletters s.bytes)⟩
  v6 := ⟨fun a => ⟨letters a.1, letters_valid _⟩, fun s => firstArr 16 (unletters s.bytes)⟩
  s4 := ⟨fun v => ⟨letters (v.1.1 ++ Fixed.leBytes 2 v.2), letters_valid _⟩, fun s =>
    (firstArr 4 (unletters s.bytes)).map fun a => (a, Fixed.ofLeBytes 16 ((unletters s.bytes).drop 4))⟩
  s6 := ⟨fun v => ⟨letters (v.1.1 ++ (Fixed.leBytes 2 v.2.1 ++ Fixed.leBytes 4 v.2.2.2)), letters_valid _⟩,
    fun s => (firstArr 16 (unletters s.bytes)).map fun a =>
      (a, Fixed.ofLeBytes 16 (((unletters s.bytes).drop 16).take 2), 0#32,
        Fixed.ofLeBytes 32 ((unletters s.bytes).drop 18))⟩

theorem sampleText_lawful : sampleText.Lawful where
  v4 a := by
    have := firstArr_append a []
    rw [List.append_nil] at this
    simpa [sampleText, unletters_letters] using this
  v6 a := by
    have := firstArr_append a []
    rw [List.append_nil] at this
    simpa [sampleText, unletters_letters] using this
  s4 v := by
    obtain ⟨a, p⟩ := v
    have h : List.drop 4 a.1 = [] := List.drop_eq_nil_of_le (by rw [a.2]; exact Nat.le_refl _)
    simp only [sampleText, unletters_letters, firstArr_append, Option.map_some, List.drop_append, a.2, h]
    simp
    exact Fixed.ofLeBytes_leBytes (by decide) p
  s6 a p w s := by
    have h : List.drop 16 a.1 = [] := List.drop_eq_nil_of_le (by rw [a.2]; exact Nat.le_refl _)
    have h' : List.drop 18 a.1 = [] := List.drop_eq_nil_of_le (by rw [a.2]; decide)
    have h2 : (Fixed.leBytes 2 p).length = 2 := Fixed.length_leBytes _ _
    have h3 : List.drop 2 (Fixed.leBytes 2 p) = [] := List.drop_eq_nil_of_le (by rw [h2]; exact Nat.le_refl _)
    have h4 : List.take 2 (Fixed.leBytes 2 p) = Fixed.leBytes 2 p :=
      List.take_of_length_le (by rw [h2]; exact Nat.le_refl _)
    simp only [sampleText, unletters_letters, firstArr_append, Option.map_some, List.drop_append, a.2, h, h',
      List.nil_append, h2, h3, List.take_append, h4, Nat.sub_self, List.drop_zero, List.take_zero,
      List.append_nil, Nat.reduceSub]
    rw [Fixed.ofLeBytes_leBytes (by decide), Fixed.ofLeBytes_leBytes (by decide)]
  noFlow _ _ _ _ _ := rfl

/-! ### The property -/

/-- The claim: a value of a type of the standard library is decoded from what it was
encoded as, whatever follows; the type of the bounds of a range is supposed to
round-trip. -/
def C93Full [Host] : Prop :=
  ∀ (T : NetText), T.Lawful → ∀ (o : Options) (env : Env) (s : StdTy) (m : Mode),
    (∀ t, s.bound = some t → Supported o m t = true) → s.envOk env → ∀ (v : s.Val) (bs r : Bytes),
      encStd T o env s m v = .ok bs → decStd T o env s m (bs ++ r) = .ok (v, r)

/-- It holds of all types and formats, of the bounds of ranges which round-trip
themselves, but for: paths in wire and descriptive, or where the options are of
fixed width with an order which is not that of the host; `RangeFull` where values
are copied bitwise; ranges iterated to their end; and the flow information of an
address in the text mode. -/
theorem C93_roundtrip_partial [Host] (T : NetText) (hT : T.Lawful) (o : Options) (env : Env)
    (s : StdTy) (m : Mode) (hs : s.ok o m = true) (henv : s.envOk env) (v : s.Val) (hv : s.valOk v)
    (bs r : Bytes) (h : encStd T o env s m v = .ok bs) :
    decStd T o env s m (bs ++ r) = .ok (v, r) :=
  rt_std hT s m hs henv v hv bs r h

/-- What is written for a path cannot be decoded in wire nor in descriptive,
whatever the path and whatever the options. -/
theorem C93_violated_path [Host] (T : NetText) (o : Options) (env : Env) (f : Form) (m : Mode)
    (hm : m = .wire ∨ m = .descriptive) (v bs r : Bytes)
    (h : encStd T o env (.unixPath f) m v = .ok bs) :
    ∃ e, decStd T o env (.unixPath f) m (bs ++ r) = .error e :=
  path_fails m hm f v h r

/-- A path written on the other platform is refused: it is never taken for another. -/
theorem C93_platforms [Host] (T : NetText) (o : Options) (env : Env) (f : Form) (m : Mode)
    (bs r : Bytes) :
    (∀ v, encStd T o env (.windowsPath f) m v = .ok bs →
      decStd T o env (.unixPath f) m (bs ++ r) = .error .invalid) ∧
    (∀ v, encStd T o env (.unixPath f) m v = .ok bs →
      decStd T o env (.windowsPath f) m (bs ++ r) = .error .invalid) :=
  platform_fails m f bs r

/-- In the text mode two addresses which differ in the flow information have the same
encoding. -/
theorem C93_violated_flow [Host] (T : NetText) (hT : T.Lawful) (o : Options) (env : Env) (m : Mode)
    (a : Arr 16) (p : BitVec 16) (w w' s : BitVec 32) :
    encStd T o env (.sockV6 .text) m (a, p, w, s) = encStd T o env (.sockV6 .text) m (a, p, w', s) := by
  simp only [encStd, encSockV6, encText, hT.noFlow a p w w' s]

/-- Whether an inclusive range has been iterated to its end is not encoded. -/
theorem C93_violated_exhausted [Host] (T : NetText) (o : Options) (env : Env) (m : Mode) (t : Ty)
    (a b : t.Val) :
    encStd T o env (.rangeInclusive t) m (a, b, true) = encStd T o env (.rangeInclusive t) m (a, b, false) :=
  rfl

/-- `RangeFull`, with the options of packed: the eight bytes of the length which was
written are not read. -/
theorem C93_violated_rangeFull :
    @encStd Sample.host sampleText Sample.nativeOpts Sample.env .rangeFull .packed () =
      .ok (List.replicate 8 0#8) ∧
    ∀ r, @decStd Sample.host sampleText Sample.nativeOpts Sample.env .rangeFull .packed
      (List.replicate 8 0#8 ++ r) = .ok ((), List.replicate 8 0#8 ++ r) := by
  refine ⟨by decide +kernel, fun r => ?_⟩
  have hf : (Mode.packed).fast (@Opt.isNativeFixed Sample.nativeOpts) = true := by decide +kernel
  simp only [decStd, viaD, fastD, native_fmt, hf, Ty.bwD, Bool.and_true, Ty.rawD]
  rfl

/-- A path in storage with the options of fixed width, big endian, on a little endian
host: its length cannot be read. -/
theorem C93_violated_path_order :
    let bs : Bytes := [0#8, 0#8, 0#8, 0#8, 0#8, 0#8, 0#8, 0#8, 0#8, 0#8, 0#8, 0#8, 0#8, 0#8, 0#8, 1#8, 0x61#8]
    @encStd Sample.host sampleText Sample.fixedBig Sample.env (.unixPath .binary) .storage [0x61#8] = .ok bs ∧
    ∃ e, @decStd Sample.host sampleText Sample.fixedBig Sample.env (.unixPath .binary) .storage bs = .error e := by
  refine ⟨by decide +kernel, ?_⟩
  have h : (match @decStd Sample.host sampleText Sample.fixedBig Sample.env (.unixPath .binary) .storage
    [0#8, 0#8, 0#8, 0#8, 0#8, 0#8, 0#8, 0#8, 0#8, 0#8, 0#8, 0#8, 0#8, 0#8, 0#8, 1#8, 0x61#8] with
      | .ok _ => true
      | .error _ => false) = false := by decide +kernel
  split at h
  · simp at h
  · exact ⟨_, by assumption⟩

/-- The claim does not hold of the code as it is. -/
theorem C93_full_statement_false : ¬@C93Full Sample.host := by
  intro h
  have henc : @encStd Sample.host sampleText Sample.varOpts Sample.env (.unixPath .binary) .wire [0x61#8] =
      .ok [0x82#8, 0xC0#8, 0x41#8, 0x61#8] := by decide +kernel
  have h1 := @h sampleText sampleText_lawful Sample.varOpts Sample.env (.unixPath .binary) .wire
    (by intro t ht; cases ht) trivial [0x61#8] _ [] henc
  obtain ⟨e, he⟩ := @C93_violated_path Sample.host sampleText Sample.varOpts Sample.env .binary .wire
    (.inl rfl) [0x61#8] _ [] henc
  rw [he] at h1
  cases h1

/-! ### Examples -/

section
local instance : Host := Sample.host

/-- `[::1]:8080`, with a scope. -/
def loop6 : SockV6 := (⟨List.replicate 15 0#8 ++ [1#8], rfl⟩, 8080#16, 0#32, 3#32)

/-- `SocketAddr::V6`, in the binary mode, in all four formats. -/
example : ∀ m : Mode, StdTy.ok Sample.varOpts m (.sockAddr .binary) = true ∧
    (StdTy.sockAddr .binary).envOk Sample.env ∧ (StdTy.sockAddr .binary).valOk (.inr loop6) ∧
    ∃ bs, encStd sampleText Sample.varOpts Sample.env (.sockAddr .binary) m (.inr loop6) = .ok bs := by
  intro m
  refine ⟨rfl, trivial, trivial, ?_⟩
  cases m
  · exact ⟨_, rfl⟩
  · exact ⟨_, rfl⟩
  · exact ⟨_, rfl⟩
  · exact ⟨_, rfl⟩

/-- and in the text mode. -/
example : ∀ m : Mode, StdTy.ok Sample.varOpts m (.sockAddr .text) = true ∧
    (StdTy.sockAddr .text).envOk Sample.env ∧ (StdTy.sockAddr .text).valOk (.inr loop6) ∧
    ∃ bs, encStd sampleText Sample.varOpts Sample.env (.sockAddr .text) m (.inr loop6) = .ok bs := by
  intro m
  refine ⟨rfl, trivial, rfl, ?_⟩
  cases m
  · exact ⟨_, rfl⟩
  · exact ⟨_, rfl⟩
  · exact ⟨_, rfl⟩
  · exact ⟨_, rfl⟩

/-- `1..=300` in wire, a path in packed, a C string in descriptive. -/
example :
    StdTy.ok Sample.varOpts .wire (.rangeInclusive (.prim (.uint .w32))) = true ∧
    encStd sampleText Sample.varOpts Sample.env (.rangeInclusive (.prim (.uint .w32))) .wire
      (1#32, 300#32, false) = .ok [0x82#8, 0xC1#8, 0xFF#8, 0xAC#8, 0x02#8] ∧
    StdTy.ok Sample.nativeOpts .packed (.unixPath .text) = true ∧
    encStd sampleText Sample.varOpts Sample.env (.unixPath .text) .packed [0x61#8] =
      .ok ([4#8] ++ (utf8% "Unix") ++ [1#8, 0x61#8]) ∧
    encStd sampleText Sample.varOpts Sample.env (.windowsPath .text) .packed [0x61#16] =
      .ok ([7#8] ++ (utf8% "Windows") ++ [2#8, 0x61#8, 0#8]) ∧
    encStd sampleText Sample.varOpts Sample.env (.unixPath .binary) .storage [0x61#8] = .ok [0#8, 1#8, 0x61#8] ∧
    encStd sampleText Sample.varOpts Sample.env (.windowsPath .binary) .storage [0x61#16] =
      .ok [1#8, 2#8, 0x61#8, 0#8] ∧
    encStd sampleText Sample.varOpts Sample.env .cstring .descriptive ⟨[0x61#8], by decide⟩ =
      .ok [0xA2#8, 0x61#8, 0#8] := by
  decide +kernel

/-- The names of the variants of addresses. -/
example :
    encStd sampleText Sample.varOpts Sample.env (.ipAddr .binary) .storage (.inl ⟨[127#8, 0#8, 0#8, 1#8], rfl⟩) =
      .ok [0#8, 127#8, 0#8, 0#8, 1#8] ∧
    (∃ bs, encStd sampleText Sample.varOpts Sample.env (.ipAddr .text) .storage
        (.inl ⟨[127#8, 0#8, 0#8, 1#8], rfl⟩) = .ok ([4#8] ++ (utf8% "ipv4") ++ bs)) ∧
    (∃ bs, encStd sampleText Sample.varOpts Sample.env (.ipAddr .text) .storage (.inr loop6.1) =
      .ok ([4#8] ++ (utf8% "ipv6") ++ bs)) ∧
    (∃ bs, encStd sampleText Sample.varOpts Sample.env (.sockAddr .text) .storage
        (.inl (⟨[127#8, 0#8, 0#8, 1#8], rfl⟩, 80#16)) = .ok ([2#8] ++ (utf8% "v4") ++ bs)) ∧
    (∃ bs, encStd sampleText Sample.varOpts Sample.env (.sockAddr .text) .storage (.inr loop6) =
      .ok ([2#8] ++ (utf8% "v6") ++ bs)) :=
  ⟨rfl, ⟨_, rfl⟩, ⟨_, rfl⟩, ⟨_, rfl⟩, ⟨_, rfl⟩⟩

end

end Musli.Std
