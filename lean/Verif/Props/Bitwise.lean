import Verif.Proofs.Bitwise
import Verif.Proofs.Lawful
import Verif.Props.Integers
import Verif.Props.Samples
/-!
# C94, C95: copying values as bytes, and what is allocated for them
-/
namespace Musli.Mem

/-! ## C94: copying bytes is sound -/

/-- The claim about decoding: whatever bytes are copied into a type which is decoded
bitwise, they are a value of the type. -/
def C94Full [Host] : Prop :=
  ∀ t : MTy, t.legal → t.bwD = true → ∀ b : Bytes, b.length = t.size → t.valid (b.map some)

/-- It holds of types without `AtomicBool`. -/
theorem C94_decode_partial [Host] (t : MTy) (hl : t.legal) (hb : t.bwD = true)
    (ha : t.hasAtomicBool = false) (b : Bytes) (h : b.length = t.size) : t.valid (b.map some) :=
  valid_all t hl hb ha b h

/-- It holds of no type with an `AtomicBool`. -/
theorem C94_violated_atomicBool [Host] (t : MTy) (hl : t.legal) (ha : t.hasAtomicBool = true) :
    ∃ b : Bytes, b.length = t.size ∧ ¬t.valid (b.map some) :=
  ⟨twos t.size, by simp, invalid_twos t hl ha⟩

/-- The claim does not hold of the code as it is: `AtomicBool` is decoded bitwise. -/
theorem C94_full_statement_false [Host] : ¬C94Full := by
  intro h
  have := h .atomicBool trivial rfl [2#8] rfl
  simp [MTy.valid] at this

/-- Reading a `Vec<AtomicBool>` with native fixed options: the memory of the element
is 2. The nine bytes are a length of one and the element. -/
theorem C94_violated_vec :
    let out := @decodeSlice Sample.host (fun _ => true) (MTy.size .atomicBool)
      [1#8, 0#8, 0#8, 0#8, 0#8, 0#8, 0#8, 0#8, 2#8]
    out.res = .ok ([2#8], []) ∧ out.len = 1 ∧
      ¬@MTy.valid Sample.host .atomicBool [some 2#8] := by
  refine ⟨by decide +kernel, by decide +kernel, ?_⟩
  simp [MTy.valid]

/-- Encoding: the memory of a value which is encoded bitwise has no byte which is not
initialised, hence no padding. -/
theorem C94_encode [Host] (t : MTy) (hl : t.legal) (hb : t.bwE = true) (m : List MByte)
    (hv : t.valid m) : ∃ b : Bytes, m = b.map some := by
  refine ⟨m.filterMap id, ?_⟩
  have h := init_all t hl hb m hv
  clear hv
  induction m with
  | nil => rfl
  | cons x m ih =>
    cases x with
    | none => simp at h
    | some a =>
      have : none ∉ m := fun hm => h (List.mem_cons_of_mem _ hm)
      simpa using ih this

/-- A struct which is copied bitwise is its fields one after the other, in the order
in which they are declared and in which they are encoded otherwise. -/
theorem C94_fields (packed drop : Bool) (size : Nat) (fs : MFields)
    (hl : (MTy.strct packed drop size fs).legal)
    (hb : (MTy.strct packed drop size fs).bwE = true ∨ (MTy.strct packed drop size fs).bwD = true)
    (m : List MByte) (hm : m.length = size) : fs.parts m = m := by
  simp only [MTy.bwE, MTy.bwD, Bool.and_eq_true, beq_iff_eq] at hb
  rcases hb with hb | hb
  · exact parts_all fs size hb.2.1.1.2 hb.2.1.2 hl m hm
  · exact parts_all fs size hb.2.1.1.2 hb.2.1.2 hl m hm

/-- A type which is copied bitwise both ways: every value is decoded from its own
bytes, and is the memory it was. -/
theorem C94_roundtrip [Host] (t : MTy) (hl : t.legal) (hE : t.bwE = true) (hD : t.bwD = true)
    (ha : t.hasAtomicBool = false) (m : List MByte) (hm : m.length = t.size) (hv : t.valid m) :
    ∃ b : Bytes, m = b.map some ∧ t.valid (b.map some) := by
  obtain ⟨b, rfl⟩ := C94_encode t hl hE m hv
  exact ⟨b, rfl, C94_decode_partial t hl hD ha b (by simpa using hm)⟩

/-- `size_of` is the number of bytes of memory of every value. -/
theorem C94_size [Host] (t : MTy) (m : List MByte) (hv : t.valid m) : m.length = t.size := by
  induction t using MTy.rec (motive_2 := fun _ => True) generalizing m with
  | num n => exact hv.1
  | bool => rcases hv with rfl | rfl <;> rfl
  | char => obtain ⟨b, rfl, h, _⟩ := hv; simpa [MTy.size] using h
  | nonZero n => exact hv.1
  | atomicNum n => exact hv.1
  | atomicBool => rcases hv with rfl | rfl <;> rfl
  | empty => rw [show m = [] from hv]; rfl
  | array n t _ => exact hv.1
  | wrapping t ih => exact ih m hv
  | strct p d size fs _ => exact hv.1
  | other n ok => exact hv.1
  | nil => trivial
  | cons => trivial

/-- Field of a struct: its type, whether it is encoded and decoded as its type is, and
whether it is skipped. -/
inductive MFields.Has : MFields → MTy → Bool → Bool → Bool → Prop
  | head {off t e d s fs} : Has (.cons off t e d s fs) t e d s
  | tail {off t e d s fs t' e' d' s'} : Has fs t' e' d' s' → Has (.cons off t e d s fs) t' e' d' s'

/-- Nothing is copied bitwise which was not asked for: a struct is copied only if it is
`#[musli(packed)]` and needs no drop, and then none of its fields is skipped or has an
encoder of its own, and all of them are copied. -/
theorem C94_attributes_encode (packed drop : Bool) (size : Nat) (fs : MFields)
    (hb : (MTy.strct packed drop size fs).bwE = true) :
    packed = true ∧ drop = false ∧
    ∀ t e d s, fs.Has t e d s → e = true ∧ s = false ∧ t.bwE = true := by
  simp only [MTy.bwE, Bool.and_eq_true, Bool.not_eq_true'] at hb
  obtain ⟨⟨⟨h1, h2⟩, h3⟩, ⟨⟨h4, -⟩, -⟩, h5⟩ := hb
  refine ⟨h1, h4, ?_⟩
  intro t e d s h
  induction h with
  | head =>
    simp only [MFields.plain, MFields.unskipped, MFields.bwE, Bool.and_eq_true,
      Bool.not_eq_true', if_true] at h2 h3 h5
    exact ⟨h2.1, h3.1, h5.1⟩
  | tail _ ih =>
    simp only [MFields.plain, MFields.unskipped, MFields.bwE, Bool.and_eq_true] at h2 h3 h5
    exact ih h3.2 h2.2 h5.2

/-- The same for decoding. -/
theorem C94_attributes_decode (packed drop : Bool) (size : Nat) (fs : MFields)
    (hb : (MTy.strct packed drop size fs).bwD = true) :
    packed = true ∧ drop = false ∧
    ∀ t e d s, fs.Has t e d s → d = true ∧ s = false ∧ t.bwD = true := by
  simp only [MTy.bwD, Bool.and_eq_true, Bool.not_eq_true'] at hb
  obtain ⟨⟨⟨h1, h2⟩, h3⟩, ⟨⟨h4, -⟩, -⟩, h5⟩ := hb
  refine ⟨h1, h4, ?_⟩
  intro t e d s h
  induction h with
  | head =>
    simp only [MFields.plain, MFields.unskipped, MFields.bwD, Bool.and_eq_true,
      Bool.not_eq_true', Bool.false_eq_true, if_false] at h2 h3 h5
    exact ⟨h2.1, h3.1, h5.1⟩
  | tail _ ih =>
    simp only [MFields.plain, MFields.unskipped, MFields.bwD, Bool.and_eq_true] at h2 h3 h5
    exact ih h3.2 h2.2 h5.2

/-! ### Examples -/

/-- `#[musli(packed)] #[repr(C)] struct P { a: u32, b: [u16; 2], c: Wrapping<u64> }`. -/
def sampleP : MTy := .strct true false 16
  (.cons 0 (.num 4) true true false (.cons 4 (.array 2 (.num 2)) true true false
    (.cons 8 (.wrapping (.num 8)) true true false .nil)))

/-- `#[musli(packed)] #[repr(C)] struct Q { a: u8, b: u16 }` has a byte of padding. -/
def sampleQ : MTy := .strct true false 4
  (.cons 0 (.num 1) true true false (.cons 2 (.num 2) true true false .nil))

example : sampleP.legal ∧ sampleP.bwE = true ∧ sampleP.bwD = true ∧ sampleP.hasAtomicBool = false := by
  refine ⟨?_, rfl, rfl, rfl⟩
  simp [sampleP, MTy.legal, MFields.legal, MTy.size]

/-- A struct with padding is not copied; its padding need not be initialised. -/
example : sampleQ.bwE = false ∧ sampleQ.bwD = false ∧
    @MTy.valid Sample.host sampleQ [some 1#8, none, some 2#8, some 3#8] := by
  refine ⟨rfl, rfl, ?_⟩
  simp [sampleQ, MTy.valid, MFields.valid, MTy.size]

/-- `bool`, `char` and `NonZero` are copied when encoding only. -/
example : (MTy.bool.bwE, MTy.bool.bwD, MTy.char.bwE, MTy.char.bwD, (MTy.nonZero 4).bwE,
    (MTy.nonZero 4).bwD) = (true, false, true, false, true, false) := rfl

/-! ## C95: what a length makes the decoder allocate -/

/-- Slices of types which are decoded bitwise, from any input. With enough memory the
result is the number of elements which the input claims, if the input has as many
bytes, and an error otherwise. -/
theorem C95_slice [Host] (size : Nat) (hs : 0 < size) (input : Bytes) :
    (decodeSlice (fun _ => true) size input).res =
      if 8 ≤ input.length ∧
          (Fixed.ofNe 64 (input.take 8)).toNat * size ≤ input.length - 8 then
        .ok ((input.drop 8).take ((Fixed.ofNe 64 (input.take 8)).toNat * size),
          (input.drop 8).drop ((Fixed.ofNe 64 (input.take 8)).toNat * size))
      else .error .eof := by
  unfold decodeSlice
  by_cases h8 : input.length < 8
  · rw [if_pos h8, if_neg (by omega)]
  · rw [if_neg h8]
    dsimp only
    rw [if_pos hs, chunks_res _ _ _ _ _ _ (Nat.zero_le _), List.length_drop, Nat.sub_zero]
    by_cases h : (Fixed.ofNe 64 (input.take 8)).toNat * size ≤ input.length - 8
    · rw [if_pos h, if_pos ⟨by omega, h⟩, List.nil_append]
    · rw [if_neg h, if_neg (fun x => h x.2)]

/-- Whatever memory there is and whatever the input claims: what is allocated is at
most twice what has been read and 64 kB and the size of one element; the elements
which are said to be initialised have been read. -/
theorem C95_slice_memory [Host] (mem : Nat → Bool) (size : Nat) (hs : 0 < size) (input : Bytes) :
    let out := decodeSlice mem size input
    out.cap * size ≤ 2 * (out.len * size + (2 ^ 16 + size)) ∧ out.len * size ≤ input.length ∧
    (∀ d r, out.res = .ok (d, r) → d.length = out.len * size ∧ out.len ≤ out.cap) := by
  unfold decodeSlice
  by_cases h8 : input.length < 8
  · simp only [if_pos h8]
    refine ⟨by omega, by omega, by intro d r h; cases h⟩
  · simp only [if_neg h8, gt_iff_lt, if_pos hs]
    obtain ⟨h1, h2, h3⟩ := chunks_alloc mem size (Fixed.ofNe 64 (input.take 8)).toNat hs 0 0 []
      (input.drop 8) (by omega)
    refine ⟨h1, ?_, ?_⟩
    · rw [List.length_drop] at h2; omega
    · intro d r h
      obtain ⟨_, k2, k3, k4⟩ := chunks_ok _ _ _ _ _ _ _ (Nat.zero_le _) h
      rw [k3]
      refine ⟨by simpa using k2, ?_⟩
      exact k4 hs (.inl ⟨rfl, rfl⟩)

/-- Other collections: the result is that of decoding one element after the other; what
is allocated is at most twice the size of the elements decoded so far and 1 MB and one
element; each of them was read from at least one byte, if the decoder of elements
reads at least one byte. -/
theorem C95_collection_partial {α : Type} (size : Nat) (d : Dec α) (n : Nat) (s : Bytes) :
    (defaultSlice (fun _ => true) size d n s).res = decN d n s ∧
    ∀ mem : Nat → Bool, (∀ s v s', d s = .ok (v, s') → s'.length < s.length) →
      let c := defaultSlice mem size d n s
      c.cap * size ≤ 2 * (c.len * size + (2 ^ 20 + size)) ∧ c.len ≤ s.length ∧ c.len ≤ n := by
  constructor
  · unfold defaultSlice
    simp only [Bool.not_true, Bool.false_eq_true, if_false]
    have := @collect_res α size d n (growTo size 0 0 (cautious size n)) [] s
    rw [this]
    cases decN d n s with
    | error e => rfl
    | ok x => rfl
  · intro mem hd
    unfold defaultSlice
    dsimp only
    split
    · refine ⟨by simp, by simp, by simp⟩
    · have hB : growTo size 0 0 (cautious size n) * size ≤ 2 * (0 * size + (2 ^ 20 + size)) :=
        growTo_bytes (Nat.le_trans (cautious_bytes size n) (Nat.le_add_right _ _)) (by omega) (by omega)
      obtain ⟨h1, h2, h3⟩ := collect_alloc mem size (2 ^ 20 + size) (by omega) (by omega) d hd n _ [] s hB
      refine ⟨h1, ?_, ?_⟩
      · simpa using h2
      · simpa using h3

/-- The claim: what is allocated while a sequence is decoded is bounded by what has been
read and a constant, whatever length is claimed. It is about a function which decodes
`n` elements of a given size with a given decoder of elements. -/
def C95Bounded (slice : {α : Type} → (Nat → Bool) → Nat → Dec α → Nat → Bytes → Collected α) : Prop :=
  ∃ k c : Nat, ∀ {α : Type} (size : Nat) (d : Dec α) (n : Nat) (s : Bytes),
    (∀ s v s', d s = .ok (v, s') → s'.length < s.length) →
      (slice (fun _ => true) size d n s).cap * size ≤ k * (s.length * size + size + c)

/-- It holds of what slices, vectors, sets and maps are decoded with. -/
theorem C95_bounded : C95Bounded defaultSlice := by
  refine ⟨2, 2 ^ 20, ?_⟩
  intro α size d n s hd
  obtain ⟨h1, h2, _⟩ := (C95_collection_partial size d n s).2 (fun _ => true) hd
  have := Nat.mul_le_mul_right size h2
  dsimp only at h1 ⊢
  omega

/-- It does not hold of a `Value`: from an input which has no element at all memory is
requested for as many as are claimed. -/
theorem C95_violated_value {α : Type} (size : Nat) (hs : 0 < size) (d : Dec α) (n : Nat)
    (hd : d [] = .error .eof) : n ≤ (valueSlice (fun _ => true) size d n []).cap := by
  unfold valueSlice
  simp only [Bool.not_true, Bool.false_eq_true, if_false]
  have := growTo_ge size 0 0 n hs
  cases n with
  | zero => exact Nat.zero_le _
  | succ n =>
    simp only [collect, hd]
    omega

theorem C95_value_unbounded : ¬C95Bounded valueSlice := by
  rintro ⟨k, c, h⟩
  have h1 := @h (BitVec 8) 1 Dec.readByte (k * (1 + c) + 1) [] (by
    intro s v s' hs
    cases s with
    | nil => cases hs
    | cons a s =>
      cases hs
      simp)
  have h2 := C95_violated_value 1 (by decide) Dec.readByte (k * (1 + c) + 1) rfl
  simp only [List.length_nil, Nat.zero_add, Nat.mul_one] at h1
  omega

/-- Where elements take no space in the encoding, at most ten bytes are decoded to
a vector of any length up to `2^64 - 1`. -/
theorem C95_violated_empty [Host] (env : Env) (n : Nat) (hn : n < 2 ^ 64) :
    ∃ bs : Bytes, bs.length ≤ 10 ∧
      decode Sample.varOpts env .storage (.vec (.packed true .nil)) bs =
        .ok (List.replicate n (), []) := by
  have henc : encLen Sample.varOpts n = .ok (Varint.encode (BitVec.ofNat 64 n)) := by
    unfold encLen
    rw [if_pos hn]
    rfl
  refine ⟨Varint.encode (BitVec.ofNat 64 n), C02_varint_bound (by decide) _, ?_⟩
  have hlen := decLen_encLen Sample.varOpts henc []
  rw [List.append_nil] at hlen
  have hN : ∀ k : Nat, decN (decD Sample.varOpts env (.packed true .nil) .storage) k [] =
      .ok (List.replicate k (), []) := by
    intro k
    induction k with
    | zero => rfl
    | succ k ih =>
      unfold decN
      rw [Dec.bind_ok (a := ()) (s' := [])]
      · rw [Dec.bind_ok ih]; rfl
      · rfl
  have hdec : decode Sample.varOpts env .storage (.vec (.packed true .nil))
      (Varint.encode (BitVec.ofNat 64 n)) = (do
        let c ← decLen Sample.varOpts
        let l ← decN (decD Sample.varOpts env (.packed true .nil) .storage) c
        let _ ← (Mode.storage.fmt Sample.varOpts).endSeq 0
        pure l) (Varint.encode (BitVec.ofNat 64 n)) := rfl
  rw [hdec, Dec.bind_ok hlen, Dec.bind_ok (hN n)]
  rfl

end Musli.Mem
