import Verif.Proofs.GrammarLex
/-!
# What the decoders accept: wire, descriptive and skipping
-/
set_option linter.unusedSectionVars false
namespace Musli.Grammar
open Musli Musli.Spec

/-! ## Skipping -/

/-- A value that begins with a header for a number of values. -/
inductive Tree (S : Nat → Bytes → Prop) : Bytes → Prop
  | mk {a : Bytes} {items : List Bytes} : S items.length a → (∀ x ∈ items, Tree S x) →
      Tree S (a ++ items.flatten)

/-- `n` values one after the other. -/
def Trees (S : Nat → Bytes → Prop) (n : Nat) (s : Bytes) : Prop :=
  ∃ items : List Bytes, items.length = n ∧ (∀ x ∈ items, Tree S x) ∧ s = items.flatten

theorem trees_of_skipRel {step : Dec Nat} {S : Nat → Bytes → Prop}
    (hs : Reads step fun k => plain (S k)) {n : Nat} {s r : Bytes} (h : SkipRel step n s r) :
    ∃ a, s = a ++ r ∧ Trees S n a := by
  induction h with
  | zero s => exact ⟨[], rfl, [], rfl, by simp, rfl⟩
  | @succ n k s s' r h1 _ ih =>
    obtain ⟨b, rfl, items, hl, hi, rfl⟩ := ih
    obtain ⟨a, rfl, ha⟩ := (hs _ _ _).mp h1
    refine ⟨a ++ items.flatten, by simp, (a ++ (items.take k).flatten) :: items.drop k,
      by simp; omega, ?_, ?_⟩
    · intro x hx
      rcases List.mem_cons.mp hx with rfl | hx
      · refine .mk ?_ fun y hy => hi y (List.mem_of_mem_take hy)
        rw [List.length_take, hl, Nat.min_eq_left (by omega)]
        exact ha
      · exact hi x (List.mem_of_mem_drop hx)
    · rw [List.flatten_cons, List.append_assoc, ← List.flatten_append, List.take_append_drop]

theorem skipRel_of_tree {step : Dec Nat} {S : Nat → Bytes → Prop}
    (hs : Reads step fun k => plain (S k)) {x : Bytes} (hx : Tree S x) :
    ∀ (n : Nat) (b r : Bytes), SkipRel step n b r → SkipRel step (n + 1) (x ++ b) r := by
  induction hx with
  | @mk a items h1 h2 ih =>
    intro n b r hb
    have h3 : SkipRel step (n + items.length) (items.flatten ++ b) r := by
      clear h1 h2
      induction items with
      | nil => exact hb
      | cons x l ih' =>
        have := ih x (by simp) _ _ _ (ih' fun y hy => ih y (by simp [hy]))
        rw [List.flatten_cons, List.append_assoc]
        exact this
    rw [List.append_assoc]
    exact .succ ((hs _ _ _).mpr ⟨a, rfl, h1⟩) h3

theorem reads_skipMany {step : Dec Nat} {S : Nat → Bytes → Prop}
    (hs : Reads step fun k => plain (S k)) (hc : Consumes step) (n : Nat) :
    Reads (skipMany step n) fun _ => plain (Trees S n) := by
  intro s v r
  refine (skipMany_iff hc n s r).trans ?_
  constructor
  · exact trees_of_skipRel hs
  · rintro ⟨_, rfl, items, rfl, hi, rfl⟩
    induction items with
    | nil => exact .zero _
    | cons x l ih =>
      rw [List.flatten_cons, List.append_assoc]
      exact skipRel_of_tree hs (hi x (by simp)) _ _ _ (ih fun y hy => hi y (by simp [hy]))

theorem reads_skipAny {step : Dec Nat} {S : Nat → Bytes → Prop}
    (hs : Reads step fun k => plain (S k)) (hc : Consumes step) :
    Reads (skipAny step) fun _ => plain (Tree S) := by
  refine (reads_skipMany hs hc 1).congr fun v s r => ?_
  constructor
  · rintro ⟨items, hl, hi, rfl⟩
    match items, hl with
    | [x], _ => simpa [plain] using hi x (by simp)
  · intro h
    exact ⟨[s], rfl, fun x hx => by rw [List.mem_singleton.mp hx]; exact h, by simp⟩

/-- Several values after each other. -/
theorem reads_many {f : Nat → Dec Unit} {d : Dec Unit} {I : Bytes → Prop}
    (hd : Reads d fun _ => plain I) (h0 : f 0 = pure ())
    (h1 : ∀ n, f (n + 1) = d >>= fun _ => f n) (n : Nat) :
    Reads (f n) fun _ s _ => ∃ items : List Bytes, items.length = n ∧ (∀ x ∈ items, I x) ∧
      s = items.flatten := by
  induction n with
  | zero =>
    rw [h0]
    refine (reads_pure ()).congr fun v s r => ?_
    constructor
    · rintro ⟨_, rfl⟩; exact ⟨[], rfl, by simp, rfl⟩
    · rintro ⟨items, h, _, rfl⟩; rw [List.length_eq_zero_iff.mp h]; exact ⟨rfl, rfl⟩
  | succ n ih =>
    rw [h1]
    refine (reads_bind hd fun _ => ih).congr fun v s r => ?_
    constructor
    · rintro ⟨_, a, b, rfl, ha, items, rfl, hi, rfl⟩
      exact ⟨a :: items, rfl, by
        intro x hx
        rcases List.mem_cons.mp hx with rfl | hx
        · exact ha
        · exact hi x hx, by simp⟩
    · rintro ⟨items, hl, hi, rfl⟩
      cases items with
      | nil => cases hl
      | cons x l =>
        exact ⟨(), x, l.flatten, by simp, hi x (by simp), l, by simpa using hl,
          fun y hy => hi y (by simp [hy]), rfl⟩

section
variable [Host] (o : Options)

namespace Wire

/-! ### Tags -/

theorem tag_cases (t : Byte) : ∀ k ∈ [0x40#8, 0x80#8, 0xC0#8], Wire.kind t = k →
    (Wire.data t = none ∧ t = k + 63#8) ∨
    ∃ d, Wire.data t = some d ∧ d.toNat < 63 ∧ t = k + d := by
  intro k hk h
  have key : ∀ t : Byte, Wire.data t = none ∧ t = Wire.kind t + 63#8 ∨
      (Wire.data t = some (t &&& 63#8) ∧ (t &&& 63#8).toNat < 63 ∧ t = Wire.kind t + (t &&& 63#8)) := by
    decide
  rcases key t with ⟨h1, h2⟩ | ⟨h1, h2, h3⟩
  · exact .inl ⟨h1, h ▸ h2⟩
  · exact .inr ⟨_, h1, h2, by rw [← h]; exact h3⟩

theorem tag_byte : ∀ k ∈ [0x40, 0x80, 0xC0], ∀ n, n < 63 →
    Wire.kind (byte (k + n)) = byte k ∧ Wire.data (byte (k + n)) = some (byte n) := by
  intro k hk n hn
  have key : ∀ n : Fin 63, ∀ k ∈ [0x40, 0x80, 0xC0],
      Wire.kind (byte (k + n)) = byte k ∧ Wire.data (byte (k + n)) = some (byte n) := by decide
  exact key ⟨n, hn⟩ k hk

theorem tag_full : ∀ k ∈ [0x40, 0x80, 0xC0],
    Wire.kind (byte (k + 63)) = byte k ∧ Wire.data (byte (k + 63)) = none := by decide

theorem byte_toNat {d : Byte} {n : Nat} (h : d.toNat = n) : byte n = d := by
  subst h; simp [byte]

/-- A tag and its number. -/
theorem reads_tagLen {k : Nat} (hk : k ∈ [0x40, 0x80, 0xC0]) (n : Nat) (t : Byte) (l r : Bytes)
    (P : Prop) (hP : P ↔ Wire.kind t = byte k) :
    (P ∧ ∃ a, l = a ++ r ∧ (match Wire.data t with
      | some d => n = d.toNat ∧ a = []
      | none => Len o n a)) ↔ ∃ a, t :: l = a ++ r ∧ Tag o k n a := by
  have hkb : byte k ∈ [0x40#8, 0x80#8, 0xC0#8] := by
    simp only [List.mem_cons, List.not_mem_nil, or_false] at hk
    rcases hk with rfl | rfl | rfl <;> decide
  rw [hP]
  constructor
  · rintro ⟨h1, a, rfl, h2⟩
    rcases tag_cases t _ hkb h1 with ⟨h3, h4⟩ | ⟨d, h3, h4, h5⟩
    · rw [h3] at h2
      refine ⟨t :: a, rfl, .inr ⟨a, h2, ?_⟩⟩
      rw [h4]
      simp [byte, BitVec.ofNat_add]
    · rw [h3] at h2
      obtain ⟨rfl, rfl⟩ := h2
      refine ⟨[t], rfl, .inl ⟨h4, ?_⟩⟩
      rw [h5]
      simp [byte, BitVec.ofNat_add]
  · rintro ⟨a, h, ⟨h1, rfl⟩ | ⟨l', h1, rfl⟩⟩
    · obtain ⟨h2, h3⟩ := tag_byte k hk n h1
      cases h
      refine ⟨h2, [], rfl, ?_⟩
      rw [h3]
      refine ⟨?_, rfl⟩
      simp [byte]; omega
    · obtain ⟨h2, h3⟩ := tag_full k hk
      cases h
      refine ⟨h2, l', rfl, ?_⟩
      rw [h3]; exact h1

theorem reads_tagLen' (t : Byte) : Reads (Wire.tagLen o t) fun n s _ => match Wire.data t with
      | some d => n = d.toNat ∧ s = []
      | none => Len o n s := by
  unfold Wire.tagLen
  cases Wire.data t with
  | some d => exact reads_pure _
  | none => exact reads_len o

theorem reads_tag {k : Nat} (hk : k ∈ [0x40, 0x80, 0xC0]) :
    Reads (Wire.decTagLen o (byte k)) fun n s _ => Tag o k n s := by
  have h := reads_byteThen (f := fun t => if Wire.kind t = byte k then Wire.tagLen o t
    else Dec.fail .invalid) fun t => reads_guard (fun _ => reads_tagLen' o t)
  refine h.congr fun n s r => ?_
  constructor
  · rintro ⟨t, l, rfl, h1, h2⟩
    obtain ⟨a, ha, hb⟩ := (reads_tagLen o hk n t l [] _ Iff.rfl).mp ⟨h1, l, by simp, h2⟩
    rw [List.append_nil] at ha
    rw [ha]; exact hb
  · intro h
    cases s with
    | nil => rcases h with ⟨_, h⟩ | ⟨_, _, h⟩ <;> cases h
    | cons t l =>
      obtain ⟨h1, a, h2, h3⟩ := (reads_tagLen o hk n t l [] _ Iff.rfl).mpr ⟨t :: l, by simp, h⟩
      rw [List.append_nil] at h2
      subst h2
      exact ⟨t, l, rfl, h1, h3⟩

/-! ### Skipping -/

/-- What `step` reads. -/
def Header (k : Nat) (s : Bytes) : Prop :=
  (k = 0 ∧ ∃ n h b, Tag o 0x40 n h ∧ b.length = n ∧ s = h ++ b) ∨ Tag o 0x80 k s ∨
  (k = 0 ∧ ∃ n, n < 63 ∧ s = [byte (0xC0 + n)]) ∨ (k = 0 ∧ ∃ n l, VarNum 128 n l ∧ s = 0xFF#8 :: l)

theorem tree_iff (s : Bytes) : Tree (Header o) s ↔ Item o s := by
  constructor
  · intro h
    induction h with
    | @mk a items h1 _ ih =>
      rcases h1 with ⟨h0, n, h, b, h1, h2, rfl⟩ | h1 | ⟨h0, n, h1, rfl⟩ | ⟨h0, n, l, h1, rfl⟩
      · rw [List.length_eq_zero_iff.mp h0]
        simpa using Item.bytes h1 h2
      · exact .seq h1 rfl ih
      · rw [List.length_eq_zero_iff.mp h0]
        exact Item.small h1
      · rw [List.length_eq_zero_iff.mp h0]
        simpa using Item.large h1
  · intro h
    induction h with
    | bytes h1 h2 => simpa using Tree.mk (S := Header o) (items := []) (.inl ⟨rfl, _, _, _, h1, h2, rfl⟩) (by simp)
    | seq h1 h2 _ ih => exact .mk (.inr (.inl (by rw [h2]; exact h1))) ih
    | small h1 => exact Tree.mk (S := Header o) (items := []) (.inr (.inr (.inl ⟨rfl, _, h1, rfl⟩))) (by simp)
    | large h1 => simpa using Tree.mk (S := Header o) (items := []) (.inr (.inr (.inr ⟨rfl, _, _, h1, rfl⟩))) (by simp)

theorem kind_cases (t : Byte) : Wire.kind t = Wire.PREFIX ∨ Wire.kind t = Wire.SEQUENCE ∨
    Wire.kind t = Wire.CONTINUATION ∨ Wire.kind t = 0 := by
  revert t; decide

theorem reads_step : Reads (Wire.step o) fun k => plain (Header o k) := by
  have h := reads_byteThen fun t => reads_ite (p := Wire.kind t = Wire.PREFIX)
    (fun _ => reads_bind (reads_tagLen' o t) fun n => reads_bind (reads_skip n) fun _ => reads_pure 0)
    (fun _ => reads_ite (p := Wire.kind t = Wire.SEQUENCE) (fun _ => reads_tagLen' o t)
      fun _ => reads_guard (p := Wire.kind t = Wire.CONTINUATION) (e := .invalid) (fun _ =>
        show Reads (match Wire.data t with
          | some _ => pure 0
          | none => Varint.decode 128 >>= fun _ => pure 0) (fun k s _ => match Wire.data t with
          | some _ => k = 0 ∧ s = []
          | none => ∃ n, VarNum 128 n s ∧ k = 0) from by
          cases Wire.data t with
          | some _ => exact reads_pure 0
          | none =>
            refine (reads_map _ (reads_varint (by omega))).congr fun v s r => ?_
            constructor
            · rintro ⟨a, h, rfl⟩; exact ⟨_, h, rfl⟩
            · rintro ⟨n, h, rfl⟩
              have : n < 2 ^ 128 := by rw [← h.2.2]; exact Nat.mod_lt _ (by omega)
              exact ⟨BitVec.ofNat 128 n, by
                rw [BitVec.toNat_ofNat, Nat.mod_eq_of_lt this]; exact h, rfl⟩))
  refine h.congr fun k s r => ?_
  constructor
  · rintro ⟨t, l, rfl, ⟨h1, n, x, y, rfl, h2, _, z, u, rfl, h3, rfl, rfl⟩ | ⟨h1, ⟨h2, h3⟩ | ⟨h2, h3, h4⟩⟩⟩
    · obtain ⟨a, ha, hb⟩ := (reads_tagLen o (k := 0x40) (by simp) n t x [] _ Iff.rfl).mp ⟨h1, x, by simp, h2⟩
      rw [List.append_nil] at ha
      exact .inl ⟨rfl, n, t :: x, z, ha ▸ hb, h3, by simp⟩
    · obtain ⟨a, ha, hb⟩ := (reads_tagLen o (k := 0x80) (by simp) k t l [] _ Iff.rfl).mp ⟨h2, l, by simp, h3⟩
      rw [List.append_nil] at ha
      exact .inr (.inl (ha ▸ hb))
    · rcases tag_cases t 0xC0#8 (by simp) h3 with ⟨h5, h6⟩ | ⟨d, h5, h6, h7⟩
      · rw [h5] at h4
        obtain ⟨n, h4, rfl⟩ := h4
        exact .inr (.inr (.inr ⟨rfl, n, l, h4, by rw [h6]; rfl⟩))
      · rw [h5] at h4
        obtain ⟨rfl, rfl⟩ := h4
        refine .inr (.inr (.inl ⟨rfl, d.toNat, h6, ?_⟩))
        rw [h7]; simp [byte, BitVec.ofNat_add]
  · rintro (⟨rfl, n, h, b, h1, h2, rfl⟩ | h1 | ⟨rfl, n, h1, rfl⟩ | ⟨rfl, n, l, h1, rfl⟩)
    · cases h with
      | nil => rcases h1 with ⟨_, h⟩ | ⟨_, _, h⟩ <;> cases h
      | cons t x =>
        obtain ⟨h3, a, h4, h5⟩ := (reads_tagLen o (k := 0x40) (by simp) n t x [] _ Iff.rfl).mpr ⟨t :: x, by simp, h1⟩
        rw [List.append_nil] at h4; subst h4
        exact ⟨t, x ++ b, rfl, .inl ⟨h3, n, x, b, rfl, h5, (), b, [], by simp, h2, rfl, rfl⟩⟩
    · cases s with
      | nil => rcases h1 with ⟨_, h⟩ | ⟨_, _, h⟩ <;> cases h
      | cons t x =>
        obtain ⟨h3, a, h4, h5⟩ := (reads_tagLen o (k := 0x80) (by simp) k t x [] _ Iff.rfl).mpr ⟨t :: x, by simp, h1⟩
        rw [List.append_nil] at h4; subst h4
        exact ⟨t, x, rfl, .inr ⟨by rw [h3]; decide, .inl ⟨h3, h5⟩⟩⟩
    · obtain ⟨h2, h3⟩ := tag_byte 0xC0 (by simp) n h1
      refine ⟨_, [], rfl, .inr ⟨by rw [h2]; decide, .inr ⟨by rw [h2]; decide, h2, ?_⟩⟩⟩
      rw [h3]; exact ⟨rfl, rfl⟩
    · refine ⟨_, l, rfl, .inr ⟨by decide, .inr ⟨by decide, by decide, ?_⟩⟩⟩
      rw [show Wire.data 0xFF#8 = none from rfl]
      exact ⟨n, h1, rfl⟩

theorem reads_skip : Reads (Wire.skip o) fun _ => plain (Item o) :=
  (reads_skipAny (reads_step o) (Wire.consumes_step o)).congr fun _ s _ => tree_iff o s

/-! ### Values -/

theorem reads_small {w : Nat} (hw : 8 ≤ w) :
    Reads (Dec.readByte >>= fun t => if Wire.kind t = Wire.CONTINUATION then
      (match Wire.data t with
      | some d => pure (d.setWidth w)
      | none => Varint.decode w) else Dec.fail .invalid) fun v s _ => SmallNum w v.toNat s := by
  have h := reads_byteThen fun t => reads_guard (p := Wire.kind t = Wire.CONTINUATION) (e := .invalid)
    (fun _ => show Reads (match Wire.data t with
          | some d => pure (d.setWidth w)
          | none => Varint.decode w) (fun v s _ => match Wire.data t with
          | some d => v = d.setWidth w ∧ s = []
          | none => VarNum w v.toNat s) from by
          cases Wire.data t with
          | some d => exact reads_pure _
          | none => exact reads_varint hw)
  have hp : (2:Nat) ^ 8 ≤ 2 ^ w := Nat.pow_le_pow_right (by omega) hw
  refine h.congr fun v s r => ?_
  constructor
  · rintro ⟨t, l, rfl, h3, h4⟩
    rcases tag_cases t 0xC0#8 (by simp) h3 with ⟨h5, h6⟩ | ⟨d, h5, h6, h7⟩
    · rw [h5] at h4
      exact .inr ⟨l, h4, by rw [h6]; rfl⟩
    · rw [h5] at h4
      obtain ⟨rfl, rfl⟩ := h4
      have e : (d.setWidth w).toNat = d.toNat := by
        rw [BitVec.toNat_setWidth, Nat.mod_eq_of_lt (by omega)]
      refine .inl ⟨by rw [e]; exact h6, ?_⟩
      rw [h7, e]; simp [byte, BitVec.ofNat_add]
  · rintro (⟨h1, rfl⟩ | ⟨l, h1, rfl⟩)
    · obtain ⟨h2, h3⟩ := tag_byte 0xC0 (by simp) _ h1
      refine ⟨_, [], rfl, h2, ?_⟩
      rw [h3]
      refine ⟨BitVec.eq_of_toNat_eq ?_, rfl⟩
      simp only [byte, BitVec.toNat_setWidth, BitVec.toNat_ofNat]
      rw [Nat.mod_eq_of_lt (a := v.toNat) (by omega), Nat.mod_eq_of_lt (by omega)]
    · refine ⟨_, l, rfl, by decide, ?_⟩
      rw [show Wire.data 0xFF#8 = none from rfl]
      exact h1

theorem reads_unsigned {w : Nat} (hw : w ∈ [8, 16, 32, 64, 128]) :
    Reads (Wire.decUnsigned o w) fun v s _ => Unsigned o w v.toNat s := by
  have h8 : 8 ≤ w ∧ w % 8 = 0 ∧ Wire.tag Wire.PREFIX (BitVec.ofNat 8 (w / 8)) = byte (0x40 + w / 8) := by
    simp only [List.mem_cons, List.not_mem_nil, or_false] at hw
    rcases hw with rfl | rfl | rfl | rfl | rfl <;> decide
  unfold Wire.decUnsigned Unsigned
  cases Opt.integer o
  · exact reads_small h8.1
  · refine (reads_byteThen fun t => reads_guard fun _ => reads_fixed h8.2.1 _).congr fun v s r => ?_
    constructor
    · rintro ⟨t, l, rfl, h1, h2⟩; exact ⟨l, h2, by rw [h1, h8.2.2]⟩
    · rintro ⟨l, h, rfl⟩; exact ⟨_, l, rfl, h8.2.2.symm, h⟩

theorem reads_signed {w : Nat} (hw : w ∈ [8, 16, 32, 64, 128]) :
    Reads (Wire.decSigned o w) fun v s _ => Unsigned o w (zig v.toInt) s := by
  have h1 : 1 ≤ w := by
    simp only [List.mem_cons, List.not_mem_nil, or_false] at hw; omega
  refine (reads_map _ (reads_unsigned o hw)).congr fun v s r => ?_
  constructor
  · rintro ⟨a, h, h'⟩; rw [← (zig_decode h1 v a).mp h']; exact h
  · intro h
    refine ⟨ZigZag.encode v, ?_, (ZigZag.decode_encode h1 v).symm⟩
    rw [zig_encode h1]; exact h

theorem reads_usize : Reads (Wire.decUsize o) fun v s _ => Usize o v.toNat s := by
  unfold Wire.decUsize Usize
  have key : ∀ width : Width, width ≠ .variable →
      Reads (Dec.readByte >>= fun t => if t = Wire.tag Wire.PREFIX (Wire.widthTag width) then
        (Fixed.readBytes (Int'.widthBits width) (Opt.byteorder o) >>= fun v =>
          (pure (v.setWidth 64) : Dec (BitVec 64))) else Dec.fail .invalid)
        fun v s _ => ∃ l, FixNum (Opt.byteorder o) (lenBits width) v.toNat l ∧ s = lenTag width :: l := by
    intro width hw
    have ht : Wire.tag Wire.PREFIX (Wire.widthTag width) = lenTag width := by
      revert hw; revert width; intro width; cases width <;> decide
    refine (reads_byteThen fun t => reads_guard fun _ => reads_fixedLen o width).congr fun v s r => ?_
    rw [ht]
    constructor
    · rintro ⟨t, l, rfl, h1, h2⟩; exact ⟨l, h2, by rw [h1]⟩
    · rintro ⟨l, h, rfl⟩; exact ⟨_, l, rfl, rfl, h⟩
  cases h : Opt.length o with
  | «variable» => exact reads_small (by omega)
  | _ => exact key _ (by decide)

/-- One of two bytes. -/
theorem reads_two (x y : Byte) (hxy : x ≠ y) {f t : Bool} (hft : f ≠ t) :
    Reads (Dec.readByte >>= fun b => if b = x then pure f else if b = y then pure t
      else Dec.fail .invalid) fun v s _ => s = [if v = t then y else x] := by
  refine (reads_byteThen fun b => reads_ite (fun _ => reads_pure _) fun _ =>
    reads_guard (fun _ => reads_pure _)).congr fun v s r => ?_
  constructor
  · rintro ⟨b, l, rfl, ⟨rfl, rfl, rfl⟩ | ⟨_, rfl, rfl, rfl⟩⟩
    · rw [if_neg hft]
    · rw [if_pos rfl]
  · rintro rfl
    by_cases h : v = t
    · rw [if_pos h]; exact ⟨_, [], rfl, .inr ⟨fun e => hxy e.symm, rfl, h, rfl⟩⟩
    · rw [if_neg h]; exact ⟨_, [], rfl, .inl ⟨rfl, by cases v <;> cases t <;> cases f <;> simp_all, rfl⟩⟩

theorem reads_prim (p : Prim) : Reads (Wire.decPrim o p) fun v => plain (PrimDoc o p v) := by
  cases p with
  | bool => exact reads_two 0xC0#8 0xC1#8 (by decide) (by decide)
  | char => exact reads_char (reads_unsigned o (w := 32) (by simp))
  | uint w => cases w <;> exact reads_unsigned o (by simp [IW.bits])
  | sint w => cases w <;> first
      | exact reads_unsigned o (w := 8) (by simp)
      | exact reads_signed o (by simp)
  | usize => exact reads_usize o
  | isize => exact reads_usize o
  | f32 => exact reads_unsigned o (w := 32) (by simp)
  | f64 => exact reads_unsigned o (w := 64) (by simp)

theorem reads_bytes : Reads (Wire.decBytes o) fun v s _ => Counted o v s := by
  refine (reads_bind (reads_tag o (k := 0x40) (by simp)) fun n => reads_readBytes n).congr
    fun v s r => ?_
  constructor
  · rintro ⟨n, x, y, rfl, h, rfl, rfl⟩; exact ⟨x, h, rfl⟩
  · rintro ⟨x, h, rfl⟩; exact ⟨_, x, v, rfl, h, rfl, rfl⟩

theorem agrees : Agrees (Wire.fmt o) (Wire.lex o) where
  native := rfl
  prim := reads_prim o
  unit := reads_skip o
  bytes := reads_bytes o
  arr n := by
    refine (reads_bind (reads_tag o (k := 0x40) (by simp)) fun m => reads_guard (p := m = n) fun _ =>
      reads_readBytes n).congr fun v s r => ?_
    constructor
    · rintro ⟨m, x, y, rfl, h, rfl, rfl, rfl⟩; exact ⟨rfl, x, h, rfl⟩
    · rintro ⟨rfl, x, h, rfl⟩; exact ⟨_, x, v, rfl, h, rfl, rfl, rfl⟩
  str := reads_bytes o
  option := (reads_two 0x80#8 0x81#8 (by decide) (f := false) (t := true) (by decide)).congr
    fun v s r => by cases v <;> exact Iff.rfl
  seq := reads_tag o (k := 0x80) (by simp)
  seqRest n := reads_many (reads_skip o) rfl (fun _ => rfl) n
  noSeqRest := rfl
  map := by
    refine (reads_map _ (reads_tag o (k := 0x80) (by simp))).congr fun n s r => ?_
    constructor
    · rintro ⟨m, h, rfl⟩
      rcases Nat.mod_two_eq_zero_or_one m with hm | hm
      · left
        rw [show 2 * (m / 2) = m by omega]; exact h
      · right
        rw [show 2 * (m / 2) + 1 = m by omega]; exact h
    · rintro (h | h)
      · exact ⟨_, h, by omega⟩
      · exact ⟨_, h, by omega⟩
  mapRest n := by
    have h := reads_many (f := fun n => if n % 2 = 0 then Wire.endMap o (n / 2) else
      (do let _ ← Wire.skip o; Wire.endMap o (n / 2))) (reads_skip o) rfl (by
      intro n
      rcases Nat.mod_two_eq_zero_or_one n with hm | hm
      · rw [if_neg (by omega), if_pos hm, show (n + 1) / 2 = n / 2 by omega]
      · rw [if_pos (by omega), if_neg (by omega), show (n + 1) / 2 = n / 2 + 1 by omega]; rfl) (2 * n)
    simp only [Nat.mul_mod_right, if_true] at h
    rw [show 2 * n / 2 = n by omega] at h
    exact h
  noMapRest := rfl
  variant := by
    refine (reads_byteThen fun t => reads_guard fun _ => reads_pure ()).congr fun v s r => ?_
    constructor
    · rintro ⟨t, l, rfl, rfl, _, rfl⟩; rfl
    · intro h; exact ⟨0x82#8, [], h, rfl, rfl, rfl⟩
  pack d G h := by
    refine (reads_bind (reads_tag o (k := 0x40) (by simp)) fun n => reads_limited h n).congr
      fun v s r => ?_
    constructor
    · rintro ⟨n, x, y, rfl, h1, a, b, rfl, h2, h3⟩; exact ⟨x, a, b, by rw [h2]; exact h1, h3, rfl⟩
    · rintro ⟨x, a, b, h1, h2, rfl⟩; exact ⟨_, x, a ++ b, rfl, h1, a, b, rfl, rfl, h2⟩
  unknown := reads_skip o

end Wire
end

end Musli.Grammar
