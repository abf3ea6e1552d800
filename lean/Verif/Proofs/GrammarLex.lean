import Verif.Spec.Grammar
import Verif.Proofs.Front
import Verif.Proofs.IntEnc
/-!
# What the decoders accept: primitives of the formats
-/
set_option linter.unusedSectionVars false
namespace Musli.Grammar
open Musli Musli.Spec

/-- The decoder accepts exactly the texts of the grammar. -/
def Reads {α : Type} (d : Dec α) (G : α → Gram) : Prop :=
  ∀ s v r, d s = .ok (v, r) ↔ ∃ a, s = a ++ r ∧ G v a r

theorem Reads.congr {α : Type} {d : Dec α} {G H : α → Gram} (h : Reads d G)
    (he : ∀ v s r, G v s r ↔ H v s r) : Reads d H := by
  intro s v r
  rw [h s v r]
  simp only [he]

theorem reads_pure {α : Type} (a : α) : Reads (pure a : Dec α) fun v s _ => v = a ∧ s = [] := by
  intro s v r
  constructor
  · intro h; cases h; exact ⟨[], rfl, rfl, rfl⟩
  · rintro ⟨_, rfl, rfl, rfl⟩; rfl

theorem reads_fail {α : Type} (e : Err) : Reads (Dec.fail e : Dec α) fun _ _ _ => False := by
  intro s v r
  constructor
  · intro h; cases h
  · rintro ⟨_, _, h⟩; exact h.elim

theorem reads_ofExcept {α : Type} (x : Except Err α) :
    Reads (Dec.ofExcept x) fun v s _ => x = .ok v ∧ s = [] := by
  intro s v r
  cases x with
  | ok a =>
    constructor
    · intro h; cases h; exact ⟨[], rfl, rfl, rfl⟩
    · rintro ⟨_, rfl, h, rfl⟩; cases h; rfl
  | error e =>
    constructor
    · intro h; cases h
    · rintro ⟨_, _, h, _⟩; cases h

theorem reads_bind {α β : Type} {d : Dec α} {f : α → Dec β} {G : α → Gram} {H : α → β → Gram}
    (hd : Reads d G) (hf : ∀ a, Reads (f a) (H a)) :
    Reads (d >>= f) fun b s r => ∃ a, (G a ⬝ H a b) s r := by
  intro s v r
  rw [Dec.bind_eq_ok]
  constructor
  · rintro ⟨a, s', h1, h2⟩
    obtain ⟨y, rfl, hy⟩ := (hf a _ _ _).mp h2
    obtain ⟨x, rfl, hx⟩ := (hd _ _ _).mp h1
    exact ⟨x ++ y, by simp, a, x, y, rfl, hx, hy⟩
  · rintro ⟨_, rfl, a, x, y, rfl, hx, hy⟩
    exact ⟨a, y ++ r, (hd _ _ _).mpr ⟨x, by simp, hx⟩, (hf a _ _ _).mpr ⟨y, rfl, hy⟩⟩

theorem reads_map {α β : Type} {d : Dec α} {G : α → Gram} (f : α → β) (hd : Reads d G) :
    Reads (d >>= fun a => pure (f a)) fun b s r => ∃ a, G a s r ∧ b = f a := by
  refine (reads_bind hd fun a => reads_pure (f a)).congr fun b s r => ?_
  constructor
  · rintro ⟨a, x, y, rfl, hx, rfl, rfl⟩; exact ⟨a, by simpa using hx, rfl⟩
  · rintro ⟨a, h, rfl⟩; exact ⟨a, s, [], by simp, by simpa using h, rfl, rfl⟩

theorem reads_check {α β : Type} {d : Dec α} {G : α → Gram} (f : α → Except Err β) (hd : Reads d G) :
    Reads (d >>= fun a => Dec.ofExcept (f a)) fun b s r => ∃ a, G a s r ∧ f a = .ok b := by
  refine (reads_bind hd fun a => reads_ofExcept (f a)).congr fun b s r => ?_
  constructor
  · rintro ⟨a, x, y, rfl, hx, h, rfl⟩; exact ⟨a, by simpa using hx, h⟩
  · rintro ⟨a, h, h'⟩; exact ⟨a, s, [], by simp, by simpa using h, h', rfl⟩

theorem reads_ite {α : Type} {p : Prop} [Decidable p] {x y : Dec α} {G H : α → Gram}
    (hx : p → Reads x G) (hy : ¬p → Reads y H) :
    Reads (if p then x else y) fun v s r => (p ∧ G v s r) ∨ (¬p ∧ H v s r) := by
  by_cases h : p
  · rw [if_pos h]; exact (hx h).congr (by simp [h])
  · rw [if_neg h]; exact (hy h).congr (by simp [h])

/-- `if p then x else fail`. -/
theorem reads_guard {α : Type} {p : Prop} [Decidable p] {x : Dec α} {G : α → Gram} {e : Err}
    (hx : p → Reads x G) : Reads (if p then x else Dec.fail e) fun v s r => p ∧ G v s r := by
  by_cases h : p
  · rw [if_pos h]; exact (hx h).congr (by simp [h])
  · rw [if_neg h]; exact (reads_fail e).congr (by simp [h])

theorem reads_readByte : Reads Dec.readByte fun v s _ => s = [v] := by
  intro s v r
  cases s with
  | nil => simp [Dec.readByte]
  | cons b s =>
    constructor
    · intro h
      have h : Except.ok (b, s) = Except.ok (v, r) := h
      cases h; exact ⟨[v], rfl, rfl⟩
    · rintro ⟨_, h, rfl⟩; cases h; rfl

theorem reads_readBytes (n : Nat) : Reads (Dec.readBytes n) fun v s _ => s.length = n ∧ s = v := by
  intro s v r
  unfold Dec.readBytes
  constructor
  · intro h
    split at h
    · cases h
    · cases h
      exact ⟨s.take n, by simp, by simp; omega, rfl⟩
  · rintro ⟨a, rfl, rfl, rfl⟩
    simp

theorem reads_skip (n : Nat) : Reads (Dec.skip n) fun _ s _ => s.length = n := by
  intro s v r
  unfold Dec.skip
  constructor
  · intro h
    split at h
    · cases h
    · cases h
      exact ⟨s.take n, by simp, by simp; omega⟩
  · rintro ⟨a, rfl, rfl⟩
    simp

theorem reads_isEof : Reads Dec.isEof fun v s r => s = [] ∧ v = r.isEmpty := by
  intro s v r
  unfold Dec.isEof
  constructor
  · intro h; cases h; exact ⟨[], rfl, rfl, rfl⟩
  · rintro ⟨_, rfl, rfl, rfl⟩; rfl

/-- A byte and something that depends on it. -/
theorem reads_byteThen {α : Type} {f : Byte → Dec α} {H : Byte → α → Gram}
    (hf : ∀ b, Reads (f b) (H b)) :
    Reads (Dec.readByte >>= f) fun v s r => ∃ b l, s = b :: l ∧ H b v l r := by
  refine (reads_bind reads_readByte hf).congr fun v s r => ?_
  constructor
  · rintro ⟨b, x, l, rfl, rfl, h⟩; exact ⟨b, l, rfl, h⟩
  · rintro ⟨b, l, rfl, h⟩; exact ⟨b, [b], l, rfl, rfl, h⟩

theorem reads_limited {α : Type} {d : Dec α} {G : α → Gram} (hd : Reads d G) (n : Nat) :
    Reads (limited n d) fun v s _ => ∃ a b, s = a ++ b ∧ s.length = n ∧ G v a b := by
  intro s v r
  unfold limited
  constructor
  · intro h
    cases h1 : d (s.take n) with
    | error e => rw [h1] at h; cases h
    | ok p =>
      obtain ⟨x, l⟩ := p
      rw [h1] at h
      simp only at h
      split at h
      · cases h
      · cases h
        obtain ⟨a, h2, h3⟩ := (hd _ _ _).mp h1
        exact ⟨s.take n, by simp, a, l, h2, by simp; omega, h3⟩
  · rintro ⟨_, rfl, a, b, rfl, h, hg⟩
    have : (a ++ b ++ r).take n = a ++ b := by rw [← h, List.take_left]
    rw [this, (hd (a ++ b) v b).mpr ⟨a, rfl, hg⟩]
    simp only
    rw [if_neg (by simp at h ⊢; omega), ← h]
    simp

/-! ## Numbers -/

theorem little_eq (s : Bytes) : little s = Fixed.leNat s := by
  induction s with
  | nil => rfl
  | cons b s ih => simp [little, Fixed.leNat, ih]

theorem reads_varint {w : Nat} (hw : 8 ≤ w) :
    Reads (Varint.decode w) fun v s _ => VarNum w v.toNat s := by
  intro s v r
  constructor
  · intro h
    obtain ⟨c, h1, h2, h3, h4⟩ := Varint.decode_sound hw h
    exact ⟨c, h1, h2, by rcases h3 with h3 | h3 <;> omega, h4.symm⟩
  · rintro ⟨c, rfl, h2, h3, h4⟩
    have hl : c.length = 1 ∨ 7 * (c.length - 1) < w := by omega
    obtain ⟨v', h5⟩ := Varint.decode_complete h2 hl r
    obtain ⟨c', h6, h7, _, h8⟩ := Varint.decode_sound hw h5
    obtain ⟨rfl, _⟩ := Varint.wellFormed_unique h2 h7 h6
    rw [h5, BitVec.eq_of_toNat_eq (h8.trans h4)]

theorem fixed_value [Host] {w : Nat} (h8 : w % 8 = 0) (bo : ByteOrder) (s : Bytes)
    (hs : s.length = w / 8) :
    (if bo = Host.order then Fixed.ofNe w s else Fixed.swap (Fixed.ofNe w s)).toNat = fixed bo s := by
  have hr : s.reverse.length = w / 8 := by simpa using hs
  have e1 : (Fixed.ofLeBytes w s).toNat = Fixed.leNat s := Fixed.toNat_ofLeBytes _ _ (by omega)
  have e2 : (Fixed.ofLeBytes w s.reverse).toNat = Fixed.leNat s.reverse :=
    Fixed.toNat_ofLeBytes _ _ (by omega)
  have e3 := Fixed.leBytes_ofLeBytes h8 s hs
  have e4 := Fixed.leBytes_ofLeBytes h8 _ hr
  unfold Fixed.ofNe Fixed.swap
  cases bo <;> cases h : Host.order <;>
    simp [fixed, little_eq, e1, e2, e3, e4]

theorem reads_fixed [Host] {w : Nat} (h8 : w % 8 = 0) (bo : ByteOrder) :
    Reads (Fixed.readBytes w bo) fun v s _ => FixNum bo w v.toNat s := by
  refine (reads_map _ (reads_readBytes (w / 8))).congr fun v s r => ?_
  constructor
  · rintro ⟨a, ⟨h, rfl⟩, rfl⟩
    exact ⟨h, (fixed_value h8 bo s h).symm⟩
  · rintro ⟨h, hv⟩
    exact ⟨s, ⟨h, rfl⟩, BitVec.eq_of_toNat_eq (by rw [fixed_value h8 bo s h, hv])⟩

theorem zig_encode {w : Nat} (hw : 1 ≤ w) (v : BitVec w) : (ZigZag.encode v).toNat = zig v.toInt := by
  have := ZigZag.encode_toNat hw v
  have hp := ZigZag.pow_pred hw
  have hlt := v.isLt
  rw [this]
  unfold zig
  rw [BitVec.toInt_eq_toNat_cond]
  split <;> split <;> split <;> omega

theorem zig_decode {w : Nat} (hw : 1 ≤ w) (v x : BitVec w) :
    v = ZigZag.decode x ↔ x.toNat = zig v.toInt := by
  rw [← zig_encode hw]
  constructor
  · rintro rfl; rw [ZigZag.encode_decode hw]
  · intro h; rw [BitVec.eq_of_toNat_eq h, ZigZag.decode_encode hw]

section
variable [Host] (o : Options)

theorem reads_num {w : Nat} (hw : 8 ≤ w) (h8 : w % 8 = 0) :
    Reads (Int'.decodeUnsigned o w) fun v s _ => Num o w v.toNat s := by
  unfold Int'.decodeUnsigned Num
  cases Opt.integer o
  · exact reads_varint hw
  · exact reads_fixed h8 _

theorem lenBits_eq (w : Width) : Int'.widthBits w = lenBits w := by cases w <;> rfl

theorem lenBits_le (w : Width) : lenBits w ≤ 64 := by cases w <;> decide

theorem fixed_lt (bo : ByteOrder) (w : Nat) (s : Bytes) (h : s.length = w / 8) (h8 : w % 8 = 0) :
    fixed bo s < 2 ^ w := by
  have e : (2:Nat) ^ w = 256 ^ (w / 8) := by
    rw [show (256:Nat) = 2 ^ 8 from rfl, ← Nat.pow_mul]; congr 1; omega
  rw [e, ← h]
  cases bo
  · simp only [fixed, little_eq]; exact Fixed.leNat_lt s
  · simp only [fixed, little_eq]; have := Fixed.leNat_lt s.reverse; simpa using this

/-- A fixed number of fewer bits in 64 bits. -/
theorem reads_fixedLen (width : Width) :
    Reads (Fixed.readBytes (Int'.widthBits width) (Opt.byteorder o) >>= fun v =>
      (pure (v.setWidth 64) : Dec (BitVec 64)))
      fun v s _ => FixNum (Opt.byteorder o) (lenBits width) v.toNat s := by
  have h8 : lenBits width % 8 = 0 := by cases width <;> rfl
  have hle := lenBits_le width
  rw [lenBits_eq]
  have hp : (2:Nat) ^ lenBits width ≤ 2 ^ 64 := Nat.pow_le_pow_right (by omega) hle
  refine (reads_map _ (reads_fixed h8 _)).congr fun v s r => ?_
  constructor
  · rintro ⟨a, h, rfl⟩
    have := a.isLt
    rw [BitVec.toNat_setWidth, Nat.mod_eq_of_lt (by omega)]
    exact h
  · intro h
    have hlt := fixed_lt (Opt.byteorder o) _ _ h.1 h8
    rw [h.2] at hlt
    refine ⟨v.setWidth _, ?_, BitVec.eq_of_toNat_eq ?_⟩
    · rw [BitVec.toNat_setWidth, Nat.mod_eq_of_lt hlt]; exact h
    · rw [BitVec.toNat_setWidth, BitVec.toNat_setWidth, Nat.mod_eq_of_lt hlt,
        Nat.mod_eq_of_lt v.isLt]

theorem reads_usize : Reads (Int'.decodeUsize o) fun v s _ => Len o v.toNat s := by
  unfold Int'.decodeUsize Len
  cases h : Opt.length o with
  | «variable» => exact reads_varint (by omega)
  | _ => exact reads_fixedLen o _

theorem len_lt {n : Nat} {s : Bytes} (h : Len o n s) : n < 2 ^ 64 := by
  unfold Len at h
  split at h
  · rw [← h.2.2]; exact Nat.mod_lt _ (by omega)
  · have h8 : lenBits (Opt.length o) % 8 = 0 := by cases Opt.length o <;> rfl
    have := fixed_lt (Opt.byteorder o) _ _ h.1 h8
    rw [h.2] at this
    exact Nat.lt_of_lt_of_le this (Nat.pow_le_pow_right (by omega) (lenBits_le _))

theorem reads_len : Reads (decLen o) fun n s _ => Len o n s := by
  refine (reads_map _ (reads_usize o)).congr fun n s r => ?_
  constructor
  · rintro ⟨a, h, rfl⟩; exact h
  · intro h
    refine ⟨BitVec.ofNat 64 n, ?_, ?_⟩ <;>
      rw [BitVec.toNat_ofNat, Nat.mod_eq_of_lt (len_lt o h)]
    exact h

theorem charOf_eq (n : BitVec 32) (c : Char) : charOf n = .ok c ↔ n.toNat = c.toNat := by
  unfold charOf
  have hc : c.toNat.isValidChar := c.valid
  constructor
  · intro h
    split at h
    · cases h; rfl
    · cases h
  · intro h
    rw [dif_pos (by rw [h]; exact hc)]
    congr 1
    apply Char.ext
    apply UInt32.toNat_inj.mp
    show n.toNat = c.toNat
    exact h

/-! ## Storage -/

/-- The methods of a format accept exactly the texts of its grammar. -/
structure Agrees (F : Fmt) (L : Lex) : Prop where
  native : F.native = false
  prim (p : Prim) : Reads (F.decPrim p) fun v => plain (L.prim p v)
  unit : Reads F.decUnit fun _ => plain L.unit
  bytes : Reads F.decBytes fun v => plain (L.bytes v)
  arr (n : Nat) : Reads (F.decArr n) fun v s _ => v.length = n ∧ L.arr v s
  str : Reads F.decStr fun v => plain (L.str v)
  option : Reads F.decOption fun v => if v then L.some else L.none
  seq : Reads F.decSeq fun n => plain (L.seq n)
  seqRest (n : Nat) : Reads (F.endSeq n) fun _ => plain (L.seqRest n)
  noSeqRest : F.endSeq 0 = pure ()
  map : Reads F.decMap fun n => plain (L.map n)
  mapRest (n : Nat) : Reads (F.endMap n) fun _ => plain (L.mapRest n)
  noMapRest : F.endMap 0 = pure ()
  variant : Reads F.decVariant fun _ => plain L.variant
  pack {α : Type} (d : Dec α) (G : α → Gram) (h : Reads d G) :
    Reads (F.decPack d) fun v => L.pack (G v)
  unknown : Reads F.skip fun _ => plain L.unknown

theorem reads_signed {w : Nat} (hw : 8 ≤ w) (h8 : w % 8 = 0) :
    Reads (Int'.decodeSigned o w) fun v s _ => Storage.PrimDoc.signed o w v s := by
  unfold Int'.decodeSigned Storage.PrimDoc.signed
  cases Opt.integer o
  · refine (reads_map _ (reads_varint hw)).congr fun v s r => ?_
    constructor
    · rintro ⟨a, h, h'⟩
      simp only
      rw [← (zig_decode (by omega) v a).mp h']; exact h
    · intro h
      refine ⟨ZigZag.encode v, ?_, (ZigZag.decode_encode (by omega) v).symm⟩
      rw [zig_encode (by omega)]; exact h
  · exact reads_fixed h8 _

theorem reads_char {d : Dec (BitVec 32)} {G : Nat → Bytes → Prop}
    (h : Reads d fun v s _ => G v.toNat s) :
    Reads (d >>= fun n => Dec.ofExcept (charOf n)) fun c s _ => G c.toNat s := by
  refine (reads_check _ h).congr fun c s r => ?_
  constructor
  · rintro ⟨a, h, h'⟩; rw [← (charOf_eq a c).mp h']; exact h
  · intro h
    have hc : c.toNat < 2 ^ 32 := c.val.toNat_lt
    refine ⟨BitVec.ofNat 32 c.toNat, ?_, ?_⟩
    · rw [BitVec.toNat_ofNat, Nat.mod_eq_of_lt hc]; exact h
    · rw [charOf_eq, BitVec.toNat_ofNat, Nat.mod_eq_of_lt hc]

namespace Storage

theorem reads_bool : Reads Storage.decBool fun v s _ => s = [if v then 1#8 else 0#8] := by
  refine (reads_byteThen fun b => reads_ite (fun _ => reads_pure _) fun _ =>
    reads_guard (fun _ => reads_pure _)).congr fun v s r => ?_
  constructor
  · rintro ⟨b, l, rfl, ⟨rfl, rfl, rfl⟩ | ⟨_, rfl, rfl, rfl⟩⟩ <;> rfl
  · rintro rfl
    cases v
    · exact ⟨_, [], rfl, .inl ⟨rfl, rfl, rfl⟩⟩
    · exact ⟨_, [], rfl, .inr ⟨by decide, rfl, rfl, rfl⟩⟩

theorem reads_prim (p : Prim) : Reads (Storage.decPrim o p) fun v => plain (PrimDoc o p v) := by
  have h8 : Reads Dec.readByte fun v s _ => s = [v] := reads_readByte
  cases p with
  | bool => exact reads_bool
  | char => exact reads_char (reads_num o (w := 32) (by omega) rfl)
  | uint w => cases w <;> first | exact h8 | exact reads_num o (by decide) rfl
  | sint w => cases w <;> first | exact h8 | exact reads_signed o (by decide) rfl
  | usize => exact reads_usize o
  | isize => exact reads_usize o
  | f32 => exact reads_num o (by decide) rfl
  | f64 => exact reads_num o (by decide) rfl

theorem reads_bytes : Reads (Storage.decBytes o) fun v s _ => Counted o v s := by
  refine (reads_bind (reads_len o) fun n => reads_readBytes n).congr fun v s r => ?_
  constructor
  · rintro ⟨n, x, y, rfl, h, rfl, rfl⟩; exact ⟨x, h, rfl⟩
  · rintro ⟨x, h, rfl⟩; exact ⟨_, x, v, rfl, h, rfl, rfl⟩

theorem agrees (pack : Bool) (hn : Opt.isNativeFixed o = false) :
    Agrees (Storage.fmt pack o) (Storage.lex pack o) where
  native := hn
  prim := reads_prim o
  unit := by
    refine (reads_bind (reads_len o) fun n => reads_guard fun _ => reads_pure ()).congr
      fun v s r => ?_
    constructor
    · rintro ⟨n, x, y, rfl, h, rfl, _, rfl⟩
      show Len o 0 (x ++ [])
      rw [List.append_nil]; exact h
    · intro h; exact ⟨0, s, [], by simp, h, rfl, rfl, rfl⟩
  bytes := reads_bytes o
  arr n := (reads_readBytes n).congr fun v s r =>
    ⟨fun ⟨h, e⟩ => ⟨e ▸ h, e⟩, fun ⟨h, e⟩ => ⟨by rw [show s = v from e]; exact h, e⟩⟩
  str := reads_bytes o
  option := by
    show Reads (Storage.decOption pack) _
    unfold Storage.decOption
    cases pack
    · refine (reads_map _ reads_readByte).congr fun v s r => ?_
      constructor
      · rintro ⟨b, rfl, rfl⟩
        by_cases hb : b = 1#8
        · subst hb; rfl
        · have : (b == 1#8) = false := by simpa using hb
          rw [this]; exact ⟨b, hb, rfl⟩
      · cases v
        · rintro ⟨b, h, rfl⟩; exact ⟨b, rfl, by symm; simpa using h⟩
        · intro h; exact ⟨1#8, h, rfl⟩
    · refine (reads_map _ reads_isEof).congr fun v s r => ?_
      constructor
      · rintro ⟨b, ⟨rfl, rfl⟩, rfl⟩
        cases r
        · exact ⟨rfl, rfl⟩
        · exact ⟨rfl, by simp⟩
      · cases v
        · rintro ⟨rfl, rfl⟩; exact ⟨true, ⟨rfl, rfl⟩, rfl⟩
        · rintro ⟨rfl, h⟩
          exact ⟨false, ⟨rfl, by cases r <;> simp_all⟩, rfl⟩
  seq := reads_len o
  seqRest n := (reads_guard fun _ => reads_pure ()).congr fun v s r =>
    ⟨fun ⟨h, _, e⟩ => ⟨h, e⟩, fun ⟨h, e⟩ => ⟨h, rfl, e⟩⟩
  noSeqRest := rfl
  map := reads_len o
  mapRest n := (reads_guard fun _ => reads_pure ()).congr fun v s r =>
    ⟨fun ⟨h, _, e⟩ => ⟨h, e⟩, fun ⟨h, e⟩ => ⟨h, rfl, e⟩⟩
  noMapRest := rfl
  variant := (reads_pure ()).congr fun v s r => ⟨fun ⟨_, e⟩ => e, fun e => ⟨rfl, e⟩⟩
  pack d G h := h
  unknown := reads_fail _

end Storage

end

end Musli.Grammar
