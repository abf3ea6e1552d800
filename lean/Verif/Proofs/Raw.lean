import Verif.Proofs.Lawful
import Verif.Spec.Supported
/-!
# Bitwise copies, and lists of values
-/
set_option linter.unusedSectionVars false
namespace Musli

/-- `dec` inverts `enc`; with `tail`, only at the end of the input. -/
def RT {α} (tail : Bool) (enc : α → Enc) (dec : Dec α) : Prop :=
  ∀ v bs r, enc v = .ok bs → (tail = true → r = []) → dec (bs ++ r) = .ok (v, r)

theorem RT.weaken {α} {enc : α → Enc} {dec : Dec α} {a b : Bool} (h : RT a enc dec)
    (hab : a = true → b = true) : RT b enc dec :=
  fun v bs r he hr => h v bs r he (fun ha => hr (hab ha))

theorem decN_all {α} {enc : α → Enc} {dec : Dec α} (h : RT false enc dec) (l : List α) (bs r : Bytes)
    (he : Enc.all enc l = .ok bs) : decN dec l.length (bs ++ r) = .ok (l, r) := by
  induction l generalizing bs with
  | nil => cases he; rfl
  | cons a l ih =>
    obtain ⟨x, y, hx, hy, rfl⟩ := Enc.seq_eq_ok.mp he
    show (dec >>= fun a => decN dec l.length >>= fun l => pure (a :: l)) _ = _
    rw [List.append_assoc, Dec.bind_ok (h a x (y ++ r) hx (by simp)), Dec.bind_ok (ih y hy)]
    rfl

theorem all_ok {α} (f : α → Bytes) (l : List α) :
    Enc.all (fun x => .ok (f x)) l = .ok (l.flatMap f) := by
  induction l with
  | nil => rfl
  | cons a l ih => simp [Enc.all, ih]

theorem decN_flatMap {α} {f : α → Bytes} {dec : Dec α} (h : RT false (fun v => .ok (f v)) dec)
    (l : List α) (r : Bytes) : decN dec l.length (l.flatMap f ++ r) = .ok (l, r) :=
  decN_all h l _ r (all_ok f l)

theorem toArray_val {α : Type} {n : Nat} (v : { l : List α // l.length = n }) :
    toArray n v.1 = .ok v := by
  unfold toArray; rw [dif_pos v.2]

theorem toStr_val (s : Str) : toStr s.bytes = .ok s := by
  unfold toStr; rw [dif_pos s.valid]

section
variable [Host]

theorem unrawInt_toNe {w : Nat} (h8 : w % 8 = 0) (v : BitVec w) (r : Bytes) :
    unrawInt w (Fixed.toNe v ++ r) = .ok (v, r) := by
  unfold unrawInt
  rw [Dec.bind_ok (Dec.readBytes_append' _ _ (Fixed.length_toNe v)), Dec.pure_apply,
    Fixed.ofNe_toNe h8]

theorem unrawPrim_rawPrim (p : Prim) (hp : p.bwD = true) (v : p.Val) (r : Bytes) :
    unrawPrim p (rawPrim p v ++ r) = .ok (v, r) := by
  cases p with
  | bool => cases hp
  | char => cases hp
  | uint w => exact unrawInt_toNe (by cases w <;> decide) v r
  | sint w => exact unrawInt_toNe (by cases w <;> decide) v r
  | usize => exact unrawInt_toNe (by decide) v r
  | isize => exact unrawInt_toNe (by decide) v r
  | f32 => exact unrawInt_toNe (by decide) v r
  | f64 => exact unrawInt_toNe (by decide) v r

theorem nonZeroUnraw_raw (s : Bool) (w : IW) (v : BitVec w.bits) :
    nonZeroUnraw s w (nonZeroRaw s w v) = v := by cases s <;> rfl

mutual

/-- Bitwise copies round-trip. -/
theorem rawD_rawE : ∀ (t : Ty), t.bwD = true → RT false (fun v => .ok (t.rawE v)) t.rawD
  | .prim p, h => by
    intro v bs r he _
    cases he
    exact unrawPrim_rawPrim p (by simpa [Ty.bwD] using h) v r
  | .unit, _ => by intro v bs r he _; cases he; rfl
  | .array n t, h => by
    intro v bs r he _
    cases he
    have ih := rawD_rawE t (by simpa [Ty.bwD] using h)
    show (decN t.rawD n >>= fun l => Dec.ofExcept (toArray n l)) (v.1.flatMap t.rawE ++ r) = _
    have := decN_flatMap ih v.1 r
    rw [v.2] at this
    rw [Dec.bind_ok this, ofExcept_ok (toArray_val v)]
  | .wrapping t, h => rawD_rawE t (by simpa [Ty.bwD] using h)
  | .packed lay fs, h => by
    simp only [Ty.bwD, Bool.and_eq_true] at h
    exact rawDs_rawEs fs h.2
  | .nonZero _ _, h => by simp [Ty.bwD] at h
  | .bytes, h => by simp [Ty.bwD] at h
  | .string, h => by simp [Ty.bwD] at h
  | .byteArray _, h => by simp [Ty.bwD] at h
  | .option _, h => by simp [Ty.bwD] at h
  | .vec _, h => by simp [Ty.bwD] at h
  | .set _, h => by simp [Ty.bwD] at h
  | .map _ _, h => by simp [Ty.bwD] at h
  | .tuple _, h => by simp [Ty.bwD] at h
  | .result _ _ _, h => by simp [Ty.bwD] at h
  | .boxed _, h => by simp [Ty.bwD] at h
  | .transparent _, h => by simp [Ty.bwD] at h
  | .unitStruct, h => by simp [Ty.bwD] at h
  | .strct _ _, h => by simp [Ty.bwD] at h
  | .unitEnum _ _, h => by simp [Ty.bwD] at h
  | .enm _ _, h => by simp [Ty.bwD] at h

theorem rawDs_rawEs : ∀ (fs : Fields), fs.bwD = true → RT false (fun v => .ok (fs.rawE v)) fs.rawD
  | .nil, _ => by intro v bs r he _; cases he; rfl
  | .cons n d s t fs, h => by
    intro v bs r he _
    cases he
    simp only [Fields.bwD, Bool.and_eq_true] at h
    have h1 := rawD_rawE t h.1
    have h2 := rawDs_rawEs fs h.2
    show (t.rawD >>= fun a => fs.rawD >>= fun b => pure (a, b)) ((t.rawE v.1 ++ fs.rawE v.2) ++ r) = _
    rw [List.append_assoc, Dec.bind_ok (h1 v.1 _ _ rfl (by simp)),
      Dec.bind_ok (h2 v.2 _ _ rfl (by simp))]
    rfl

end

mutual

theorem bwE_of_bwD : ∀ (t : Ty), t.bwD = true → t.bwE = true
  | .prim _, _ => rfl
  | .unit, _ => rfl
  | .array _ t, h => bwE_of_bwD t (by simpa [Ty.bwD] using h)
  | .wrapping t, h => bwE_of_bwD t (by simpa [Ty.bwD] using h)
  | .packed lay fs, h => by
    simp only [Ty.bwD, Bool.and_eq_true] at h
    simp [Ty.bwE, h.1, bwEs_of_bwDs fs h.2]
  | .nonZero _ _, h => by simp [Ty.bwD] at h
  | .bytes, h => by simp [Ty.bwD] at h
  | .string, h => by simp [Ty.bwD] at h
  | .byteArray _, h => by simp [Ty.bwD] at h
  | .option _, h => by simp [Ty.bwD] at h
  | .vec _, h => by simp [Ty.bwD] at h
  | .set _, h => by simp [Ty.bwD] at h
  | .map _ _, h => by simp [Ty.bwD] at h
  | .tuple _, h => by simp [Ty.bwD] at h
  | .result _ _ _, h => by simp [Ty.bwD] at h
  | .boxed _, h => by simp [Ty.bwD] at h
  | .transparent _, h => by simp [Ty.bwD] at h
  | .unitStruct, h => by simp [Ty.bwD] at h
  | .strct _ _, h => by simp [Ty.bwD] at h
  | .unitEnum _ _, h => by simp [Ty.bwD] at h
  | .enm _ _, h => by simp [Ty.bwD] at h

theorem bwEs_of_bwDs : ∀ (fs : Fields), fs.bwD = true → fs.bwE = true
  | .nil, _ => rfl
  | .cons _ _ _ t fs, h => by
    simp only [Fields.bwD, Bool.and_eq_true] at h
    simp [Fields.bwE, bwE_of_bwD t h.1, bwEs_of_bwDs fs h.2]

end

variable (o : Options) (env : Env)

theorem native_fmt (m : Mode) : (m.fmt o).native = m.fast (Opt.isNativeFixed o) := by
  cases m <;> rfl

theorem pack_fmt (m : Mode) : (m.fmt o).pack = (m == .packed) := by cases m <;> rfl

theorem delimited_fmt (m : Mode) : (m.fmt o).delimited = (m == .wire || m == .descriptive) := by
  cases m <;> rfl

/-- A native format is storage. -/
theorem native_storage {m : Mode} (h : m.fast (Opt.isNativeFixed o) = true) :
    Opt.isNativeFixed o = true ∧ ∃ pack, m.fmt o = Storage.fmt pack o := by
  cases m
  · exact ⟨h, false, rfl⟩
  · exact ⟨h, true, rfl⟩
  · cases h
  · cases h

theorem toNe_one (v : BitVec 8) : Fixed.toNe v = [v] := by
  unfold Fixed.toNe; cases Host.order <;> simp [Fixed.leBytes]

theorem writeBytes_host {w : Nat} (v : BitVec w) {bo : ByteOrder} (h : bo = Host.order) :
    Fixed.writeBytes bo v = Fixed.toNe v := by
  unfold Fixed.writeBytes; rw [if_pos h]

/-- With native options the direct encoding of a primitive is its bytes in memory. -/
theorem encPrim_raw (hn : Opt.isNativeFixed o = true) (p : Prim)
    (h : (hostOrder o || p.oneByte) = true) (v : p.Val) :
    Storage.encPrim o p v = .ok (rawPrim p v) := by
  simp only [Opt.isNativeFixed, Bool.and_eq_true, decide_eq_true_eq] at hn
  obtain ⟨⟨hi, _⟩, hl⟩ := hn
  have hu : ∀ {w : Nat} (v : BitVec w), hostOrder o = true →
      Int'.encodeUnsigned o v = Fixed.toNe v := by
    intro w v hh
    unfold Int'.encodeUnsigned
    rw [hi]
    exact writeBytes_host v (by simpa [hostOrder] using hh)
  have hs : ∀ {w : Nat} (v : BitVec w), hostOrder o = true →
      Int'.encodeSigned o v = Fixed.toNe v := by
    intro w v hh
    unfold Int'.encodeSigned
    rw [hi]
    exact writeBytes_host v (by simpa [hostOrder] using hh)
  have hz : ∀ (v : BitVec 64), hostOrder o = true →
      Int'.encodeUsize o v = .ok (Fixed.toNe v) := by
    intro v hh
    unfold Int'.encodeUsize
    rw [hl]
    show (if v.toNat < 2 ^ 64 then Except.ok (Fixed.writeBytes (Opt.byteorder o) (v.setWidth 64)) else _) = _
    rw [if_pos v.isLt, writeBytes_host _ (by simpa [hostOrder] using hh), BitVec.setWidth_eq]
  cases p with
  | bool => rfl
  | char => simp only [Prim.oneByte, Bool.or_false] at h; simp only [Storage.encPrim, rawPrim, hu _ h]
  | uint w =>
    cases w
    · show Except.ok [v] = Except.ok (Fixed.toNe (w := 8) v)
      exact congrArg Except.ok (toNe_one v).symm
    all_goals
      simp only [Prim.oneByte, Bool.or_false] at h
      exact congrArg Except.ok (hu _ h)
  | sint w =>
    cases w
    · show Except.ok [v] = Except.ok (Fixed.toNe (w := 8) v)
      exact congrArg Except.ok (toNe_one v).symm
    all_goals
      simp only [Prim.oneByte, Bool.or_false] at h
      exact congrArg Except.ok (hs _ h)
  | usize => simp only [Prim.oneByte, Bool.or_false] at h; exact hz v h
  | isize => simp only [Prim.oneByte, Bool.or_false] at h; exact hz v h
  | f32 => simp only [Prim.oneByte, Bool.or_false] at h; exact congrArg Except.ok (hu _ h)
  | f64 => simp only [Prim.oneByte, Bool.or_false] at h; exact congrArg Except.ok (hu _ h)

/-- With native options a length is written like a `usize` in memory. -/
theorem encLen_ne (hn : Opt.isNativeFixed o = true) (hh : hostOrder o = true) (n : Nat) :
    encLen o n = neLen n := by
  unfold encLen neLen
  split
  · exact encPrim_raw o hn .usize (by simp [hh]) _
  · rfl

theorem unNeLen_neLen {n : Nat} {bs : Bytes} (h : neLen n = .ok bs) (r : Bytes) :
    unNeLen (bs ++ r) = .ok (n, r) := by
  unfold neLen at h
  split at h
  · rename_i hn
    cases h
    unfold unNeLen
    rw [Dec.bind_ok (unrawInt_toNe (by decide) _ r), Dec.pure_apply, BitVec.toNat_ofNat,
      Nat.mod_eq_of_lt hn]
  · cases h

/-- The direct decoder understands the bytes of a primitive. -/
theorem decPrim_raw (hn : Opt.isNativeFixed o = true) (p : Prim)
    (h : (hostOrder o || p.oneByte) = true) (v : p.Val) (r : Bytes) :
    Storage.decPrim o p (rawPrim p v ++ r) = .ok (v, r) :=
  Storage.decPrim_encPrim o p v _ r (encPrim_raw o hn p h v)

theorem toNonZero_val {w : IW} (v : NonZeroVal w) : toNonZero w v.1 = .ok v := by
  unfold toNonZero; rw [dif_pos v.2]

theorem decD_nonZero {m : Mode} (s : Bool) (w : IW) (v : NonZeroVal w) (bs r : Bytes)
    (h : (fastD ((m.fmt o).native && (nonZeroPrim s w).bwD) (unrawPrim (nonZeroPrim s w))
      ((m.fmt o).decPrim (nonZeroPrim s w))) (bs ++ r) = .ok (nonZeroRaw s w v.1, r)) :
    decD o env (.nonZero s w) m (bs ++ r) = .ok (v, r) := by
  simp only [decD]
  rw [Dec.bind_ok h, nonZeroUnraw_raw, ofExcept_ok (toNonZero_val v)]

theorem nonZeroPrim_bwD (s : Bool) (w : IW) : (nonZeroPrim s w).bwD = true := by
  cases s <;> rfl

mutual

/-- Types satisfying `rd` are decoded from their bytes in memory. -/
theorem decD_raw : ∀ (t : Ty) (m : Mode), m.fast (Opt.isNativeFixed o) = true →
    t.bwE = true → t.rd (hostOrder o) = true →
    RT false (fun v => .ok (t.rawE v)) (decD o env t m)
  | .prim p, m, hm, _, h => by
    intro v bs r he _
    cases he
    obtain ⟨hn, pack, hf⟩ := native_storage o hm
    simp only [decD, hf]
    exact decPrim_raw o hn p (by simpa [Ty.rd] using h) v r
  | .nonZero s w, m, hm, _, h => by
    intro v bs r he _
    cases he
    apply decD_nonZero
    rw [native_fmt, hm, nonZeroPrim_bwD]
    exact unrawPrim_rawPrim _ (nonZeroPrim_bwD s w) _ r
  | .wrapping t, m, hm, hE, h => by
    simp only [Ty.bwE] at hE
    simp only [Ty.rd, Bool.or_eq_true] at h
    intro v bs r he _
    cases he
    show decD o env (.wrapping t) m (t.rawE v ++ r) = _
    simp only [decD, native_fmt, hm, Bool.true_and, fastD]
    split
    · rename_i hD; exact rawD_rawE t hD v _ r rfl (by simp)
    · rename_i hD
      exact decD_raw t m hm hE (h.resolve_left hD) v _ r rfl (by simp)
  | .packed lay fs, m, hm, hE, h => by
    simp only [Ty.bwE, Bool.and_eq_true] at hE
    simp only [Ty.rd, Bool.or_eq_true] at h
    intro v bs r he _
    cases he
    show decD o env (.packed lay fs) m (fs.rawE v ++ r) = _
    simp only [decD, native_fmt, hm, Bool.true_and]
    split
    · rename_i hD
      simp only [Bool.and_eq_true] at hD
      exact rawDs_rawEs fs hD.2 v _ r rfl (by simp)
    · rename_i hD
      obtain ⟨hn, pack, hf⟩ := native_storage o hm
      rw [hf]
      exact decPackFields_raw fs .packed hn hE.2 (h.resolve_left hD) v _ r rfl (by simp)
  | .unit, _, _, _, h => by simp [Ty.rd] at h
  | .array _ _, _, _, _, h => by simp [Ty.rd] at h
  | .bytes, _, _, h, _ => by simp [Ty.bwE] at h
  | .string, _, _, h, _ => by simp [Ty.bwE] at h
  | .byteArray _, _, _, h, _ => by simp [Ty.bwE] at h
  | .option _, _, _, h, _ => by simp [Ty.bwE] at h
  | .vec _, _, _, h, _ => by simp [Ty.bwE] at h
  | .set _, _, _, h, _ => by simp [Ty.bwE] at h
  | .map _ _, _, _, h, _ => by simp [Ty.bwE] at h
  | .tuple _, _, _, h, _ => by simp [Ty.bwE] at h
  | .result _ _ _, _, _, h, _ => by simp [Ty.bwE] at h
  | .boxed _, _, _, h, _ => by simp [Ty.bwE] at h
  | .transparent _, _, _, h, _ => by simp [Ty.bwE] at h
  | .unitStruct, _, _, h, _ => by simp [Ty.bwE] at h
  | .strct _ _, _, _, h, _ => by simp [Ty.bwE] at h
  | .unitEnum _ _, _, _, h, _ => by simp [Ty.bwE] at h
  | .enm _ _, _, _, h, _ => by simp [Ty.bwE] at h

theorem decPackFields_raw : ∀ (fs : Fields) (m : Mode), m.fast (Opt.isNativeFixed o) = true →
    fs.bwE = true → fs.rd (hostOrder o) = true →
    RT false (fun v => .ok (fs.rawE v)) (decPackFields o env fs m)
  | .nil, _, _, _, _ => by intro v bs r he _; cases he; rfl
  | .cons n d s t fs, m, hm, hE, h => by
    simp only [Fields.bwE, Bool.and_eq_true] at hE
    simp only [Fields.rd, Bool.and_eq_true] at h
    intro v bs r he _
    cases he
    show decPackFields o env (.cons n d s t fs) m ((t.rawE v.1 ++ fs.rawE v.2) ++ r) = _
    simp only [decPackFields]
    rw [List.append_assoc, Dec.bind_ok (decD_raw t m hm hE.1 h.1 v.1 _ _ rfl (by simp)),
      Dec.bind_ok (decPackFields_raw fs m hm hE.2 h.2 v.2 _ _ rfl (by simp))]
    rfl

end

/-- Types satisfying `dr` are encoded as their bytes in memory. -/
theorem encD_raw : ∀ (t : Ty) (m : Mode), m.fast (Opt.isNativeFixed o) = true →
    t.bwE = true → t.dr (hostOrder o) = true → ∀ v, encD o env t m v = .ok (t.rawE v)
  | .prim p, m, hm, _, h, v => by
    obtain ⟨hn, pack, hf⟩ := native_storage o hm
    simp only [encD, hf]
    exact encPrim_raw o hn p (by simpa [Ty.dr] using h) v
  | .wrapping t, m, hm, hE, h, v => by
    simp only [Ty.bwE] at hE
    simp only [Ty.dr] at h
    simp only [encD]
    exact encD_raw t m hm hE h v
  | .packed lay fs, m, hm, hE, h, v => by
    simp only [Ty.bwE] at hE
    simp only [encD, native_fmt, hm, hE, Bool.true_and, if_true]
    rfl
  | .nonZero _ _, _, _, _, h, _ => by simp [Ty.dr] at h
  | .unit, _, _, _, h, _ => by simp [Ty.dr] at h
  | .array _ _, _, _, _, h, _ => by simp [Ty.dr] at h
  | .bytes, _, _, h, _, _ => by simp [Ty.bwE] at h
  | .string, _, _, h, _, _ => by simp [Ty.bwE] at h
  | .byteArray _, _, _, h, _, _ => by simp [Ty.bwE] at h
  | .option _, _, _, h, _, _ => by simp [Ty.bwE] at h
  | .vec _, _, _, h, _, _ => by simp [Ty.bwE] at h
  | .set _, _, _, h, _, _ => by simp [Ty.bwE] at h
  | .map _ _, _, _, h, _, _ => by simp [Ty.bwE] at h
  | .tuple _, _, _, h, _, _ => by simp [Ty.bwE] at h
  | .result _ _ _, _, _, h, _, _ => by simp [Ty.bwE] at h
  | .boxed _, _, _, h, _, _ => by simp [Ty.bwE] at h
  | .transparent _, _, _, h, _, _ => by simp [Ty.bwE] at h
  | .unitStruct, _, _, h, _, _ => by simp [Ty.bwE] at h
  | .strct _ _, _, _, h, _, _ => by simp [Ty.bwE] at h
  | .unitEnum _ _, _, _, h, _, _ => by simp [Ty.bwE] at h
  | .enm _ _, _, _, h, _, _ => by simp [Ty.bwE] at h

end
end Musli
