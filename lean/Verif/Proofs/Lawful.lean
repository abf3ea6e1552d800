import Verif.Model.Codec
import Verif.Proofs.IntEnc
/-!
# Every format decodes what it encodes, method by method
-/
set_option linter.unusedSectionVars false
namespace Musli

theorem charCode_toNat (c : Char) : (charCode c).toNat = c.toNat := by
  unfold charCode
  rw [BitVec.toNat_ofNat, Nat.mod_eq_of_lt]
  have := c.val.toBitVec.isLt
  exact this

theorem charOf_charCode (c : Char) : charOf (charCode c) = .ok c := by
  have h : (charCode c).toNat.isValidChar := by rw [charCode_toNat]; exact c.valid
  unfold charOf
  rw [dif_pos h]
  congr 1
  apply Char.ext
  apply UInt32.toNat_inj.mp
  have := charCode_toNat c
  show (BitVec.ofNatLT (charCode c).toNat _ : BitVec 32).toNat = c.toNat
  rw [BitVec.toNat_ofNatLT, this]

theorem ofExcept_ok {α} {x : Except Err α} {a : α} (h : x = .ok a) (s : Bytes) :
    Dec.ofExcept x s = .ok (a, s) := by subst h; rfl

/-- What the methods of a format owe each other. -/
structure Fmt.Lawful (F : Fmt) : Prop where
  prim : ∀ p v bs r, F.encPrim p v = .ok bs → F.decPrim p (bs ++ r) = .ok (v, r)
  unit : ∀ bs r, F.encUnit = .ok bs → F.decUnit (bs ++ r) = .ok ((), r)
  bytes : ∀ b bs r, F.encBytes b = .ok bs → F.decBytes (bs ++ r) = .ok (b, r)
  arr : ∀ b bs r, F.encArr b = .ok bs → F.decArr b.length (bs ++ r) = .ok (b, r)
  str : ∀ b bs r, F.encStr b = .ok bs → F.decStr (bs ++ r) = .ok (b, r)
  none : F.pack = false → ∀ bs r, F.encNone = .ok bs → F.decOption (bs ++ r) = .ok (false, r)
  some : F.pack = false → ∀ bs r, F.encSome = .ok bs → F.decOption (bs ++ r) = .ok (true, r)
  packNone : F.pack = true → F.encNone = .ok []
  packSome : F.pack = true → F.encSome = .ok []
  packOption : F.pack = true → ∀ s, F.decOption s = .ok (!s.isEmpty, s)
  seq : ∀ n bs r, F.encSeq n = .ok bs → F.decSeq (bs ++ r) = .ok (n, r)
  endSeq : ∀ s, F.endSeq 0 s = .ok ((), s)
  map : ∀ n bs r, F.encMap n = .ok bs → F.decMap (bs ++ r) = .ok (n, r)
  endMap : ∀ s, F.endMap 0 s = .ok ((), s)
  variant : ∀ bs r, F.encVariant = .ok bs → F.decVariant (bs ++ r) = .ok ((), r)
  encPlain : F.delimited = false → ∀ b, F.encPack b = .ok b
  decPlain : F.delimited = false → ∀ {α : Type} (d : Dec α), F.decPack d = d
  pack' : F.delimited = true → ∀ b bs r, F.encPack b = .ok bs →
    ∀ {α : Type} (d : Dec α) (v : α) (l : Bytes), d b = .ok (v, l) →
      F.decPack d (bs ++ r) = .ok (v, r)

section
variable [Host] (o : Options)

theorem decLen_encLen {n : Nat} {bs : Bytes} (h : encLen o n = .ok bs) (r : Bytes) :
    decLen o (bs ++ r) = .ok (n, r) := by
  unfold encLen at h
  split at h
  · rename_i hn
    unfold decLen
    rw [Dec.bind_ok (Int'.decodeUsize_encodeUsize o _ h r), Dec.pure_apply, BitVec.toNat_ofNat,
      Nat.mod_eq_of_lt hn]
  · cases h

/-! ## Storage -/

namespace Storage

theorem decPrim_encPrim (p : Prim) (v : p.Val) (bs r : Bytes) (h : encPrim o p v = .ok bs) :
    decPrim o p (bs ++ r) = .ok (v, r) := by
  cases p with
  | bool => cases v <;> cases h <;> rfl
  | char =>
    cases h
    show decChar o _ = _
    unfold decChar
    rw [Dec.bind_ok (Int'.decodeUnsigned_encodeUnsigned o (by decide) (by decide) _ r),
      ofExcept_ok (charOf_charCode v)]
  | uint w =>
    cases w <;> cases h
    · rfl
    all_goals exact Int'.decodeUnsigned_encodeUnsigned o (by decide) (by decide) _ r
  | sint w =>
    cases w <;> cases h
    · rfl
    all_goals exact Int'.decodeSigned_encodeSigned o (by decide) (by decide) _ r
  | usize => exact Int'.decodeUsize_encodeUsize o v h r
  | isize => exact Int'.decodeUsize_encodeUsize o v h r
  | f32 => cases h; exact Int'.decodeUnsigned_encodeUnsigned o (by decide) (by decide) _ r
  | f64 => cases h; exact Int'.decodeUnsigned_encodeUnsigned o (by decide) (by decide) _ r

theorem decBytes_encBytes (b bs r : Bytes) (h : encBytes o b = .ok bs) :
    decBytes o (bs ++ r) = .ok (b, r) := by
  obtain ⟨x, y, hx, hy, rfl⟩ := Enc.seq_eq_ok.mp h
  cases hy
  unfold decBytes
  rw [List.append_assoc, Dec.bind_ok (decLen_encLen o hx _), Dec.readBytes_append]

theorem lawful (pack : Bool) : (fmt pack o).Lawful where
  prim := decPrim_encPrim o
  unit := by
    intro bs r h
    show decUnit o (bs ++ r) = _
    have h' : encLen o 0 = .ok bs := h
    unfold decUnit
    rw [Dec.bind_ok (decLen_encLen o h' r)]; rfl
  bytes := decBytes_encBytes o
  arr := by intro b bs r h; cases h; exact Dec.readBytes_append _ _
  str := decBytes_encBytes o
  none := by intro h bs r h'; cases h; cases h'; rfl
  some := by intro h bs r h'; cases h; cases h'; rfl
  packNone := by intro h; cases h; rfl
  packSome := by intro h; cases h; rfl
  packOption := by intro h s; cases h; rfl
  seq := fun n bs r h => decLen_encLen o h r
  endSeq := fun s => rfl
  map := fun n bs r h => decLen_encLen o h r
  endMap := fun s => rfl
  variant := by intro bs r h; cases h; rfl
  encPlain := fun _ b => rfl
  decPlain := fun _ _ d => rfl
  pack' := by intro h; cases h

end Storage

/-! ## Wire -/

namespace Wire

omit [Host] in
theorem kind_data_small : ∀ (k : Byte), k ∈ [PREFIX, SEQUENCE, CONTINUATION] →
    ∀ n : Fin 63, kind (tag k (BitVec.ofNat 8 n)) = k ∧
      data (tag k (BitVec.ofNat 8 n)) = some (BitVec.ofNat 8 n) := by decide

omit [Host] in
theorem kind_data_mask : ∀ (k : Byte), k ∈ [PREFIX, SEQUENCE, CONTINUATION] →
    kind (tag k DATA_MASK) = k ∧ data (tag k DATA_MASK) = none := by decide

theorem decTagLen_encTagLen {k : Byte} (hk : k ∈ [PREFIX, SEQUENCE, CONTINUATION]) {n : Nat}
    {bs : Bytes} (h : encTagLen o k n = .ok bs) (r : Bytes) :
    decTagLen o k (bs ++ r) = .ok (n, r) := by
  unfold encTagLen at h
  unfold decTagLen
  split at h
  · rename_i hn
    cases h
    obtain ⟨h1, h2⟩ := kind_data_small k hk ⟨n, hn⟩
    simp only at h1 h2
    rw [List.singleton_append, Dec.bind_ok (Dec.readByte_cons _ _), if_pos h1, tagLen, h2]
    simp only [Dec.pure_apply, BitVec.toNat_ofNat]
    rw [Nat.mod_eq_of_lt (by omega)]
  · obtain ⟨x, y, hx, hy, rfl⟩ := Enc.seq_eq_ok.mp h
    cases hx
    obtain ⟨h1, h2⟩ := kind_data_mask k hk
    rw [List.append_assoc, List.singleton_append, Dec.bind_ok (Dec.readByte_cons _ _), if_pos h1,
      tagLen, h2]
    exact decLen_encLen o hy r

/-- The tag of a small number. -/
theorem cont_small {w : Nat} (_hw : 8 ≤ w) (v : BitVec w) (h : v.toNat < 63) :
    kind (tag CONTINUATION (v.setWidth 8)) = CONTINUATION ∧
      data (tag CONTINUATION (v.setWidth 8)) = some (v.setWidth 8) ∧
      (v.setWidth 8).setWidth w = v := by
  have hv : v.setWidth 8 = BitVec.ofNat 8 v.toNat := by
    apply BitVec.eq_of_toNat_eq
    rw [BitVec.toNat_setWidth, BitVec.toNat_ofNat]
  have := kind_data_small CONTINUATION (by decide) ⟨v.toNat, h⟩
  rw [hv]
  refine ⟨this.1, this.2, ?_⟩
  apply BitVec.eq_of_toNat_eq
  rw [BitVec.toNat_setWidth, BitVec.toNat_ofNat, Nat.mod_eq_of_lt (by omega : v.toNat < 2 ^ 8)]
  exact Nat.mod_eq_of_lt v.isLt

theorem decUnsigned_encUnsigned {w : Nat} (hw : 8 ≤ w) (h8 : w % 8 = 0) (v : BitVec w)
    (bs r : Bytes) (h : encUnsigned o v = .ok bs) : decUnsigned o w (bs ++ r) = .ok (v, r) := by
  unfold encUnsigned at h
  unfold decUnsigned
  cases hi : Opt.integer o <;> simp only [hi] at h ⊢
  · split at h
    · rename_i hv
      cases h
      obtain ⟨h1, h2, h3⟩ := cont_small hw v hv
      rw [List.singleton_append, Dec.bind_ok (Dec.readByte_cons _ _), if_pos h1, h2]
      simp only [Dec.pure_apply, h3]
    · cases h
      obtain ⟨h1, h2⟩ := kind_data_mask CONTINUATION (by decide)
      rw [List.cons_append, Dec.bind_ok (Dec.readByte_cons _ _), if_pos h1, h2]
      exact Varint.decode_encode (by omega) v r
  · cases h
    rw [List.cons_append, Dec.bind_ok (Dec.readByte_cons _ _), if_pos rfl]
    exact Fixed.readBytes_writeBytes h8 _ v r

theorem decSigned_encSigned {w : Nat} (hw : 8 ≤ w) (h8 : w % 8 = 0) (v : BitVec w)
    (bs r : Bytes) (h : encSigned o v = .ok bs) : decSigned o w (bs ++ r) = .ok (v, r) := by
  unfold decSigned
  rw [Dec.bind_ok (decUnsigned_encUnsigned o hw h8 _ bs r h), Dec.pure_apply,
    ZigZag.decode_encode (by omega)]

theorem decUsize_encUsize (v : BitVec 64) (bs r : Bytes) (h : encUsize o v = .ok bs) :
    decUsize o (bs ++ r) = .ok (v, r) := by
  have key : ∀ wd : Width, ∀ bs : Bytes,
      (.ok [tag PREFIX (widthTag wd)] +>
      (if v.toNat < 2 ^ Int'.widthBits wd then
        .ok (Fixed.writeBytes (Opt.byteorder o) (v.setWidth (Int'.widthBits wd)))
      else .error .overflow)) = Except.ok bs →
      (do
        let t ← Dec.readByte
        if t = tag PREFIX (widthTag wd) then do
          let v ← Fixed.readBytes (Int'.widthBits wd) (Opt.byteorder o)
          pure (v.setWidth 64)
        else Dec.fail .invalid : Dec (BitVec 64)) (bs ++ r) = .ok (v, r) := by
    intro wd bs h
    obtain ⟨x, y, hx, hy, rfl⟩ := Enc.seq_eq_ok.mp h
    cases hx
    split at hy
    · rename_i hv
      cases hy
      rw [List.append_assoc, List.singleton_append, Dec.bind_ok (Dec.readByte_cons _ _), if_pos rfl,
        Dec.bind_ok (Fixed.readBytes_writeBytes (by cases wd <;> decide) _ _ r), Dec.pure_apply]
      congr 2
      apply BitVec.eq_of_toNat_eq
      rw [BitVec.toNat_setWidth, BitVec.toNat_setWidth, Nat.mod_eq_of_lt hv,
        Nat.mod_eq_of_lt v.isLt]
    · cases hy
  unfold encUsize at h
  unfold decUsize
  cases hl : Opt.length o <;> simp only [hl] at h ⊢
  · split at h
    · rename_i hv
      cases h
      obtain ⟨h1, h2, h3⟩ := cont_small (by decide) v hv
      rw [List.singleton_append, Dec.bind_ok (Dec.readByte_cons _ _), if_pos h1, h2]
      simp only [Dec.pure_apply, h3]
    · cases h
      obtain ⟨h1, h2⟩ := kind_data_mask CONTINUATION (by decide)
      rw [List.cons_append, Dec.bind_ok (Dec.readByte_cons _ _), if_pos h1, h2]
      exact Varint.decode_encode (by decide) v r
  all_goals exact key _ bs h

theorem decPrim_encPrim (p : Prim) (v : p.Val) (bs r : Bytes) (h : encPrim o p v = .ok bs) :
    decPrim o p (bs ++ r) = .ok (v, r) := by
  cases p with
  | bool => cases v <;> cases h <;> rfl
  | char =>
    show decChar o _ = _
    unfold decChar
    rw [Dec.bind_ok (decUnsigned_encUnsigned o (by decide) (by decide) _ bs r h),
      ofExcept_ok (charOf_charCode v)]
  | uint w => cases w <;> exact decUnsigned_encUnsigned o (by decide) (by decide) _ bs r h
  | sint w =>
    cases w
    · exact decUnsigned_encUnsigned o (by decide) (by decide) _ bs r h
    all_goals exact decSigned_encSigned o (by decide) (by decide) _ bs r h
  | usize => exact decUsize_encUsize o v bs r h
  | isize => exact decUsize_encUsize o v bs r h
  | f32 => exact decUnsigned_encUnsigned o (by decide) (by decide) _ bs r h
  | f64 => exact decUnsigned_encUnsigned o (by decide) (by decide) _ bs r h

theorem decBytes_encBytes (b bs r : Bytes) (h : encBytes o b = .ok bs) :
    decBytes o (bs ++ r) = .ok (b, r) := by
  obtain ⟨x, y, hx, hy, rfl⟩ := Enc.seq_eq_ok.mp h
  cases hy
  unfold decBytes
  rw [List.append_assoc, Dec.bind_ok (decTagLen_encTagLen o (by decide) hx _),
    Dec.readBytes_append]

omit [Host] in
theorem limited_append {α} (d : Dec α) (b r : Bytes) (v : α) (l : Bytes) (h : d b = .ok (v, l)) :
    limited b.length d (b ++ r) = .ok (v, r) := by
  simp [limited, h]

theorem skip_unit (r : Bytes) : skip o ([tag SEQUENCE 0#8] ++ r) = .ok ((), r) := by
  unfold skip skipAny skipMany skipLoop
  rw [List.singleton_append, Dec.bind_ok (a := 0) (s' := r)]
  · rfl
  · unfold step
    rw [Dec.bind_ok (Dec.readByte_cons _ _), if_neg (by decide), if_pos (by decide)]
    rfl

theorem lawful : (fmt o).Lawful where
  prim := decPrim_encPrim o
  unit := by intro bs r h; cases h; exact skip_unit o r
  bytes := decBytes_encBytes o
  arr := by
    intro b bs r h
    have h' : encBytes o  b = .ok bs := h
    obtain ⟨x, y, hx, hy, rfl⟩ := Enc.seq_eq_ok.mp h'
    cases hy
    show decArr o _ _ = _
    unfold decArr
    rw [List.append_assoc, Dec.bind_ok (decTagLen_encTagLen o (by decide) hx _), if_pos rfl,
      Dec.readBytes_append]
  str := decBytes_encBytes o
  none := by intro _ bs r h'; cases h'; rfl
  some := by intro _ bs r h'; cases h'; rfl
  packNone := by intro h; cases h
  packSome := by intro h; cases h
  packOption := by intro h; cases h
  seq := fun n bs r h => decTagLen_encTagLen o (by decide) h r
  endSeq := fun s => rfl
  map := by
    intro n bs r h
    show decMapLen o (bs ++ r) = _
    change encMapLen o n = .ok bs at h
    unfold encMapLen at h
    split at h
    · unfold decMapLen
      rw [Dec.bind_ok (decTagLen_encTagLen o (by decide) h r), Dec.pure_apply,
        Nat.mul_div_cancel _ (by decide)]
    · cases h
  endMap := fun s => rfl
  variant := by intro bs r h; cases h; rfl
  encPlain := by intro h; cases h
  decPlain := by intro h; cases h
  pack' := by
    intro _ b bs r h α d v l hd
    have h' : encBytes o  b = .ok bs := h
    obtain ⟨x, y, hx, hy, rfl⟩ := Enc.seq_eq_ok.mp h'
    cases hy
    show decPack o d _ = _
    unfold decPack
    rw [List.append_assoc, Dec.bind_ok (decTagLen_encTagLen o (by decide) hx _)]
    exact limited_append d b r v l hd

end Wire

/-! ## Descriptive -/

namespace Desc

omit [Host] in
theorem kind_data_small : ∀ (k : Byte), k ∈ [SEQUENCE, MAP, BYTES, STRING] →
    ∀ n : Fin 31, kind (tag k (BitVec.ofNat 8 n)) = k ∧
      data (tag k (BitVec.ofNat 8 n)) = some (BitVec.ofNat 8 n) := by decide

omit [Host] in
theorem kind_data_mask : ∀ (k : Byte), k ∈ [SEQUENCE, MAP, BYTES, STRING] →
    kind (tag k DATA_MASK) = k ∧ data (tag k DATA_MASK) = none := by decide

theorem decTagLen_encTagLen {k : Byte} (hk : k ∈ [SEQUENCE, MAP, BYTES, STRING]) {n : Nat}
    {bs : Bytes} (h : encTagLen o k n = .ok bs) (r : Bytes) :
    decTagLen o k (bs ++ r) = .ok (n, r) := by
  unfold encTagLen at h
  unfold decTagLen
  split at h
  · rename_i hn
    cases h
    obtain ⟨h1, h2⟩ := kind_data_small k hk ⟨n, hn⟩
    simp only at h1 h2
    rw [List.singleton_append, Dec.bind_ok (Dec.readByte_cons _ _), if_pos h1, tagLen, h2]
    simp only [Dec.pure_apply, BitVec.toNat_ofNat]
    rw [Nat.mod_eq_of_lt (by omega)]
  · obtain ⟨x, y, hx, hy, rfl⟩ := Enc.seq_eq_ok.mp h
    cases hx
    obtain ⟨h1, h2⟩ := kind_data_mask k hk
    rw [List.append_assoc, List.singleton_append, Dec.bind_ok (Dec.readByte_cons _ _), if_pos h1,
      tagLen, h2]
    exact decLen_encLen o hy r

omit [Host] in
theorem number_tag : ∀ (w : IW) (k : NumberKind), kind (tag NUMBER (number w k)) = NUMBER ∧
    numberKind (tag NUMBER (number w k)) = k := by
  intro w k; cases w <;> cases k <;> decide

theorem decTyped_encTyped {w : Nat} (hw : 8 ≤ w) (iw : IW) (k : NumberKind) (v : BitVec w)
    (bs r : Bytes) (h : encTyped (number iw k) v = .ok bs) :
    decTyped w (bs ++ r) = .ok ((v, k), r) := by
  cases h
  obtain ⟨h1, h2⟩ := number_tag iw k
  unfold decTyped
  rw [List.cons_append, Dec.bind_ok (Dec.readByte_cons _ _), if_pos h1,
    Dec.bind_ok (Varint.decode_encode hw v r), Dec.pure_apply, h2]

theorem decTypedUnsigned_encTyped {w : Nat} (hw : 8 ≤ w) (iw : IW) (k : NumberKind)
    (hk : k = .unsigned ∨ k = .float) (v : BitVec w)
    (bs r : Bytes) (h : encTyped (number iw k) v = .ok bs) :
    decTypedUnsigned w (bs ++ r) = .ok (v, r) := by
  unfold decTypedUnsigned
  rw [Dec.bind_ok (decTyped_encTyped hw iw k v bs r h)]
  rcases hk with rfl | rfl <;> rfl

theorem decTypedSigned_encTyped {w : Nat} (hw : 8 ≤ w) (iw : IW) (v : BitVec w)
    (bs r : Bytes) (h : encTyped (number iw .signed) (ZigZag.encode v) = .ok bs) :
    decTypedSigned w (bs ++ r) = .ok (v, r) := by
  unfold decTypedSigned
  rw [Dec.bind_ok (decTyped_encTyped hw iw .signed _ bs r h)]
  simp only [Dec.pure_apply, ZigZag.decode_encode (by omega : 1 ≤ w)]

theorem decPrim_encPrim (p : Prim) (v : p.Val) (bs r : Bytes) (h : encPrim p v = .ok bs) :
    decPrim p (bs ++ r) = .ok (v, r) := by
  cases p with
  | bool => cases v <;> cases h <;> rfl
  | char =>
    cases h
    show decChar _ = _
    unfold decChar
    rw [List.cons_append, Dec.bind_ok (Dec.readByte_cons _ _), if_pos rfl,
      Dec.bind_ok (Varint.decode_encode (by decide) _ r), ofExcept_ok (charOf_charCode v)]
  | uint w => exact decTypedUnsigned_encTyped (by cases w <;> decide) _ _ (.inl rfl) _ bs r h
  | sint w => exact decTypedSigned_encTyped (by cases w <;> decide) _ _ bs r h
  | usize => exact decTypedUnsigned_encTyped (by decide) _ _ (.inl rfl) _ bs r h
  | isize => exact decTypedSigned_encTyped (by decide) _ _ bs r h
  | f32 => exact decTypedUnsigned_encTyped (by decide) _ _ (.inr rfl) _ bs r h
  | f64 => exact decTypedUnsigned_encTyped (by decide) _ _ (.inr rfl) _ bs r h

theorem decBytes_encBytes {k : Byte} (hk : k ∈ [SEQUENCE, MAP, BYTES, STRING]) (b bs r : Bytes)
    (h : encBytes o k b = .ok bs) : decBytes o k (bs ++ r) = .ok (b, r) := by
  obtain ⟨x, y, hx, hy, rfl⟩ := Enc.seq_eq_ok.mp h
  cases hy
  unfold decBytes
  rw [List.append_assoc, Dec.bind_ok (decTagLen_encTagLen o hk hx _), Dec.readBytes_append]

theorem skip_unit (r : Bytes) : skip o ([tag MARK mUnit] ++ r) = .ok ((), r) := by
  unfold skip skipAny skipMany skipLoop
  rw [List.singleton_append, Dec.bind_ok (a := 0) (s' := r)]
  · rfl
  · unfold step
    rw [Dec.bind_ok (Dec.readByte_cons _ _), if_neg (by decide), if_pos (by decide),
      if_neg (by decide), if_neg (by decide), if_neg (by decide)]
    rfl

theorem lawful : (fmt o).Lawful where
  prim := decPrim_encPrim
  unit := by intro bs r h; cases h; exact skip_unit o r
  bytes := decBytes_encBytes o (by decide)
  arr := by
    intro b bs r h
    have h' : encBytes o BYTES b = .ok bs := h
    obtain ⟨x, y, hx, hy, rfl⟩ := Enc.seq_eq_ok.mp h'
    cases hy
    show decArr o _ _ = _
    unfold decArr
    rw [List.append_assoc, Dec.bind_ok (decTagLen_encTagLen o (by decide) hx _), if_pos rfl,
      Dec.readBytes_append]
  str := decBytes_encBytes o (by decide)
  none := by intro _ bs r h'; cases h'; rfl
  some := by intro _ bs r h'; cases h'; rfl
  packNone := by intro h; cases h
  packSome := by intro h; cases h
  packOption := by intro h; cases h
  seq := fun n bs r h => decTagLen_encTagLen o (by decide) h r
  endSeq := fun s => rfl
  map := fun n bs r h => decTagLen_encTagLen o (by decide) h r
  endMap := fun s => rfl
  variant := by intro bs r h; cases h; rfl
  encPlain := by intro h; cases h
  decPlain := by intro h; cases h
  pack' := by
    intro _ b bs r h α d v l hd
    have h' : encBytes o BYTES b = .ok bs := h
    obtain ⟨x, y, hx, hy, rfl⟩ := Enc.seq_eq_ok.mp h'
    cases hy
    show decPack o d _ = _
    unfold decPack
    rw [List.append_assoc, Dec.bind_ok (decTagLen_encTagLen o (by decide) hx _)]
    exact Wire.limited_append d b r v l hd

end Desc

theorem Mode.lawful (m : Mode) : (m.fmt o).Lawful := by
  cases m
  · exact Storage.lawful o false
  · exact Storage.lawful o true
  · exact Wire.lawful o
  · exact Desc.lawful o

end
end Musli
