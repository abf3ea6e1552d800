import Verif.Model.Machine
import Verif.Spec.Machine
import Verif.Proofs.RoundTrip
/-!
# One machine writes, another one reads: methods and values
-/
set_option linter.unusedSectionVars false
namespace Musli.Machine

/-- Some lemmas ask for a byte order which they do not use. -/
local instance anyHost : Host := ⟨.little⟩

/-- What the methods of a writer `E` and a reader `D` owe each other. -/
structure Cross (iz : Bool) (E D : Fmt) : Prop where
  prim : ∀ p v bs r, (p = .isize → iz = true) → E.encPrim p v = .ok bs → D.decPrim p (bs ++ r) = .ok (v, r)
  unit : ∀ bs r, E.encUnit = .ok bs → D.decUnit (bs ++ r) = .ok ((), r)
  bytes : ∀ b bs r, E.encBytes b = .ok bs → D.decBytes (bs ++ r) = .ok (b, r)
  arr : ∀ b bs r, E.encArr b = .ok bs → D.decArr b.length (bs ++ r) = .ok (b, r)
  str : ∀ b bs r, E.encStr b = .ok bs → D.decStr (bs ++ r) = .ok (b, r)
  samePack : E.pack = D.pack
  sameDelimited : E.delimited = D.delimited
  none : D.pack = false → ∀ bs r, E.encNone = .ok bs → D.decOption (bs ++ r) = .ok (false, r)
  some : D.pack = false → ∀ bs r, E.encSome = .ok bs → D.decOption (bs ++ r) = .ok (true, r)
  packNone : D.pack = true → E.encNone = .ok []
  packSome : D.pack = true → E.encSome = .ok []
  packOption : D.pack = true → ∀ s, D.decOption s = .ok (!s.isEmpty, s)
  seq : ∀ n bs r, E.encSeq n = .ok bs → D.decSeq (bs ++ r) = .ok (n, r)
  endSeq : ∀ s, D.endSeq 0 s = .ok ((), s)
  map : ∀ n bs r, E.encMap n = .ok bs → D.decMap (bs ++ r) = .ok (n, r)
  endMap : ∀ s, D.endMap 0 s = .ok ((), s)
  variant : ∀ bs r, E.encVariant = .ok bs → D.decVariant (bs ++ r) = .ok ((), r)
  encPlain : D.delimited = false → ∀ b, E.encPack b = .ok b
  decPlain : D.delimited = false → ∀ {α : Type} (d : Dec α), D.decPack d = d
  pack' : D.delimited = true → ∀ b bs r, E.encPack b = .ok bs →
    ∀ {α : Type} (d : Dec α) (v : α) (l : Bytes), d b = .ok (v, l) →
      D.decPack d (bs ++ r) = .ok (v, r)

/-- What the numbers of a writer `E` and a reader `D` owe each other. -/
structure CrossN (iz : Bool) (E D : Nums) : Prop where
  len : ∀ n bs r, E.encLen n = .ok bs → D.decLen (bs ++ r) = .ok (n, r)
  prim : ∀ p v bs r, (p = .isize → iz = true) → E.encPrim p v = .ok bs → D.decPrim p (bs ++ r) = .ok (v, r)

section
variable {iz : Bool} {E D : Nums} (h : CrossN iz E D)
include h

/-! ## Storage -/

theorem sBytes_cross (b bs r : Bytes) (he : sEncBytes E b = .ok bs) : sDecBytes D (bs ++ r) = .ok (b, r) := by
  obtain ⟨x, y, hx, hy, rfl⟩ := Enc.seq_eq_ok.mp he
  cases hy
  unfold sDecBytes
  rw [List.append_assoc, Dec.bind_ok (h.len _ _ _ hx), Dec.readBytes_append]

theorem storage_cross (n1 n2 pack : Bool) : Cross iz (storage n1 pack E) (storage n2 pack D) where
  prim := h.prim
  unit := by
    intro bs r he
    show sDecUnit D (bs ++ r) = _
    unfold sDecUnit
    rw [Dec.bind_ok (h.len 0 bs r he)]; rfl
  bytes := sBytes_cross h
  arr := by intro b bs r h; cases h; exact Dec.readBytes_append _ _
  str := sBytes_cross h
  samePack := rfl
  sameDelimited := rfl
  none := by intro h bs r h'; cases h; cases h'; rfl
  some := by intro h bs r h'; cases h; cases h'; rfl
  packNone := by intro h; cases h; rfl
  packSome := by intro h; cases h; rfl
  packOption := by intro h s; cases h; rfl
  seq := h.len
  endSeq := fun s => rfl
  map := h.len
  endMap := fun s => rfl
  variant := by intro bs r h; cases h; rfl
  encPlain := fun _ b => rfl
  decPlain := fun _ _ d => rfl
  pack' := by intro h; cases h

/-! ## Wire -/

theorem wTagLen_cross {k : Byte} (hk : k ∈ [Wire.PREFIX, Wire.SEQUENCE, Wire.CONTINUATION]) {n : Nat}
    {bs : Bytes} (he : wEncTagLen E k n = .ok bs) (r : Bytes) : wDecTagLen D k (bs ++ r) = .ok (n, r) := by
  unfold wEncTagLen at he
  unfold wDecTagLen
  split at he
  · rename_i hn
    cases he
    obtain ⟨h1, h2⟩ := Wire.kind_data_small k hk ⟨n, hn⟩
    simp only at h1 h2
    rw [List.singleton_append, Dec.bind_ok (Dec.readByte_cons _ _), if_pos h1, wTagLen, h2]
    simp only [Dec.pure_apply, BitVec.toNat_ofNat]
    rw [Nat.mod_eq_of_lt (by omega)]
  · obtain ⟨x, y, hx, hy, rfl⟩ := Enc.seq_eq_ok.mp he
    cases hx
    obtain ⟨h1, h2⟩ := Wire.kind_data_mask k hk
    rw [List.append_assoc, List.singleton_append, Dec.bind_ok (Dec.readByte_cons _ _), if_pos h1,
      wTagLen, h2]
    exact h.len _ _ _ hy

theorem wBytes_cross (b bs r : Bytes) (he : wEncBytes E b = .ok bs) : wDecBytes D (bs ++ r) = .ok (b, r) := by
  obtain ⟨x, y, hx, hy, rfl⟩ := Enc.seq_eq_ok.mp he
  cases hy
  unfold wDecBytes
  rw [List.append_assoc, Dec.bind_ok (wTagLen_cross h (by decide) hx _), Dec.readBytes_append]

omit h in
theorem wSkip_unit (r : Bytes) : wSkip D ([Wire.tag Wire.SEQUENCE 0#8] ++ r) = .ok ((), r) := by
  unfold wSkip skipAny skipMany skipLoop
  rw [List.singleton_append, Dec.bind_ok (a := 0) (s' := r)]
  · rfl
  · unfold wStep
    rw [Dec.bind_ok (Dec.readByte_cons _ _), if_neg (by decide), if_pos (by decide)]
    rfl

theorem wire_cross : Cross iz (wire E) (wire D) where
  prim := h.prim
  unit := by intro bs r h'; cases h'; exact wSkip_unit r
  bytes := wBytes_cross h
  arr := by
    intro b bs r he
    obtain ⟨x, y, hx, hy, rfl⟩ := Enc.seq_eq_ok.mp (show wEncBytes E b = .ok bs from he)
    cases hy
    show wDecArr D _ _ = _
    unfold wDecArr
    rw [List.append_assoc, Dec.bind_ok (wTagLen_cross h (by decide) hx _), if_pos rfl,
      Dec.readBytes_append]
  str := wBytes_cross h
  samePack := rfl
  sameDelimited := rfl
  none := by intro _ bs r h'; cases h'; rfl
  some := by intro _ bs r h'; cases h'; rfl
  packNone := by intro h; cases h
  packSome := by intro h; cases h
  packOption := by intro h; cases h
  seq := fun n bs r he => wTagLen_cross h (by decide) he r
  endSeq := fun s => rfl
  map := by
    intro n bs r he
    show wDecMapLen D (bs ++ r) = _
    change wEncMapLen E n = .ok bs at he
    unfold wEncMapLen at he
    split at he
    · unfold wDecMapLen
      rw [Dec.bind_ok (wTagLen_cross h (by decide) he r), Dec.pure_apply,
        Nat.mul_div_cancel _ (by decide)]
    · cases he
  endMap := fun s => rfl
  variant := by intro bs r h; cases h; rfl
  encPlain := by intro h; cases h
  decPlain := by intro h; cases h
  pack' := by
    intro _ b bs r he α d v l hd
    obtain ⟨x, y, hx, hy, rfl⟩ := Enc.seq_eq_ok.mp (show wEncBytes E b = .ok bs from he)
    cases hy
    show wDecPack D d _ = _
    unfold wDecPack
    rw [List.append_assoc, Dec.bind_ok (wTagLen_cross h (by decide) hx _)]
    exact Wire.limited_append d b r v l hd

/-! ## Descriptive -/

theorem dTagLen_cross {k : Byte} (hk : k ∈ [Desc.SEQUENCE, Desc.MAP, Desc.BYTES, Desc.STRING]) {n : Nat}
    {bs : Bytes} (he : dEncTagLen E k n = .ok bs) (r : Bytes) : dDecTagLen D k (bs ++ r) = .ok (n, r) := by
  unfold dEncTagLen at he
  unfold dDecTagLen
  split at he
  · rename_i hn
    cases he
    obtain ⟨h1, h2⟩ := Desc.kind_data_small k hk ⟨n, hn⟩
    simp only at h1 h2
    rw [List.singleton_append, Dec.bind_ok (Dec.readByte_cons _ _), if_pos h1, dTagLen, h2]
    simp only [Dec.pure_apply, BitVec.toNat_ofNat]
    rw [Nat.mod_eq_of_lt (by omega)]
  · obtain ⟨x, y, hx, hy, rfl⟩ := Enc.seq_eq_ok.mp he
    cases hx
    obtain ⟨h1, h2⟩ := Desc.kind_data_mask k hk
    rw [List.append_assoc, List.singleton_append, Dec.bind_ok (Dec.readByte_cons _ _), if_pos h1,
      dTagLen, h2]
    exact h.len _ _ _ hy

theorem dBytes_cross {k : Byte} (hk : k ∈ [Desc.SEQUENCE, Desc.MAP, Desc.BYTES, Desc.STRING]) (b bs r : Bytes)
    (he : dEncBytes E k b = .ok bs) : dDecBytes D k (bs ++ r) = .ok (b, r) := by
  obtain ⟨x, y, hx, hy, rfl⟩ := Enc.seq_eq_ok.mp he
  cases hy
  unfold dDecBytes
  rw [List.append_assoc, Dec.bind_ok (dTagLen_cross h hk hx _), Dec.readBytes_append]

omit h in
theorem dSkip_unit (r : Bytes) : dSkip D ([Desc.tag Desc.MARK Desc.mUnit] ++ r) = .ok ((), r) := by
  unfold dSkip skipAny skipMany skipLoop
  rw [List.singleton_append, Dec.bind_ok (a := 0) (s' := r)]
  · rfl
  · unfold dStep
    rw [Dec.bind_ok (Dec.readByte_cons _ _), if_neg (by decide), if_pos (by decide),
      if_neg (by decide), if_neg (by decide), if_neg (by decide)]
    rfl

theorem desc_cross : Cross iz (desc E) (desc D) where
  prim := h.prim
  unit := by intro bs r h'; cases h'; exact dSkip_unit r
  bytes := dBytes_cross h (by decide)
  arr := by
    intro b bs r he
    obtain ⟨x, y, hx, hy, rfl⟩ := Enc.seq_eq_ok.mp (show dEncBytes E Desc.BYTES b = .ok bs from he)
    cases hy
    show dDecArr D _ _ = _
    unfold dDecArr
    rw [List.append_assoc, Dec.bind_ok (dTagLen_cross h (by decide) hx _), if_pos rfl,
      Dec.readBytes_append]
  str := dBytes_cross h (by decide)
  samePack := rfl
  sameDelimited := rfl
  none := by intro _ bs r h'; cases h'; rfl
  some := by intro _ bs r h'; cases h'; rfl
  packNone := by intro h; cases h
  packSome := by intro h; cases h
  packOption := by intro h; cases h
  seq := fun n bs r he => dTagLen_cross h (by decide) he r
  endSeq := fun s => rfl
  map := fun n bs r he => dTagLen_cross h (by decide) he r
  endMap := fun s => rfl
  variant := by intro bs r h; cases h; rfl
  encPlain := by intro h; cases h
  decPlain := by intro h; cases h
  pack' := by
    intro _ b bs r he α d v l hd
    obtain ⟨x, y, hx, hy, rfl⟩ := Enc.seq_eq_ok.mp (show dEncBytes E Desc.BYTES b = .ok bs from he)
    cases hy
    show dDecPack D d _ = _
    unfold dDecPack
    rw [List.append_assoc, Dec.bind_ok (dTagLen_cross h (by decide) hx _)]
    exact Wire.limited_append d b r v l hd

end

theorem ofNums_cross {iz n1 n2 : Bool} {E D : Mode → Nums} (h : ∀ m, CrossN iz (E m) (D m)) (m : Mode) :
    Cross iz (ofNums n1 E m) (ofNums n2 D m) := by
  cases m
  · exact storage_cross (h .storage) n1 n2 false
  · exact storage_cross (h .packed) n1 n2 true
  · exact wire_cross (h .wire)
  · exact desc_cross (h .descriptive)

/-! ## Values which are not empty when packed -/

section
variable {n1 : Bool} {N : Mode → Nums} (env : Env)
  (hl : ∀ n bs, (N .packed).encLen n = .ok bs → bs ≠ [])
  (hp : ∀ p v bs, (N .packed).encPrim p v = .ok bs → bs ≠ [])
include hl hp

theorem nameG_ne_nil {n : Name} {bs : Bytes} (h : encName (ofNums n1 N .packed) n = .ok bs) : bs ≠ [] := by
  cases n with
  | idx n => exact hp .usize n bs h
  | str s => exact seq_ne_nil (show sEncBytes (N .packed) s.bytes = .ok bs from h) fun x hx => hl _ x hx

theorem variantsG_ne_nil : ∀ (vs : Variants) (v : vs.Val) (bs : Bytes),
    encVariantsG (ofNums n1 N) env vs .packed v = .ok bs → bs ≠ []
  | .nil, v, _, _ => nomatch v
  | .cons n t vs, .inl x, bs, h => by
    simp only [encVariantsG] at h
    exact seq_ne_nil h fun x hx => nameG_ne_nil hl hp hx
  | .cons n t vs, .inr x, bs, h => by
    simp only [encVariantsG] at h
    exact variantsG_ne_nil vs x bs h

mutual
theorem nonemptyG_sound : ∀ (t : Ty), t.nonempty false = true →
    ∀ v bs, encG (ofNums n1 N) env t .packed v = .ok bs → bs ≠ []
  | .prim p, _, v, bs, h => by
    simp only [encG] at h; exact hp p v bs h
  | .nonZero _ _, _, v, bs, h => by
    simp only [encG] at h; exact hp _ _ bs h
  | .unit, _, v, bs, h => by
    simp only [encG] at h
    exact hl 0 bs h
  | .bytes, _, v, bs, h => by
    simp only [encG] at h
    exact seq_ne_nil (show sEncBytes (N .packed) v = _ from h) fun x hx => hl _ x hx
  | .string, _, v, bs, h => by
    simp only [encG] at h
    exact seq_ne_nil (show sEncBytes (N .packed) v.bytes = _ from h) fun x hx => hl _ x hx
  | .byteArray n, hn, v, bs, h => by
    simp only [encG] at h
    change Except.ok v.1 = _ at h
    cases h
    simp only [Ty.nonempty, bne_iff_ne, ne_eq] at hn
    intro hv
    have := v.2
    rw [hv] at this
    exact hn this.symm
  | .option _, hn, _, _, _ => by simp [Ty.nonempty] at hn
  | .array _ t, _, v, bs, h => by
    simp only [encG] at h; exact seq_ne_nil h fun x hx => hl _ x hx
  | .vec t, _, v, bs, h => by
    simp only [encG] at h; exact seq_ne_nil h fun x hx => hl _ x hx
  | .set t, _, v, bs, h => by
    simp only [encG] at h; exact seq_ne_nil h fun x hx => hl _ x hx
  | .map k t, _, v, bs, h => by
    simp only [encG] at h; exact seq_ne_nil h fun x hx => hl _ x hx
  | .tuple ts, _, v, bs, h => by
    simp only [encG] at h; exact seq_ne_nil h fun x hx => hl _ x hx
  | .result nt t u, _, v, bs, h => by
    cases v <;> simp only [encG] at h <;>
    exact seq_ne_nil' h fun x hx => seq_ne_nil hx fun x hx => nameG_ne_nil hl hp hx
  | .boxed t, hn, v, bs, h => by
    simp only [encG] at h
    exact nonemptyG_sound t (by simpa [Ty.nonempty] using hn) v bs h
  | .wrapping t, hn, v, bs, h => by
    simp only [encG] at h
    exact nonemptyG_sound t (by simpa [Ty.nonempty] using hn) v bs h
  | .transparent t, hn, v, bs, h => by
    simp only [encG] at h
    exact nonemptyG_sound t (by simpa [Ty.nonempty] using hn) v bs h
  | .unitStruct, _, v, bs, h => by
    simp only [encG] at h
    exact hl 0 bs h
  | .strct _ fs, _, v, bs, h => by
    simp only [encG] at h; exact seq_ne_nil h fun x hx => hl _ x hx
  | .packed lay fs, hn, v, bs, h => by
    simp only [Ty.nonempty, Bool.false_and, Bool.false_eq_true, if_false] at hn
    simp only [encG] at h
    split at h
    · cases h
    · rename_i b hb
      cases h
      exact nonemptiesG_sound fs hn v _ hb
  | .unitEnum _ names, _, v, bs, h => by
    simp only [encG] at h; exact nameG_ne_nil hl hp h
  | .enm _ vs, _, v, bs, h => by
    simp only [encG] at h
    exact seq_ne_nil' h fun x hx => variantsG_ne_nil env hl hp vs v x hx
theorem nonemptiesG_sound : ∀ (fs : Fields), fs.nonempty false = true →
    ∀ v bs, encPackFieldsG (ofNums n1 N) env fs .packed v = .ok bs → bs ≠ []
  | .nil, hn, _, _, _ => by simp [Fields.nonempty] at hn
  | .cons _ _ skip t fs, hn, v, bs, h => by
    simp only [Fields.nonempty, Bool.or_eq_true, Bool.and_eq_true, Option.isNone_iff_eq_none] at hn
    simp only [encPackFieldsG] at h
    rcases hn with ⟨rfl, hn⟩ | hn
    · refine seq_ne_nil h fun x hx => nonemptyG_sound t hn v.1 x ?_
      simpa [fieldPresent] using hx
    · exact seq_ne_nil' h fun x hx => nonemptiesG_sound fs hn v.2 x hx
end

end

/-! ## Round trip -/

section
variable {iz H : Bool} {E D : Mode → Fmt} (env : Env)
  (hC : ∀ m, Cross iz (E m) (D m))
  (hK : ∀ m, (D m).pack = (m == .packed)) (hDl : ∀ m, (D m).delimited = (m == .wire || m == .descriptive))
  (hNe : ∀ (t : Ty), t.nonempty false = true → ∀ v bs, encG E env t .packed v = .ok bs → bs ≠ [])

theorem nameG {E D : Fmt} (hF : Cross iz E D) (n : Name) (bs r : Bytes)
    (h : encName E n = .ok bs) : decName D n.ty (bs ++ r) = .ok (n, r) := by
  cases n with
  | idx n =>
    show (D.decPrim .usize >>= fun n => pure (Name.idx n)) _ = _
    rw [Dec.bind_ok (hF.prim .usize n bs r (by simp) h)]; rfl
  | str s =>
    show (D.decStr >>= fun b => Dec.ofExcept (toStr b) >>= fun s => pure (Name.str s)) _ = _
    rw [Dec.bind_ok (hF.str s.bytes bs r h), Dec.bind_ok (ofExcept_ok (toStr_val s) r)]; rfl

/-- The encoding of the value of a field. -/
def encKnownG (E : Mode → Fmt) (env : Env) (m : Mode) : (fs : Fields) → fs.Known → Enc
  | .cons _ _ _ t _, .inl v => encG E env t m v
  | .cons _ _ _ _ fs, .inr k => encKnownG E env m fs k

/-- The encoding of an entry. -/
def encEntryG (E : Mode → Fmt) (env : Env) (m : Mode) (fs : Fields) (k : fs.Known) : Enc :=
  encName (E m) (fs.keyOf k) +> encKnownG E env m fs k

theorem encFieldsG_eq' (E : Mode → Fmt) (m : Mode) : ∀ (fs : Fields) (v : fs.Val),
    encFieldsG E env fs m v = Enc.all (encEntryG E env m fs) (fs.entries env v)
  | .nil, _ => by simp [encFieldsG, Fields.entries, Enc.all]
  | .cons n d skip t fs, v => by
    simp only [encFieldsG, Fields.entries]
    rw [all_append, all_map, encFieldsG_eq' E m fs v.2]
    congr 1
    split
    · simp only [Enc.all, encEntryG, Fields.keyOf, encKnownG]
      cases encName (E m) n <;> cases encG E env t m v.1 <;> simp [Enc.seq]
    · rfl

include hC hK hDl hNe

mutual

theorem rtG : ∀ (t : Ty) (m : Mode) (tail : Bool),
    t.ok false H m tail = true → t.envOk env → t.isizeOk iz = true →
    RT tail (encG E env t m) (decG D env t m)
  | .prim p, m, tail, _, _, hi => by
    intro v bs r he _
    simp only [encG] at he
    simp only [decG]
    exact (hC m).prim p v bs r (by rintro rfl; simpa [Ty.isizeOk] using hi) he
  | .nonZero s w, m, tail, h, _, _ => by
    intro v bs r he _
    simp only [encG] at he
    simp only [decG]
    rw [Dec.bind_ok ((hC m).prim _ _ bs r (by cases s <;> intro h <;> cases h) he)]
    rw [nonZeroUnraw_raw, ofExcept_ok (toNonZero_val v)]
  | .unit, m, tail, _, _, _ => by
    intro v bs r he _
    simp only [encG] at he
    simp only [decG]
    exact (hC m).unit bs r he
  | .bytes, m, tail, _, _, _ => by
    intro v bs r he _
    simp only [encG] at he
    simp only [decG]
    exact (hC m).bytes v bs r he
  | .string, m, tail, _, _, _ => by
    intro v bs r he _
    simp only [encG] at he
    simp only [decG]
    rw [Dec.bind_ok ((hC m).str v.bytes bs r he), ofExcept_ok (toStr_val v)]
  | .byteArray n, m, tail, _, _, _ => by
    intro v bs r he _
    simp only [encG] at he
    simp only [decG]
    have := (hC m).arr v.1 bs r he
    rw [v.2] at this
    rw [Dec.bind_ok this, ofExcept_ok (toArray_val v)]
  | .option t, m, tail, h, henv, hi => by
    simp only [Ty.ok, fast_false, Bool.false_and, Bool.false_eq_true, if_false] at h
    rw [Bool.and_eq_true] at h
    simp only [Ty.envOk] at henv
    simp only [Ty.isizeOk] at hi
    have hv := rtG t m tail h.2 henv hi
    intro v bs r he hr
    have hF := hC m
    cases hp : (D m).pack with
    | false =>
      cases v with
      | none =>
        simp only [encG] at he
        simp only [decG]
        rw [Dec.bind_ok (hF.none hp bs r he)]; rfl
      | some x =>
        simp only [encG] at he
        obtain ⟨a, b, ha, hb, rfl⟩ := Enc.seq_eq_ok.mp he
        simp only [decG]
        rw [List.append_assoc, Dec.bind_ok (hF.some hp a _ ha)]
        simp only [if_true]
        rw [Dec.bind_ok (hv x b r hb hr)]; rfl
    | true =>
      have hm : m = .packed := by rw [hK] at hp; simpa using hp
      subst hm
      simp only [bne_self_eq_false, Bool.false_or] at h
      rw [Bool.and_eq_true] at h
      obtain ⟨⟨ht, hne⟩, -⟩ := h
      obtain rfl := hr ht
      cases v with
      | none =>
        simp only [encG, hF.packNone hp] at he
        cases he
        simp only [decG]
        rw [Dec.bind_ok (hF.packOption hp _)]; rfl
      | some x =>
        simp only [encG, hF.packSome hp] at he
        obtain ⟨a, b, ha, hb, rfl⟩ := Enc.seq_eq_ok.mp he
        cases ha
        have hbne : b ≠ [] := hNe t hne x b hb
        simp only [decG]
        rw [List.nil_append, Dec.bind_ok (hF.packOption hp _)]
        have : (!(b ++ ([] : Bytes)).isEmpty) = true := by cases b <;> simp_all
        simp only [this, if_true]
        rw [Dec.bind_ok (hv x b [] hb (fun _ => rfl))]; rfl
  | .array n t, m, tail, h, henv, hi => by
    simp only [Ty.ok, fast_false, Bool.false_and, Bool.false_eq_true, if_false] at h
    simp only [Ty.envOk] at henv
    simp only [Ty.isizeOk] at hi
    intro v bs r he _
    have hF := hC m
    simp only [encG] at he
    simp only [decG]
    have hlen := v.2
    obtain ⟨a, b, ha, hb, rfl⟩ := Enc.seq_eq_ok.mp he
    rw [List.append_assoc, Dec.bind_ok (hF.seq _ a _ ha), if_pos hlen]
    have hd := decN_all (rtG t m false h henv hi) v.1 b r hb
    rw [hlen] at hd
    rw [Dec.bind_ok hd, Dec.bind_ok (hF.endSeq r), ofExcept_ok (toArray_val v)]
  | .vec t, m, tail, h, henv, hi => by
    simp only [Ty.ok, fast_false, Bool.false_and, Bool.false_eq_true, if_false] at h
    simp only [Ty.envOk] at henv
    simp only [Ty.isizeOk] at hi
    intro v bs r he _
    have hF := hC m
    simp only [encG] at he
    simp only [decG]
    obtain ⟨a, b, ha, hb, rfl⟩ := Enc.seq_eq_ok.mp he
    rw [List.append_assoc, Dec.bind_ok (hF.seq _ a _ ha),
      Dec.bind_ok (decN_all (rtG t m false h henv hi) v b r hb), Dec.bind_ok (hF.endSeq r)]
    rfl
  | .set t, m, tail, h, henv, hi => by
    simp only [Ty.ok, fast_false, Bool.false_and, Bool.false_eq_true, if_false] at h
    simp only [Ty.envOk] at henv
    simp only [Ty.isizeOk] at hi
    intro v bs r he _
    have hF := hC m
    simp only [encG] at he
    simp only [decG]
    obtain ⟨a, b, ha, hb, rfl⟩ := Enc.seq_eq_ok.mp he
    rw [List.append_assoc, Dec.bind_ok (hF.seq _ a _ ha),
      Dec.bind_ok (decN_all (rtG t m false h henv hi) v b r hb), Dec.bind_ok (hF.endSeq r)]
    rfl
  | .map k t, m, tail, h, henv, hi => by
    simp only [Ty.ok, fast_false, Bool.false_and, Bool.false_eq_true, if_false] at h
    rw [Bool.and_eq_true] at h
    simp only [Ty.envOk] at henv
    simp only [Ty.isizeOk, Bool.and_eq_true] at hi
    intro v bs r he _
    have hF := hC m
    simp only [encG] at he
    simp only [decG]
    obtain ⟨a, b, ha, hb, rfl⟩ := Enc.seq_eq_ok.mp he
    have hk := rtG k m false h.1 henv.1 hi.1
    have ht := rtG t m false h.2 henv.2 hi.2
    have hv : RT false (fun x : k.Val × t.Val => encG E env k m x.1 +> encG E env t m x.2)
        (do
          let a ← decG D env k m
          let b ← decG D env t m
          pure (a, b)) := by
      intro x bs r he _
      obtain ⟨a, b, ha, hb, rfl⟩ := Enc.seq_eq_ok.mp he
      rw [List.append_assoc, Dec.bind_ok (hk x.1 a _ ha (by simp)),
        Dec.bind_ok (ht x.2 b _ hb (by simp))]
      rfl
    rw [List.append_assoc, Dec.bind_ok (hF.map _ a _ ha), Dec.bind_ok (decN_all hv v b r hb),
      Dec.bind_ok (hF.endMap r)]
    rfl
  | .tuple ts, m, tail, h, henv, hi => by
    simp only [Ty.ok] at h
    simp only [Ty.envOk] at henv
    simp only [Ty.isizeOk] at hi
    intro v bs r he hr
    have hF := hC m
    simp only [encG] at he
    simp only [decG]
    obtain ⟨a, b, ha, hb, rfl⟩ := Enc.seq_eq_ok.mp he
    have := rtTysG ts m tail h henv hi v b r hb hr 0
    rw [Nat.zero_add] at this
    rw [List.append_assoc, Dec.bind_ok (hF.seq _ a _ ha), Dec.bind_ok this]
    show ((D m).endSeq 0 >>= fun _ => pure v) r = _
    rw [Dec.bind_ok (hF.endSeq r)]
    rfl
  | .result nt t u, m, tail, h, henv, hi => by
    simp only [Ty.ok, fast_false, Bool.false_and, Bool.false_eq_true, if_false] at h
    rw [Bool.and_eq_true] at h
    simp only [Ty.envOk] at henv
    simp only [Ty.isizeOk, Bool.and_eq_true] at hi
    have ht := rtG t m tail h.1 henv.1 hi.1
    have hu := rtG u m tail h.2 henv.2 hi.2
    intro v bs r he hr
    have hF := hC m
    cases v with
    | inl x =>
      simp only [encG] at he
      simp only [decG]
      obtain ⟨a, b, c, ha, hb, hc, rfl⟩ := seq3 he
      have hn := nameG hF _ b (c ++ r) hb
      rw [resultName_ty] at hn
      rw [List.append_assoc, List.append_assoc, Dec.bind_ok (hF.variant a _ ha), Dec.bind_ok hn,
        if_pos rfl, Dec.bind_ok (ht x c r hc hr)]
      rfl
    | inr x =>
      simp only [encG] at he
      simp only [decG]
      obtain ⟨a, b, c, ha, hb, hc, rfl⟩ := seq3 he
      have hn := nameG hF _ b (c ++ r) hb
      rw [resultName_ty] at hn
      rw [List.append_assoc, List.append_assoc, Dec.bind_ok (hF.variant a _ ha), Dec.bind_ok hn,
        if_neg (by cases nt <;> decide), if_pos rfl, Dec.bind_ok (hu x c r hc hr)]
      rfl
  | .boxed t, m, tail, h, henv, hi => by
    simp only [Ty.ok, fast_false, Bool.false_and, Bool.false_eq_true, if_false] at h
    simp only [Ty.envOk] at henv
    simp only [Ty.isizeOk] at hi
    intro v bs r he hr
    simp only [encG] at he
    simp only [decG]
    exact rtG t m tail h henv hi v bs r he hr
  | .wrapping t, m, tail, h, henv, hi => by
    simp only [Ty.ok, fast_false, Bool.false_and, Bool.false_eq_true, if_false] at h
    simp only [Ty.envOk] at henv
    simp only [Ty.isizeOk] at hi
    intro v bs r he hr
    simp only [encG] at he
    simp only [decG]
    exact rtG t m tail h henv hi v bs r he hr
  | .transparent t, m, tail, h, henv, hi => by
    simp only [Ty.ok] at h
    simp only [Ty.envOk] at henv
    simp only [Ty.isizeOk] at hi
    intro v bs r he hr
    simp only [encG] at he
    simp only [decG]
    exact rtG t m tail h henv hi v bs r he hr
  | .unitStruct, m, tail, _, _, _ => by
    intro v bs r he _
    simp only [encG] at he
    simp only [decG]
    rw [Dec.bind_ok ((hC m).map 0 bs r he)]
    exact (hC m).endMap r
  | .strct nt fs, m, tail, h, henv, hi => by
    simp only [Ty.ok, Bool.and_eq_true] at h
    simp only [Ty.envOk] at henv
    simp only [Ty.isizeOk] at hi
    intro v bs r he _
    have hF := hC m
    obtain ⟨hnd, hty⟩ := namesOk_iff h.1
    simp only [encG] at he
    simp only [decG]
    obtain ⟨a, b, ha, hb, rfl⟩ := Enc.seq_eq_ok.mp he
    rw [encFieldsG_eq'] at hb
    have hentry := rtEntryG fs m h.2 henv hi hnd
    have hloop := loopN_entries (fun p => do
        let n ← decName (D m) nt
        decEntryG D env fs m n p) (encEntryG E env m fs) (fun p k => fs.set k p) (fs.entries env v)
      (by
        intro k _ p bs r hk
        obtain ⟨x, y, hx, hy, rfl⟩ := Enc.seq_eq_ok.mp hk
        have hn := nameG hF _ x (y ++ r) hx
        rw [hty _ (keyOf_mem fs k)] at hn
        rw [List.append_assoc, Dec.bind_ok hn]
        exact hentry k p y r hy) fs.none b r hb
    rw [entries_length] at hloop
    rw [List.append_assoc, Dec.bind_ok (hF.map _ a _ ha), Dec.bind_ok hloop,
      Dec.bind_ok (ofExcept_ok (finish_entries env _ _ m fs h.2 henv v) r),
      Dec.bind_ok (hF.endMap r)]
    rfl
  | .packed lay fs, m, tail, h, henv, hi => by
    simp only [Ty.ok, fast_false, Bool.false_and, Bool.false_eq_true, if_false] at h
    simp only [Ty.envOk] at henv
    simp only [Ty.isizeOk] at hi
    intro v bs r he hr
    have hF := hC m
    simp only [encG] at he
    simp only [decG]
    split at he
    · cases he
    · rename_i b hb
      cases hdl : (D m).delimited with
      | true =>
        have hd : decPackFieldsG D env fs .packed b = .ok (v, []) := by
          have hdl' := hdl
          rw [hDl] at hdl'
          have hp : (tail || m == Mode.wire || m == Mode.descriptive) = true := by
            simp only [Bool.or_eq_true] at hdl' ⊢
            rcases hdl' with h | h <;> simp [h]
          rw [hp] at h
          have := rtPackG fs true h henv hi v b [] hb (fun _ => rfl)
          rwa [List.append_nil] at this
        exact hF.pack' hdl b bs r he _ v [] hd
      | false =>
        rw [hF.encPlain hdl] at he
        obtain rfl : b = bs := Except.ok.inj he
        rw [hF.decPlain hdl]
        have hdl' := hdl
        rw [hDl, Bool.or_eq_false_iff] at hdl'
        rw [hdl'.1, hdl'.2, Bool.or_false, Bool.or_false] at h
        exact rtPackG fs tail h henv hi v b r hb hr
  | .unitEnum nt names, m, tail, h, _, _ => by
    simp only [Ty.ok] at h
    obtain ⟨hnd, hty⟩ := namesOk_iff h
    intro v bs r he _
    simp only [encG] at he
    simp only [decG]
    have hn := nameG (hC m) _ bs r he
    have hmem : names[v] ∈ names := List.getElem_mem v.2
    rw [hty _ hmem] at hn
    rw [Dec.bind_ok hn, findName_get names hnd v]
    rfl
  | .enm nt vs, m, tail, h, henv, hi => by
    simp only [Ty.ok, Bool.and_eq_true] at h
    simp only [Ty.envOk] at henv
    simp only [Ty.isizeOk] at hi
    obtain ⟨hnd, hty⟩ := namesOk_iff h.1
    intro v bs r he hr
    have hF := hC m
    simp only [encG] at he
    simp only [decG]
    obtain ⟨a, b, ha, hb, rfl⟩ := Enc.seq_eq_ok.mp he
    obtain ⟨n, x, y, hx, hxe, rfl, hdec⟩ := rtVariantsG vs m tail h.2 henv hi hnd v b hb
    have hname := nameG hF n x (y ++ r) hxe
    rw [hty n hx] at hname
    rw [List.append_assoc, Dec.bind_ok (hF.variant a _ ha), List.append_assoc, Dec.bind_ok hname]
    exact hdec r hr

theorem rtTysG : ∀ (ts : Tys) (m : Mode) (tail : Bool),
    ts.ok false H m tail = true → ts.envOk env → ts.isizeOk iz = true →
    ∀ v bs r, encTysG E env ts m v = .ok bs → (tail = true → r = []) → ∀ left,
      decTysG D env ts m (left + ts.length) (bs ++ r) = .ok ((v, left), r)
  | .nil, m, tail, _, _, _ => by
    intro v bs r he _ left
    simp only [encTysG] at he
    cases he
    simp only [decTysG]
    rfl
  | .cons t ts, m, tail, h, henv, hi => by
    simp only [Tys.ok, fast_false, Bool.false_and, Bool.false_eq_true, if_false] at h
    rw [Bool.and_eq_true] at h
    simp only [Tys.envOk] at henv
    simp only [Tys.isizeOk, Bool.and_eq_true] at hi
    intro v bs r he hr left
    simp only [encTysG] at he
    obtain ⟨a, b, ha, hb, rfl⟩ := Enc.seq_eq_ok.mp he
    have hv := rtG t m _ h.1 henv.1 hi.1
    have hr' : (tail && ts.isNil) = true → b ++ r = [] := by
      intro hc
      simp only [Bool.and_eq_true] at hc
      cases ts with
      | nil =>
        simp only [encTysG] at hb
        cases hb
        simpa using hr hc.1
      | cons _ _ => simp [Tys.isNil] at hc
    show decTysG D env (.cons t ts) m (left + ts.length + 1) ((a ++ b) ++ r) = _
    simp only [decTysG]
    rw [List.append_assoc, Dec.bind_ok (hv v.1 a (b ++ r) ha hr'),
      Dec.bind_ok (rtTysG ts m tail h.2 henv.2 hi.2 v.2 b r hb hr left)]
    rfl

theorem rtEntryG : ∀ (fs : Fields) (m : Mode),
    fs.ok false H m = true → fs.envOk env → fs.isizeOk iz = true → fs.names.Nodup →
    ∀ k p bs r, encKnownG E env m fs k = .ok bs →
      decEntryG D env fs m (fs.keyOf k) p (bs ++ r) = .ok (fs.set k p, r)
  | .nil, m, _, _, _, _ => fun k => nomatch k
  | .cons n d s t fs, m, h, henv, hi, hnd => by
    simp only [Fields.ok, Bool.and_eq_true] at h
    simp only [Fields.envOk] at henv
    simp only [Fields.isizeOk, Bool.and_eq_true] at hi
    simp only [Fields.names, List.nodup_cons] at hnd
    intro k p bs r he
    cases k with
    | inl v =>
      simp only [encKnownG] at he
      show decEntryG D env (.cons n d s t fs) m n p (bs ++ r) = _
      rw [decEntryG, if_pos rfl]
      rw [Dec.bind_ok (rtG t m false h.1.2 henv.2.1 hi.1 v bs r he (by simp))]
      rfl
    | inr k =>
      simp only [encKnownG] at he
      have hne : n ≠ fs.keyOf k := fun hc => hnd.1 (hc ▸ keyOf_mem fs k)
      show decEntryG D env (.cons n d s t fs) m (fs.keyOf k) p (bs ++ r) = _
      rw [decEntryG, if_neg hne]
      rw [Dec.bind_ok (rtEntryG fs m h.2 henv.2.2 hi.2 hnd.2 k p.2 bs r he)]
      rfl

theorem rtPackG : ∀ (fs : Fields) (tail : Bool),
    fs.packOk false H tail = true → fs.envOk env → fs.isizeOk iz = true →
    RT tail (encPackFieldsG E env fs .packed) (decPackFieldsG D env fs .packed)
  | .nil, tail, _, _, _ => by
    intro v bs r he _
    simp only [encPackFieldsG] at he
    cases he
    simp only [decPackFieldsG]
    rfl
  | .cons n d s t fs, tail, h, henv, hi => by
    simp only [Fields.packOk, Bool.and_eq_true, Option.isNone_iff_eq_none] at h
    simp only [Fields.envOk] at henv
    simp only [Fields.isizeOk, Bool.and_eq_true] at hi
    intro v bs r he hr
    obtain ⟨⟨rfl, ht⟩, hfs⟩ := h
    simp only [encPackFieldsG, fieldPresent, if_true] at he
    obtain ⟨a, b, ha, hb, rfl⟩ := Enc.seq_eq_ok.mp he
    have hr' : (tail && fs.isNil) = true → b ++ r = [] := by
      intro hc
      simp only [Bool.and_eq_true] at hc
      cases fs with
      | nil =>
        simp only [encPackFieldsG] at hb
        cases hb
        simpa using hr hc.1
      | cons _ _ _ _ _ => simp [Fields.isNil] at hc
    simp only [decPackFieldsG]
    rw [List.append_assoc, Dec.bind_ok (rtG t .packed _ ht henv.2.1 hi.1 v.1 a (b ++ r) ha hr'),
      Dec.bind_ok (rtPackG fs tail hfs henv.2.2 hi.2 v.2 b r hb hr)]
    rfl

theorem rtVariantsG : ∀ (vs : Variants) (m : Mode) (tail : Bool),
    vs.ok false H m tail = true → vs.envOk env → vs.isizeOk iz = true → vs.names.Nodup →
    ∀ v bs, encVariantsG E env vs m v = .ok bs → ∃ n x y, n ∈ vs.names ∧
      encName (E m) n = .ok x ∧ bs = x ++ y ∧
      ∀ r, (tail = true → r = []) → decVariantsG D env vs m n (y ++ r) = .ok (v, r)
  | .nil, m, tail, _, _, _, _ => fun v => nomatch v
  | .cons n t vs, m, tail, h, henv, hi, hnd => by
    simp only [Variants.ok, Bool.and_eq_true] at h
    simp only [Variants.envOk] at henv
    simp only [Variants.isizeOk, Bool.and_eq_true] at hi
    simp only [Variants.names, List.nodup_cons] at hnd
    intro v bs he
    cases v with
    | inl x =>
      have hd : t.dynamic = false := by simpa using h.1.2
      simp only [encVariantsG, hd, Bool.false_eq_true, if_false] at he
      obtain ⟨a, b, ha, hb, rfl⟩ := Enc.seq_eq_ok.mp he
      refine ⟨n, a, b, by simp [Variants.names], ha, rfl, fun r hr => ?_⟩
      simp only [decVariantsG, if_true]
      rw [Dec.bind_ok (rtG t m tail h.1.1 henv.1 hi.1 x b r hb hr)]
      rfl
    | inr x =>
      simp only [encVariantsG] at he
      obtain ⟨n', a, b, hn, ha, rfl, hdec⟩ := rtVariantsG vs m tail h.2 henv.2 hi.2 hnd.2 x bs he
      refine ⟨n', a, b, by simp [Variants.names, hn], ha, rfl, fun r hr => ?_⟩
      have hne : n ≠ n' := fun hc => hnd.1 (hc ▸ hn)
      simp only [decVariantsG, if_neg hne]
      rw [Dec.bind_ok (hdec r hr)]
      rfl

end

end
end Musli.Machine
