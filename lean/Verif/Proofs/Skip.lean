import Verif.Proofs.Front
import Verif.Proofs.Lawful
import Verif.Spec.Skippable
/-!
# Skipping consumes exactly one value
-/
set_option linter.unusedSectionVars false
set_option linter.unusedSimpArgs false
namespace Musli

/-- `bs` is a header followed by `k` values which belong to it. -/
def Hdr (step : Dec Nat) (k : Nat) (bs : Bytes) : Prop := ∀ r, step (bs ++ r) = .ok (k, r)

/-- `bs` is `k` values. -/
def Skips (step : Dec Nat) (k : Nat) (bs : Bytes) : Prop :=
  ∀ n r r', SkipRel step n r r' → SkipRel step (n + k) (bs ++ r) r'

theorem Hdr.skips {step : Dec Nat} {k : Nat} {a b : Bytes} (ha : Hdr step k a)
    (hb : Skips step k b) : Skips step 1 (a ++ b) := by
  intro n r r' h
  rw [List.append_assoc]
  exact .succ (ha _) (hb n r r' h)

theorem Skips.nil {step : Dec Nat} : Skips step 0 [] := fun _ _ _ h => h

theorem Hdr.leaf {step : Dec Nat} {a : Bytes} (ha : Hdr step 0 a) : Skips step 1 a := by
  have := ha.skips Skips.nil
  rwa [List.append_nil] at this

theorem Skips.append {step : Dec Nat} {k l : Nat} {a b : Bytes} (ha : Skips step k a)
    (hb : Skips step l b) : Skips step (k + l) (a ++ b) := by
  intro n r r' h
  rw [List.append_assoc, Nat.add_comm k l, ← Nat.add_assoc]
  exact ha _ _ _ (hb n r r' h)

theorem Skips.all {step : Dec Nat} {α} {f : α → Enc} (k : Nat)
    (h : ∀ x bs, f x = .ok bs → Skips step k bs) : ∀ (l : List α) (bs : Bytes),
    Enc.all f l = .ok bs → Skips step (k * l.length) bs := by
  intro l
  induction l with
  | nil => intro bs he; cases he; exact Skips.nil
  | cons x l ih =>
    intro bs he
    obtain ⟨a, b, ha, hb, rfl⟩ := Enc.seq_eq_ok.mp he
    have := (h x a ha).append (ih b hb)
    rw [List.length_cons, Nat.mul_add, Nat.mul_one, Nat.add_comm]
    exact this

/-- What `step` does with each part of an encoding. `us` allows `usize`. -/
structure Fmt.Skippable (F : Fmt) (step : Dec Nat) (us : Bool) : Prop where
  native : F.native = false
  pack' : F.pack = false
  prim : ∀ p v bs, (us = true ∨ (p ≠ .usize ∧ p ≠ .isize)) → F.encPrim p v = .ok bs → Hdr step 0 bs
  unit : ∀ bs, F.encUnit = .ok bs → Hdr step 0 bs
  bytes : ∀ b bs, F.encBytes b = .ok bs → Hdr step 0 bs
  arr : ∀ b bs, F.encArr b = .ok bs → Hdr step 0 bs
  str : ∀ b bs, F.encStr b = .ok bs → Hdr step 0 bs
  none : ∀ bs, F.encNone = .ok bs → Hdr step 0 bs
  some : ∀ bs, F.encSome = .ok bs → Hdr step 1 bs
  seq : ∀ n bs, F.encSeq n = .ok bs → Hdr step n bs
  map : ∀ n bs, F.encMap n = .ok bs → Hdr step (2 * n) bs
  variant : ∀ bs, F.encVariant = .ok bs → Hdr step 2 bs
  pack : ∀ b bs, F.encPack b = .ok bs → Hdr step 0 bs

section
variable [Host] (o : Options)

/-- A number can be skipped as a 128 bit number. -/
theorem varint_skip {w w' : Nat} (hw : 8 ≤ w) (hw' : 8 ≤ w') (hle : w ≤ w') (v : BitVec w) (r : Bytes) :
    ∃ x, Varint.decode w' (Varint.encode v ++ r) = .ok (x, r) := by
  refine ⟨v.setWidth w', ?_⟩
  rw [Varint.encode_eq hw]
  have : v.toNat = (v.setWidth w').toNat := by
    rw [BitVec.toNat_setWidth, Nat.mod_eq_of_lt]
    exact Nat.lt_of_lt_of_le v.isLt (Nat.pow_le_pow_right (by decide) hle)
  rw [this]
  exact Varint.decode_natEnc hw' _ r

theorem skip_append (l s : Bytes) : Dec.skip l.length (l ++ s) = .ok ((), s) := by
  simp [Dec.skip]

namespace Wire

/-- The tag and what follows it. -/
theorem step_tag (t : Byte) (s : Bytes) : step o (t :: s) = (if kind t = PREFIX then do
      let n ← tagLen o t
      let _ ← Dec.skip n
      pure 0
    else if kind t = SEQUENCE then tagLen o t
    else if kind t = CONTINUATION then
      match data t with
      | some _ => pure 0
      | none => do
        let _ ← Varint.decode 128
        pure 0
    else Dec.fail .invalid : Dec Nat) s := rfl

/-- A tag with a length is followed by what decodes as that length. -/
theorem encTagLen_tag {k : Byte} (hk : k ∈ [PREFIX, SEQUENCE, CONTINUATION]) {n : Nat}
    {bs : Bytes} (h : encTagLen o k n = .ok bs) :
    ∃ t x, bs = t :: x ∧ kind t = k ∧ ∀ r, tagLen o t (x ++ r) = .ok (n, r) := by
  unfold encTagLen at h
  split at h
  · rename_i hn
    cases h
    obtain ⟨h1, h2⟩ := kind_data_small k hk ⟨n, hn⟩
    refine ⟨_, [], rfl, h1, fun r => ?_⟩
    rw [tagLen, h2]
    simp only [Dec.pure_apply, BitVec.toNat_ofNat, List.nil_append]
    rw [Nat.mod_eq_of_lt (by omega)]
  · obtain ⟨x, y, hx, hy, rfl⟩ := Enc.seq_eq_ok.mp h
    cases hx
    obtain ⟨h1, h2⟩ := kind_data_mask k hk
    refine ⟨_, y, rfl, h1, fun r => ?_⟩
    rw [tagLen, h2]
    exact decLen_encLen o hy r

theorem hdr_seq {n : Nat} {bs : Bytes} (h : encTagLen o SEQUENCE n = .ok bs) : Hdr (step o) n bs := by
  obtain ⟨t, x, rfl, h1, h2⟩ := encTagLen_tag o (by decide) h
  intro r
  rw [List.cons_append, step_tag, if_neg (by rw [h1]; decide), if_pos h1, h2]

theorem hdr_bytes {b bs : Bytes} (h : encBytes o b = .ok bs) : Hdr (step o) 0 bs := by
  obtain ⟨a, c, ha, hc, rfl⟩ := Enc.seq_eq_ok.mp h
  cases hc
  obtain ⟨t, x, rfl, h1, h2⟩ := encTagLen_tag o (by decide) ha
  intro r
  rw [List.append_assoc, List.cons_append, step_tag, if_pos h1, Dec.bind_ok (h2 _),
    Dec.bind_ok (skip_append b r)]
  rfl

theorem hdr_variable {w : Nat} (hw : 8 ≤ w) (hw' : w ≤ 128) (v : BitVec w) {bs : Bytes}
    (h : (if v.toNat < 63 then Except.ok [tag CONTINUATION (v.setWidth 8)]
      else .ok (tag CONTINUATION DATA_MASK :: Varint.encode v)) = Except.ok (ε := Err) bs) :
    Hdr (step o) 0 bs := by
  intro r
  split at h
  · rename_i hv
    cases h
    obtain ⟨h1, h2, h3⟩ := cont_small hw v hv
    rw [List.singleton_append, step_tag, if_neg (by rw [h1]; decide), if_neg (by rw [h1]; decide),
      if_pos h1, h2]
    rfl
  · cases h
    obtain ⟨h1, h2⟩ := kind_data_mask CONTINUATION (by decide)
    rw [List.cons_append, step_tag, if_neg (by rw [h1]; decide), if_neg (by rw [h1]; decide),
      if_pos h1, h2]
    obtain ⟨x, hx⟩ := varint_skip hw (by decide) hw' v r
    show (Varint.decode 128 >>= fun _ => pure 0 : Dec Nat) _ = _
    rw [Dec.bind_ok hx]
    rfl

theorem hdr_unsigned {w : Nat} (hw : 8 ≤ w) (hw' : w ≤ 128) (v : BitVec w) {bs : Bytes}
    (h : encUnsigned o v = .ok bs) : Hdr (step o) 0 bs := by
  unfold encUnsigned at h
  split at h
  · exact hdr_variable o hw hw' v h
  · cases h
    intro r
    have hk := kind_data_small PREFIX (by decide) ⟨w / 8, by omega⟩
    simp only at hk
    rw [List.cons_append, step_tag, if_pos hk.1]
    have hl : (BitVec.ofNat 8 (w / 8)).toNat = w / 8 := by
      rw [BitVec.toNat_ofNat, Nat.mod_eq_of_lt (by omega)]
    have ht : tagLen o (tag PREFIX (BitVec.ofNat 8 (w / 8)))
        (Fixed.writeBytes (Opt.byteorder o) v ++ r) =
        .ok ((Fixed.writeBytes (Opt.byteorder o) v).length, Fixed.writeBytes (Opt.byteorder o) v ++ r) := by
      rw [tagLen, hk.2, Fixed.length_writeBytes]
      simp only [Dec.pure_apply, hl]
    rw [Dec.bind_ok ht, Dec.bind_ok (skip_append _ r)]
    rfl

theorem hdr_usize (hl : Opt.length o = .variable) (v : BitVec 64) {bs : Bytes}
    (h : encUsize o v = .ok bs) : Hdr (step o) 0 bs := by
  unfold encUsize at h
  simp only [hl] at h
  exact hdr_variable o (by decide) (by decide) v h

theorem hdr_const {t : Byte} {k : Nat} (ht : ∀ r, step o (t :: r) = .ok (k, r)) {bs : Bytes}
    (h : Except.ok (ε := Err) [t] = .ok bs) : Hdr (step o) k bs := by
  cases h; intro r; exact ht r

theorem skippable (us : Bool) (hus : us = true → Opt.length o = .variable) :
    (fmt o).Skippable (step o) us where
  native := rfl
  pack' := rfl
  prim := by
    intro p v bs hp h
    cases p with
    | bool => cases v <;> exact hdr_const o (fun r => rfl) h
    | char => exact hdr_unsigned o (by decide) (by decide) _ h
    | uint w => cases w <;> exact hdr_unsigned o (by decide) (by decide) _ h
    | sint w => cases w <;> exact hdr_unsigned o (by decide) (by decide) _ h
    | usize => exact hdr_usize o (hus (hp.resolve_right (by simp))) v h
    | isize => exact hdr_usize o (hus (hp.resolve_right (by simp))) v h
    | f32 => exact hdr_unsigned o (by decide) (by decide) _ h
    | f64 => exact hdr_unsigned o (by decide) (by decide) _ h
  unit := fun bs h => hdr_const o (fun r => rfl) h
  bytes := fun b bs h => hdr_bytes o h
  arr := fun b bs h => hdr_bytes o h
  str := fun b bs h => hdr_bytes o h
  none := fun bs h => hdr_const o (fun r => rfl) h
  some := fun bs h => hdr_const o (fun r => rfl) h
  seq := fun n bs h => hdr_seq o h
  map := by
    intro n bs h
    change encMapLen o n = .ok bs at h
    unfold encMapLen at h
    split at h
    · rw [Nat.mul_comm]; exact hdr_seq o h
    · cases h
  variant := fun bs h => hdr_const o (fun r => rfl) h
  pack := fun b bs h => hdr_bytes o h

end Wire

namespace Desc

theorem step_tag (t : Byte) (s : Bytes) : step o (t :: s) = (if kind t = NUMBER then do
      let _ ← Varint.decode 128
      pure 0
    else if kind t = MARK then
      if mark t = mVariant then pure 2
      else if mark t = mSome then pure 1
      else if mark t = mChar then do
        let _ ← Varint.decode 32
        pure 0
      else pure 0
    else if kind t = BYTES ∨ kind t = STRING then do
      let n ← tagLen o t
      let _ ← Dec.skip n
      pure 0
    else if kind t = SEQUENCE then tagLen o t
    else if kind t = MAP then do
      let n ← tagLen o t
      pure (n * 2)
    else Dec.fail .invalid : Dec Nat) s := rfl

theorem encTagLen_tag {k : Byte} (hk : k ∈ [SEQUENCE, MAP, BYTES, STRING]) {n : Nat}
    {bs : Bytes} (h : encTagLen o k n = .ok bs) :
    ∃ t x, bs = t :: x ∧ kind t = k ∧ ∀ r, tagLen o t (x ++ r) = .ok (n, r) := by
  unfold encTagLen at h
  split at h
  · rename_i hn
    cases h
    obtain ⟨h1, h2⟩ := kind_data_small k hk ⟨n, hn⟩
    refine ⟨_, [], rfl, h1, fun r => ?_⟩
    rw [tagLen, h2]
    simp only [Dec.pure_apply, BitVec.toNat_ofNat, List.nil_append]
    rw [Nat.mod_eq_of_lt (by omega)]
  · obtain ⟨x, y, hx, hy, rfl⟩ := Enc.seq_eq_ok.mp h
    cases hx
    obtain ⟨h1, h2⟩ := kind_data_mask k hk
    refine ⟨_, y, rfl, h1, fun r => ?_⟩
    rw [tagLen, h2]
    exact decLen_encLen o hy r

theorem hdr_seq {n : Nat} {bs : Bytes} (h : encTagLen o SEQUENCE n = .ok bs) : Hdr (step o) n bs := by
  obtain ⟨t, x, rfl, h1, h2⟩ := encTagLen_tag o (by decide) h
  intro r
  rw [List.cons_append, step_tag, if_neg (by rw [h1]; decide), if_neg (by rw [h1]; decide),
    if_neg (by rw [h1]; decide), if_pos h1, h2]

theorem hdr_map {n : Nat} {bs : Bytes} (h : encTagLen o MAP n = .ok bs) :
    Hdr (step o) (2 * n) bs := by
  obtain ⟨t, x, rfl, h1, h2⟩ := encTagLen_tag o (by decide) h
  intro r
  rw [List.cons_append, step_tag, if_neg (by rw [h1]; decide), if_neg (by rw [h1]; decide),
    if_neg (by rw [h1]; decide), if_neg (by rw [h1]; decide), if_pos h1, Dec.bind_ok (h2 _),
    Nat.mul_comm]
  rfl

theorem hdr_bytes {k : Byte} (hk : k ∈ [BYTES, STRING]) {b bs : Bytes}
    (h : encBytes o k b = .ok bs) : Hdr (step o) 0 bs := by
  obtain ⟨a, c, ha, hc, rfl⟩ := Enc.seq_eq_ok.mp h
  cases hc
  have key : ∀ k ∈ [BYTES, STRING], k ∈ [SEQUENCE, MAP, BYTES, STRING] ∧ ¬k = NUMBER ∧ ¬k = MARK ∧
    (k = BYTES ∨ k = STRING) := by decide
  obtain ⟨k1, k2, k3, k4⟩ := key k hk
  obtain ⟨t, x, rfl, h1, h2⟩ := encTagLen_tag o k1 ha
  intro r
  rw [List.append_assoc, List.cons_append, step_tag, if_neg (by rw [h1]; exact k2),
    if_neg (by rw [h1]; exact k3), if_pos (by rw [h1]; exact k4),
    Dec.bind_ok (h2 _), Dec.bind_ok (skip_append b r)]
  rfl

theorem hdr_typed {w : Nat} (hw : 8 ≤ w) (hw' : w ≤ 128) (iw : IW) (k : NumberKind) (v : BitVec w)
    {bs : Bytes} (h : encTyped (number iw k) v = .ok bs) : Hdr (step o) 0 bs := by
  cases h
  intro r
  rw [List.cons_append, step_tag, if_pos (number_tag iw k).1]
  obtain ⟨x, hx⟩ := varint_skip hw (by decide) hw' v r
  rw [Dec.bind_ok hx]
  rfl

theorem hdr_const {t : Byte} {k : Nat} (ht : ∀ r, step o (t :: r) = .ok (k, r)) {bs : Bytes}
    (h : Except.ok (ε := Err) [t] = .ok bs) : Hdr (step o) k bs := by
  cases h; intro r; exact ht r

theorem skippable : (fmt o).Skippable (step o) true where
  native := rfl
  pack' := rfl
  prim := by
    intro p v bs hp h
    cases p with
    | bool => cases v <;> exact hdr_const o (fun r => rfl) h
    | char =>
      cases h
      intro r
      rw [List.cons_append, step_tag, if_neg (by decide), if_pos (by decide), if_neg (by decide),
        if_neg (by decide), if_pos (by decide)]
      obtain ⟨x, hx⟩ := varint_skip (w := 32) (w' := 32) (by decide) (by decide) (by decide) (charCode v) r
      rw [Dec.bind_ok hx]
      rfl
    | uint w => cases w <;> exact hdr_typed o (by decide) (by decide) _ _ _ h
    | sint w => cases w <;> exact hdr_typed o (by decide) (by decide) _ _ _ h
    | usize => exact hdr_typed o (by decide) (by decide) _ _ _ h
    | isize => exact hdr_typed o (by decide) (by decide) _ _ _ h
    | f32 => exact hdr_typed o (by decide) (by decide) _ _ _ h
    | f64 => exact hdr_typed o (by decide) (by decide) _ _ _ h
  unit := fun bs h => hdr_const o (fun r => rfl) h
  bytes := fun b bs h => hdr_bytes o (by decide) h
  arr := fun b bs h => hdr_bytes o (by decide) h
  str := fun b bs h => hdr_bytes o (by decide) h
  none := fun bs h => hdr_const o (fun r => rfl) h
  some := fun bs h => hdr_const o (fun r => rfl) h
  seq := fun n bs h => hdr_seq o h
  map := fun n bs h => hdr_map o h
  variant := fun bs h => hdr_const o (fun r => rfl) h
  pack := fun b bs h => hdr_bytes o (by decide) h

end Desc

/-! ## Values -/

variable (env : Env) {m : Mode} {step : Dec Nat} {us : Bool}

theorem skips_name (hF : (m.fmt o).Skippable step us) {n : Name} (hn : us = true ∨ n.ty ≠ .idx)
    {bs : Bytes} (h : encName (m.fmt o) n = .ok bs) : Skips step 1 bs := by
  cases n with
  | idx n => exact (hF.prim .usize n bs (.inl (hn.resolve_right (by simp [Name.ty]))) h).leaf
  | str s => exact (hF.str s.bytes bs h).leaf

theorem or_and_left {p : Prop} {a b : Bool} (h : p ∨ (a && b) = true) : p ∨ a = true := by
  rcases h with h | h
  · exact .inl h
  · simp at h; exact .inr h.1
theorem or_and_right {p : Prop} {a b : Bool} (h : p ∨ (a && b) = true) : p ∨ b = true := by
  rcases h with h | h
  · exact .inl h
  · simp at h; exact .inr h.2
theorem or_ne {p : Prop} {nt : NameTy} (h : p ∨ (nt != .idx) = true) : p ∨ nt ≠ .idx := by
  simpa using h

mutual
theorem skipsD (hF : (m.fmt o).Skippable step us) : ∀ (t : Ty), (us = true ∨ t.noUsize = true) → t.counted = true →
    ∀ v bs, encD o env t m v = .ok bs → Skips step 1 bs
  | .prim p, h, hk, v, bs, he => by
    simp only [encD] at he
    simp only [Ty.noUsize, Bool.and_eq_true, bne_iff_ne] at h
    exact (hF.prim p v bs h he).leaf
  | .nonZero s w, h, hk, v, bs, he => by
    simp only [encD] at he
    exact (hF.prim _ _ bs (.inr (by cases s <;> simp [nonZeroPrim])) he).leaf
  | .unit, _, hk, v, bs, he => by simp only [encD] at he; exact (hF.unit bs he).leaf
  | .bytes, _, hk, v, bs, he => by simp only [encD] at he; exact (hF.bytes _ bs he).leaf
  | .string, _, hk, v, bs, he => by simp only [encD] at he; exact (hF.str _ bs he).leaf
  | .byteArray _, _, hk, v, bs, he => by simp only [encD] at he; exact (hF.arr _ bs he).leaf
  | .option t, h, hk, v, bs, he => by
    simp only [Ty.noUsize] at h; simp only [Ty.counted, Bool.and_eq_true] at hk
    cases v with
    | none => simp only [encD] at he; exact (hF.none bs he).leaf
    | some x =>
      simp only [encD, hF.native, Bool.false_and, fastE, Bool.false_eq_true, if_false] at he
      obtain ⟨a, b, ha, hb, rfl⟩ := Enc.seq_eq_ok.mp he
      exact (hF.some a ha).skips (skipsD hF t h hk x b hb)
  | .array n t, h, hk, v, bs, he => by
    simp only [Ty.noUsize] at h; simp only [Ty.counted, Bool.and_eq_true] at hk
    simp only [encD, hF.native, Bool.false_and, fastE, Bool.false_eq_true, if_false] at he
    obtain ⟨a, b, ha, hb, rfl⟩ := Enc.seq_eq_ok.mp he
    have := Skips.all 1 (skipsD hF t h hk) _ b hb
    rw [Nat.one_mul] at this
    exact (hF.seq _ a ha).skips this
  | .vec t, h, hk, v, bs, he => by
    simp only [Ty.noUsize] at h; simp only [Ty.counted, Bool.and_eq_true] at hk
    simp only [encD, hF.native, Bool.false_and, fastE, Bool.false_eq_true, if_false] at he
    obtain ⟨a, b, ha, hb, rfl⟩ := Enc.seq_eq_ok.mp he
    have := Skips.all 1 (skipsD hF t h hk) _ b hb
    rw [Nat.one_mul] at this
    exact (hF.seq _ a ha).skips this
  | .set t, h, hk, v, bs, he => by
    simp only [Ty.noUsize] at h; simp only [Ty.counted, Bool.and_eq_true] at hk
    simp only [encD, hF.native, Bool.false_and, fastE, Bool.false_eq_true, if_false] at he
    obtain ⟨a, b, ha, hb, rfl⟩ := Enc.seq_eq_ok.mp he
    have := Skips.all 1 (skipsD hF t h hk) _ b hb
    rw [Nat.one_mul] at this
    exact (hF.seq _ a ha).skips this
  | .map k t, h, hk, v, bs, he => by
    simp only [Ty.noUsize] at h; simp only [Ty.counted, Bool.and_eq_true] at hk
    simp only [encD, hF.native, Bool.false_and, fastE, Bool.false_eq_true, if_false] at he
    obtain ⟨a, b, ha, hb, rfl⟩ := Enc.seq_eq_ok.mp he
    refine (hF.map _ a ha).skips (Skips.all 2 ?_ _ b hb)
    intro x bs he
    obtain ⟨a, b, ha, hb, rfl⟩ := Enc.seq_eq_ok.mp he
    exact (skipsD hF k (or_and_left h) hk.1 x.1 a ha).append (skipsD hF t (or_and_right h) hk.2 x.2 b hb)
  | .tuple ts, h, hk, v, bs, he => by
    simp only [Ty.noUsize] at h; simp only [Ty.counted, Bool.and_eq_true] at hk
    simp only [encD] at he
    obtain ⟨a, b, ha, hb, rfl⟩ := Enc.seq_eq_ok.mp he
    exact (hF.seq _ a ha).skips (skipsTys hF ts h hk v b hb)
  | .result nt t u, h, hk, v, bs, he => by
    simp only [Ty.noUsize] at h; simp only [Ty.counted, Bool.and_eq_true] at hk
    have hn : ∀ c, us = true ∨ (resultName nt c).ty ≠ .idx := by
      intro c
      have : (resultName nt c).ty = nt := by cases nt <;> cases c <;> rfl
      rw [this]
      exact or_ne (or_and_left (or_and_left h))
    cases v with
    | inl x =>
      simp only [encD, hF.native, Bool.false_and, fastE, Bool.false_eq_true, if_false] at he
      obtain ⟨a, bc, ha, hbc, rfl⟩ := Enc.seq_eq_ok.mp he
      obtain ⟨b, c, hb, hc, rfl⟩ := Enc.seq_eq_ok.mp hbc
      exact (hF.variant a ha).skips ((skips_name o hF (hn _) hb).append
        (skipsD hF t (or_and_right (or_and_left h)) hk.1 x c hc))
    | inr x =>
      simp only [encD, hF.native, Bool.false_and, fastE, Bool.false_eq_true, if_false] at he
      obtain ⟨a, bc, ha, hbc, rfl⟩ := Enc.seq_eq_ok.mp he
      obtain ⟨b, c, hb, hc, rfl⟩ := Enc.seq_eq_ok.mp hbc
      exact (hF.variant a ha).skips ((skips_name o hF (hn _) hb).append
        (skipsD hF u (or_and_right h) hk.2 x c hc))
  | .boxed t, h, hk, v, bs, he => by
    simp only [Ty.noUsize] at h; simp only [Ty.counted, Bool.and_eq_true] at hk; simp only [encD] at he; exact skipsD hF t h hk v bs he
  | .wrapping t, h, hk, v, bs, he => by
    simp only [Ty.noUsize] at h; simp only [Ty.counted, Bool.and_eq_true] at hk; simp only [encD] at he; exact skipsD hF t h hk v bs he
  | .transparent t, h, hk, v, bs, he => by
    simp only [Ty.noUsize] at h; simp only [Ty.counted, Bool.and_eq_true] at hk; simp only [encD] at he; exact skipsD hF t h hk v bs he
  | .unitStruct, _, hk, v, bs, he => by simp only [encD] at he; exact (hF.map 0 bs he).leaf
  | .strct nt fs, h, hk, v, bs, he => by
    simp only [Ty.noUsize] at h; simp only [Ty.counted, Bool.and_eq_true] at hk
    simp only [encD] at he
    obtain ⟨a, b, ha, hb, rfl⟩ := Enc.seq_eq_ok.mp he
    exact (hF.map _ a ha).skips (skipsFields hF fs h hk v b hb)
  | .packed lay fs, _, hk, v, bs, he => by
    simp only [encD, hF.native, Bool.false_and, Bool.false_eq_true, if_false] at he
    split at he
    · cases he
    · exact (hF.pack _ bs he).leaf
  | .unitEnum nt names, h, hk, v, bs, he => by
    simp only [Ty.noUsize, List.all_eq_true, bne_iff_ne] at h
    simp only [encD] at he
    refine skips_name o hF ?_ he
    rcases h with h | h
    · exact .inl h
    · exact .inr (h _ (List.getElem_mem v.2))
  | .enm nt vs, h, hk, v, bs, he => by
    simp only [Ty.noUsize] at h; simp only [Ty.counted, Bool.and_eq_true] at hk
    simp only [encD] at he
    obtain ⟨a, b, ha, hb, rfl⟩ := Enc.seq_eq_ok.mp he
    exact (hF.variant a ha).skips (skipsVariants hF vs h hk v b hb)
theorem skipsTys (hF : (m.fmt o).Skippable step us) : ∀ (ts : Tys), (us = true ∨ ts.noUsize = true) → ts.counted = true →
    ∀ v bs, encTys o env ts m v = .ok bs → Skips step ts.length bs
  | .nil, _, hk, v, bs, he => by simp only [encTys] at he; cases he; exact Skips.nil
  | .cons t ts, h, hk, v, bs, he => by
    simp only [Tys.noUsize] at h; simp only [Tys.counted, Bool.and_eq_true] at hk
    simp only [encTys, hF.native, Bool.false_and, fastE, Bool.false_eq_true, if_false] at he
    obtain ⟨a, b, ha, hb, rfl⟩ := Enc.seq_eq_ok.mp he
    have := (skipsD hF t (or_and_left h) hk.1 v.1 a ha).append (skipsTys hF ts (or_and_right h) hk.2 v.2 b hb)
    rw [Nat.add_comm] at this
    exact this
theorem skipsFields (hF : (m.fmt o).Skippable step us) : ∀ (fs : Fields),
    (us = true ∨ fs.noUsize = true) → fs.counted = true →
    ∀ v bs, encFields o env fs m v = .ok bs → Skips step (2 * fs.count env v) bs
  | .nil, _, hk, v, bs, he => by simp only [encFields] at he; cases he; exact Skips.nil
  | .cons n d s t fs, h, hk, v, bs, he => by
    simp only [Fields.noUsize] at h; simp only [Fields.counted, Bool.and_eq_true] at hk
    simp only [encFields] at he
    obtain ⟨a, b, ha, hb, rfl⟩ := Enc.seq_eq_ok.mp he
    have ih := skipsFields hF fs (or_and_right h) hk.2 v.2 b hb
    show Skips step (2 * ((if fieldPresent env s t v.1 = true then 1 else 0) + fs.count env v.2)) _
    rw [Nat.mul_add]
    refine Skips.append ?_ ih
    split at ha
    · rename_i hp
      rw [if_pos hp]
      obtain ⟨x, y, hx, hy, rfl⟩ := Enc.seq_eq_ok.mp ha
      exact (skips_name o hF (or_ne (or_and_left (or_and_left h))) hx).append
        (skipsD hF t (or_and_right (or_and_left h)) hk.1 v.1 y hy)
    · rename_i hp
      rw [if_neg hp]
      cases ha; exact Skips.nil
theorem skipsVariants (hF : (m.fmt o).Skippable step us) : ∀ (vs : Variants),
    (us = true ∨ vs.noUsize = true) → vs.counted = true →
    ∀ v bs, encVariants o env vs m v = .ok bs → Skips step 2 bs
  | .nil, _, hk, v, _, _ => nomatch v
  | .cons n t vs, h, hk, .inl x, bs, he => by
    simp only [Variants.noUsize] at h; simp only [Variants.counted, Bool.and_eq_true] at hk
    have hd : t.dynamic = false := by simpa using hk.1.2
    simp only [encVariants, hd, Bool.false_eq_true, if_false] at he
    obtain ⟨a, b, ha, hb, rfl⟩ := Enc.seq_eq_ok.mp he
    exact (skips_name o hF (or_ne (or_and_left (or_and_left h))) ha).append
        (skipsD hF t (or_and_right (or_and_left h)) hk.1.1 x b hb)
  | .cons n t vs, h, hk, .inr x, bs, he => by
    simp only [Variants.noUsize] at h; simp only [Variants.counted, Bool.and_eq_true] at hk
    simp only [encVariants] at he
    exact skipsVariants hF vs (or_and_right h) hk.2 x bs he
end

theorem skipAny_of_skips {step : Dec Nat} (hc : Consumes step) {bs : Bytes} (h : Skips step 1 bs)
    (r : Bytes) : skipAny step (bs ++ r) = .ok ((), r) :=
  (skipMany_iff hc 1 _ _).mpr (h 0 r r (.zero r))

end

/-! ## Supported types count their entries -/

mutual

theorem Ty.counted_of_ok {N H : Bool} {m : Mode} (hf : m.fast N = false) : ∀ (t : Ty) (tail : Bool),
    t.ok N H m tail = true → t.counted = true
  | .prim _, _, _ => rfl
  | .nonZero _ _, _, _ => rfl
  | .unit, _, _ => rfl
  | .bytes, _, _ => rfl
  | .string, _, _ => rfl
  | .byteArray _, _, _ => rfl
  | .option t, _, h => by
    simp only [Ty.ok, hf, Bool.false_and, Bool.false_eq_true, if_false, Bool.and_eq_true] at h
    exact t.counted_of_ok hf _ h.2
  | .array _ t, _, h => by
    simp only [Ty.ok, hf, Bool.false_and, Bool.false_eq_true, if_false] at h
    exact t.counted_of_ok hf _ h
  | .vec t, _, h => by
    simp only [Ty.ok, hf, Bool.false_and, Bool.false_eq_true, if_false] at h
    exact t.counted_of_ok hf _ h
  | .set t, _, h => by
    simp only [Ty.ok, hf, Bool.false_and, Bool.false_eq_true, if_false] at h
    exact t.counted_of_ok hf _ h
  | .map k t, _, h => by
    simp only [Ty.ok, hf, Bool.false_and, Bool.false_eq_true, if_false, Bool.and_eq_true] at h
    simp only [Ty.counted, Bool.and_eq_true]
    exact ⟨k.counted_of_ok hf _ h.1, t.counted_of_ok hf _ h.2⟩
  | .tuple ts, _, h => by
    simp only [Ty.ok] at h
    exact ts.counted_of_ok hf _ h
  | .result _ t u, _, h => by
    simp only [Ty.ok, hf, Bool.false_and, Bool.false_eq_true, if_false, Bool.and_eq_true] at h
    simp only [Ty.counted, Bool.and_eq_true]
    exact ⟨t.counted_of_ok hf _ h.1, u.counted_of_ok hf _ h.2⟩
  | .boxed t, _, h => by
    simp only [Ty.ok, hf, Bool.false_and, Bool.false_eq_true, if_false] at h
    exact t.counted_of_ok hf _ h
  | .wrapping t, _, h => by
    simp only [Ty.ok, hf, Bool.false_and, Bool.false_eq_true, if_false] at h
    exact t.counted_of_ok hf _ h
  | .transparent t, _, h => by
    simp only [Ty.ok] at h
    exact t.counted_of_ok hf _ h
  | .unitStruct, _, _ => rfl
  | .strct _ fs, _, h => by
    simp only [Ty.ok, Bool.and_eq_true] at h
    exact fs.counted_of_ok hf h.2
  | .packed _ _, _, _ => rfl
  | .unitEnum _ _, _, _ => rfl
  | .enm _ vs, _, h => by
    simp only [Ty.ok, Bool.and_eq_true] at h
    exact vs.counted_of_ok hf _ h.2

theorem Tys.counted_of_ok {N H : Bool} {m : Mode} (hf : m.fast N = false) : ∀ (ts : Tys) (tail : Bool),
    ts.ok N H m tail = true → ts.counted = true
  | .nil, _, _ => rfl
  | .cons t ts, _, h => by
    simp only [Tys.ok, hf, Bool.false_and, Bool.false_eq_true, if_false, Bool.and_eq_true] at h
    simp only [Tys.counted, Bool.and_eq_true]
    exact ⟨t.counted_of_ok hf _ h.1, ts.counted_of_ok hf _ h.2⟩

theorem Fields.counted_of_ok {N H : Bool} {m : Mode} (hf : m.fast N = false) : ∀ (fs : Fields),
    fs.ok N H m = true → fs.counted = true
  | .nil, _ => rfl
  | .cons _ _ _ t fs, h => by
    simp only [Fields.ok, Bool.and_eq_true] at h
    simp only [Fields.counted, Bool.and_eq_true]
    exact ⟨t.counted_of_ok hf _ h.1.2, fs.counted_of_ok hf h.2⟩

theorem Variants.counted_of_ok {N H : Bool} {m : Mode} (hf : m.fast N = false) : ∀ (vs : Variants) (tail : Bool),
    vs.ok N H m tail = true → vs.counted = true
  | .nil, _, _ => rfl
  | .cons _ t vs, _, h => by
    simp only [Variants.ok, Bool.and_eq_true] at h
    simp only [Variants.counted, Bool.and_eq_true]
    exact ⟨⟨t.counted_of_ok hf _ h.1.1, h.1.2⟩, vs.counted_of_ok hf _ h.2⟩

end

end Musli
