import Verif.Spec.Portable
import Verif.Proofs.IntEnc
import Verif.Proofs.RoundTrip
/-!
# Encodings do not depend on the machine
-/
set_option linter.unusedSectionVars false
namespace Musli

variable (h1 h2 : Host) (o : Options) (env : Env)

theorem writeBytes_hosts {w : Nat} (h8 : w % 8 = 0) (bo : ByteOrder) (v : BitVec w) :
    @Fixed.writeBytes h1 w bo v = @Fixed.writeBytes h2 w bo v := by
  rw [@Fixed.writeBytes_eq h1 _ h8, @Fixed.writeBytes_eq h2 _ h8]

theorem swap_ofLeBytes {w : Nat} (h8 : w % 8 = 0) (b : Bytes) (hb : b.length = w / 8) :
    Fixed.swap (Fixed.ofLeBytes w b) = Fixed.ofLeBytes w b.reverse := by
  unfold Fixed.swap
  rw [Fixed.leBytes_ofLeBytes h8 b hb]

theorem readBytes_eq [Host] {w : Nat} (h8 : w % 8 = 0) (bo : ByteOrder) :
    Fixed.readBytes w bo = (do
      let b ← Dec.readBytes (w / 8)
      pure (match bo with
        | .little => Fixed.ofLeBytes w b
        | .big => Fixed.ofLeBytes w b.reverse)) := by
  funext s
  unfold Fixed.readBytes
  cases h : Dec.readBytes (w / 8) s with
  | error e => rw [Dec.bind_error h, Dec.bind_error h]
  | ok r =>
    obtain ⟨b, rest⟩ := r
    rw [Dec.bind_ok h, Dec.bind_ok h]
    have hb : b.length = w / 8 := by
      unfold Dec.readBytes at h
      split at h
      · cases h
      · cases h; rw [List.length_take]; omega
    have hb' : b.reverse.length = w / 8 := by rw [List.length_reverse, hb]
    unfold Fixed.ofNe
    cases bo <;> cases hh : (Host.order) <;> simp [swap_ofLeBytes h8 _ hb, swap_ofLeBytes h8 _ hb']

theorem readBytes_hosts {w : Nat} (h8 : w % 8 = 0) (bo : ByteOrder) :
    @Fixed.readBytes h1 w bo = @Fixed.readBytes h2 w bo := by
  rw [@readBytes_eq h1 _ h8, @readBytes_eq h2 _ h8]

theorem widthBits_mod (w : Width) : Int'.widthBits w % 8 = 0 := by cases w <;> rfl

theorem encodeUnsigned_hosts {w : Nat} (h8 : w % 8 = 0) (v : BitVec w) :
    @Int'.encodeUnsigned h1 o w v = @Int'.encodeUnsigned h2 o w v := by
  unfold Int'.encodeUnsigned
  rw [writeBytes_hosts h1 h2 h8]

theorem decodeUnsigned_hosts {w : Nat} (h8 : w % 8 = 0) :
    @Int'.decodeUnsigned h1 o w = @Int'.decodeUnsigned h2 o w := by
  unfold Int'.decodeUnsigned
  rw [readBytes_hosts h1 h2 h8]

theorem encodeSigned_hosts {w : Nat} (h8 : w % 8 = 0) (v : BitVec w) :
    @Int'.encodeSigned h1 o w v = @Int'.encodeSigned h2 o w v := by
  unfold Int'.encodeSigned
  rw [writeBytes_hosts h1 h2 h8]

theorem decodeSigned_hosts {w : Nat} (h8 : w % 8 = 0) :
    @Int'.decodeSigned h1 o w = @Int'.decodeSigned h2 o w := by
  unfold Int'.decodeSigned
  rw [readBytes_hosts h1 h2 h8]

theorem encodeUsize_hosts (v : BitVec 64) : @Int'.encodeUsize h1 o v = @Int'.encodeUsize h2 o v := by
  unfold Int'.encodeUsize
  cases Opt.length o <;> dsimp only <;> rw [writeBytes_hosts h1 h2 (widthBits_mod _)]

theorem decodeUsize_hosts : @Int'.decodeUsize h1 o = @Int'.decodeUsize h2 o := by
  unfold Int'.decodeUsize
  cases Opt.length o <;> dsimp only <;> rw [readBytes_hosts h1 h2 (widthBits_mod _)]

theorem encLen_hosts : @encLen h1 o = @encLen h2 o := by
  funext n
  unfold encLen
  rw [encodeUsize_hosts h1 h2]

theorem decLen_hosts : @decLen h1 o = @decLen h2 o := by
  unfold decLen
  rw [decodeUsize_hosts h1 h2]

/-! ## Storage -/

theorem storage_encPrim_hosts : @Storage.encPrim h1 o = @Storage.encPrim h2 o := by
  funext p v
  cases p with
  | bool => rfl
  | char => exact congrArg Except.ok (encodeUnsigned_hosts h1 h2 o (by decide) _)
  | uint w =>
    cases w
    · rfl
    all_goals exact congrArg Except.ok (encodeUnsigned_hosts h1 h2 o (by decide) _)
  | sint w =>
    cases w
    · rfl
    all_goals exact congrArg Except.ok (encodeSigned_hosts h1 h2 o (by decide) _)
  | usize => exact encodeUsize_hosts h1 h2 o v
  | isize => exact encodeUsize_hosts h1 h2 o v
  | f32 => exact congrArg Except.ok (encodeUnsigned_hosts h1 h2 o (by decide) _)
  | f64 => exact congrArg Except.ok (encodeUnsigned_hosts h1 h2 o (by decide) _)

theorem storage_decPrim_hosts : @Storage.decPrim h1 o = @Storage.decPrim h2 o := by
  funext p
  cases p with
  | bool => rfl
  | char => simp only [Storage.decPrim, Storage.decChar]; rw [decodeUnsigned_hosts h1 h2 o (by decide)]
  | uint w =>
    cases w
    · rfl
    all_goals exact decodeUnsigned_hosts h1 h2 o (by decide)
  | sint w =>
    cases w
    · rfl
    all_goals exact decodeSigned_hosts h1 h2 o (by decide)
  | usize => exact decodeUsize_hosts h1 h2 o
  | isize => exact decodeUsize_hosts h1 h2 o
  | f32 => exact decodeUnsigned_hosts h1 h2 o (by decide)
  | f64 => exact decodeUnsigned_hosts h1 h2 o (by decide)

theorem storage_encBytes_hosts : @Storage.encBytes h1 o = @Storage.encBytes h2 o := by
  funext b; unfold Storage.encBytes; rw [encLen_hosts h1 h2]

theorem storage_decBytes_hosts : @Storage.decBytes h1 o = @Storage.decBytes h2 o := by
  unfold Storage.decBytes; rw [decLen_hosts h1 h2]

theorem storage_decUnit_hosts : @Storage.decUnit h1 o = @Storage.decUnit h2 o := by
  unfold Storage.decUnit; rw [decLen_hosts h1 h2]

theorem storage_hosts (pack : Bool) : @Storage.fmt h1 pack o = @Storage.fmt h2 pack o := by
  unfold Storage.fmt
  rw [storage_encPrim_hosts h1 h2, storage_decPrim_hosts h1 h2, storage_encBytes_hosts h1 h2,
    storage_decBytes_hosts h1 h2, storage_decUnit_hosts h1 h2, encLen_hosts h1 h2, decLen_hosts h1 h2]

/-! ## Wire -/

theorem wire_encTagLen_hosts : @Wire.encTagLen h1 o = @Wire.encTagLen h2 o := by
  funext k n; unfold Wire.encTagLen; rw [encLen_hosts h1 h2]

theorem wire_tagLen_hosts : @Wire.tagLen h1 o = @Wire.tagLen h2 o := by
  funext t; unfold Wire.tagLen; rw [decLen_hosts h1 h2]

theorem wire_decTagLen_hosts : @Wire.decTagLen h1 o = @Wire.decTagLen h2 o := by
  funext k; unfold Wire.decTagLen; rw [wire_tagLen_hosts h1 h2]

theorem wire_skip_hosts : @Wire.skip h1 o = @Wire.skip h2 o := by
  unfold Wire.skip Wire.step; rw [wire_tagLen_hosts h1 h2]

theorem wire_encUnsigned_hosts {w : Nat} (h8 : w % 8 = 0) (v : BitVec w) :
    @Wire.encUnsigned h1 o w v = @Wire.encUnsigned h2 o w v := by
  unfold Wire.encUnsigned; rw [writeBytes_hosts h1 h2 h8]

theorem wire_decUnsigned_hosts {w : Nat} (h8 : w % 8 = 0) :
    @Wire.decUnsigned h1 o w = @Wire.decUnsigned h2 o w := by
  unfold Wire.decUnsigned; rw [readBytes_hosts h1 h2 h8]

theorem wire_encUsize_hosts (v : BitVec 64) : @Wire.encUsize h1 o v = @Wire.encUsize h2 o v := by
  unfold Wire.encUsize
  cases Opt.length o <;> dsimp only <;> rw [writeBytes_hosts h1 h2 (widthBits_mod _)]

theorem wire_decUsize_hosts : @Wire.decUsize h1 o = @Wire.decUsize h2 o := by
  unfold Wire.decUsize
  cases Opt.length o <;> dsimp only <;> rw [readBytes_hosts h1 h2 (widthBits_mod _)]

theorem bits_mod (w : IW) : w.bits % 8 = 0 := by cases w <;> rfl

theorem wire_encPrim_hosts : @Wire.encPrim h1 o = @Wire.encPrim h2 o := by
  funext p v
  cases p with
  | bool => rfl
  | char => exact wire_encUnsigned_hosts h1 h2 o (by decide) _
  | uint w => exact wire_encUnsigned_hosts h1 h2 o (bits_mod w) _
  | sint w => cases w <;> exact wire_encUnsigned_hosts h1 h2 o (by decide) _
  | usize => exact wire_encUsize_hosts h1 h2 o v
  | isize => exact wire_encUsize_hosts h1 h2 o v
  | f32 => exact wire_encUnsigned_hosts h1 h2 o (by decide) _
  | f64 => exact wire_encUnsigned_hosts h1 h2 o (by decide) _

theorem wire_decSigned_hosts {w : Nat} (h8 : w % 8 = 0) :
    @Wire.decSigned h1 o w = @Wire.decSigned h2 o w := by
  unfold Wire.decSigned; rw [wire_decUnsigned_hosts h1 h2 o h8]

theorem wire_decPrim_hosts : @Wire.decPrim h1 o = @Wire.decPrim h2 o := by
  funext p
  cases p with
  | bool => rfl
  | char =>
    simp only [Wire.decPrim, Wire.decChar]
    rw [wire_decUnsigned_hosts h1 h2 o (by decide)]
  | uint w => exact wire_decUnsigned_hosts h1 h2 o (bits_mod w)
  | sint w =>
    cases w
    · exact wire_decUnsigned_hosts h1 h2 o (by decide)
    all_goals exact wire_decSigned_hosts h1 h2 o (by decide)
  | usize => exact wire_decUsize_hosts h1 h2 o
  | isize => exact wire_decUsize_hosts h1 h2 o
  | f32 => exact wire_decUnsigned_hosts h1 h2 o (by decide)
  | f64 => exact wire_decUnsigned_hosts h1 h2 o (by decide)

theorem wire_encBytes_hosts : @Wire.encBytes h1 o = @Wire.encBytes h2 o := by
  funext b; unfold Wire.encBytes; rw [wire_encTagLen_hosts h1 h2]

theorem wire_decBytes_hosts : @Wire.decBytes h1 o = @Wire.decBytes h2 o := by
  unfold Wire.decBytes; rw [wire_decTagLen_hosts h1 h2]

theorem wire_decArr_hosts : @Wire.decArr h1 o = @Wire.decArr h2 o := by
  funext n; unfold Wire.decArr; rw [wire_decTagLen_hosts h1 h2]

theorem wire_encMapLen_hosts : @Wire.encMapLen h1 o = @Wire.encMapLen h2 o := by
  funext n; unfold Wire.encMapLen; rw [wire_encTagLen_hosts h1 h2]

theorem wire_decMapLen_hosts : @Wire.decMapLen h1 o = @Wire.decMapLen h2 o := by
  unfold Wire.decMapLen; rw [wire_decTagLen_hosts h1 h2]

theorem wire_endSeq_hosts : @Wire.endSeq h1 o = @Wire.endSeq h2 o := by
  funext n
  induction n with
  | zero => rfl
  | succ n ih => unfold Wire.endSeq; rw [wire_skip_hosts h1 h2, ih]

theorem wire_endMap_hosts : @Wire.endMap h1 o = @Wire.endMap h2 o := by
  funext n
  induction n with
  | zero => rfl
  | succ n ih => unfold Wire.endMap; rw [wire_skip_hosts h1 h2, ih]

theorem wire_decPack_hosts : @Wire.decPack h1 o = @Wire.decPack h2 o := by
  funext α d; unfold Wire.decPack; rw [wire_decTagLen_hosts h1 h2]

theorem wire_hosts : @Wire.fmt h1 o = @Wire.fmt h2 o := by
  unfold Wire.fmt
  rw [wire_encPrim_hosts h1 h2, wire_decPrim_hosts h1 h2, wire_encBytes_hosts h1 h2, wire_decBytes_hosts h1 h2,
    wire_decArr_hosts h1 h2, wire_encTagLen_hosts h1 h2, wire_decTagLen_hosts h1 h2, wire_endSeq_hosts h1 h2,
    wire_encMapLen_hosts h1 h2, wire_decMapLen_hosts h1 h2, wire_endMap_hosts h1 h2, wire_skip_hosts h1 h2,
    wire_decPack_hosts h1 h2]

/-! ## Descriptive -/

theorem desc_encTagLen_hosts : @Desc.encTagLen h1 o = @Desc.encTagLen h2 o := by
  funext k n; unfold Desc.encTagLen; rw [encLen_hosts h1 h2]

theorem desc_tagLen_hosts : @Desc.tagLen h1 o = @Desc.tagLen h2 o := by
  funext t; unfold Desc.tagLen; rw [decLen_hosts h1 h2]

theorem desc_decTagLen_hosts : @Desc.decTagLen h1 o = @Desc.decTagLen h2 o := by
  funext k; unfold Desc.decTagLen; rw [desc_tagLen_hosts h1 h2]

theorem desc_skip_hosts : @Desc.skip h1 o = @Desc.skip h2 o := by
  unfold Desc.skip Desc.step; rw [desc_tagLen_hosts h1 h2]

theorem desc_encBytes_hosts : @Desc.encBytes h1 o = @Desc.encBytes h2 o := by
  funext k b; unfold Desc.encBytes; rw [desc_encTagLen_hosts h1 h2]

theorem desc_decBytes_hosts : @Desc.decBytes h1 o = @Desc.decBytes h2 o := by
  funext k; unfold Desc.decBytes; rw [desc_decTagLen_hosts h1 h2]

theorem desc_decArr_hosts : @Desc.decArr h1 o = @Desc.decArr h2 o := by
  funext n; unfold Desc.decArr; rw [desc_decTagLen_hosts h1 h2]

theorem desc_endSeq_hosts : @Desc.endSeq h1 o = @Desc.endSeq h2 o := by
  funext n
  cases n with
  | zero => rfl
  | succ n => unfold Desc.endSeq; rw [desc_skip_hosts h1 h2]

theorem desc_endMap_hosts : @Desc.endMap h1 o = @Desc.endMap h2 o := by
  funext n
  induction n with
  | zero => rfl
  | succ n ih => unfold Desc.endMap; rw [desc_skip_hosts h1 h2, ih]

theorem desc_decPack_hosts : @Desc.decPack h1 o = @Desc.decPack h2 o := by
  funext α d; unfold Desc.decPack; rw [desc_decTagLen_hosts h1 h2]

theorem desc_hosts : @Desc.fmt h1 o = @Desc.fmt h2 o := by
  unfold Desc.fmt
  rw [desc_encBytes_hosts h1 h2, desc_decBytes_hosts h1 h2, desc_decArr_hosts h1 h2, desc_encTagLen_hosts h1 h2,
    desc_decTagLen_hosts h1 h2, desc_endSeq_hosts h1 h2, desc_endMap_hosts h1 h2, desc_skip_hosts h1 h2,
    desc_decPack_hosts h1 h2]

theorem fmt_hosts (m : Mode) : @Mode.fmt h1 o m = @Mode.fmt h2 o m := by
  cases m with
  | storage => exact storage_hosts h1 h2 o false
  | packed => exact storage_hosts h1 h2 o true
  | wire => exact wire_hosts h1 h2 o
  | descriptive => exact desc_hosts h1 h2 o

/-! ## Types -/

/-- The bitwise path is not used, here and inside. -/
def Plain (m : Mode) (noPack : Bool) : Prop :=
  Opt.isNativeFixed o = false ∨ ((m = .wire ∨ m = .descriptive) ∧ noPack = true)

variable {o} in
theorem Plain.native {m : Mode} {b : Bool} (h : Plain o m b) : (@Mode.fmt h2 o m).native = false := by
  rcases h with h | ⟨rfl | rfl, _⟩
  · cases m with
    | storage => exact h
    | packed => exact h
    | wire => rfl
    | descriptive => rfl
  · rfl
  · rfl

variable {o} in
theorem Plain.left {m : Mode} {a b : Bool} (h : Plain o m (a && b)) : Plain o m a := by
  rcases h with h | ⟨h, h'⟩
  · exact .inl h
  · exact .inr ⟨h, (Bool.and_eq_true _ _ ▸ h').1⟩

variable {o} in
theorem Plain.right {m : Mode} {a b : Bool} (h : Plain o m (a && b)) : Plain o m b := by
  rcases h with h | ⟨h, h'⟩
  · exact .inl h
  · exact .inr ⟨h, (Bool.and_eq_true _ _ ▸ h').2⟩

theorem all_congr {α} {f g : α → Enc} (h : ∀ x, f x = g x) (l : List α) : Enc.all f l = Enc.all g l := by
  rw [funext h]

mutual

theorem Ty.encHosts (t : Ty) (m : Mode) (hp : Plain o m t.noPack) (v : t.Val) :
    @encD h1 o env t m v = @encD h2 o env t m v := by
  have hn := hp.native h2
  cases t with
  | prim p => unfold encD; rw [fmt_hosts h1 h2]
  | nonZero s w => unfold encD; rw [fmt_hosts h1 h2]
  | unit => unfold encD; rw [fmt_hosts h1 h2]
  | bytes => unfold encD; rw [fmt_hosts h1 h2]
  | string => unfold encD; rw [fmt_hosts h1 h2]
  | byteArray n => unfold encD; rw [fmt_hosts h1 h2]
  | option t =>
    unfold encD
    rw [fmt_hosts h1 h2]
    simp only [hn, Bool.false_and, fastE, Bool.false_eq_true, if_false]
    cases v with
    | none => rfl
    | some x => dsimp only; rw [t.encHosts m (by unfold Ty.noPack at hp; exact hp) x]
  | array n t =>
    unfold encD
    rw [fmt_hosts h1 h2]
    simp only [hn, Bool.false_and, Bool.false_eq_true, if_false]
    rw [all_congr fun x => t.encHosts m (by unfold Ty.noPack at hp; exact hp) x]
  | vec t =>
    unfold encD
    rw [fmt_hosts h1 h2]
    simp only [hn, Bool.false_and, Bool.false_eq_true, if_false]
    rw [all_congr fun x => t.encHosts m (by unfold Ty.noPack at hp; exact hp) x]
  | set t =>
    unfold encD
    rw [fmt_hosts h1 h2]
    simp only [hn, Bool.false_and, fastE, Bool.false_eq_true, if_false]
    rw [all_congr fun x => t.encHosts m (by unfold Ty.noPack at hp; exact hp) x]
  | map k t =>
    unfold encD
    rw [fmt_hosts h1 h2]
    simp only [hn, Bool.false_and, fastE, Bool.false_eq_true, if_false]
    unfold Ty.noPack at hp
    simp only [k.encHosts m hp.left, t.encHosts m hp.right]
  | tuple ts =>
    unfold encD
    rw [fmt_hosts h1 h2, ts.encHosts m (by unfold Ty.noPack at hp; exact hp)]
  | result nt t u =>
    unfold encD
    rw [fmt_hosts h1 h2]
    simp only [hn, Bool.false_and, fastE, Bool.false_eq_true, if_false]
    unfold Ty.noPack at hp
    simp only [t.encHosts m hp.left, u.encHosts m hp.right]
  | boxed t => unfold encD; exact t.encHosts m (by unfold Ty.noPack at hp; exact hp) v
  | wrapping t => unfold encD; exact t.encHosts m (by unfold Ty.noPack at hp; exact hp) v
  | transparent t => unfold encD; exact t.encHosts m (by unfold Ty.noPack at hp; exact hp) v
  | unitStruct => unfold encD; rw [fmt_hosts h1 h2]
  | strct nt fs =>
    unfold encD
    rw [fmt_hosts h1 h2, fs.encHosts m (by unfold Ty.noPack at hp; exact hp)]
  | packed lay fs =>
    unfold encD
    rw [fmt_hosts h1 h2]
    simp only [hn, Bool.false_and, Bool.false_eq_true, if_false]
    rcases hp with hp | ⟨_, hp⟩
    · rw [fs.encPackHosts (.inl hp) v]
    · unfold Ty.noPack at hp; cases hp
  | unitEnum nt names => unfold encD; rw [fmt_hosts h1 h2]
  | enm nt vs =>
    unfold encD
    rw [fmt_hosts h1 h2, vs.encHosts m (by unfold Ty.noPack at hp; exact hp)]

theorem Tys.encHosts (ts : Tys) (m : Mode) (hp : Plain o m ts.noPack) (v : ts.Val) :
    @encTys h1 o env ts m v = @encTys h2 o env ts m v := by
  have hn := hp.native h2
  cases ts with
  | nil => rfl
  | cons t ts =>
    unfold encTys
    rw [fmt_hosts h1 h2]
    simp only [hn, Bool.false_and, fastE, Bool.false_eq_true, if_false]
    unfold Tys.noPack at hp
    rw [t.encHosts m hp.left, ts.encHosts m hp.right]

theorem Fields.encHosts (fs : Fields) (m : Mode) (hp : Plain o m fs.noPack) (v : fs.Val) :
    @encFields h1 o env fs m v = @encFields h2 o env fs m v := by
  cases fs with
  | nil => rfl
  | cons n d s t fs =>
    unfold encFields
    unfold Fields.noPack at hp
    rw [fmt_hosts h1 h2, t.encHosts m hp.left, fs.encHosts m hp.right]

theorem Fields.encPackHosts (fs : Fields) (hp : Plain o .packed fs.noPack) (v : fs.Val) :
    @encPackFields h1 o env fs .packed v = @encPackFields h2 o env fs .packed v := by
  cases fs with
  | nil => rfl
  | cons n d s t fs =>
    unfold encPackFields
    unfold Fields.noPack at hp
    rw [t.encHosts .packed hp.left, fs.encPackHosts hp.right]

theorem Ty.encBodyHosts (t : Ty) (m : Mode) (hp : Plain o m t.noPack) (v : t.Val) :
    @encBodyFields h1 o env t m v = @encBodyFields h2 o env t m v := by
  cases t with
  | strct nt fs =>
    unfold encBodyFields
    unfold Ty.noPack at hp
    exact fs.encHosts m hp v
  | _ => unfold encBodyFields; rfl

theorem Variants.encHosts (vs : Variants) (m : Mode) (hp : Plain o m vs.noPack) (v : vs.Val) :
    @encVariants h1 o env vs m v = @encVariants h2 o env vs m v := by
  cases vs with
  | nil => exact nomatch v
  | cons n t vs =>
    unfold encVariants
    unfold Variants.noPack at hp
    rw [fmt_hosts h1 h2]
    cases v with
    | inl x => dsimp only; rw [t.encHosts m hp.left, t.encBodyHosts m hp.left]
    | inr x => dsimp only; rw [vs.encHosts m hp.right]

end

mutual

theorem Ty.decHosts (t : Ty) (m : Mode) (hp : Plain o m t.noPack) :
    @decD h1 o env t m = @decD h2 o env t m := by
  have hn := hp.native h2
  cases t with
  | prim p => unfold decD; rw [fmt_hosts h1 h2]
  | nonZero s w =>
    unfold decD
    rw [fmt_hosts h1 h2]
    simp only [hn, Bool.false_and, fastD, Bool.false_eq_true, if_false]
  | unit => unfold decD; rw [fmt_hosts h1 h2]
  | bytes => unfold decD; rw [fmt_hosts h1 h2]
  | string => unfold decD; rw [fmt_hosts h1 h2]
  | byteArray n => unfold decD; rw [fmt_hosts h1 h2]
  | option t =>
    unfold decD
    rw [fmt_hosts h1 h2]
    simp only [hn, Bool.false_and, fastD, Bool.false_eq_true, if_false]
    rw [t.decHosts m (by unfold Ty.noPack at hp; exact hp)]
  | array n t =>
    unfold decD
    rw [fmt_hosts h1 h2]
    simp only [hn, Bool.false_and, fastD, Bool.false_eq_true, if_false]
    rw [t.decHosts m (by unfold Ty.noPack at hp; exact hp)]
  | vec t =>
    unfold decD
    rw [fmt_hosts h1 h2]
    simp only [hn, Bool.false_and, fastD, Bool.false_eq_true, if_false]
    rw [t.decHosts m (by unfold Ty.noPack at hp; exact hp)]
  | set t =>
    unfold decD
    rw [fmt_hosts h1 h2]
    simp only [hn, Bool.false_and, fastD, Bool.false_eq_true, if_false]
    rw [t.decHosts m (by unfold Ty.noPack at hp; exact hp)]
  | map k t =>
    unfold decD
    rw [fmt_hosts h1 h2]
    simp only [hn, Bool.false_and, fastD, Bool.false_eq_true, if_false]
    unfold Ty.noPack at hp
    rw [k.decHosts m hp.left, t.decHosts m hp.right]
  | tuple ts =>
    unfold decD
    rw [fmt_hosts h1 h2]
    simp only [ts.decHosts m (by unfold Ty.noPack at hp; exact hp)]
  | result nt t u =>
    unfold decD
    rw [fmt_hosts h1 h2]
    simp only [hn, Bool.false_and, fastD, Bool.false_eq_true, if_false]
    unfold Ty.noPack at hp
    rw [t.decHosts m hp.left, u.decHosts m hp.right]
  | boxed t =>
    unfold decD
    rw [fmt_hosts h1 h2]
    simp only [hn, Bool.false_and, fastD, Bool.false_eq_true, if_false]
    exact t.decHosts m (by unfold Ty.noPack at hp; exact hp)
  | wrapping t =>
    unfold decD
    rw [fmt_hosts h1 h2]
    simp only [hn, Bool.false_and, fastD, Bool.false_eq_true, if_false]
    exact t.decHosts m (by unfold Ty.noPack at hp; exact hp)
  | transparent t => unfold decD; exact t.decHosts m (by unfold Ty.noPack at hp; exact hp)
  | unitStruct => unfold decD; rw [fmt_hosts h1 h2]
  | strct nt fs =>
    unfold decD
    rw [fmt_hosts h1 h2]
    simp only [fs.decHosts m (by unfold Ty.noPack at hp; exact hp)]
  | packed lay fs =>
    unfold decD
    rw [fmt_hosts h1 h2]
    simp only [hn, Bool.false_and, Bool.false_eq_true, if_false]
    rcases hp with hp | ⟨_, hp⟩
    · rw [fs.decPackHosts (.inl hp)]
    · unfold Ty.noPack at hp; cases hp
  | unitEnum nt names => unfold decD; rw [fmt_hosts h1 h2]
  | enm nt vs =>
    unfold decD
    rw [fmt_hosts h1 h2]
    simp only [vs.decHosts m (by unfold Ty.noPack at hp; exact hp)]

theorem Tys.decHosts (ts : Tys) (m : Mode) (hp : Plain o m ts.noPack) (c : Nat) :
    @decTys h1 o env ts m c = @decTys h2 o env ts m c := by
  have hn := hp.native h2
  cases ts with
  | nil => rfl
  | cons t ts =>
    unfold decTys
    rw [fmt_hosts h1 h2]
    simp only [hn, Bool.false_and, fastD, Bool.false_eq_true, if_false]
    unfold Tys.noPack at hp
    cases c with
    | zero => rfl
    | succ c => dsimp only; rw [t.decHosts m hp.left, ts.decHosts m hp.right]

theorem Fields.decHosts (fs : Fields) (m : Mode) (hp : Plain o m fs.noPack) (n : Name) (p : fs.Partial) :
    @decEntry h1 o env fs m n p = @decEntry h2 o env fs m n p := by
  cases fs with
  | nil => unfold decEntry; rw [fmt_hosts h1 h2]
  | cons n' d s t fs =>
    unfold decEntry
    unfold Fields.noPack at hp
    rw [t.decHosts m hp.left, fs.decHosts m hp.right]

theorem Fields.decPackHosts (fs : Fields) (hp : Plain o .packed fs.noPack) :
    @decPackFields h1 o env fs .packed = @decPackFields h2 o env fs .packed := by
  cases fs with
  | nil => rfl
  | cons n d s t fs =>
    unfold decPackFields
    unfold Fields.noPack at hp
    rw [t.decHosts .packed hp.left, fs.decPackHosts hp.right]

theorem Variants.decHosts (vs : Variants) (m : Mode) (hp : Plain o m vs.noPack) (n : Name) :
    @decVariants h1 o env vs m n = @decVariants h2 o env vs m n := by
  cases vs with
  | nil => rfl
  | cons n' t vs =>
    unfold decVariants
    unfold Variants.noPack at hp
    rw [t.decHosts m hp.left, vs.decHosts m hp.right]

end

end Musli
