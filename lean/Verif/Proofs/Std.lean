import Verif.Proofs.RoundTrip
import Verif.Spec.Std
/-!
# Proofs about types of the standard library
-/
set_option linter.unusedSectionVars false
namespace Musli.Std

section
variable [Host] {T : NetText} {o : Options} {env : Env}

theorem rt_text {α : Type} {tf : TextForm α} {F : Fmt} (hF : F.Lawful) {v w : α} {bs r : Bytes}
    (hp : tf.parse (tf.disp v) = some w) (h : encText tf F v = .ok bs) :
    decText tf F (bs ++ r) = .ok (w, r) := by
  unfold encText at h
  unfold decText
  rw [Dec.bind_ok (hF.str _ bs r h), Dec.bind_ok (ofExcept_ok (toStr_val _) r), hp]
  rfl

theorem rt_arr (hT : T.Lawful) {n : Nat} {tf : TextForm (Arr n)} (htf : ∀ a, tf.parse (tf.disp a) = some a)
    (f : Form) (m : Mode) {v : Arr n} {bs r : Bytes} (h : encArr o n tf f m v = .ok bs) :
    decArr o n tf f m (bs ++ r) = .ok (v, r) := by
  cases f with
  | binary =>
    simp only [encArr] at h
    simp only [decArr]
    have := (m.lawful o).arr v.1 bs r h
    rw [v.2] at this
    rw [Dec.bind_ok this]
    apply ofExcept_ok
    simp [toArray, v.2]
  | text => exact rt_text (m.lawful o) (htf v) h

theorem rt_via (t : Ty) (ht : t = u16 ∨ t = u32) {v : t.Val} {bs r : Bytes}
    (h : viaE o env t .packed v = .ok bs) : viaD o env t .packed (bs ++ r) = .ok (v, r) := by
  have := rtVia o env (t := t) (m := .packed) (tail := false)
    (by rcases ht with rfl | rfl <;> simp [Ty.bwE, Ty.bwD, Prim.bwD, Ty.ok])
    (fun h => rtD o env t .packed false h (by rcases ht with rfl | rfl <;> simp [Ty.envOk]))
  exact this v bs r h (by simp)

theorem rt_pack {α : Type} {F : Fmt} (hF : F.Lawful) {e : Enc} {d : Dec α} {v : α} {bs r : Bytes}
    (hd : ∀ b r, e = .ok b → d (b ++ r) = .ok (v, r)) (h : encPackOf F e = .ok bs) :
    F.decPack d (bs ++ r) = .ok (v, r) := by
  unfold encPackOf at h
  cases he : e with
  | error x => rw [he] at h; cases h
  | ok b =>
    have h : F.encPack b = .ok bs := by rw [he] at h; exact h
    cases hdl : F.delimited with
    | true =>
      have := hd b [] he
      rw [List.append_nil] at this
      exact hF.pack' hdl b bs r h d v [] this
    | false =>
      rw [hF.encPlain hdl] at h
      cases h
      rw [hF.decPlain hdl]
      exact hd _ r he

theorem rt_sock4 (hT : T.Lawful) (f : Form) (m : Mode) {v : SockV4} {bs r : Bytes}
    (h : encSockV4 T o env f m v = .ok bs) : decSockV4 T o env f m (bs ++ r) = .ok (v, r) := by
  cases f with
  | text => exact rt_text (m.lawful o) (hT.s4 v) h
  | binary =>
    refine rt_pack (m.lawful o) ?_ h
    intro b r hb
    obtain ⟨x, y, hx, hy, rfl⟩ := Enc.seq_eq_ok.mp hb
    rw [List.append_assoc, Dec.bind_ok (rt_arr hT hT.v4 .binary .packed hx),
      Dec.bind_ok (rt_via u16 (.inl rfl) hy)]
    rfl

theorem rt_sock6 (hT : T.Lawful) (f : Form) (m : Mode) {v : SockV6} {bs r : Bytes}
    (hv : f = .text → v.2.2.1 = 0#32)
    (h : encSockV6 T o env f m v = .ok bs) : decSockV6 T o env f m (bs ++ r) = .ok (v, r) := by
  cases f with
  | text =>
    obtain ⟨a, p, w, s⟩ := v
    have hw : w = 0#32 := hv rfl
    subst hw
    exact rt_text (m.lawful o) (hT.s6 a p 0#32 s) h
  | binary =>
    refine rt_pack (m.lawful o) ?_ h
    intro b r hb
    obtain ⟨x, y, hx, hy, rfl⟩ := Enc.seq_eq_ok.mp hb
    obtain ⟨y1, y2, y3, h1, h2, h3, rfl⟩ := seq3 hy
    rw [List.append_assoc, Dec.bind_ok (rt_arr hT hT.v6 .binary .packed hx), List.append_assoc,
      Dec.bind_ok (rt_via u16 (.inl rfl) h1), List.append_assoc,
      Dec.bind_ok (rt_via u32 (.inr rfl) h2), Dec.bind_ok (rt_via u32 (.inr rfl) h3)]
    rfl

theorem viaD_tuple (ts : Tys) (m : Mode) : viaD o env (.tuple ts) m = decD o env (.tuple ts) m := by
  simp [viaD, fastD, Ty.bwD]

theorem encD_tuple2 (t : Ty) (m : Mode) (a b : t.Val) :
    encD o env (.tuple (.cons t (.cons t .nil))) m (a, b, ()) =
      ((m.fmt o).encSeq 2 +> (viaE o env t m a +> viaE o env t m b)) := by
  simp only [encD, encTys, Tys.length, viaE]
  congr 1
  cases fastE ((m.fmt o).native && t.bwE) (t.rawE b) (encD o env t m b) with
  | error e => rfl
  | ok x => simp [Enc.seq]

theorem encD_tuple1 (t : Ty) (m : Mode) (a : t.Val) :
    encD o env (.tuple (.cons t .nil)) m (a, ()) = ((m.fmt o).encSeq 1 +> viaE o env t m a) := by
  simp only [encD, encTys, Tys.length, viaE]
  congr 1
  cases fastE ((m.fmt o).native && t.bwE) (t.rawE a) (encD o env t m a) with
  | error e => rfl
  | ok x => simp [Enc.seq]

omit [Host] in
theorem wide_units_bytes (l : List (BitVec 16)) : wideUnits (wideBytes l) = l := by
  induction l with
  | nil => rfl
  | cons w l ih =>
    have : wideBytes (w :: l) = w.setWidth 8 :: (w >>> 8).setWidth 8 :: wideBytes l := rfl
    rw [this, wideUnits, ih]
    congr 1
    ext i hi
    simp only [BitVec.getElem_or, BitVec.getElem_shiftLeft, BitVec.getElem_setWidth,
      BitVec.getLsbD_setWidth, BitVec.getLsbD_ushiftRight]
    by_cases h8 : i < 8
    · simp [h8, BitVec.getLsbD_eq_getElem hi]
    · have e : 8 + (i - 8) = i := by omega
      simp [h8, e, BitVec.getLsbD_eq_getElem hi]
      omega

omit [Host] in
theorem fromBytes_nul (v : { b : Bytes // 0#8 ∉ b }) : fromBytesWithNul (v.1 ++ [0#8]) = .ok v := by
  have h1 : (v.1 ++ [0#8]).dropLast = v.1 := by simp
  have h2 : (v.1 ++ [0#8]).getLast? = some 0#8 := by simp
  unfold fromBytesWithNul
  rw [dif_pos (by rw [h1]; exact v.2), if_pos h2]
  congr 1
  exact Subtype.ext h1

theorem rangeFull_unit (m : Mode) (hm : m.fast (Opt.isNativeFixed o) = false) {bs r : Bytes}
    (h : (m.fmt o).encSeq 0 = .ok bs) : (m.fmt o).decUnit (bs ++ r) = .ok ((), r) := by
  cases m with
  | storage => exact ((Mode.storage).lawful o).unit bs r h
  | packed => exact ((Mode.packed).lawful o).unit bs r h
  | wire => exact ((Mode.wire).lawful o).unit bs r h
  | descriptive =>
    have : bs = [Desc.tag Desc.SEQUENCE 0#8] := by
      have h' : Desc.encTagLen o Desc.SEQUENCE 0 = .ok bs := h
      simpa [Desc.encTagLen, eq_comm] using h'
    subst this
    show Desc.skip o ([Desc.tag Desc.SEQUENCE 0#8] ++ r) = .ok ((), r)
    unfold Desc.skip skipAny skipMany skipLoop
    rw [List.singleton_append, Dec.bind_ok (a := 0) (s' := r)]
    · rfl
    · unfold Desc.step
      rw [Dec.bind_ok (Dec.readByte_cons _ _)]
      rfl

theorem toNe_byte (a : BitVec 8) : Fixed.toNe (w := 8) a = [a] := by
  unfold Fixed.toNe
  cases Host.order <;> simp [Fixed.leBytes]

/-- On storage bytes are written like a sequence of `u8`. -/
theorem encBytes_vec (m : Mode) (hm : m = .storage ∨ m = .packed)
    (hh : Opt.isNativeFixed o = true → hostOrder o = true) (v : Bytes) :
    (m.fmt o).encBytes v = encD o env (.vec (.prim (.uint .w8))) m v := by
  have hall : ∀ l : Bytes, Enc.all (fun (x : BitVec 8) => (.ok [x] : Enc)) l = .ok l := by
    intro l
    induction l with
    | nil => rfl
    | cons a l ih => simp [Enc.all, ih, Enc.seq]
  have hraw : ∀ l : Bytes, l.flatMap (fun x : BitVec 8 => Fixed.toNe (w := 8) x) = l := by
    intro l
    induction l with
    | nil => rfl
    | cons a l ih => rw [List.flatMap_cons, ih, toNe_byte]; rfl
  have hbytes : (m.fmt o).encBytes v = (encLen o v.length +> .ok v) := by
    rcases hm with rfl | rfl <;> rfl
  rw [hbytes]
  simp only [encD, Ty.bwE, Bool.and_true, native_fmt]
  cases hf : m.fast (Opt.isNativeFixed o) with
  | true =>
    obtain ⟨hn, _⟩ := native_storage o hf
    rw [encLen_ne o hn (hh hn), if_pos rfl]
    exact congrArg (fun l : Bytes => neLen v.length +> (.ok l : Enc)) (hraw v).symm
  | false =>
    simp only [Bool.false_eq_true, if_false]
    have e : (fun (x : BitVec 8) => (m.fmt o).encPrim (.uint .w8) x) = fun x => (.ok [x] : Enc) := by
      rcases hm with rfl | rfl <;> rfl
    have e2 : (m.fmt o).encSeq v.length = encLen o v.length := by rcases hm with rfl | rfl <;> rfl
    have e3 : (encLen o v.length +> .ok v) =
        ((m.fmt o).encSeq v.length +> Enc.all (fun (x : BitVec 8) => (m.fmt o).encPrim (.uint .w8) x) v) := by
      rw [e2, e, hall]
    exact e3

theorem tag_ty (f : Form) (b : Bool) : (ipTag f b).ty = f.names ∧ (sockTag f b).ty = f.names ∧
    (platformTag f b).ty = f.names := by
  cases f <;> cases b <;> decide

theorem tag_ne (f : Form) : ipTag f false ≠ ipTag f true ∧ sockTag f false ≠ sockTag f true ∧
    platformTag f false ≠ platformTag f true := by
  cases f <;> decide

theorem rt_tagged {α : Type} (m : Mode) (f : Form) (n : Name) (hn : n.ty = f.names) {e : Enc}
    {k : Name → Dec α} {v : α} {bs r : Bytes}
    (hk : ∀ b r, e = .ok b → k n (b ++ r) = .ok (v, r))
    (h : ((m.fmt o).encVariant +> encName (m.fmt o) n +> e) = .ok bs) :
    (do let _ ← (m.fmt o).decVariant
        let n ← decName (m.fmt o) f.names
        k n) (bs ++ r) = .ok (v, r) := by
  obtain ⟨x, y, z, hx, hy, hz, rfl⟩ := seq3 h
  rw [List.append_assoc, Dec.bind_ok ((m.lawful o).variant x _ hx), List.append_assoc]
  have := decName_encName (m.lawful o) n y (z ++ r) hy
  rw [hn] at this
  rw [Dec.bind_ok this]
  exact hk z r hz

theorem rt_std (hT : T.Lawful) : ∀ (s : StdTy) (m : Mode), s.ok o m = true → s.envOk env →
    ∀ (v : s.Val), s.valOk v → ∀ (bs r : Bytes), encStd T o env s m v = .ok bs →
      decStd T o env s m (bs ++ r) = .ok (v, r) := by
  intro s m hok henv v hv bs r h
  cases s with
  | ipv4 f => exact rt_arr hT hT.v4 f m h
  | ipv6 f => exact rt_arr hT hT.v6 f m h
  | ipAddr f =>
    cases v with
    | inl a =>
      refine rt_tagged (k := fun n => _) m f (ipTag f true) (tag_ty f true).1 ?_ h
      intro b r hb
      simp only [if_true]
      rw [Dec.bind_ok (rt_arr hT hT.v4 f m hb)]; rfl
    | inr a =>
      refine rt_tagged (k := fun n => _) m f (ipTag f false) (tag_ty f false).1 ?_ h
      intro b r hb
      simp only [if_neg (tag_ne f).1, if_true]
      rw [Dec.bind_ok (rt_arr hT hT.v6 f m hb)]; rfl
  | sockV4 f => exact rt_sock4 hT f m h
  | sockV6 f =>
    refine rt_sock6 hT f m ?_ h
    intro hf; subst hf; exact hv
  | sockAddr f =>
    cases v with
    | inl a =>
      refine rt_tagged (k := fun n => _) m f (sockTag f true) (tag_ty f true).2.1 ?_ h
      intro b r hb
      simp only [if_true]
      rw [Dec.bind_ok (rt_sock4 hT f m hb)]; rfl
    | inr a =>
      refine rt_tagged (k := fun n => _) m f (sockTag f false) (tag_ty f false).2.1 ?_ h
      intro b r hb
      simp only [if_neg (tag_ne f).2.1, if_true]
      rw [Dec.bind_ok (rt_sock6 hT f m (by intro hf; subst hf; exact hv) hb)]; rfl
  | range t =>
    obtain ⟨a, b⟩ := v
    simp only [encStd] at h
    rw [← encD_tuple2] at h
    simp only [decStd, viaD_tuple]
    rw [Dec.bind_ok (rtD o env _ m false hok (by simpa [Ty.envOk, Tys.envOk, StdTy.envOk] using henv) _ bs r h (by simp))]
    rfl
  | rangeInclusive t =>
    obtain ⟨a, b, x⟩ := v
    have hx : x = false := hv
    subst hx
    simp only [encStd] at h
    rw [← encD_tuple2] at h
    simp only [decStd, viaD_tuple]
    rw [Dec.bind_ok (rtD o env _ m false hok (by simpa [Ty.envOk, Tys.envOk, StdTy.envOk] using henv) _ bs r h (by simp))]
    rfl
  | rangeFrom t =>
    simp only [encStd] at h
    rw [← encD_tuple1] at h
    simp only [decStd, viaD_tuple]
    rw [Dec.bind_ok (rtD o env _ m false hok (by simpa [Ty.envOk, Tys.envOk, StdTy.envOk] using henv) _ bs r h (by simp))]
    rfl
  | rangeTo t =>
    simp only [encStd] at h
    rw [← encD_tuple1] at h
    simp only [decStd, viaD_tuple]
    rw [Dec.bind_ok (rtD o env _ m false hok (by simpa [Ty.envOk, Tys.envOk, StdTy.envOk] using henv) _ bs r h (by simp))]
    rfl
  | rangeToInclusive t =>
    simp only [encStd] at h
    rw [← encD_tuple1] at h
    simp only [decStd, viaD_tuple]
    rw [Dec.bind_ok (rtD o env _ m false hok (by simpa [Ty.envOk, Tys.envOk, StdTy.envOk] using henv) _ bs r h (by simp))]
    rfl
  | rangeFull =>
    have hm : m.fast (Opt.isNativeFixed o) = false := by simpa [StdTy.ok] using hok
    simp only [encStd] at h
    simp only [decStd, viaD, fastD, native_fmt, hm, Bool.false_and, Bool.false_eq_true, if_false, decD]
    exact rangeFull_unit m hm h
  | cstring =>
    simp only [encStd] at h
    simp only [decStd]
    rw [Dec.bind_ok ((m.lawful o).bytes _ bs r h)]
    exact ofExcept_ok (fromBytes_nul v) r
  | unixPath f =>
    simp only [StdTy.ok, Bool.and_eq_true, Bool.or_eq_true, beq_iff_eq, Bool.not_eq_true'] at hok
    have hh : Opt.isNativeFixed o = true → hostOrder o = true := by
      intro hn
      rcases hok.2 with h | h
      · rw [hn] at h; cases h
      · exact h
    refine rt_tagged (k := fun n => _) m f (platformTag f true) (tag_ty f true).2.2 ?_ h
    intro b r hb
    rw [encBytes_vec (env := env) m hok.1 hh] at hb
    simp only [if_true]
    have e : viaD o env (.vec (.prim (.uint .w8))) m = decD o env (.vec (.prim (.uint .w8))) m := by
      simp [viaD, fastD, Ty.bwD]
    unfold decByteVec
    have h2 := rtD o env (.vec (.prim (.uint .w8))) m false ?_ (by simp [Ty.envOk]) v b r hb (by simp)
    · rw [← e] at h2; exact h2
    simp [Ty.ok, Ty.bwE, Ty.bwD, Prim.bwD]
  | windowsPath f =>
    refine rt_tagged (k := fun n => _) m f (platformTag f false) (tag_ty f false).2.2 ?_ h
    intro b r hb
    simp only [if_neg (tag_ne f).2.2, if_true]
    rw [Dec.bind_ok ((m.lawful o).bytes _ b r hb), wide_units_bytes]
    rfl

/-! ### Where they do not -/

theorem wire_bytes_tag {v bs : Bytes} (h : ((Mode.wire).fmt o).encBytes v = .ok bs) :
    ∃ t l, bs = t :: l ∧ Wire.kind t = Wire.PREFIX := by
  have h' : (Wire.encTagLen o Wire.PREFIX v.length +> .ok v) = .ok bs := h
  obtain ⟨x, y, hx, hy, rfl⟩ := Enc.seq_eq_ok.mp h'
  unfold Wire.encTagLen at hx
  split at hx
  · rename_i hlt
    cases hx
    refine ⟨_, _, rfl, ?_⟩
    have : ∀ n : Nat, n < 63 → Wire.kind (Wire.tag Wire.PREFIX (BitVec.ofNat 8 n)) = Wire.PREFIX := by
      decide +kernel
    exact this _ hlt
  · obtain ⟨a, b, ha, hb, rfl⟩ := Enc.seq_eq_ok.mp hx
    cases ha
    exact ⟨_, _, rfl, by decide⟩

theorem desc_bytes_tag {v bs : Bytes} (h : ((Mode.descriptive).fmt o).encBytes v = .ok bs) :
    ∃ t l, bs = t :: l ∧ Desc.kind t = Desc.BYTES := by
  have h' : (Desc.encTagLen o Desc.BYTES v.length +> .ok v) = .ok bs := h
  obtain ⟨x, y, hx, hy, rfl⟩ := Enc.seq_eq_ok.mp h'
  unfold Desc.encTagLen at hx
  split at hx
  · rename_i hlt
    cases hx
    refine ⟨_, _, rfl, ?_⟩
    have : ∀ n : Nat, n < 31 → Desc.kind (Desc.tag Desc.BYTES (BitVec.ofNat 8 n)) = Desc.BYTES := by
      decide +kernel
    exact this _ hlt
  · obtain ⟨a, b, ha, hb, rfl⟩ := Enc.seq_eq_ok.mp hx
    cases ha
    exact ⟨_, _, rfl, by decide⟩

/-- Bytes are not a sequence in wire and descriptive. -/
theorem byteVec_fails (m : Mode) (hm : m = .wire ∨ m = .descriptive) {v bs : Bytes}
    (h : (m.fmt o).encBytes v = .ok bs) (r : Bytes) :
    ∃ e, decByteVec o env m (bs ++ r) = .error e := by
  have hseq : ∃ e, (m.fmt o).decSeq (bs ++ r) = .error e := by
    rcases hm with rfl | rfl
    · obtain ⟨t, l, rfl, ht⟩ := wire_bytes_tag h
      show ∃ e, Wire.decTagLen o Wire.SEQUENCE (t :: (l ++ r)) = .error e
      unfold Wire.decTagLen
      rw [Dec.bind_ok (Dec.readByte_cons _ _), if_neg (by rw [ht]; decide)]
      exact ⟨_, rfl⟩
    · obtain ⟨t, l, rfl, ht⟩ := desc_bytes_tag h
      show ∃ e, Desc.decTagLen o Desc.SEQUENCE (t :: (l ++ r)) = .error e
      unfold Desc.decTagLen
      rw [Dec.bind_ok (Dec.readByte_cons _ _), if_neg (by rw [ht]; decide)]
      exact ⟨_, rfl⟩
  obtain ⟨e, he⟩ := hseq
  have e1 : decByteVec o env m = decD o env (.vec (.prim (.uint .w8))) m := by
    simp [decByteVec, viaD, fastD, Ty.bwD]
    rfl
  have hn : (m.fmt o).native = false := by rcases hm with rfl | rfl <;> rfl
  refine ⟨e, ?_⟩
  rw [e1]
  show decD o env (.vec (.prim (.uint .w8))) m (bs ++ r) = .error e
  simp only [decD, hn, Bool.false_and, Bool.false_eq_true, if_false]
  exact Dec.bind_error he

/-- A path cannot be decoded in wire and descriptive. -/
theorem path_fails (m : Mode) (hm : m = .wire ∨ m = .descriptive) (f : Form) (v : Bytes)
    {bs : Bytes} (h : encStd T o env (.unixPath f) m v = .ok bs) (r : Bytes) :
    ∃ e, decStd T o env (.unixPath f) m (bs ++ r) = .error e := by
  obtain ⟨x, y, z, hx, hy, hz, rfl⟩ := seq3 h
  obtain ⟨e, he⟩ := byteVec_fails (env := env) m hm hz r
  refine ⟨e, ?_⟩
  simp only [decStd]
  rw [List.append_assoc, Dec.bind_ok ((m.lawful o).variant x _ hx), List.append_assoc]
  have := decName_encName (m.lawful o) _ y (z ++ r) hy
  rw [(tag_ty f true).2.2] at this
  rw [Dec.bind_ok this, if_pos rfl]
  exact he

/-- A path of the other platform is refused. -/
theorem platform_fails (m : Mode) (f : Form) (bs r : Bytes) :
    (∀ v, encStd T o env (.windowsPath f) m v = .ok bs →
      decStd T o env (.unixPath f) m (bs ++ r) = .error .invalid) ∧
    (∀ v, encStd T o env (.unixPath f) m v = .ok bs →
      decStd T o env (.windowsPath f) m (bs ++ r) = .error .invalid) := by
  constructor
  · intro v h
    obtain ⟨x, y, z, hx, hy, hz, rfl⟩ := seq3 h
    simp only [decStd]
    rw [List.append_assoc, Dec.bind_ok ((m.lawful o).variant x _ hx), List.append_assoc]
    have := decName_encName (m.lawful o) _ y (z ++ r) hy
    rw [(tag_ty f false).2.2] at this
    rw [Dec.bind_ok this, if_neg (tag_ne f).2.2, if_pos rfl]
    rfl
  · intro v h
    obtain ⟨x, y, z, hx, hy, hz, rfl⟩ := seq3 h
    simp only [decStd]
    rw [List.append_assoc, Dec.bind_ok ((m.lawful o).variant x _ hx), List.append_assoc]
    have := decName_encName (m.lawful o) _ y (z ++ r) hy
    rw [(tag_ty f true).2.2] at this
    rw [Dec.bind_ok this, if_pos rfl]
    rfl

end

end Musli.Std
