import Verif.Proofs.Value.JsonAny
import Verif.Proofs.Value.Ints
/-!
# Decoding a type from a buffered JSON document
-/
set_option linter.unusedSectionVars false
namespace Musli.Json
open Musli Spec

/-! ## Integers -/

theorem narrowest_fits {neg : Bool} {n : Nat} (h : (Doc.num neg n).small) :
    Fits neg n (narrowest neg n) := by
  unfold narrowest
  split
  · assumption
  · split
    · assumption
    · split
      · assumption
      · split
        · assumption
        · simp only [Doc.small] at h
          unfold Fits
          exact h

theorem fromNumber_toNumber (k : IntKind) {neg : Bool} {n : Nat} (h : (Doc.num neg n).small) :
    fromNumber k (toNumber neg n) = tryFromInt k (signedValue neg n) := by
  have hf := narrowest_fits h
  cases neg with
  | false =>
    rw [toNumber_u rfl]
    show tryFromInt k ((BitVec.ofNat _ n).toNat : Int) = tryFromInt k (n : Int)
    simp only [Fits, Bool.false_eq_true, if_false] at hf
    rw [BitVec.toNat_ofNat, Nat.mod_eq_of_lt hf]
  | true =>
    rw [toNumber_s rfl]
    show tryFromInt k (BitVec.ofInt _ (-(n : Int))).toInt = tryFromInt k (-(n : Int))
    simp only [Fits, if_true] at hf
    generalize narrowest true n = w at *
    have hw := IW.bits_pos w
    have e : ((2 ^ (w.bits - 1) : Nat) : Int) = 2 ^ (w.bits - 1) := by simp
    have hp := Nat.two_pow_pos (w.bits - 1)
    rw [BitVec.toInt_ofInt_eq_self hw (by omega) (by omega)]

theorem intTy_fits (t : IntTy) (v : t.prim.Val) : t.fits (t.toInt v) := by
  cases t with
  | uint w =>
    have := BitVec.isLt (w := w.bits) v
    have e : ((2 ^ w.bits : Nat) : Int) = 2 ^ w.bits := by simp
    show (0 : Int) ≤ (BitVec.toNat (w := w.bits) v : Int) ∧ (BitVec.toNat (w := w.bits) v : Int) < 2 ^ w.bits
    omega
  | usize =>
    have := BitVec.isLt (w := 64) v
    show (0 : Int) ≤ (BitVec.toNat (w := 64) v : Int) ∧ (BitVec.toNat (w := 64) v : Int) < 2 ^ 64
    omega
  | sint w => exact ⟨BitVec.le_toInt (w := w.bits) v, BitVec.toInt_lt (w := w.bits)⟩
  | isize => exact ⟨BitVec.le_toInt (w := 64) v, BitVec.toInt_lt (w := 64)⟩

theorem intTy_inj (t : IntTy) (u v : t.prim.Val) (h : t.toInt u = t.toInt v) : u = v := by
  cases t with
  | uint w =>
    have h : ((BitVec.toNat (w := w.bits) u : Nat) : Int) = (BitVec.toNat (w := w.bits) v : Nat) := h
    exact BitVec.eq_of_toNat_eq (by omega)
  | usize =>
    have h : ((BitVec.toNat (w := 64) u : Nat) : Int) = (BitVec.toNat (w := 64) v : Nat) := h
    exact BitVec.eq_of_toNat_eq (by omega)
  | sint w => exact BitVec.eq_of_toInt_eq h
  | isize => exact BitVec.eq_of_toInt_eq h

theorem primInt_intTy {p : Prim} {v : p.Val} {i : Int} (h : primInt p v = some i) :
    ∃ (t : IntTy) (e : t.prim = p), t.toInt (e ▸ v) = i := by
  cases p with
  | uint w => cases h; exact ⟨.uint w, rfl, rfl⟩
  | sint w => cases h; exact ⟨.sint w, rfl, rfl⟩
  | usize => cases h; exact ⟨.usize, rfl, rfl⟩
  | isize => cases h; exact ⟨.isize, rfl, rfl⟩
  | bool => cases h
  | char => cases h
  | f32 => cases h
  | f64 => cases h

theorem readPrim_of {o : Options} {key : Bool} {p : Prim} {v : p.Val} {i : Int} {x : Value} {e : Err}
    (h : primInt p v = some i)
    (hr : ∀ t : IntTy, readInt o key t.kind x = match tryFromInt t.kind i with
      | some i => .ok i
      | none => .error e) : readPrim o key p x = .ok v := by
  obtain ⟨t, rfl, ht⟩ := primInt_intTy h
  obtain ⟨u, h1, h2⟩ := (readPrim_int o key t x i e (hr t)).1 (ht ▸ intTy_fits t v)
  rw [h1, intTy_inj t u v (h2.trans ht.symm)]

theorem readPrim_doc {o : Options} {key : Bool} {p : Prim} {v : p.Val} {d : Doc} (hs : d.small)
    (h : PrimDoc p v d) : readPrim o key p d.toValue = .ok v := by
  obtain ⟨i, hi, neg, n, rfl, hn⟩ := h
  refine readPrim_of (e := .overflow) hi fun t => ?_
  simp only [Doc.toValue, readInt, fromNumber_toNumber t.kind hs, hn]
  cases tryFromInt t.kind i <;> rfl

theorem numeral_digits {num : Bytes} (h : Numeral num) : Digits num ∧ num ≠ [] := by
  rcases h with rfl | ⟨b, r, rfl, h1, h2, h3⟩
  · refine ⟨?_, by simp⟩
    intro b hb
    rw [List.mem_singleton] at hb
    subst hb
    unfold Digit; decide
  · refine ⟨?_, by simp⟩
    intro c hc
    rcases List.mem_cons.1 hc with rfl | hc
    · unfold Digit; omega
    · exact h3 c hc

theorem readPrim_key {o : Options} (ho : Opt.isMapKeysAsNumbers o = true) {p : Prim} {v : p.Val}
    {k : Str} (h : PrimKeyDoc p v k) : readPrim o true p (.string k) = .ok v := by
  obtain ⟨i, hi, num, hn, hv, hk⟩ := h
  obtain ⟨hd, hne⟩ := numeral_digits hn
  refine readPrim_of (e := .invalid) hi fun t => ?_
  rw [readInt_key o ho t _ hd hne (by intro h; have := of_decide_eq_true h; omega) k hk]
  have : signedValue (decide (i < 0)) (value num) = i := by
    unfold signedValue
    rw [hv]
    by_cases hi : i < 0
    · simp only [hi, decide_true, if_true]; omega
    · simp only [hi, decide_false, Bool.false_eq_true, if_false]; omega
  rw [this]
  cases tryFromInt t.kind i <;> rfl

theorem readName_doc {o : Options} {key : Bool} {n : Name} {d : Doc} (hs : d.small)
    (h : NameDoc n d) : readName o key n.ty d.toValue = .ok n := by
  cases n with
  | idx n =>
    show (readPrim o key .usize d.toValue >>= fun n => pure (Name.idx n)) = _
    rw [ebind_ok (readPrim_doc hs (p := .usize) (v := n) ⟨_, rfl, h⟩)]
    rfl
  | str s =>
    have h : d = .str s := h
    subst h
    rfl

theorem readName_key {o : Options} (ho : Opt.isMapKeysAsNumbers o = true) {n : Name} {k : Str}
    (h : NameKeyDoc n k) : readName o true n.ty (.string k) = .ok n := by
  cases n with
  | idx n =>
    show (readPrim o true .usize (.string k) >>= fun n => pure (Name.idx n)) = _
    rw [ebind_ok (readPrim_key ho (p := .usize) (v := n) ⟨_, rfl, h⟩)]
    rfl
  | str s =>
    have h : k = s := h
    subst h
    rfl

/-! ## Lists -/

theorem smalls_iff : ∀ l : List Doc, smalls l ↔ ∀ d ∈ l, d.small
  | [] => by simp [smalls]
  | d :: l => by simp [smalls, smalls_iff l]

theorem smallMembers_iff : ∀ l : List (Str × Doc), smallMembers l ↔ ∀ m ∈ l, m.2.small
  | [] => by simp [smallMembers]
  | (k, d) :: l => by simp [smallMembers, smallMember, smallMembers_iff l]

theorem readAll_rel {α : Type} {r : α → Doc → Prop} {dec : Value → Except Err α}
    (h : ∀ a d, d.small → r a d → dec d.toValue = .ok a) : ∀ (l : List α) (m : List Doc),
    smalls m → AllRel r l m → readAll dec (toValues m) = .ok l
  | [], [], _, _ => by simp only [toValues, readAll]
  | [], _ :: _, _, h => absurd h (by simp [AllRel])
  | _ :: _, [], _, h => absurd h (by simp [AllRel])
  | a :: l, d :: m, hs, hr => by
    simp only [smalls] at hs
    simp only [AllRel] at hr
    simp only [toValues, readAll]
    rw [ebind_ok (h a d hs.1 hr.1), ebind_ok (readAll_rel h l m hs.2 hr.2)]
    rfl

theorem readPairs_rel {α β : Type} {r : α × β → Str × Doc → Prop} {f : Value → Except Err α}
    {g : Value → Except Err β}
    (h : ∀ a m, m.2.small → r a m → f (.string m.1) = .ok a.1 ∧ g m.2.toValue = .ok a.2) :
    ∀ (l : List (α × β)) (m : List (Str × Doc)), smallMembers m → AllRel r l m →
      readPairs f g (toPairs m) = .ok l
  | [], [], _, _ => by simp only [toPairs, readPairs]
  | [], _ :: _, _, h => absurd h (by simp [AllRel])
  | _ :: _, [], _, h => absurd h (by simp [AllRel])
  | a :: l, (k, d) :: m, hs, hr => by
    simp only [smallMembers, smallMember] at hs
    simp only [AllRel] at hr
    obtain ⟨h1, h2⟩ := h a (k, d) hs.1 hr.1
    simp only [toPairs, toPair, readPairs]
    rw [ebind_ok h1, ebind_ok h2, ebind_ok (readPairs_rel h l m hs.2 hr.2)]
    rfl

theorem foldPairs_rel {σ ε : Type} {body : σ → Value × Value → Except Err σ} {next : σ → ε → σ}
    {r : ε → Str × Doc → Prop} : ∀ (es : List ε) (m : List (Str × Doc)),
    (∀ e ∈ es, ∀ m st, m.2.small → r e m → body st (.string m.1, m.2.toValue) = .ok (next st e)) →
    smallMembers m → AllRel r es m → ∀ st, foldPairs body (toPairs m) st = .ok (es.foldl next st)
  | [], [], _, _, _, st => by simp only [toPairs, foldPairs, List.foldl_nil]
  | [], _ :: _, _, _, h, _ => absurd h (by simp [AllRel])
  | _ :: _, [], _, _, h, _ => absurd h (by simp [AllRel])
  | e :: es, (k, d) :: m, h, hs, hr, st => by
    simp only [smallMembers, smallMember] at hs
    simp only [AllRel] at hr
    simp only [toPairs, toPair, foldPairs, List.foldl_cons]
    rw [ebind_ok (h e (by simp) (k, d) st hs.1 hr.1)]
    exact foldPairs_rel es m (fun e he => h e (by simp [he])) hs.2 hr.2 _

theorem smalls_append {l m : List Doc} (h : smalls (l ++ m)) : smalls l := by
  rw [smalls_iff] at h ⊢
  exact fun d hd => h d (by simp [hd])

theorem toValues_append (l m : List Doc) : toValues (l ++ m) = toValues l ++ toValues m := by
  simp [toValues_eq]

/-! ## Types -/

section
variable [Host] {o : Options} (ho : Opt.isMapKeysAsNumbers o = true) (env : Env)

theorem decEntryV_unknown : ∀ (fs : Fields) (n : Name), n ∉ fs.names → ∀ (x : Value) (p : fs.Partial),
    decEntryV o env fs n x p = .ok p
  | .nil, _, _, _, _ => by simp only [decEntryV]
  | .cons m d s t fs, n, hn, x, p => by
    simp only [Fields.names, List.mem_cons, not_or] at hn
    rw [decEntryV, if_neg (fun h => hn.1 h.symm), ebind_ok (decEntryV_unknown fs n hn.2 x p.2)]
    rfl

include ho

theorem decV_key : ∀ (t : Ty), t.jsonNames = true → ∀ (v : t.Val) (k : Str), KeyDoc t v k →
    decV o env t true (.string k) = .ok v
  | .prim p, _, v, k, h => by simp only [KeyDoc] at h; simp only [decV]; exact readPrim_key ho h
  | .nonZero s w, _, v, k, h => by
    simp only [KeyDoc] at h
    simp only [decV]
    rw [ebind_ok (readPrim_key ho h), nonZeroUnraw_raw, toNonZero_val]
  | .string, _, v, k, h => by
    simp only [KeyDoc] at h
    subst h
    simp only [decV]; rfl
  | .boxed t, hn, v, k, h => by
    simp only [KeyDoc] at h
    simp only [decV]
    exact decV_key t (by simpa only [Ty.jsonNames] using hn) v k h
  | .wrapping t, hn, v, k, h => by
    simp only [KeyDoc] at h
    simp only [decV]
    exact decV_key t (by simpa only [Ty.jsonNames] using hn) v k h
  | .transparent t, hn, v, k, h => by
    simp only [KeyDoc] at h
    simp only [decV]
    exact decV_key t (by simpa only [Ty.jsonNames] using hn) v k h
  | .unitEnum nt names, hn, v, k, h => by
    simp only [KeyDoc] at h
    simp only [Ty.jsonNames] at hn
    have hnames := namesOk_iff hn
    have := readName_key ho h
    rw [hnames.2 _ (by simp)] at this
    simp only [decV]
    rw [ebind_ok this, findName_get names hnames.1 v]
    rfl
  | .unit, _, _, _, h => absurd h id
  | .bytes, _, _, _, h => absurd h id
  | .byteArray _, _, _, _, h => absurd h id
  | .option _, _, _, _, h => absurd h id
  | .array _ _, _, _, _, h => absurd h id
  | .vec _, _, _, _, h => absurd h id
  | .set _, _, _, _, h => absurd h id
  | .map _ _, _, _, _, h => absurd h id
  | .tuple _, _, _, _, h => absurd h id
  | .result _ _ _, _, _, _, h => absurd h id
  | .unitStruct, _, _, _, h => absurd h id
  | .strct _ _, _, _, _, h => absurd h id
  | .packed _ _, _, _, _, h => absurd h id
  | .enm _ _, _, _, _, h => absurd h id

mutual

theorem decV_doc : ∀ (t : Ty), t.jsonNames = true → ∀ (key : Bool) (v : t.Val) (d : Doc), d.small →
    DocOf env t v d → decV o env t key d.toValue = .ok v
  | .prim p, _, key, v, d, hs, h => by
    simp only [decV]
    cases p with
    | bool =>
      simp only [DocOf] at h
      subst h
      simp only [Doc.toValue]
      rfl
    | uint w => simp only [DocOf] at h; exact readPrim_doc hs h
    | sint w => simp only [DocOf] at h; exact readPrim_doc hs h
    | usize => simp only [DocOf] at h; exact readPrim_doc hs h
    | isize => simp only [DocOf] at h; exact readPrim_doc hs h
    | char => simp only [DocOf] at h; exact readPrim_doc hs h
    | f32 => simp only [DocOf] at h; exact readPrim_doc hs h
    | f64 => simp only [DocOf] at h; exact readPrim_doc hs h
  | .nonZero s w, _, key, v, d, hs, h => by
    simp only [DocOf] at h
    simp only [decV]
    rw [ebind_ok (readPrim_doc hs h), nonZeroUnraw_raw, toNonZero_val]
  | .unit, _, key, v, d, hs, h => by
    simp only [DocOf] at h
    subst h
    simp only [decV, Doc.toValue]; rfl
  | .string, _, key, v, d, hs, h => by
    simp only [DocOf] at h
    subst h
    simp only [decV, Doc.toValue]; rfl
  | .array n t, hn, key, v, d, hs, h => by
    simp only [DocOf] at h
    obtain ⟨l, rfl, h⟩ := h
    simp only [Doc.small] at hs
    simp only [decV, Doc.toValue]
    rw [ebind_ok (readSeq_seq _), ebind_ok (readAll_rel
      (fun a d hs h => decV_doc t (by simpa only [Ty.jsonNames] using hn) false a d hs h) v.1 l hs h),
      toArray_val]
  | .vec t, hn, key, v, d, hs, h => by
    simp only [DocOf] at h
    obtain ⟨l, rfl, h⟩ := h
    simp only [Doc.small] at hs
    simp only [decV, Doc.toValue]
    rw [ebind_ok (readSeq_seq _)]
    exact readAll_rel
      (fun a d hs h => decV_doc t (by simpa only [Ty.jsonNames] using hn) false a d hs h) v l hs h
  | .set t, hn, key, v, d, hs, h => by
    simp only [DocOf] at h
    obtain ⟨l, rfl, h⟩ := h
    simp only [Doc.small] at hs
    simp only [decV, Doc.toValue]
    rw [ebind_ok (readSeq_seq _)]
    exact readAll_rel
      (fun a d hs h => decV_doc t (by simpa only [Ty.jsonNames] using hn) false a d hs h) v l hs h
  | .map k t, hn, key, v, d, hs, h => by
    simp only [DocOf] at h
    obtain ⟨l, rfl, h⟩ := h
    simp only [Doc.small] at hs
    simp only [Ty.jsonNames, Bool.and_eq_true] at hn
    simp only [decV, Doc.toValue]
    rw [ebind_ok (readMap_map _)]
    exact readPairs_rel (fun a m hs h => ⟨decV_key ho env k hn.1 a.1 m.1 h.1,
      decV_doc t hn.2 false a.2 m.2 hs h.2⟩) v l hs h
  | .tuple ts, hn, key, v, d, hs, h => by
    simp only [DocOf] at h
    obtain ⟨l, m, rfl, h⟩ := h
    simp only [Doc.small] at hs
    simp only [Ty.jsonNames] at hn
    simp only [decV, Doc.toValue]
    rw [ebind_ok (readSeq_seq _), toValues_append]
    exact decTysV_doc ts hn v l (toValues m) (smalls_append hs) h
  | .boxed t, hn, key, v, d, hs, h => by
    simp only [DocOf] at h
    simp only [decV]
    exact decV_doc t (by simpa only [Ty.jsonNames] using hn) key v d hs h
  | .wrapping t, hn, key, v, d, hs, h => by
    simp only [DocOf] at h
    simp only [decV]
    exact decV_doc t (by simpa only [Ty.jsonNames] using hn) key v d hs h
  | .transparent t, hn, key, v, d, hs, h => by
    simp only [DocOf] at h
    simp only [decV]
    exact decV_doc t (by simpa only [Ty.jsonNames] using hn) key v d hs h
  | .unitStruct, _, key, v, d, hs, h => by
    simp only [DocOf] at h
    obtain ⟨l, rfl⟩ := h
    simp only [decV, Doc.toValue]; rfl
  | .strct nt fs, hn, key, v, d, hs, h => by
    simp only [DocOf] at h
    obtain ⟨es, l, rfl, hu, ha, h⟩ := h
    simp only [Doc.small] at hs
    simp only [Ty.jsonNames, Bool.and_eq_true] at hn
    obtain ⟨hnd, hty⟩ := namesOk_iff hn.1
    simp only [decV, Doc.toValue]
    rw [ebind_ok (readMap_map _), ebind_ok (foldPairs_rel (next := fs.setAny (β := Name)) es l ?_ hs h fs.none),
      foldl_known, finish_assemble, ha]
    intro e he m st hs hr
    cases e with
    | inl f =>
      simp only [EntryDoc] at hr
      have hk := readName_key ho hr.1
      rw [hty _ (keyOf_mem fs f)] at hk
      show (readName o true nt (.string m.1) >>= fun n => decEntryV o env fs n m.2.toValue st) = _
      rw [ebind_ok hk]
      exact decEntryV_doc fs hn.2 hnd f st m.2 hs hr.2
    | inr n =>
      simp only [EntryDoc] at hr
      have hk := readName_key ho hr
      rw [(hu n he).2] at hk
      show (readName o true nt (.string m.1) >>= fun n => decEntryV o env fs n m.2.toValue st) = _
      rw [ebind_ok hk]
      exact decEntryV_unknown env fs n (hu n he).1 _ st
  | .unitEnum nt names, hn, key, v, d, hs, h => by
    simp only [DocOf] at h
    simp only [Ty.jsonNames] at hn
    have hnames := namesOk_iff hn
    have := readName_doc (o := o) (key := key) hs h
    rw [hnames.2 _ (by simp)] at this
    simp only [decV]
    rw [ebind_ok this, findName_get names hnames.1 v]
    rfl
  | .bytes, _, _, _, _, _, h => by simp only [DocOf] at h
  | .byteArray _, _, _, _, _, _, h => by simp only [DocOf] at h
  | .option _, _, _, _, _, _, h => by simp only [DocOf] at h
  | .result _ _ _, _, _, _, _, _, h => by simp only [DocOf] at h
  | .packed _ _, _, _, _, _, _, h => by simp only [DocOf] at h
  | .enm _ _, _, _, _, _, _, h => by simp only [DocOf] at h

theorem decTysV_doc : ∀ (ts : Tys), ts.jsonNames = true → ∀ (v : ts.Val) (l : List Doc)
    (m : List Value), smalls l → tysDoc env ts v l → decTysV o env ts (toValues l ++ m) = .ok v
  | .nil, _, v, l, m, _, _ => by simp only [decTysV]
  | .cons t ts, hn, v, l, m, hs, h => by
    simp only [tysDoc] at h
    obtain ⟨d, r, rfl, h1, h2⟩ := h
    simp only [smalls] at hs
    simp only [Tys.jsonNames, Bool.and_eq_true] at hn
    simp only [toValues, List.cons_append, decTysV]
    rw [ebind_ok (decV_doc t hn.1 false v.1 d hs.1 h1),
      ebind_ok (decTysV_doc ts hn.2 v.2 r m hs.2 h2)]
    rfl

theorem decEntryV_doc : ∀ (fs : Fields), fs.jsonNames = true → fs.names.Nodup →
    ∀ (k : fs.Known) (p : fs.Partial) (d : Doc), d.small → knownDoc env fs k d →
      decEntryV o env fs (fs.keyOf k) d.toValue p = .ok (fs.set k p)
  | .nil, _, _ => fun k => nomatch k
  | .cons n df s t fs, hn, hnd => by
    simp only [Fields.jsonNames, Bool.and_eq_true] at hn
    simp only [Fields.names, List.nodup_cons] at hnd
    intro k p d hs h
    cases k with
    | inl v =>
      simp only [knownDoc] at h
      show decEntryV o env (.cons n df s t fs) n _ p = _
      rw [decEntryV, if_pos rfl, ebind_ok (decV_doc t hn.1 false v d hs h)]
      rfl
    | inr k =>
      simp only [knownDoc] at h
      have hne : n ≠ fs.keyOf k := fun hc => hnd.1 (hc ▸ keyOf_mem fs k)
      show decEntryV o env (.cons n df s t fs) (fs.keyOf k) _ p = _
      rw [decEntryV, if_neg hne, ebind_ok (decEntryV_doc fs hn.2 hnd.2 k p.2 d hs h)]
      rfl

end

end

end Musli.Json
