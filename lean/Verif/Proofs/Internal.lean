import Verif.Proofs.Tagged
import Verif.Proofs.Value.JsonBuffer
import Verif.Proofs.Value.Invariant
import Verif.Proofs.Value.Transcode
/-!
# Internally tagged enums in the descriptive format
-/
set_option linter.unusedSectionVars false
namespace Musli
open Json.Spec (AllRel)

section
variable [Host] (o : Options) (env : Env)

theorem payload_record (tag : Name) : ∀ (vs : Variants) (v : vs.Val), vs.records tag = true →
    (vs.payload v).1.record tag = true
  | .nil, v, _ => nomatch v
  | .cons _ t vs, v, h => by
    simp only [Variants.records, Bool.and_eq_true] at h
    cases v with
    | inl x => exact h.1
    | inr x => exact payload_record tag vs x h.2

theorem payload_unpacked : ∀ (vs : Variants) (v : vs.Val), vs.unpacked = true →
    (vs.payload v).1.unpacked = true
  | .nil, v, _ => nomatch v
  | .cons _ t vs, v, h => by
    simp only [Variants.unpacked, Bool.and_eq_true] at h
    cases v with
    | inl x => exact h.1
    | inr x => exact payload_unpacked vs x h.2

theorem payload_ok (N H : Bool) (m : Mode) (tail : Bool) : ∀ (vs : Variants) (v : vs.Val),
    vs.bodiesOk N H m tail = true → (vs.payload v).1.ok N H m tail = true
  | .nil, v, _ => nomatch v
  | .cons _ t vs, v, h => by
    simp only [Variants.bodiesOk, Bool.and_eq_true] at h
    cases v with
    | inl x => exact h.1
    | inr x => exact payload_ok N H m tail vs x h.2

theorem payload_envOk' : ∀ (vs : Variants) (v : vs.Val), vs.envOk env → (vs.payload v).1.envOk env
  | .nil, v, _ => nomatch v
  | .cons _ t vs, v, h => by
    simp only [Variants.envOk] at h
    cases v with
    | inl x => exact h.1
    | inr x => exact payload_envOk' vs x h.2

theorem bodyHint_payload : ∀ (vs : Variants) (v : vs.Val),
    bodyHint env vs v = sizeHint env (vs.payload v).1 (vs.payload v).2
  | .nil, v => nomatch v
  | .cons _ t vs, .inl x => rfl
  | .cons _ t vs, .inr x => bodyHint_payload vs x

theorem bodyEntries_payload (m : Mode) : ∀ (vs : Variants) (v : vs.Val),
    bodyEntries o env vs m v = encEntries o env (vs.payload v).1 m (vs.payload v).2
  | .nil, v => nomatch v
  | .cons _ t vs, .inl x => rfl
  | .cons _ t vs, .inr x => bodyEntries_payload m vs x

theorem decVariantsV_payload : ∀ (vs : Variants) (v : vs.Val) (x : Value), vs.names.Nodup →
    decV o env (vs.payload v).1 false x = .ok (vs.payload v).2 →
    decVariantsV o env vs (vs.nameOf v) x = .ok v
  | .nil, v, _, _, _ => nomatch v
  | .cons n t vs, .inl y, x, _, h => by
    show decVariantsV o env (.cons n t vs) n x = _
    rw [decVariantsV, if_pos rfl, ebind_ok (show decV o env t false x = .ok y from h)]
    rfl
  | .cons n t vs, .inr y, x, hnd, h => by
    simp only [Variants.names, List.nodup_cons] at hnd
    have hne : n ≠ vs.nameOf y := fun hc => hnd.1 (hc ▸ nameOf_mem vs y)
    show decVariantsV o env (.cons n t vs) (vs.nameOf y) x = _
    rw [decVariantsV, if_neg hne, ebind_ok (decVariantsV_payload vs y x hnd.2 h)]
    rfl

theorem decVariantsV_unknown : ∀ (vs : Variants) (n : Name) (x : Value), n ∉ vs.names →
    decVariantsV o env vs n x = .error .unknown
  | .nil, _, _, _ => by rw [decVariantsV]
  | .cons n' t vs, n, x, h => by
    simp only [Variants.names, List.mem_cons, not_or] at h
    rw [decVariantsV, if_neg (fun hc => h.1 hc.symm), decVariantsV_unknown vs n x h.2]
    rfl

theorem reprKnown_opt (o' : Options) : ∀ (fs : Fields) (k : fs.Known), fs.unpacked = true →
    reprKnown o env fs k = reprKnown o' env fs k
  | .nil, k, _ => nomatch k
  | .cons n d s t fs, k, h => by
    rw [Fields.unpacked, Bool.and_eq_true] at h
    cases k with
    | inl v => rw [reprKnown, reprKnown, reprV_opt o o' env t v h.1]
    | inr k => rw [reprKnown, reprKnown, reprKnown_opt o' fs k h.2]

/-! ## Reading the entries -/

/-- What an entry looks like in the buffer. -/
def HeadV (tag : Name) (fs : Fields) : Heading fs.Entry → Value × Value → Prop
  | .inl n, p => p = (nameV tag, nameV n)
  | .inr (.inl k), p => p.1 = nameV (fs.keyOf k) ∧ reprKnown o env fs k = .ok p.2
  | .inr (.inr u), p => p.1 = nameV u.name

theorem findTag_fixed (tag : Name) (nt : NameTy) : ∀ l : List (Value × Value),
    findTag o tag nt (fixedPairs l) = findTag o tag nt l
  | [] => by rw [fixedPairs]
  | (k, v) :: l => by
    rw [fixedPairs, findTag, findTag, fixedPair, readName_fixed, readName_fixed, findTag_fixed tag nt l]

theorem findTag_heads {tag : Name} {nt : NameTy} {fs : Fields} (hfs : ∀ n ∈ fs.names, n.ty = tag.ty)
    (htag : tag ∉ fs.names) {o' : Options} : ∀ (es : List (Heading fs.Entry)) (l : List (Value × Value)),
    (∀ n, .inl n ∈ es → n.ty = nt) →
    (∀ u, .inr (.inr u) ∈ es → u.name ≠ tag ∧ u.name.ty = tag.ty) → AllRel (HeadV o' env tag fs) es l →
    findTag o tag nt l = match firstTag es with
      | none => .error .missing
      | some n => .ok n
  | [], [], _, _, _ => rfl
  | [], _ :: _, _, _, h => absurd h (by simp [AllRel])
  | _ :: _, [], _, _, h => absurd h (by simp [AllRel])
  | e :: es, (k, x) :: l, hn, hu, h => by
    simp only [AllRel] at h
    have ih := findTag_heads hfs htag es l (fun n hm => hn n (by simp [hm])) (fun u hm => hu u (by simp [hm])) h.2
    have other : ∀ n : Name, n ≠ tag → n.ty = tag.ty → k = nameV n →
        findTag o tag nt ((k, x) :: l) = findTag o tag nt l := by
      rintro n h1 h2 rfl
      have hk := readName_nameV o true n
      rw [h2] at hk
      rw [findTag, ebind_ok hk, if_neg h1]
    match e, h.1 with
    | .inl n, hv =>
      simp only [HeadV, Prod.mk.injEq] at hv
      obtain ⟨rfl, rfl⟩ := hv
      have hv := readName_nameV o false n
      rw [hn n (by simp)] at hv
      rw [findTag, ebind_ok (readName_nameV o true tag), if_pos rfl]
      exact hv
    | .inr (.inl f), hv =>
      simp only [HeadV] at hv
      rw [other _ (fun hc => htag (hc ▸ keyOf_mem fs f)) (hfs _ (keyOf_mem fs f)) hv.1, ih]
      rfl
    | .inr (.inr u), hv =>
      simp only [HeadV] at hv
      obtain ⟨h1, h2⟩ := hu u (by simp)
      rw [other _ h1 h2 hv, ih]
      rfl

theorem foldPairs_heads {σ ε : Type _} {body : σ → Value × Value → Except Err σ} {next : σ → ε → σ}
    {r : ε → Value × Value → Prop} : ∀ (es : List ε) (l : List (Value × Value)),
    (∀ e ∈ es, ∀ p st, r e p → body st p = .ok (next st e)) → AllRel r es l →
    ∀ st, foldPairs body l st = .ok (es.foldl next st)
  | [], [], _, _, _ => rfl
  | [], _ :: _, _, h, _ => absurd h (by simp [AllRel])
  | _ :: _, [], _, h, _ => absurd h (by simp [AllRel])
  | e :: es, p :: l, h, hr, st => by
    simp only [AllRel] at hr
    rw [foldPairs, ebind_ok (h e (by simp) p st hr.1)]
    exact foldPairs_heads es l (fun e he => h e (by simp [he])) hr.2 _

/-- The fields, the others as before. -/
def Fields.setHead (fs : Fields) (p : fs.Partial) : Heading fs.Entry → fs.Partial
  | .inl _ => p
  | .inr e => fs.setAny p e

theorem foldl_heads (fs : Fields) : ∀ (es : List (Heading fs.Entry)) (p : fs.Partial),
    es.foldl fs.setHead p = (es.filterMap Sum.getRight?).foldl fs.setAny p
  | [], _ => rfl
  | .inl n :: es, p => by
    simp only [List.foldl_cons, List.filterMap_cons, Sum.getRight?_inl]
    exact foldl_heads fs es p
  | .inr e :: es, p => by
    simp only [List.foldl_cons, List.filterMap_cons, Sum.getRight?_inr]
    exact foldl_heads fs es _

theorem decV_heads {tag : Name} {nt : NameTy} {fs : Fields}
    (hok : (Ty.strct nt fs).ok (Opt.isNativeFixed o) (hostOrder o) .descriptive false = true)
    (henv : fs.envOk env) (htag : tag ∉ fs.names) (hty : nt = tag.ty)
    (es : List (Heading fs.Entry)) (l : List (Value × Value))
    (hu : ∀ u, .inr (.inr u) ∈ es → u.name ∉ fs.names ∧ u.name.ty = tag.ty)
    (h : AllRel (HeadV o env tag fs) es l) (key : Bool) :
    decV o env (.strct nt fs) key (.map l) =
      fs.assemble env ((es.filterMap Sum.getRight?).filterMap Sum.getLeft?) := by
  simp only [Ty.ok, Bool.and_eq_true] at hok
  obtain ⟨hnd, hnt⟩ := namesOk_iff hok.1
  simp only [decV]
  rw [ebind_ok (readMap_map _), ebind_ok (foldPairs_heads (next := fs.setHead) es l ?_ h fs.none),
    foldl_heads, foldl_known, finish_assemble]
  intro e he p st hr
  obtain ⟨k, x⟩ := p
  have other : ∀ n : Name, n ∉ fs.names → n.ty = tag.ty → k = nameV n →
      (readName o true nt k >>= fun n => decEntryV o env fs n x st) = .ok st := by
    rintro n h1 h2 rfl
    have hk := readName_nameV o true n
    rw [h2, ← hty] at hk
    rw [ebind_ok hk]
    exact Json.decEntryV_unknown env fs n h1 x st
  match e, hr, he with
  | .inl n, hr, _ =>
    simp only [HeadV, Prod.mk.injEq] at hr
    exact other tag htag rfl hr.1
  | .inr (.inl f), hr, _ =>
    simp only [HeadV] at hr
    obtain ⟨rfl, hx⟩ := hr
    have hk := readName_nameV o true (fs.keyOf f)
    rw [hnt _ (keyOf_mem fs f)] at hk
    show (readName o true nt _ >>= fun n => decEntryV o env fs n x st) = _
    rw [ebind_ok hk]
    exact decEntryV_repr o env fs hok.2 henv hnd f st x hx
  | .inr (.inr u), hr, he =>
    simp only [HeadV] at hr
    exact other u.name (hu u he).1 (hu u he).2 hr

/-! ## Writing the entries -/

theorem encD_repr (t : Ty) (hk : t.counted = true) (v : t.Val) (bs : Bytes) (h : encD o env t .descriptive v = .ok bs) :
    ∃ x, reprV o env t v = .ok x ∧ encValue (Desc.fmt o) x = .ok bs := by
  have hrel := rel (o := o) (env := env) (m := .descriptive) rfl t v (.inl (.inr rfl)) hk
  unfold Rel at hrel
  cases hx : reprV o env t v with
  | error e =>
    rw [hx] at hrel
    obtain ⟨b, hb⟩ := hrel
    rw [hb] at h; cases h
  | ok x =>
    rw [hx] at hrel
    exact ⟨x, rfl, by rw [← show encD o env t .descriptive v = encValue (Desc.fmt o) x from hrel]; exact h⟩

theorem encKnown_repr : ∀ (fs : Fields) (_ : fs.counted = true) (k : fs.Known) (bs : Bytes),
    fs.encKnown o env .descriptive k = .ok bs →
    ∃ x, reprKnown o env fs k = .ok x ∧ encValue (Desc.fmt o) x = .ok bs
  | .nil, _, k, _, _ => nomatch k
  | .cons n d s t fs, hk, .inl v, bs, h => by
    simp only [Fields.counted, Bool.and_eq_true] at hk
    exact encD_repr o env t hk.1 v bs h
  | .cons n d s t fs, hk, .inr k, bs, h => by
    simp only [Fields.counted, Bool.and_eq_true] at hk
    exact encKnown_repr fs hk.2 k bs h

theorem encHead_repr (tag : Name) (fs : Fields) (hf : fs.counted = true) (e : Heading fs.Entry)
    (hu : ∀ u, e = .inr (.inr u) → u.ty.counted = true) (bs : Bytes)
    (h : encInternalEntry o env .descriptive tag fs e = .ok bs) :
    ∃ p, HeadV o env tag fs e p ∧ encPair (Desc.fmt o) p = .ok bs := by
  match e, hu, h with
  | .inl n, _, h =>
    refine ⟨(nameV tag, nameV n), rfl, ?_⟩
    rw [encPair, encValue_name, encValue_name]
    exact h
  | .inr (.inl f), _, h =>
    obtain ⟨a, b, ha, hb, rfl⟩ := Enc.seq_eq_ok.mp h
    obtain ⟨x, hx, hy⟩ := encKnown_repr o env fs hf f b hb
    refine ⟨(nameV (fs.keyOf f), x), ⟨rfl, hx⟩, ?_⟩
    rw [encPair, encValue_name, hy]
    exact Enc.seq_eq_ok.mpr ⟨a, b, ha, rfl, rfl⟩
  | .inr (.inr u), hu, h =>
    obtain ⟨a, b, ha, hb, rfl⟩ := Enc.seq_eq_ok.mp h
    obtain ⟨x, hx, hy⟩ := encD_repr o env u.ty (hu u rfl) u.val b hb
    refine ⟨(nameV u.name, x), rfl, ?_⟩
    rw [encPair, encValue_name, hy]
    exact Enc.seq_eq_ok.mpr ⟨a, b, ha, rfl, rfl⟩

theorem encHeads_repr (tag : Name) (fs : Fields) (hf : fs.counted = true) : ∀ (es : List (Heading fs.Entry))
    (_ : ∀ u, .inr (.inr u) ∈ es → u.ty.counted = true) (bs : Bytes),
    Enc.all (encInternalEntry o env .descriptive tag fs) es = .ok bs →
    ∃ l, l.length = es.length ∧ AllRel (HeadV o env tag fs) es l ∧ encPairs (Desc.fmt o) l = .ok bs
  | [], _, bs, h => ⟨[], rfl, trivial, by rw [encPairs]; exact h⟩
  | e :: es, hu, bs, h => by
    obtain ⟨a, b, ha, hb, rfl⟩ := Enc.seq_eq_ok.mp h
    obtain ⟨p, h1, h2⟩ := encHead_repr o env tag fs hf e (fun u h => hu u (by simp [h])) a ha
    obtain ⟨l, h3, h4, h5⟩ := encHeads_repr tag fs hf es (fun u h => hu u (by simp [h])) b hb
    exact ⟨p :: l, by simp [h3], ⟨h1, h4⟩, by
      rw [encPairs, h2, h5]; exact Enc.seq_eq_ok.mpr ⟨a, b, rfl, rfl, rfl⟩⟩

theorem headV_opt {o' : Options} {tag : Name} {fs : Fields} (hp : fs.unpacked = true) :
    ∀ (es : List (Heading fs.Entry)) (l : List (Value × Value)),
    AllRel (HeadV o env tag fs) es l → AllRel (HeadV o' env tag fs) es l
  | [], [], _ => trivial
  | [], _ :: _, h => absurd h (by simp [AllRel])
  | _ :: _, [], h => absurd h (by simp [AllRel])
  | e :: es, p :: l, h => by
    simp only [AllRel] at h ⊢
    refine ⟨?_, headV_opt hp es l h.2⟩
    match e, h.1 with
    | .inl n, h => exact h
    | .inr (.inl f), h => exact ⟨h.1, by rw [← reprKnown_opt o env o' fs f hp]; exact h.2⟩
    | .inr (.inr u), h => exact h

/-- The document of an internally tagged enum. -/
theorem internal_doc {tag : Name} {nt nt' : NameTy} {vs : Variants} {fs : Fields}
    (hnd : vs.names.Nodup) (hok : WellFormedTy .descriptive (.strct nt' fs) = true) (henv : fs.envOk env)
    (hp : fs.unpacked = true) (htag : tag ∉ fs.names) (hty : nt' = tag.ty)
    (es : List (Heading fs.Entry)) (hn : ∀ n, .inl n ∈ es → n.ty = nt)
    (hu : ∀ u, .inr (.inr u) ∈ es → u.name ∉ fs.names ∧ u.name ≠ tag ∧ u.name.ty = tag.ty ∧ u.ty.counted = true)
    (bs rest : Bytes) (he : encInternalDoc o env .descriptive tag fs es = .ok bs) :
    (firstTag es = none → decInternal o env tag nt vs (bs ++ rest) = .error .missing) ∧
    (∀ n, firstTag es = some n → n ∉ vs.names →
      decInternal o env tag nt vs (bs ++ rest) = .error .unknown) ∧
    (∀ v w, firstTag es = some (vs.nameOf v) → vs.payload v = ⟨.strct nt' fs, w⟩ →
      fs.assemble env ((es.filterMap Sum.getRight?).filterMap Sum.getLeft?) = .ok w →
      decInternal o env tag nt vs (bs ++ rest) = .ok (v, rest)) := by
  obtain ⟨a, b, ha, hb, rfl⟩ := Enc.seq_eq_ok.mp he
  obtain ⟨l, h1, h2, h3⟩ := encHeads_repr o env tag fs ((Ty.strct nt' fs).counted_of_ok rfl _ hok) es
    (fun u h => (hu u h).2.2.2) b hb
  have hval : encValue (Desc.fmt o) (.map l) = .ok (a ++ b) := by
    rw [encValue, h1, h3]
    exact Enc.seq_eq_ok.mpr ⟨a, b, ha, rfl, rfl⟩
  have hread := Desc.readValue_enc o hval rest
  have hok' : (Ty.strct nt' fs).ok (Opt.isNativeFixed Desc.bufferOptions) (hostOrder Desc.bufferOptions)
      .descriptive false = true := by
    have hn : Opt.isNativeFixed Desc.bufferOptions = false := by
      unfold Opt.isNativeFixed
      rfl
    rw [hn, ok_host _ false]
    exact hok
  have hnames : ∀ n ∈ fs.names, n.ty = tag.ty := by
    simp only [WellFormedTy, Ty.ok, Bool.and_eq_true] at hok
    rw [← hty]
    exact (namesOk_iff hok.1).2
  have h2' := headV_opt o env (o' := Desc.bufferOptions) hp es l h2
  have hfind : findTag Desc.bufferOptions tag nt (fixedPairs l) = _ := (findTag_fixed _ tag nt l).trans
    (findTag_heads Desc.bufferOptions env hnames htag es l hn (fun u h => ⟨(hu u h).2.1, (hu u h).2.2.1⟩) h2')
  have hmap : Value.fixedWidth (.map l) = .map (fixedPairs l) := by rw [Value.fixedWidth]
  have hrun : decInternal o env tag nt vs (a ++ b ++ rest) =
      Dec.ofExcept (findTag Desc.bufferOptions tag nt (fixedPairs l) >>= fun n =>
        decVariantsV Desc.bufferOptions env vs n (.map (fixedPairs l))) rest := by
    unfold decInternal
    rw [Dec.bind_ok hread]
    unfold internalV
    rw [hmap, ebind_ok (readMap_map _)]
  rw [hrun, hfind]
  refine ⟨fun h => ?_, fun n h hn => ?_, fun v w h hpay has => ?_⟩
  · rw [h]; rfl
  · rw [h]
    show Dec.ofExcept (decVariantsV _ env vs n _) rest = _
    rw [decVariantsV_unknown _ env vs n _ hn]
    rfl
  · rw [h]
    show Dec.ofExcept (decVariantsV _ env vs (vs.nameOf v) _) rest = _
    rw [← hmap, decVariantsV_fixed]
    have := decV_heads Desc.bufferOptions env hok' henv htag hty es l (fun u h => ⟨(hu u h).1, (hu u h).2.2.1⟩) h2' false
    rw [has] at this
    rw [decVariantsV_payload _ env vs v (.map l) hnd (by rw [hpay]; exact this)]
    rfl

/-! ## Round trip -/

theorem allRel_entries (tag : Name) {fs : Fields} : ∀ (es : List fs.Known) (l : List (Value × Value)),
    AllRel (fun k p => p.1 = nameV (fs.keyOf k) ∧ reprKnown o env fs k = .ok p.2) es l →
    AllRel (HeadV o env tag fs) (es.map fun k => .inr (.inl k)) l
  | [], [], _ => trivial
  | [], _ :: _, h => absurd h (by simp [AllRel])
  | _ :: _, [], h => absurd h (by simp [AllRel])
  | _ :: es, _ :: l, h => ⟨h.1, allRel_entries tag es l h.2⟩

theorem reprPairs_allRel {α : Type} {f g : α → Except Err Value} : ∀ (es : List α) (l : List (Value × Value)),
    reprPairs f g es = .ok l → AllRel (fun k p => f k = .ok p.1 ∧ g k = .ok p.2) es l
  | [], l, h => by rw [reprPairs] at h; cases h; trivial
  | a :: es, l, h => by
    rw [reprPairs] at h
    split at h
    · cases h
    rename_i k hk
    split at h
    · cases h
    rename_i w hw
    split at h
    · cases h
    rename_i m hm
    cases h
    exact ⟨⟨hk, hw⟩, reprPairs_allRel es m hm⟩

theorem allRel_mono {α β : Type} {r s : α → β → Prop} (h : ∀ a b, r a b → s a b) :
    ∀ (l : List α) (m : List β), AllRel r l m → AllRel s l m
  | [], [], _ => trivial
  | [], _ :: _, h => absurd h (by simp [AllRel])
  | _ :: _, [], h => absurd h (by simp [AllRel])
  | a :: l, b :: m, hr => ⟨h a b hr.1, allRel_mono h l m hr.2⟩

/-- The entries of a struct, after the tag. -/
theorem encEntries_repr (tag : Name) : ∀ (t : Ty), t.record tag = true →
    t.ok (Opt.isNativeFixed Desc.bufferOptions) (hostOrder Desc.bufferOptions) .descriptive false = true →
    t.unpacked = true → t.envOk env →
    ∀ (v : t.Val) (n : Nat) (bs : Bytes), sizeHint env t v = some n →
    encEntries o env t .descriptive v = .ok bs →
    ∃ l, l.length = n ∧ encPairs (Desc.fmt o) l = .ok bs ∧
      ∀ (m : Name) (key : Bool),
        decV Desc.bufferOptions env t key (.map ((nameV tag, nameV m) :: l)) = .ok v
  | .strct nt fs, hr, hok, hup, henv, v, n, bs, hs, he => by
    simp only [Ty.record, Bool.and_eq_true, decide_eq_true_eq] at hr
    simp only [sizeHint, Option.some.injEq] at hs
    subst hs
    simp only [encEntries] at he
    simp only [Ty.unpacked] at hup
    simp only [Ty.envOk] at henv
    have hrel := relFields (o := o) (env := env) (m := .descriptive) rfl fs v (.inl (.inr rfl))
      ((Ty.strct nt fs).counted_of_ok rfl _ hok)
    unfold RelP at hrel
    cases hx : reprFields o env fs v with
    | error e =>
      rw [hx] at hrel
      obtain ⟨b, hb⟩ := hrel
      rw [hb] at he; cases he
    | ok l =>
      rw [hx] at hrel
      refine ⟨l, hrel.1, by rw [← show _ = encPairs (Desc.fmt o) l from hrel.2]; exact he, fun m key => ?_⟩
      rw [reprFields_eq] at hx
      have ha := allRel_mono (s := fun k p => p.1 = nameV (fs.keyOf k) ∧ reprKnown o env fs k = .ok p.2)
        (fun k p h => ⟨by have := h.1; injection this with this; exact this.symm, h.2⟩) _ _ (reprPairs_allRel _ _ hx)
      have hb := headV_opt o env (o' := Desc.bufferOptions) hup _ _ (allRel_entries o env tag _ _ ha)
      have hall : AllRel (HeadV Desc.bufferOptions env tag fs)
          (.inl m :: (fs.entries env v).map fun k => .inr (.inl k)) ((nameV tag, nameV m) :: l) := ⟨rfl, hb⟩
      rw [decV_heads Desc.bufferOptions env hok henv hr.2 hr.1 _ _ (by simp) hall key]
      have e1 : ((Sum.inl m :: (fs.entries env v).map fun k => (.inr (.inl k) : Heading fs.Entry)).filterMap
          Sum.getRight?).filterMap Sum.getLeft? = fs.entries env v := by
        simp only [List.filterMap_cons, Sum.getRight?_inl, List.filterMap_map, List.filterMap_filterMap]
        simp
      rw [e1]
      simp only [Ty.ok, Bool.and_eq_true] at hok
      exact assemble_perm env fs (skipOk_of_ok _ _ _ fs hok.2) henv v _ (.refl _)
  | .unitStruct, _, _, _, _, v, n, bs, hs, he => by
    simp only [sizeHint, Option.some.injEq] at hs
    simp only [encEntries] at he
    exact ⟨[], hs, by rw [encPairs]; exact he, fun m key => by rw [decV, ebind_ok (readMap_map _)]; rfl⟩
  | .transparent t, hr, hok, hup, henv, v, n, bs, hs, he => by
    simp only [Ty.record] at hr
    simp only [Ty.ok] at hok
    simp only [Ty.unpacked] at hup
    simp only [Ty.envOk] at henv
    simp only [sizeHint] at hs
    simp only [encEntries] at he
    obtain ⟨l, h1, h2, h3⟩ := encEntries_repr tag t hr hok hup henv v n bs hs he
    exact ⟨l, h1, h2, fun m key => by rw [decV]; exact h3 m key⟩
  | .boxed t, _, _, _, _, v, n, bs, hs, he => by simp only [sizeHint] at hs; cases hs
  | .wrapping t, _, _, _, _, v, n, bs, hs, he => by simp only [sizeHint] at hs; cases hs
  | .prim _, hr, _, _, _, _, _, _, _, _ => by cases hr
  | .nonZero _ _, hr, _, _, _, _, _, _, _, _ => by cases hr
  | .unit, hr, _, _, _, _, _, _, _, _ => by cases hr
  | .bytes, hr, _, _, _, _, _, _, _, _ => by cases hr
  | .string, hr, _, _, _, _, _, _, _, _ => by cases hr
  | .byteArray _, hr, _, _, _, _, _, _, _, _ => by cases hr
  | .option _, hr, _, _, _, _, _, _, _, _ => by cases hr
  | .array _ _, hr, _, _, _, _, _, _, _, _ => by cases hr
  | .vec _, hr, _, _, _, _, _, _, _, _ => by cases hr
  | .set _, hr, _, _, _, _, _, _, _, _ => by cases hr
  | .map _ _, hr, _, _, _, _, _, _, _, _ => by cases hr
  | .tuple _, hr, _, _, _, _, _, _, _, _ => by cases hr
  | .result _ _ _, hr, _, _, _, _, _, _, _, _ => by cases hr
  | .packed _ _, hr, _, _, _, _, _, _, _, _ => by cases hr
  | .unitEnum _ _, hr, _, _, _, _, _, _, _, _ => by cases hr
  | .enm _ _, hr, _, _, _, _, _, _, _, _ => by cases hr

theorem viaName_desc (n : Name) : viaName (Desc.fmt o) n = encName (Desc.fmt o) n := by
  cases n with
  | str s => rfl
  | idx i => rfl

theorem internal_round_trip {tag : Name} {nt : NameTy} {vs : Variants}
    (hn : namesOk nt vs.names = true) (hok : vs.bodiesOk false false .descriptive false = true) (henv : vs.envOk env)
    (hp : vs.unpacked = true) (hr : vs.records tag = true) (v : vs.Val) (bs rest : Bytes)
    (he : encInternal o env tag vs .descriptive v = .ok bs) :
    decInternal o env tag nt vs (bs ++ rest) = .ok (v, rest) := by
  have hnat : Opt.isNativeFixed Desc.bufferOptions = false := by
    unfold Opt.isNativeFixed
    rfl
  obtain ⟨hnd, hnt⟩ := namesOk_iff hn
  unfold encInternal at he
  rw [bodyHint_payload, bodyEntries_payload] at he
  cases hs : sizeHint env (vs.payload v).1 (vs.payload v).2 with
  | none => rw [hs] at he; cases he
  | some n =>
    rw [hs] at he
    obtain ⟨a, b, ha, hb, rfl⟩ := Enc.seq_eq_ok.mp he
    obtain ⟨t, c, ht, hc, rfl⟩ := Enc.seq_eq_ok.mp hb
    obtain ⟨l, h1, h2, h3⟩ := encEntries_repr o env tag (vs.payload v).1 (payload_record tag vs v hr)
      (by rw [hnat, ok_host _ false]; exact payload_ok _ _ _ _ vs v hok) (payload_unpacked vs v hp) (payload_envOk' env vs v henv)
      (vs.payload v).2 n c hs hc
    have htag : encPair (Desc.fmt o) (nameV tag, nameV (vs.nameOf v)) = .ok t := by
      rw [encPair, encValue_name, encValue_name, ← viaName_desc, ← viaName_desc]
      exact ht
    have hval : encValue (Desc.fmt o) (.map ((nameV tag, nameV (vs.nameOf v)) :: l)) = .ok (a ++ (t ++ c)) := by
      rw [encValue, encPairs, htag, h2, List.length_cons, h1, Nat.add_comm]
      exact Enc.seq_eq_ok.mpr ⟨a, _, ha, Enc.seq_eq_ok.mpr ⟨t, c, rfl, rfl, rfl⟩, rfl⟩
    have hread := Desc.readValue_enc o hval rest
    have hmap : Value.fixedWidth (.map ((nameV tag, nameV (vs.nameOf v)) :: l)) =
      .map (fixedPairs ((nameV tag, nameV (vs.nameOf v)) :: l)) := by rw [Value.fixedWidth]
    unfold decInternal
    rw [Dec.bind_ok hread]
    unfold internalV
    rw [hmap, ebind_ok (readMap_map _), findTag_fixed]
    have hv := readName_nameV Desc.bufferOptions false (vs.nameOf v)
    rw [hnt _ (nameOf_mem vs v)] at hv
    have hf : findTag Desc.bufferOptions tag nt ((nameV tag, nameV (vs.nameOf v)) :: l) = .ok (vs.nameOf v) := by
      rw [findTag, ebind_ok (readName_nameV Desc.bufferOptions true tag), if_pos rfl]
      exact hv
    rw [ebind_ok hf, ← hmap, decVariantsV_fixed,
      decVariantsV_payload _ env vs v _ hnd (h3 (vs.nameOf v) false)]
    rfl

end
end Musli
