import Verif.Spec.Serde
import Verif.Proofs.RoundTrip
/-!
# The serde bridge
-/
set_option linter.unusedSectionVars false
namespace Musli.Serde

theorem ofWire_toWire : ∀ (p : Prim) (v : p.Val), ofWire p (toWire p v) = v := by
  intro p v; cases p <;> rfl

theorem missing_iff : ∀ (t : Ty) (v : t.Val), missing t = some v ↔ Absent t v
  | .option t, v => ⟨fun h => by cases h; exact .option t, fun h => by cases h; rfl⟩
  | .boxed t, v => ⟨fun h => .boxed t v ((missing_iff t v).mp h),
      fun h => by cases h with | boxed _ _ h => exact (missing_iff t v).mpr h⟩
  | .wrapping t, v => ⟨fun h => .wrapping t v ((missing_iff t v).mp h),
      fun h => by cases h with | wrapping _ _ h => exact (missing_iff t v).mpr h⟩
  | .prim _, v | .nonZero _ _, v | .unit, v | .bytes, v | .string, v | .byteArray _, v | .array _ _, v
  | .vec _, v | .set _, v | .map _ _, v | .tuple _, v | .result _ _ _, v | .transparent _, v
  | .unitStruct, v | .strct _ _, v | .packed _ _, v | .unitEnum _ _, v | .enm _ _, v =>
    ⟨(fun h => nomatch h), (fun h => nomatch h)⟩

theorem missing_none : ∀ (t : Ty), optional t = false → missing t = none
  | .option _, h => nomatch h
  | .boxed t, h => missing_none t h
  | .wrapping t, h => missing_none t h
  | .prim _, _ | .nonZero _ _, _ | .unit, _ | .bytes, _ | .string, _ | .byteArray _, _ | .array _ _, _
  | .vec _, _ | .set _, _ | .map _ _, _ | .tuple _, _ | .result _ _ _, _ | .transparent _, _
  | .unitStruct, _ | .strct _ _, _ | .packed _ _, _ | .unitEnum _ _, _ | .enm _ _, _ => rfl

section
variable [Host] (o : Options) (env : Env)

theorem decKey_encKey {F : Fmt} (hF : F.Lawful) (n : Name) (bs r : Bytes)
    (h : encKey F n = .ok bs) : decKey F (bs ++ r) = .ok (n, r) := by
  cases n with
  | idx n => cases h
  | str s => exact decName_encName hF (.str s) bs r h

/-! ## Entries -/

theorem serFields_eq (m : Mode) : ∀ (fs : Fields) (v : fs.Val),
    serFields o env fs m v = Enc.all (encEntry o env m fs) (fs.entries env v)
  | .nil, _ => by simp [serFields, Fields.entries, Enc.all]
  | .cons n d skip t fs, v => by
    simp only [serFields, Fields.entries]
    rw [all_append, all_map, serFields_eq m fs v.2]
    congr 1
    split
    · simp only [Enc.all, encEntry, Fields.keyOf, encKnown]
      cases encKey (Mode.fmt o m) n <;> cases ser o env t m v.1 <;> simp [Enc.seq]
    · rfl

omit [Host] in
/-- The field has not arrived. -/
def vacant : (fs : Fields) → fs.Known → fs.Partial → Prop
  | .cons _ _ _ _ _, .inl _, p => p.1 = none
  | .cons _ _ _ _ fs, .inr k, p => vacant fs k p.2

omit [Host] in
theorem vacant_none : ∀ (fs : Fields) (k : fs.Known), vacant fs k fs.none
  | .cons _ _ _ _ _, .inl _ => rfl
  | .cons _ _ _ _ fs, .inr k => vacant_none fs k

omit [Host] in
theorem vacant_set : ∀ (fs : Fields) (k k' : fs.Known) (p : fs.Partial),
    fs.keyOf k ≠ fs.keyOf k' → vacant fs k p → vacant fs k (fs.set k' p)
  | .cons _ _ _ _ _, .inl _, .inl _, _, h, _ => absurd rfl h
  | .cons _ _ _ _ _, .inl _, .inr _, _, _, hv => hv
  | .cons _ _ _ _ _, .inr _, .inl _, _, _, hv => hv
  | .cons _ _ _ _ fs, .inr k, .inr k', p, h, hv => vacant_set fs k k' p.2 h hv

omit [Host] in
theorem entries_keys : ∀ (fs : Fields) (v : fs.Val),
    ((fs.entries env v).map fs.keyOf).Sublist fs.names
  | .nil, _ => .slnil
  | .cons n d skip t fs, v => by
    have ih := entries_keys fs v.2
    have he : ((fs.entries env v.2).map (Sum.inr : fs.Known → (Fields.cons n d skip t fs).Known)).map
        (Fields.cons n d skip t fs).keyOf = (fs.entries env v.2).map fs.keyOf := by
      rw [List.map_map]; rfl
    simp only [Fields.entries, List.map_append, Fields.names]
    rw [he]
    split
    · exact ih.cons_cons n
    · exact ih.cons n

theorem loopN_inv {σ α} (body : σ → Dec σ) (enc : α → Enc) (next : σ → α → σ)
    (P : List α → σ → Prop)
    (h : ∀ e es st, P (e :: es) st → P es (next st e) ∧
      ∀ bs r, enc e = .ok bs → body st (bs ++ r) = .ok (next st e, r)) :
    ∀ (es : List α) st bs r, P es st → Enc.all enc es = .ok bs →
      loopN body es.length st (bs ++ r) = .ok (es.foldl next st, r)
  | [], st, bs, r, _, he => by cases he; rfl
  | e :: es, st, bs, r, hP, he => by
    obtain ⟨x, y, hx, hy, rfl⟩ := Enc.seq_eq_ok.mp he
    obtain ⟨h1, h2⟩ := h e es st hP
    show (body st >>= fun st => loopN body es.length st) _ = _
    rw [List.append_assoc, Dec.bind_ok (h2 x _ hx), loopN_inv body enc next P h es _ y r h1 hy]
    rfl

theorem finish_entries : ∀ (fs : Fields), envOkFields env fs → ∀ v : fs.Val,
    finish env fs ((fs.entries env v).foldl (fun p k => fs.set k p) fs.none) = .ok v
  | .nil, _, _ => rfl
  | .cons n d skip t fs, henv, v => by
    simp only [envOkFields] at henv
    have ih := finish_entries fs henv.2.2 v.2
    simp only [Fields.entries, List.foldl_append]
    rw [foldl_map_inr]
    cases hp : fieldPresent env skip t v.1 with
    | true =>
      simp only [if_true, List.foldl_cons, List.foldl_nil]
      show (match finish env fs ((fs.entries env v.2).foldl (fun p k => fs.set k p) fs.none) with
        | .error e => Except.error e
        | .ok w => .ok (v.1, w)) = _
      rw [ih]
    | false =>
      simp only [Bool.false_eq_true, if_false, List.foldl_nil]
      cases skip with
      | none => simp [fieldPresent] at hp
      | some k =>
        have hv := henv.1 k rfl v.1 (by simpa [fieldPresent] using hp)
        show (match fieldValue env d t none with
            | .error e => Except.error e
            | .ok v' => match finish env fs ((fs.entries env v.2).foldl (fun p k => fs.set k p) fs.none) with
              | .error e => Except.error e
              | .ok w => .ok (v', w)) = _
        rw [ih]
        cases d with
        | none => simp [fieldValue, (missing_iff t v.1).mpr hv]
        | some d => simp [fieldValue, hv]

/-! ## Sequences -/

theorem takeN_all {α} {enc : α → Enc} {dec : Dec α} (h : RT false enc dec) :
    ∀ (l : List α) (bs r : Bytes), Enc.all enc l = .ok bs →
      takeN dec l.length l.length (bs ++ r) = .ok ((l, 0), r)
  | [], bs, r, he => by cases he; rfl
  | a :: l, bs, r, he => by
    obtain ⟨x, y, hx, hy, rfl⟩ := Enc.seq_eq_ok.mp he
    show (dec >>= fun a => takeN dec l.length l.length >>= fun q => pure (a :: q.1, q.2)) _ = _
    rw [List.append_assoc, Dec.bind_ok (h a x (y ++ r) hx (by simp)),
      Dec.bind_ok (takeN_all h l y r hy)]
    rfl

/-! ## Values which vanish -/

theorem encUnit_ne_nil {bs : Bytes} (h : (Mode.packed.fmt o).encUnit = .ok bs) : bs ≠ [] :=
  encLen_ne_nil o (n := 0) h

theorem encKey_ne_nil {n : Name} {bs : Bytes} (h : encKey (Mode.packed.fmt o) n = .ok bs) :
    bs ≠ [] := by
  cases n with
  | idx n => cases h
  | str s => exact name_ne_nil o (n := .str s) h

theorem serVariants_ne_nil : ∀ (vs : Variants) (v : vs.Val) (bs : Bytes),
    serVariants o env vs .packed v = .ok bs → bs ≠ []
  | .nil, v, _, _ => nomatch v
  | .cons n t vs, .inl x, bs, h => by
    simp only [serVariants] at h
    exact seq_ne_nil h fun x hx => encKey_ne_nil o hx
  | .cons n t vs, .inr x, bs, h => by
    simp only [serVariants] at h
    exact serVariants_ne_nil vs x bs h

theorem nonempty_sound : ∀ (t : Ty), nonempty t = true →
    ∀ v bs, ser o env t .packed v = .ok bs → bs ≠ []
  | .prim p, _, v, bs, h => by
    simp only [ser] at h
    exact storage_prim_ne_nil o h
  | .nonZero s w, _, v, bs, h => by
    simp only [ser] at h
    exact storage_prim_ne_nil o h
  | .unit, _, v, bs, h => by simp only [ser] at h; exact encUnit_ne_nil o h
  | .bytes, _, v, bs, h => by
    simp only [ser] at h
    have h : (encLen o (v).length +> .ok (v)) = .ok bs := h
    exact seq_ne_nil h fun x hx => encLen_ne_nil o hx
  | .string, _, v, bs, h => by
    simp only [ser] at h
    have h : (encLen o (v.bytes).length +> .ok (v.bytes)) = .ok bs := h
    exact seq_ne_nil h fun x hx => encLen_ne_nil o hx
  | .byteArray n, _, v, bs, h => by simp only [ser] at h; cases h
  | .option t, hn, _, _, _ => by simp [nonempty] at hn
  | .array n t, _, v, bs, h => by
    simp only [ser] at h
    exact seq_ne_nil h fun x hx => encLen_ne_nil o hx
  | .vec t, _, v, bs, h => by
    simp only [ser] at h
    exact seq_ne_nil h fun x hx => encLen_ne_nil o hx
  | .set t, _, v, bs, h => by
    simp only [ser] at h
    exact seq_ne_nil h fun x hx => encLen_ne_nil o hx
  | .map k t, _, v, bs, h => by
    simp only [ser] at h
    exact seq_ne_nil h fun x hx => encLen_ne_nil o hx
  | .tuple ts, _, v, bs, h => by
    simp only [ser] at h
    exact seq_ne_nil h fun x hx => encLen_ne_nil o hx
  | .result nt t u, _, v, bs, h => by
    cases v with
    | inl x =>
      simp only [ser] at h
      exact seq_ne_nil' h fun x hx => seq_ne_nil hx fun y hy => encKey_ne_nil o hy
    | inr x =>
      simp only [ser] at h
      exact seq_ne_nil' h fun x hx => seq_ne_nil hx fun y hy => encKey_ne_nil o hy
  | .boxed t, hn, v, bs, h => by
    simp only [nonempty] at hn; simp only [ser] at h; exact nonempty_sound t hn v bs h
  | .wrapping t, hn, v, bs, h => by
    simp only [nonempty] at hn; simp only [ser] at h; exact nonempty_sound t hn v bs h
  | .transparent t, hn, v, bs, h => by
    simp only [nonempty] at hn; simp only [ser] at h; exact nonempty_sound t hn v bs h
  | .unitStruct, _, v, bs, h => by simp only [ser] at h; exact encUnit_ne_nil o h
  | .strct nt fs, _, v, bs, h => by
    simp only [ser] at h
    exact seq_ne_nil h fun x hx => encLen_ne_nil o hx
  | .packed _ _, _, v, bs, h => by simp only [ser] at h; cases h
  | .unitEnum nt names, _, v, bs, h => by
    simp only [ser] at h
    exact seq_ne_nil' h fun x hx => seq_ne_nil hx fun y hy => encKey_ne_nil o hy
  | .enm nt vs, _, v, bs, h => by
    simp only [ser] at h
    exact seq_ne_nil' h fun x hx => serVariants_ne_nil o env vs v x hx

/-! ## Round trip -/

mutual

theorem rt : ∀ (t : Ty) (m : Mode) (tail : Bool), ok t m tail = true → envOk env t →
    RT tail (ser o env t m) (de o env t m)
  | .prim p, m, tail, _, _ => by
    intro v bs r he _
    simp only [ser] at he
    simp only [de]
    rw [Dec.bind_ok ((m.lawful o).prim _ _ bs r he), ofWire_toWire]
    rfl
  | .nonZero s w, m, tail, _, _ => by
    intro v bs r he _
    simp only [ser] at he
    simp only [de]
    rw [Dec.bind_ok ((m.lawful o).prim _ _ bs r he), nonZeroUnraw_raw, ofExcept_ok (toNonZero_val v)]
  | .unit, m, tail, _, _ => by
    intro v bs r he _
    simp only [ser] at he
    simp only [de]
    exact (m.lawful o).unit bs r he
  | .bytes, m, tail, _, _ => by
    intro v bs r he _
    simp only [ser] at he
    simp only [de]
    exact (m.lawful o).bytes v bs r he
  | .string, m, tail, _, _ => by
    intro v bs r he _
    simp only [ser] at he
    simp only [de]
    rw [Dec.bind_ok ((m.lawful o).str v.bytes bs r he), ofExcept_ok (toStr_val v)]
  | .byteArray n, m, tail, h, _ => by simp [ok] at h
  | .option t, m, tail, h, henv => by
    simp only [ok] at h
    rw [Bool.and_eq_true] at h
    simp only [envOk] at henv
    have hv := rt t m tail h.2 henv
    intro v bs r he hr
    have hF := m.lawful o
    cases hp : (m.fmt o).pack with
    | false =>
      cases v with
      | none =>
        simp only [ser] at he
        simp only [de]
        rw [Dec.bind_ok (hF.none hp bs r he)]; rfl
      | some x =>
        simp only [ser] at he
        obtain ⟨a, b, ha, hb, rfl⟩ := Enc.seq_eq_ok.mp he
        simp only [de]
        rw [List.append_assoc, Dec.bind_ok (hF.some hp a _ ha)]
        simp only [if_true]
        rw [Dec.bind_ok (hv x b r hb hr)]; rfl
    | true =>
      have hm : m = .packed := by rw [pack_fmt] at hp; simpa using hp
      subst hm
      simp only [bne_self_eq_false, Bool.false_or] at h
      rw [Bool.and_eq_true] at h
      obtain ⟨⟨ht, hne⟩, -⟩ := h
      obtain rfl := hr ht
      cases v with
      | none =>
        simp only [ser, hF.packNone hp] at he
        cases he
        simp only [de]
        rw [Dec.bind_ok (hF.packOption hp _)]; rfl
      | some x =>
        simp only [ser, hF.packSome hp] at he
        obtain ⟨a, b, ha, hb, rfl⟩ := Enc.seq_eq_ok.mp he
        cases ha
        have hbne : b ≠ [] := nonempty_sound o env t hne x b hb
        simp only [de]
        rw [List.nil_append, Dec.bind_ok (hF.packOption hp _)]
        have : (!(b ++ ([] : Bytes)).isEmpty) = true := by cases b <;> simp_all
        simp only [this, if_true]
        rw [Dec.bind_ok (hv x b [] hb (fun _ => rfl))]; rfl
  | .array n t, m, tail, h, henv => by
    simp only [ok] at h
    simp only [envOk] at henv
    intro v bs r he _
    have hF := m.lawful o
    simp only [ser] at he
    simp only [de]
    obtain ⟨a, b, ha, hb, rfl⟩ := Enc.seq_eq_ok.mp he
    have ht := takeN_all (rt t m false h henv) v.1 b r hb
    have hlen := v.2
    rw [hlen] at ht ha
    rw [List.append_assoc, Dec.bind_ok (hF.seq _ a _ ha), Dec.bind_ok ht]
    show ((m.fmt o).endSeq 0 >>= fun _ => Dec.ofExcept (toArray n v.1)) r = _
    rw [Dec.bind_ok (hF.endSeq r), ofExcept_ok (toArray_val v)]
  | .vec t, m, tail, h, henv => by
    simp only [ok] at h
    simp only [envOk] at henv
    intro v bs r he _
    have hF := m.lawful o
    simp only [ser] at he
    simp only [de]
    obtain ⟨a, b, ha, hb, rfl⟩ := Enc.seq_eq_ok.mp he
    rw [List.append_assoc, Dec.bind_ok (hF.seq _ a _ ha),
      Dec.bind_ok (decN_all (rt t m false h henv) v b r hb), Dec.bind_ok (hF.endSeq r)]
    rfl
  | .set t, m, tail, h, henv => by
    simp only [ok] at h
    simp only [envOk] at henv
    intro v bs r he _
    have hF := m.lawful o
    simp only [ser] at he
    simp only [de]
    obtain ⟨a, b, ha, hb, rfl⟩ := Enc.seq_eq_ok.mp he
    rw [List.append_assoc, Dec.bind_ok (hF.seq _ a _ ha),
      Dec.bind_ok (decN_all (rt t m false h henv) v b r hb), Dec.bind_ok (hF.endSeq r)]
    rfl
  | .map k t, m, tail, h, henv => by
    simp only [ok] at h
    rw [Bool.and_eq_true] at h
    simp only [envOk] at henv
    intro v bs r he _
    have hF := m.lawful o
    simp only [ser] at he
    simp only [de]
    obtain ⟨a, b, ha, hb, rfl⟩ := Enc.seq_eq_ok.mp he
    have hk := rt k m false h.1 henv.1
    have ht := rt t m false h.2 henv.2
    have hv : RT false (fun x : k.Val × t.Val => ser o env k m x.1 +> ser o env t m x.2)
        (do
          let a ← de o env k m
          let b ← de o env t m
          pure (a, b)) := by
      intro x bs r he _
      obtain ⟨a, b, ha, hb, rfl⟩ := Enc.seq_eq_ok.mp he
      rw [List.append_assoc, Dec.bind_ok (hk x.1 a _ ha (by simp)),
        Dec.bind_ok (ht x.2 b _ hb (by simp))]
      rfl
    rw [List.append_assoc, Dec.bind_ok (hF.map _ a _ ha), Dec.bind_ok (decN_all hv v b r hb),
      Dec.bind_ok (hF.endMap r)]
    rfl
  | .tuple ts, m, tail, h, henv => by
    simp only [ok] at h
    simp only [envOk] at henv
    intro v bs r he hr
    have hF := m.lawful o
    simp only [ser] at he
    simp only [de]
    obtain ⟨a, b, ha, hb, rfl⟩ := Enc.seq_eq_ok.mp he
    have := rtTys ts m tail h henv v b r hb hr 0
    rw [Nat.zero_add] at this
    rw [List.append_assoc, Dec.bind_ok (hF.seq _ a _ ha), Dec.bind_ok this]
    show ((m.fmt o).endSeq 0 >>= fun _ => pure v) r = _
    rw [Dec.bind_ok (hF.endSeq r)]
    rfl
  | .result nt t u, m, tail, h, henv => by
    simp only [ok] at h
    rw [Bool.and_eq_true] at h
    simp only [envOk] at henv
    have ht := rt t m tail h.1 henv.1
    have hu := rt u m tail h.2 henv.2
    intro v bs r he hr
    have hF := m.lawful o
    cases v with
    | inl x =>
      simp only [ser] at he
      simp only [de]
      obtain ⟨a, b, c, ha, hb, hc, rfl⟩ := seq3 he
      have hn := decKey_encKey hF _ b (c ++ r) hb
      rw [List.append_assoc, List.append_assoc, Dec.bind_ok (hF.variant a _ ha), Dec.bind_ok hn,
        if_pos rfl, Dec.bind_ok (ht x c r hc hr)]
      rfl
    | inr x =>
      simp only [ser] at he
      simp only [de]
      obtain ⟨a, b, c, ha, hb, hc, rfl⟩ := seq3 he
      have hn := decKey_encKey hF _ b (c ++ r) hb
      rw [List.append_assoc, List.append_assoc, Dec.bind_ok (hF.variant a _ ha), Dec.bind_ok hn,
        if_neg (by decide), if_pos rfl, Dec.bind_ok (hu x c r hc hr)]
      rfl
  | .boxed t, m, tail, h, henv => by
    simp only [ok] at h
    simp only [envOk] at henv
    intro v bs r he hr
    simp only [ser] at he
    simp only [de]
    exact rt t m tail h henv v bs r he hr
  | .wrapping t, m, tail, h, henv => by
    simp only [ok] at h
    simp only [envOk] at henv
    intro v bs r he hr
    simp only [ser] at he
    simp only [de]
    exact rt t m tail h henv v bs r he hr
  | .transparent t, m, tail, h, henv => by
    simp only [ok] at h
    simp only [envOk] at henv
    intro v bs r he hr
    simp only [ser] at he
    simp only [de]
    exact rt t m tail h henv v bs r he hr
  | .unitStruct, m, tail, _, _ => by
    intro v bs r he _
    simp only [ser] at he
    simp only [de]
    exact (m.lawful o).unit bs r he
  | .strct nt fs, m, tail, h, henv => by
    simp only [ok, Bool.and_eq_true] at h
    simp only [envOk] at henv
    intro v bs r he _
    have hF := m.lawful o
    obtain ⟨hnd, hty⟩ := namesOk_iff h.1
    simp only [ser] at he
    simp only [de]
    obtain ⟨a, b, ha, hb, rfl⟩ := Enc.seq_eq_ok.mp he
    rw [serFields_eq] at hb
    have hentry := rtEntry fs m h.2 henv hnd
    have hloop := loopN_inv (fun p => do
        let n ← decKey (m.fmt o)
        deEntry o env fs m n p) (encEntry o env m fs) (fun p k => fs.set k p)
      (fun es p => (es.map fs.keyOf).Nodup ∧ ∀ e ∈ es, vacant fs e p)
      (by
        rintro k es p ⟨hN, hV⟩
        rw [List.map_cons, List.nodup_cons] at hN
        refine ⟨⟨hN.2, fun e he => vacant_set fs e k p ?_ (hV e (by simp [he]))⟩, ?_⟩
        · intro hc
          exact hN.1 (hc ▸ List.mem_map_of_mem (f := fs.keyOf) he)
        · intro bs r hk
          obtain ⟨x, y, hx, hy, rfl⟩ := Enc.seq_eq_ok.mp hk
          have hn := decKey_encKey hF _ x (y ++ r) hx
          rw [List.append_assoc, Dec.bind_ok hn]
          exact hentry k p (hV k (by simp)) y r hy)
      (fs.entries env v) fs.none b r
      ⟨(entries_keys env fs v).nodup hnd, fun e _ => vacant_none fs e⟩ hb
    rw [entries_length] at hloop
    rw [List.append_assoc, Dec.bind_ok (hF.map _ a _ ha), Dec.bind_ok hloop,
      Dec.bind_ok (ofExcept_ok (finish_entries env fs henv v) r),
      Dec.bind_ok (hF.endMap r)]
    rfl
  | .packed _ _, m, tail, h, _ => by simp [ok] at h
  | .unitEnum nt names, m, tail, h, _ => by
    simp only [ok] at h
    obtain ⟨hnd, hty⟩ := namesOk_iff h
    intro v bs r he _
    have hF := m.lawful o
    simp only [ser] at he
    simp only [de]
    obtain ⟨a, b, c, ha, hb, hc, rfl⟩ := seq3 he
    rw [List.append_assoc, List.append_assoc, Dec.bind_ok (hF.variant a _ ha),
      Dec.bind_ok (decKey_encKey hF _ b (c ++ r) hb), findName_get names hnd v]
    show ((m.fmt o).decUnit >>= fun _ => pure v) (c ++ r) = _
    rw [Dec.bind_ok (hF.unit c r hc)]
    rfl
  | .enm nt vs, m, tail, h, henv => by
    simp only [ok, Bool.and_eq_true] at h
    simp only [envOk] at henv
    obtain ⟨hnd, hty⟩ := namesOk_iff h.1
    intro v bs r he hr
    have hF := m.lawful o
    simp only [ser] at he
    simp only [de]
    obtain ⟨a, b, ha, hb, rfl⟩ := Enc.seq_eq_ok.mp he
    obtain ⟨n, x, y, hx, hxe, rfl, hdec⟩ := rtVariants vs m tail h.2 henv hnd v b hb
    have hname := decKey_encKey hF n x (y ++ r) hxe
    rw [List.append_assoc, Dec.bind_ok (hF.variant a _ ha), List.append_assoc, Dec.bind_ok hname]
    exact hdec r hr

theorem rtTys : ∀ (ts : Tys) (m : Mode) (tail : Bool),
    okTys ts m tail = true → envOkTys env ts →
    ∀ v bs r, serTys o env ts m v = .ok bs → (tail = true → r = []) → ∀ left,
      deTys o env ts m (left + ts.length) (bs ++ r) = .ok ((v, left), r)
  | .nil, m, tail, _, _ => by
    intro v bs r he _ left
    simp only [serTys] at he
    cases he
    simp only [deTys]
    rfl
  | .cons t ts, m, tail, h, henv => by
    simp only [okTys] at h
    rw [Bool.and_eq_true] at h
    simp only [envOkTys] at henv
    intro v bs r he hr left
    simp only [serTys] at he
    obtain ⟨a, b, ha, hb, rfl⟩ := Enc.seq_eq_ok.mp he
    have hr' : (tail && ts.isNil) = true → b ++ r = [] := by
      intro hc
      simp only [Bool.and_eq_true] at hc
      cases ts with
      | nil =>
        simp only [serTys] at hb
        cases hb
        simpa using hr hc.1
      | cons _ _ => simp [Tys.isNil] at hc
    show deTys o env (.cons t ts) m (left + ts.length + 1) ((a ++ b) ++ r) = _
    simp only [deTys]
    rw [List.append_assoc, Dec.bind_ok (rt t m _ h.1 henv.1 v.1 a (b ++ r) ha hr'),
      Dec.bind_ok (rtTys ts m tail h.2 henv.2 v.2 b r hb hr left)]
    rfl

theorem rtEntry : ∀ (fs : Fields) (m : Mode),
    okFields fs m = true → envOkFields env fs → fs.names.Nodup →
    ∀ k p, vacant fs k p → ∀ bs r, encKnown o env m fs k = .ok bs →
      deEntry o env fs m (fs.keyOf k) p (bs ++ r) = .ok (fs.set k p, r)
  | .nil, m, _, _, _ => fun k => nomatch k
  | .cons n d s t fs, m, h, henv, hnd => by
    simp only [okFields, Bool.and_eq_true] at h
    simp only [envOkFields] at henv
    simp only [Fields.names, List.nodup_cons] at hnd
    intro k p hv bs r he
    cases k with
    | inl v =>
      simp only [encKnown] at he
      have hv : p.1 = none := hv
      show deEntry o env (.cons n d s t fs) m n p (bs ++ r) = _
      rw [deEntry, if_pos rfl]
      rw [hv]
      show (de o env t m >>= fun v => pure (some v, p.2)) (bs ++ r) = _
      rw [Dec.bind_ok (rt t m false h.1 henv.2.1 v bs r he (by simp))]
      rfl
    | inr k =>
      simp only [encKnown] at he
      have hne : n ≠ fs.keyOf k := fun hc => hnd.1 (hc ▸ keyOf_mem fs k)
      show deEntry o env (.cons n d s t fs) m (fs.keyOf k) p (bs ++ r) = _
      rw [deEntry, if_neg hne]
      rw [Dec.bind_ok (rtEntry fs m h.2 henv.2.2 hnd.2 k p.2 hv bs r he)]
      rfl

theorem rtVariants : ∀ (vs : Variants) (m : Mode) (tail : Bool),
    okVariants vs m tail = true → envOkVariants env vs → vs.names.Nodup →
    ∀ v bs, serVariants o env vs m v = .ok bs → ∃ n x y, n ∈ vs.names ∧
      encKey (m.fmt o) n = .ok x ∧ bs = x ++ y ∧
      ∀ r, (tail = true → r = []) → deVariants o env vs m n (y ++ r) = .ok (v, r)
  | .nil, m, tail, _, _, _ => fun v => nomatch v
  | .cons n t vs, m, tail, h, henv, hnd => by
    simp only [okVariants, Bool.and_eq_true] at h
    simp only [envOkVariants] at henv
    simp only [Variants.names, List.nodup_cons] at hnd
    intro v bs he
    cases v with
    | inl x =>
      simp only [serVariants] at he
      obtain ⟨a, b, ha, hb, rfl⟩ := Enc.seq_eq_ok.mp he
      refine ⟨n, a, b, by simp [Variants.names], ha, rfl, fun r hr => ?_⟩
      simp only [deVariants, if_true]
      rw [Dec.bind_ok (rt t m tail h.1 henv.1 x b r hb hr)]
      rfl
    | inr x =>
      simp only [serVariants] at he
      obtain ⟨n', a, b, hn, ha, rfl, hdec⟩ := rtVariants vs m tail h.2 henv.2 hnd.2 x bs he
      refine ⟨n', a, b, by simp [Variants.names, hn], ha, rfl, fun r hr => ?_⟩
      have hne : n ≠ n' := fun hc => hnd.1 (hc ▸ hn)
      simp only [deVariants, if_neg hne]
      rw [Dec.bind_ok (hdec r hr)]
      rfl

end

/-! ## Agreement with the derives of Müsli -/

theorem encKey_name {F : Fmt} {n : Name} (h : n.ty = .str) : encKey F n = encName F n := by
  cases n with
  | idx n => cases h
  | str s => rfl

theorem decKey_name (F : Fmt) : decKey F = decName F .str := rfl

theorem all_congr {α} {f g : α → Enc} (h : ∀ x, f x = g x) (l : List α) : Enc.all f l = Enc.all g l := by
  rw [funext h]

theorem ser_prim {F : Fmt} {p : Prim} (h : (p != .usize && p != .isize) = true) (v : p.Val) :
    F.encPrim (wire p) (toWire p v) = F.encPrim p v := by
  cases p <;> first | rfl | (exact absurd h (by decide))

theorem de_prim {F : Fmt} {p : Prim} (h : (p != .usize && p != .isize) = true) (s : Bytes) :
    (F.decPrim (wire p) >>= fun v => pure (ofWire p v)) s = F.decPrim p s := by
  have key : ∀ q : Prim, (F.decPrim q >>= fun v => pure v) s = F.decPrim q s := by
    intro q
    show (F.decPrim q >>= fun v => Dec.pure v) s = _
    simp only [bind, Dec.bind]
    cases F.decPrim q s with
    | error e => rfl
    | ok x => rfl
  cases p <;> first | exact key _ | (exact absurd h (by decide))

mutual

theorem ser_eq : ∀ (t : Ty) (m : Mode), (m.fmt o).native = false → compat t = true →
    ∀ v, ser o env t m v = encD o env t m v
  | .prim p, m, hn, h, v => by
    simp only [compat] at h
    simp only [ser, encD]
    exact ser_prim h v
  | .nonZero s w, m, hn, h, v => by simp only [ser, encD]
  | .unit, m, hn, h, v => by simp only [ser, encD]
  | .bytes, m, hn, h, v => by simp only [ser, encD]
  | .string, m, hn, h, v => by simp only [ser, encD]
  | .byteArray n, m, hn, h, v => by simp [compat] at h
  | .option t, m, hn, h, v => by
    simp only [compat] at h
    cases v with
    | none => simp only [ser, encD]
    | some x =>
      simp only [ser, encD, hn, Bool.false_and, fastE, Bool.false_eq_true, if_false]
      rw [ser_eq t m hn h x]
  | .array n t, m, hn, h, v => by
    simp only [compat] at h
    simp only [ser, encD, hn, Bool.false_and, Bool.false_eq_true, if_false]
    rw [all_congr (ser_eq t m hn h)]
  | .vec t, m, hn, h, v => by
    simp only [compat] at h
    simp only [ser, encD, hn, Bool.false_and, Bool.false_eq_true, if_false]
    rw [all_congr (ser_eq t m hn h)]
  | .set t, m, hn, h, v => by
    simp only [compat] at h
    simp only [ser, encD, hn, Bool.false_and, fastE, Bool.false_eq_true, if_false]
    rw [all_congr (ser_eq t m hn h)]
  | .map k t, m, hn, h, v => by
    simp only [compat, Bool.and_eq_true] at h
    simp only [ser, encD, hn, Bool.false_and, fastE, Bool.false_eq_true, if_false]
    rw [all_congr (fun x => by rw [ser_eq k m hn h.1 x.1, ser_eq t m hn h.2 x.2])]
  | .tuple ts, m, hn, h, v => by
    simp only [compat] at h
    simp only [ser, encD]
    rw [serTys_eq ts m hn h v]
  | .result nt t u, m, hn, h, v => by
    simp only [compat, Bool.and_eq_true, beq_iff_eq] at h
    obtain ⟨⟨rfl, ht⟩, hu⟩ := h
    cases v with
    | inl x =>
      simp only [ser, encD, hn, Bool.false_and, fastE, Bool.false_eq_true, if_false]
      rw [ser_eq t m hn ht x]; rfl
    | inr x =>
      simp only [ser, encD, hn, Bool.false_and, fastE, Bool.false_eq_true, if_false]
      rw [ser_eq u m hn hu x]; rfl
  | .boxed t, m, hn, h, v => by
    simp only [compat] at h
    simp only [ser, encD]
    exact ser_eq t m hn h v
  | .wrapping t, m, hn, h, v => by
    simp only [compat] at h
    simp only [ser, encD]
    exact ser_eq t m hn h v
  | .transparent t, m, hn, h, v => by
    simp only [compat] at h
    simp only [ser, encD]
    exact ser_eq t m hn h v
  | .unitStruct, m, hn, h, v => by simp [compat] at h
  | .strct nt fs, m, hn, h, v => by
    simp only [compat, Bool.and_eq_true, beq_iff_eq, List.all_eq_true] at h
    simp only [ser, encD]
    rw [serFields_enc fs m hn h.2 h.1.2 v]
  | .packed _ _, m, hn, h, v => by simp [compat] at h
  | .unitEnum _ _, m, hn, h, v => by simp [compat] at h
  | .enm nt vs, m, hn, h, v => by
    simp only [compat, Bool.and_eq_true, beq_iff_eq, List.all_eq_true] at h
    simp only [ser, encD]
    rw [serVariants_eq vs m hn h.2 h.1.2 v]

theorem serTys_eq : ∀ (ts : Tys) (m : Mode), (m.fmt o).native = false → compatTys ts = true →
    ∀ v, serTys o env ts m v = encTys o env ts m v
  | .nil, m, hn, h, v => by simp only [serTys, encTys]
  | .cons t ts, m, hn, h, v => by
    simp only [compatTys, Bool.and_eq_true] at h
    simp only [serTys, encTys, hn, Bool.false_and, fastE, Bool.false_eq_true, if_false]
    rw [ser_eq t m hn h.1 v.1, serTys_eq ts m hn h.2 v.2]

theorem serFields_enc : ∀ (fs : Fields) (m : Mode), (m.fmt o).native = false →
    compatFields fs = true → (∀ n ∈ fs.names, n.ty = .str) →
    ∀ v, serFields o env fs m v = encFields o env fs m v
  | .nil, m, hn, h, _, v => by simp only [serFields, encFields]
  | .cons n d s t fs, m, hn, h, hs, v => by
    simp only [compatFields, Bool.and_eq_true] at h
    simp only [serFields, encFields]
    rw [ser_eq t m hn h.1 v.1, encKey_name (hs n (by simp [Fields.names])),
      serFields_enc fs m hn h.2 (fun n' hn' => hs n' (by simp [Fields.names, hn'])) v.2]

theorem serVariants_eq : ∀ (vs : Variants) (m : Mode), (m.fmt o).native = false →
    compatVariants vs = true → (∀ n ∈ vs.names, n.ty = .str) →
    ∀ v, serVariants o env vs m v = encVariants o env vs m v
  | .nil, m, hn, h, _, v => nomatch v
  | .cons n t vs, m, hn, h, hs, v => by
    simp only [compatVariants, Bool.and_eq_true] at h
    cases v with
    | inl x =>
      have hd : t.dynamic = false := by simpa using h.1.2
      simp only [serVariants, encVariants, hd, Bool.false_eq_true, if_false]
      rw [ser_eq t m hn h.1.1 x, encKey_name (hs n (by simp [Variants.names]))]
    | inr x =>
      simp only [serVariants, encVariants]
      exact serVariants_eq vs m hn h.2 (fun n' hn' => hs n' (by simp [Variants.names, hn'])) x

end

/-! ## What serde decodes, Müsli decodes -/

/-- Whatever `d` decodes, `e` decodes to the same. -/
def Ref {α} (d e : Dec α) : Prop := ∀ s x, d s = .ok x → e s = .ok x

theorem Ref.refl {α} (d : Dec α) : Ref d d := fun _ _ h => h

theorem Ref.bind {α β} {d e : Dec α} {f g : α → Dec β} (h : Ref d e) (hf : ∀ a, Ref (f a) (g a)) :
    Ref (d >>= f) (e >>= g) := by
  intro s x hx
  obtain ⟨a, s', h1, h2⟩ := Dec.bind_eq_ok.mp hx
  rw [Dec.bind_ok (h s _ h1)]
  exact hf a s' x h2

theorem Ref.decN {α} {d e : Dec α} (h : Ref d e) : ∀ n, Ref (decN d n) (decN e n)
  | 0 => Ref.refl _
  | n + 1 => Ref.bind h fun _ => Ref.bind (Ref.decN h n) fun _ => Ref.refl _

theorem Ref.loopN {σ} {d e : σ → Dec σ} (h : ∀ st, Ref (d st) (e st)) : ∀ n st,
    Ref (loopN d n st) (loopN e n st)
  | 0, _ => Ref.refl _
  | n + 1, st => Ref.bind (h st) fun _ => Ref.loopN h n _

theorem takeN_decN {α} (d : Dec α) : ∀ (n c : Nat) (s : Bytes) (l : List α) (left : Nat) (r : Bytes),
    takeN d n c s = .ok ((l, left), r) → c = n + left ∧ decN d n s = .ok (l, r)
  | 0, c, s, l, left, r, h => by cases h; exact ⟨by simp, rfl⟩
  | n + 1, 0, s, l, left, r, h => by cases h
  | n + 1, c + 1, s, l, left, r, h => by
    obtain ⟨a, s', h1, h2⟩ := Dec.bind_eq_ok.mp h
    obtain ⟨⟨l', left'⟩, s'', h3, h4⟩ := Dec.bind_eq_ok.mp h2
    cases h4
    obtain ⟨rfl, hd⟩ := takeN_decN d n c s' l' left r h3
    refine ⟨by omega, ?_⟩
    show (d >>= fun a => decN d n >>= fun l => pure (a :: l)) s = _
    rw [Dec.bind_ok h1, Dec.bind_ok hd]
    rfl

theorem finish_ref : ∀ (fs : Fields) (m : Mode), strictFields fs m = true →
    ∀ p v, finish env fs p = .ok v → fs.finish env p = .ok v
  | .nil, _, _, _, _, h => h
  | .cons n d s t fs, m, hs, p, v, h => by
    simp only [strictFields, Bool.and_eq_true, Bool.or_eq_true] at hs
    simp only [finish] at h
    simp only [Fields.finish]
    have hf : ∀ w, fieldValue env d t p.1 = .ok w → Musli.fieldValue env d t p.1 = .ok w := by
      intro w hw
      cases hp : p.1 with
      | some x => rw [hp] at hw; exact hw
      | none =>
        rw [hp] at hw
        cases d with
        | some k =>
          simp only [fieldValue] at hw
          simp only [Musli.fieldValue, fieldDefault]
          exact hw
        | none =>
          simp only [fieldValue] at hw
          rcases hs.1.1 with hd | hm
          · simp at hd
          · rw [missing_none t (by simpa using hm)] at hw
            cases hw
    cases hv : fieldValue env d t p.1 with
    | error e => rw [hv] at h; cases h
    | ok w =>
      rw [hv] at h
      rw [hf w hv]
      cases hr : finish env fs p.2 with
      | error e => simp only [hr] at h; cases h
      | ok w' =>
        simp only [hr] at h
        simp only [finish_ref fs m hs.2 p.2 w' hr]
        exact h

mutual

theorem de_ref : ∀ (t : Ty) (m : Mode), (m.fmt o).native = false → compat t = true →
    strict t m = true → Ref (de o env t m) (decD o env t m)
  | .prim p, m, hn, h, _ => by
    simp only [compat] at h
    simp only [de, decD]
    intro s x hx
    rw [← hx]
    exact (de_prim h s).symm
  | .nonZero s w, m, hn, h, _ => by
    simp only [de, decD, hn, Bool.false_and, fastD, Bool.false_eq_true, if_false]
    exact Ref.refl _
  | .unit, m, hn, h, _ => by simp only [de, decD]; exact Ref.refl _
  | .bytes, m, hn, h, _ => by simp only [de, decD]; exact Ref.refl _
  | .string, m, hn, h, _ => by simp only [de, decD]; exact Ref.refl _
  | .byteArray n, m, hn, h, _ => by simp [compat] at h
  | .option t, m, hn, h, hs => by
    simp only [compat] at h
    simp only [strict] at hs
    simp only [de, decD, hn, Bool.false_and, fastD, Bool.false_eq_true, if_false]
    refine Ref.bind (Ref.refl _) fun b => ?_
    cases b
    · exact Ref.refl _
    · exact Ref.bind (de_ref t m hn h hs) fun _ => Ref.refl _
  | .array n t, m, hn, h, hs => by
    simp only [compat] at h
    simp only [strict, Bool.and_eq_true] at hs
    simp only [de, decD, hn, Bool.false_and, fastD, Bool.false_eq_true, if_false]
    refine Ref.bind (Ref.refl _) fun c => ?_
    intro s x hx
    obtain ⟨⟨l, left⟩, s', h1, h2⟩ := Dec.bind_eq_ok.mp hx
    obtain ⟨rfl, hd⟩ := takeN_decN _ n c s l left s' h1
    obtain ⟨_, s'', h3, h4⟩ := Dec.bind_eq_ok.mp h2
    have hleft : left = 0 := by
      have : (m.fmt o).endSeq = Storage.endSeq := by
        cases m <;> first | rfl | (exact absurd hs.1 (by decide))
      rw [this] at h3
      unfold Storage.endSeq at h3
      split at h3
      · assumption
      · cases h3
    subst hleft
    simp only [Nat.add_zero, if_true]
    rw [Dec.bind_ok (Ref.decN (de_ref t m hn h hs.2) n s _ hd), Dec.bind_ok h3]
    exact h4
  | .vec t, m, hn, h, hs => by
    simp only [compat] at h
    simp only [strict] at hs
    simp only [de, decD, hn, Bool.false_and, Bool.false_eq_true, if_false]
    exact Ref.bind (Ref.refl _) fun c => Ref.bind (Ref.decN (de_ref t m hn h hs) c) fun _ => Ref.refl _
  | .set t, m, hn, h, hs => by
    simp only [compat] at h
    simp only [strict] at hs
    simp only [de, decD, hn, Bool.false_and, fastD, Bool.false_eq_true, if_false]
    exact Ref.bind (Ref.refl _) fun c => Ref.bind (Ref.decN (de_ref t m hn h hs) c) fun _ => Ref.refl _
  | .map k t, m, hn, h, hs => by
    simp only [compat, Bool.and_eq_true] at h
    simp only [strict, Bool.and_eq_true] at hs
    simp only [de, decD, hn, Bool.false_and, fastD, Bool.false_eq_true, if_false]
    exact Ref.bind (Ref.refl _) fun c => Ref.bind (Ref.decN
      (Ref.bind (de_ref k m hn h.1 hs.1) fun _ => Ref.bind (de_ref t m hn h.2 hs.2) fun _ => Ref.refl _) c)
      fun _ => Ref.refl _
  | .tuple ts, m, hn, h, hs => by
    simp only [compat] at h
    simp only [strict] at hs
    simp only [de, decD]
    exact Ref.bind (Ref.refl _) fun c => Ref.bind (deTys_ref ts m hn h hs c) fun _ => Ref.refl _
  | .result nt t u, m, hn, h, hs => by
    simp only [compat, Bool.and_eq_true, beq_iff_eq] at h
    obtain ⟨⟨rfl, ht⟩, hu⟩ := h
    simp only [strict, Bool.and_eq_true] at hs
    simp only [de, decD, hn, Bool.false_and, fastD, Bool.false_eq_true, if_false]
    refine Ref.bind (Ref.refl _) fun _ => Ref.bind (Ref.refl _) fun n => ?_
    split
    · exact Ref.bind (de_ref t m hn ht hs.1) fun _ => Ref.refl _
    · split
      · exact Ref.bind (de_ref u m hn hu hs.2) fun _ => Ref.refl _
      · exact Ref.refl _
  | .boxed t, m, hn, h, hs => by
    simp only [compat] at h
    simp only [strict] at hs
    simp only [de, decD, hn, Bool.false_and, fastD, Bool.false_eq_true, if_false]
    exact de_ref t m hn h hs
  | .wrapping t, m, hn, h, hs => by
    simp only [compat] at h
    simp only [strict] at hs
    simp only [de, decD, hn, Bool.false_and, fastD, Bool.false_eq_true, if_false]
    exact de_ref t m hn h hs
  | .transparent t, m, hn, h, hs => by
    simp only [compat] at h
    simp only [strict] at hs
    simp only [de, decD]
    exact de_ref t m hn h hs
  | .unitStruct, m, hn, h, hs => by simp [compat] at h
  | .strct nt fs, m, hn, h, hs => by
    simp only [compat, Bool.and_eq_true, beq_iff_eq, List.all_eq_true] at h
    obtain ⟨⟨rfl, _⟩, h⟩ := h
    simp only [strict] at hs
    simp only [de, decD]
    refine Ref.bind (Ref.refl _) fun c => Ref.bind (Ref.loopN (fun p =>
      Ref.bind (Ref.refl _) fun n => deEntry_ref fs m hn h hs n p) c _) fun p =>
      Ref.bind ?_ fun _ => Ref.refl _
    intro s x hx
    cases hf : finish env fs p with
    | error e => rw [hf] at hx; cases hx
    | ok v =>
      rw [hf] at hx
      rw [finish_ref env fs m hs p v hf]
      exact hx
  | .packed _ _, m, hn, h, hs => by simp [compat] at h
  | .unitEnum _ _, m, hn, h, hs => by simp [compat] at h
  | .enm nt vs, m, hn, h, hs => by
    simp only [compat, Bool.and_eq_true, beq_iff_eq, List.all_eq_true] at h
    obtain ⟨⟨rfl, _⟩, h⟩ := h
    simp only [strict] at hs
    simp only [de, decD]
    exact Ref.bind (Ref.refl _) fun _ => Ref.bind (Ref.refl _) fun n => deVariants_ref vs m hn h hs n

theorem deTys_ref : ∀ (ts : Tys) (m : Mode), (m.fmt o).native = false → compatTys ts = true →
    strictTys ts m = true → ∀ c, Ref (deTys o env ts m c) (decTys o env ts m c)
  | .nil, m, hn, h, hs, c => by simp only [deTys, decTys]; exact Ref.refl _
  | .cons t ts, m, hn, h, hs, 0 => by simp only [deTys, decTys]; exact Ref.refl _
  | .cons t ts, m, hn, h, hs, c + 1 => by
    simp only [compatTys, Bool.and_eq_true] at h
    simp only [strictTys, Bool.and_eq_true] at hs
    simp only [deTys, decTys, hn, Bool.false_and, fastD, Bool.false_eq_true, if_false]
    exact Ref.bind (de_ref t m hn h.1 hs.1) fun _ =>
      Ref.bind (deTys_ref ts m hn h.2 hs.2 c) fun _ => Ref.refl _

theorem deEntry_ref : ∀ (fs : Fields) (m : Mode), (m.fmt o).native = false →
    compatFields fs = true → strictFields fs m = true →
    ∀ n p, Ref (deEntry o env fs m n p) (decEntry o env fs m n p)
  | .nil, m, hn, h, hs, n, p => by simp only [deEntry, decEntry]; exact Ref.refl _
  | .cons n' d s t fs, m, hn, h, hs, n, p => by
    simp only [compatFields, Bool.and_eq_true] at h
    simp only [strictFields, Bool.and_eq_true] at hs
    rw [deEntry, decEntry]
    split
    · split
      · intro s x hx; cases hx
      · exact Ref.bind (de_ref t m hn h.1 hs.1.2) fun _ => Ref.refl _
    · exact Ref.bind (deEntry_ref fs m hn h.2 hs.2 n p.2) fun _ => Ref.refl _

theorem deVariants_ref : ∀ (vs : Variants) (m : Mode), (m.fmt o).native = false →
    compatVariants vs = true → strictVariants vs m = true →
    ∀ n, Ref (deVariants o env vs m n) (decVariants o env vs m n)
  | .nil, m, hn, h, hs, n => by simp only [deVariants, decVariants]; exact Ref.refl _
  | .cons n' t vs, m, hn, h, hs, n => by
    simp only [compatVariants, Bool.and_eq_true] at h
    simp only [strictVariants, Bool.and_eq_true] at hs
    rw [deVariants, decVariants]
    split
    · exact Ref.bind (de_ref t m hn h.1.1 hs.1) fun _ => Ref.refl _
    · exact Ref.bind (deVariants_ref vs m hn h.2 hs.2 n) fun _ => Ref.refl _

end

end
end Musli.Serde
