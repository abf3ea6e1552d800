import Verif.Proofs.Raw
import Verif.Spec.Entries
/-!
# Round-trip
-/
set_option linter.unusedSectionVars false
namespace Musli

section
variable [Host] (o : Options) (env : Env)

/-! ## Lower bounds on lengths -/

theorem encLen_ne_nil {n : Nat} {bs : Bytes} (h : encLen o n = .ok bs) : bs ≠ [] := by
  rintro rfl
  have := decLen_encLen o h []
  revert this
  unfold decLen Int'.decodeUsize
  cases Opt.length o <;> simp [Dec.bind_apply, Varint.decode, Fixed.readBytes, Dec.readBytes, Int'.widthBits]

theorem storage_prim_ne_nil {p : Prim} {v : p.Val} {bs : Bytes} (h : Storage.encPrim o p v = .ok bs) :
    bs ≠ [] := by
  rintro rfl
  have := Storage.decPrim_encPrim o p v [] [] h
  revert this
  cases p with
  | uint w => cases w <;> simp [Storage.decPrim, Int'.decodeUnsigned] <;> cases Opt.integer o <;>
      simp [Dec.bind_apply, Varint.decode, Fixed.readBytes, Dec.readBytes]
  | sint w => cases w <;> simp [Storage.decPrim, Int'.decodeSigned] <;> cases Opt.integer o <;>
      simp [Dec.bind_apply, Varint.decode, Fixed.readBytes, Dec.readBytes]
  | bool => simp [Storage.decPrim, Storage.decBool, Dec.bind_apply]
  | char => 
    simp only [Storage.decPrim, Storage.decChar, Int'.decodeUnsigned]
    cases Opt.integer o <;>
      simp [Dec.bind_apply, Varint.decode, Fixed.readBytes, Dec.readBytes]
  | usize => 
    simp only [Storage.decPrim, Int'.decodeUsize]
    cases Opt.length o <;> simp [Dec.bind_apply, Varint.decode, Fixed.readBytes, Dec.readBytes, Int'.widthBits]
  | isize => 
    simp only [Storage.decPrim, Int'.decodeUsize]
    cases Opt.length o <;> simp [Dec.bind_apply, Varint.decode, Fixed.readBytes, Dec.readBytes, Int'.widthBits]
  | f32 =>
    simp only [Storage.decPrim, Int'.decodeUnsigned]
    cases Opt.integer o <;>
      simp [Dec.bind_apply, Varint.decode, Fixed.readBytes, Dec.readBytes]
  | f64 =>
    simp only [Storage.decPrim, Int'.decodeUnsigned]
    cases Opt.integer o <;>
      simp [Dec.bind_apply, Varint.decode, Fixed.readBytes, Dec.readBytes]

theorem rawPrim_ne_nil (p : Prim) (v : p.Val) : rawPrim p v ≠ [] := by
  intro h
  have h := congrArg List.length h
  revert h
  cases p with
  | bool => simp [rawPrim]
  | char => simp [rawPrim, Fixed.length_toNe]
  | uint w =>
    show (Fixed.toNe (w := w.bits) v).length = _ → False
    rw [Fixed.length_toNe]
    cases w <;> simp [IW.bits]
  | sint w =>
    show (Fixed.toNe (w := w.bits) v).length = _ → False
    rw [Fixed.length_toNe]
    cases w <;> simp [IW.bits]
  | usize => simp [rawPrim, Fixed.length_toNe]
  | isize => simp [rawPrim, Fixed.length_toNe]
  | f32 => simp [rawPrim, Fixed.length_toNe]
  | f64 => simp [rawPrim, Fixed.length_toNe]

mutual
theorem rawNonempty_sound : ∀ (t : Ty), t.rawNonempty = true → ∀ v, t.rawE v ≠ []
  | .prim p, _, v => rawPrim_ne_nil p v
  | .nonZero _ _, _, v => rawPrim_ne_nil _ _
  | .array n t, h, v => by
    simp only [Ty.rawNonempty, Bool.and_eq_true, bne_iff_ne, ne_eq] at h
    obtain ⟨l, hl⟩ := v
    cases l with
    | nil => exact absurd hl.symm h.1
    | cons a l =>
      show (a :: l).flatMap t.rawE ≠ []
      have := rawNonempty_sound t h.2 a
      simp [this]
  | .wrapping t, h, v => rawNonempty_sound t (by simpa [Ty.rawNonempty] using h) v
  | .packed _ fs, h, v => rawNonempties_sound fs (by simpa [Ty.rawNonempty] using h) v
  | .unit, h, _ => by simp [Ty.rawNonempty] at h
  | .bytes, h, _ => by simp [Ty.rawNonempty] at h
  | .string, h, _ => by simp [Ty.rawNonempty] at h
  | .byteArray _, h, _ => by simp [Ty.rawNonempty] at h
  | .option _, h, _ => by simp [Ty.rawNonempty] at h
  | .vec _, h, _ => by simp [Ty.rawNonempty] at h
  | .set _, h, _ => by simp [Ty.rawNonempty] at h
  | .map _ _, h, _ => by simp [Ty.rawNonempty] at h
  | .tuple _, h, _ => by simp [Ty.rawNonempty] at h
  | .result _ _ _, h, _ => by simp [Ty.rawNonempty] at h
  | .boxed _, h, _ => by simp [Ty.rawNonempty] at h
  | .transparent _, h, _ => by simp [Ty.rawNonempty] at h
  | .unitStruct, h, _ => by simp [Ty.rawNonempty] at h
  | .strct _ _, h, _ => by simp [Ty.rawNonempty] at h
  | .unitEnum _ _, h, _ => by simp [Ty.rawNonempty] at h
  | .enm _ _, h, _ => by simp [Ty.rawNonempty] at h
theorem rawNonempties_sound : ∀ (fs : Fields), fs.rawNonempty = true → ∀ v, fs.rawE v ≠ []
  | .nil, h, _ => by simp [Fields.rawNonempty] at h
  | .cons _ _ _ t fs, h, v => by
    simp only [Fields.rawNonempty, Bool.or_eq_true] at h
    show t.rawE v.1 ++ fs.rawE v.2 ≠ []
    intro h'
    rw [List.append_eq_nil_iff] at h'
    rcases h with h | h
    · exact rawNonempty_sound t h v.1 h'.1
    · exact rawNonempties_sound fs h v.2 h'.2
end

theorem name_ne_nil {n : Name} {bs : Bytes} (h : encName (Mode.packed.fmt o) n = .ok bs) :
    bs ≠ [] := by
  cases n with
  | idx n => exact storage_prim_ne_nil o (p := .usize) h
  | str s =>
    obtain ⟨x, y, hx, hy, rfl⟩ := Enc.seq_eq_ok.mp (show Storage.encBytes o s.bytes = .ok bs from h)
    have := encLen_ne_nil o hx
    simp [this]

/-- A sequence whose first part is not empty. -/
theorem seq_ne_nil {a b : Enc} {bs : Bytes} (h : (a +> b) = .ok bs)
    (ha : ∀ x, a = .ok x → x ≠ []) : bs ≠ [] := by
  obtain ⟨x, y, hx, hy, rfl⟩ := Enc.seq_eq_ok.mp h
  have := ha x hx
  simp [this]

theorem seq_ne_nil' {a b : Enc} {bs : Bytes} (h : (a +> b) = .ok bs)
    (hb : ∀ x, b = .ok x → x ≠ []) : bs ≠ [] := by
  obtain ⟨x, y, hx, hy, rfl⟩ := Enc.seq_eq_ok.mp h
  have := hb y hy
  simp [this]

theorem neLen_ne_nil {n : Nat} {bs : Bytes} (h : neLen n = .ok bs) : bs ≠ [] := by
  unfold neLen at h
  split at h
  · cases h
    intro h
    have h := congrArg List.length h
    simp [Fixed.length_toNe] at h
  · cases h

theorem variants_ne_nil : ∀ (vs : Variants) (v : vs.Val) (bs : Bytes),
    encVariants o env vs .packed v = .ok bs → bs ≠ []
  | .nil, v, _, _ => nomatch v
  | .cons n t vs, .inl x, bs, h => by
    simp only [encVariants] at h
    exact seq_ne_nil h fun x hx => name_ne_nil o hx
  | .cons n t vs, .inr x, bs, h => by
    simp only [encVariants] at h
    exact variants_ne_nil vs x bs h

mutual
theorem nonempty_sound : ∀ (t : Ty), t.nonempty (Opt.isNativeFixed o) = true →
    ∀ v bs, encD o env t .packed v = .ok bs → bs ≠ []
  | .prim p, _, v, bs, h => by
    simp only [encD] at h; exact storage_prim_ne_nil o h
  | .nonZero _ _, _, v, bs, h => by
    simp only [encD] at h; exact storage_prim_ne_nil o h
  | .unit, _, v, bs, h => by
    simp only [encD] at h
    have h' : encLen o 0 = .ok bs := h
    exact encLen_ne_nil o h'
  | .bytes, _, v, bs, h => by
    simp only [encD] at h
    exact seq_ne_nil (show Storage.encBytes o v = _ from h) fun x hx => encLen_ne_nil o hx
  | .string, _, v, bs, h => by
    simp only [encD] at h
    exact seq_ne_nil (show Storage.encBytes o v.bytes = _ from h) fun x hx => encLen_ne_nil o hx
  | .byteArray n, hn, v, bs, h => by
    simp only [encD] at h
    change Except.ok v.1 = _ at h
    cases h
    simp only [Ty.nonempty, bne_iff_ne, ne_eq] at hn
    intro hv
    have := v.2
    rw [hv] at this
    exact hn this.symm
  | .option _, hn, _, _, _ => by simp [Ty.nonempty] at hn
  | .array _ t, _, v, bs, h => by
    simp only [encD] at h
    split at h
    · exact seq_ne_nil h fun x hx => neLen_ne_nil hx
    · exact seq_ne_nil h fun x hx => encLen_ne_nil o hx
  | .vec t, _, v, bs, h => by
    simp only [encD] at h
    split at h
    · exact seq_ne_nil h fun x hx => neLen_ne_nil hx
    · exact seq_ne_nil h fun x hx => encLen_ne_nil o hx
  | .set t, _, v, bs, h => by
    simp only [encD] at h; exact seq_ne_nil h fun x hx => encLen_ne_nil o hx
  | .map k t, _, v, bs, h => by
    simp only [encD] at h; exact seq_ne_nil h fun x hx => encLen_ne_nil o hx
  | .tuple ts, _, v, bs, h => by
    simp only [encD] at h; exact seq_ne_nil h fun x hx => encLen_ne_nil o hx
  | .result nt t u, _, v, bs, h => by
    cases v <;> simp only [encD] at h <;>
    exact seq_ne_nil' h fun x hx => seq_ne_nil hx fun x hx => name_ne_nil o hx
  | .boxed t, hn, v, bs, h => by
    simp only [encD] at h
    exact nonempty_sound t (by simpa [Ty.nonempty] using hn) v bs h
  | .wrapping t, hn, v, bs, h => by
    simp only [encD] at h
    exact nonempty_sound t (by simpa [Ty.nonempty] using hn) v bs h
  | .transparent t, hn, v, bs, h => by
    simp only [encD] at h
    exact nonempty_sound t (by simpa [Ty.nonempty] using hn) v bs h
  | .unitStruct, _, v, bs, h => by
    simp only [encD] at h
    have h' : encLen o 0 = .ok bs := h
    exact encLen_ne_nil o h'
  | .strct _ fs, _, v, bs, h => by
    simp only [encD] at h; exact seq_ne_nil h fun x hx => encLen_ne_nil o hx
  | .packed lay fs, hn, v, bs, h => by
    simp only [Ty.nonempty] at hn
    simp only [encD, native_fmt, Mode.fast] at h
    split at h
    · rename_i hc
      rw [if_pos hc] at hn
      cases h
      exact rawNonempties_sound fs hn v
    · rename_i hc
      rw [if_neg hc] at hn
      split at h
      · cases h
      · rename_i b hb
        cases h
        exact nonempties_sound fs hn v _ hb
  | .unitEnum _ names, _, v, bs, h => by
    simp only [encD] at h; exact name_ne_nil o h
  | .enm _ vs, _, v, bs, h => by
    simp only [encD] at h
    exact seq_ne_nil' h fun x hx => variants_ne_nil o env vs v x hx
theorem nonempties_sound : ∀ (fs : Fields), fs.nonempty (Opt.isNativeFixed o) = true →
    ∀ v bs, encPackFields o env fs .packed v = .ok bs → bs ≠ []
  | .nil, hn, _, _, _ => by simp [Fields.nonempty] at hn
  | .cons _ _ skip t fs, hn, v, bs, h => by
    simp only [Fields.nonempty, Bool.or_eq_true, Bool.and_eq_true, Option.isNone_iff_eq_none] at hn
    simp only [encPackFields] at h
    rcases hn with ⟨rfl, hn⟩ | hn
    · refine seq_ne_nil h fun x hx => nonempty_sound t hn v.1 x ?_
      simpa [fieldPresent] using hx
    · exact seq_ne_nil' h fun x hx => nonempties_sound fs hn v.2 x hx
end

/-! ## Names -/

theorem decName_encName {F : Fmt} (hF : F.Lawful) (n : Name) (bs r : Bytes)
    (h : encName F n = .ok bs) : decName F n.ty (bs ++ r) = .ok (n, r) := by
  cases n with
  | idx n =>
    show (F.decPrim .usize >>= fun n => pure (Name.idx n)) _ = _
    rw [Dec.bind_ok (hF.prim .usize n bs r h)]; rfl
  | str s =>
    show (F.decStr >>= fun b => Dec.ofExcept (toStr b) >>= fun s => pure (Name.str s)) _ = _
    rw [Dec.bind_ok (hF.str s.bytes bs r h), Dec.bind_ok (ofExcept_ok (toStr_val s) r)]; rfl

omit [Host] in
theorem findName_get (l : List Name) (hl : l.Nodup) (i : Fin l.length) :
    findName l[i] l = some i := by
  induction l with
  | nil => exact i.elim0
  | cons a l ih =>
    rw [List.nodup_cons] at hl
    obtain ⟨i, hi⟩ := i
    cases i with
    | zero => simp [findName]
    | succ i =>
      have hi' : i < l.length := by simpa using hi
      have hne : a ≠ l[i] := fun h => hl.1 (by rw [h]; exact List.getElem_mem _)
      have := ih hl.2 ⟨i, hi'⟩
      simp only [Fin.getElem_fin] at this
      simp only [Fin.getElem_fin, List.getElem_cons_succ, findName, if_neg hne, this]
      rfl

theorem resultName_ty (nt : NameTy) (b : Bool) : (resultName nt b).ty = nt := by
  cases nt <;> cases b <;> rfl

omit [Host] in
theorem namesOk_iff {nt : NameTy} {l : List Name} (h : namesOk nt l = true) :
    l.Nodup ∧ ∀ n ∈ l, n.ty = nt := by
  simpa [namesOk] using h

/-! ## Entries of structs -/

omit [Host] in
theorem keyOf_mem : ∀ (fs : Fields) (k : fs.Known), fs.keyOf k ∈ fs.names
  | .nil, k => nomatch k
  | .cons n _ _ t fs, .inl v => by simp [Fields.keyOf, Fields.names]
  | .cons n _ _ t fs, .inr k => by
    simp only [Fields.keyOf, Fields.names, List.mem_cons]
    exact .inr (keyOf_mem fs k)

theorem entries_length : ∀ (fs : Fields) (v : fs.Val), (fs.entries env v).length = fs.count env v
  | .nil, _ => rfl
  | .cons _ _ skip t fs, v => by
    simp only [Fields.entries, Fields.count, List.length_append, List.length_map,
      entries_length fs v.2]
    split <;> simp

theorem all_append {α} (f : α → Enc) (a b : List α) :
    Enc.all f (a ++ b) = (Enc.all f a +> Enc.all f b) := by
  induction a with
  | nil => simp only [List.nil_append, Enc.all]; cases Enc.all f b <;> simp [Enc.seq]
  | cons x a ih =>
    simp only [List.cons_append, Enc.all, ih]
    cases f x <;> cases Enc.all f a <;> cases Enc.all f b <;> simp [Enc.seq]

theorem all_map {α β} (f : β → Enc) (g : α → β) (l : List α) :
    Enc.all f (l.map g) = Enc.all (fun x => f (g x)) l := by
  induction l with
  | nil => rfl
  | cons x l ih => simp only [List.map_cons, Enc.all, ih]

theorem encFields_eq (m : Mode) : ∀ (fs : Fields) (v : fs.Val),
    encFields o env fs m v = Enc.all (fs.encEntry o env m) (fs.entries env v)
  | .nil, _ => by simp [encFields, Fields.entries, Enc.all]
  | .cons n d skip t fs, v => by
    simp only [encFields, Fields.entries]
    rw [all_append, all_map, encFields_eq m fs v.2]
    congr 1
    split
    · simp only [Enc.all, Fields.encEntry, Fields.keyOf, Fields.encKnown]
      cases encName (Mode.fmt o m) n <;> cases encD o env t m v.1 <;> simp [Enc.seq]
    · rfl

/-- The state after the entries of a value. -/
theorem foldl_map_inr {n d s t} {fs : Fields} (l : List fs.Known) (p : (Fields.cons n d s t fs).Partial) :
    (l.map (Sum.inr : fs.Known → (Fields.cons n d s t fs).Known)).foldl
      (fun p k => (Fields.cons n d s t fs).set k p) p =
      (p.1, l.foldl (fun p k => fs.set k p) p.2) := by
  induction l generalizing p with
  | nil => rfl
  | cons k l ih => simp only [List.map_cons, List.foldl_cons, ih]; rfl

theorem finish_entries (N H : Bool) (m : Mode) : ∀ (fs : Fields), fs.ok N H m = true →
    fs.envOk env → ∀ v : fs.Val,
    fs.finish env ((fs.entries env v).foldl (fun p k => fs.set k p) fs.none) = .ok v
  | .nil, _, _, _ => rfl
  | .cons n d skip t fs, hok, henv, v => by
    simp only [Fields.ok, Bool.and_eq_true] at hok
    simp only [Fields.envOk] at henv
    have ih := finish_entries N H m fs hok.2 henv.2.2 v.2
    simp only [Fields.entries, List.foldl_append]
    rw [foldl_map_inr]
    cases hp : fieldPresent env skip t v.1 with
    | true =>
      simp only [if_true, List.foldl_cons, List.foldl_nil]
      show (match Fields.finish env fs ((fs.entries env v.2).foldl (fun p k => fs.set k p) fs.none) with
        | .error e => Except.error e
        | .ok w => .ok (v.1, w)) = _
      rw [ih]
    | false =>
      simp only [Bool.false_eq_true, if_false, List.foldl_nil]
      cases skip with
      | none => simp [fieldPresent] at hp
      | some k =>
        cases d with
        | none => simp at hok
        | some d =>
          have := henv.1 v.1 (by simpa [fieldPresent] using hp)
          show (match fieldDefault env (some d) t with
            | .error e => Except.error e
            | .ok v' => match Fields.finish env fs ((fs.entries env v.2).foldl (fun p k => fs.set k p) fs.none) with
              | .error e => Except.error e
              | .ok w => .ok (v', w)) = _
          rw [ih]
          simp [fieldDefault, this]

/-- A loop over encoded entries. -/
theorem loopN_entries {σ α} (body : σ → Dec σ) (enc : α → Enc) (next : σ → α → σ) (es : List α)
    (h : ∀ e ∈ es, ∀ st bs r, enc e = .ok bs → body st (bs ++ r) = .ok (next st e, r)) :
    ∀ st bs r, Enc.all enc es = .ok bs →
      loopN body es.length st (bs ++ r) = .ok (es.foldl next st, r) := by
  induction es with
  | nil => intro st bs r he; cases he; rfl
  | cons e es ih =>
    intro st bs r he
    obtain ⟨x, y, hx, hy, rfl⟩ := Enc.seq_eq_ok.mp he
    show (body st >>= fun st => loopN body es.length st) _ = _
    rw [List.append_assoc, Dec.bind_ok (h e (by simp) st x _ hx),
      ih (fun e he => h e (by simp [he])) _ y r hy]
    rfl

/-! ## Values decoded through `decoder.decode()` -/

abbrev N' : Bool := Opt.isNativeFixed o

theorem rtVia {t : Ty} {m : Mode} {tail : Bool}
    (h : (if m.fast (Opt.isNativeFixed o) && t.bwE then t.bwD || t.rd (hostOrder o)
      else t.ok (Opt.isNativeFixed o) (hostOrder o) m tail) = true)
    (hd : t.ok (Opt.isNativeFixed o) (hostOrder o) m tail = true →
      RT tail (encD o env t m) (decD o env t m)) :
    RT tail (fun v => fastE ((m.fmt o).native && t.bwE) (t.rawE v) (encD o env t m v))
      (fastD ((m.fmt o).native && t.bwD) t.rawD (decD o env t m)) := by
  rw [native_fmt]
  cases hf : m.fast (Opt.isNativeFixed o) with
  | false =>
    simp only [hf, Bool.false_and, Bool.false_eq_true, if_false] at h
    simpa only [Bool.false_and, fastE, fastD, Bool.false_eq_true, if_false] using hd h
  | true =>
    simp only [hf, Bool.true_and] at h
    cases hE : t.bwE with
    | false =>
      have hD : t.bwD = false := by
        cases hD : t.bwD with
        | false => rfl
        | true => rw [bwE_of_bwD t hD] at hE; cases hE
      simp only [hE, Bool.false_eq_true, if_false] at h
      simpa only [hD, fastE, fastD, Bool.and_false, Bool.false_eq_true, if_false] using hd h
    | true =>
      simp only [hE, if_true, Bool.or_eq_true] at h
      simp only [Bool.and_self, fastE, if_true, Bool.true_and]
      cases hD : t.bwD with
      | true =>
        simp only [fastD, if_true]
        exact (rawD_rawE t hD).weaken (by simp)
      | false =>
        simp only [fastD, Bool.false_eq_true, if_false]
        exact (decD_raw o env t m hf hE (h.resolve_left (by simp [hD]))).weaken (by simp)

/-- `Box` and `Wrapping`: encoded directly, decoded through `decoder.decode()`. -/
theorem rtBox {t : Ty} {m : Mode} {tail : Bool}
    (h : (if m.fast (Opt.isNativeFixed o) && t.bwD then t.dr (hostOrder o)
      else t.ok (Opt.isNativeFixed o) (hostOrder o) m tail) = true)
    (hd : t.ok (Opt.isNativeFixed o) (hostOrder o) m tail = true →
      RT tail (encD o env t m) (decD o env t m)) :
    RT tail (encD o env t m) (fastD ((m.fmt o).native && t.bwD) t.rawD (decD o env t m)) := by
  rw [native_fmt]
  cases hc : (m.fast (Opt.isNativeFixed o) && t.bwD) with
  | false =>
    simp only [hc, Bool.false_eq_true, if_false] at h
    simpa only [fastD, Bool.false_eq_true, if_false] using hd h
  | true =>
    simp only [hc, if_true] at h
    simp only [Bool.and_eq_true] at hc
    simp only [fastD, if_true]
    intro v bs r he _
    rw [encD_raw o env t m hc.1 (bwE_of_bwD t hc.2) h v] at he
    exact rawD_rawE t hc.2 v bs r he (by simp)

/-- Slices of raw elements. -/
theorem decSeq_neLen {m : Mode} (hf : m.fast (Opt.isNativeFixed o) = true)
    (hh : hostOrder o = true) {n : Nat} {bs : Bytes} (h : neLen n = .ok bs) (r : Bytes) :
    (m.fmt o).decSeq (bs ++ r) = .ok (n, r) := by
  obtain ⟨hn, pack, he⟩ := native_storage o hf
  rw [← encLen_ne o hn hh] at h
  rw [he]
  exact decLen_encLen o h r

theorem seq3 {a b c : Enc} {bs : Bytes} (h : (a +> b +> c) = .ok bs) :
    ∃ x y z, a = .ok x ∧ b = .ok y ∧ c = .ok z ∧ bs = x ++ (y ++ z) := by
  obtain ⟨x, w, hx, hw, rfl⟩ := Enc.seq_eq_ok.mp h
  obtain ⟨y, z, hy, hz, rfl⟩ := Enc.seq_eq_ok.mp hw
  exact ⟨x, y, z, hx, hy, hz, rfl⟩

mutual

theorem rtD : ∀ (t : Ty) (m : Mode) (tail : Bool),
    t.ok (Opt.isNativeFixed o) (hostOrder o) m tail = true → t.envOk env →
    RT tail (encD o env t m) (decD o env t m)
  | .prim p, m, tail, _, _ => by
    intro v bs r he _
    simp only [encD] at he
    simp only [decD]
    exact (m.lawful o).prim p v bs r he
  | .nonZero s w, m, tail, h, _ => by
    intro v bs r he _
    simp only [encD] at he
    apply decD_nonZero
    rw [native_fmt, nonZeroPrim_bwD, Bool.and_true]
    cases hf : m.fast (Opt.isNativeFixed o) with
    | false => exact (m.lawful o).prim _ _ bs r he
    | true =>
      simp only [Ty.ok, hf, Bool.not_true, Bool.false_or] at h
      obtain ⟨hn, pack, hF⟩ := native_storage o hf
      rw [hF] at he
      have : bs = rawPrim (nonZeroPrim s w) (nonZeroRaw s w v.1) := by
        have := (encPrim_raw o hn (nonZeroPrim s w) h (nonZeroRaw s w v.1)).symm.trans he
        cases this; rfl
      rw [this]
      exact unrawPrim_rawPrim _ (nonZeroPrim_bwD s w) _ r
  | .unit, m, tail, _, _ => by
    intro v bs r he _
    simp only [encD] at he
    simp only [decD]
    exact (m.lawful o).unit bs r he
  | .bytes, m, tail, _, _ => by
    intro v bs r he _
    simp only [encD] at he
    simp only [decD]
    exact (m.lawful o).bytes v bs r he
  | .string, m, tail, _, _ => by
    intro v bs r he _
    simp only [encD] at he
    simp only [decD]
    rw [Dec.bind_ok ((m.lawful o).str v.bytes bs r he), ofExcept_ok (toStr_val v)]
  | .byteArray n, m, tail, _, _ => by
    intro v bs r he _
    simp only [encD] at he
    simp only [decD]
    have := (m.lawful o).arr v.1 bs r he
    rw [v.2] at this
    rw [Dec.bind_ok this, ofExcept_ok (toArray_val v)]
  | .option t, m, tail, h, henv => by
    simp only [Ty.ok] at h
    rw [Bool.and_eq_true] at h
    simp only [Ty.envOk] at henv
    have hv := rtVia o env h.2 (fun h => rtD t m tail h henv)
    intro v bs r he hr
    have hF := m.lawful o
    cases hp : (m.fmt o).pack with
    | false =>
      cases v with
      | none =>
        simp only [encD] at he
        simp only [decD]
        rw [Dec.bind_ok (hF.none hp bs r he)]; rfl
      | some x =>
        simp only [encD] at he
        obtain ⟨a, b, ha, hb, rfl⟩ := Enc.seq_eq_ok.mp he
        simp only [decD]
        rw [List.append_assoc, Dec.bind_ok (hF.some hp a _ ha)]
        simp only [if_true]
        rw [Dec.bind_ok (hv x b r hb hr)]; rfl
    | true =>
      have hm : m = .packed := by rw [pack_fmt] at hp; simpa using hp
      subst hm
      simp only [bne_self_eq_false, Bool.false_or] at h
      rw [Bool.and_eq_true] at h
      obtain ⟨⟨ht, hne⟩, -⟩ := h
      obtain rfl := hr ht
      cases v with
      | none =>
        simp only [encD, hF.packNone hp] at he
        cases he
        simp only [decD]
        rw [Dec.bind_ok (hF.packOption hp _)]; rfl
      | some x =>
        simp only [encD, hF.packSome hp] at he
        obtain ⟨a, b, ha, hb, rfl⟩ := Enc.seq_eq_ok.mp he
        cases ha
        have hbne : b ≠ [] := by
          simp only [fastE] at hb
          rw [native_fmt] at hb
          split at hb
          · rename_i hc
            rw [if_pos hc] at hne
            cases hb
            exact rawNonempty_sound t hne x
          · rename_i hc
            rw [if_neg hc] at hne
            exact nonempty_sound o env t hne x b hb
        simp only [decD]
        rw [List.nil_append, Dec.bind_ok (hF.packOption hp _)]
        have : (!(b ++ ([] : Bytes)).isEmpty) = true := by cases b <;> simp_all
        simp only [this, if_true]
        rw [Dec.bind_ok (hv x b [] hb (fun _ => rfl))]; rfl
  | .array n t, m, tail, h, henv => by
    simp only [Ty.ok] at h
    simp only [Ty.envOk] at henv
    intro v bs r he _
    have hF := m.lawful o
    simp only [encD] at he
    simp only [decD]
    have hlen := v.2
    split at he
    · rename_i hc
      rw [native_fmt] at hc
      simp only [hc, if_true, Bool.and_eq_true] at h
      simp only [Bool.and_eq_true] at hc
      obtain ⟨a, b, ha, hb, rfl⟩ := Enc.seq_eq_ok.mp he
      cases hb
      rw [List.append_assoc, Dec.bind_ok (decSeq_neLen o hc.1 h.1 ha _), if_pos hlen]
      have hv : RT false (fun v => Except.ok (t.rawE v))
          (fastD ((m.fmt o).native && t.bwD) t.rawD (decD o env t m)) := by
        have := rtVia o env (t := t) (m := m) (tail := false) (by simpa [hc.1, hc.2] using h.2)
          (fun h => rtD t m false h henv)
        simpa [native_fmt, hc.1, hc.2, fastE] using this
      have hd := decN_flatMap hv v.1 r
      rw [hlen] at hd
      rw [Dec.bind_ok hd, Dec.bind_ok (hF.endSeq r), ofExcept_ok (toArray_val v)]
    · rename_i hc
      rw [native_fmt] at hc
      obtain ⟨a, b, ha, hb, rfl⟩ := Enc.seq_eq_ok.mp he
      rw [if_neg hc] at h
      rw [List.append_assoc, Dec.bind_ok (hF.seq _ a _ ha), if_pos hlen]
      have hv := rtVia o env (t := t) (m := m) (tail := false) (by rw [if_neg hc]; exact h)
          (fun h => rtD t m false h henv)
      have hv : RT false (encD o env t m)
          (fastD ((m.fmt o).native && t.bwD) t.rawD (decD o env t m)) := by
        rw [← native_fmt] at hc
        simpa only [fastE, if_neg hc] using hv
      have hd := decN_all hv v.1 b r hb
      rw [hlen] at hd
      rw [Dec.bind_ok hd, Dec.bind_ok (hF.endSeq r), ofExcept_ok (toArray_val v)]
  | .vec t, m, tail, h, henv => by
    simp only [Ty.ok] at h
    simp only [Ty.envOk] at henv
    intro v bs r he _
    have hF := m.lawful o
    simp only [encD] at he
    simp only [decD]
    rw [native_fmt] at he ⊢
    cases hf : m.fast (Opt.isNativeFixed o) with
    | false =>
      simp only [hf, Bool.false_and, Bool.false_eq_true, if_false] at h he ⊢
      obtain ⟨a, b, ha, hb, rfl⟩ := Enc.seq_eq_ok.mp he
      rw [List.append_assoc, Dec.bind_ok (hF.seq _ a _ ha),
        Dec.bind_ok (decN_all (rtD t m false h henv) v b r hb), Dec.bind_ok (hF.endSeq r)]
      rfl
    | true =>
      simp only [hf, Bool.true_and] at h he ⊢
      cases hE : t.bwE with
      | false =>
        have hD : t.bwD = false := by
          cases hD : t.bwD with
          | false => rfl
          | true => rw [bwE_of_bwD t hD] at hE; cases hE
        simp only [hE, hD, Bool.false_eq_true, if_false] at h he ⊢
        obtain ⟨a, b, ha, hb, rfl⟩ := Enc.seq_eq_ok.mp he
        rw [List.append_assoc, Dec.bind_ok (hF.seq _ a _ ha),
          Dec.bind_ok (decN_all (rtD t m false h henv) v b r hb), Dec.bind_ok (hF.endSeq r)]
        rfl
      | true =>
        simp only [hE, if_true, Bool.or_eq_true, Bool.and_eq_true] at h he
        obtain ⟨a, b, ha, hb, rfl⟩ := Enc.seq_eq_ok.mp he
        cases hb
        cases hD : t.bwD with
        | true =>
          simp only [if_true]
          rw [List.append_assoc, Dec.bind_ok (unNeLen_neLen ha _), decN_flatMap (rawD_rawE t hD)]
        | false =>
          simp only [Bool.false_eq_true, if_false]
          have h := h.resolve_left (by simp [hD])
          rw [List.append_assoc, Dec.bind_ok (decSeq_neLen o hf h.1 ha _),
            Dec.bind_ok (decN_flatMap (decD_raw o env t m hf hE h.2) v r), Dec.bind_ok (hF.endSeq r)]
          rfl
  | .set t, m, tail, h, henv => by
    simp only [Ty.ok] at h
    simp only [Ty.envOk] at henv
    intro v bs r he _
    have hF := m.lawful o
    simp only [encD] at he
    simp only [decD]
    obtain ⟨a, b, ha, hb, rfl⟩ := Enc.seq_eq_ok.mp he
    have hv := rtVia o env h (fun h => rtD t m false h henv)
    rw [List.append_assoc, Dec.bind_ok (hF.seq _ a _ ha), Dec.bind_ok (decN_all hv v b r hb),
      Dec.bind_ok (hF.endSeq r)]
    rfl
  | .map k t, m, tail, h, henv => by
    simp only [Ty.ok] at h
    rw [Bool.and_eq_true] at h
    simp only [Ty.envOk] at henv
    intro v bs r he _
    have hF := m.lawful o
    simp only [encD] at he
    simp only [decD]
    obtain ⟨a, b, ha, hb, rfl⟩ := Enc.seq_eq_ok.mp he
    have hk := rtVia o env h.1 (fun h => rtD k m false h henv.1)
    have ht := rtVia o env h.2 (fun h => rtD t m false h henv.2)
    have hv : RT false (fun x : k.Val × t.Val =>
        fastE ((m.fmt o).native && k.bwE) (k.rawE x.1) (encD o env k m x.1) +>
        fastE ((m.fmt o).native && t.bwE) (t.rawE x.2) (encD o env t m x.2))
        (do
          let a ← fastD ((m.fmt o).native && k.bwD) k.rawD (decD o env k m)
          let b ← fastD ((m.fmt o).native && t.bwD) t.rawD (decD o env t m)
          pure (a, b)) := by
      intro x bs r he _
      obtain ⟨a, b, ha, hb, rfl⟩ := Enc.seq_eq_ok.mp he
      rw [List.append_assoc, Dec.bind_ok (hk x.1 a _ ha (by simp)),
        Dec.bind_ok (ht x.2 b _ hb (by simp))]
      rfl
    rw [List.append_assoc, Dec.bind_ok (hF.map _ a _ ha), Dec.bind_ok (decN_all hv v b r hb),
      Dec.bind_ok (hF.endMap r)]
    rfl
  | .tuple ts, m, tail, h, henv => by
    simp only [Ty.ok] at h
    simp only [Ty.envOk] at henv
    intro v bs r he hr
    have hF := m.lawful o
    simp only [encD] at he
    simp only [decD]
    obtain ⟨a, b, ha, hb, rfl⟩ := Enc.seq_eq_ok.mp he
    have := rtTys ts m tail h henv v b r hb hr 0
    rw [Nat.zero_add] at this
    rw [List.append_assoc, Dec.bind_ok (hF.seq _ a _ ha), Dec.bind_ok this]
    show ((m.fmt o).endSeq 0 >>= fun _ => pure v) r = _
    rw [Dec.bind_ok (hF.endSeq r)]
    rfl
  | .result nt t u, m, tail, h, henv => by
    simp only [Ty.ok] at h
    rw [Bool.and_eq_true] at h
    simp only [Ty.envOk] at henv
    have ht := rtVia o env h.1 (fun h => rtD t m tail h henv.1)
    have hu := rtVia o env h.2 (fun h => rtD u m tail h henv.2)
    intro v bs r he hr
    have hF := m.lawful o
    cases v with
    | inl x =>
      simp only [encD] at he
      simp only [decD]
      obtain ⟨a, b, c, ha, hb, hc, rfl⟩ := seq3 he
      have hn := decName_encName hF _ b (c ++ r) hb
      rw [resultName_ty] at hn
      rw [List.append_assoc, List.append_assoc, Dec.bind_ok (hF.variant a _ ha), Dec.bind_ok hn,
        if_pos rfl, Dec.bind_ok (ht x c r hc hr)]
      rfl
    | inr x =>
      simp only [encD] at he
      simp only [decD]
      obtain ⟨a, b, c, ha, hb, hc, rfl⟩ := seq3 he
      have hn := decName_encName hF _ b (c ++ r) hb
      rw [resultName_ty] at hn
      rw [List.append_assoc, List.append_assoc, Dec.bind_ok (hF.variant a _ ha), Dec.bind_ok hn,
        if_neg (by cases nt <;> decide), if_pos rfl, Dec.bind_ok (hu x c r hc hr)]
      rfl
  | .boxed t, m, tail, h, henv => by
    simp only [Ty.ok] at h
    simp only [Ty.envOk] at henv
    intro v bs r he hr
    simp only [encD] at he
    simp only [decD]
    exact rtBox o env h (fun h => rtD t m tail h henv) v bs r he hr
  | .wrapping t, m, tail, h, henv => by
    simp only [Ty.ok] at h
    simp only [Ty.envOk] at henv
    intro v bs r he hr
    simp only [encD] at he
    simp only [decD]
    exact rtBox o env h (fun h => rtD t m tail h henv) v bs r he hr
  | .transparent t, m, tail, h, henv => by
    simp only [Ty.ok] at h
    simp only [Ty.envOk] at henv
    intro v bs r he hr
    simp only [encD] at he
    simp only [decD]
    exact rtD t m tail h henv v bs r he hr
  | .unitStruct, m, tail, _, _ => by
    intro v bs r he _
    simp only [encD] at he
    simp only [decD]
    rw [Dec.bind_ok ((m.lawful o).map 0 bs r he)]
    exact (m.lawful o).endMap r
  | .strct nt fs, m, tail, h, henv => by
    simp only [Ty.ok, Bool.and_eq_true] at h
    simp only [Ty.envOk] at henv
    intro v bs r he _
    have hF := m.lawful o
    obtain ⟨hnd, hty⟩ := namesOk_iff h.1
    simp only [encD] at he
    simp only [decD]
    obtain ⟨a, b, ha, hb, rfl⟩ := Enc.seq_eq_ok.mp he
    rw [encFields_eq] at hb
    have hentry := rtEntry fs m h.2 henv hnd
    have hloop := loopN_entries (fun p => do
        let n ← decName (m.fmt o) nt
        decEntry o env fs m n p) (fs.encEntry o env m) (fun p k => fs.set k p) (fs.entries env v)
      (by
        intro k _ p bs r hk
        obtain ⟨x, y, hx, hy, rfl⟩ := Enc.seq_eq_ok.mp hk
        have hn := decName_encName hF _ x (y ++ r) hx
        rw [hty _ (keyOf_mem fs k)] at hn
        rw [List.append_assoc, Dec.bind_ok hn]
        exact hentry k p y r hy) fs.none b r hb
    rw [entries_length] at hloop
    rw [List.append_assoc, Dec.bind_ok (hF.map _ a _ ha), Dec.bind_ok hloop,
      Dec.bind_ok (ofExcept_ok (finish_entries env _ _ m fs h.2 henv v) r),
      Dec.bind_ok (hF.endMap r)]
    rfl
  | .packed lay fs, m, tail, h, henv => by
    simp only [Ty.ok] at h
    simp only [Ty.envOk] at henv
    intro v bs r he hr
    have hF := m.lawful o
    simp only [encD] at he
    split at he
    · rename_i hc
      rw [native_fmt] at hc
      rw [if_pos hc] at h
      simp only [Bool.and_eq_true, Bool.or_eq_true] at hc h
      cases he
      have hrd : (Ty.packed lay fs).bwD = true ∨ (Ty.packed lay fs).rd (hostOrder o) = true := by
        rcases h with h | h
        · left; simp [Ty.bwD, hc.2.1, h]
        · right; simp [Ty.rd, h]
      rcases hrd with hD | hrd
      · simp only [decD, native_fmt, hc.1, Bool.true_and]
        simp only [Ty.bwD] at hD
        rw [if_pos hD]
        simp only [Bool.and_eq_true] at hD
        exact rawDs_rawEs fs hD.2 v _ r rfl (by simp)
      · exact decD_raw o env (.packed lay fs) m hc.1 (by simp [Ty.bwE, hc.2]) hrd v _ r rfl (by simp)
    · rename_i hc
      have hc' := hc
      rw [native_fmt] at hc
      rw [if_neg hc] at h
      simp only [decD]
      have hD : ¬((m.fmt o).native && (lay && fs.bwD)) = true := by
        intro hD
        apply hc'
        simp only [Bool.and_eq_true] at hD ⊢
        exact ⟨hD.1, hD.2.1, bwEs_of_bwDs fs hD.2.2⟩
      rw [if_neg hD]
      split at he
      · cases he
      · rename_i b hb
        cases hdl : (m.fmt o).delimited with
        | true =>
          have hd : decPackFields o env fs .packed b = .ok (v, []) := by
            have hdl' := hdl
            rw [delimited_fmt] at hdl'
            have hp : (tail || m == Mode.wire || m == Mode.descriptive) = true := by
              simp only [Bool.or_eq_true] at hdl' ⊢
              rcases hdl' with h | h <;> simp [h]
            rw [hp] at h
            have := rtPack fs true h henv v b [] hb (fun _ => rfl)
            rwa [List.append_nil] at this
          exact hF.pack' hdl b bs r he _ v [] hd
        | false =>
          rw [hF.encPlain hdl] at he
          obtain rfl : b = bs := Except.ok.inj he
          rw [hF.decPlain hdl]
          have hdl' := hdl
          rw [delimited_fmt, Bool.or_eq_false_iff] at hdl'
          rw [hdl'.1, hdl'.2, Bool.or_false, Bool.or_false] at h
          exact rtPack fs tail h henv v b r hb hr
  | .unitEnum nt names, m, tail, h, _ => by
    simp only [Ty.ok] at h
    obtain ⟨hnd, hty⟩ := namesOk_iff h
    intro v bs r he _
    simp only [encD] at he
    simp only [decD]
    have hn := decName_encName (m.lawful o) _ bs r he
    have hmem : names[v] ∈ names := List.getElem_mem v.2
    rw [hty _ hmem] at hn
    rw [Dec.bind_ok hn, findName_get names hnd v]
    rfl
  | .enm nt vs, m, tail, h, henv => by
    simp only [Ty.ok, Bool.and_eq_true] at h
    simp only [Ty.envOk] at henv
    obtain ⟨hnd, hty⟩ := namesOk_iff h.1
    intro v bs r he hr
    have hF := m.lawful o
    simp only [encD] at he
    simp only [decD]
    obtain ⟨a, b, ha, hb, rfl⟩ := Enc.seq_eq_ok.mp he
    obtain ⟨n, x, y, hn, hx, hxe, rfl, hdec⟩ := rtVariants vs m tail h.2 henv hnd v b hb
    have hname := decName_encName hF n x (y ++ r) hxe
    rw [hty n hx] at hname
    rw [List.append_assoc, Dec.bind_ok (hF.variant a _ ha), List.append_assoc, Dec.bind_ok hname]
    exact hdec r hr

theorem rtTys : ∀ (ts : Tys) (m : Mode) (tail : Bool),
    ts.ok (Opt.isNativeFixed o) (hostOrder o) m tail = true → ts.envOk env →
    ∀ v bs r, encTys o env ts m v = .ok bs → (tail = true → r = []) → ∀ left,
      decTys o env ts m (left + ts.length) (bs ++ r) = .ok ((v, left), r)
  | .nil, m, tail, _, _ => by
    intro v bs r he _ left
    simp only [encTys] at he
    cases he
    simp only [decTys]
    rfl
  | .cons t ts, m, tail, h, henv => by
    simp only [Tys.ok] at h
    rw [Bool.and_eq_true] at h
    simp only [Tys.envOk] at henv
    intro v bs r he hr left
    simp only [encTys] at he
    obtain ⟨a, b, ha, hb, rfl⟩ := Enc.seq_eq_ok.mp he
    have hv := rtVia o env h.1 (fun h => rtD t m _ h henv.1)
    have hr' : (tail && ts.isNil) = true → b ++ r = [] := by
      intro hc
      simp only [Bool.and_eq_true] at hc
      cases ts with
      | nil =>
        simp only [encTys] at hb
        cases hb
        simpa using hr hc.1
      | cons _ _ => simp [Tys.isNil] at hc
    show decTys o env (.cons t ts) m (left + ts.length + 1) ((a ++ b) ++ r) = _
    simp only [decTys]
    rw [List.append_assoc, Dec.bind_ok (hv v.1 a (b ++ r) ha hr'),
      Dec.bind_ok (rtTys ts m tail h.2 henv.2 v.2 b r hb hr left)]
    rfl

theorem rtEntry : ∀ (fs : Fields) (m : Mode),
    fs.ok (Opt.isNativeFixed o) (hostOrder o) m = true → fs.envOk env → fs.names.Nodup →
    ∀ k p bs r, fs.encKnown o env m k = .ok bs →
      decEntry o env fs m (fs.keyOf k) p (bs ++ r) = .ok (fs.set k p, r)
  | .nil, m, _, _, _ => fun k => nomatch k
  | .cons n d s t fs, m, h, henv, hnd => by
    simp only [Fields.ok, Bool.and_eq_true] at h
    simp only [Fields.envOk] at henv
    simp only [Fields.names, List.nodup_cons] at hnd
    intro k p bs r he
    cases k with
    | inl v =>
      simp only [Fields.encKnown] at he
      show decEntry o env (.cons n d s t fs) m n p (bs ++ r) = _
      rw [decEntry, if_pos rfl]
      rw [Dec.bind_ok (rtD t m false h.1.2 henv.2.1 v bs r he (by simp))]
      rfl
    | inr k =>
      simp only [Fields.encKnown] at he
      have hne : n ≠ fs.keyOf k := fun hc => hnd.1 (hc ▸ keyOf_mem fs k)
      show decEntry o env (.cons n d s t fs) m (fs.keyOf k) p (bs ++ r) = _
      rw [decEntry, if_neg hne]
      rw [Dec.bind_ok (rtEntry fs m h.2 henv.2.2 hnd.2 k p.2 bs r he)]
      rfl

theorem rtPack : ∀ (fs : Fields) (tail : Bool),
    fs.packOk (Opt.isNativeFixed o) (hostOrder o) tail = true → fs.envOk env →
    RT tail (encPackFields o env fs .packed) (decPackFields o env fs .packed)
  | .nil, tail, _, _ => by
    intro v bs r he _
    simp only [encPackFields] at he
    cases he
    simp only [decPackFields]
    rfl
  | .cons n d s t fs, tail, h, henv => by
    simp only [Fields.packOk, Bool.and_eq_true, Option.isNone_iff_eq_none] at h
    simp only [Fields.envOk] at henv
    intro v bs r he hr
    obtain ⟨⟨rfl, ht⟩, hfs⟩ := h
    simp only [encPackFields, fieldPresent, if_true] at he
    obtain ⟨a, b, ha, hb, rfl⟩ := Enc.seq_eq_ok.mp he
    have hr' : (tail && fs.isNil) = true → b ++ r = [] := by
      intro hc
      simp only [Bool.and_eq_true] at hc
      cases fs with
      | nil =>
        simp only [encPackFields] at hb
        cases hb
        simpa using hr hc.1
      | cons _ _ _ _ _ => simp [Fields.isNil] at hc
    simp only [decPackFields]
    rw [List.append_assoc, Dec.bind_ok (rtD t .packed _ ht henv.2.1 v.1 a (b ++ r) ha hr'),
      Dec.bind_ok (rtPack fs tail hfs henv.2.2 v.2 b r hb hr)]
    rfl

theorem rtVariants : ∀ (vs : Variants) (m : Mode) (tail : Bool),
    vs.ok (Opt.isNativeFixed o) (hostOrder o) m tail = true → vs.envOk env → vs.names.Nodup →
    ∀ v bs, encVariants o env vs m v = .ok bs → ∃ n x y, n ∈ vs.names ∧ n ∈ vs.names ∧
      encName (m.fmt o) n = .ok x ∧ bs = x ++ y ∧
      ∀ r, (tail = true → r = []) → decVariants o env vs m n (y ++ r) = .ok (v, r)
  | .nil, m, tail, _, _, _ => fun v => nomatch v
  | .cons n t vs, m, tail, h, henv, hnd => by
    simp only [Variants.ok, Bool.and_eq_true] at h
    simp only [Variants.envOk] at henv
    simp only [Variants.names, List.nodup_cons] at hnd
    intro v bs he
    cases v with
    | inl x =>
      have hd : t.dynamic = false := by simpa using h.1.2
      simp only [encVariants, hd, Bool.false_eq_true, if_false] at he
      obtain ⟨a, b, ha, hb, rfl⟩ := Enc.seq_eq_ok.mp he
      refine ⟨n, a, b, by simp [Variants.names], by simp [Variants.names], ha, rfl, fun r hr => ?_⟩
      simp only [decVariants, if_true]
      rw [Dec.bind_ok (rtD t m tail h.1.1 henv.1 x b r hb hr)]
      rfl
    | inr x =>
      simp only [encVariants] at he
      obtain ⟨n', a, b, hn, _, ha, rfl, hdec⟩ := rtVariants vs m tail h.2 henv.2 hnd.2 x bs he
      refine ⟨n', a, b, by simp [Variants.names, hn], by simp [Variants.names, hn], ha, rfl,
        fun r hr => ?_⟩
      have hne : n ≠ n' := fun hc => hnd.1 (hc ▸ hn)
      simp only [decVariants, if_neg hne]
      rw [Dec.bind_ok (hdec r hr)]
      rfl

end

/-! ## Without the fast path byte order does not matter -/

theorem fast_false (m : Mode) : m.fast false = false := by cases m <;> rfl

mutual
theorem ok_host (h h' : Bool) : ∀ (t : Ty) (m : Mode) (tail : Bool),
    t.ok false h m tail = t.ok false h' m tail
  | .prim _, _, _ => by simp only [Ty.ok]
  | .nonZero _ _, m, _ => by simp [Ty.ok, fast_false]
  | .unit, _, _ => by simp only [Ty.ok]
  | .bytes, _, _ => by simp only [Ty.ok]
  | .string, _, _ => by simp only [Ty.ok]
  | .byteArray _, _, _ => by simp only [Ty.ok]
  | .option t, m, tail => by simp [Ty.ok, fast_false, ok_host h h' t]
  | .array _ t, m, _ => by simp [Ty.ok, fast_false, ok_host h h' t]
  | .vec t, m, _ => by simp [Ty.ok, fast_false, ok_host h h' t]
  | .set t, m, _ => by simp [Ty.ok, fast_false, ok_host h h' t]
  | .map k t, m, _ => by simp [Ty.ok, fast_false, ok_host h h' k, ok_host h h' t]
  | .tuple ts, m, tail => by simp only [Ty.ok, oks_host h h' ts]
  | .result _ t u, m, tail => by simp [Ty.ok, fast_false, ok_host h h' t, ok_host h h' u]
  | .boxed t, m, tail => by simp [Ty.ok, fast_false, ok_host h h' t]
  | .wrapping t, m, tail => by simp [Ty.ok, fast_false, ok_host h h' t]
  | .transparent t, m, tail => by simp only [Ty.ok, ok_host h h' t]
  | .unitStruct, _, _ => by simp only [Ty.ok]
  | .strct nt fs, m, _ => by simp only [Ty.ok, fields_host h h' fs]
  | .packed lay fs, m, tail => by simp [Ty.ok, fast_false, pack_host h h' fs]
  | .unitEnum nt names, _, _ => by simp only [Ty.ok]
  | .enm nt vs, m, tail => by simp only [Ty.ok, variants_host h h' vs]
theorem oks_host (h h' : Bool) : ∀ (ts : Tys) (m : Mode) (tail : Bool),
    ts.ok false h m tail = ts.ok false h' m tail
  | .nil, _, _ => by simp only [Tys.ok]
  | .cons t ts, m, tail => by simp [Tys.ok, fast_false, ok_host h h' t, oks_host h h' ts]
theorem fields_host (h h' : Bool) : ∀ (fs : Fields) (m : Mode),
    fs.ok false h m = fs.ok false h' m
  | .nil, _ => by simp only [Fields.ok]
  | .cons _ _ _ t fs, m => by simp only [Fields.ok, ok_host h h' t, fields_host h h' fs]
theorem pack_host (h h' : Bool) : ∀ (fs : Fields) (tail : Bool),
    fs.packOk false h tail = fs.packOk false h' tail
  | .nil, _ => by simp only [Fields.packOk]
  | .cons _ _ _ t fs, m => by simp only [Fields.packOk, ok_host h h' t, pack_host h h' fs]
theorem variants_host (h h' : Bool) : ∀ (vs : Variants) (m : Mode) (tail : Bool),
    vs.ok false h m tail = vs.ok false h' m tail
  | .nil, _, _ => by simp only [Variants.ok]
  | .cons _ t vs, m, tail => by simp only [Variants.ok, ok_host h h' t, variants_host h h' vs]
end

end
end Musli
