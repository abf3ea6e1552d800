import Verif.Proofs.Evolution
import Verif.Spec.Upgrade
/-!
# Reading other versions of the types
-/
set_option linter.unusedSectionVars false
namespace Musli

section
variable [Host] (o : Options) (env : Env)

/-- What an entry of this name does to the fields, if the struct is going to be `w`. -/
def Fields.put (n : Name) : (fs : Fields) → fs.Val → fs.Partial → fs.Partial
  | .nil, _, p => p
  | .cons n' _ _ _ fs, w, p => (if n' = n then some w.1 else p.1, fs.put n w.2 p.2)

omit [Host] in
theorem put_not_mem {n : Name} : ∀ (fs : Fields), n ∉ fs.names → ∀ w p, fs.put n w p = p
  | .nil, _, _, _ => rfl
  | .cons n' _ _ _ fs, h, w, p => by
    simp only [Fields.names, List.mem_cons, not_or] at h
    simp only [Fields.put, if_neg (fun hc => h.1 (Eq.symm hc)), put_not_mem fs h.2]

omit [Host] in
theorem put_foldl {n' d s t} {fs : Fields} (w : (Fields.cons n' d s t fs).Val) : ∀ (es : List Written)
    (p : (Fields.cons n' d s t fs).Partial),
    es.foldl (fun p e => (Fields.cons n' d s t fs).put e.name w p) p =
      (if es.any (fun e => n' = e.name) then some w.1 else p.1,
        es.foldl (fun p e => fs.put e.name w.2 p) p.2)
  | [], p => rfl
  | e :: es, p => by
    rw [List.foldl_cons, put_foldl w es]
    simp only [Fields.put, List.any_cons, List.foldl_cons]
    congr 1
    by_cases h : n' = e.name <;> simp [h]

theorem written_length : ∀ (fs : Fields) (v : fs.Val), (fs.written env v).length = fs.count env v
  | .nil, _ => rfl
  | .cons _ _ skip t fs, v => by
    simp only [Fields.written, Fields.count, List.length_append, written_length fs v.2]
    split <;> simp

/-- The bytes of an entry. -/
def Written.enc (m : Mode) (e : Written) : Enc := encName (m.fmt o) e.name +> encD o env e.ty m e.val

theorem encFields_written (m : Mode) : ∀ (fs : Fields) (v : fs.Val),
    encFields o env fs m v = Enc.all (Written.enc o env m) (fs.written env v)
  | .nil, _ => by simp [encFields, Fields.written, Enc.all]
  | .cons n d skip t fs, v => by
    simp only [encFields, Fields.written]
    rw [all_append, encFields_written m fs v.2]
    congr 1
    split
    · simp only [Enc.all, Written.enc]
      cases encName (Mode.fmt o m) n <;> cases encD o env t m v.1 <;> simp [Enc.seq]
    · rfl

theorem encVariants_written (N H : Bool) (m : Mode) : ∀ (vs : Variants) (v : vs.Val), vs.ok N H m false = true →
    encVariants o env vs m v = Written.enc o env m (vs.written v)
  | .nil, v, _ => nomatch v
  | .cons n t vs, .inl x, h => by
    simp only [Variants.ok, Bool.and_eq_true] at h
    have hd : t.dynamic = false := by simpa using h.1.2
    simp only [encVariants, Variants.written, Written.enc, hd, Bool.false_eq_true, if_false]
  | .cons n t vs, .inr x, h => by
    simp only [Variants.ok, Bool.and_eq_true] at h
    simp only [encVariants, Variants.written]
    exact encVariants_written N H m vs x h.2

omit [Host] in
theorem written_names : ∀ (fs : Fields) (v : fs.Val),
    ((fs.written env v).map Written.name).Sublist fs.names
  | .nil, _ => List.Sublist.slnil
  | .cons n d skip t fs, v => by
    simp only [Fields.written, Fields.names, List.map_append]
    split
    · exact (written_names fs v.2).cons_cons _
    · exact (written_names fs v.2).cons _

omit [Host] in
theorem written_ok (N H : Bool) (m : Mode) : ∀ (fs : Fields) (v : fs.Val), fs.ok N H m = true →
    ∀ e ∈ fs.written env v, e.ty.ok N H m false = true
  | .nil, _, _, e, he => nomatch he
  | .cons n d skip t fs, v, h, e, he => by
    simp only [Fields.ok, Bool.and_eq_true] at h
    simp only [Fields.written, List.mem_append] at he
    rcases he with he | he
    · split at he
      · obtain rfl := List.mem_singleton.mp he
        exact h.1.2
      · nomatch he
    · exact written_ok N H m fs v.2 h.2 e he

omit [Host] in
theorem variantWritten_ok (N H : Bool) (m : Mode) : ∀ (vs : Variants) (v : vs.Val), vs.ok N H m false = true →
    (vs.written v).ty.ok N H m false = true ∧ (vs.written v).name ∈ vs.names
  | .nil, v, _ => nomatch v
  | .cons n t vs, .inl x, h => by
    simp only [Variants.ok, Bool.and_eq_true] at h
    exact ⟨h.1.1, by simp [Variants.written, Variants.names]⟩
  | .cons n t vs, .inr x, h => by
    simp only [Variants.ok, Bool.and_eq_true] at h
    obtain ⟨h1, h2⟩ := variantWritten_ok N H m vs x h.2
    exact ⟨h1, by simp [Variants.written, Variants.names, h2]⟩

omit [Host] in
theorem eq_of_name {es : List Written} (h : (es.map Written.name).Nodup) {a b : Written} (ha : a ∈ es)
    (hb : b ∈ es) (hn : a.name = b.name) : a = b := by
  induction es with
  | nil => nomatch ha
  | cons e es ih =>
    simp only [List.map_cons, List.nodup_cons, List.mem_map, not_exists, not_and] at h
    rcases List.mem_cons.mp ha with rfl | ha' <;> rcases List.mem_cons.mp hb with rfl | hb'
    · rfl
    · exact absurd hn.symm (h.1 b hb')
    · exact absurd hn (h.1 a ha')
    · exact ih h.2 ha' hb'

theorem decVariants_notFound (m : Mode) : ∀ (vs : Variants) (n : Name), n ∉ vs.names → ∀ s,
    decVariants o env vs m n s = .error .unknown
  | .nil, n, _, s => by simp only [decVariants]; rfl
  | .cons n' t vs, n, h, s => by
    simp only [Variants.names, List.mem_cons, not_or] at h
    rw [decVariants, if_neg (fun hc => h.1 (Eq.symm hc)), Dec.bind_error (decVariants_notFound m vs n h.2 s)]

variable {m : Mode} {step : Dec Nat}

/-- What reading a value as another type gives. -/
abbrev M1 (o : Options) (env : Env) (m : Mode) (s t : Ty) (v : s.Val) (w : t.Val) : Prop :=
  s.ok (Opt.isNativeFixed o) (hostOrder o) m false = true → t.ok (Opt.isNativeFixed o) (hostOrder o) m false = true →
    t.envOk env → ∀ bs r, encD o env s m v = .ok bs → decD o env t m (bs ++ r) = .ok (w, r)

/-- As above, for lists. -/
abbrev M2 (o : Options) (env : Env) (m : Mode) (s t : Ty) (xs : List s.Val) (ys : List t.Val) : Prop :=
  s.ok (Opt.isNativeFixed o) (hostOrder o) m false = true → t.ok (Opt.isNativeFixed o) (hostOrder o) m false = true →
    t.envOk env → xs.length = ys.length ∧ ∀ bs r, Enc.all (encD o env s m) xs = .ok bs →
      decN (decD o env t m) xs.length (bs ++ r) = .ok (ys, r)

/-- One entry of a map. -/
def decPair (o : Options) (env : Env) (m : Mode) (l t : Ty) : Dec (l.Val × t.Val) := do
  let a ← decD o env l m
  let b ← decD o env t m
  pure (a, b)

/-- As above, for lists of pairs. -/
abbrev M3 (o : Options) (env : Env) (m : Mode) (k l s t : Ty) (xs : List (k.Val × s.Val))
    (ys : List (l.Val × t.Val)) : Prop :=
  k.ok (Opt.isNativeFixed o) (hostOrder o) m false = true → l.ok (Opt.isNativeFixed o) (hostOrder o) m false = true →
  l.envOk env →
  s.ok (Opt.isNativeFixed o) (hostOrder o) m false = true → t.ok (Opt.isNativeFixed o) (hostOrder o) m false = true →
    t.envOk env → ∀ bs r, Enc.all (fun x : k.Val × s.Val => encD o env k m x.1 +> encD o env s m x.2) xs = .ok bs →
      decN (decPair o env m l t) xs.length (bs ++ r) = .ok (ys, r)

/-- As above, for tuples. -/
abbrev M4 (o : Options) (env : Env) (m : Mode) (ss ts : Tys) (v : ss.Val) (w : ts.Val) : Prop :=
  ss.ok (Opt.isNativeFixed o) (hostOrder o) m false = true → ts.ok (Opt.isNativeFixed o) (hostOrder o) m false = true →
    ts.envOk env → ss.length = ts.length ∧ ∀ bs r, encTys o env ss m v = .ok bs → ∀ left,
      decTys o env ts m (left + ts.length) (bs ++ r) = .ok ((w, left), r)

/-- As above, for fields. -/
abbrev M5 (o : Options) (env : Env) (m : Mode) (es : List Written) (fs : Fields) (w : fs.Val) : Prop :=
  (es.map Written.name).Nodup → (∀ e ∈ es, e.ty.ok (Opt.isNativeFixed o) (hostOrder o) m false = true) →
    fs.ok (Opt.isNativeFixed o) (hostOrder o) m = true → fs.envOk env → fs.names.Nodup →
    (∀ e ∈ es, ∀ p b r, encD o env e.ty m e.val = .ok b →
      decEntry o env fs m e.name p (b ++ r) = .ok (fs.put e.name w p, r)) ∧
    fs.finish env (es.foldl (fun p e => fs.put e.name w p) fs.none) = .ok w

/-- As above, for variants. -/
abbrev M6 (o : Options) (env : Env) (m : Mode) (e : Written) (vs : Variants) (w : vs.Val) : Prop :=
  e.ty.ok (Opt.isNativeFixed o) (hostOrder o) m false = true → vs.ok (Opt.isNativeFixed o) (hostOrder o) m false = true →
    vs.envOk env → ∀ bs r, encD o env e.ty m e.val = .ok bs →
      decVariants o env vs m e.name (bs ++ r) = .ok (w, r)

theorem upgradeStrct {nt : NameTy} {fs : Fields} {w : fs.Val} {es : List Written}
    (h : M5 o env m es fs w) (hnd : (es.map Written.name).Nodup) (hty : ∀ e ∈ es, e.name.ty = nt)
    (hok : ∀ e ∈ es, e.ty.ok (Opt.isNativeFixed o) (hostOrder o) m false = true)
    (ht : (Ty.strct nt fs).ok (Opt.isNativeFixed o) (hostOrder o) m false = true) (henv : fs.envOk env)
    (a b r : Bytes) (ha : (m.fmt o).encMap es.length = .ok a) (hb : Enc.all (Written.enc o env m) es = .ok b) :
    decD o env (.strct nt fs) m (a ++ b ++ r) = .ok (w, r) := by
  have hF := m.lawful o
  simp only [Ty.ok, Bool.and_eq_true] at ht
  obtain ⟨hnd', _⟩ := namesOk_iff ht.1
  obtain ⟨hent, hfin⟩ := h hnd hok ht.2 henv hnd'
  have hloop := loopN_entries (fun p => do
      let n ← decName (m.fmt o) nt
      decEntry o env fs m n p) (Written.enc o env m) (fun p e => fs.put e.name w p) es
    (by
      intro e he p bs r hk
      obtain ⟨x, y, hx, hy, rfl⟩ := Enc.seq_eq_ok.mp hk
      have hn := decName_encName hF _ x (y ++ r) hx
      rw [hty e he] at hn
      rw [List.append_assoc, Dec.bind_ok hn]
      exact hent e he p y r hy) fs.none b r hb
  simp only [decD]
  rw [List.append_assoc, Dec.bind_ok (hF.map _ a _ ha), Dec.bind_ok hloop,
    Dec.bind_ok (ofExcept_ok hfin r), Dec.bind_ok (hF.endMap r)]
  rfl

theorem endMap_written (hS : (m.fmt o).Skippable step true) (hskip : (m.fmt o).skip = skipAny step)
    (hc : Consumes step)
    (hend : ∀ n, (m.fmt o).endMap (n + 1) = (m.fmt o).skip >>= fun _ => (m.fmt o).skip >>= fun _ => (m.fmt o).endMap n) :
    ∀ (es : List Written) (b r : Bytes), (∀ e ∈ es, e.ty.counted = true) →
      Enc.all (Written.enc o env m) es = .ok b → (m.fmt o).endMap es.length (b ++ r) = .ok ((), r)
  | [], b, r, _, hb => by
    cases hb
    exact (m.lawful o).endMap r
  | e :: es, b, r, hk, hb => by
    obtain ⟨x, y, hx, hy, rfl⟩ := Enc.seq_eq_ok.mp hb
    obtain ⟨p, q, hp, hq, rfl⟩ := Enc.seq_eq_ok.mp hx
    rw [List.length_cons, hend, hskip, List.append_assoc, List.append_assoc,
      Dec.bind_ok (skipAny_of_skips hc (skips_name o hS (.inl rfl) hp) _),
      Dec.bind_ok (skipAny_of_skips hc (skipsD o env hS e.ty (.inl rfl) (hk e (by simp)) e.val q hq) _)]
    exact endMap_written hS hskip hc hend es y r (fun e h => hk e (by simp [h])) hy

theorem upgradeD (hf : m.fast (Opt.isNativeFixed o) = false) (hp : m ≠ .packed) (hS : (m.fmt o).Skippable step true)
    (hskip : (m.fmt o).skip = skipAny step) (hc : Consumes step)
    (hend : ∀ n, (m.fmt o).endMap (n + 1) = (m.fmt o).skip >>= fun _ => (m.fmt o).skip >>= fun _ => (m.fmt o).endMap n)
    {s t : Ty} {v : s.Val} {w : t.Val}
    (h : Upgrade env s t v w) : M1 o env m s t v w := by
  have hF := m.lawful o
  have hpack : (m.fmt o).pack = false := by rw [pack_fmt]; simpa using hp
  have hN : (m.fmt o).native = false := by rw [native_fmt, hf]
  refine Upgrade.rec (env := env)
    (motive_1 := fun s t v w _ => M1 o env m s t v w)
    (motive_2 := fun s t xs ys _ => M2 o env m s t xs ys)
    (motive_3 := fun k l s t xs ys _ => M3 o env m k l s t xs ys)
    (motive_4 := fun ss ts v w _ => M4 o env m ss ts v w)
    (motive_5 := fun es fs w _ => M5 o env m es fs w)
    (motive_6 := fun e vs w _ => M6 o env m e vs w)
    ?same ?none ?some ?vec ?set ?vecToSet ?setToVec ?array ?arrayToVec ?map ?tuple ?resultOk ?resultErr ?unbox ?box
    ?unwrap ?wrap ?unwrapping ?wrapping ?strct ?grow ?shrink ?unitEnum ?enm
    ?lnil ?lcons ?pnil ?pcons ?tnil ?tcons ?fnil ?ffound ?fabsent ?vhere ?vthere h
  case same =>
    intro t v _ hok henv bs r he
    exact rtD o env t m false hok henv v bs r he (by simp)
  case none =>
    intro s t _ _ _ bs r he
    simp only [encD] at he
    simp only [decD]
    rw [Dec.bind_ok (hF.none hpack bs r he)]
    rfl
  case some =>
    intro s t x y _ ih hs ht henv bs r he
    simp only [Ty.ok, hf, Bool.false_and, Bool.false_eq_true, if_false, Bool.and_eq_true] at hs ht
    simp only [Ty.envOk] at henv
    simp only [encD, hN, Bool.false_and, fastE, Bool.false_eq_true, if_false] at he
    simp only [decD, hN, Bool.false_and, fastD, Bool.false_eq_true, if_false]
    obtain ⟨a, b, ha, hb, rfl⟩ := Enc.seq_eq_ok.mp he
    rw [List.append_assoc, Dec.bind_ok (hF.some hpack a _ ha), if_pos rfl, Dec.bind_ok (ih hs.2 ht.2 henv b r hb)]
    rfl
  case vec =>
    intro s t xs ys _ ih hs ht henv bs r he
    simp only [Ty.ok, hf, Bool.false_and, Bool.false_eq_true, if_false] at hs ht
    simp only [Ty.envOk] at henv
    simp only [encD, hN, Bool.false_and, Bool.false_eq_true, if_false] at he
    simp only [decD, hN, Bool.false_and, Bool.false_eq_true, if_false]
    obtain ⟨a, b, ha, hb, rfl⟩ := Enc.seq_eq_ok.mp he
    obtain ⟨_, ih⟩ := ih hs ht henv
    rw [List.append_assoc, Dec.bind_ok (hF.seq _ a _ ha), Dec.bind_ok (ih b r hb), Dec.bind_ok (hF.endSeq r)]
    rfl
  case set =>
    intro s t xs ys _ ih hs ht henv bs r he
    simp only [Ty.ok, hf, Bool.false_and, Bool.false_eq_true, if_false] at hs ht
    simp only [Ty.envOk] at henv
    simp only [encD, hN, Bool.false_and, fastE, Bool.false_eq_true, if_false] at he
    simp only [decD, hN, Bool.false_and, fastD, Bool.false_eq_true, if_false]
    obtain ⟨a, b, ha, hb, rfl⟩ := Enc.seq_eq_ok.mp he
    obtain ⟨_, ih⟩ := ih hs ht henv
    rw [List.append_assoc, Dec.bind_ok (hF.seq _ a _ ha), Dec.bind_ok (ih b r hb), Dec.bind_ok (hF.endSeq r)]
    rfl
  case vecToSet =>
    intro s t xs ys _ ih hs ht henv bs r he
    simp only [Ty.ok, hf, Bool.false_and, Bool.false_eq_true, if_false] at hs ht
    simp only [Ty.envOk] at henv
    simp only [encD, hN, Bool.false_and, fastE, Bool.false_eq_true, if_false] at he
    simp only [decD, hN, Bool.false_and, fastD, Bool.false_eq_true, if_false]
    obtain ⟨a, b, ha, hb, rfl⟩ := Enc.seq_eq_ok.mp he
    obtain ⟨_, ih⟩ := ih hs ht henv
    rw [List.append_assoc, Dec.bind_ok (hF.seq _ a _ ha), Dec.bind_ok (ih b r hb), Dec.bind_ok (hF.endSeq r)]
    rfl
  case setToVec =>
    intro s t xs ys _ ih hs ht henv bs r he
    simp only [Ty.ok, hf, Bool.false_and, Bool.false_eq_true, if_false] at hs ht
    simp only [Ty.envOk] at henv
    simp only [encD, hN, Bool.false_and, fastE, Bool.false_eq_true, if_false] at he
    simp only [decD, hN, Bool.false_and, fastD, Bool.false_eq_true, if_false]
    obtain ⟨a, b, ha, hb, rfl⟩ := Enc.seq_eq_ok.mp he
    obtain ⟨_, ih⟩ := ih hs ht henv
    rw [List.append_assoc, Dec.bind_ok (hF.seq _ a _ ha), Dec.bind_ok (ih b r hb), Dec.bind_ok (hF.endSeq r)]
    rfl
  case array =>
    intro n s t xs ys _ ih hs ht henv bs r he
    simp only [Ty.ok, hf, Bool.false_and, Bool.false_eq_true, if_false] at hs ht
    simp only [Ty.envOk] at henv
    simp only [encD, hN, Bool.false_and, fastE, Bool.false_eq_true, if_false] at he
    simp only [decD, hN, Bool.false_and, fastD, Bool.false_eq_true, if_false]
    obtain ⟨a, b, ha, hb, rfl⟩ := Enc.seq_eq_ok.mp he
    obtain ⟨_, ih⟩ := ih hs ht henv
    have hx : xs.1.length = n := xs.2
    have ih := ih b r hb
    rw [hx] at ha ih
    have hto : toArray n ys.1 = .ok ys := by
      unfold toArray
      rw [dif_pos ys.2]
    rw [List.append_assoc, Dec.bind_ok (hF.seq _ a _ ha), if_pos rfl, Dec.bind_ok ih, Dec.bind_ok (hF.endSeq r),
      ofExcept_ok hto r]
  case arrayToVec =>
    intro n s t xs ys _ ih hs ht henv bs r he
    simp only [Ty.ok, hf, Bool.false_and, Bool.false_eq_true, if_false] at hs ht
    simp only [Ty.envOk] at henv
    simp only [encD, hN, Bool.false_and, fastE, Bool.false_eq_true, if_false] at he
    simp only [decD, hN, Bool.false_and, fastD, Bool.false_eq_true, if_false]
    obtain ⟨a, b, ha, hb, rfl⟩ := Enc.seq_eq_ok.mp he
    obtain ⟨_, ih⟩ := ih hs ht henv
    rw [List.append_assoc, Dec.bind_ok (hF.seq _ a _ ha), Dec.bind_ok (ih b r hb), Dec.bind_ok (hF.endSeq r)]
    rfl
  case map =>
    intro k l s t xs ys _ ih hs ht henv bs r he
    simp only [Ty.ok, hf, Bool.false_and, Bool.false_eq_true, if_false, Bool.and_eq_true] at hs ht
    simp only [Ty.envOk] at henv
    simp only [encD, hN, Bool.false_and, fastE, Bool.false_eq_true, if_false] at he
    simp only [decD, hN, Bool.false_and, fastD, Bool.false_eq_true, if_false]
    obtain ⟨a, b, ha, hb, rfl⟩ := Enc.seq_eq_ok.mp he
    have ih := ih hs.1 ht.1 henv.1 hs.2 ht.2 henv.2
    rw [List.append_assoc, Dec.bind_ok (hF.map _ a _ ha)]
    have h1 := ih b r hb
    unfold decPair at h1
    rw [Dec.bind_ok h1, Dec.bind_ok (hF.endMap r)]
    rfl
  case tuple =>
    intro ss ts v w _ ih hs ht henv bs r he
    simp only [Ty.ok] at hs ht
    simp only [Ty.envOk] at henv
    simp only [encD] at he
    simp only [decD]
    obtain ⟨a, b, ha, hb, rfl⟩ := Enc.seq_eq_ok.mp he
    obtain ⟨hl, ih⟩ := ih hs ht henv
    have := ih b r hb 0
    rw [Nat.zero_add, ← hl] at this
    rw [List.append_assoc, Dec.bind_ok (hF.seq _ a _ ha), Dec.bind_ok this]
    show ((m.fmt o).endSeq 0 >>= fun _ => pure w) r = _
    rw [Dec.bind_ok (hF.endSeq r)]
    rfl
  case resultOk =>
    intro nt s t s' t' x y _ ih hs ht henv bs r he
    simp only [Ty.ok, hf, Bool.false_and, Bool.false_eq_true, if_false, Bool.and_eq_true] at hs ht
    simp only [Ty.envOk] at henv
    simp only [encD, hN, Bool.false_and, fastE, Bool.false_eq_true, if_false] at he
    simp only [decD, hN, Bool.false_and, fastD, Bool.false_eq_true, if_false]
    obtain ⟨a, b, c, ha, hb, hc, rfl⟩ := seq3 he
    have hn := decName_encName hF _ b (c ++ r) hb
    rw [resultName_ty] at hn
    rw [List.append_assoc, List.append_assoc, Dec.bind_ok (hF.variant a _ ha), Dec.bind_ok hn,
      if_pos rfl, Dec.bind_ok (ih hs.1 ht.1 henv.1 c r hc)]
    rfl
  case resultErr =>
    intro nt s t s' t' x y _ ih hs ht henv bs r he
    simp only [Ty.ok, hf, Bool.false_and, Bool.false_eq_true, if_false, Bool.and_eq_true] at hs ht
    simp only [Ty.envOk] at henv
    simp only [encD, hN, Bool.false_and, fastE, Bool.false_eq_true, if_false] at he
    simp only [decD, hN, Bool.false_and, fastD, Bool.false_eq_true, if_false]
    obtain ⟨a, b, c, ha, hb, hc, rfl⟩ := seq3 he
    have hn := decName_encName hF _ b (c ++ r) hb
    rw [resultName_ty] at hn
    rw [List.append_assoc, List.append_assoc, Dec.bind_ok (hF.variant a _ ha), Dec.bind_ok hn,
      if_neg (by cases nt <;> decide), if_pos rfl, Dec.bind_ok (ih hs.2 ht.2 henv.2 c r hc)]
    rfl
  case unbox =>
    intro s t x y _ ih hs ht henv bs r he
    simp only [Ty.ok, hf, Bool.false_and, Bool.false_eq_true, if_false] at hs
    simp only [encD] at he
    exact ih hs ht henv bs r he
  case box =>
    intro s t x y _ ih hs ht henv bs r he
    simp only [Ty.ok, hf, Bool.false_and, Bool.false_eq_true, if_false] at ht
    simp only [Ty.envOk] at henv
    simp only [decD, hN, Bool.false_and, fastD, Bool.false_eq_true, if_false]
    exact ih hs ht henv bs r he
  case unwrap =>
    intro s t x y _ ih hs ht henv bs r he
    simp only [Ty.ok] at hs
    simp only [encD] at he
    exact ih hs ht henv bs r he
  case wrap =>
    intro s t x y _ ih hs ht henv bs r he
    simp only [Ty.ok] at ht
    simp only [Ty.envOk] at henv
    simp only [decD]
    exact ih hs ht henv bs r he
  case unwrapping =>
    intro s t x y _ ih hs ht henv bs r he
    simp only [Ty.ok, hf, Bool.false_and, Bool.false_eq_true, if_false] at hs
    simp only [encD] at he
    exact ih hs ht henv bs r he
  case wrapping =>
    intro s t x y _ ih hs ht henv bs r he
    simp only [Ty.ok, hf, Bool.false_and, Bool.false_eq_true, if_false] at ht
    simp only [Ty.envOk] at henv
    simp only [decD, hN, Bool.false_and, fastD, Bool.false_eq_true, if_false]
    exact ih hs ht henv bs r he
  case strct =>
    intro nt gs fs v w _ ih hs ht henv bs r he
    simp only [Ty.ok, Bool.and_eq_true] at hs
    simp only [Ty.envOk] at henv
    simp only [encD] at he
    obtain ⟨a, b, ha, hb, rfl⟩ := Enc.seq_eq_ok.mp he
    rw [encFields_written] at hb
    rw [← written_length] at ha
    obtain ⟨hnd, hty⟩ := namesOk_iff hs.1
    have hsub := written_names env gs v
    exact upgradeStrct o env ih (hsub.nodup hnd)
      (fun e he => hty _ (hsub.subset (List.mem_map.mpr ⟨e, he, rfl⟩)))
      (written_ok env _ _ m gs v hs.2) ht henv a b r ha hb
  case grow =>
    intro nt fs w _ ih hs ht henv bs r he
    simp only [Ty.envOk] at henv
    simp only [encD] at he
    have := upgradeStrct o env (nt := nt) ih List.nodup_nil (fun e he => nomatch he) (fun e he => nomatch he) ht henv
      bs [] r he rfl
    rwa [List.append_nil] at this
  case shrink =>
    intro nt gs v hs _ _ bs r he
    simp only [encD] at he
    obtain ⟨a, b, ha, hb, rfl⟩ := Enc.seq_eq_ok.mp he
    rw [encFields_written] at hb
    rw [← written_length] at ha
    simp only [decD]
    rw [List.append_assoc, Dec.bind_ok (hF.map _ a _ ha)]
    simp only [Ty.ok, Bool.and_eq_true] at hs
    exact endMap_written o env hS hskip hc hend _ b r
      (fun e he => e.ty.counted_of_ok hf _ (written_ok env _ _ m gs v hs.2 e he)) hb
  case unitEnum =>
    intro nt names names' i j hij hs ht _ bs r he
    simp only [Ty.ok] at hs ht
    obtain ⟨_, hty⟩ := namesOk_iff hs
    obtain ⟨hnd, _⟩ := namesOk_iff ht
    simp only [encD] at he
    simp only [decD]
    have hn := decName_encName hF _ bs r he
    have hmem : names[i] ∈ names := List.getElem_mem i.2
    rw [hty _ hmem] at hn
    rw [Dec.bind_ok hn, hij, findName_get names' hnd j]
    rfl
  case enm =>
    intro nt us vs v w _ ih hs ht henv bs r he
    simp only [Ty.ok, Bool.and_eq_true] at hs ht
    simp only [Ty.envOk] at henv
    simp only [encD] at he
    simp only [decD]
    obtain ⟨a, b, ha, hb, rfl⟩ := Enc.seq_eq_ok.mp he
    rw [encVariants_written o env _ _ m us v hs.2] at hb
    obtain ⟨x, y, hx, hy, rfl⟩ := Enc.seq_eq_ok.mp hb
    obtain ⟨_, hty⟩ := namesOk_iff hs.1
    obtain ⟨hok, hmem⟩ := variantWritten_ok _ _ m us v hs.2
    have hname := decName_encName hF _ x (y ++ r) hx
    rw [hty _ hmem] at hname
    rw [List.append_assoc, Dec.bind_ok (hF.variant a _ ha), List.append_assoc, Dec.bind_ok hname]
    exact ih hok ht.2 henv y r hy
  case lnil =>
    intro s t _ _ _
    refine ⟨rfl, fun bs r he => ?_⟩
    cases he
    rfl
  case lcons =>
    intro s t x y xs ys _ _ ihx ih hs ht henv
    obtain ⟨hl, ih⟩ := ih hs ht henv
    refine ⟨by simp [hl], fun bs r he => ?_⟩
    obtain ⟨a, b, ha, hb, rfl⟩ := Enc.seq_eq_ok.mp he
    show (decD o env t m >>= fun a => decN (decD o env t m) xs.length >>= fun l => pure (a :: l)) _ = _
    rw [List.append_assoc, Dec.bind_ok (ihx hs ht henv a (b ++ r) ha), Dec.bind_ok (ih b r hb)]
    rfl
  case pnil =>
    intro k l s t _ _ _ _ _ _ bs r he
    cases he
    rfl
  case pcons =>
    intro k l s t a b x y xs ys _ _ _ iha ihx ih hk hl hle hs ht hte bs r he
    obtain ⟨p, q, hp, hq, rfl⟩ := Enc.seq_eq_ok.mp he
    obtain ⟨p1, p2, hp1, hp2, rfl⟩ := Enc.seq_eq_ok.mp hp
    have h1 : decPair o env m l t (p1 ++ p2 ++ (q ++ r)) = .ok ((b, y), q ++ r) := by
      unfold decPair
      rw [List.append_assoc, Dec.bind_ok (iha hk hl hle p1 _ hp1), Dec.bind_ok (ihx hs ht hte p2 _ hp2)]
      rfl
    show (decPair o env m l t >>= fun a => decN (decPair o env m l t) xs.length >>= fun l => pure (a :: l)) _ = _
    rw [List.append_assoc, Dec.bind_ok h1, Dec.bind_ok (ih hk hl hle hs ht hte q r hq)]
    rfl
  case tnil =>
    intro _ _ _
    refine ⟨rfl, fun bs r he left => ?_⟩
    simp only [encTys] at he
    cases he
    simp only [decTys]
    rfl
  case tcons =>
    intro s t ss ts x y xs ys _ _ ihx ih hs ht henv
    simp only [Tys.ok, hf, Bool.false_and, Bool.false_eq_true, if_false, Bool.and_eq_true] at hs ht
    simp only [Tys.envOk] at henv
    obtain ⟨hl, ih⟩ := ih hs.2 ht.2 henv.2
    refine ⟨by simp [Tys.length, hl], fun bs r he left => ?_⟩
    simp only [encTys, hN, Bool.false_and, fastE, Bool.false_eq_true, if_false] at he
    obtain ⟨a, b, ha, hb, rfl⟩ := Enc.seq_eq_ok.mp he
    show decTys o env (.cons t ts) m (left + ts.length + 1) ((a ++ b) ++ r) = _
    simp only [decTys, hN, Bool.false_and, fastD, Bool.false_eq_true, if_false]
    rw [List.append_assoc, Dec.bind_ok (ihx hs.1 ht.1 henv.1 a (b ++ r) ha), Dec.bind_ok (ih b r hb left)]
    rfl
  case fnil =>
    intro es hnd hok _ _ _
    refine ⟨fun e he p b r hb => ?_, rfl⟩
    simp only [decEntry]
    rw [hskip]
    exact skipAny_of_skips hc (skipsD o env hS e.ty (.inl rfl) (e.ty.counted_of_ok hf _ (hok e he)) e.val b hb) r
  case ffound =>
    intro es e n d sk t fs y ys hmem hname _ _ ihy ih hnd hok hfs henv hnames
    simp only [Fields.ok, Bool.and_eq_true] at hfs
    simp only [Fields.envOk] at henv
    simp only [Fields.names, List.nodup_cons] at hnames
    obtain ⟨hent, hfin⟩ := ih hnd hok hfs.2 henv.2.2 hnames.2
    constructor
    · intro e' he' p b r hb
      rw [decEntry]
      by_cases hn : n = e'.name
      · obtain rfl := eq_of_name hnd hmem he' (hname.trans hn)
        rw [if_pos hn, Dec.bind_ok (ihy (hok e hmem) hfs.1.2 henv.2.1 b r hb)]
        have hnot : e.name ∉ fs.names := hn ▸ hnames.1
        show _ = Except.ok (((if n = e.name then some y else p.1, fs.put e.name ys p.2) :
          (Fields.cons n d sk t fs).Partial), r)
        rw [put_not_mem fs hnot, if_pos hn]
        rfl
      · rw [if_neg hn, Dec.bind_ok (hent e' he' p.2 b r hb)]
        show _ = Except.ok (((if n = e'.name then some y else p.1, fs.put e'.name ys p.2) :
          (Fields.cons n d sk t fs).Partial), r)
        rw [if_neg hn]
        rfl
    · rw [put_foldl]
      have hany : es.any (fun e => n = e.name) = true := by
        rw [List.any_eq_true]
        exact ⟨e, hmem, by simp [hname]⟩
      rw [hany, if_pos rfl]
      show (match fs.finish env (es.foldl (fun p (e : Written) => fs.put e.name ys p) fs.none) with
        | .error e => Except.error e
        | .ok w => .ok (y, w)) = _
      rw [hfin]
  case fabsent =>
    intro es n d sk t fs y ys habs hmiss _ ih hnd hok hfs henv hnames
    simp only [Fields.ok, Bool.and_eq_true] at hfs
    simp only [Fields.envOk] at henv
    simp only [Fields.names, List.nodup_cons] at hnames
    obtain ⟨hent, hfin⟩ := ih hnd hok hfs.2 henv.2.2 hnames.2
    constructor
    · intro e' he' p b r hb
      have hn : n ≠ e'.name := fun hc => habs e' he' hc.symm
      rw [decEntry, if_neg hn, Dec.bind_ok (hent e' he' p.2 b r hb)]
      show _ = Except.ok (((if n = e'.name then some y else p.1, fs.put e'.name ys p.2) :
        (Fields.cons n d sk t fs).Partial), r)
      rw [if_neg hn]
      rfl
    · rw [put_foldl]
      have hany : es.any (fun e => n = e.name) = false := by
        rw [List.any_eq_false]
        intro e he
        simpa using fun hc => habs e he (Eq.symm hc)
      rw [hany, if_neg (by simp)]
      show (match fieldValue env d t none with
        | .error e => Except.error e
        | .ok v => match fs.finish env (es.foldl (fun p (e : Written) => fs.put e.name ys p) fs.none) with
          | .error e => Except.error e
          | .ok w => .ok (v, w)) = _
      rw [hfin]
      have : fieldValue env d t none = .ok y := hmiss
      rw [this]
  case vhere =>
    intro e t vs y _ ih hok hvs henv bs r he
    simp only [Variants.ok, Bool.and_eq_true] at hvs
    simp only [Variants.envOk] at henv
    simp only [decVariants, if_true]
    rw [Dec.bind_ok (ih hok hvs.1.1 henv.1 bs r he)]
    rfl
  case vthere =>
    intro e n t vs y hne _ ih hok hvs henv bs r he
    simp only [Variants.ok, Bool.and_eq_true] at hvs
    simp only [Variants.envOk] at henv
    simp only [decVariants, if_neg hne]
    rw [Dec.bind_ok (ih hok hvs.2 henv.2 bs r he)]
    rfl

end
end Musli
