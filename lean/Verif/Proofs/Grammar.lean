import Verif.Proofs.GrammarDesc
import Verif.Proofs.Evolution
/-!
# What the decoders accept: values of all types
-/
set_option linter.unusedSectionVars false
namespace Musli.Grammar
open Musli Musli.Spec

variable [Host] (o : Options) (env : Env)

theorem agrees (hn : Opt.isNativeFixed o = false) (m : Mode) : Agrees (m.fmt o) (lexOf o m) := by
  cases m with
  | storage => exact Storage.agrees o false hn
  | packed => exact Storage.agrees o true hn
  | wire => exact Wire.agrees o
  | descriptive => exact Desc.agrees o

theorem reads_decN {α : Type} {d : Dec α} {G : α → Gram} (hd : Reads d G) (n : Nat) :
    Reads (decN d n) fun v s r => v.length = n ∧ each (v.map G) s r := by
  induction n with
  | zero =>
    refine (reads_pure _).congr fun v s r => ?_
    constructor
    · rintro ⟨rfl, rfl⟩; exact ⟨rfl, rfl⟩
    · rintro ⟨h, hs⟩
      rw [List.length_eq_zero_iff.mp h] at hs ⊢
      exact ⟨rfl, hs⟩
  | succ n ih =>
    refine (reads_bind hd fun a => reads_map _ ih).congr fun v s r => ?_
    constructor
    · rintro ⟨a, x, y, rfl, hx, l, ⟨rfl, hl⟩, rfl⟩
      exact ⟨rfl, x, y, rfl, hx, hl⟩
    · rintro ⟨h, hs⟩
      cases v with
      | nil => cases h
      | cons a l =>
        obtain ⟨x, y, rfl, hx, hy⟩ := hs
        exact ⟨a, x, y, rfl, hx, l, ⟨by simpa using h, hy⟩, rfl⟩

theorem reads_name {F : Fmt} {L : Lex} (h : Agrees F L) (nt : NameTy) :
    Reads (decName F nt) fun n s r => n.ty = nt ∧ NameDoc L n s r := by
  cases nt with
  | idx =>
    refine (reads_map _ (h.prim .usize)).congr fun n s r => ?_
    constructor
    · rintro ⟨a, ha, rfl⟩; exact ⟨rfl, ha⟩
    · rintro ⟨h1, h2⟩
      cases n with
      | idx a => exact ⟨a, h2, rfl⟩
      | str a => cases h1
  | str =>
    refine (reads_bind h.str fun b => reads_map _ (reads_ofExcept (toStr b))).congr fun n s r => ?_
    constructor
    · rintro ⟨b, x, y, rfl, hx, st, ⟨hb, rfl⟩, rfl⟩
      rw [List.append_nil]
      unfold toStr at hb
      split at hb
      · cases hb; exact ⟨rfl, hx⟩
      · cases hb
    · rintro ⟨h1, h2⟩
      cases n with
      | idx a => cases h1
      | str a =>
        exact ⟨a.bytes, s, [], by simp, h2, a, ⟨by unfold toStr; rw [dif_pos a.valid], rfl⟩, rfl⟩

theorem toStr_eq (b : Bytes) (v : Str) : toStr b = .ok v ↔ b = v.bytes := by
  unfold toStr
  constructor
  · intro h
    split at h
    · cases h; rfl
    · cases h
  · rintro rfl; rw [dif_pos v.valid]

theorem toArray_eq {α : Type} (n : Nat) (l : List α) (v : { l : List α // l.length = n }) :
    toArray n l = .ok v ↔ l = v.1 := by
  unfold toArray
  constructor
  · intro h
    split at h
    · cases h; rfl
    · cases h
  · rintro rfl; rw [dif_pos v.2]

theorem toNonZero_eq (w : IW) (x : BitVec w.bits) (v : NonZeroVal w) :
    toNonZero w x = .ok v ↔ x = v.1 := by
  unfold toNonZero
  constructor
  · intro h
    split at h
    · cases h; rfl
    · cases h
  · rintro rfl; rw [dif_pos v.2]

theorem nonZero_raw (s : Bool) (w : IW) (x : (nonZeroPrim s w).Val) (v : BitVec w.bits) :
    nonZeroUnraw s w x = v ↔ x = nonZeroRaw s w v := by
  cases s <;> exact Iff.rfl

/-- Two in a row. -/
theorem reads_pair {α β : Type} {d : Dec α} {e : Dec β} {G : α → Gram} {H : β → Gram}
    (hd : Reads d G) (he : Reads e H) :
    Reads (d >>= fun a => e >>= fun b => pure (a, b)) fun v => G v.1 ⬝ H v.2 := by
  refine (reads_bind hd fun a => reads_map _ he).congr fun v s r => ?_
  constructor
  · rintro ⟨a, x, y, rfl, hx, b, hb, rfl⟩; exact ⟨x, y, rfl, hx, hb⟩
  · rintro ⟨x, y, rfl, hx, hy⟩; exact ⟨_, x, y, rfl, hx, _, hy, rfl⟩

/-- A number of elements and the elements. -/
theorem reads_counted {α : Type} {h : Dec Nat} {d : Dec α} {K : Nat → Bytes → Prop} {G : α → Gram}
    (hh : Reads h fun n => plain (K n)) (hd : Reads d G) {e : Dec Unit} (he : e = pure ()) :
    Reads (h >>= fun c => decN d c >>= fun l => e >>= fun _ => pure l)
      fun v => plain (K v.length) ⬝ each (v.map G) := by
  subst he
  have := reads_bind hh fun n => reads_map (fun l => l) (reads_decN hd n)
  refine Reads.congr (show Reads (h >>= fun c => decN d c >>= fun l => pure () >>= fun _ => pure l) _
    from this) fun v s r => ?_
  constructor
  · rintro ⟨n, x, y, rfl, hx, _, ⟨rfl, hy⟩, rfl⟩; exact ⟨x, y, rfl, hx, hy⟩
  · rintro ⟨x, y, rfl, hx, hy⟩; exact ⟨_, x, y, rfl, hx, _, ⟨rfl, hy⟩, rfl⟩

/-! ## Structs -/

/-- The effect of an entry. -/
def apply {fs : Fields} (p : fs.Partial) : fs.Known ⊕ Name → fs.Partial
  | .inl k => fs.set k p
  | .inr _ => p

/-- The name of an entry. -/
def nameOf {fs : Fields} : fs.Known ⊕ Name → Name
  | .inl k => fs.keyOf k
  | .inr n => n

/-- What the entry holds. -/
def bodyDoc (L : Lex) (fs : Fields) (known : fs.Known → Gram) : fs.Known ⊕ Name → Gram
  | .inl k => known k
  | .inr _ => plain L.unknown

/-- The entry is possible. -/
def possible (nt : NameTy) {fs : Fields} : fs.Known ⊕ Name → Prop
  | .inl _ => True
  | .inr n => n ∉ fs.names ∧ n.ty = nt

theorem entryDoc_eq (L : Lex) (fs : Fields) (known : fs.Known → Gram) (e : fs.Known ⊕ Name) :
    entryDoc L fs known e = NameDoc L (nameOf e) ⬝ bodyDoc L fs known e := by
  cases e <;> rfl

theorem keyOf_mem : ∀ (fs : Fields) (k : fs.Known), fs.keyOf k ∈ fs.names
  | .nil, k => nomatch k
  | .cons _ _ _ _ _, .inl _ => by simp [Fields.names, Fields.keyOf]
  | .cons _ _ _ _ fs, .inr k => by simp [Fields.names, Fields.keyOf, keyOf_mem fs k]

theorem reads_loop {nt : NameTy} {L : Lex} {F : Fmt} (hF : Agrees F L) {fs : Fields}
    (hnt : ∀ n ∈ fs.names, n.ty = nt)
    {known : fs.Known → Gram} {d : Name → fs.Partial → Dec fs.Partial}
    (hd : ∀ n p, n.ty = nt → Reads (d n p) fun q s r => ∃ e : fs.Known ⊕ Name, nameOf e = n ∧
      possible nt e ∧ q = apply p e ∧ bodyDoc L fs known e s r) (n : Nat) (p : fs.Partial) :
    Reads (loopN (fun p => decName F nt >>= fun n => d n p) n p) fun q s r =>
      ∃ es : List (fs.Known ⊕ Name), es.length = n ∧ (∀ e ∈ es, possible nt e) ∧
        q = es.foldl apply p ∧ each (es.map (entryDoc L fs known)) s r := by
  induction n generalizing p with
  | zero =>
    refine (reads_pure p).congr fun q s r => ?_
    constructor
    · rintro ⟨rfl, rfl⟩; exact ⟨[], rfl, by simp, rfl, rfl⟩
    · rintro ⟨es, h, _, rfl, hs⟩
      rw [List.length_eq_zero_iff.mp h] at hs ⊢
      exact ⟨rfl, hs⟩
  | succ n ih =>
    have hstep : Reads (decName F nt >>= fun n => d n p) fun q s r => ∃ e : fs.Known ⊕ Name,
        possible nt e ∧ q = apply p e ∧ entryDoc L fs known e s r := by
      intro s q r
      rw [Dec.bind_eq_ok]
      constructor
      · rintro ⟨n, s', h1, h2⟩
        obtain ⟨a, rfl, h3, h4⟩ := (reads_name hF nt _ _ _).mp h1
        obtain ⟨b, rfl, e, rfl, h5, h6, h7⟩ := (hd n p h3 _ _ _).mp h2
        exact ⟨a ++ b, by simp, e, h5, h6, by rw [entryDoc_eq]; exact ⟨a, b, rfl, h4, h7⟩⟩
      · rintro ⟨_, rfl, e, h1, h2, h3⟩
        rw [entryDoc_eq] at h3
        obtain ⟨a, b, rfl, h4, h5⟩ := h3
        have ht : (nameOf e).ty = nt := by
          cases e with
          | inl k => exact hnt _ (keyOf_mem fs k)
          | inr n => exact h1.2
        exact ⟨nameOf e, b ++ r, (reads_name hF nt _ _ _).mpr ⟨a, by simp, ht, h4⟩,
          (hd _ p ht _ _ _).mpr ⟨b, rfl, e, rfl, h1, h2, h5⟩⟩
    refine (reads_bind hstep fun p => ih p).congr fun q s r => ?_
    constructor
    · rintro ⟨p', x, y, rfl, ⟨e, h1, rfl, h2⟩, es, rfl, h3, rfl, h4⟩
      refine ⟨e :: es, rfl, ?_, rfl, x, y, rfl, h2, h4⟩
      intro e' he'
      rcases List.mem_cons.mp he' with rfl | he'
      · exact h1
      · exact h3 _ he'
    · rintro ⟨es, hl, h1, rfl, hs⟩
      cases es with
      | nil => cases hl
      | cons e es =>
        obtain ⟨x, y, rfl, hx, hy⟩ := hs
        exact ⟨_, x, y, rfl, ⟨e, h1 e (by simp), rfl, hx⟩, es, by simpa using hl,
          fun e' he' => h1 e' (by simp [he']), rfl, hy⟩

theorem foldl_apply {fs : Fields} (es : List (fs.Known ⊕ Name)) (p : fs.Partial) :
    es.foldl apply p = (es.filterMap Sum.getLeft?).foldl (fun p k => fs.set k p) p := by
  induction es generalizing p with
  | nil => rfl
  | cons e es ih =>
    cases e with
    | inl k => simp [apply, ih]
    | inr n => rw [List.filterMap_cons_none rfl, List.foldl_cons, ih]; rfl

theorem findName_iff (n : Name) (l : List Name) (hl : l.Nodup) (i : Fin l.length) :
    findName n l = some i ↔ l[i] = n := by
  induction l with
  | nil => exact i.elim0
  | cons m l ih =>
    have hnd := List.nodup_cons.mp hl
    unfold findName
    by_cases hm : m = n
    · rw [if_pos hm]
      subst hm
      refine Fin.cases ?_ (fun j => ?_) i
      · simp
      · constructor
        · intro h; injection h with h; exact absurd (Fin.val_eq_of_eq h) (by simp)
        · intro h
          exact absurd (List.getElem_mem (l := l) (n := j.val) j.isLt) (by
            have h : l[j.val] = m := h
            rw [h]; exact hnd.1)
    · rw [if_neg hm]
      refine Fin.cases ?_ (fun j => ?_) i
      · constructor
        · intro h
          split at h
          · injection h with h; exact absurd (Fin.val_eq_of_eq h) (by simp)
          · cases h
        · intro h; exact absurd h hm
      · rw [show (m :: l)[j.succ] = l[j] from rfl, ← ih hnd.2 j]
        constructor
        · intro h
          split at h
          · rename_i k hk
            injection h with h
            rw [hk, Fin.succ_inj.mp h]
          · cases h
        · intro h; rw [h]

/-! ## Variants -/

/-- The tag of a value. -/
def variantName : (vs : Variants) → vs.Val → Name
  | .nil, v => nomatch v
  | .cons n _ _, .inl _ => n
  | .cons _ _ vs, .inr v => variantName vs v

/-- The body of a value. -/
def variantBody : (vs : Variants) → Mode → vs.Val → Gram
  | .nil, _, v => nomatch v
  | .cons _ t _, m, .inl v => Doc o env t m v
  | .cons _ _ vs, m, .inr v => variantBody vs m v

theorem variantName_mem : ∀ (vs : Variants) (v : vs.Val), variantName vs v ∈ vs.names
  | .nil, v => nomatch v
  | .cons _ _ _, .inl _ => by simp [variantName, Variants.names]
  | .cons _ _ vs, .inr v => by simp [variantName, Variants.names, variantName_mem vs v]

theorem docVariant_eq : ∀ (vs : Variants) (m : Mode) (v : vs.Val), docVariant o env vs m v =
    NameDoc (lexOf o m) (variantName vs v) ⬝ variantBody o env vs m v
  | .nil, _, v => nomatch v
  | .cons _ _ _, _, .inl _ => rfl
  | .cons _ _ vs, m, .inr v => docVariant_eq vs m v

/-! ## All types -/

section
variable (hn : Opt.isNativeFixed o = false)

theorem native_false {m : Mode} (hF : (m.fmt o).native = false) {α : Type} (b : Bool) (x y : Dec α) :
    fastD ((m.fmt o).native && b) x y = y := by
  rw [hF]; rfl

theorem namesOk_iff {nt : NameTy} {l : List Name} (h : namesOk nt l = true) :
    l.Nodup ∧ ∀ n ∈ l, n.ty = nt := by
  simpa [namesOk] using h

include hn
mutual

theorem reads_decD : ∀ (t : Ty) (m : Mode), Named t = true →
    Reads (decD o env t m) (Doc o env t m)
  | .prim p, m, _ => by
    simp only [decD, Doc]; exact (agrees o hn m).prim p
  | .nonZero sg w, m, _ => by
    have hA := agrees o hn m
    simp only [decD, Doc, native_false o hA.native]
    refine (reads_check _ (hA.prim _)).congr fun v s r => ?_
    simp only [toNonZero_eq, nonZero_raw]
    exact ⟨fun ⟨a, h, e⟩ => e ▸ h, fun h => ⟨_, h, rfl⟩⟩
  | .unit, m, _ => by simp only [decD, Doc]; exact (agrees o hn m).unit
  | .bytes, m, _ => by simp only [decD, Doc]; exact (agrees o hn m).bytes
  | .string, m, _ => by
    simp only [decD, Doc]
    refine (reads_check _ (agrees o hn m).str).congr fun v s r => ?_
    simp only [toStr_eq]
    exact ⟨fun ⟨a, h, e⟩ => e ▸ h, fun h => ⟨_, h, rfl⟩⟩
  | .byteArray n, m, _ => by
    simp only [decD, Doc]
    refine (reads_check _ ((agrees o hn m).arr n)).congr fun v s r => ?_
    simp only [toArray_eq]
    exact ⟨fun ⟨a, h, e⟩ => e ▸ h.2, fun h => ⟨_, ⟨v.2, h⟩, rfl⟩⟩
  | .option t, m, ht => by
    have hA := agrees o hn m
    simp only [Named] at ht
    simp only [decD, native_false o hA.native]
    refine (reads_bind hA.option fun b => reads_ite (p := b = true)
      (fun _ => reads_map some (reads_decD t m ht)) (fun _ => reads_pure none)).congr fun v s r => ?_
    cases v with
    | none =>
      simp only [Doc]
      constructor
      · rintro ⟨b, x, y, rfl, hx, ⟨_, a, _, h⟩ | ⟨hb, _, rfl⟩⟩
        · cases h
        · cases b
          · simpa using hx
          · exact (hb rfl).elim
      · intro h; exact ⟨false, s, [], by simp, by simpa using h, .inr ⟨by simp, trivial, rfl⟩⟩
    | some a =>
      simp only [Doc]
      constructor
      · rintro ⟨b, x, y, rfl, hx, ⟨hb, _, h, h'⟩ | ⟨_, h, _⟩⟩
        · cases h'; subst hb; exact ⟨x, y, rfl, hx, h⟩
        · cases h
      · rintro ⟨x, y, rfl, hx, hy⟩
        exact ⟨true, x, y, rfl, hx, .inl ⟨rfl, a, hy, rfl⟩⟩
  | .array n t, m, ht => by
    have hA := agrees o hn m
    simp only [Named] at ht
    simp only [decD, Doc, native_false o hA.native]
    rw [hA.noSeqRest]
    refine Reads.congr (reads_bind hA.seq fun c => reads_guard (p := c = n) (fun _ =>
      show Reads (decN (decD o env t m) n >>= fun l => pure () >>= fun _ => Dec.ofExcept (toArray n l)) _ from
      reads_check (toArray n) (reads_decN (reads_decD t m ht) n))) fun v s r => ?_
    simp only [toArray_eq]
    constructor
    · rintro ⟨c, x, y, rfl, hx, rfl, l, ⟨hl, hy⟩, rfl⟩
      exact ⟨x, y, rfl, by rw [hl]; exact hx, hy⟩
    · rintro ⟨x, y, rfl, hx, hy⟩
      exact ⟨n, x, y, rfl, by rw [v.2] at hx; exact hx, rfl, v.1, ⟨v.2, hy⟩, rfl⟩
  | .vec t, m, ht => by
    have hA := agrees o hn m
    simp only [Named] at ht
    simp only [decD, Doc, hA.native, Bool.false_and]
    exact reads_counted hA.seq (reads_decD t m ht) hA.noSeqRest
  | .set t, m, ht => by
    have hA := agrees o hn m
    simp only [Named] at ht
    simp only [decD, Doc, native_false o hA.native]
    exact reads_counted hA.seq (reads_decD t m ht) hA.noSeqRest
  | .map k t, m, ht => by
    have hA := agrees o hn m
    simp only [Named, Bool.and_eq_true] at ht
    simp only [decD, Doc, native_false o hA.native]
    exact reads_counted hA.map (reads_pair (reads_decD k m ht.1) (reads_decD t m ht.2)) hA.noMapRest
  | .tuple ts, m, ht => by
    have hA := agrees o hn m
    simp only [Named] at ht
    simp only [decD, Doc]
    refine (reads_bind hA.seq fun c => reads_bind (reads_decTys ts m c ht) fun x =>
      reads_map (fun _ => x.1) (hA.seqRest x.2)).congr fun v s r => ?_
    constructor
    · rintro ⟨c, x, _, rfl, hx, ⟨v', left⟩, y, z, rfl, ⟨rfl, hy⟩, _, hz, rfl⟩
      exact ⟨left, x, y ++ z, rfl, hx, y, z, rfl, hy, hz⟩
    · rintro ⟨left, x, _, rfl, hx, y, z, rfl, hy, hz⟩
      exact ⟨_, x, y ++ z, rfl, hx, (v, left), y, z, rfl, ⟨rfl, hy⟩, (), hz, rfl⟩
  | .result nt t u, m, ht => by
    have hA := agrees o hn m
    simp only [Named, Bool.and_eq_true] at ht
    simp only [decD, Doc, native_false o hA.native]
    refine (reads_bind hA.variant fun _ => reads_bind (reads_name hA nt) fun n =>
      reads_ite (fun _ => reads_map Sum.inl (reads_decD t m ht.1)) fun _ =>
      reads_guard (fun _ => reads_map Sum.inr (reads_decD u m ht.2))).congr fun v s r => ?_
    have hty : ∀ b, (resultName nt b).ty = nt := by cases nt <;> intro b <;> cases b <;> rfl
    have hne : resultName nt false ≠ resultName nt true := by cases nt <;> simp [resultName]
    constructor
    · rintro ⟨_, x, _, rfl, hx, n, y, z, rfl, ⟨_, hy⟩, ⟨rfl, a, hz, rfl⟩ | ⟨_, rfl, a, hz, rfl⟩⟩
      · exact ⟨x, y ++ z, rfl, hx, y, z, rfl, hy, hz⟩
      · exact ⟨x, y ++ z, rfl, hx, y, z, rfl, hy, hz⟩
    · rintro ⟨x, yz, rfl, hx, h⟩
      cases v with
      | inl a =>
        obtain ⟨y, z, rfl, hy, hz⟩ := h
        exact ⟨(), x, y ++ z, rfl, hx, _, y, z, rfl, ⟨hty true, hy⟩, .inl ⟨rfl, a, hz, rfl⟩⟩
      | inr a =>
        obtain ⟨y, z, rfl, hy, hz⟩ := h
        exact ⟨(), x, y ++ z, rfl, hx, _, y, z, rfl, ⟨hty false, hy⟩, .inr ⟨hne, rfl, a, hz, rfl⟩⟩
  | .boxed t, m, ht => by
    simp only [Named] at ht
    simp only [decD, Doc, native_false o (agrees o hn m).native]
    exact reads_decD t m ht
  | .wrapping t, m, ht => by
    simp only [Named] at ht
    simp only [decD, Doc, native_false o (agrees o hn m).native]
    exact reads_decD t m ht
  | .transparent t, m, ht => by
    simp only [Named] at ht
    simp only [decD, Doc]
    exact reads_decD t m ht
  | .unitStruct, m, _ => by
    have hA := agrees o hn m
    simp only [decD, Doc]
    refine (reads_bind hA.map fun c => hA.mapRest c).congr fun v s r => Iff.rfl
  | .strct nt fs, m, ht => by
    have hA := agrees o hn m
    simp only [Named, Bool.and_eq_true] at ht
    obtain ⟨hnd, hty⟩ := namesOk_iff ht.1
    simp only [decD]
    rw [hA.noMapRest]
    refine Reads.congr (reads_bind hA.map fun c => reads_bind
      (reads_loop hA hty (known := docKnown o env fs m) (fun n p hnty =>
        (reads_decEntry fs m ht.2 hnd n p).congr fun q s r => by
          constructor
          · rintro (⟨k, rfl, rfl, h⟩ | ⟨h1, rfl, h2⟩)
            · exact ⟨.inl k, rfl, trivial, rfl, h⟩
            · exact ⟨.inr n, rfl, ⟨h1, hnty⟩, rfl, h2⟩
          · rintro ⟨e, rfl, h1, rfl, h2⟩
            cases e with
            | inl k => exact .inl ⟨k, rfl, rfl, h2⟩
            | inr n => exact .inr ⟨h1.1, rfl, h2⟩) c fs.none)
      fun p => show Reads (Dec.ofExcept (fs.finish env p) >>= fun v => pure () >>= fun _ => pure v) _
        from reads_map (fun v => v) (reads_ofExcept (fs.finish env p))) fun v s r => ?_
    simp only [Doc]
    constructor
    · rintro ⟨c, x, _, rfl, hx, p, y, z, rfl, ⟨es, rfl, h1, rfl, h2⟩, _, ⟨h3, rfl⟩, rfl⟩
      refine ⟨es, fun n hn' => h1 _ hn', ?_, x, y, by simp, by simpa using hx, ?_⟩
      · rw [← finish_assemble, ← foldl_apply]; exact h3
      · exact h2
    · rintro ⟨es, h1, h2, x, y, rfl, hx, hy⟩
      refine ⟨_, x, y, rfl, hx, _, y, [], by simp, ⟨es, rfl, ?_, rfl, hy⟩, v, ⟨?_, rfl⟩, rfl⟩
      · intro e he
        cases e with
        | inl k => trivial
        | inr n => exact h1 n he
      · rw [foldl_apply, finish_assemble]; exact h2
  | .packed lay fs, m, ht => by
    have hA := agrees o hn m
    simp only [Named] at ht
    simp only [decD, Doc, hA.native, Bool.false_and]
    exact hA.pack _ _ (reads_decPack fs ht)
  | .unitEnum nt names, m, ht => by
    have hA := agrees o hn m
    simp only [Named] at ht
    obtain ⟨hnd, hty⟩ := namesOk_iff ht
    simp only [decD, Doc]
    intro s v r
    rw [Dec.bind_eq_ok]
    constructor
    · rintro ⟨n, s', h1, h2⟩
      obtain ⟨a, rfl, h3, h4⟩ := (reads_name hA nt _ _ _).mp h1
      cases hi : findName n names with
      | none => rw [hi] at h2; cases h2
      | some i =>
        rw [hi] at h2
        cases h2
        refine ⟨a, rfl, ?_⟩
        show NameDoc _ names[v] a r
        rw [(findName_iff n names hnd v).mp hi]
        exact h4
    · rintro ⟨a, rfl, h⟩
      refine ⟨names[v], r, (reads_name hA nt _ _ _).mpr ⟨a, rfl, hty _ (List.getElem_mem _), h⟩, ?_⟩
      rw [(findName_iff _ names hnd v).mpr rfl]
      rfl
  | .enm nt vs, m, ht => by
    have hA := agrees o hn m
    simp only [Named, Bool.and_eq_true] at ht
    obtain ⟨hnd, hty⟩ := namesOk_iff ht.1
    simp only [decD, Doc]
    intro s v r
    rw [Dec.bind_eq_ok]
    constructor
    · rintro ⟨_, s', h1, h2⟩
      obtain ⟨n, s'', h3, h4⟩ := Dec.bind_eq_ok.mp h2
      obtain ⟨z, rfl, rfl, h6⟩ := (reads_decVariants vs m ht.2 hnd n _ _ _).mp h4
      obtain ⟨y, rfl, _, h3⟩ := (reads_name hA nt _ _ _).mp h3
      obtain ⟨x, rfl, h5⟩ := (hA.variant _ _ _).mp h1
      refine ⟨x ++ (y ++ z), by simp, x, y ++ z, rfl, by simpa using h5, ?_⟩
      rw [docVariant_eq]
      exact ⟨y, z, rfl, h3, h6⟩
    · rintro ⟨_, rfl, x, yz, rfl, h1, h2⟩
      rw [docVariant_eq] at h2
      obtain ⟨y, z, rfl, h3, h4⟩ := h2
      exact ⟨(), y ++ z ++ r, (hA.variant _ _ _).mpr ⟨x, by simp, h1⟩,
        Dec.bind_eq_ok.mpr ⟨_, z ++ r, (reads_name hA nt _ _ _).mpr
          ⟨y, by simp, hty _ (variantName_mem vs v), h3⟩,
          (reads_decVariants vs m ht.2 hnd _ _ _ _).mpr ⟨z, rfl, rfl, h4⟩⟩⟩

theorem reads_decTys : ∀ (ts : Tys) (m : Mode) (c : Nat), namedTys ts = true →
    Reads (decTys o env ts m c) fun v s r => c = ts.length + v.2 ∧ each (docTys o env ts m v.1) s r
  | .nil, m, c, _ => by
    simp only [decTys]
    refine (reads_pure _).congr fun v s r => ?_
    constructor
    · rintro ⟨rfl, rfl⟩; exact ⟨by simp [Tys.length], rfl⟩
    · rintro ⟨rfl, h⟩; exact ⟨by simp [Tys.length], h⟩
  | .cons t ts, m, c, ht => by
    simp only [namedTys, Bool.and_eq_true] at ht
    cases c with
    | zero =>
      simp only [decTys]
      refine (reads_fail _).congr fun v s r => ?_
      simp only [Tys.length, false_iff]
      rintro ⟨h, _⟩; omega
    | succ c =>
      simp only [decTys, native_false o (agrees o hn m).native]
      refine (reads_bind (reads_decD t m ht.1) fun a => reads_map (fun x => ((a, x.1), x.2))
        (reads_decTys ts m c ht.2)).congr fun v s r => ?_
      constructor
      · rintro ⟨a, x, y, rfl, hx, ⟨b, left⟩, ⟨rfl, hy⟩, rfl⟩
        exact ⟨by simp only [Tys.length]; omega, x, y, rfl, hx, hy⟩
      · rintro ⟨h, x, y, rfl, hx, hy⟩
        exact ⟨v.1.1, x, y, rfl, hx, (v.1.2, v.2), ⟨by simp only [Tys.length] at h; omega, hy⟩, rfl⟩

theorem reads_decEntry : ∀ (fs : Fields) (m : Mode), namedFields fs = true → fs.names.Nodup →
    ∀ (n : Name) (p : fs.Partial), Reads (decEntry o env fs m n p) fun q s r =>
      (∃ k, fs.keyOf k = n ∧ q = fs.set k p ∧ docKnown o env fs m k s r) ∨
      (n ∉ fs.names ∧ q = p ∧ (lexOf o m).unknown s)
  | .nil, m, _, _, n, p => by
    simp only [decEntry]
    refine (agrees o hn m).unknown.congr fun v s r => ?_
    constructor
    · intro h; exact .inr ⟨by simp [Fields.names], trivial, h⟩
    · rintro (⟨k, _⟩ | ⟨_, _, h⟩)
      · exact nomatch k
      · exact h
  | .cons n' d sk t fs, m, ht, hnd, n, p => by
    simp only [namedFields, Bool.and_eq_true] at ht
    have hnd := List.nodup_cons.mp hnd
    simp only [decEntry]
    by_cases hnn : n' = n
    · rw [if_pos hnn]
      subst hnn
      refine (reads_map (fun v => (some v, p.2)) (reads_decD t m ht.1)).congr fun q s r => ?_
      constructor
      · rintro ⟨a, h, rfl⟩; exact .inl ⟨.inl a, rfl, rfl, h⟩
      · rintro (⟨k, hk, rfl, h⟩ | ⟨h, _⟩)
        · cases k with
          | inl a => exact ⟨a, h, rfl⟩
          | inr k => exact (hnd.1 (hk ▸ keyOf_mem fs k)).elim
        · exact (h (by simp [Fields.names])).elim
    · rw [if_neg hnn]
      refine (reads_map (fun q => (p.1, q)) (reads_decEntry fs m ht.2 hnd.2 n p.2)).congr fun q s r => ?_
      constructor
      · rintro ⟨a, ⟨k, hk, rfl, h⟩ | ⟨h, rfl, h'⟩, rfl⟩
        · exact .inl ⟨.inr k, hk, rfl, h⟩
        · exact .inr ⟨by simp only [Fields.names, List.mem_cons, not_or]; exact ⟨fun e => hnn e.symm, h⟩, rfl, h'⟩
      · rintro (⟨k, hk, rfl, h⟩ | ⟨h, rfl, h'⟩)
        · cases k with
          | inl a => exact (hnn hk).elim
          | inr k => exact ⟨_, .inl ⟨k, hk, rfl, h⟩, rfl⟩
        · exact ⟨_, .inr ⟨fun e => h (by simp [Fields.names, e]), rfl, h'⟩, rfl⟩

theorem reads_decPack : ∀ (fs : Fields), namedFields fs = true →
    Reads (decPackFields o env fs .packed) fun v => each (docPack o env fs v)
  | .nil, _ => by
    simp only [decPackFields]
    exact (reads_pure _).congr fun v s r => ⟨fun h => h.2, fun h => ⟨rfl, h⟩⟩
  | .cons _ _ _ t fs, ht => by
    simp only [namedFields, Bool.and_eq_true] at ht
    simp only [decPackFields]
    exact (reads_pair (reads_decD t .packed ht.1) (reads_decPack fs ht.2)).congr fun v s r => Iff.rfl

theorem reads_decVariants : ∀ (vs : Variants) (m : Mode), namedVariants vs = true → vs.names.Nodup →
    ∀ (n : Name), Reads (decVariants o env vs m n) fun v s r =>
      variantName vs v = n ∧ variantBody o env vs m v s r
  | .nil, m, _, _, n => by
    simp only [decVariants]
    exact (reads_fail _).congr fun v => nomatch v
  | .cons n' t vs, m, ht, hnd, n => by
    simp only [namedVariants, Bool.and_eq_true] at ht
    have hnd := List.nodup_cons.mp hnd
    simp only [decVariants]
    by_cases hnn : n' = n
    · rw [if_pos hnn]
      subst hnn
      refine (reads_map Sum.inl (reads_decD t m ht.1)).congr fun v s r => ?_
      constructor
      · rintro ⟨a, h, rfl⟩; exact ⟨rfl, h⟩
      · rintro ⟨h, h'⟩
        cases v with
        | inl a => exact ⟨a, h', rfl⟩
        | inr v => exact (hnd.1 (h ▸ variantName_mem vs v)).elim
    · rw [if_neg hnn]
      refine (reads_map Sum.inr (reads_decVariants vs m ht.2 hnd.2 n)).congr fun v s r => ?_
      constructor
      · rintro ⟨a, h, rfl⟩; exact h
      · rintro ⟨h, h'⟩
        cases v with
        | inl a => exact (hnn h).elim
        | inr v => exact ⟨v, ⟨h, h'⟩, rfl⟩

end
end

end Musli.Grammar
