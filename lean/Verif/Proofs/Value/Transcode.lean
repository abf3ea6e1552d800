import Verif.Proofs.Value.Repr
/-!
# Encoding a value directly and through a `Value`
-/
set_option linter.unusedSectionVars false
namespace Musli

section
variable [Host] (o : Options) (env : Env)

/-- The direct encoding is that of the representation; both fail together. -/
def Rel (F : Fmt) (r : Except Err Value) (e : Enc) : Prop :=
  match r with
  | .ok x => e = encValue F x
  | .error _ => ∃ b, e = .error b

def RelL (F : Fmt) (n : Nat) (r : Except Err (List Value)) (e : Enc) : Prop :=
  match r with
  | .ok x => x.length = n ∧ e = encValues F x
  | .error _ => ∃ b, e = .error b

def RelP (F : Fmt) (n : Nat) (r : Except Err (List (Value × Value))) (e : Enc) : Prop :=
  match r with
  | .ok x => x.length = n ∧ e = encPairs F x
  | .error _ => ∃ b, e = .error b

theorem seq_error_right {a b : Enc} (h : ∃ e, b = .error e) : ∃ e, (a +> b) = .error e := by
  obtain ⟨e, rfl⟩ := h
  cases a <;> exact ⟨_, rfl⟩

theorem seq_error_left {a b : Enc} (h : ∃ e, a = .error e) : ∃ e, (a +> b) = .error e := by
  obtain ⟨e, rfl⟩ := h
  exact ⟨_, rfl⟩

theorem seq_assoc' (a b c : Enc) : ((a +> b) +> c) = (a +> b +> c) := by
  cases a <;> cases b <;> cases c <;> simp [Enc.seq]

theorem Rel.seq {F : Fmt} {n : Nat} {r : Except Err (List Value)} {e : Enc} (h : RelL F n r e) :
    Rel F (emap .seq r) (F.encSeq n +> e) := by
  cases r with
  | error a => exact seq_error_right h
  | ok x =>
    obtain ⟨rfl, rfl⟩ := h
    show _ = encValue F (.seq x)
    rw [encValue]

theorem Rel.map {F : Fmt} {n : Nat} {r : Except Err (List (Value × Value))} {e : Enc}
    (h : RelP F n r e) : Rel F (emap .map r) (F.encMap n +> e) := by
  cases r with
  | error a => exact seq_error_right h
  | ok x =>
    obtain ⟨rfl, rfl⟩ := h
    show _ = encValue F (.map x)
    rw [encValue]

theorem encValue_name (F : Fmt) (n : Name) : encValue F (nameV n) = encName F n := by
  cases n with
  | idx n => simp only [nameV, encValue, encNumber, encName]
  | str s => simp only [nameV, encValue, encName]

theorem encValue_prim (F : Fmt) (p : Prim) (v : p.Val) : encValue F (primV p v) = F.encPrim p v := by
  cases p <;> simp only [primV, encValue, encNumber]

theorem Rel.variant {F : Fmt} {n : Name} {r : Except Err Value} {e : Enc} (h : Rel F r e) :
    Rel F (emap (.variant (nameV n)) r) (F.encVariant +> encName F n +> e) := by
  cases r with
  | error a => exact seq_error_right (seq_error_right h)
  | ok x =>
    cases h
    show _ = encValue F (.variant (nameV n) x)
    rw [encValue, encValue_name]

theorem Rel.some {F : Fmt} {r : Except Err Value} {e : Enc} (h : Rel F r e) :
    Rel F (emap .some r) (F.encSome +> e) := by
  cases r with
  | error a => exact seq_error_right h
  | ok x =>
    cases h
    show _ = encValue F (.some x)
    rw [encValue]

theorem RelL.all {α} {F : Fmt} {f : α → Except Err Value} {g : α → Enc}
    (h : ∀ a, Rel F (f a) (g a)) : ∀ l, RelL F l.length (reprAll f l) (Enc.all g l)
  | [] => ⟨rfl, by simp only [Enc.all, encValues]⟩
  | a :: l => by
    have ha := h a
    have hl := RelL.all h l
    simp only [reprAll, Enc.all]
    cases hf : f a with
    | error e => rw [hf] at ha; exact seq_error_left ha
    | ok x =>
      rw [hf] at ha
      cases hr : reprAll f l with
      | error e => rw [hr] at hl; exact seq_error_right hl
      | ok xs =>
        rw [hr] at hl
        refine ⟨by simp [hl.1], ?_⟩
        rw [encValues, ← hl.2, ← (show g a = encValue F x from ha)]

theorem RelP.all {α} {F : Fmt} {f f' : α → Except Err Value} {g g' : α → Enc}
    (h : ∀ a, Rel F (f a) (g a)) (h' : ∀ a, Rel F (f' a) (g' a)) :
    ∀ l, RelP F l.length (reprPairs f f' l) (Enc.all (fun x => g x +> g' x) l)
  | [] => ⟨rfl, by simp only [Enc.all, encPairs]⟩
  | a :: l => by
    have ha := h a
    have ha' := h' a
    have hl := RelP.all h h' l
    simp only [reprPairs, Enc.all]
    cases hf : f a with
    | error e => rw [hf] at ha; exact seq_error_left (seq_error_left ha)
    | ok x =>
      rw [hf] at ha
      cases hf' : f' a with
      | error e => rw [hf'] at ha'; exact seq_error_left (seq_error_right ha')
      | ok y =>
        rw [hf'] at ha'
        cases hr : reprPairs f f' l with
        | error e => rw [hr] at hl; exact seq_error_right hl
        | ok xs =>
          rw [hr] at hl
          refine ⟨by simp [hl.1], ?_⟩
          rw [encPairs, ← hl.2, encPair, ← (show g a = encValue F x from ha),
            ← (show g' a = encValue F y from ha')]

variable {o env}
variable {m : Mode}

/-- Byte arrays and packs are written like bytes. -/
def Delim (m : Mode) : Prop := m = .wire ∨ m = .descriptive

theorem Delim.arr (h : Delim m) (b : Bytes) : (m.fmt o).encArr b = (m.fmt o).encBytes b := by
  rcases h with rfl | rfl <;> rfl

theorem Delim.pack (h : Delim m) (b : Bytes) : (m.fmt o).encPack b = (m.fmt o).encBytes b := by
  rcases h with rfl | rfl <;> rfl

theorem relPack (h : Delim m) (e : Enc) :
    Rel (m.fmt o) (emap .bytes e) (match e with
      | .error e => .error e
      | .ok b => (m.fmt o).encPack b) := by
  cases e with
  | error a => exact ⟨_, rfl⟩
  | ok b =>
    show _ = encValue _ (.bytes b)
    rw [encValue]
    exact h.pack b

mutual

theorem rel (hn : (m.fmt o).native = false) : ∀ (t : Ty) (v : t.Val), Delim m ∨ t.plain = true → t.counted = true →
    Rel (m.fmt o) (reprV o env t v) (encD o env t m v)
  | .prim p, v, _, _ => by simp only [reprV, encD]; exact (encValue_prim _ p v).symm
  | .nonZero s w, v, _, _ => by simp only [reprV, encD]; exact (encValue_prim _ _ _).symm
  | .unit, v, _, _ => by simp only [reprV, encD, Rel, encValue]
  | .bytes, v, _, _ => by simp only [reprV, encD, Rel, encValue]
  | .string, v, _, _ => by simp only [reprV, encD, Rel, encValue]
  | .byteArray _, v, h, hc => by
    have h := h.resolve_right (by simp [Ty.plain])
    simp only [reprV, encD, Rel, encValue]
    exact h.arr _
  | .option t, v, h, hc => by
    simp only [Ty.plain] at h
    simp only [Ty.counted] at hc
    cases v with
    | none => simp only [reprV, encD, Rel, encValue]
    | some x =>
      simp only [reprV, encD, hn, Bool.false_and, fastE, Bool.false_eq_true, if_false]
      exact Rel.some (rel hn t x h hc)
  | .array _ t, v, h, hc => by
    simp only [Ty.plain] at h
    simp only [Ty.counted] at hc
    simp only [reprV, encD, hn, Bool.false_and, Bool.false_eq_true, if_false]
    exact Rel.seq (RelL.all (fun x => rel hn t x h hc) v.1)
  | .vec t, v, h, hc => by
    simp only [Ty.plain] at h
    simp only [Ty.counted] at hc
    simp only [reprV, encD, hn, Bool.false_and, Bool.false_eq_true, if_false]
    exact Rel.seq (RelL.all (fun x => rel hn t x h hc) v)
  | .set t, v, h, hc => by
    simp only [Ty.plain] at h
    simp only [Ty.counted] at hc
    simp only [reprV, encD, hn, Bool.false_and, fastE, Bool.false_eq_true, if_false]
    exact Rel.seq (RelL.all (fun x => rel hn t x h hc) v)
  | .map k t, v, h, hc => by
    simp only [Ty.plain, Bool.and_eq_true] at h
    simp only [Ty.counted, Bool.and_eq_true] at hc
    simp only [reprV, encD, hn, Bool.false_and, fastE, Bool.false_eq_true, if_false]
    exact Rel.map (RelP.all (fun x : k.Val × t.Val => rel hn k x.1 (h.imp_right (·.1)) hc.1)
      (fun x => rel hn t x.2 (h.imp_right (·.2)) hc.2) v)
  | .tuple ts, v, h, hc => by
    simp only [Ty.plain] at h
    simp only [Ty.counted] at hc
    simp only [reprV, encD]
    exact Rel.seq (relTys hn ts v h hc)
  | .result nt t u, v, h, hc => by
    simp only [Ty.plain, Bool.and_eq_true] at h
    simp only [Ty.counted, Bool.and_eq_true] at hc
    cases v with
    | inl x =>
      simp only [reprV, encD, hn, Bool.false_and, fastE, Bool.false_eq_true, if_false]
      exact Rel.variant (rel hn t x (h.imp_right (·.1)) hc.1)
    | inr x =>
      simp only [reprV, encD, hn, Bool.false_and, fastE, Bool.false_eq_true, if_false]
      exact Rel.variant (rel hn u x (h.imp_right (·.2)) hc.2)
  | .boxed t, v, h, hc => by
    simp only [Ty.plain] at h; simp only [Ty.counted] at hc; simp only [reprV, encD]; exact rel hn t v h hc
  | .wrapping t, v, h, hc => by
    simp only [Ty.plain] at h; simp only [Ty.counted] at hc; simp only [reprV, encD]; exact rel hn t v h hc
  | .transparent t, v, h, hc => by
    simp only [Ty.plain] at h; simp only [Ty.counted] at hc; simp only [reprV, encD]; exact rel hn t v h hc
  | .unitStruct, v, _, _ => by
    simp only [reprV, encD, Rel, encValue, encPairs, List.length_nil]
    cases (m.fmt o).encMap 0 <;> simp [Enc.seq]
  | .strct _ fs, v, h, hc => by
    simp only [Ty.plain] at h
    simp only [Ty.counted] at hc
    simp only [reprV, encD]
    exact Rel.map (relFields hn fs v h hc)
  | .packed lay fs, v, h, hc => by
    have h := h.resolve_right (by simp [Ty.plain])
    simp only [reprV, encD, hn, Bool.false_and, Bool.false_eq_true, if_false]
    exact relPack h _
  | .unitEnum _ names, v, _, _ => by
    simp only [reprV, encD]; exact (encValue_name _ _).symm
  | .enm _ vs, v, h, hc => by
    simp only [Ty.plain] at h
    simp only [Ty.counted] at hc
    simp only [reprV, encD]
    exact relVariants hn vs v h hc

theorem relTys (hn : (m.fmt o).native = false) : ∀ (ts : Tys) (v : ts.Val),
    Delim m ∨ ts.plain = true → ts.counted = true →
    RelL (m.fmt o) ts.length (reprTys o env ts v) (encTys o env ts m v)
  | .nil, _, _, _ => by simp [reprTys, encTys, RelL, encValues, Tys.length]
  | .cons t ts, v, h, hc => by
    simp only [Tys.plain, Bool.and_eq_true] at h
    simp only [Tys.counted, Bool.and_eq_true] at hc
    have ha := rel hn t v.1 (h.imp_right (·.1)) hc.1
    have hl := relTys hn ts v.2 (h.imp_right (·.2)) hc.2
    simp only [reprTys, encTys, hn, Bool.false_and, fastE, Bool.false_eq_true, if_false]
    cases hf : reprV o env t v.1 with
    | error e => rw [hf] at ha; exact seq_error_left ha
    | ok x =>
      rw [hf] at ha
      cases hr : reprTys o env ts v.2 with
      | error e => rw [hr] at hl; exact seq_error_right hl
      | ok xs =>
        rw [hr] at hl
        refine ⟨by simp [Tys.length, hl.1], ?_⟩
        rw [encValues, ← hl.2, ← (show _ = encValue _ x from ha)]

theorem relFields (hn : (m.fmt o).native = false) : ∀ (fs : Fields) (v : fs.Val),
    Delim m ∨ fs.plain = true → fs.counted = true →
    RelP (m.fmt o) (fs.count env v) (reprFields o env fs v) (encFields o env fs m v)
  | .nil, _, _, _ => by simp [reprFields, encFields, RelP, encPairs, Fields.count]
  | .cons n d skip t fs, v, h, hc => by
    simp only [Fields.plain, Bool.and_eq_true] at h
    simp only [Fields.counted, Bool.and_eq_true] at hc
    have ha := rel hn t v.1 (h.imp_right (·.1)) hc.1
    have hl := relFields hn fs v.2 (h.imp_right (·.2)) hc.2
    simp only [reprFields, encFields, Fields.count]
    cases fieldPresent env skip t v.1 with
    | false =>
      simp only [Bool.false_eq_true, if_false, Nat.zero_add]
      have : ∀ e : Enc, (Except.ok [] +> e) = e := by intro e; cases e <;> simp [Enc.seq]
      rw [this]
      exact hl
    | true =>
      simp only [if_true]
      cases hf : reprV o env t v.1 with
      | error e => rw [hf] at ha; exact seq_error_left (seq_error_right ha)
      | ok x =>
        rw [hf] at ha
        cases hr : reprFields o env fs v.2 with
        | error e => rw [hr] at hl; exact seq_error_right hl
        | ok xs =>
          rw [hr] at hl
          refine ⟨by simp [hl.1]; omega, ?_⟩
          rw [encPairs, ← hl.2, encPair, encValue_name, ← (show _ = encValue _ x from ha)]

theorem relVariants (hn : (m.fmt o).native = false) : ∀ (vs : Variants) (v : vs.Val),
    Delim m ∨ vs.plain = true → vs.counted = true →
    Rel (m.fmt o) (reprVariants o env vs v) ((m.fmt o).encVariant +> encVariants o env vs m v)
  | .nil, v, _, _ => nomatch v
  | .cons n t vs, v, h, hc => by
    simp only [Variants.plain, Bool.and_eq_true] at h
    simp only [Variants.counted, Bool.and_eq_true] at hc
    cases v with
    | inl x =>
      have hd : t.dynamic = false := by simpa using hc.1.2
      simp only [reprVariants, encVariants, hd, Bool.false_eq_true, if_false]
      exact Rel.variant (rel hn t x (h.imp_right (·.1)) hc.1.1)
    | inr x =>
      simp only [reprVariants, encVariants]
      exact relVariants hn vs x (h.imp_right (·.2)) hc.2

end

end
end Musli
