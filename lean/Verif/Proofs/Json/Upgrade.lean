import Verif.Proofs.Json.WellFormed
import Verif.Proofs.Upgrade
/-!
# Reading other versions of the types from JSON
-/
set_option linter.unusedSectionVars false
namespace Musli.Json
open Musli Spec

section
variable (env : Env)

/-- The field of this name, if the struct is going to be `w`. -/
def known? (n : Name) : (fs : Fields) → fs.Val → Option fs.Known
  | .nil, _ => none
  | .cons n' _ _ _ fs, w => if n' = n then some (.inl w.1) else (known? n fs w.2).map .inr

theorem known?_none {n : Name} : ∀ (fs : Fields) (w : fs.Val), n ∉ fs.names → known? n fs w = none
  | .nil, _, _ => rfl
  | .cons n' _ _ _ fs, w, h => by
    simp only [Fields.names, List.mem_cons, not_or] at h
    simp only [known?, if_neg (fun hc => h.1 (Eq.symm hc)), known?_none fs w.2 h.2, Option.map_none]

theorem known?_keyOf {n : Name} : ∀ (fs : Fields) (w : fs.Val) (k : fs.Known), known? n fs w = some k → fs.keyOf k = n
  | .nil, _, _, h => by cases h
  | .cons n' _ _ _ fs, w, k, h => by
    simp only [known?] at h
    split at h
    · rename_i hn; cases h; exact hn
    · cases hk : known? n fs w.2 with
      | none => rw [hk] at h; cases h
      | some k' => rw [hk] at h; cases h; exact known?_keyOf fs w.2 k' hk

theorem known?_mem {n : Name} : ∀ (fs : Fields) (w : fs.Val), known? n fs w = none → n ∉ fs.names
  | .nil, _, _ => by simp [Fields.names]
  | .cons n' _ _ _ fs, w, h => by
    simp only [known?] at h
    split at h
    · cases h
    · rename_i hn
      simp only [Fields.names, List.mem_cons, not_or]
      exact ⟨fun hc => hn hc.symm, known?_mem fs w.2 (Option.map_eq_none_iff.mp h)⟩

/-- What the text of an entry has to be. -/
def EntryText (fs : Fields) (e : Written) (w : fs.Val) (b : Bytes) : Prop :=
  match known? e.name fs w with
  | some k => reprKnown env fs k b
  | none => IsValue b

/-- As a member of the object. -/
def classify (fs : Fields) (w : fs.Val) (e : Written) : fs.Known ⊕ Name :=
  match known? e.name fs w with
  | some k => .inl k
  | none => .inr e.name

theorem more_mono {α} {p q : α → Bytes → Prop} : ∀ (l : List α), (∀ a ∈ l, ∀ x, p a x → q a x) → ∀ s,
    More (l.map p) s → More (l.map q) s
  | [], _, _, h => h
  | a :: l, hpq, s, h => by
    obtain ⟨c, b, x, r, hc, hb, hx, hr, rfl⟩ := h
    exact ⟨c, b, x, r, hc, hb, hpq a (by simp) x hx, more_mono l (fun a ha => hpq a (by simp [ha])) r hr, rfl⟩

theorem after_mono {α} {p q : α → Bytes → Prop} (l : List α) (hpq : ∀ a ∈ l, ∀ x, p a x → q a x) (first : Bool)
    (s : Bytes) (h : After first (l.map p) s) : After first (l.map q) s := by
  cases first with
  | false => exact more_mono l hpq s h
  | true =>
    cases l with
    | nil => exact h
    | cons a l =>
      obtain ⟨b, x, r, hb, hx, hr, rfl⟩ := h
      exact ⟨b, x, r, hb, hpq a (by simp) x hx, more_mono l (fun a ha => hpq a (by simp [ha])) r hr, rfl⟩

theorem encFieldsJ_written : ∀ (fs : Fields) (v : fs.Val) (first : Bool) (s : Bytes),
    encFieldsJ env fs first v = .ok s → After first ((fs.written env v).map
      fun e => MemberL (NameKey e.name) (· = []) (fun x => encJ env e.ty e.val = .ok x)) s
  | .nil, v, first, s, h => by
    simp only [encFieldsJ] at h; cases h; exact after_nilI first
  | .cons n d sk t fs, v, first, s, h => by
    simp only [encFieldsJ] at h
    simp only [Fields.written]
    cases hp : fieldPresent env sk t v.1 with
    | false =>
      rw [hp] at h
      simp only [Bool.false_eq_true, if_false, List.nil_append] at h ⊢
      exact encFieldsJ_written fs v.2 first s h
    | true =>
      rw [hp] at h
      simp only [if_true, List.cons_append, List.nil_append, List.map_cons] at h ⊢
      obtain ⟨c, y, hc, hy, rfl⟩ := Enc.seq_eq_ok.mp h
      obtain ⟨kx, z, hk, hz, rfl⟩ := Enc.seq_eq_ok.mp hy
      obtain ⟨co, z', hco, hz', rfl⟩ := Enc.seq_eq_ok.mp hz
      obtain ⟨x, r, hx, hr, rfl⟩ := Enc.seq_eq_ok.mp hz'
      cases hco
      have hmem : MemberL (NameKey n) (· = []) (fun x => encJ env t v.1 = .ok x) (kx ++ (0x3A#8 :: x)) :=
        ⟨kx, [], [], x, encNameK_text hk, ws_nil, rfl, hx, rfl⟩
      have := after_consI hc hmem (encFieldsJ_written fs v.2 false r hr)
      simpa [Function.comp_def] using this

theorem encVariantsJ_written : ∀ (vs : Variants) (v : vs.Val) (s : Bytes), encVariantsJ env vs v = .ok s →
    MemberL (NameKey (vs.written v).name) (· = []) (fun x => encJ env (vs.written v).ty (vs.written v).val = .ok x) s
  | .nil, v, _, _ => nomatch v
  | .cons n t vs, .inl x, s, h => by
    simp only [encVariantsJ] at h
    exact member_encL (l := (· = [])) rfl h (fun x hx => encNameK_text hx) (fun y hy => hy)
  | .cons n t vs, .inr x, s, h => by
    simp only [encVariantsJ] at h
    exact encVariantsJ_written vs x s h

theorem written_jsonNames : ∀ (fs : Fields) (v : fs.Val), fs.jsonNames = true →
    ∀ e ∈ fs.written env v, e.ty.jsonNames = true
  | .nil, _, _, e, he => nomatch he
  | .cons n d skip t fs, v, h, e, he => by
    simp only [Fields.jsonNames, Bool.and_eq_true] at h
    simp only [Fields.written, List.mem_append] at he
    rcases he with he | he
    · split at he
      · obtain rfl := List.mem_singleton.mp he
        exact h.1
      · nomatch he
    · exact written_jsonNames fs v.2 h.2 e he

theorem variantWritten_jsonNames : ∀ (vs : Variants) (v : vs.Val), vs.jsonNames = true →
    (vs.written v).ty.jsonNames = true
  | .nil, v, _ => nomatch v
  | .cons n t vs, .inl x, h => by
    simp only [Variants.jsonNames, Bool.and_eq_true] at h
    exact h.1
  | .cons n t vs, .inr x, h => by
    simp only [Variants.jsonNames, Bool.and_eq_true] at h
    exact variantWritten_jsonNames vs x h.2

/-- The text written for a value, read as another type. -/
abbrev J1 (s t : Ty) (v : s.Val) (w : t.Val) : Prop :=
  s.jsonNames = true → t.jsonNames = true →
    (t.jsonOk = true → t.envOk env → ∀ b, encJ env s v = .ok b → Denotes env t w b) ∧
    (∀ b, encKey s v = .ok b → KeyText t w b)

/-- As above, for lists. -/
abbrev J2 (s t : Ty) (xs : List s.Val) (ys : List t.Val) : Prop :=
  s.jsonNames = true → t.jsonNames = true → t.jsonOk = true → t.envOk env →
    ∀ first b, sepAll (encJ env s) first xs = .ok b → After first (ys.map (Denotes env t)) b

/-- As above, for lists of pairs. -/
abbrev J3 (k l s t : Ty) (xs : List (k.Val × s.Val)) (ys : List (l.Val × t.Val)) : Prop :=
  k.jsonNames = true → l.jsonNames = true → s.jsonNames = true → t.jsonNames = true → t.jsonOk = true → t.envOk env →
    ∀ first b, sepAll (fun x : k.Val × s.Val => encKey k x.1 +> .ok [0x3A#8] +> encJ env s x.2) first xs = .ok b →
      After first (ys.map (fun x => MemberL (KeyText l x.1) (Lead t) (Denotes env t x.2))) b

/-- As above, for tuples. -/
abbrev J4 (ss ts : Tys) (v : ss.Val) (w : ts.Val) : Prop :=
  ss.jsonNames = true → ts.jsonNames = true → ts.jsonOk = true → ts.envOk env →
    ∀ first b, encTysJ env ss first v = .ok b → After first (reprTys env ts w) b

/-- As above, for fields. -/
abbrev J5 (es : List Written) (fs : Fields) (w : fs.Val) : Prop :=
  (es.map Written.name).Nodup → (∀ e ∈ es, e.ty.jsonNames = true) → fs.jsonNames = true → fs.jsonOk = true →
    fs.envOk env → fs.names.Nodup →
    (∀ e ∈ es, ∀ b, encJ env e.ty e.val = .ok b → EntryText env fs e w b) ∧
    fs.assemble env (es.filterMap (fun e => known? e.name fs w)) = .ok w

/-- As above, for variants. -/
abbrev J6 (e : Written) (vs : Variants) (w : vs.Val) : Prop :=
  e.ty.jsonNames = true → vs.jsonNames = true → vs.jsonOk = true → vs.envOk env →
    ∀ s, MemberL (NameKey e.name) (· = []) (fun x => encJ env e.ty e.val = .ok x) s → reprVariant env vs w s

theorem reprEntry_classify {fs : Fields} {w : fs.Val} {e : Written} {s : Bytes}
    (h : MemberL (NameKey e.name) (· = []) (EntryText env fs e w) s) :
    reprEntry fs (reprKnown env fs) (classify fs w e) s := by
  unfold EntryText at h
  unfold classify
  cases hk : known? e.name fs w with
  | none =>
    rw [hk] at h
    obtain ⟨x, a, b, y, h1, h2, rfl, h3⟩ := h
    exact ⟨x, a, [], y, h1, h2, ws_nil, h3⟩
  | some k =>
    rw [hk] at h
    show MemberL (NameKey (fs.keyOf k)) (leadKnown fs k) _ s
    rw [known?_keyOf fs w k hk]
    obtain ⟨x, a, b, y, h1, h2, rfl, h3⟩ := h
    exact ⟨x, a, [], y, h1, h2, leadKnown_nil fs k, h3⟩

theorem upgradeStrct {nt : NameTy} {fs : Fields} {w : fs.Val} {es : List Written}
    (h : J5 env es fs w) (hnd : (es.map Written.name).Nodup) (hty : ∀ e ∈ es, e.name.ty = nt)
    (hok : ∀ e ∈ es, e.ty.jsonNames = true) (hn : (Ty.strct nt fs).jsonNames = true)
    (ho : (Ty.strct nt fs).jsonOk = true) (henv : fs.envOk env) (s : Bytes)
    (hs : Obj (es.map fun e => MemberL (NameKey e.name) (· = []) (fun x => encJ env e.ty e.val = .ok x)) s) :
    Denotes env (.strct nt fs) w s := by
  simp only [Ty.jsonNames, Bool.and_eq_true] at hn
  simp only [Ty.jsonOk, Bool.and_eq_true] at ho
  obtain ⟨hnd', _⟩ := namesOk_iff hn.1
  obtain ⟨hent, hfin⟩ := h hnd hok hn.2 ho.2 henv hnd'
  simp only [Denotes]
  refine ⟨es.map (classify fs w), ?_, ?_, ?_⟩
  · intro n hmem
    obtain ⟨e, he, hc⟩ := List.mem_map.mp hmem
    unfold classify at hc
    cases hk : known? e.name fs w with
    | some k => rw [hk] at hc; cases hc
    | none => rw [hk] at hc; cases hc; exact ⟨known?_mem fs w hk, hty e he⟩
  · rw [List.filterMap_map]
    have : (Sum.getLeft? ∘ classify fs w) = fun e => known? e.name fs w := by
      funext e
      show (classify fs w e).getLeft? = _
      unfold classify
      cases known? e.name fs w <;> rfl
    rw [this]
    exact hfin
  · rw [List.map_map]
    obtain ⟨e, he, rfl⟩ := hs
    refine ⟨e, after_mono (first := true) es ?_ _ he, rfl⟩
    intro a ha x hx
    obtain ⟨k, c, d, v, hk, hc, hd, hv, rfl⟩ := hx
    exact reprEntry_classify env ⟨k, c, d, v, hk, hc, hd, hent a ha v hv, rfl⟩

theorem getLast?_const {α} {a : α} : ∀ (l : List α), l ≠ [] → (∀ x ∈ l, x = a) → l.getLast? = some a := by
  intro l hl h
  rw [List.getLast?_eq_some_getLast hl]
  exact congrArg some (h _ (List.getLast_mem hl))

theorem assemble_known {n' d s t} {fs : Fields} (hn : n' ∉ fs.names) (w : (Fields.cons n' d s t fs).Val)
    (es : List Written) :
    ((es.filterMap (fun e => known? e.name (.cons n' d s t fs) w)).filterMap Sum.getLeft? =
      es.filterMap (fun e => if n' = e.name then some w.1 else none)) ∧
    ((es.filterMap (fun e => known? e.name (.cons n' d s t fs) w)).filterMap Sum.getRight? =
      es.filterMap (fun e => known? e.name fs w.2)) := by
  simp only [List.filterMap_filterMap]
  constructor
  · congr 1
    funext e
    simp only [known?]
    split
    · rfl
    · cases known? e.name fs w.2 <;> rfl
  · congr 1
    funext e
    simp only [known?]
    split
    · rename_i h
      rw [known?_none fs w.2 (h ▸ hn)]
      rfl
    · cases known? e.name fs w.2 <;> rfl

theorem upgradeJ {s t : Ty} {v : s.Val} {w : t.Val} (h : Upgrade env s t v w) : J1 env s t v w := by
  refine Upgrade.rec (env := env)
    (motive_1 := fun s t v w _ => J1 env s t v w)
    (motive_2 := fun s t xs ys _ => J2 env s t xs ys)
    (motive_3 := fun k l s t xs ys _ => J3 env k l s t xs ys)
    (motive_4 := fun ss ts v w _ => J4 env ss ts v w)
    (motive_5 := fun es fs w _ => J5 env es fs w)
    (motive_6 := fun e vs w _ => J6 env e vs w)
    ?same ?none ?some ?vec ?set ?vecToSet ?setToVec ?array ?arrayToVec ?map ?tuple ?resultOk ?resultErr ?unbox ?box
    ?unwrap ?wrap ?unwrapping ?wrapping ?strct ?grow ?shrink ?unitEnum ?enm
    ?lnil ?lcons ?pnil ?pcons ?tnil ?tcons ?fnil ?ffound ?fabsent ?vhere ?vthere h
  case same =>
    intro t v _ hn
    exact ⟨fun ho he b hb => encJ_denotes env t ho hn he v b hb, fun b hb => encKey_text t v b hb⟩
  case none =>
    intro s t _ _
    refine ⟨fun _ _ b hb => ?_, fun b hb => by cases hb⟩
    simp only [encJ] at hb
    cases hb
    simp only [Denotes]
    rfl
  case some =>
    intro s t x y _ ih hs ht
    refine ⟨fun ho he b hb => ?_, fun b hb => by cases hb⟩
    simp only [Ty.jsonNames] at hs ht
    simp only [Ty.jsonOk, Bool.and_eq_true, Bool.not_eq_true'] at ho
    simp only [Ty.envOk] at he
    simp only [encJ] at hb
    have := (ih hs ht).1 ho.2 he b hb
    simp only [Denotes]
    exact ⟨this, denotes_not_null env t ho.1 y b this⟩
  case vec =>
    intro s t xs ys _ ih hs ht
    refine ⟨fun ho he b hb => ?_, fun b hb => by cases hb⟩
    simp only [Ty.jsonNames] at hs ht
    simp only [Ty.jsonOk] at ho
    simp only [Ty.envOk] at he
    simp only [encJ] at hb
    simp only [Denotes]
    exact brackets_arr hb fun e h => ih hs ht ho he true e h
  case set =>
    intro s t xs ys _ ih hs ht
    refine ⟨fun ho he b hb => ?_, fun b hb => by cases hb⟩
    simp only [Ty.jsonNames] at hs ht
    simp only [Ty.jsonOk] at ho
    simp only [Ty.envOk] at he
    simp only [encJ] at hb
    simp only [Denotes]
    exact brackets_arr hb fun e h => ih hs ht ho he true e h
  case vecToSet =>
    intro s t xs ys _ ih hs ht
    refine ⟨fun ho he b hb => ?_, fun b hb => by cases hb⟩
    simp only [Ty.jsonNames] at hs ht
    simp only [Ty.jsonOk] at ho
    simp only [Ty.envOk] at he
    simp only [encJ] at hb
    simp only [Denotes]
    exact brackets_arr hb fun e h => ih hs ht ho he true e h
  case setToVec =>
    intro s t xs ys _ ih hs ht
    refine ⟨fun ho he b hb => ?_, fun b hb => by cases hb⟩
    simp only [Ty.jsonNames] at hs ht
    simp only [Ty.jsonOk] at ho
    simp only [Ty.envOk] at he
    simp only [encJ] at hb
    simp only [Denotes]
    exact brackets_arr hb fun e h => ih hs ht ho he true e h
  case array =>
    intro n s t xs ys _ ih hs ht
    refine ⟨fun ho he b hb => ?_, fun b hb => by cases hb⟩
    simp only [Ty.jsonNames] at hs ht
    simp only [Ty.jsonOk] at ho
    simp only [Ty.envOk] at he
    simp only [encJ] at hb
    simp only [Denotes]
    exact brackets_arr hb fun e h => ih hs ht ho he true e h
  case arrayToVec =>
    intro n s t xs ys _ ih hs ht
    refine ⟨fun ho he b hb => ?_, fun b hb => by cases hb⟩
    simp only [Ty.jsonNames] at hs ht
    simp only [Ty.jsonOk] at ho
    simp only [Ty.envOk] at he
    simp only [encJ] at hb
    simp only [Denotes]
    exact brackets_arr hb fun e h => ih hs ht ho he true e h
  case map =>
    intro k l s t xs ys _ ih hs ht
    refine ⟨fun ho he b hb => ?_, fun b hb => by cases hb⟩
    simp only [Ty.jsonNames, Bool.and_eq_true] at hs ht
    simp only [Ty.jsonOk] at ho
    simp only [Ty.envOk] at he
    simp only [encJ] at hb
    simp only [Denotes]
    exact braces_obj hb fun e h => ih hs.1 ht.1 hs.2 ht.2 ho he.2 true e h
  case tuple =>
    intro ss ts v w _ ih hs ht
    refine ⟨fun ho he b hb => ?_, fun b hb => by cases hb⟩
    simp only [Ty.jsonNames] at hs ht
    simp only [Ty.jsonOk] at ho
    simp only [Ty.envOk] at he
    simp only [encJ] at hb
    simp only [Denotes]
    refine ⟨0, brackets_arr hb fun e h => ?_⟩
    rw [List.replicate_zero, List.append_nil]
    exact ih hs ht ho he true e h
  case resultOk =>
    intro nt s t s' t' x y _ ih hs ht
    refine ⟨fun ho he b hb => ?_, fun b hb => by cases hb⟩
    simp only [Ty.jsonNames, Bool.and_eq_true] at hs ht
    simp only [Ty.jsonOk, Bool.and_eq_true] at ho
    simp only [Ty.envOk] at he
    simp only [encJ] at hb
    simp only [Denotes]
    refine braces_obj hb fun e h => ?_
    exact ⟨[], e, [], ws_nil, member_encL lead_nil h (fun x hx => encNameK_text hx)
      (fun x hx => (ih hs.1 ht.1).1 ho.1 he.1 x hx), ws_nil, by simp⟩
  case resultErr =>
    intro nt s t s' t' x y _ ih hs ht
    refine ⟨fun ho he b hb => ?_, fun b hb => by cases hb⟩
    simp only [Ty.jsonNames, Bool.and_eq_true] at hs ht
    simp only [Ty.jsonOk, Bool.and_eq_true] at ho
    simp only [Ty.envOk] at he
    simp only [encJ] at hb
    simp only [Denotes]
    refine braces_obj hb fun e h => ?_
    exact ⟨[], e, [], ws_nil, member_encL lead_nil h (fun x hx => encNameK_text hx)
      (fun x hx => (ih hs.2 ht.2).1 ho.2 he.2 x hx), ws_nil, by simp⟩
  case unbox =>
    intro s t x y _ ih hs ht
    simp only [Ty.jsonNames] at hs
    refine ⟨fun ho he b hb => ?_, fun b hb => (ih hs ht).2 b hb⟩
    simp only [encJ] at hb
    exact (ih hs ht).1 ho he b hb
  case box =>
    intro s t x y _ ih hs ht
    simp only [Ty.jsonNames] at ht
    refine ⟨fun ho he b hb => ?_, fun b hb => (ih hs ht).2 b hb⟩
    simp only [Ty.jsonOk] at ho
    simp only [Ty.envOk] at he
    simp only [Denotes]
    exact (ih hs ht).1 ho he b hb
  case unwrap =>
    intro s t x y _ ih hs ht
    simp only [Ty.jsonNames] at hs
    refine ⟨fun ho he b hb => ?_, fun b hb => (ih hs ht).2 b hb⟩
    simp only [encJ] at hb
    exact (ih hs ht).1 ho he b hb
  case wrap =>
    intro s t x y _ ih hs ht
    simp only [Ty.jsonNames] at ht
    refine ⟨fun ho he b hb => ?_, fun b hb => (ih hs ht).2 b hb⟩
    simp only [Ty.jsonOk] at ho
    simp only [Ty.envOk] at he
    simp only [Denotes]
    exact (ih hs ht).1 ho he b hb
  case unwrapping =>
    intro s t x y _ ih hs ht
    simp only [Ty.jsonNames] at hs
    refine ⟨fun ho he b hb => ?_, fun b hb => (ih hs ht).2 b hb⟩
    simp only [encJ] at hb
    exact (ih hs ht).1 ho he b hb
  case wrapping =>
    intro s t x y _ ih hs ht
    simp only [Ty.jsonNames] at ht
    refine ⟨fun ho he b hb => ?_, fun b hb => (ih hs ht).2 b hb⟩
    simp only [Ty.jsonOk] at ho
    simp only [Ty.envOk] at he
    simp only [Denotes]
    exact (ih hs ht).1 ho he b hb
  case strct =>
    intro nt gs fs v w _ ih hs ht
    refine ⟨fun ho he b hb => ?_, fun b hb => by cases hb⟩
    simp only [Ty.jsonNames, Bool.and_eq_true] at hs
    simp only [Ty.envOk] at he
    simp only [encJ] at hb
    obtain ⟨hnd, hty⟩ := namesOk_iff hs.1
    have hsub := written_names env gs v
    exact upgradeStrct env ih (hsub.nodup hnd)
      (fun e he => hty _ (hsub.subset (List.mem_map.mpr ⟨e, he, rfl⟩)))
      (written_jsonNames env gs v hs.2) ht ho he b
      (braces_obj hb fun e h => encFieldsJ_written env gs v true e h)
  case grow =>
    intro nt fs w _ ih hs ht
    refine ⟨fun ho he b hb => ?_, fun b hb => by cases hb⟩
    simp only [Ty.envOk] at he
    simp only [encJ] at hb
    exact upgradeStrct env (nt := nt) ih List.nodup_nil (fun e he => nomatch he) (fun e he => nomatch he) ht ho he b
      (braces_obj hb fun e h => by cases h; exact after_nilI true)
  case shrink =>
    intro nt gs v _ _
    refine ⟨fun ho he b hb => ?_, fun b hb => by cases hb⟩
    simp only [Denotes]
    refine ⟨encJ_isValue env (.strct nt gs) v b hb, ?_⟩
    simp only [encJ] at hb
    obtain ⟨e, _, rfl⟩ := braces_obj hb fun e h => encFieldsJ_written env gs v true e h
    exact ⟨_, rfl⟩
  case unitEnum =>
    intro nt names names' i j hij _ _
    refine ⟨fun ho he b hb => ?_, fun b hb => ?_⟩
    · simp only [encJ] at hb
      simp only [Denotes]
      rw [← hij]
      exact encNameV_text hb
    · show NameKey names'[j] b
      rw [← hij]
      exact encNameK_text hb
  case enm =>
    intro nt us vs v w _ ih hs ht
    refine ⟨fun ho he b hb => ?_, fun b hb => by cases hb⟩
    simp only [Ty.jsonNames, Bool.and_eq_true] at hs ht
    simp only [Ty.jsonOk] at ho
    simp only [Ty.envOk] at he
    simp only [encJ] at hb
    simp only [Denotes]
    refine braces_obj hb fun e h => ?_
    exact ⟨[], e, [], ws_nil, ih (variantWritten_jsonNames us v hs.2) ht.2 ho he e (encVariantsJ_written env us v e h),
      ws_nil, by simp⟩
  case lnil =>
    intro s t _ _ _ _ first b hb
    cases hb
    exact after_nilI first
  case lcons =>
    intro s t x y xs ys _ _ ihx ih hs ht ho he first b hb
    obtain ⟨c, z, hc, hz, rfl⟩ := Enc.seq_eq_ok.mp hb
    obtain ⟨a, r, ha, hr, rfl⟩ := Enc.seq_eq_ok.mp hz
    exact after_consI hc ((ihx hs ht).1 ho he a ha) (ih hs ht ho he false r hr)
  case pnil =>
    intro k l s t _ _ _ _ _ _ first b hb
    cases hb
    exact after_nilI first
  case pcons =>
    intro k l s t a b x y xs ys _ _ _ iha ihx ih hk hl hs ht ho he first bs hb
    obtain ⟨c, z, hc, hz, rfl⟩ := Enc.seq_eq_ok.mp hb
    obtain ⟨p, r, hp, hr, rfl⟩ := Enc.seq_eq_ok.mp hz
    exact after_consI hc (member_encL lead_nil hp (fun q hq => (iha hk hl).2 q hq) (fun q hq => (ihx hs ht).1 ho he q hq))
      (ih hk hl hs ht ho he false r hr)
  case tnil =>
    intro _ _ _ _ first b hb
    simp only [encTysJ] at hb
    cases hb
    simp only [reprTys]
    exact after_nilI first
  case tcons =>
    intro s t ss ts x y xs ys _ _ ihx ih hs ht ho he first b hb
    simp only [Tys.jsonNames, Bool.and_eq_true] at hs ht
    simp only [Tys.jsonOk, Bool.and_eq_true] at ho
    simp only [Tys.envOk] at he
    simp only [encTysJ] at hb
    simp only [reprTys]
    obtain ⟨c, z, hc, hz, rfl⟩ := Enc.seq_eq_ok.mp hb
    obtain ⟨a, r, ha, hr, rfl⟩ := Enc.seq_eq_ok.mp hz
    exact after_consI hc ((ihx hs.1 ht.1).1 ho.1 he.1 a ha) (ih hs.2 ht.2 ho.2 he.2 false r hr)
  case fnil =>
    intro es _ _ _ _ _ _
    exact ⟨fun e he b hb => encJ_isValue env e.ty e.val b hb, rfl⟩
  case ffound =>
    intro es e n d sk t fs y ys hmem hname _ _ ihy ih hnd hjn hfn hfo henv hnames
    simp only [Fields.jsonNames, Bool.and_eq_true] at hfn
    simp only [Fields.jsonOk, Bool.and_eq_true] at hfo
    simp only [Fields.envOk] at henv
    simp only [Fields.names, List.nodup_cons] at hnames
    obtain ⟨hent, hfin⟩ := ih hnd hjn hfn.2 hfo.2 henv.2.2 hnames.2
    constructor
    · intro e' he' b hb
      unfold EntryText
      by_cases hn : n = e'.name
      · obtain rfl := eq_of_name hnd hmem he' (hname.trans hn)
        simp only [known?, if_pos hn, reprKnown]
        exact (ihy (hjn e hmem) hfn.1).1 hfo.1 henv.2.1 b hb
      · have := hent e' he' b hb
        unfold EntryText at this
        simp only [known?, if_neg hn]
        cases hk : known? e'.name fs ys with
        | none => rw [hk] at this; exact this
        | some k => rw [hk] at this; simp only [Option.map_some, reprKnown]; exact this
    · obtain ⟨hl, hr⟩ := assemble_known (d := d) (s := sk) hnames.1 (y, ys) es
      simp only [Fields.assemble, hl, hr, hfin]
      rw [getLast?_const (a := y)]
      · intro h
        rw [List.filterMap_eq_nil_iff] at h
        have := h e hmem
        simp [hname] at this
      · intro x hx
        obtain ⟨e', _, h⟩ := List.mem_filterMap.mp hx
        split at h
        · cases h; rfl
        · cases h
  case fabsent =>
    intro es n d sk t fs y ys habs hmiss _ ih hnd hjn hfn hfo henv hnames
    simp only [Fields.jsonNames, Bool.and_eq_true] at hfn
    simp only [Fields.jsonOk, Bool.and_eq_true] at hfo
    simp only [Fields.envOk] at henv
    simp only [Fields.names, List.nodup_cons] at hnames
    obtain ⟨hent, hfin⟩ := ih hnd hjn hfn.2 hfo.2 henv.2.2 hnames.2
    constructor
    · intro e' he' b hb
      unfold EntryText
      have hn : n ≠ e'.name := fun hc => habs e' he' hc.symm
      have := hent e' he' b hb
      unfold EntryText at this
      simp only [known?, if_neg hn]
      cases hk : known? e'.name fs ys with
      | none => rw [hk] at this; exact this
      | some k => rw [hk] at this; simp only [Option.map_some, reprKnown]; exact this
    · obtain ⟨hl, hr⟩ := assemble_known (d := d) (s := sk) hnames.1 (y, ys) es
      simp only [Fields.assemble, hl, hr, hfin]
      have : es.filterMap (fun e => if n = e.name then some y else none) = [] := by
        rw [List.filterMap_eq_nil_iff]
        intro e he
        rw [if_neg (fun hc => habs e he hc.symm)]
      rw [this]
      simp only [List.getLast?_nil, hmiss]
  case vhere =>
    intro e t vs y _ ih hjn hvn hvo he s hs
    simp only [Variants.jsonNames, Bool.and_eq_true] at hvn
    simp only [Variants.jsonOk, Bool.and_eq_true] at hvo
    simp only [Variants.envOk] at he
    simp only [reprVariant]
    obtain ⟨k, c, d, v, hk, hc, rfl, hv, rfl⟩ := hs
    exact ⟨k, c, [], v, hk, hc, lead_nil, (ih hjn hvn.1).1 hvo.1 he.1 v hv, rfl⟩
  case vthere =>
    intro e n t vs y hne _ ih hjn hvn hvo he s hs
    simp only [Variants.jsonNames, Bool.and_eq_true] at hvn
    simp only [Variants.jsonOk, Bool.and_eq_true] at hvo
    simp only [Variants.envOk] at he
    simp only [reprVariant]
    exact ih hjn hvn.2 hvo.2 he.2 s hs

end
end Musli.Json
