import Verif.Proofs.Json.Skip
import Verif.Spec.Json.Denotes
/-!
# Texts that represent values are JSON values
-/
set_option linter.unusedSectionVars false
namespace Musli.Json
open Musli Spec

theorem more_elements {ps : List (Bytes → Prop)} (h : ∀ p ∈ ps, ∀ x, p x → IsValue x) :
    ∀ {a x r : Bytes}, Ws a → IsValue x → More ps r → Text .elements (a ++ (x ++ r)) := by
  induction ps with
  | nil => intro a x r ha hx hr; exact Text.element ha hx hr
  | cons p ps ih =>
    intro a x r ha hx hr
    obtain ⟨b, c, y, q, hb, hc, hy, hq, rfl⟩ := hr
    exact Text.elements ha hx hb (ih (fun p hp => h p (by simp [hp])) hc (h p (by simp) y hy) hq)

theorem arr_isValue {ps : List (Bytes → Prop)} (h : ∀ p ∈ ps, ∀ x, p x → IsValue x) {s : Bytes}
    (hs : Arr ps s) : IsValue s := by
  obtain ⟨e, he, rfl⟩ := hs
  cases ps with
  | nil => exact Text.emptyArray he
  | cons p ps =>
    obtain ⟨b, x, r, hb, hx, hr, rfl⟩ := he
    exact Text.array (more_elements (fun p hp => h p (by simp [hp])) hb (h p (by simp) x hx) hr)

/-- A member of an object: a string and a value. -/
def IsMember (s : Bytes) : Prop := Member (fun k => ∃ cs, StrText cs k) IsValue s

theorem more_members {ps : List (Bytes → Prop)} (h : ∀ p ∈ ps, ∀ x, p x → IsMember x) :
    ∀ {a x r : Bytes}, Ws a → IsMember x → More ps r → Text .members (a ++ (x ++ r)) := by
  induction ps with
  | nil =>
    intro a x r ha hx hr
    obtain ⟨k, b, c, v, ⟨cs, l, hl, rfl⟩, hb, hc, hv, rfl⟩ := hx
    have := Text.member ha hl hb hc hv hr
    simpa using this
  | cons p ps ih =>
    intro a x r ha hx hr
    obtain ⟨d, f, y, q, hd, hf, hy, hq, rfl⟩ := hr
    have hm := ih (fun p hp => h p (by simp [hp])) hf (h p (by simp) y hy) hq
    obtain ⟨k, b, c, v, ⟨cs, l, hl, rfl⟩, hb, hc, hv, rfl⟩ := hx
    have := Text.members ha hl hb hc hv hd hm
    simpa using this

theorem obj_isValue {ps : List (Bytes → Prop)} (h : ∀ p ∈ ps, ∀ x, p x → IsMember x) {s : Bytes}
    (hs : Obj ps s) : IsValue s := by
  obtain ⟨e, he, rfl⟩ := hs
  cases ps with
  | nil => exact Text.emptyObject he
  | cons p ps =>
    obtain ⟨b, x, r, hb, hx, hr, rfl⟩ := he
    exact Text.object (more_members (fun p hp => h p (by simp [hp])) hb (h p (by simp) x hx) hr)

theorem strText_isValue {cs : List Char} {s : Bytes} (h : StrText cs s) : IsValue s := by
  obtain ⟨l, hl, rfl⟩ := h
  exact Text.string hl

theorem intText_isValue {n : Int} {s : Bytes} (h : IntText n s) : IsValue s := by
  obtain ⟨neg, num, hn, _, rfl⟩ := h
  have := Number.mk neg (frac := []) (exp := []) hn (.inl rfl) (.inl rfl)
  simp only [List.append_nil] at this
  exact Text.number this

theorem natText_isValue {n : Nat} {s : Bytes} (h : NatText n s) : IsValue s :=
  intText_isValue (n := n) ⟨false, s, h.1, by simp [signedValue, h.2], rfl⟩

theorem primText_isValue : ∀ {p : Prim} {v : p.Val} {s : Bytes}, PrimText p v s → IsValue s := by
  intro p v s h
  cases p with
  | bool =>
    have h : s = if v = true then _ else _ := h
    rw [h]
    split
    · exact Text.tru
    · exact Text.fals
  | char => exact strText_isValue h
  | uint w => exact natText_isValue h
  | sint w => exact intText_isValue h
  | usize => exact natText_isValue h
  | isize => exact intText_isValue h
  | f32 => exact Text.number h.1
  | f64 => exact Text.number h.1

theorem primKey_str {p : Prim} {v : p.Val} {s : Bytes} (h : PrimKey p v s) : ∃ cs, StrText cs s := by
  cases p with
  | bool => exact absurd h id
  | char => exact absurd h id
  | f32 => exact absurd h id
  | f64 => exact absurd h id
  | _ => obtain ⟨cs, _, h⟩ := h; exact ⟨cs, h⟩

theorem nameKey_str {n : Name} {s : Bytes} (h : NameKey n s) : ∃ cs, StrText cs s := by
  cases n with
  | _ => obtain ⟨cs, _, h⟩ := h; exact ⟨cs, h⟩

theorem nameText_isValue {n : Name} {s : Bytes} (h : NameText n s) : IsValue s := by
  cases n with
  | idx n => exact natText_isValue h
  | str n => obtain ⟨cs, _, h⟩ := h; exact strText_isValue h

theorem keyText_str : ∀ (t : Ty) {v : t.Val} {s : Bytes}, KeyText t v s → ∃ cs, StrText cs s
  | .prim p, v, s, h => primKey_str h
  | .nonZero _ _, v, s, h => primKey_str h
  | .string, v, s, h => by obtain ⟨cs, _, h⟩ := h; exact ⟨cs, h⟩
  | .boxed t, v, s, h => keyText_str t h
  | .wrapping t, v, s, h => keyText_str t h
  | .transparent t, v, s, h => keyText_str t h
  | .unitEnum _ names, v, s, h => nameKey_str h
  | .unit, _, _, h => absurd h id
  | .bytes, _, _, h => absurd h id
  | .byteArray _, _, _, h => absurd h id
  | .option _, _, _, h => absurd h id
  | .array _ _, _, _, h => absurd h id
  | .vec _, _, _, h => absurd h id
  | .set _, _, _, h => absurd h id
  | .map _ _, _, _, h => absurd h id
  | .tuple _, _, _, h => absurd h id
  | .result _ _ _, _, _, h => absurd h id
  | .unitStruct, _, _, h => absurd h id
  | .strct _ _, _, _, h => absurd h id
  | .packed _ _, _, _, h => absurd h id
  | .enm _ _, _, _, h => absurd h id

theorem memberL_isMember {k v l : Bytes → Prop} (hk : ∀ s, k s → ∃ cs, StrText cs s) (hl : ∀ s, l s → Ws s)
    (hv : ∀ s, v s → IsValue s) {s : Bytes} (h : MemberL k l v s) : IsMember s := by
  obtain ⟨x, a, b, y, hx, ha, hb, hy, rfl⟩ := h
  exact ⟨x, a, b, y, hk x hx, ha, hl b hb, hv y hy, rfl⟩

theorem member_isMember {k v : Bytes → Prop} (hk : ∀ s, k s → ∃ cs, StrText cs s)
    (hv : ∀ s, v s → IsValue s) {s : Bytes} (h : Member k v s) : IsMember s :=
  memberL_isMember hk (fun _ h => h) hv h

theorem lead_ws {t : Ty} {s : Bytes} (h : Lead t s) : Ws s := h.1

theorem lead_nil {t : Ty} : Lead t [] := ⟨(fun _ h => nomatch h), fun _ => rfl⟩

theorem lead_of {t : Ty} (ht : t.isFloat = false) {s : Bytes} (h : Ws s) : Lead t s :=
  ⟨h, fun e => by rw [ht] at e; cases e⟩

theorem leadKnown_ws : ∀ (fs : Fields) (k : fs.Known) {s : Bytes}, leadKnown fs k s → Ws s
  | .nil, k, _, _ => nomatch k
  | .cons _ _ _ _ _, .inl _, _, h => h.1
  | .cons _ _ _ _ fs, .inr k, _, h => leadKnown_ws fs k h

theorem leadKnown_nil : ∀ (fs : Fields) (k : fs.Known), leadKnown fs k []
  | .nil, k => nomatch k
  | .cons _ _ _ _ _, .inl _ => lead_nil
  | .cons _ _ _ _ fs, .inr k => leadKnown_nil fs k

section
variable (env : Env)

mutual

theorem denotes_isValue : ∀ (t : Ty) (v : t.Val) (s : Bytes), Denotes env t v s → IsValue s
  | .prim _, v, s, h => by simp only [Denotes] at h; exact primText_isValue h
  | .nonZero _ _, v, s, h => by simp only [Denotes] at h; exact primText_isValue h
  | .unit, v, s, h => by simpa only [Denotes] using h
  | .bytes, v, s, h => by
    simp only [Denotes] at h
    refine arr_isValue ?_ h
    intro p hp x hx
    obtain ⟨b, _, rfl⟩ := List.mem_map.1 hp
    exact natText_isValue hx
  | .string, v, s, h => by
    simp only [Denotes] at h
    obtain ⟨cs, _, h⟩ := h
    exact strText_isValue h
  | .byteArray _, v, s, h => by
    simp only [Denotes] at h
    refine arr_isValue ?_ h
    intro p hp x hx
    obtain ⟨b, _, rfl⟩ := List.mem_map.1 hp
    exact natText_isValue hx
  | .option t, none, s, h => by simp only [Denotes] at h; subst h; exact Text.null
  | .option t, some x, s, h => by
    simp only [Denotes] at h
    exact denotes_isValue t x s h.1
  | .array _ t, v, s, h => by
    simp only [Denotes] at h
    refine arr_isValue ?_ h
    intro p hp x hx
    obtain ⟨b, _, rfl⟩ := List.mem_map.1 hp
    exact denotes_isValue t b x hx
  | .vec t, v, s, h => by
    simp only [Denotes] at h
    refine arr_isValue ?_ h
    intro p hp x hx
    obtain ⟨b, _, rfl⟩ := List.mem_map.1 hp
    exact denotes_isValue t b x hx
  | .set t, v, s, h => by
    simp only [Denotes] at h
    refine arr_isValue ?_ h
    intro p hp x hx
    obtain ⟨b, _, rfl⟩ := List.mem_map.1 hp
    exact denotes_isValue t b x hx
  | .map k t, v, s, h => by
    simp only [Denotes] at h
    refine obj_isValue ?_ h
    intro p hp x hx
    obtain ⟨b, _, rfl⟩ := List.mem_map.1 hp
    exact memberL_isMember (fun s => keyText_str k) (fun _ => lead_ws) (fun s => denotes_isValue t b.2 s) hx
  | .tuple ts, v, s, h => by
    simp only [Denotes] at h
    obtain ⟨n, h⟩ := h
    refine arr_isValue ?_ h
    intro p hp x hx
    rcases List.mem_append.1 hp with hp | hp
    · exact reprTys_isValue ts v p hp x hx
    · rw [(List.mem_replicate.1 hp).2] at hx; exact hx
  | .result nt t u, .inl v, s, h => by
    simp only [Denotes] at h
    refine obj_isValue ?_ h
    intro p hp x hx
    rw [List.mem_singleton.1 hp] at hx
    exact memberL_isMember (fun s => nameKey_str) (fun _ => lead_ws) (fun s => denotes_isValue t v s) hx
  | .result nt t u, .inr v, s, h => by
    simp only [Denotes] at h
    refine obj_isValue ?_ h
    intro p hp x hx
    rw [List.mem_singleton.1 hp] at hx
    exact memberL_isMember (fun s => nameKey_str) (fun _ => lead_ws) (fun s => denotes_isValue u v s) hx
  | .boxed t, v, s, h => by simp only [Denotes] at h; exact denotes_isValue t v s h
  | .wrapping t, v, s, h => by simp only [Denotes] at h; exact denotes_isValue t v s h
  | .transparent t, v, s, h => by simp only [Denotes] at h; exact denotes_isValue t v s h
  | .unitStruct, v, s, h => by simp only [Denotes] at h; exact h.1
  | .strct nt fs, v, s, h => by
    simp only [Denotes] at h
    obtain ⟨es, _, _, h⟩ := h
    refine obj_isValue ?_ h
    intro p hp x hx
    obtain ⟨e, _, rfl⟩ := List.mem_map.1 hp
    cases e with
    | inl k => exact memberL_isMember (fun s => nameKey_str) (fun _ => leadKnown_ws fs k) (fun s => reprKnown_isValue fs k s) hx
    | inr n => exact member_isMember (fun s => nameKey_str) (fun s h => h) hx
  | .packed _ fs, v, s, h => by
    simp only [Denotes] at h
    obtain ⟨n, h⟩ := h
    refine arr_isValue ?_ h
    intro p hp x hx
    rcases List.mem_append.1 hp with hp | hp
    · exact reprFields_isValue fs v p hp x hx
    · rw [(List.mem_replicate.1 hp).2] at hx; exact hx
  | .unitEnum _ names, v, s, h => by simp only [Denotes] at h; exact nameText_isValue h
  | .enm _ vs, v, s, h => by
    simp only [Denotes] at h
    refine obj_isValue ?_ h
    intro p hp x hx
    rw [List.mem_singleton.1 hp] at hx
    exact reprVariant_isMember vs v x hx

theorem reprTys_isValue : ∀ (ts : Tys) (v : ts.Val), ∀ p ∈ reprTys env ts v, ∀ x, p x → IsValue x
  | .nil, v, p, hp, x, hx => by simp [reprTys] at hp
  | .cons t ts, v, p, hp, x, hx => by
    simp only [reprTys, List.mem_cons] at hp
    rcases hp with rfl | hp
    · exact denotes_isValue t v.1 x hx
    · exact reprTys_isValue ts v.2 p hp x hx

theorem reprKnown_isValue : ∀ (fs : Fields) (k : fs.Known) (s : Bytes),
    reprKnown env fs k s → IsValue s
  | .nil, k, _, _ => nomatch k
  | .cons _ _ _ t fs, .inl v, s, h => by simp only [reprKnown] at h; exact denotes_isValue t v s h
  | .cons _ _ _ t fs, .inr k, s, h => by simp only [reprKnown] at h; exact reprKnown_isValue fs k s h

theorem reprFields_isValue : ∀ (fs : Fields) (v : fs.Val), ∀ p ∈ reprFields env fs v,
    ∀ x, p x → IsValue x
  | .nil, v, p, hp, x, hx => by simp [reprFields] at hp
  | .cons _ _ _ t ts, v, p, hp, x, hx => by
    simp only [reprFields, List.mem_cons] at hp
    rcases hp with rfl | hp
    · exact denotes_isValue t v.1 x hx
    · exact reprFields_isValue ts v.2 p hp x hx

theorem reprVariant_isMember : ∀ (vs : Variants) (v : vs.Val) (s : Bytes),
    reprVariant env vs v s → IsMember s
  | .nil, v, _, _ => nomatch v
  | .cons n t vs, .inl x, s, h => by
    simp only [reprVariant] at h
    exact memberL_isMember (fun s => nameKey_str) (fun _ => lead_ws) (fun s => denotes_isValue t x s) h
  | .cons n t vs, .inr x, s, h => by
    simp only [reprVariant] at h
    exact reprVariant_isMember vs x s h

end
end

end Musli.Json
