import Verif.Proofs.Json.DecodeTy
import Verif.Proofs.Json.Encode
import Verif.Proofs.Tagged
/-!
# Tagged enums in JSON
-/
set_option linter.unusedSectionVars false
namespace Musli.Json
open Musli Spec

/-- Leaving an object in which there are more members. -/
theorem endMap_after {n : Nat} {e : Bytes}
    (h : More (List.replicate n anyMember) e) (s : Bytes) :
    endMap false (e ++ 0x7D#8 :: s) = .ok ((), s) := by
  unfold endMap skipFuel
  have hf : 2 * (e ++ 0x7D#8 :: s).length + 2 = (2 * (e ++ 0x7D#8 :: s).length + 1) + 1 := rfl
  cases n with
  | zero =>
    rw [hf]
    exact skipEntries_close _ false h s
  | succ n =>
    have hall : ∀ p ∈ List.replicate n anyMember, ∀ x, p x → IsMember x := by
      intro p hp x hx
      rw [(List.mem_replicate.1 hp).2] at hx; exact hx
    obtain ⟨a, b, x, r, ha, hb, hx, hr, rfl⟩ := h
    rw [hf]
    have e2 : a ++ 0x2C#8 :: (b ++ (x ++ r)) ++ 0x7D#8 :: s =
      a ++ 0x2C#8 :: ((b ++ (x ++ r)) ++ 0x7D#8 :: s) := by simp
    rw [e2, skipEntries_comma _ ha]
    exact skips (more_members hall hb hx hr) _ (by simp; omega) false s

theorem noNumber_colon (s : Bytes) : NoNumber (0x3A#8 :: s) := by
  intro b r h; cases h; unfold Digit; decide

section
variable (full : Bool) (env : Env)

theorem encBodyJ_payload : ∀ (vs : Variants) (v : vs.Val),
    encBodyJ env vs v = encode env (vs.payload v).1 (vs.payload v).2
  | .nil, v => nomatch v
  | .cons _ t vs, .inl x => rfl
  | .cons _ t vs, .inr x => encBodyJ_payload vs x

theorem payload_jsonNames : ∀ (vs : Variants) (v : vs.Val), vs.jsonNames = true →
    (vs.payload v).1.jsonNames = true
  | .nil, v, _ => nomatch v
  | .cons _ t vs, .inl x, h => by
    simp only [Variants.jsonNames, Bool.and_eq_true] at h
    exact h.1
  | .cons _ t vs, .inr x, h => by
    simp only [Variants.jsonNames, Bool.and_eq_true] at h
    exact payload_jsonNames vs x h.2

theorem payload_jsonOk : ∀ (vs : Variants) (v : vs.Val), vs.jsonOk = true →
    (vs.payload v).1.jsonOk = true
  | .nil, v, _ => nomatch v
  | .cons _ t vs, .inl x, h => by
    simp only [Variants.jsonOk, Bool.and_eq_true] at h
    exact h.1
  | .cons _ t vs, .inr x, h => by
    simp only [Variants.jsonOk, Bool.and_eq_true] at h
    exact payload_jsonOk vs x h.2

theorem payload_envOk : ∀ (vs : Variants) (v : vs.Val), vs.envOk env →
    (vs.payload v).1.envOk env
  | .nil, v, _ => nomatch v
  | .cons _ t vs, .inl x, h => by
    simp only [Variants.envOk] at h
    exact h.1
  | .cons _ t vs, .inr x, h => by
    simp only [Variants.envOk] at h
    exact payload_envOk vs x h.2

theorem decVariantsJ_payload : ∀ (vs : Variants), vs.jsonNames = true → vs.names.Nodup →
    ∀ (v : vs.Val) (c f z : Bytes), Ws c → Lead (vs.payload v).1 f → Denotes env (vs.payload v).1 (vs.payload v).2 z →
    ∀ s, NoNumber s → decVariantsJ full env vs (vs.nameOf v) (c ++ 0x3A#8 :: (f ++ (z ++ s))) = .ok (v, s)
  | .nil, _, _, v, _, _, _, _, _, _ => nomatch v
  | .cons n t vs, h, hnd, .inl x, c, f, z, hc, hf, hz => by
    simp only [Variants.jsonNames, Bool.and_eq_true] at h
    intro s hs
    show decVariantsJ full env (.cons n t vs) n _ = _
    simp only [decVariantsJ, if_true]
    rw [P.bind_ok (expect_ok (t := .colon) rfl hc _), P.bind_ok (decJ_denotes full env t h.1 x z hz f hf s hs)]
    rfl
  | .cons n t vs, h, hnd, .inr x, c, f, z, hc, hf, hz => by
    simp only [Variants.jsonNames, Bool.and_eq_true] at h
    simp only [Variants.names, List.nodup_cons] at hnd
    intro s hs
    have hne : ¬ n = vs.nameOf x := fun hc => hnd.1 (hc ▸ nameOf_mem vs x)
    show decVariantsJ full env (.cons n t vs) (vs.nameOf x) _ = _
    simp only [decVariantsJ]
    rw [if_neg hne, P.bind_ok (decVariantsJ_payload vs h.2 hnd.2 x c f z hc hf hz s hs)]
    rfl

theorem decVariantsJ_unknown : ∀ (vs : Variants) (n : Name), n ∉ vs.names → ∀ s,
    decVariantsJ full env vs n s = .error (.unknown, s)
  | .nil, _, _, _ => by simp only [decVariantsJ]; rfl
  | .cons n' t vs, n, h, s => by
    simp only [Variants.names, List.mem_cons, not_or] at h
    simp only [decVariantsJ]
    rw [if_neg (fun hc => h.1 hc.symm), P.bind_apply, decVariantsJ_unknown vs n h.2 s]

/-! ## Adjacently tagged -/

/-- The members before the content. -/
theorem adjLoopJ_heads {tag content : Name} {nt : NameTy} (vs : Variants) (q : Bytes → Prop) (qs : List (Bytes → Prop))
    (s : Bytes) : ∀ (es : List (Heading Name)),
    (∀ n, .inl n ∈ es → n.ty = nt) →
    (∀ n, .inr n ∈ es → n ≠ tag ∧ n ≠ content ∧ n.ty = tag.ty) →
    ∀ (first : Bool) (name : Option Name) (e : Bytes),
      After first (es.map (headText tag) ++ q :: qs) e → ∀ fuel, es.length < fuel →
    ∃ first' e', After first' (q :: qs) e' ∧ ∃ f,
      adjLoopJ env full tag content nt vs fuel first name (e ++ 0x7D#8 :: s) =
        adjLoopJ env full tag content nt vs (f + 1) first' ((lastTag es).or name) (e' ++ 0x7D#8 :: s) := by
  intro es
  induction es with
  | nil =>
    intro _ _ first name e he fuel hf
    exact ⟨first, e, he, fuel - 1, by
      have : fuel - 1 + 1 = fuel := by simp at hf; omega
      rw [this]; rfl⟩
  | cons a es ih =>
    intro ht hu first name e he fuel hf
    obtain ⟨f, rfl⟩ : ∃ f, fuel = f + 1 := ⟨fuel - 1, by simp at hf; omega⟩
    rw [List.map_cons, List.cons_append] at he
    obtain ⟨x, r, hx, hr, _, h1⟩ := after_cons he
    simp only [List.length_cons] at hf
    have hnn : NoNumber (r ++ 0x7D#8 :: s) := more_noNumber hr noNumber_brace s
    cases a with
    | inl n =>
      have hx : Member (NameKey tag) (NameText n) x := hx
      have hq : ∃ y, x = 0x22#8 :: y := member_quote (fun s => nameKey_str) hx
      obtain ⟨kx, c, g, z, hk, hc, hg, hz, rfl⟩ := hx
      obtain ⟨first', e', h2, f', h3⟩ := ih (fun n h => ht n (by simp [h])) (fun n h => hu n (by simp [h]))
        false (some n) r hr f (by omega)
      refine ⟨first', e', h2, f', ?_⟩
      rw [lastTag_cons_inl]
      have hor : ((lastTag es).or (some n)).or name = (lastTag es).or (some n) := by
        cases lastTag es <;> rfl
      rw [hor, ← h3]
      conv => lhs; unfold adjLoopJ
      have hkey := decNameK_text full tag kx hk [] ws_nil (c ++ 0x3A#8 :: (g ++ (z ++ (r ++ 0x7D#8 :: s))))
        (noNumber_ws_cons hc (noNumber_colon []) _)
      have hval := decNameV_text full n z hz g hg (r ++ 0x7D#8 :: s) hnn
      rw [ht n (by simp)] at hval
      have e1 : kx ++ (c ++ 0x3A#8 :: (g ++ z)) ++ (r ++ 0x7D#8 :: s) =
        [] ++ (kx ++ (c ++ 0x3A#8 :: (g ++ (z ++ (r ++ 0x7D#8 :: s))))) := by simp
      rw [P.bind_ok (h1 hq _), if_pos rfl, e1, P.bind_ok hkey, if_pos rfl,
        P.bind_ok (expect_ok (t := .colon) rfl hc _), P.bind_ok hval]
    | inr n =>
      have hx : Member (NameKey n) IsValue x := hx
      have hq : ∃ y, x = 0x22#8 :: y := member_quote (fun s => nameKey_str) hx
      obtain ⟨kx, c, g, z, hk, hc, hg, hz, rfl⟩ := hx
      obtain ⟨q1, q2, q3⟩ := hu n (by simp)
      obtain ⟨first', e', h2, f', h3⟩ := ih (fun n h => ht n (by simp [h])) (fun n h => hu n (by simp [h]))
        false name r hr f (by omega)
      refine ⟨first', e', h2, f', ?_⟩
      rw [lastTag_cons_inr, ← h3]
      conv => lhs; unfold adjLoopJ
      have hkey := decNameK_text full n kx hk [] ws_nil (c ++ 0x3A#8 :: (g ++ (z ++ (r ++ 0x7D#8 :: s))))
        (noNumber_ws_cons hc (noNumber_colon []) _)
      rw [q3] at hkey
      have e1 : kx ++ (c ++ 0x3A#8 :: (g ++ z)) ++ (r ++ 0x7D#8 :: s) =
        [] ++ (kx ++ (c ++ 0x3A#8 :: (g ++ (z ++ (r ++ 0x7D#8 :: s))))) := by simp
      rw [P.bind_ok (h1 hq _), if_pos rfl, e1, P.bind_ok hkey, if_neg q1, if_neg q2,
        P.bind_ok (expect_ok (t := .colon) rfl hc _), P.bind_ok (skip_isValue hg hz hnn)]

/-- Any document. -/
theorem adjacentJ_doc {tag content : Name} {nt : NameTy} {vs : Variants}
    (hn : (Ty.enm nt vs).jsonNames = true)
    (hty : content.ty = tag.ty) (hne : content ≠ tag)
    (es : List (Heading Name)) (n : Nat) (ht : ∀ n, .inl n ∈ es → n.ty = nt)
    (hu : ∀ n, .inr n ∈ es → n ≠ tag ∧ n ≠ content ∧ n.ty = tag.ty)
    (t : Ty) (x : t.Val) (ws doc rest : Bytes) (hw : Ws ws)
    (hdoc : AdjText env tag content es t x n doc) :
    (lastTag es = none → ∃ s, decAdjacentJ env full tag content nt vs (ws ++ (doc ++ rest)) = .error (.missing, s)) ∧
    (∀ n, lastTag es = some n → n ∉ vs.names →
      ∃ s, decAdjacentJ env full tag content nt vs (ws ++ (doc ++ rest)) = .error (.unknown, s)) ∧
    (∀ v, lastTag es = some (vs.nameOf v) → vs.payload v = ⟨t, x⟩ →
      decAdjacentJ env full tag content nt vs (ws ++ (doc ++ rest)) = .ok (v, rest)) := by
  simp only [Ty.jsonNames, Bool.and_eq_true] at hn
  obtain ⟨hnd, _⟩ := namesOk_iff hn.1
  obtain ⟨e, he, h1⟩ := obj_ws hdoc hw (s := rest)
  have hlen := separated_length he (by
    intro p hp y hy
    simp only [List.mem_append, List.mem_map, List.mem_cons, List.mem_replicate] at hp
    have hquote : ∃ z, y = 0x22#8 :: z := by
      rcases hp with ⟨a, _, rfl⟩ | rfl | ⟨_, rfl⟩
      · cases a with
        | inl n => exact member_quote (fun s => nameKey_str) hy
        | inr n => exact member_quote (fun s => nameKey_str) hy
      · exact memberL_quote (fun s => nameKey_str) hy
      · exact member_quote (fun s h => h) hy
    obtain ⟨z, rfl⟩ := hquote
    simp)
  obtain ⟨first', e', h2, f, h3⟩ := adjLoopJ_heads full env (tag := tag) (content := content) (nt := nt) vs
    _ _ rest es ht hu true none e he ((e ++ 0x7D#8 :: rest).length + 1) (by simp at hlen ⊢; omega)
  obtain ⟨y, r, hy, hr, _, h4⟩ := after_cons h2
  have hq : ∃ w, y = 0x22#8 :: w := memberL_quote (fun s => nameKey_str) hy
  obtain ⟨kx, c, g, z, hk, hc, hg, hz, rfl⟩ := hy
  have hnn : NoNumber (r ++ 0x7D#8 :: rest) := more_noNumber hr noNumber_brace rest
  have hkey := decNameK_text full content kx hk [] ws_nil (c ++ 0x3A#8 :: (g ++ (z ++ (r ++ 0x7D#8 :: rest))))
    (noNumber_ws_cons hc (noNumber_colon []) _)
  rw [hty] at hkey
  have e1 : kx ++ (c ++ 0x3A#8 :: (g ++ z)) ++ (r ++ 0x7D#8 :: rest) =
    [] ++ (kx ++ (c ++ 0x3A#8 :: (g ++ (z ++ (r ++ 0x7D#8 :: rest))))) := by simp
  rw [Option.or_none] at h3
  have hloop : adjEntriesJ env full tag content nt vs (e ++ 0x7D#8 :: rest) =
      match lastTag es with
      | none => .error (.missing, c ++ 0x3A#8 :: (g ++ (z ++ (r ++ 0x7D#8 :: rest))))
      | some n => decVariantsJ full env vs n (c ++ 0x3A#8 :: (g ++ (z ++ (r ++ 0x7D#8 :: rest)))) := by
    unfold adjEntriesJ
    rw [h3]
    unfold adjLoopJ
    rw [P.bind_ok (h4 hq _), if_pos rfl, e1, P.bind_ok hkey, if_neg hne, if_pos rfl]
    cases lastTag es <;> rfl
  refine ⟨fun hnone => ?_, fun n hn hun => ?_, fun v hv hpay => ?_⟩
  · refine ⟨c ++ 0x3A#8 :: (g ++ (z ++ (r ++ 0x7D#8 :: rest))), ?_⟩
    unfold decAdjacentJ
    rw [P.bind_ok h1, P.bind_apply, hloop, hnone]
  · refine ⟨c ++ 0x3A#8 :: (g ++ (z ++ (r ++ 0x7D#8 :: rest))), ?_⟩
    unfold decAdjacentJ
    rw [P.bind_ok h1, P.bind_apply, hloop, hn]
    dsimp only
    rw [decVariantsJ_unknown full env vs n hun]
  · have h5 := decVariantsJ_payload full env vs hn.2 hnd v c g z hc (by rw [hpay]; exact hg) (by rw [hpay]; exact hz) _ hnn
    rw [hv] at hloop
    dsimp only at hloop
    rw [h5] at hloop
    unfold decAdjacentJ
    rw [P.bind_ok h1, P.bind_ok hloop, P.bind_ok (endMap_after hr rest)]
    rfl

/-- What the encoder writes is such a document. -/
theorem encAdjacentJ_text {tag content : Name} {nt : NameTy} {vs : Variants}
    (hok : (Ty.enm nt vs).jsonOk = true) (hn : (Ty.enm nt vs).jsonNames = true) (henv : vs.envOk env)
    (v : vs.Val) (bs : Bytes) (he : encAdjacentJ env tag content vs v = .ok bs) :
    AdjText env tag content [.inl (vs.nameOf v)] (vs.payload v).1 (vs.payload v).2 0 bs := by
  simp only [Ty.jsonNames, Bool.and_eq_true] at hn
  simp only [Ty.jsonOk] at hok
  refine braces_obj he ?_
  intro e h
  obtain ⟨a, y, ha, hy, rfl⟩ := Enc.seq_eq_ok.mp h
  obtain ⟨b, z, hb, hz, rfl⟩ := Enc.seq_eq_ok.mp hy
  obtain ⟨c, w, hc, hw, rfl⟩ := Enc.seq_eq_ok.mp hz
  obtain ⟨d, x, hd, hx, rfl⟩ := Enc.seq_eq_ok.mp hw
  cases hb; cases hd
  have hmem : MemberL (NameKey content) (Lead (vs.payload v).1) (Denotes env (vs.payload v).1 (vs.payload v).2) x := by
    refine member_encL lead_nil hx (fun x h => encNameK_text h) (fun x h => ?_)
    rw [encBodyJ_payload] at h
    exact encJ_denotes env _ (payload_jsonOk vs v hok) (payload_jsonNames vs v hn.2)
      (payload_envOk env vs v henv) _ x h
  refine ⟨[], a ++ (0x3A#8 :: c), 0x2C#8 :: x, ws_nil, ?_, ?_, by simp⟩
  · exact ⟨a, [], [], c, encNameK_text ha, ws_nil, ws_nil, encNameV_text hc, by simp⟩
  · exact ⟨[], [], x, [], ws_nil, ws_nil, hmem, ws_nil, by simp⟩

/-! ## Untagged -/

/-- What the variant decodes to, and what is left, if the parser can be cloned. -/
theorem untaggedJ_decode : ∀ (vs : Variants), vs.jsonNames = true →
    ∀ (v : vs.Val) (ws x rest : Bytes), Lead (vs.payload v).1 ws → Denotes env (vs.payload v).1 (vs.payload v).2 x → NoNumber rest →
    (∀ t ∈ vs.earlier v, ∃ e, decode full env t (ws ++ (x ++ rest)) = .error e) →
    decUntaggedJ env full true vs (ws ++ (x ++ rest)) =
      .ok (v, if vs.isLast v then rest else ws ++ (x ++ rest))
  | .nil, _, v, _, _, _, _, _, _, _ => nomatch v
  | .cons n t vs, h, .inl y, ws, x, rest, hw, hx, hr, _ => by
    simp only [Variants.jsonNames, Bool.and_eq_true] at h
    have hd := decJ_denotes full env t h.1 y x hx ws hw rest hr
    simp only [decUntaggedJ, hd, Variants.isLast]
    cases vs <;> rfl
  | .cons n t vs, h, .inr y, ws, x, rest, hw, hx, hr, hearly => by
    simp only [Variants.jsonNames, Bool.and_eq_true] at h
    have ih := untaggedJ_decode vs h.2 y ws x rest hw hx hr
      (fun t ht => hearly t (by simp only [Variants.earlier, List.mem_cons]; exact .inr ht))
    obtain ⟨e, he'⟩ := hearly t (by simp [Variants.earlier])
    have he' : decJ full env t (ws ++ (x ++ rest)) = .error e := he'
    have hnil : vs.isNil = false := by
      cases vs with
      | nil => exact nomatch y
      | cons _ _ _ => rfl
    simp only [decUntaggedJ, he', ih, hnil, Variants.isLast]
    rfl

/-- Without clones only the last variant is tried. -/
theorem untaggedJ_noClone : ∀ (vs : Variants) (s : Bytes) (v : vs.Val) (s' : Bytes),
    decUntaggedJ env full false vs s = .ok (v, s') → vs.isLast v = true
  | .nil, _, v, _, _ => nomatch v
  | .cons n t vs, s, v, s', h => by
    simp only [decUntaggedJ] at h
    split at h
    · rename_i hnil
      split at h
      · cases h; exact hnil
      · cases h
    · rw [if_neg (by simp)] at h
      split at h
      · rename_i y s'' hy
        cases h
        exact untaggedJ_noClone vs s y _ hy
      · cases h

/-- A parser which is not advanced is at the same element over and over. -/
theorem elems_stuck {α} {d : P α} {s : Bytes} (hd : ∃ a, d s = .ok (a, s))
    (hv : nextValue false s = .ok (true, s)) : ∀ fuel, ∃ r, elems d fuel false s = .error (.fuel, r)
  | 0 => ⟨s, rfl⟩
  | fuel + 1 => by
    obtain ⟨a, ha⟩ := hd
    obtain ⟨r, hr⟩ := elems_stuck ⟨a, ha⟩ hv fuel
    refine ⟨r, ?_⟩
    unfold elems
    rw [P.bind_ok hv, if_pos rfl, P.bind_ok ha, P.bind_apply, hr]

/-! ## Fallback -/

theorem fallbackJ_known {nt : NameTy} {vs : Variants} (hn : (Ty.enm nt vs).jsonNames = true) (fb v : vs.Val) :
    Decodes (decFallbackJ env full nt vs fb) v (Denotes env (.enm nt vs) v) := by
  intro x hx ws hw s hs
  simp only [Denotes] at hx
  simp only [Ty.jsonNames, Bool.and_eq_true] at hn
  obtain ⟨hnd, hty⟩ := namesOk_iff hn.1
  obtain ⟨e, ⟨b, m, r, hb, hm, hr, rfl⟩, h1⟩ := obj_ws hx hw (s := s)
  have hr : Ws r := hr
  obtain ⟨n, z, k, hn', hk, hnn, hm2, hd⟩ := decVariantsJ_denotes full env vs hn.2 hnd v m hm
  have hkey := decNameK_text full n z hk b hb (k ++ (r ++ 0x7D#8 :: s)) (by
    obtain ⟨y, q, rfl, hy⟩ := hnn
    rw [List.append_assoc, List.cons_append]
    exact noNumber_ws_cons hy (noNumber_colon []) _)
  rw [hty n hn'] at hkey
  have e1 : b ++ (m ++ r) ++ 0x7D#8 :: s = b ++ (z ++ (k ++ (r ++ 0x7D#8 :: s))) := by simp [hm2]
  unfold decFallbackJ
  rw [P.bind_ok h1, e1, P.bind_ok hkey, if_pos hn',
    P.bind_ok (hd _ (noNumber_ws_cons hr noNumber_brace s))]
  dsimp only
  rw [P.bind_ok (expect_ok (t := .closeBrace) rfl hr s)]
  rfl

theorem fallbackJ_unknown {nt : NameTy} {vs : Variants} (fb : vs.Val) (n : Name) (hn : n ∉ vs.names) (hnt : n.ty = nt) :
    Decodes (decFallbackJ env full nt vs fb) fb (Obj [Member (NameKey n) IsValue]) := by
  intro x hx ws hw s hs
  obtain ⟨e, ⟨b, m, r, hb, ⟨kx, c, g, z, hk, hc, hg, hz, rfl⟩, hr, rfl⟩, h1⟩ := obj_ws hx hw (s := s)
  have hr : Ws r := hr
  have hkey := decNameK_text full n kx hk b hb (c ++ 0x3A#8 :: (g ++ (z ++ (r ++ 0x7D#8 :: s))))
    (noNumber_ws_cons hc (noNumber_colon []) _)
  rw [hnt] at hkey
  have e1 : b ++ (kx ++ (c ++ 0x3A#8 :: (g ++ z)) ++ r) ++ 0x7D#8 :: s =
    b ++ (kx ++ (c ++ 0x3A#8 :: (g ++ (z ++ (r ++ 0x7D#8 :: s))))) := by simp
  have h2 : (do expect .colon; skip; pure fb : P vs.Val) (c ++ 0x3A#8 :: (g ++ (z ++ (r ++ 0x7D#8 :: s)))) =
      .ok (fb, r ++ 0x7D#8 :: s) := by
    rw [P.bind_ok (expect_ok (t := .colon) rfl hc _),
      P.bind_ok (skip_isValue hg hz (noNumber_ws_cons hr noNumber_brace s))]
    rfl
  unfold decFallbackJ
  rw [P.bind_ok h1, e1, P.bind_ok hkey, if_neg hn, P.bind_ok h2]
  dsimp only
  rw [P.bind_ok (expect_ok (t := .closeBrace) rfl hr s)]
  rfl

theorem findName_none {n : Name} : ∀ {names : List Name}, n ∉ names → findName n names = none
  | [], _ => rfl
  | a :: l, hn => by
    simp only [List.mem_cons, not_or] at hn
    simp only [findName, if_neg (fun h : a = n => hn.1 h.symm), findName_none hn.2]

theorem unitFallbackJ {nt : NameTy} {names : List Name} (hnd : names.Nodup)
    (fb : Fin names.length) (n : Name) (hnt : n.ty = nt) :
    (∀ i : Fin names.length, names[i] = n → Decodes (decUnitFallbackJ full nt names fb) i (NameText n)) ∧
    (n ∉ names → Decodes (decUnitFallbackJ full nt names fb) fb (NameText n)) := by
  have h := decNameV_text full n
  rw [hnt] at h
  refine ⟨fun i hi => Decodes.bind h (fun s => ?_), fun hn => Decodes.bind h (fun s => ?_)⟩
  · rw [← hi, findName_get names hnd i]; rfl
  · rw [findName_none hn]; rfl

end
end Musli.Json
