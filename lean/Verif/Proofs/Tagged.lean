import Verif.Proofs.Evolution
import Verif.Spec.Tagged
/-!
# Tagged enums in the binary formats
-/
set_option linter.unusedSectionVars false
namespace Musli

section
variable [Host] (o : Options) (env : Env)

theorem encBody_payload (m : Mode) : ∀ (vs : Variants) (v : vs.Val),
    encBody o env vs m v = encode o env m (vs.payload v).1 (vs.payload v).2
  | .nil, v => nomatch v
  | .cons _ t vs, .inl x => rfl
  | .cons _ t vs, .inr x => encBody_payload m vs x

omit [Host] in
theorem nameOf_mem : ∀ (vs : Variants) (v : vs.Val), vs.nameOf v ∈ vs.names
  | .nil, v => nomatch v
  | .cons _ t vs, .inl x => by simp [Variants.nameOf, Variants.names]
  | .cons _ t vs, .inr x => by simp [Variants.nameOf, Variants.names, nameOf_mem vs x]

omit [Host] in
theorem Variants.bodiesOk_of_ok (N H : Bool) (m : Mode) (tail : Bool) : ∀ (vs : Variants),
    vs.ok N H m tail = true → vs.bodiesOk N H m tail = true
  | .nil, _ => rfl
  | .cons n t vs, h => by
    simp only [Variants.ok, Bool.and_eq_true] at h
    simp only [Variants.bodiesOk, Bool.and_eq_true]
    exact ⟨h.1.1, vs.bodiesOk_of_ok N H m tail h.2⟩

theorem encContent_eq (N H : Bool) (m : Mode) (tail : Bool) : ∀ (vs : Variants) (v : vs.Val), vs.ok N H m tail = true →
    encContent o env vs m v = encBody o env vs m v
  | .nil, v, _ => nomatch v
  | .cons n t vs, v, h => by
    simp only [Variants.ok, Bool.and_eq_true] at h
    cases v with
    | inl x =>
      have hd : t.dynamic = false := by simpa using h.1.2
      simp only [encContent, encBody, hd, Bool.false_eq_true, if_false]
    | inr x => exact encContent_eq N H m tail vs x h.2

/-- The body of a variant decodes as the variant. -/
theorem decVariants_payload : ∀ (vs : Variants) (m : Mode) (tail : Bool),
    vs.bodiesOk (Opt.isNativeFixed o) (hostOrder o) m tail = true → vs.envOk env → vs.names.Nodup →
    ∀ v bs, encode o env m (vs.payload v).1 (vs.payload v).2 = .ok bs →
      ∀ r, (tail = true → r = []) → decVariants o env vs m (vs.nameOf v) (bs ++ r) = .ok (v, r)
  | .nil, m, tail, _, _, _ => fun v => nomatch v
  | .cons n t vs, m, tail, h, henv, hnd => by
    simp only [Variants.bodiesOk, Bool.and_eq_true] at h
    simp only [Variants.envOk] at henv
    simp only [Variants.names, List.nodup_cons] at hnd
    intro v bs he r hr
    cases v with
    | inl x =>
      show decVariants o env (.cons n t vs) m n (bs ++ r) = _
      simp only [decVariants, if_true]
      rw [Dec.bind_ok (rtD o env t m tail h.1 henv.1 x bs r he hr)]
      rfl
    | inr x =>
      have hne : n ≠ vs.nameOf x := fun hc => hnd.1 (hc ▸ nameOf_mem vs x)
      show decVariants o env (.cons n t vs) m (vs.nameOf x) (bs ++ r) = _
      simp only [decVariants, if_neg hne]
      rw [Dec.bind_ok (decVariants_payload vs m tail h.2 henv.2 hnd.2 x bs he r hr)]
      rfl

theorem decVariants_unknown (m : Mode) : ∀ (vs : Variants) (n : Name), n ∉ vs.names → ∀ s,
    decVariants o env vs m n s = .error .unknown
  | .nil, _, _, _ => by simp only [decVariants]; rfl
  | .cons n' t vs, n, h, s => by
    simp only [Variants.names, List.mem_cons, not_or] at h
    simp only [decVariants]
    rw [if_neg (fun hc => h.1 hc.symm), Dec.bind_apply, decVariants_unknown m vs n h.2 s]

/-- A name written by `encoder.encode(..)`. -/
theorem decName_viaName {m : Mode} (n : Name) (hn : m.fast (Opt.isNativeFixed o) = true →
    hostOrder o = true ∨ n.ty = .str) (bs r : Bytes) (h : viaName (m.fmt o) n = .ok bs) :
    decName (m.fmt o) n.ty (bs ++ r) = .ok (n, r) := by
  have hL := m.lawful o
  cases n with
  | str s => exact decName_encName hL _ bs r h
  | idx i =>
    unfold viaName at h
    dsimp only at h
    unfold fastE at h
    rw [native_fmt] at h
    split at h
    · rename_i hf
      cases h
      have hh := (hn hf).resolve_right (by simp [Name.ty])
      obtain ⟨hnat, pack, hfmt⟩ := native_storage o hf
      have : Storage.decPrim o .usize (Fixed.toNe (w := 64) i ++ r) = .ok (i, r) :=
        decPrim_raw o hnat .usize (by simp [hh]) i r
      rw [hfmt]
      exact Dec.bind_ok this
    · exact decName_encName hL _ bs r h

/-! ## Adjacently tagged -/

omit [Host] in
theorem lastTag_cons_inl {β : Type _} (n : Name) (es : List (Heading β)) :
    lastTag (.inl n :: es) = (lastTag es).or (some n) := by
  unfold lastTag
  simp only [List.filterMap_cons, Sum.getLeft?_inl]
  cases List.filterMap Sum.getLeft? es with
  | nil => rfl
  | cons a l => simp [List.getLast?_cons]

omit [Host] in
theorem lastTag_cons_inr {β : Type _} (u : β) (es : List (Heading β)) :
    lastTag (.inr u :: es) = lastTag es := by
  unfold lastTag
  simp only [List.filterMap_cons, Sum.getLeft?_inr]

/-- The tag after an entry. -/
def nextTag (name : Option Name) : Heading Unknown → Option Name
  | .inl n => some n
  | .inr _ => name

/-- How entries before the content are read. -/
def Heads (m : Mode) (tag content : Name) (nt : NameTy) (enc : Heading Unknown → Enc)
    (e : Heading Unknown) : Prop :=
  ∀ vs c name bs r, enc e = .ok bs →
    adjLoop o env tag content nt vs m (c + 1) name (bs ++ r) =
      adjLoop o env tag content nt vs m c (nextTag name e) r

theorem adjLoop_heads {m : Mode} {tag content : Name} {nt : NameTy} {enc : Heading Unknown → Enc} (vs : Variants) :
    ∀ (es : List (Heading Unknown)), (∀ e ∈ es, Heads o env m tag content nt enc e) →
    ∀ c name bs r, Enc.all enc es = .ok bs →
      adjLoop o env tag content nt vs m (c + es.length) name (bs ++ r) =
        adjLoop o env tag content nt vs m c ((lastTag es).or name) r := by
  intro es
  induction es with
  | nil =>
    intro _ c name bs r h
    cases h
    rfl
  | cons e es ih =>
    intro hh c name bs r h
    obtain ⟨a, b, ha, hb, rfl⟩ := Enc.seq_eq_ok.mp h
    have h1 := hh e (by simp) vs (c + es.length) name a (b ++ r) ha
    have h2 := ih (fun e he => hh e (by simp [he])) c (nextTag name e) b r hb
    rw [List.append_assoc, List.length_cons, ← Nat.add_assoc, h1, h2]
    cases e with
    | inl n => rw [lastTag_cons_inl]; cases lastTag es <;> rfl
    | inr u => rw [lastTag_cons_inr]; rfl

/-- The tag. -/
theorem heads_tag {m : Mode} {tag content : Name} {nt : NameTy} {n : Name} (hnt : n.ty = nt)
    {f g : Name → Enc} {enc : Heading Unknown → Enc} (he : enc (.inl n) = (f tag +> g n))
    (hf : ∀ bs r, f tag = .ok bs → decName (m.fmt o) tag.ty (bs ++ r) = .ok (tag, r))
    (hg : ∀ bs r, g n = .ok bs → decName (m.fmt o) n.ty (bs ++ r) = .ok (n, r)) :
    Heads o env m tag content nt enc (.inl n) := by
  intro vs c name bs r h
  rw [he] at h
  obtain ⟨a, b, ha, hb, rfl⟩ := Enc.seq_eq_ok.mp h
  have h2 := hg b r hb
  rw [hnt] at h2
  show (decName _ _ >>= _) _ = _
  rw [List.append_assoc, Dec.bind_ok (hf a _ ha), if_pos rfl, Dec.bind_ok h2]
  rfl

/-- Something else. -/
theorem heads_other {m : Mode} {step : Dec Nat} {us : Bool} (hF : (m.fmt o).Skippable step us)
    (hskip : (m.fmt o).skip = skipAny step) (hc : Consumes step) {tag content : Name} {nt : NameTy}
    {u : Unknown} (h1 : u.name ≠ tag) (h2 : u.name ≠ content) (hty : u.name.ty = tag.ty)
    (hus : us = true ∨ u.ty.noUsize = true) (hk : u.ty.counted = true) :
    Heads o env m tag content nt (encHeading o env m tag) (.inr u) := by
  intro vs c name bs r h
  obtain ⟨a, b, ha, hb, rfl⟩ := Enc.seq_eq_ok.mp h
  have hn := decName_encName (m.lawful o) _ a (b ++ r) ha
  rw [hty] at hn
  have hs : (m.fmt o).skip (b ++ r) = .ok ((), r) := by
    rw [hskip]
    exact skipAny_of_skips hc (skipsD o env hF u.ty hus hk u.val b hb) r
  show (decName _ _ >>= _) _ = _
  rw [List.append_assoc, Dec.bind_ok hn, if_neg h1, if_neg h2, Dec.bind_ok hs]
  rfl

/-- At the content. -/
theorem adjLoop_content {m : Mode} {tag content : Name} (nt : NameTy) (hty : content.ty = tag.ty)
    (hne : content ≠ tag) (vs : Variants) (c : Nat) (a r : Bytes) (name : Option Name)
    (ha : encName (m.fmt o) content = .ok a) :
    adjLoop o env tag content nt vs m (c + 1) name (a ++ r) =
      match name with
      | none => .error .missing
      | some n => (decVariants o env vs m n >>= fun v => pure (v, c)) r := by
  have hn := decName_encName (m.lawful o) _ a r ha
  rw [hty] at hn
  show (decName _ _ >>= _) _ = _
  rw [Dec.bind_ok hn, if_neg hne, if_pos rfl]
  cases name <;> rfl

/-- Entries after the content are skipped. -/
theorem endMap_post {m : Mode} {step : Dec Nat} {us : Bool} (hF : (m.fmt o).Skippable step us)
    (hskip : (m.fmt o).skip = skipAny step) (hc : Consumes step)
    (hend : ∀ n s, (m.fmt o).endMap (n + 1) s = (do
      let _ ← (m.fmt o).skip; let _ ← (m.fmt o).skip; (m.fmt o).endMap n : Dec Unit) s) :
    ∀ (post : List Unknown), (∀ u ∈ post, u.ty.counted = true ∧
      (us = true ∨ (u.name.ty = .str ∧ u.ty.noUsize = true))) →
    ∀ bs r, Enc.all (encUnknown o env m) post = .ok bs →
      (m.fmt o).endMap post.length (bs ++ r) = .ok ((), r) := by
  intro post
  induction post with
  | nil => intro _ bs r h; cases h; exact (m.lawful o).endMap r
  | cons u post ih =>
    intro hu bs r h
    obtain ⟨x, b, hx, hb, rfl⟩ := Enc.seq_eq_ok.mp h
    obtain ⟨a, y, ha, hy, rfl⟩ := Enc.seq_eq_ok.mp hx
    have hu' := hu u (by simp)
    have h1 : (m.fmt o).skip (a ++ (y ++ (b ++ r))) = .ok ((), y ++ (b ++ r)) := by
      rw [hskip]
      exact skipAny_of_skips hc (skips_name o hF (hu'.2.imp id (fun h => by rw [h.1]; simp)) ha) _
    have h2 : (m.fmt o).skip (y ++ (b ++ r)) = .ok ((), b ++ r) := by
      rw [hskip]
      exact skipAny_of_skips hc (skipsD o env hF u.ty (hu'.2.imp id (fun h => h.2)) hu'.1 u.val y hy) _
    rw [List.length_cons, hend]
    rw [List.append_assoc, List.append_assoc, Dec.bind_ok h1, Dec.bind_ok h2]
    exact ih (fun u hu'' => hu u (by simp [hu''])) b r hb

/-- Round trip, in every binary format. -/
theorem adjacent_round_trip {m : Mode} {tag content : Name} {nt : NameTy} {vs : Variants}
    (hok : Supported o m (.enm nt vs) = true) (henv : vs.envOk env)
    (hty : content.ty = tag.ty) (hne : content ≠ tag) (hord : TagOrder o m tag nt)
    (v : vs.Val) (bs rest : Bytes) (he : encAdjacent o env tag content vs m v = .ok bs) :
    decAdjacent o env tag content nt vs m (bs ++ rest) = .ok (v, rest) := by
  have hL := m.lawful o
  simp only [Supported, Ty.ok, Bool.and_eq_true] at hok
  obtain ⟨hnd, hnt⟩ := namesOk_iff hok.1
  have hvn := hnt _ (nameOf_mem vs v)
  obtain ⟨l, x, hl, hx, rfl⟩ := Enc.seq_eq_ok.mp he
  obtain ⟨t, y, ht, hy, rfl⟩ := Enc.seq_eq_ok.mp hx
  obtain ⟨a, b, ha, hb, rfl⟩ := Enc.seq_eq_ok.mp hy
  rw [encContent_eq o env _ _ m false vs v hok.2, encBody_payload] at hb
  have h1 : Heads o env m tag content nt (fun e => match e with
      | .inl n => encTag (m.fmt o) tag n | .inr _ => .ok []) (.inl (vs.nameOf v)) := by
    refine heads_tag o env hvn (f := viaName (m.fmt o)) (g := viaName (m.fmt o)) rfl ?_ ?_
    · exact fun bs r h => decName_viaName o tag (fun hf => (hord hf).imp id (fun h => h.1)) bs r h
    · exact fun bs r h => decName_viaName o _ (fun hf => (hord hf).imp id (fun h => by rw [hvn]; exact h.2)) bs r h
  have h2 := h1 vs 1 none t (a ++ (b ++ rest)) ht
  have h3 := adjLoop_content o env nt hty hne vs 0 a (b ++ rest) (some (vs.nameOf v)) ha
  have h4 := decVariants_payload o env vs m false (vs.bodiesOk_of_ok _ _ _ _ hok.2) henv hnd v b hb rest (by simp)
  unfold decAdjacent
  have e1 : l ++ (t ++ (a ++ b)) ++ rest = l ++ (t ++ (a ++ (b ++ rest))) := by simp
  rw [e1, Dec.bind_ok (hL.map 2 l _ hl), Dec.bind_ok (a := (v, 0)) (s' := rest)]
  · exact Dec.bind_ok (hL.endMap rest)
  · refine h2.trans (h3.trans ?_)
    show (decVariants o env vs m (vs.nameOf v) >>= fun v => pure (v, 0)) _ = _
    rw [Dec.bind_ok h4]
    rfl

/-- Any document. -/
theorem adjacent_doc {m : Mode} {step : Dec Nat} {us : Bool} (hF : (m.fmt o).Skippable step us)
    (hskip : (m.fmt o).skip = skipAny step) (hc : Consumes step)
    (hend : ∀ n s, (m.fmt o).endMap (n + 1) s = (do
      let _ ← (m.fmt o).skip; let _ ← (m.fmt o).skip; (m.fmt o).endMap n : Dec Unit) s)
    {tag content : Name} {nt : NameTy} {vs : Variants}
    (hok : Supported o m (.enm nt vs) = true) (henv : vs.envOk env)
    (hty : content.ty = tag.ty) (hne : content ≠ tag)
    (es : List (Heading Unknown)) (post : List Unknown)
    (ht : ∀ n, .inl n ∈ es → n.ty = nt)
    (hu : ∀ u, .inr u ∈ es → u.name ≠ tag ∧ u.name ≠ content ∧ u.name.ty = tag.ty ∧
      (us = true ∨ u.ty.noUsize = true) ∧ u.ty.counted = true)
    (hp : ∀ u ∈ post, u.ty.counted = true ∧ (us = true ∨ (u.name.ty = .str ∧ u.ty.noUsize = true)))
    (t : Ty) (x : t.Val) (bs rest : Bytes) (he : encAdjDoc o env m tag content es t x post = .ok bs) :
    (lastTag es = none → decAdjacent o env tag content nt vs m (bs ++ rest) = .error .missing) ∧
    (∀ n, lastTag es = some n → n ∉ vs.names →
      decAdjacent o env tag content nt vs m (bs ++ rest) = .error .unknown) ∧
    (∀ v, lastTag es = some (vs.nameOf v) → vs.payload v = ⟨t, x⟩ →
      decAdjacent o env tag content nt vs m (bs ++ rest) = .ok (v, rest)) := by
  have hL := m.lawful o
  simp only [Supported, Ty.ok, Bool.and_eq_true] at hok
  obtain ⟨hnd, hnt⟩ := namesOk_iff hok.1
  obtain ⟨l, y, hl, hy, rfl⟩ := Enc.seq_eq_ok.mp he
  obtain ⟨b, w, hb, hw, rfl⟩ := Enc.seq_eq_ok.mp hy
  obtain ⟨c, d, hcc, hd, rfl⟩ := Enc.seq_eq_ok.mp hw
  obtain ⟨a, z, ha, hz, rfl⟩ := Enc.seq_eq_ok.mp hcc
  have h0 : ∀ e ∈ es, Heads o env m tag content nt (encHeading o env m tag) e := by
    intro e hmem
    cases e with
    | inl n =>
      exact heads_tag o env (ht n hmem) (f := encName (m.fmt o)) (g := encName (m.fmt o)) rfl
        (fun bs r h => decName_encName hL _ bs r h) (fun bs r h => decName_encName hL _ bs r h)
    | inr u =>
      obtain ⟨q1, q2, q3, q4, q5⟩ := hu u hmem
      exact heads_other o env hF hskip hc q1 q2 q3 q4 q5
  have h1 := adjLoop_heads o env vs es h0 (1 + post.length) none b (a ++ (z ++ (d ++ rest))) hb
  have h2 := adjLoop_content o env nt hty hne vs post.length a (z ++ (d ++ rest)) (lastTag es) ha
  have hcnt : 1 + post.length + es.length = es.length + 1 + post.length := by omega
  rw [hcnt, Option.or_none, Nat.add_comm 1 post.length, h2] at h1
  have e1 : l ++ (b ++ (a ++ z ++ d)) ++ rest = l ++ (b ++ (a ++ (z ++ (d ++ rest)))) := by simp
  have hdec : decAdjacent o env tag content nt vs m (l ++ (b ++ (a ++ z ++ d)) ++ rest) =
      (adjLoop o env tag content nt vs m (es.length + 1 + post.length) none >>= fun p =>
        ((m.fmt o).endMap p.2 >>= fun _ => pure p.1)) (b ++ (a ++ (z ++ (d ++ rest)))) := by
    unfold decAdjacent
    rw [e1, Dec.bind_ok (hL.map _ l _ hl)]
  refine ⟨fun hnone => ?_, fun n hn hun => ?_, fun v hv hpay => ?_⟩
  · rw [hdec, Dec.bind_apply, h1, hnone]
  · rw [hdec, Dec.bind_apply, h1, hn]
    dsimp only
    rw [Dec.bind_apply, decVariants_unknown o env m vs n hun]
  · rw [hv] at h1
    dsimp only at h1
    have h4 := decVariants_payload o env vs m false (vs.bodiesOk_of_ok _ _ _ _ hok.2) henv hnd v z (by rw [hpay]; exact hz)
      (d ++ rest) (by simp)
    rw [Dec.bind_ok h4] at h1
    rw [hdec, Dec.bind_ok (a := (v, post.length)) (s' := d ++ rest),
      Dec.bind_ok (endMap_post o env hF hskip hc hend post hp d rest hd)]
    · rfl
    · exact h1

/-! ## Untagged -/

/-- What the variant decodes to, and what is left. -/
theorem untagged_decode {m : Mode} : ∀ (vs : Variants),
    vs.bodiesOk (Opt.isNativeFixed o) (hostOrder o) m false = true → vs.envOk env →
    ∀ (v : vs.Val) (bs rest : Bytes), encBody o env vs m v = .ok bs →
    (∀ t ∈ vs.earlier v, ∃ e, decode o env m t (bs ++ rest) = .error e) →
    decUntagged o env vs m (bs ++ rest) = .ok (v, if vs.isLast v then rest else bs ++ rest)
  | .nil, _, _, v, _, _, _, _ => nomatch v
  | .cons n t vs, h, henv, .inl x, bs, rest, he, _ => by
    simp only [Variants.bodiesOk, Bool.and_eq_true] at h
    simp only [Variants.envOk] at henv
    have hd := rtD o env t m false h.1 henv.1 x bs rest he (by simp)
    simp only [decUntagged, hd, Variants.isLast]
    cases vs <;> rfl
  | .cons n t vs, h, henv, .inr x, bs, rest, he, hearly => by
    simp only [Variants.bodiesOk, Bool.and_eq_true] at h
    simp only [Variants.envOk] at henv
    have ih := untagged_decode vs h.2 henv.2 x bs rest he
      (fun t ht => hearly t (by simp only [Variants.earlier, List.mem_cons]; exact .inr ht))
    obtain ⟨e, he'⟩ := hearly t (by simp [Variants.earlier])
    have he' : decD o env t m (bs ++ rest) = .error e := he'
    have hnil : vs.isNil = false := by
      cases vs with
      | nil => exact nomatch x
      | cons _ _ _ => rfl
    simp only [decUntagged, he', ih, hnil, Variants.isLast]
    rfl

/-- A reader which is not advanced gives the same thing over and over. -/
theorem decN_stuck {α} {d : Dec α} {a : α} {s : Bytes} (h : d s = .ok (a, s)) :
    ∀ n, decN d n s = .ok (List.replicate n a, s)
  | 0 => rfl
  | n + 1 => by
    show (d >>= _) s = _
    rw [Dec.bind_ok h, Dec.bind_ok (decN_stuck h n)]
    rfl

/-! ## Fallback -/

theorem fallback_known {m : Mode} {nt : NameTy} {vs : Variants}
    (hok : Supported o m (.enm nt vs) = true) (henv : vs.envOk env) (fb v : vs.Val) (bs rest : Bytes)
    (he : encode o env m (.enm nt vs) v = .ok bs) :
    decFallback o env nt vs fb m (bs ++ rest) = .ok (v, rest) := by
  have hL := m.lawful o
  simp only [Supported, Ty.ok, Bool.and_eq_true] at hok
  obtain ⟨hnd, hnt⟩ := namesOk_iff hok.1
  unfold encode at he
  simp only [encD] at he
  obtain ⟨a, b, ha, hb, rfl⟩ := Enc.seq_eq_ok.mp he
  obtain ⟨n, x, y, hn, _, hx, rfl, hdec⟩ := rtVariants o env vs m false hok.2 henv hnd v b hb
  have h1 := decName_encName hL n x (y ++ rest) hx
  rw [hnt n hn] at h1
  unfold decFallback
  have e1 : a ++ (x ++ y) ++ rest = a ++ (x ++ (y ++ rest)) := by simp
  rw [e1, Dec.bind_ok (hL.variant a _ ha), Dec.bind_ok h1, if_pos hn]
  exact hdec rest (by simp)

theorem fallback_unknown {m : Mode} {nt : NameTy} {vs : Variants} (fb : vs.Val)
    (n : Name) (hn : n ∉ vs.names) (hnt : n.ty = nt) (t : Ty) (x : t.Val) (bs rest : Bytes)
    (he : encAnyVariant o env m n t x = .ok bs) :
    ∃ y, encode o env m t x = .ok y ∧ decFallback o env nt vs fb m (bs ++ rest) =
      match (m.fmt o).skip (y ++ rest) with
      | .ok (_, s) => .ok (fb, s)
      | .error e => .error e := by
  have hL := m.lawful o
  obtain ⟨a, b, ha, hb, rfl⟩ := Enc.seq_eq_ok.mp he
  obtain ⟨z, y, hz, hy, rfl⟩ := Enc.seq_eq_ok.mp hb
  refine ⟨y, hy, ?_⟩
  have h1 := decName_encName hL n z (y ++ rest) hz
  rw [hnt] at h1
  unfold decFallback
  have e1 : a ++ (z ++ y) ++ rest = a ++ (z ++ (y ++ rest)) := by simp
  rw [e1, Dec.bind_ok (hL.variant a _ ha), Dec.bind_ok h1, if_neg hn, Dec.bind_apply]
  cases (m.fmt o).skip (y ++ rest) <;> rfl

theorem unitFallback {m : Mode} {nt : NameTy} {names : List Name} (hnd : names.Nodup)
    (fb : Fin names.length) (n : Name) (hnt : n.ty = nt) (bs rest : Bytes)
    (he : encName (m.fmt o) n = .ok bs) :
    (∀ i : Fin names.length, names[i] = n → decUnitFallback o nt names fb m (bs ++ rest) = .ok (i, rest)) ∧
    (n ∉ names → decUnitFallback o nt names fb m (bs ++ rest) = .ok (fb, rest)) := by
  have h1 := decName_encName (m.lawful o) n bs rest he
  rw [hnt] at h1
  constructor
  · intro i hi
    unfold decUnitFallback
    rw [Dec.bind_ok h1, ← hi, findName_get names hnd i]
    rfl
  · intro hn
    have : findName n names = none := by
      clear he h1 fb hnd
      induction names with
      | nil => rfl
      | cons a l ih =>
        simp only [List.mem_cons, not_or] at hn
        simp only [findName, if_neg (fun h : a = n => hn.1 h.symm), ih hn.2]
    unfold decUnitFallback
    rw [Dec.bind_ok h1, this]
    rfl

end
end Musli
