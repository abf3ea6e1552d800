import Verif.Proofs.SkipField
/-!
# The number of fields which variants with `skip_encoding_if` announce
-/
set_option linter.unusedSectionVars false
namespace Musli

theorem count_written (env : Env) : ∀ (fs : Fields) (v : fs.Val), fs.count env v = writtenCount env fs v
  | .nil, _ => rfl
  | .cons _ _ none _ fs, v => by
    simp only [Fields.count, writtenCount, fieldPresent, if_true, count_written env fs v.2]
    omega
  | .cons _ _ (some k) t fs, v => by
    simp only [Fields.count, writtenCount, fieldPresent, count_written env fs v.2]
    by_cases h : env.skipIf k t v.1 = true
    · simp [h]
    · simp only [h, Bool.not_eq_true] at h ⊢
      simp
      omega

section
variable [Host] (o : Options) (env : Env)

/-- There is no name in nothing. -/
theorem decName_nil (m : Mode) (nt : NameTy) : ∃ e, decName (m.fmt o) nt [] = .error e := by
  have hu : ∃ e, Int'.decodeUsize o [] = .error e := by
    unfold Int'.decodeUsize
    cases Opt.length o <;> exact ⟨_, rfl⟩
  obtain ⟨e, hu⟩ := hu
  have hl : decLen o [] = .error e := by unfold decLen; exact Dec.bind_error hu
  cases m <;> cases nt
  · exact ⟨e, Dec.bind_error hu⟩
  · exact ⟨e, Dec.bind_error (Dec.bind_error hl)⟩
  · exact ⟨e, Dec.bind_error hu⟩
  · exact ⟨e, Dec.bind_error (Dec.bind_error hl)⟩
  · have h : ∃ e, Wire.decUsize o [] = .error e := by
      unfold Wire.decUsize
      cases Opt.length o <;> exact ⟨_, rfl⟩
    obtain ⟨e, h⟩ := h
    exact ⟨e, Dec.bind_error h⟩
  · exact ⟨_, rfl⟩
  · exact ⟨_, rfl⟩
  · exact ⟨_, rfl⟩

theorem encName_ne_nil (m : Mode) (n : Name) (bs : Bytes) (h : encName (m.fmt o) n = .ok bs) : bs ≠ [] := by
  rintro rfl
  obtain ⟨e, he⟩ := decName_nil o m n.ty
  have := decName_encName (m.lawful o) n [] [] h
  rw [List.nil_append, he] at this
  cases this

theorem loopN_short {σ : Type} (body : σ → Dec σ) (hb : ∀ st, ∃ e, body st [] = .error e) {α : Type} (enc : α → Enc)
    (next : σ → α → σ) : ∀ (es : List α)
    (_ : ∀ e ∈ es, ∀ st bs r, enc e = .ok bs → body st (bs ++ r) = .ok (next st e, r)) (n : Nat), es.length < n →
    ∀ st bs, Enc.all enc es = .ok bs → ∃ e, loopN body n st bs = .error e
  | [], _, 0, h, _, _, _ => by cases h
  | [], _, n + 1, _, st, bs, he => by
    cases he
    obtain ⟨e, h⟩ := hb st
    exact ⟨e, by show (body st >>= fun st => loopN body n st) [] = _; rw [Dec.bind_error h]⟩
  | e :: es, _, 0, h, _, _, _ => by cases h
  | e :: es, h, n + 1, hn, st, bs, he => by
    obtain ⟨x, y, hx, hy, rfl⟩ := Enc.seq_eq_ok.mp he
    obtain ⟨err, herr⟩ := loopN_short body hb enc next es (fun e he => h e (by simp [he])) n
      (by simpa using hn) (next st e) y hy
    refine ⟨err, ?_⟩
    show (body st >>= fun st => loopN body n st) _ = _
    rw [Dec.bind_ok (h e (by simp) st x y hx)]
    exact herr

/-- The body of a variant with the number `k` in front is read back if that is the number of fields. -/
theorem body_exact (m : Mode) (nt : NameTy) (fs : Fields)
    (hok : (Ty.strct nt fs).ok (Opt.isNativeFixed o) (hostOrder o) m false = true) (henv : fs.envOk env)
    (k : Nat) (x : fs.Val) (bs : Bytes)
    (he : ((m.fmt o).encMap k +> encFields o env fs m x) = .ok bs) :
    decD o env (.strct nt fs) m bs = .ok (x, []) ↔ writtenCount env fs x = k := by
  have hF := m.lawful o
  simp only [Ty.ok, Bool.and_eq_true] at hok
  obtain ⟨hnd, hty⟩ := namesOk_iff hok.1
  obtain ⟨a, b, ha, hb, rfl⟩ := Enc.seq_eq_ok.mp he
  rw [encFields_eq] at hb
  have hstep : ∀ e ∈ fs.entries env x, ∀ (p : fs.Partial) bs r, fs.encEntry o env m e = .ok bs →
      (do let n ← decName (m.fmt o) nt; decEntry o env fs m n p) (bs ++ r) = .ok (fs.set e p, r) := by
    intro e _ p bs r hk
    obtain ⟨y, z, hy, hz, rfl⟩ := Enc.seq_eq_ok.mp hk
    have hn := decName_encName hF _ y (z ++ r) hy
    rw [hty _ (keyOf_mem fs e)] at hn
    rw [List.append_assoc, Dec.bind_ok hn]
    exact rtEntry o env fs m hok.2 henv hnd e p z r hz
  rw [← count_written, ← entries_length]
  simp only [decD]
  rw [Dec.bind_ok (hF.map k a b ha)]
  rcases Nat.lt_trichotomy (fs.entries env x).length k with hlt | heq | hgt
  · obtain ⟨e, hloop⟩ := loopN_short (fun p => do
        let n ← decName (m.fmt o) nt
        decEntry o env fs m n p) (fun st => by
          obtain ⟨e, h⟩ := decName_nil o m nt
          exact ⟨e, Dec.bind_error h⟩) (fs.encEntry o env m) (fun p k => fs.set k p) (fs.entries env x) hstep k hlt
      fs.none b hb
    rw [Dec.bind_error hloop]
    constructor
    · intro h; cases h
    · intro h; omega
  · subst heq
    have hloop := loopN_entries _ (fs.encEntry o env m) (fun p k => fs.set k p) (fs.entries env x) hstep fs.none b [] hb
    rw [List.append_nil] at hloop
    rw [Dec.bind_ok hloop, Dec.bind_ok (ofExcept_ok (finish_entries env _ _ m fs hok.2 henv x) []),
      Dec.bind_ok (hF.endMap [])]
    exact ⟨fun _ => rfl, fun _ => rfl⟩
  · have hsplit : fs.entries env x = (fs.entries env x).take k ++ (fs.entries env x).drop k := (List.take_append_drop k _).symm
    rw [hsplit, all_append] at hb
    obtain ⟨c, d, hc, hd, rfl⟩ := Enc.seq_eq_ok.mp hb
    have hloop := loopN_entries _ (fs.encEntry o env m) (fun p k => fs.set k p) ((fs.entries env x).take k)
      (fun e he => hstep e (List.mem_of_mem_take he)) fs.none c d hc
    rw [List.length_take, Nat.min_eq_left (Nat.le_of_lt hgt)] at hloop
    rw [Dec.bind_ok hloop]
    have hne : d ≠ [] := by
      cases hl : (fs.entries env x).drop k with
      | nil =>
        have := congrArg List.length hl
        simp at this
        omega
      | cons e es =>
        rw [hl] at hd
        obtain ⟨y, z, hy, hz, rfl⟩ := Enc.seq_eq_ok.mp hd
        obtain ⟨y1, y2, hy1, hy2, rfl⟩ := Enc.seq_eq_ok.mp hy
        have := encName_ne_nil o m _ _ hy1
        simp [this]
    constructor
    · intro h
      exfalso
      cases hf : fs.finish env (((fs.entries env x).take k).foldl (fun p k => fs.set k p) fs.none) with
      | error e => rw [hf] at h; cases h
      | ok w =>
        rw [hf, Dec.bind_ok (ofExcept_ok rfl _), Dec.bind_ok (hF.endMap _)] at h
        cases h
        exact hne rfl
    · intro h; omega


/-- A body of a variant, with the number `k` in front if fields have `skip_encoding_if`. -/
def bodyWith (k : Nat) : (vs : Variants) → Mode → vs.Val → Enc
  | .nil, _, v => nomatch v
  | .cons _ t vs, m, v =>
    match v with
    | .inl x => if t.dynamic then (m.fmt o).encMap k +> encBodyFields o env t m x else encD o env t m x
    | .inr x => bodyWith k vs m x

theorem encContent_bodyWith : ∀ (vs : Variants) (m : Mode) (v : vs.Val), encContent o env vs m v = bodyWith o env 2 vs m v
  | .nil, _, v => nomatch v
  | .cons _ _ vs, m, v => by
    cases v with
    | inl x => rfl
    | inr x => exact encContent_bodyWith vs m x

theorem encVariants_bodyWith : ∀ (vs : Variants) (m : Mode) (v : vs.Val),
    encVariants o env vs m v = (encName (m.fmt o) (vs.nameOf v) +> bodyWith o env 1 vs m v)
  | .nil, _, v => nomatch v
  | .cons _ _ vs, m, v => by
    cases v with
    | inl x => simp only [encVariants]; rfl
    | inr x => simp only [encVariants]; exact encVariants_bodyWith vs m x

theorem bodyWith_exact (k : Nat) : ∀ (vs : Variants) (m : Mode),
    vs.bodiesOk (Opt.isNativeFixed o) (hostOrder o) m false = true → vs.envOk env → vs.names.Nodup →
    ∀ v bs, bodyWith o env k vs m v = .ok bs →
      (decVariants o env vs m (vs.nameOf v) bs = .ok (v, []) ↔ vs.Writes env k v)
  | .nil, m, _, _, _ => fun v => nomatch v
  | .cons n t vs, m, h, henv, hnd => by
    simp only [Variants.bodiesOk, Bool.and_eq_true] at h
    simp only [Variants.envOk] at henv
    simp only [Variants.names, List.nodup_cons] at hnd
    intro v bs he
    cases v with
    | inl x =>
      have hdec : decVariants o env (.cons n t vs) m n bs = .ok (.inl x, []) ↔ decD o env t m bs = .ok (x, []) := by
        simp only [decVariants, if_true]
        constructor
        · intro e
          obtain ⟨y, s1, h1, e⟩ := Dec.bind_eq_ok.mp e
          cases e
          exact h1
        · intro e
          rw [Dec.bind_ok e]
          rfl
      show decVariants o env (.cons n t vs) m n bs = _ ↔ _
      rw [hdec]
      cases hd : t.dynamic with
      | true =>
        cases t with
        | strct nt fs =>
          have he' : ((m.fmt o).encMap k +> encFields o env fs m x) = .ok bs := by
            have e : bodyWith o env k (.cons n (.strct nt fs) vs) m (.inl x) =
              (if (Ty.strct nt fs).dynamic = true then (m.fmt o).encMap k +> encBodyFields o env (.strct nt fs) m x
                else encD o env (.strct nt fs) m x) := rfl
            rw [e, hd, if_pos rfl] at he
            simpa only [encBodyFields] using he
          have := body_exact o env m nt fs h.1 henv.1 k x bs he'
          rw [this]
          show _ ↔ (fs.dynamic = true → _)
          exact ⟨fun e _ => e, fun e => e hd⟩
        | _ => cases hd
      | false =>
        have he' : encD o env t m x = .ok bs := by
          have e : bodyWith o env k (.cons n t vs) m (.inl x) =
            (if t.dynamic = true then (m.fmt o).encMap k +> encBodyFields o env t m x else encD o env t m x) := rfl
          rw [e, hd, if_neg (by simp)] at he
          exact he
        have hr := rtD o env t m false h.1 henv.1 x bs [] he' (by simp)
        rw [List.append_nil] at hr
        refine ⟨fun _ => ?_, fun _ => hr⟩
        cases t with
        | strct nt fs =>
          show fs.dynamic = true → _
          intro e
          have : fs.dynamic = false := hd
          rw [this] at e
          cases e
        | _ => trivial
    | inr x =>
      have hne : n ≠ vs.nameOf x := fun hc => hnd.1 (hc ▸ nameOf_mem vs x)
      have hdec : decVariants o env (.cons n t vs) m (vs.nameOf x) bs = .ok (.inr x, []) ↔
          decVariants o env vs m (vs.nameOf x) bs = .ok (x, []) := by
        simp only [decVariants, if_neg hne]
        constructor
        · intro e
          obtain ⟨y, s1, h1, e⟩ := Dec.bind_eq_ok.mp e
          cases e
          exact h1
        · intro e
          rw [Dec.bind_ok e]
          rfl
      show decVariants o env (.cons n t vs) m (vs.nameOf x) bs = _ ↔ _
      rw [hdec]
      have hw : (Variants.cons n t vs).Writes env k (.inr x) ↔ vs.Writes env k x := by
        cases t <;> exact Iff.rfl
      rw [hw]
      exact bodyWith_exact k vs m h.2 henv.2 hnd.2 x bs he

/-- A default-tagged enum is read back exactly if one field is written. -/
theorem variant_exact (m : Mode) (nt : NameTy) (vs : Variants) (hn : namesOk nt vs.names = true)
    (hb : vs.bodiesOk (Opt.isNativeFixed o) (hostOrder o) m false = true) (henv : vs.envOk env) (v : vs.Val) (bs : Bytes)
    (he : encode o env m (.enm nt vs) v = .ok bs) :
    decode o env m (.enm nt vs) bs = .ok (v, []) ↔ vs.Writes env 1 v := by
  have hF := m.lawful o
  obtain ⟨hnd, hty⟩ := namesOk_iff hn
  unfold encode at he
  simp only [encD] at he
  obtain ⟨a, b, ha, hb', rfl⟩ := Enc.seq_eq_ok.mp he
  rw [encVariants_bodyWith] at hb'
  obtain ⟨c, d, hc, hd, rfl⟩ := Enc.seq_eq_ok.mp hb'
  have hname := decName_encName hF _ c d hc
  rw [hty _ (nameOf_mem vs v)] at hname
  unfold decode
  simp only [decD]
  rw [Dec.bind_ok (hF.variant a _ ha), Dec.bind_ok hname]
  exact bodyWith_exact o env 1 vs m hb henv hnd v d hd


/-- An adjacently tagged one if two are. -/
theorem adjacent_exact {m : Mode} {tag content : Name} {nt : NameTy} {vs : Variants} (hn : namesOk nt vs.names = true)
    (hbo : vs.bodiesOk (Opt.isNativeFixed o) (hostOrder o) m false = true) (henv : vs.envOk env)
    (hty : content.ty = tag.ty) (hne : content ≠ tag) (hord : TagOrder o m tag nt)
    (v : vs.Val) (bs : Bytes) (he : encAdjacent o env tag content vs m v = .ok bs) :
    decAdjacent o env tag content nt vs m bs = .ok (v, []) ↔ vs.Writes env 2 v := by
  have hL := m.lawful o
  obtain ⟨hnd, hnt⟩ := namesOk_iff hn
  have hvn := hnt _ (nameOf_mem vs v)
  obtain ⟨l, x, hl, hx, rfl⟩ := Enc.seq_eq_ok.mp he
  obtain ⟨t, y, ht, hy, rfl⟩ := Enc.seq_eq_ok.mp hx
  obtain ⟨a, b, ha, hb, rfl⟩ := Enc.seq_eq_ok.mp hy
  rw [encContent_bodyWith] at hb
  have h1 : Heads o env m tag content nt (fun e => match e with
      | .inl n => encTag (m.fmt o) tag n | .inr _ => .ok []) (.inl (vs.nameOf v)) := by
    refine heads_tag o env hvn (f := viaName (m.fmt o)) (g := viaName (m.fmt o)) rfl ?_ ?_
    · exact fun bs r h => decName_viaName o tag (fun hf => (hord hf).imp id (fun h => h.1)) bs r h
    · exact fun bs r h => decName_viaName o _ (fun hf => (hord hf).imp id (fun h => by rw [hvn]; exact h.2)) bs r h
  have h2 := h1 vs 1 none t (a ++ b) ht
  have h3 := adjLoop_content o env nt hty hne vs 0 a b (some (vs.nameOf v)) ha
  have h5 := h2.trans h3
  have e0 : adjLoop o env tag content nt vs m (1 + 1) none (t ++ (a ++ b)) =
      (decVariants o env vs m (vs.nameOf v) >>= fun v => pure (v, 0)) b := h5
  rw [← bodyWith_exact o env 2 vs m hbo henv hnd v b hb]
  unfold decAdjacent
  rw [Dec.bind_ok (hL.map 2 l _ hl)]
  constructor
  · intro e
    obtain ⟨⟨w, left⟩, s1, h6, e⟩ := Dec.bind_eq_ok.mp e
    rw [e0] at h6
    obtain ⟨w', s2, h7, h6⟩ := Dec.bind_eq_ok.mp h6
    cases h6
    dsimp only at e
    rw [Dec.bind_ok (hL.endMap _)] at e
    cases e
    exact h7
  · intro e
    rw [Dec.bind_ok (a := (v, 0)) (s' := [])]
    · exact Dec.bind_ok (hL.endMap [])
    · rw [e0, Dec.bind_ok e]
      rfl

/-! ## Packed structs -/

theorem encPackFields_shrink (m : Mode) : ∀ (fs : Fields) (v : fs.Val),
    encPackFields o env fs m v = encPackFields o env (fs.shrink env v).1 m (fs.shrink env v).2
  | .nil, _ => rfl
  | .cons n d Option.none t fs, v => by
    simp only [Fields.shrink, encPackFields, fieldPresent, if_true]
    rw [encPackFields_shrink m fs v.2]
  | .cons n d (some k) t fs, v => by
    have ih := encPackFields_shrink m fs v.2
    by_cases hs : env.skipIf k t v.1 = true
    · have e : (Fields.cons n d (some k) t fs).shrink env v = fs.shrink env v.2 := by
        simp only [Fields.shrink, hs, if_true]
      rw [e, ← ih]
      simp only [encPackFields, fieldPresent, hs]
      show (Except.ok [] +> _) = _
      cases encPackFields o env fs m v.2 <;> rfl
    · have e : (Fields.cons n d (some k) t fs).shrink env v =
          ⟨.cons n d Option.none t (fs.shrink env v.2).1, (v.1, (fs.shrink env v.2).2)⟩ := by
        simp only [Fields.shrink, hs, if_false]
        rfl
      have hs' : env.skipIf k t v.1 = false := by simpa using hs
      rw [e]
      simp only [encPackFields, fieldPresent, hs', if_true, Bool.not_false]
      rw [ih]

end

namespace Json

theorem encPackJ_shrink (env : Env) : ∀ (fs : Fields) (first : Bool) (v : fs.Val),
    encPackJ env fs first v = encPackJ env (fs.shrink env v).1 first (fs.shrink env v).2
  | .nil, _, _ => rfl
  | .cons n d Option.none t fs, first, v => by
    simp only [Fields.shrink, encPackJ, fieldPresent, if_true]
    rw [encPackJ_shrink env fs _ v.2]
  | .cons n d (some k) t fs, first, v => by
    have ih := encPackJ_shrink env fs
    by_cases hs : env.skipIf k t v.1 = true
    · have e : (Fields.cons n d (some k) t fs).shrink env v = fs.shrink env v.2 := by
        simp only [Fields.shrink, hs, if_true]
      rw [e, ← ih]
      simp only [encPackJ, fieldPresent, hs]
      rfl
    · have e : (Fields.cons n d (some k) t fs).shrink env v =
          ⟨.cons n d Option.none t (fs.shrink env v.2).1, (v.1, (fs.shrink env v.2).2)⟩ := by
        simp only [Fields.shrink, hs, if_false]
        rfl
      have hs' : env.skipIf k t v.1 = false := by simpa using hs
      rw [e]
      simp only [encPackJ, fieldPresent, hs', if_true, Bool.not_false]
      rw [ih]

end Json
end Musli
