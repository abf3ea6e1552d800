import Verif.Proofs.Serde
import Verif.Proofs.Evolution
/-!
# The serde bridge: structs from arbitrary entries
-/
set_option linter.unusedSectionVars false
namespace Musli.Serde

section
variable [Host] (o : Options) (env : Env)

theorem deEntry_unknown (m : Mode) : ∀ (fs : Fields) (n : Name), n ∉ fs.names → ∀ p s,
    deEntry o env fs m n p s = match (m.fmt o).skip s with
      | .ok (_, s') => .ok (p, s')
      | .error e => .error e
  | .nil, n, _, p, s => by
    simp only [deEntry]
    cases (m.fmt o).skip s with
    | ok x => rfl
    | error e => rfl
  | .cons n' d sk t fs, n, h, p, s => by
    simp only [Fields.names, List.mem_cons, not_or] at h
    rw [deEntry, if_neg (fun hc => h.1 hc.symm), Dec.bind_apply, deEntry_unknown m fs n h.2 p.2 s]
    cases (m.fmt o).skip s with
    | ok x => rfl
    | error e => rfl

omit [Host] in
theorem finish_iff : ∀ (fs : Fields) (ks : List fs.Known) (v : fs.Val),
    finish env fs (ks.foldl (fun p k => fs.set k p) fs.none) = .ok v ↔ Assembled env fs ks v
  | .nil, _, _ => ⟨fun _ => trivial, fun _ => rfl⟩
  | .cons n d sk t fs, ks, v => by
    have ih := finish_iff fs (ks.filterMap Sum.getRight?)
    rw [set_foldl]
    show (match fieldValue env d t _ with
      | .error e => Except.error e
      | .ok v => match finish env fs
          ((ks.filterMap Sum.getRight?).foldl (fun p k => fs.set k p) fs.none) with
        | .error e => Except.error e
        | .ok w => .ok (v, w)) = _ ↔ _
    show _ ↔ FieldIs env d t v.1 _ ∧ Assembled env fs (ks.filterMap Sum.getRight?) v.2
    rw [← ih v.2]
    have hv : ∀ q, fieldValue env d t q = .ok v.1 ↔ FieldIs env d t v.1 q := by
      intro q
      cases q with
      | some x => exact ⟨fun h => by cases h; rfl, fun h => by rw [h]; rfl⟩
      | none =>
        cases d with
        | some k => dsimp only [fieldValue, FieldIs]; cases env.dflt k t <;> simp
        | none => dsimp only [fieldValue, FieldIs]; rw [← missing_iff]; cases missing t <;> simp
    rw [← hv]
    have hor : ((ks.filterMap Sum.getLeft?).getLast?).or (Fields.cons n d sk t fs).none.1 =
      (ks.filterMap Sum.getLeft?).getLast? := by
      cases (ks.filterMap Sum.getLeft?).getLast? <;> rfl
    rw [hor]
    cases fieldValue env d t (ks.filterMap Sum.getLeft?).getLast? with
    | error e => exact ⟨(fun h => nomatch h), (fun ⟨h, _⟩ => nomatch h)⟩
    | ok x =>
      cases finish env fs ((ks.filterMap Sum.getRight?).foldl (fun p k => fs.set k p) fs.none) with
      | error e => exact ⟨(fun h => nomatch h), (fun ⟨_, h⟩ => nomatch h)⟩
      | ok w =>
        constructor
        · intro h; cases h; exact ⟨rfl, rfl⟩
        · rintro ⟨h1, h2⟩; cases h1; cases h2; rfl

omit [Host] in
/-- Fields in any order give the value. -/
theorem finish_perm : ∀ (fs : Fields), envOkFields env fs →
    ∀ (v : fs.Val) (ks : List fs.Known), ks.Perm (fs.entries env v) →
    finish env fs (ks.foldl (fun p k => fs.set k p) fs.none) = .ok v
  | .nil, _, _, _, _ => rfl
  | .cons n d sk t fs, henv, v, ks, hp => by
    simp only [envOkFields] at henv
    have hr : (ks.filterMap Sum.getRight?).Perm (fs.entries env v.2) := by
      have := hp.filterMap Sum.getRight?
      refine this.trans (List.Perm.of_eq ?_)
      simp only [Fields.entries, List.filterMap_append]
      have h1 : List.filterMap Sum.getRight? (if fieldPresent env sk t v.1 = true
        then [(Sum.inl v.1 : t.Val ⊕ fs.Known)] else []) = [] := by split <;> rfl
      rw [h1, List.nil_append, List.filterMap_map]
      exact List.filterMap_some
    have hl : (ks.filterMap Sum.getLeft?) = if fieldPresent env sk t v.1 = true then [v.1] else [] := by
      have := hp.filterMap Sum.getLeft?
      have h2 : List.filterMap Sum.getLeft? ((Fields.cons n d sk t fs).entries env v) =
          if fieldPresent env sk t v.1 = true then [v.1] else [] := by
        simp only [Fields.entries, List.filterMap_append]
        have h1 : List.filterMap Sum.getLeft? (List.map (Sum.inr : fs.Known → t.Val ⊕ fs.Known)
            (fs.entries env v.2)) = [] := by
          rw [List.filterMap_map]
          rw [List.filterMap_eq_nil_iff]
          intro a _; rfl
        rw [h1, List.append_nil]
        split <;> rfl
      rw [h2] at this
      split at this
      · rename_i h; rw [if_pos h]; exact List.perm_singleton.mp this
      · rename_i h; rw [if_neg h]; exact List.perm_nil.mp this
    have ih := finish_perm fs henv.2.2 v.2 _ hr
    rw [set_foldl, hl]
    show (match fieldValue env d t _ with
      | .error e => Except.error e
      | .ok v => match finish env fs
          ((ks.filterMap Sum.getRight?).foldl (fun p k => fs.set k p) fs.none) with
        | .error e => Except.error e
        | .ok w => .ok (v, w)) = _
    rw [ih]
    cases hpr : fieldPresent env sk t v.1 with
    | true => rfl
    | false =>
      cases sk with
      | none => simp [fieldPresent] at hpr
      | some k =>
        have hv := henv.1 k rfl v.1 (by simpa [fieldPresent] using hpr)
        cases d with
        | none => simp [fieldValue, (missing_iff t v.1).mpr hv, Fields.none]
        | some d => simp [fieldValue, hv, Fields.none]

theorem de_entries {m : Mode} {step : Dec Nat} {us : Bool} (hF : (m.fmt o).Skippable step us)
    (hskip : (m.fmt o).skip = skipAny step) (hc : Consumes step)
    (nt : NameTy) (fs : Fields) (hok : ok (.strct nt fs) m false = true) (henv : envOkFields env fs)
    (es : List fs.Entry) (hd : ((es.filterMap Sum.getLeft?).map fs.keyOf).Nodup)
    (hu : ∀ u, .inr u ∈ es → u.name ∉ fs.names ∧ u.name.ty = .str ∧ (us = true ∨ u.ty.noUsize = true) ∧ u.ty.counted = true)
    (bs rest : Bytes) (he : encDoc o env m fs es = .ok bs) :
    de o env (.strct nt fs) m (bs ++ rest) =
      match finish env fs ((es.filterMap Sum.getLeft?).foldl (fun p k => fs.set k p) fs.none) with
      | .ok v => .ok (v, rest)
      | .error e => .error e := by
  have hL := m.lawful o
  simp only [ok, Bool.and_eq_true] at hok
  obtain ⟨hnd, hty⟩ := namesOk_iff hok.1
  obtain ⟨a, b, ha, hb, rfl⟩ := Enc.seq_eq_ok.mp he
  have hloop := loopN_inv (fun p => do
      let n ← decKey (m.fmt o)
      deEntry o env fs m n p) (encAny o env m fs) fs.setAny
    (fun es p => ((es.filterMap Sum.getLeft?).map fs.keyOf).Nodup ∧
      (∀ e ∈ es.filterMap Sum.getLeft?, vacant fs e p) ∧
      ∀ u, .inr u ∈ es → u.name ∉ fs.names ∧ u.name.ty = .str ∧ (us = true ∨ u.ty.noUsize = true) ∧ u.ty.counted = true)
    (by
      rintro e es p ⟨hN, hV, hU⟩
      cases e with
      | inl k =>
        have hcons : List.filterMap Sum.getLeft? ((Sum.inl k : fs.Entry) :: es) =
          k :: es.filterMap Sum.getLeft? := rfl
        rw [hcons] at hN hV
        rw [List.map_cons, List.nodup_cons] at hN
        refine ⟨⟨hN.2, fun e he => vacant_set fs e k p ?_ (hV e (by simp [he])),
          fun u hu => hU u (by simp [hu])⟩, ?_⟩
        · intro hc
          exact hN.1 (hc ▸ List.mem_map_of_mem (f := fs.keyOf) he)
        · intro bs r hk
          obtain ⟨x, y, hx, hy, rfl⟩ := Enc.seq_eq_ok.mp hk
          rw [List.append_assoc, Dec.bind_ok (decKey_encKey hL _ x (y ++ r) hx)]
          exact rtEntry o env fs m hok.2 henv hnd k p (hV k (by simp)) y r hy
      | inr u =>
        refine ⟨⟨hN, hV, fun u hu => hU u (by simp [hu])⟩, ?_⟩
        intro bs r hk
        obtain ⟨h1, h2, h3⟩ := hU u (by simp)
        obtain ⟨x, y, hx, hy, rfl⟩ := Enc.seq_eq_ok.mp hk
        have hn := decName_encName hL _ x (y ++ r) hx
        rw [h2] at hn
        rw [List.append_assoc, decKey_name, Dec.bind_ok hn, deEntry_unknown o env m fs _ h1, hskip,
          skipAny_of_skips hc (skipsD o env hF u.ty h3.1 h3.2 u.val y hy) r]
        rfl) es fs.none b rest
    ⟨hd,
      fun e _ => vacant_none fs e, hu⟩ hb
  rw [foldl_known] at hloop
  simp only [de]
  rw [List.append_assoc, Dec.bind_ok (hL.map _ a _ ha), Dec.bind_ok hloop]
  cases finish env fs ((es.filterMap Sum.getLeft?).foldl (fun p k => fs.set k p) fs.none) with
  | error e => rfl
  | ok v =>
    show ((m.fmt o).endMap 0 >>= fun _ => pure v) rest = _
    rw [Dec.bind_ok (hL.endMap rest)]
    rfl

theorem de_doc {m : Mode} {step : Dec Nat} {us : Bool} (hF : (m.fmt o).Skippable step us)
    (hskip : (m.fmt o).skip = skipAny step) (hc : Consumes step)
    (nt : NameTy) (fs : Fields) (hok : ok (.strct nt fs) m false = true) (henv : envOkFields env fs)
    (v : fs.Val) (es : List fs.Entry) (hp : (es.filterMap Sum.getLeft?).Perm (fs.entries env v))
    (hu : ∀ u, .inr u ∈ es → u.name ∉ fs.names ∧ u.name.ty = .str ∧ (us = true ∨ u.ty.noUsize = true) ∧ u.ty.counted = true)
    (bs rest : Bytes) (he : encDoc o env m fs es = .ok bs) :
    de o env (.strct nt fs) m (bs ++ rest) = .ok (v, rest) := by
  have hn := hok
  simp only [ok, Bool.and_eq_true] at hn
  obtain ⟨hnd, hty⟩ := namesOk_iff hn.1
  rw [de_entries o env hF hskip hc nt fs hok henv es
    ((hp.map fs.keyOf).nodup_iff.mpr ((entries_keys env fs v).nodup hnd)) hu bs rest he,
    finish_perm env fs henv v _ hp]

/-- The decoder takes exactly the structs which the entries make. -/
theorem de_assembled {m : Mode} {step : Dec Nat} {us : Bool} (hF : (m.fmt o).Skippable step us)
    (hskip : (m.fmt o).skip = skipAny step) (hc : Consumes step)
    (nt : NameTy) (fs : Fields) (hok : ok (.strct nt fs) m false = true) (henv : envOkFields env fs)
    (es : List fs.Entry) (hd : ((es.filterMap Sum.getLeft?).map fs.keyOf).Nodup)
    (hu : ∀ u, .inr u ∈ es → u.name ∉ fs.names ∧ u.name.ty = .str ∧ (us = true ∨ u.ty.noUsize = true) ∧ u.ty.counted = true)
    (bs rest : Bytes) (he : encDoc o env m fs es = .ok bs) (v : fs.Val) (r : Bytes) :
    de o env (.strct nt fs) m (bs ++ rest) = .ok (v, r) ↔
      Assembled env fs (es.filterMap Sum.getLeft?) v ∧ r = rest := by
  rw [de_entries o env hF hskip hc nt fs hok henv es hd hu bs rest he]
  have := finish_iff env fs (es.filterMap Sum.getLeft?) v
  revert this
  cases finish env fs ((es.filterMap Sum.getLeft?).foldl (fun p k => fs.set k p) fs.none) with
  | error e => intro h; exact ⟨(fun h => nomatch h), (fun ⟨h1, _⟩ => nomatch h.mpr h1)⟩
  | ok w =>
    intro h
    constructor
    · intro h1; cases h1; exact ⟨h.mp rfl, rfl⟩
    · rintro ⟨h1, rfl⟩; cases h.mpr h1; rfl

/-! ## A field that comes twice -/

omit [Host] in
theorem not_vacant_set : ∀ (fs : Fields) (k k' : fs.Known) (p : fs.Partial), fs.names.Nodup →
    fs.keyOf k = fs.keyOf k' → ¬ vacant fs k (fs.set k' p)
  | .cons _ _ _ _ _, .inl _, .inl _, _, _, _ => fun h => by
    simp only [vacant, Fields.set] at h; cases h
  | .cons n _ _ _ fs, .inl _, .inr k', _, hnd, h => by
    simp only [Fields.names, List.nodup_cons] at hnd
    simp only [Fields.keyOf] at h
    exact absurd (h ▸ keyOf_mem fs k') hnd.1
  | .cons n _ _ _ fs, .inr k, .inl _, _, hnd, h => by
    simp only [Fields.names, List.nodup_cons] at hnd
    simp only [Fields.keyOf] at h
    exact absurd (h ▸ keyOf_mem fs k) hnd.1
  | .cons _ _ _ _ fs, .inr k, .inr k', p, hnd, h => by
    simp only [Fields.names, List.nodup_cons] at hnd
    exact not_vacant_set fs k k' p.2 hnd.2 h

omit [Host] in
theorem not_vacant_set' : ∀ (fs : Fields) (k k' : fs.Known) (p : fs.Partial),
    ¬ vacant fs k p → ¬ vacant fs k (fs.set k' p)
  | .cons _ _ _ _ _, .inl _, .inl _, _, _ => fun h => by
    simp only [vacant, Fields.set] at h; cases h
  | .cons _ _ _ _ _, .inl _, .inr _, _, hv => hv
  | .cons _ _ _ _ _, .inr _, .inl _, _, hv => hv
  | .cons _ _ _ _ fs, .inr k, .inr k', p, hv => not_vacant_set' fs k k' p.2 hv

theorem deEntry_dup (m : Mode) : ∀ (fs : Fields), fs.names.Nodup → ∀ k p, ¬ vacant fs k p →
    ∀ s, (deEntry o env fs m (fs.keyOf k) p s).isOk = false
  | .nil, _, k => nomatch k
  | .cons n d sk t fs, hnd, k => by
    simp only [Fields.names, List.nodup_cons] at hnd
    intro p hv s
    cases k with
    | inl v =>
      have hv : ¬ p.1 = none := hv
      show (deEntry o env (.cons n d sk t fs) m n p s).isOk = false
      rw [deEntry, if_pos rfl]
      cases hp : p.1 with
      | none => exact absurd hp hv
      | some x => rfl
    | inr k =>
      have hne : n ≠ fs.keyOf k := fun hc => hnd.1 (hc ▸ keyOf_mem fs k)
      show (deEntry o env (.cons n d sk t fs) m (fs.keyOf k) p s).isOk = false
      rw [deEntry, if_neg hne, Dec.bind_apply]
      have ih := deEntry_dup m fs hnd.2 k p.2 hv s
      revert ih
      cases deEntry o env fs m (fs.keyOf k) p.2 s with
      | ok x => intro h; cases h
      | error e => intro _; rfl

theorem loop_dup (m : Mode) (fs : Fields) (hok : okFields fs m = true) (henv : envOkFields env fs)
    (hnd : fs.names.Nodup) : ∀ (ks : List fs.Known) (p : fs.Partial),
    (¬ (ks.map fs.keyOf).Nodup ∨ ∃ k ∈ ks, ¬ vacant fs k p) → ∀ bs r,
    Enc.all (encEntry o env m fs) ks = .ok bs →
    (loopN (fun p => do
      let n ← decKey (m.fmt o)
      deEntry o env fs m n p) ks.length p (bs ++ r)).isOk = false
  | [], p, h, bs, r, _ => by rcases h with h | ⟨k, hk, _⟩ <;> simp at *
  | k :: ks, p, h, bs, r, he => by
    have hL := m.lawful o
    obtain ⟨a, b, ha, hb, rfl⟩ := Enc.seq_eq_ok.mp he
    obtain ⟨x, y, hx, hy, rfl⟩ := Enc.seq_eq_ok.mp ha
    rw [List.length_cons, loopN, Dec.bind_apply, List.append_assoc, List.append_assoc,
      Dec.bind_ok (decKey_encKey hL _ x _ hx)]
    by_cases hv : vacant fs k p
    · rw [rtEntry o env fs m hok henv hnd k p hv y (b ++ r) hy]
      refine loop_dup m fs hok henv hnd ks _ ?_ b r hb
      rcases h with h | ⟨k', hk', hv'⟩
      · rw [List.map_cons, List.nodup_cons] at h
        by_cases hm : fs.keyOf k ∈ ks.map fs.keyOf
        · obtain ⟨k', hk', he⟩ := List.mem_map.mp hm
          exact .inr ⟨k', hk', not_vacant_set fs k' k p hnd he⟩
        · exact .inl fun hn => h ⟨hm, hn⟩
      · rcases List.mem_cons.mp hk' with rfl | hk'
        · exact absurd hv hv'
        · exact .inr ⟨k', hk', not_vacant_set' fs k' k p hv'⟩
    · have := deEntry_dup o env m fs hnd k p hv (y ++ (b ++ r))
      revert this
      cases deEntry o env fs m (fs.keyOf k) p (y ++ (b ++ r)) with
      | ok x => intro h; cases h
      | error e => intro _; rfl

theorem de_dup (m : Mode) (nt : NameTy) (fs : Fields) (hok : ok (.strct nt fs) m false = true)
    (henv : envOkFields env fs) (ks : List fs.Known) (hd : ¬ (ks.map fs.keyOf).Nodup)
    (bs rest : Bytes)
    (he : ((m.fmt o).encMap ks.length +> Enc.all (encEntry o env m fs) ks) = .ok bs) :
    (de o env (.strct nt fs) m (bs ++ rest)).isOk = false := by
  have hL := m.lawful o
  simp only [ok, Bool.and_eq_true] at hok
  obtain ⟨hnd, hty⟩ := namesOk_iff hok.1
  obtain ⟨a, b, ha, hb, rfl⟩ := Enc.seq_eq_ok.mp he
  have := loop_dup o env m fs hok.2 henv hnd ks fs.none (.inl hd) b rest hb
  simp only [de]
  rw [List.append_assoc, Dec.bind_ok (hL.map _ a _ ha), Dec.bind_apply]
  revert this
  cases (loopN (fun p => do
      let n ← decKey (m.fmt o)
      deEntry o env fs m n p) ks.length fs.none (b ++ rest)) with
  | ok x => intro h; cases h
  | error e => intro _; rfl

end
end Musli.Serde
