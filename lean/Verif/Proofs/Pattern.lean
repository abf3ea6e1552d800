import Verif.Spec.Pattern
import Verif.Proofs.Evolution
import Verif.Proofs.Tagged
import Verif.Proofs.Json.Tagged
import Verif.Proofs.Json.Encode
/-!
# Decoding with patterns
-/
set_option linter.unusedSectionVars false
namespace Musli

theorem armMatches_iff {n : Name} {p : Option Pat} {name : Name} :
    armMatches n p name = true ↔ Accepts n p name := by
  cases p with
  | none => simp only [armMatches, Accepts, decide_eq_true_eq]; exact eq_comm
  | some p => exact Iff.rfl

theorem standsFor_zero {n : Name} {names : List Name} {ps : Pats} {name : Name}
    (h : StandsFor (n :: names) ps name 0) : armMatches n (ps 0) name = true := by
  obtain ⟨⟨n', h1, h2⟩, _⟩ := h
  cases h1
  exact armMatches_iff.mpr h2

theorem standsFor_succ {n : Name} {names : List Name} {ps : Pats} {name : Name} {i : Nat}
    (h : StandsFor (n :: names) ps name (i + 1)) :
    armMatches n (ps 0) name = false ∧ StandsFor names ps.tail name i := by
  obtain ⟨⟨n', h1, h2⟩, h3⟩ := h
  refine ⟨?_, ⟨n', h1, h2⟩, fun j hj m hm => h3 (j + 1) (by omega) m hm⟩
  have := h3 0 (by omega) n rfl
  rw [← armMatches_iff] at this
  simpa using this

theorem unclaimed_cons {n : Name} {names : List Name} {ps : Pats} {name : Name}
    (h : Unclaimed (n :: names) ps name) :
    armMatches n (ps 0) name = false ∧ Unclaimed names ps.tail name := by
  refine ⟨?_, fun j m hm => h (j + 1) m hm⟩
  have := h 0 n rfl
  rw [← armMatches_iff] at this
  simpa using this

theorem findArm_standsFor {name : Name} : ∀ {names : List Name} {ps : Pats} (i : Fin names.length),
    StandsFor names ps name i.1 → findArm names ps name = some i
  | [], _, i, _ => i.elim0
  | n :: names, ps, ⟨0, _⟩, h => by
    simp only [findArm, standsFor_zero h, if_true]
  | n :: names, ps, ⟨i + 1, hi⟩, h => by
    obtain ⟨h1, h2⟩ := standsFor_succ h
    simp only [findArm, h1, Bool.false_eq_true, if_false]
    rw [findArm_standsFor (names := names) ⟨i, by simpa using hi⟩ h2]
    rfl

theorem findArm_unclaimed {name : Name} : ∀ {names : List Name} {ps : Pats},
    Unclaimed names ps name → findArm names ps name = none
  | [], _, _ => rfl
  | n :: names, ps, h => by
    obtain ⟨h1, h2⟩ := unclaimed_cons h
    simp only [findArm, h1, Bool.false_eq_true, if_false, findArm_unclaimed h2, Option.map_none]

section
variable [Host] (o : Options) (env : Env)

/-- What an entry does to the fields. -/
def Fields.setNamed {β : Type _} (fs : Fields) (p : fs.Partial) : fs.NamedEntry β → fs.Partial
  | .inl e => fs.set e.2 p
  | .inr _ => p

omit [Host] in
theorem foldl_named {β : Type _} {fs : Fields} (es : List (fs.NamedEntry β)) (p : fs.Partial) :
    es.foldl fs.setNamed p = (fs.valuesOf es).foldl (fun p k => fs.set k p) p := by
  induction es generalizing p with
  | nil => rfl
  | cons e es ih => cases e <;> exact ih _

theorem decEntryPat_known (m : Mode) : ∀ (fs : Fields) (ps : Pats),
    fs.ok (Opt.isNativeFixed o) (hostOrder o) m = true → fs.envOk env →
    ∀ name k p bs r, StandsFor fs.names ps name (fs.position k) → fs.encKnown o env m k = .ok bs →
      decEntryPat o env fs ps m name p (bs ++ r) = .ok (fs.set k p, r)
  | .nil, _, _, _ => fun _ k => nomatch k
  | .cons n d s t fs, ps, h, henv => by
    simp only [Fields.ok, Bool.and_eq_true] at h
    simp only [Fields.envOk] at henv
    intro name k p bs r hs he
    cases k with
    | inl v =>
      simp only [Fields.encKnown] at he
      rw [decEntryPat, if_pos (standsFor_zero hs),
        Dec.bind_ok (rtD o env t m false h.1.2 henv.2.1 v bs r he (by simp))]
      rfl
    | inr k =>
      simp only [Fields.encKnown] at he
      obtain ⟨h1, h2⟩ := standsFor_succ (i := fs.position k) hs
      rw [decEntryPat, h1, if_neg (by simp),
        Dec.bind_ok (decEntryPat_known m fs ps.tail h.2 henv.2.2 name k p.2 bs r h2 he)]
      rfl

theorem decEntryPat_unclaimed (m : Mode) : ∀ (fs : Fields) (ps : Pats) (n : Name), Unclaimed fs.names ps n → ∀ p s,
    decEntryPat o env fs ps m n p s = match (m.fmt o).skip s with
      | .ok (_, s') => .ok (p, s')
      | .error e => .error e
  | .nil, ps, n, _, p, s => by
    simp only [decEntryPat]
    cases (m.fmt o).skip s <;> rfl
  | .cons n' d sk t fs, ps, n, h, p, s => by
    obtain ⟨h1, h2⟩ := unclaimed_cons h
    rw [decEntryPat, h1, if_neg (by simp), Dec.bind_apply, decEntryPat_unclaimed m fs ps.tail n h2 p.2 s]
    cases (m.fmt o).skip s <;> rfl

theorem decStructPat_doc {m : Mode} (nt : NameTy) (fs : Fields) (ps : Pats)
    (hok : fs.ok (Opt.isNativeFixed o) (hostOrder o) m = true) (henv : fs.envOk env)
    (es : List (fs.NamedEntry Unknown))
    (hk : ∀ e, .inl e ∈ es → e.1.ty = nt ∧ StandsFor fs.names ps e.1 (fs.position e.2))
    (hu : ∀ u, .inr u ∈ es → u.name.ty = nt ∧ Unclaimed fs.names ps u.name ∧
      ∀ bs r, encode o env m u.ty u.val = .ok bs → (m.fmt o).skip (bs ++ r) = .ok ((), r))
    (bs rest : Bytes) (he : fs.encNamedDoc o env m es = .ok bs) :
    decStructPat o env nt fs ps m (bs ++ rest) =
      match fs.assemble env (fs.valuesOf es) with
      | .ok v => .ok (v, rest)
      | .error e => .error e := by
  have hL := m.lawful o
  obtain ⟨a, b, ha, hb, rfl⟩ := Enc.seq_eq_ok.mp he
  have hloop := loopN_entries (fun p => do
      let n ← decName (m.fmt o) nt
      decEntryPat o env fs ps m n p) (fs.encNamed o env m)
      fs.setNamed es
    (by
      intro e hmem p bs r hk'
      cases e with
      | inl e =>
        obtain ⟨x, y, hx, hy, rfl⟩ := Enc.seq_eq_ok.mp hk'
        have hn := decName_encName hL _ x (y ++ r) hx
        rw [(hk e hmem).1] at hn
        rw [List.append_assoc, Dec.bind_ok hn]
        exact decEntryPat_known o env m fs ps hok henv _ e.2 p y r (hk e hmem).2 hy
      | inr u =>
        obtain ⟨h1, h2, h3⟩ := hu u hmem
        obtain ⟨x, y, hx, hy, rfl⟩ := Enc.seq_eq_ok.mp hk'
        have hn := decName_encName hL _ x (y ++ r) hx
        rw [h1] at hn
        rw [List.append_assoc, Dec.bind_ok hn, decEntryPat_unclaimed o env m fs ps _ h2, h3 y r hy]
        rfl) fs.none b rest hb
  rw [foldl_named] at hloop
  have hfin := finish_assemble env fs (fs.valuesOf es)
  unfold decStructPat
  rw [List.append_assoc, Dec.bind_ok (hL.map _ a _ ha), Dec.bind_ok hloop, hfin]
  cases fs.assemble env (fs.valuesOf es) with
  | error e => rfl
  | ok v =>
    rw [Dec.bind_ok (ofExcept_ok rfl rest), Dec.bind_ok (hL.endMap rest)]
    rfl

omit [Host] in
theorem keyOf_position : ∀ (fs : Fields) (k : fs.Known), fs.names[fs.position k]? = some (fs.keyOf k)
  | .nil, k => nomatch k
  | .cons _ _ _ _ _, .inl _ => rfl
  | .cons _ _ _ _ fs, .inr k => keyOf_position fs k

/-- The entries of a value under their own names. -/
def Fields.ownEntries (β : Type _) (env : Env) (fs : Fields) (v : fs.Val) : List (fs.NamedEntry β) :=
  (fs.entries env v).map fun k => .inl (fs.keyOf k, k)

omit [Host] in
theorem valuesOf_own {β : Type _} (fs : Fields) (v : fs.Val) : fs.valuesOf (fs.ownEntries β env v) = fs.entries env v := by
  unfold Fields.valuesOf Fields.ownEntries
  rw [List.filterMap_map]
  exact List.filterMap_some

theorem encode_own (m : Mode) (nt : NameTy) (fs : Fields) (v : fs.Val) :
    encode o env m (.strct nt fs) v = fs.encNamedDoc o env m (fs.ownEntries Unknown env v) := by
  unfold encode Fields.encNamedDoc Fields.ownEntries
  simp only [encD]
  rw [encFields_eq, all_map, List.length_map, entries_length]
  rfl

theorem decStructPat_own {m : Mode} {nt : NameTy} {fs : Fields} {ps : Pats}
    (hok : Supported o m (.strct nt fs) = true) (henv : fs.envOk env) (hown : OwnNames fs.names ps) (v : fs.Val)
    (bs rest : Bytes) (he : encode o env m (.strct nt fs) v = .ok bs) :
    decStructPat o env nt fs ps m (bs ++ rest) = .ok (v, rest) := by
  simp only [Supported, Ty.ok, Bool.and_eq_true] at hok
  obtain ⟨_, hty⟩ := namesOk_iff hok.1
  rw [encode_own] at he
  rw [decStructPat_doc o env nt fs ps hok.2 henv _ ?_ ?_ bs rest he, valuesOf_own,
    assemble_perm env fs (skipOk_of_ok _ _ _ fs hok.2) henv v _ (List.Perm.refl _)]
  · intro e h
    obtain ⟨k, _, hk⟩ := List.mem_map.1 h
    cases hk
    exact ⟨hty _ (keyOf_mem fs k), hown _ _ (keyOf_position fs k)⟩
  · intro u h
    obtain ⟨k, _, hk⟩ := List.mem_map.1 h
    cases hk

theorem decVariantsPat_known {α : Type} (fb : Option α) (m : Mode) : ∀ (vs : Variants) (ps : Pats) (tail : Bool),
    vs.bodiesOk (Opt.isNativeFixed o) (hostOrder o) m tail = true → vs.envOk env →
    ∀ name v bs r, StandsFor vs.names ps name (vs.position v) →
      encode o env m (vs.payload v).1 (vs.payload v).2 = .ok bs → (tail = true → r = []) →
      decVariantsPat o env fb vs ps m name (bs ++ r) = .ok (.inl v, r)
  | .nil, _, _, _, _ => fun _ v => nomatch v
  | .cons n t vs, ps, tail, h, henv => by
    simp only [Variants.bodiesOk, Bool.and_eq_true] at h
    simp only [Variants.envOk] at henv
    intro name v bs r hs he hr
    cases v with
    | inl x =>
      rw [decVariantsPat, if_pos (standsFor_zero hs), Dec.bind_ok (rtD o env t m tail h.1 henv.1 x bs r he hr)]
      rfl
    | inr x =>
      obtain ⟨h1, h2⟩ := standsFor_succ (i := vs.position x) hs
      rw [decVariantsPat, h1, if_neg (by simp),
        Dec.bind_ok (decVariantsPat_known fb m vs ps.tail tail h.2 henv.2 name x bs r h2 he hr)]
      rfl

theorem decVariantsPat_unclaimed {α : Type} (fb : Option α) (m : Mode) : ∀ (vs : Variants) (ps : Pats) (name : Name),
    Unclaimed vs.names ps name → ∀ s,
    decVariantsPat o env fb vs ps m name s = match fb with
      | none => .error .unknown
      | some f => match (m.fmt o).skip s with
        | .ok (_, s') => .ok (.inr f, s')
        | .error e => .error e
  | .nil, ps, name, _, s => by
    simp only [decVariantsPat]
    cases fb with
    | none => rfl
    | some f => dsimp only; rw [Dec.bind_apply]; cases (m.fmt o).skip s <;> rfl
  | .cons n t vs, ps, name, h, s => by
    obtain ⟨h1, h2⟩ := unclaimed_cons h
    rw [decVariantsPat, h1, if_neg (by simp), Dec.bind_apply, decVariantsPat_unclaimed fb m vs ps.tail name h2 s]
    cases fb with
    | none => rfl
    | some f => dsimp only; cases (m.fmt o).skip s <;> rfl

theorem decEnumPat_known {m : Mode} {nt : NameTy} {vs : Variants} {ps : Pats}
    (hok : Supported o m (.enm nt vs) = true) (henv : vs.envOk env) (fb : Option vs.Val) (name : Name)
    (hnt : name.ty = nt) (v : vs.Val) (hs : StandsFor vs.names ps name (vs.position v)) (bs rest : Bytes)
    (he : encAnyVariant o env m name (vs.payload v).1 (vs.payload v).2 = .ok bs) :
    decEnumPat o env nt vs ps fb m (bs ++ rest) = .ok (v, rest) := by
  have hL := m.lawful o
  simp only [Supported, Ty.ok, Bool.and_eq_true] at hok
  obtain ⟨a, b, ha, hb, rfl⟩ := Enc.seq_eq_ok.mp he
  obtain ⟨z, y, hz, hy, rfl⟩ := Enc.seq_eq_ok.mp hb
  have h1 := decName_encName hL name z (y ++ rest) hz
  rw [hnt] at h1
  unfold decEnumPat
  have e1 : a ++ (z ++ y) ++ rest = a ++ (z ++ (y ++ rest)) := by simp
  rw [e1, Dec.bind_ok (hL.variant a _ ha), Dec.bind_ok h1,
    Dec.bind_ok (decVariantsPat_known o env fb m vs ps false (vs.bodiesOk_of_ok _ _ _ _ hok.2) henv name v y rest hs hy (by simp))]
  rfl

theorem decEnumPat_unclaimed {m : Mode} {nt : NameTy} {vs : Variants} {ps : Pats} (fb : Option vs.Val)
    (n : Name) (hn : Unclaimed vs.names ps n) (hnt : n.ty = nt) (t : Ty) (x : t.Val) (bs rest : Bytes)
    (he : encAnyVariant o env m n t x = .ok bs) :
    ∃ y, encode o env m t x = .ok y ∧ decEnumPat o env nt vs ps fb m (bs ++ rest) =
      match fb with
      | none => .error .unknown
      | some f => match (m.fmt o).skip (y ++ rest) with
        | .ok (_, s) => .ok (f, s)
        | .error e => .error e := by
  have hL := m.lawful o
  obtain ⟨a, b, ha, hb, rfl⟩ := Enc.seq_eq_ok.mp he
  obtain ⟨z, y, hz, hy, rfl⟩ := Enc.seq_eq_ok.mp hb
  refine ⟨y, hy, ?_⟩
  have h1 := decName_encName hL n z (y ++ rest) hz
  rw [hnt] at h1
  unfold decEnumPat
  have e1 : a ++ (z ++ y) ++ rest = a ++ (z ++ (y ++ rest)) := by simp
  rw [e1, Dec.bind_ok (hL.variant a _ ha), Dec.bind_ok h1, Dec.bind_apply,
    decVariantsPat_unclaimed o env fb m vs ps n hn]
  cases fb with
  | none => rfl
  | some f => dsimp only; cases (m.fmt o).skip (y ++ rest) <;> rfl

omit [Host] in
theorem nameOf_position : ∀ (vs : Variants) (v : vs.Val), vs.names[vs.position v]? = some (vs.nameOf v)
  | .nil, v => nomatch v
  | .cons _ _ _, .inl _ => rfl
  | .cons _ _ vs, .inr v => nameOf_position vs v

theorem decUnitPat_run {m : Mode} {nt : NameTy} {names : List Name} {ps : Pats} (fb : Option (Fin names.length))
    (n : Name) (hnt : n.ty = nt) (bs rest : Bytes) (he : encName (m.fmt o) n = .ok bs) :
    (∀ i : Fin names.length, StandsFor names ps n i.1 → decUnitPat o nt names ps fb m (bs ++ rest) = .ok (i, rest)) ∧
    (Unclaimed names ps n → decUnitPat o nt names ps fb m (bs ++ rest) =
      match fb with
      | none => .error .unknown
      | some f => .ok (f, rest)) := by
  have h1 := decName_encName (m.lawful o) n bs rest he
  rw [hnt] at h1
  constructor
  · intro i hi
    unfold decUnitPat
    rw [Dec.bind_ok h1, findArm_standsFor i hi]
    rfl
  · intro h
    unfold decUnitPat
    rw [Dec.bind_ok h1, findArm_unclaimed h]
    cases fb <;> rfl

end

namespace Json
open Json.Spec
variable (full : Bool) (env : Env)

theorem decEntryPatJ_known : ∀ (fs : Fields) (ps : Pats), fs.jsonNames = true →
    ∀ (name : Name) (k : fs.Known) (p : fs.Partial), StandsFor fs.names ps name (fs.position k) →
      DecodesL (leadKnown fs k) (decEntryPatJ full env fs ps name p) (fs.set k p) (reprKnown env fs k)
  | .nil, _, _, _, k, _, _ => nomatch k
  | .cons n d sk t fs, ps, h, name, .inl v, p, hs => by
    simp only [Fields.jsonNames, Bool.and_eq_true] at h
    simp only [decEntryPatJ, standsFor_zero hs, if_true]
    intro x hx
    simp only [reprKnown] at hx
    exact DecodesL.bind (decJ_denotes full env t h.1 v) (fun s => rfl) x hx
  | .cons n d sk t fs, ps, h, name, .inr k, p, hs => by
    simp only [Fields.jsonNames, Bool.and_eq_true] at h
    obtain ⟨h1, h2⟩ := standsFor_succ (i := fs.position k) hs
    simp only [decEntryPatJ, h1, Bool.false_eq_true, if_false]
    intro x hx
    simp only [reprKnown] at hx
    exact DecodesL.bind (decEntryPatJ_known fs ps.tail h.2 name k p.2 h2) (fun s => rfl) x hx

theorem decEntryPatJ_unclaimed : ∀ (fs : Fields) (ps : Pats) (n : Name), Unclaimed fs.names ps n →
    ∀ p, Decodes (decEntryPatJ full env fs ps n p) p IsValue
  | .nil, ps, n, h, p => by
    have := decEntryJ_unknown full env .nil n (by simp [Fields.names]) p
    simp only [decEntryJ] at this
    simpa only [decEntryPatJ] using this
  | .cons n' d sk t fs, ps, n, h, p => by
    obtain ⟨h1, h2⟩ := unclaimed_cons h
    simp only [decEntryPatJ, h1, Bool.false_eq_true, if_false]
    exact Decodes.bind (decEntryPatJ_unclaimed fs ps.tail n h2 p.2) (fun s => rfl)

theorem decStructPatJ_doc {nt : NameTy} {fs : Fields} {ps : Pats} (hn : fs.jsonNames = true)
    (es : List (fs.NamedEntry Name))
    (hk : ∀ e, .inl e ∈ es → e.1.ty = nt ∧ StandsFor fs.names ps e.1 (fs.position e.2))
    (hu : ∀ n, .inr n ∈ es → n.ty = nt ∧ Unclaimed fs.names ps n)
    (ws x rest : Bytes) (hw : Ws ws) (hr : NoNumber rest) (hx : Obj (es.map (namedMember env fs)) x) :
    (∀ v, fs.assemble env (fs.valuesOf es) = .ok v →
      decStructPatJ full env nt fs ps (ws ++ (x ++ rest)) = .ok (v, rest)) ∧
    (∀ e, fs.assemble env (fs.valuesOf es) = .error e →
      decStructPatJ full env nt fs ps (ws ++ (x ++ rest)) = .error (e, rest)) := by
  have := object_text (body := fun p => do
      let n ← decNameK full nt
      expect .colon
      decEntryPatJ full env fs ps n p) (fs.setNamed (β := Name)) (namedMember env fs) (es := es)
    (fun a _ x hx => by
      cases a with
      | inl k => exact memberL_quote (fun s => nameKey_str) hx
      | inr n => exact member_quote (fun s => nameKey_str) hx)
    (fun a hmem st x hx s hs => by
      cases a with
      | inl e =>
        have hk' := decNameK_text full e.1
        rw [(hk e hmem).1] at hk'
        exact member_textL hk' (fun n => decEntryPatJ full env fs ps n st)
          (decEntryPatJ_known full env fs ps hn e.1 e.2 st (hk e hmem).2) x hx [] ws_nil s hs
      | inr n =>
        have hk' := decNameK_text full n
        rw [(hu n hmem).1] at hk'
        exact member_text hk' (fun n => decEntryPatJ full env fs ps n st)
          (decEntryPatJ_unclaimed full env fs ps n (hu n hmem).2 st) x hx [] ws_nil s hs) fs.none
  have hrun := this x hx ws hw rest hr
  rw [foldl_named] at hrun
  refine ⟨fun v hv => ?_, fun e hv => ?_⟩ <;>
  · unfold decStructPatJ
    rw [P.bind_ok hrun, finish_assemble, hv]
    rfl

theorem decVariantsPatJ_known {α : Type} (fb : Option α) : ∀ (vs : Variants) (ps : Pats), vs.jsonNames = true →
    ∀ (name : Name) (v : vs.Val), StandsFor vs.names ps name (vs.position v) →
    ∀ (c f z s : Bytes), Ws c → Lead (vs.payload v).1 f → Denotes env (vs.payload v).1 (vs.payload v).2 z → NoNumber s →
    decVariantsPatJ full env fb vs ps name (c ++ 0x3A#8 :: (f ++ (z ++ s))) = .ok (.inl v, s)
  | .nil, _, _, _, v, _ => nomatch v
  | .cons n t vs, ps, h, name, .inl x, hs => by
    intro c f z s hc hf hz hs'
    simp only [Variants.jsonNames, Bool.and_eq_true] at h
    simp only [decVariantsPatJ, standsFor_zero hs, if_true]
    rw [P.bind_ok (expect_ok (t := .colon) rfl hc _), P.bind_ok (decJ_denotes full env t h.1 x z hz f hf s hs')]
    rfl
  | .cons n t vs, ps, h, name, .inr x, hs => by
    intro c f z s hc hf hz hs'
    simp only [Variants.jsonNames, Bool.and_eq_true] at h
    obtain ⟨h1, h2⟩ := standsFor_succ (i := vs.position x) hs
    simp only [decVariantsPatJ, h1, Bool.false_eq_true, if_false]
    rw [P.bind_ok (decVariantsPatJ_known fb vs ps.tail h.2 name x h2 c f z s hc hf hz hs')]
    rfl

theorem decVariantsPatJ_unclaimed {α : Type} (fb : Option α) : ∀ (vs : Variants) (ps : Pats) (name : Name),
    Unclaimed vs.names ps name →
    decVariantsPatJ full env fb vs ps name = match fb with
      | none => P.fail .unknown
      | some f => (do expect .colon; skip; pure (.inr f))
  | .nil, ps, name, _ => by
    simp only [decVariantsPatJ]
    cases fb <;> rfl
  | .cons n t vs, ps, name, h => by
    obtain ⟨h1, h2⟩ := unclaimed_cons h
    simp only [decVariantsPatJ, h1, Bool.false_eq_true, if_false]
    rw [decVariantsPatJ_unclaimed fb vs ps.tail name h2]
    cases fb with
    | none => rfl
    | some f =>
      dsimp only
      funext s
      simp only [bind, P.bind]
      cases expect .colon s with
      | error e => rfl
      | ok p => dsimp only; cases skip p.2 <;> rfl

theorem decEnumPatJ_known {nt : NameTy} {vs : Variants} {ps : Pats} (hn : vs.jsonNames = true)
    (fb : Option vs.Val) (name : Name) (hnt : name.ty = nt) (v : vs.Val)
    (hs : StandsFor vs.names ps name (vs.position v)) :
    Decodes (decEnumPatJ full env nt vs ps fb) v
      (Obj [MemberL (NameKey name) (Lead (vs.payload v).1) (Denotes env (vs.payload v).1 (vs.payload v).2)]) := by
  intro x hx ws hw s _
  obtain ⟨e, ⟨b, m, r, hb, ⟨kx, c, g, z, hk, hc, hg, hz, rfl⟩, hr, rfl⟩, h1⟩ := obj_ws hx hw (s := s)
  have hr : Ws r := hr
  have hkey := decNameK_text full name kx hk b hb (c ++ 0x3A#8 :: (g ++ (z ++ (r ++ 0x7D#8 :: s))))
    (noNumber_ws_cons hc (noNumber_colon []) _)
  rw [hnt] at hkey
  have e1 : b ++ (kx ++ (c ++ 0x3A#8 :: (g ++ z)) ++ r) ++ 0x7D#8 :: s =
    b ++ (kx ++ (c ++ 0x3A#8 :: (g ++ (z ++ (r ++ 0x7D#8 :: s))))) := by simp
  unfold decEnumPatJ
  rw [P.bind_ok h1, e1, P.bind_ok hkey, P.bind_ok (decVariantsPatJ_known full env fb vs ps hn name v hs c g z _ hc hg hz
    (noNumber_ws_cons hr noNumber_brace s)), P.bind_ok (expect_ok (t := .closeBrace) rfl hr s)]
  rfl

theorem decEnumPatJ_unclaimed {nt : NameTy} {vs : Variants} {ps : Pats} (fb : Option vs.Val) (name : Name)
    (hnt : name.ty = nt) (hu : Unclaimed vs.names ps name) (x : Bytes) (hx : Obj [Member (NameKey name) IsValue] x)
    (ws : Bytes) (hw : Ws ws) (s : Bytes) (_ : NoNumber s) :
    match fb with
    | none => ∃ r, decEnumPatJ full env nt vs ps fb (ws ++ (x ++ s)) = .error (.unknown, r)
    | some f => decEnumPatJ full env nt vs ps fb (ws ++ (x ++ s)) = .ok (f, s) := by
  obtain ⟨e, ⟨b, m, r, hb, ⟨kx, c, g, z, hk, hc, hg, hz, rfl⟩, hr, rfl⟩, h1⟩ := obj_ws hx hw (s := s)
  have hr : Ws r := hr
  have hkey := decNameK_text full name kx hk b hb (c ++ 0x3A#8 :: (g ++ (z ++ (r ++ 0x7D#8 :: s))))
    (noNumber_ws_cons hc (noNumber_colon []) _)
  rw [hnt] at hkey
  have e1 : b ++ (kx ++ (c ++ 0x3A#8 :: (g ++ z)) ++ r) ++ 0x7D#8 :: s =
    b ++ (kx ++ (c ++ 0x3A#8 :: (g ++ (z ++ (r ++ 0x7D#8 :: s))))) := by simp
  have hd := decVariantsPatJ_unclaimed full env fb vs ps name hu
  cases fb with
  | none =>
    refine ⟨c ++ 0x3A#8 :: (g ++ (z ++ (r ++ 0x7D#8 :: s))), ?_⟩
    unfold decEnumPatJ
    rw [P.bind_ok h1, e1, P.bind_ok hkey, hd]
    rfl
  | some f =>
    have h2 : (do expect .colon; skip; pure (.inr f) : P (vs.Val ⊕ vs.Val))
        (c ++ 0x3A#8 :: (g ++ (z ++ (r ++ 0x7D#8 :: s)))) = .ok (.inr f, r ++ 0x7D#8 :: s) := by
      rw [P.bind_ok (expect_ok (t := .colon) rfl hc _),
        P.bind_ok (skip_isValue hg hz (noNumber_ws_cons hr noNumber_brace s))]
      rfl
    dsimp only at hd ⊢
    unfold decEnumPatJ
    rw [P.bind_ok h1, e1, P.bind_ok hkey, hd, P.bind_ok h2, P.bind_ok (expect_ok (t := .closeBrace) rfl hr s)]
    rfl

theorem decUnitPatJ_run {nt : NameTy} {names : List Name} {ps : Pats} (fb : Option (Fin names.length)) (n : Name)
    (hnt : n.ty = nt) :
    (∀ i : Fin names.length, StandsFor names ps n i.1 → Decodes (decUnitPatJ full nt names ps fb) i (NameText n)) ∧
    (Unclaimed names ps n → ∀ x, NameText n x → ∀ ws, Ws ws → ∀ s, NoNumber s →
      match fb with
      | none => ∃ r, decUnitPatJ full nt names ps fb (ws ++ (x ++ s)) = .error (.unknown, r)
      | some f => decUnitPatJ full nt names ps fb (ws ++ (x ++ s)) = .ok (f, s)) := by
  have h := decNameV_text full n
  rw [hnt] at h
  refine ⟨fun i hi => Decodes.bind h (fun s => ?_), fun hu x hx ws hw s hs => ?_⟩
  · rw [findArm_standsFor i hi]; rfl
  · have h1 := h x hx ws hw s hs
    cases fb with
    | none =>
      refine ⟨s, ?_⟩
      unfold decUnitPatJ
      rw [P.bind_ok h1, findArm_unclaimed hu]
      rfl
    | some f =>
      dsimp only
      unfold decUnitPatJ
      rw [P.bind_ok h1, findArm_unclaimed hu]
      rfl

theorem obj_own {nt : NameTy} {fs : Fields} (ho : (Ty.strct nt fs).jsonOk = true) (hn : fs.jsonNames = true)
    (he : fs.envOk env) (v : fs.Val) (x : Bytes) (h : encode env (.strct nt fs) v = .ok x) :
    Obj ((fs.ownEntries Name env v).map (namedMember env fs)) x ∧ fs.skipOk = true := by
  simp only [encode, encJ] at h
  simp only [Ty.jsonOk, Bool.and_eq_true] at ho
  unfold Fields.ownEntries
  rw [List.map_map]
  exact ⟨braces_obj h fun e h => encFieldsJ_denotes env fs ho.2 hn he v true e h, ho.1⟩

theorem decStructPatJ_own {nt : NameTy} {fs : Fields} {ps : Pats} (ho : (Ty.strct nt fs).jsonOk = true)
    (hn : (Ty.strct nt fs).jsonNames = true) (he : fs.envOk env) (hown : OwnNames fs.names ps) (v : fs.Val)
    (ws x rest : Bytes) (hw : Ws ws) (hr : NoNumber rest) (h : encode env (.strct nt fs) v = .ok x) :
    decStructPatJ full env nt fs ps (ws ++ (x ++ rest)) = .ok (v, rest) := by
  simp only [Ty.jsonNames, Bool.and_eq_true] at hn
  obtain ⟨_, hty⟩ := namesOk_iff hn.1
  obtain ⟨hobj, hsk⟩ := obj_own env ho hn.2 he v x h
  refine (decStructPatJ_doc full env hn.2 _ ?_ ?_ ws x rest hw hr hobj).1 v ?_
  · intro e h
    obtain ⟨k, _, hk⟩ := List.mem_map.1 h
    cases hk
    exact ⟨hty _ (keyOf_mem fs k), hown _ _ (keyOf_position fs k)⟩
  · intro u h
    obtain ⟨k, _, hk⟩ := List.mem_map.1 h
    cases hk
  · rw [valuesOf_own]
    exact assemble_perm env fs hsk he v _ (List.Perm.refl _)

end Json
end Musli

namespace Musli

/-- No field has a pattern. -/
def Pats.none : Pats := fun _ => Option.none

section
variable [Host] (o : Options) (env : Env)

theorem decEntryPat_none (m : Mode) : ∀ (fs : Fields) (name : Name) (p : fs.Partial),
    decEntryPat o env fs Pats.none m name p = decEntry o env fs m name p
  | .nil, _, _ => by simp only [decEntryPat, decEntry]
  | .cons n d s t fs, name, p => by
    simp only [decEntryPat, decEntry]
    have ih : decEntryPat o env fs Pats.none.tail m name p.2 = _ := decEntryPat_none m fs name p.2
    rw [ih]
    by_cases h : n = name
    · rw [if_pos h, if_pos (by simpa [armMatches, Pats.none] using h)]
    · rw [if_neg h, if_neg (by simpa [armMatches, Pats.none] using h)]

theorem decStructPat_none (m : Mode) (nt : NameTy) (fs : Fields) :
    decStructPat o env nt fs Pats.none m = decode o env m (.strct nt fs) := by
  unfold decStructPat decode
  simp only [decD, decEntryPat_none]

theorem decVariantsPat_none {α : Type} (m : Mode) : ∀ (vs : Variants) (name : Name) (s : Bytes),
    decVariantsPat o env (α := α) Option.none vs Pats.none m name s =
      (decVariants o env vs m name s).map fun p => (.inl p.1, p.2)
  | .nil, name, s => by simp only [decVariantsPat, decVariants]; rfl
  | .cons n t vs, name, s => by
    simp only [decVariantsPat, decVariants]
    by_cases h : n = name
    · rw [if_pos h, if_pos (by simpa [armMatches, Pats.none] using h), Dec.bind_apply, Dec.bind_apply]
      cases decD o env t m s <;> rfl
    · rw [if_neg h, if_neg (by simpa [armMatches, Pats.none] using h), Dec.bind_apply, Dec.bind_apply]
      have ih' : decVariantsPat o env (α := α) Option.none vs Pats.none.tail m name s = _ :=
        decVariantsPat_none m vs name s
      rw [ih']
      cases decVariants o env vs m name s <;> rfl

theorem decEnumPat_none (m : Mode) (nt : NameTy) (vs : Variants) :
    decEnumPat o env nt vs Pats.none Option.none m = decode o env m (.enm nt vs) := by
  unfold decEnumPat decode
  simp only [decD]
  funext s
  rw [Dec.bind_apply, Dec.bind_apply]
  cases (m.fmt o).decVariant s with
  | error e => rfl
  | ok p =>
    dsimp only
    rw [Dec.bind_apply, Dec.bind_apply]
    cases decName (m.fmt o) nt p.2 with
    | error e => rfl
    | ok q =>
      dsimp only
      rw [Dec.bind_apply, decVariantsPat_none]
      cases decVariants o env vs m q.1 q.2 <;> rfl

end

theorem stands_or_unclaimed (name : Name) : ∀ (names : List Name) (ps : Pats),
    (∃ i : Fin names.length, StandsFor names ps name i.1) ∨ Unclaimed names ps name
  | [], ps => .inr fun j n h => by simp at h
  | n :: names, ps => by
    by_cases h : Accepts n (ps 0) name
    · exact .inl ⟨⟨0, by simp⟩, ⟨n, rfl, h⟩, fun j hj => absurd hj (Nat.not_lt_zero j)⟩
    · rcases stands_or_unclaimed name names ps.tail with ⟨i, ⟨m, h1, h2⟩, h3⟩ | hu
      · refine .inl ⟨⟨i.1 + 1, by simp⟩, ⟨m, h1, h2⟩, fun j hj m' hm => ?_⟩
        cases j with
        | zero => cases hm; exact h
        | succ j => exact h3 j (by simp only at hj; omega) m' hm
      · refine .inr fun j m' hm => ?_
        cases j with
        | zero => cases hm; exact h
        | succ j => exact hu j m' hm

end Musli

namespace Musli

theorem standsFor_iff {names : List Name} {ps : Pats} {name : Name} {i : Fin names.length} :
    StandsFor names ps name i.1 ↔ findArm names ps name = some i := by
  refine ⟨findArm_standsFor i, fun h => ?_⟩
  rcases stands_or_unclaimed name names ps with ⟨j, hj⟩ | hu
  · rw [findArm_standsFor j hj] at h
    cases h
    exact hj
  · rw [findArm_unclaimed hu] at h
    cases h

theorem unclaimed_iff {names : List Name} {ps : Pats} {name : Name} :
    Unclaimed names ps name ↔ findArm names ps name = none := by
  refine ⟨findArm_unclaimed, fun h => ?_⟩
  rcases stands_or_unclaimed name names ps with ⟨j, hj⟩ | hu
  · rw [findArm_standsFor j hj] at h
    cases h
  · exact hu

theorem ownNames_iff {names : List Name} {ps : Pats} :
    OwnNames names ps ↔ ∀ i : Fin names.length, findArm names ps names[i] = some i := by
  constructor
  · intro h i
    exact findArm_standsFor i (h i.1 names[i] (by simp))
  · intro h i n hn
    obtain ⟨hi, rfl⟩ := List.getElem?_eq_some_iff.mp hn
    exact standsFor_iff.mpr (h ⟨i, hi⟩)

section
variable [Host] (o : Options) (env : Env)

theorem encVariants_own (m : Mode) {N H tail : Bool} : ∀ (vs : Variants) (v : vs.Val), vs.ok N H m tail = true →
    encVariants o env vs m v =
      (encName (m.fmt o) (vs.nameOf v) +> encode o env m (vs.payload v).1 (vs.payload v).2)
  | .nil, v, _ => nomatch v
  | .cons _ t _, .inl _, h => by
    simp only [Variants.ok, Bool.and_eq_true] at h
    have hd : t.dynamic = false := by simpa using h.1.2
    simp only [encVariants, hd, Bool.false_eq_true, if_false]
    rfl
  | .cons _ _ vs, .inr x, h => by
    simp only [Variants.ok, Bool.and_eq_true] at h
    simp only [encVariants]
    exact encVariants_own m vs x h.2

theorem encode_enum_own (m : Mode) (nt : NameTy) (vs : Variants) (v : vs.Val) {N H tail : Bool}
    (h : vs.ok N H m tail = true) :
    encode o env m (.enm nt vs) v =
      encAnyVariant o env m (vs.nameOf v) (vs.payload v).1 (vs.payload v).2 := by
  unfold encode encAnyVariant
  simp only [encD]
  rw [encVariants_own o env m vs v h]

omit [Host] in
theorem standsFor_cons_zero {n : Name} {names : List Name} {ps : Pats} {name : Name}
    (h : armMatches n (ps 0) name = true) : StandsFor (n :: names) ps name 0 :=
  ⟨⟨n, rfl, armMatches_iff.mp h⟩, fun j hj => by omega⟩

omit [Host] in
theorem standsFor_cons_succ {n : Name} {names : List Name} {ps : Pats} {name : Name} {i : Nat}
    (h : ¬armMatches n (ps 0) name = true) (hs : StandsFor names ps.tail name i) :
    StandsFor (n :: names) ps name (i + 1) := by
  obtain ⟨⟨n', h1, h2⟩, h3⟩ := hs
  refine ⟨⟨n', h1, h2⟩, fun j hj m hm ha => ?_⟩
  cases j with
  | zero => cases hm; exact h (armMatches_iff.mpr ha)
  | succ j => exact h3 j (by omega) m hm ha

theorem decVariantsPat_stands {α : Type} (m : Mode) : ∀ (vs : Variants) (ps : Pats) (name : Name)
    (fb : Option α) (s r : Bytes) (v : vs.Val), decVariantsPat o env fb vs ps m name s = .ok (.inl v, r) →
    StandsFor vs.names ps name (vs.position v)
  | .nil, _, _, _, _, _, v, _ => nomatch v
  | .cons n t vs, ps, name, fb, s, r, v, h => by
    rw [decVariantsPat] at h
    by_cases ha : armMatches n (ps 0) name = true
    · rw [if_pos ha] at h
      obtain ⟨x, s', hx, h2⟩ := Dec.bind_eq_ok.mp h
      cases h2
      exact standsFor_cons_zero ha
    · rw [if_neg ha] at h
      obtain ⟨x, s', hx, h2⟩ := Dec.bind_eq_ok.mp h
      cases x with
      | inl x => cases h2; exact standsFor_cons_succ ha (decVariantsPat_stands m vs ps.tail name fb s _ x hx)
      | inr f => cases h2

theorem decVariantsPat_none_inl {α : Type} (m : Mode) : ∀ (vs : Variants) (ps : Pats) (name : Name)
    (s r : Bytes) (f : α), decVariantsPat o env Option.none vs ps m name s ≠ .ok (.inr f, r)
  | .nil, _, _, _, _, _ => fun h => nomatch h
  | .cons n t vs, ps, name, s, r, f => by
    intro h
    rw [decVariantsPat] at h
    by_cases ha : armMatches n (ps 0) name = true
    · rw [if_pos ha] at h
      obtain ⟨x, s', hx, h2⟩ := Dec.bind_eq_ok.mp h
      cases h2
    · rw [if_neg ha] at h
      obtain ⟨x, s', hx, h2⟩ := Dec.bind_eq_ok.mp h
      cases x with
      | inl x => cases h2
      | inr f => exact decVariantsPat_none_inl m vs ps.tail name s _ f hx

theorem decEnumPat_stands {m : Mode} {nt : NameTy} {vs : Variants} {ps : Pats} (n : Name) (hnt : n.ty = nt)
    (t : Ty) (x : t.Val) (bs rest r : Bytes) (he : encAnyVariant o env m n t x = .ok bs) (v : vs.Val)
    (h : decEnumPat o env nt vs ps Option.none m (bs ++ rest) = .ok (v, r)) :
    StandsFor vs.names ps n (vs.position v) := by
  have hL := m.lawful o
  obtain ⟨a, b, ha, hb, rfl⟩ := Enc.seq_eq_ok.mp he
  obtain ⟨z, y, hz, hy, rfl⟩ := Enc.seq_eq_ok.mp hb
  have h1 := decName_encName hL n z (y ++ rest) hz
  rw [hnt] at h1
  unfold decEnumPat at h
  have e1 : a ++ (z ++ y) ++ rest = a ++ (z ++ (y ++ rest)) := by simp
  rw [e1, Dec.bind_ok (hL.variant a _ ha), Dec.bind_ok h1] at h
  obtain ⟨q, s', hx, h2⟩ := Dec.bind_eq_ok.mp h
  cases q with
  | inl q => cases h2; exact decVariantsPat_stands o env m vs ps n _ _ _ q hx
  | inr f => exact absurd hx (decVariantsPat_none_inl o env m vs ps n _ _ f)

end
end Musli
