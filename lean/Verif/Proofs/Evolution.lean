import Verif.Proofs.RoundTrip
import Verif.Proofs.Skip
import Verif.Spec.Evolution
/-!
# Decoding structs from arbitrary entries
-/
set_option linter.unusedSectionVars false
namespace Musli

section
variable [Host] (o : Options) (env : Env)

omit [Host] in
/-- Later entries overwrite earlier ones. -/
theorem set_foldl {n d s t} {fs : Fields} : ∀ (ks : List (Fields.cons n d s t fs).Known)
    (p : (Fields.cons n d s t fs).Partial),
    ks.foldl (fun p k => (Fields.cons n d s t fs).set k p) p =
      (((ks.filterMap Sum.getLeft?).getLast?).or p.1,
        (ks.filterMap Sum.getRight?).foldl (fun p k => fs.set k p) p.2) := by
  intro ks
  induction ks with
  | nil => intro p; rfl
  | cons k ks ih =>
    intro p
    rw [List.foldl_cons, ih]
    cases k with
    | inl v =>
      simp only [Fields.set, List.filterMap_cons, Sum.getLeft?, Sum.getRight?]
      congr 1
      cases hl : (List.filterMap Sum.getLeft? ks) with
      | nil => rfl
      | cons x l => rw [List.getLast?_cons_cons]; cases h : (x :: l).getLast? <;> simp_all
    | inr k => rfl

omit [Host] in
theorem finish_assemble : ∀ (fs : Fields) (ks : List fs.Known),
    fs.finish env (ks.foldl (fun p k => fs.set k p) fs.none) = fs.assemble env ks
  | .nil, _ => rfl
  | .cons n d s t fs, ks => by
    rw [set_foldl]
    have ih := finish_assemble fs (ks.filterMap Sum.getRight?)
    show (match fieldValue env d t _ with
      | .error e => Except.error e
      | .ok v => match Fields.finish env fs
          ((ks.filterMap Sum.getRight?).foldl (fun p k => fs.set k p) fs.none) with
        | .error e => Except.error e
        | .ok w => .ok (v, w)) = _
    rw [ih]
    simp only [Fields.assemble]
    cases (List.filterMap Sum.getLeft? ks).getLast? <;> rfl

theorem decEntry_unknown (m : Mode) : ∀ (fs : Fields) (n : Name), n ∉ fs.names → ∀ p s,
    decEntry o env fs m n p s = match (m.fmt o).skip s with
      | .ok (_, s') => .ok (p, s')
      | .error e => .error e
  | .nil, n, _, p, s => by
    simp only [decEntry]
    cases (m.fmt o).skip s with
    | ok x => rfl
    | error e => rfl
  | .cons n' d sk t fs, n, h, p, s => by
    simp only [Fields.names, List.mem_cons, not_or] at h
    rw [decEntry, if_neg (fun hc => h.1 hc.symm), Dec.bind_apply, decEntry_unknown m fs n h.2 p.2 s]
    cases (m.fmt o).skip s with
    | ok x => rfl
    | error e => rfl

/-- What an entry does to the fields. -/
def Fields.setAny {β : Type _} (fs : Fields) (p : fs.Partial) : fs.Known ⊕ β → fs.Partial
  | .inl k => fs.set k p
  | .inr _ => p

omit [Host] in
/-- The known entries, in order. -/
theorem foldl_known {β : Type _} {fs : Fields} (es : List (fs.Known ⊕ β)) (p : fs.Partial) :
    es.foldl fs.setAny p =
      (es.filterMap Sum.getLeft?).foldl (fun p k => fs.set k p) p := by
  induction es generalizing p with
  | nil => rfl
  | cons e es ih => cases e <;> exact ih _

theorem decode_doc {m : Mode} {step : Dec Nat} {us : Bool} (hF : (m.fmt o).Skippable step us)
    (hskip : (m.fmt o).skip = skipAny step) (hc : Consumes step)
    (nt : NameTy) (fs : Fields) (hok : Supported o m (.strct nt fs) = true) (henv : fs.envOk env)
    (es : List fs.Entry)
    (hu : ∀ u, .inr u ∈ es → u.name ∉ fs.names ∧ u.name.ty = nt ∧ u.ty.counted = true ∧
      (us = true ∨ u.ty.noUsize = true))
    (bs rest : Bytes) (he : fs.encDoc o env m es = .ok bs) :
    decode o env m (.strct nt fs) (bs ++ rest) =
      match fs.assemble env (es.filterMap Sum.getLeft?) with
      | .ok v => .ok (v, rest)
      | .error e => .error e := by
  have hL := m.lawful o
  simp only [Supported, Ty.ok, Bool.and_eq_true] at hok
  obtain ⟨hnd, hty⟩ := namesOk_iff hok.1
  obtain ⟨a, b, ha, hb, rfl⟩ := Enc.seq_eq_ok.mp he
  have hloop := loopN_entries (fun p => do
      let n ← decName (m.fmt o) nt
      decEntry o env fs m n p) (fs.encAny o env m)
      fs.setAny es
    (by
      intro e hmem p bs r hk
      cases e with
      | inl k =>
        obtain ⟨x, y, hx, hy, rfl⟩ := Enc.seq_eq_ok.mp hk
        have hn := decName_encName hL _ x (y ++ r) hx
        rw [hty _ (keyOf_mem fs k)] at hn
        rw [List.append_assoc, Dec.bind_ok hn]
        exact rtEntry o env fs m hok.2 henv hnd k p y r hy
      | inr u =>
        obtain ⟨h1, h2, hcnt, h3⟩ := hu u hmem
        obtain ⟨x, y, hx, hy, rfl⟩ := Enc.seq_eq_ok.mp hk
        have hn := decName_encName hL _ x (y ++ r) hx
        rw [h2] at hn
        rw [List.append_assoc, Dec.bind_ok hn, decEntry_unknown o env m fs _ h1, hskip,
          skipAny_of_skips hc (skipsD o env hF u.ty h3 hcnt u.val y hy) r]
        rfl) fs.none b rest hb
  rw [foldl_known] at hloop
  have hfin := finish_assemble env fs (es.filterMap Sum.getLeft?)
  unfold decode
  simp only [decD]
  rw [List.append_assoc, Dec.bind_ok (hL.map _ a _ ha), Dec.bind_ok hloop, hfin]
  cases fs.assemble env (es.filterMap Sum.getLeft?) with
  | error e => rfl
  | ok v =>
    rw [Dec.bind_ok (ofExcept_ok rfl rest), Dec.bind_ok (hL.endMap rest)]
    rfl

omit [Host] in
theorem skipOk_of_ok (N H : Bool) (m : Mode) : ∀ (fs : Fields), fs.ok N H m = true →
    fs.skipOk = true
  | .nil, _ => rfl
  | .cons n d sk t fs, hok => by
    simp only [Fields.ok, Bool.and_eq_true] at hok
    simp only [Fields.skipOk, Bool.and_eq_true]
    exact ⟨hok.1.1, skipOk_of_ok N H m fs hok.2⟩

omit [Host] in
/-- Assembling a permutation of the entries of a value gives the value. -/
theorem assemble_perm : ∀ (fs : Fields), fs.skipOk = true → fs.envOk env →
    ∀ (v : fs.Val) (ks : List fs.Known), ks.Perm (fs.entries env v) → fs.assemble env ks = .ok v
  | .nil, _, _, _, _, _ => rfl
  | .cons n d sk t fs, hok, henv, v, ks, hp => by
    simp only [Fields.skipOk, Bool.and_eq_true] at hok
    simp only [Fields.envOk] at henv
    have hr : (ks.filterMap Sum.getRight?).Perm (fs.entries env v.2) := by
      have := hp.filterMap Sum.getRight?
      refine this.trans (List.Perm.of_eq ?_)
      simp only [Fields.entries, List.filterMap_append]
      have h1 : List.filterMap Sum.getRight? (if fieldPresent env sk t v.1 = true
        then [(Sum.inl v.1 : t.Val ⊕ fs.Known)] else []) = [] := by split <;> rfl
      rw [h1, List.nil_append, List.filterMap_map]
      exact List.filterMap_some
    have hl : (ks.filterMap Sum.getLeft?) = if fieldPresent env sk t v.1 = true then [v.1] else [] := by
      have := hp.filterMap Sum.getLeft?
      have h2 : List.filterMap Sum.getLeft? ((Fields.cons n d sk t fs).entries env v) =
          if fieldPresent env sk t v.1 = true then [v.1] else [] := by
        simp only [Fields.entries, List.filterMap_append]
        have h1 : List.filterMap Sum.getLeft? (List.map (Sum.inr : fs.Known → t.Val ⊕ fs.Known)
            (fs.entries env v.2)) = [] := by
          rw [List.filterMap_map]
          rw [List.filterMap_eq_nil_iff]
          intro a _; rfl
        rw [h1, List.append_nil]
        split <;> rfl
      rw [h2] at this
      split at this
      · rename_i h; rw [if_pos h]; exact List.perm_singleton.mp this
      · rename_i h; rw [if_neg h]; exact List.perm_nil.mp this
    have ih := assemble_perm fs hok.2 henv.2.2 v.2 _ hr
    simp only [Fields.assemble]
    rw [ih, hl]
    cases hpr : fieldPresent env sk t v.1 with
    | true => rfl
    | false =>
      cases sk with
      | none => simp [fieldPresent] at hpr
      | some k =>
        cases d with
        | none => simp at hok
        | some d =>
          have := henv.1 v.1 (by simpa [fieldPresent] using hpr)
          simp [missing, this]

end
end Musli
