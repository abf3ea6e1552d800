import Verif.Spec.MapAccess
import Verif.Proofs.RoundTrip
import Verif.Proofs.Skip
import Verif.Props.Documents
import Verif.Proofs.Json.Tagged
/-!
# Reading a map by hand
-/
set_option linter.unusedSectionVars false
namespace Musli

theorem mapOps_sees [Host] {α} {F : Fmt} {enc : α → Enc} {e : Dec α} (he : RT false enc e) (rest : Bytes)
    (hend : ∀ l y, Enc.all enc l = .ok y → F.endMap l.length (y ++ rest) = .ok ((), rest)) :
    ∀ (ops : List MapOp) (l : List α) (y : Bytes), Enc.all enc l = .ok y →
    ∃ l' y', Enc.all enc l' = .ok y' ∧
      mapOps F true e ops l.length (y ++ rest) = .ok ((MapOp.sees ops l, l'.length), y' ++ rest)
  | [], l, y, h => ⟨l, y, h, rfl⟩
  | .entry :: ops, [], y, h => by
    obtain ⟨l', y', h1, h2⟩ := mapOps_sees he rest hend ops [] y h
    refine ⟨l', y', h1, ?_⟩
    unfold mapOps
    rw [List.length_nil] at h2 ⊢
    have h3 : mapOp F true e .entry 0 (y ++ rest) = .ok (([], 0), y ++ rest) := rfl
    rw [Dec.bind_ok h3]
    dsimp only
    rw [Dec.bind_ok h2]
    rfl
  | .entry :: ops, x :: l, y, h => by
    obtain ⟨a, b, ha, hb, rfl⟩ := Enc.seq_eq_ok.mp h
    obtain ⟨l', y', h1, h2⟩ := mapOps_sees he rest hend ops l b hb
    refine ⟨l', y', h1, ?_⟩
    unfold mapOps
    have h3 : mapOp F true e .entry (x :: l).length (a ++ b ++ rest) = .ok (([x], l.length), b ++ rest) := by
      rw [List.length_cons, mapOp, List.append_assoc, Dec.bind_ok (he x a (b ++ rest) ha (by simp))]
      rfl
    rw [Dec.bind_ok h3]
    dsimp only
    rw [Dec.bind_ok h2]
    rfl
  | .rest k :: ops, l, y, h => by
    rw [← List.take_append_drop k l, all_append] at h
    obtain ⟨a, b, ha, hb, rfl⟩ := Enc.seq_eq_ok.mp h
    obtain ⟨l', y', h1, h2⟩ := mapOps_sees he rest hend ops [] [] rfl
    refine ⟨l', y', h1, ?_⟩
    have e1 : min k l.length = (l.take k).length := by rw [List.length_take]
    have e2 : l.length - min k l.length = (l.drop k).length := by rw [List.length_drop]; omega
    unfold mapOps
    have h3 : mapOp F true e (.rest k) l.length (a ++ b ++ rest) = .ok ((l.take k, 0), rest) := by
      rw [mapOp, e2, e1, List.append_assoc, Dec.bind_ok (decN_all he _ a (b ++ rest) ha),
        Dec.bind_ok (hend _ b hb)]
      rfl
    rw [Dec.bind_ok h3]
    dsimp only
    rw [List.length_nil, List.nil_append] at h2
    rw [Dec.bind_ok h2]
    rfl

section
variable [Host] (o : Options) (env : Env)

/-- What `encode` writes for a map. -/
theorem map_entries {m : Mode} {k t : Ty} {v : (Ty.map k t).Val} {bs : Bytes}
    (he : encode o env m (.map k t) v = .ok bs) :
    ∃ a b, (m.fmt o).encMap (List.length v) = .ok a ∧
      Enc.all (fun x : k.Val × t.Val => viaE o env k m x.1 +> viaE o env t m x.2) v = .ok b ∧ bs = a ++ b := by
  unfold encode at he
  simp only [encD] at he
  obtain ⟨a, b, ha, hb, rfl⟩ := Enc.seq_eq_ok.mp he
  exact ⟨a, b, ha, hb, rfl⟩

theorem map_pair {m : Mode} {k t : Ty} (ht : Supported o m (.map k t) = true) (henv : (Ty.map k t).envOk env) :
    RT false (fun x : k.Val × t.Val => viaE o env k m x.1 +> viaE o env t m x.2) (do
      let a ← viaD o env k m
      let b ← viaD o env t m
      pure (a, b)) := by
  simp only [Supported, Ty.ok] at ht
  rw [Bool.and_eq_true] at ht
  simp only [Ty.envOk] at henv
  have hk := rtVia o env ht.1 (fun h => rtD o env k m false h henv.1)
  have ht := rtVia o env ht.2 (fun h => rtD o env t m false h henv.2)
  intro x bs r he _
  obtain ⟨a, b, ha, hb, rfl⟩ := Enc.seq_eq_ok.mp he
  unfold viaD
  rw [List.append_assoc, Dec.bind_ok (hk x.1 a _ ha (by simp)),
    Dec.bind_ok (ht x.2 b _ hb (by simp))]
  rfl

theorem decodeMapWith_takes {m : Mode} (hm : takesRemaining m = true) {k t : Ty}
    (ht : Supported o m (.map k t) = true) (henv : (Ty.map k t).envOk env) (ops : List MapOp)
    (v : List (k.Val × t.Val)) (bs rest : Bytes)
    (hend : ∀ l y, Enc.all (fun x : k.Val × t.Val => viaE o env k m x.1 +> viaE o env t m x.2) l = .ok y →
      (m.fmt o).endMap l.length (y ++ rest) = .ok ((), rest))
    (he : encode o env m (.map k t) v = .ok bs) :
    decodeMapWith o env m k t ops (bs ++ rest) = .ok (MapOp.sees ops v, rest) := by
  obtain ⟨a, b, ha, hb, rfl⟩ := map_entries o env he
  obtain ⟨l', y', h1, h2⟩ := mapOps_sees (map_pair o env ht henv) rest hend ops v b hb
  unfold decodeMapWith
  rw [hm, List.append_assoc, Dec.bind_ok ((m.lawful o).map _ a _ ha), Dec.bind_ok h2]
  dsimp only
  rw [Dec.bind_ok (hend l' y' h1)]
  rfl

/-- Storage, with single calls only. -/
theorem mapOps_singles {α} {F : Fmt} {enc : α → Enc} {e : Dec α} (he : RT false enc e) (rest : Bytes)
    (takes : Bool) : ∀ (ops : List MapOp) (n : Nat), MapOp.singles ops = some n →
    ∀ (l : List α) (y : Bytes), Enc.all enc l = .ok y →
    ∃ y', Enc.all enc (l.drop n) = .ok y' ∧
      mapOps F takes e ops l.length (y ++ rest) =
        .ok ((MapOp.sees ops l, (l.drop n).length), y' ++ rest)
  | [], n, hn, l, y, h => by cases hn; exact ⟨y, h, rfl⟩
  | .rest k :: ops, n, hn, _, _, _ => by cases hn
  | .entry :: ops, n, hn, [], y, h => by
    obtain ⟨n', hn', rfl⟩ := Option.map_eq_some_iff.mp hn
    obtain ⟨y', h1, h2⟩ := mapOps_singles he rest takes ops n' hn' [] y h
    refine ⟨y', by simpa using h1, ?_⟩
    unfold mapOps
    rw [List.length_nil] at h2 ⊢
    have h3 : mapOp F takes e .entry 0 (y ++ rest) = .ok (([], 0), y ++ rest) := rfl
    rw [Dec.bind_ok h3]
    dsimp only
    rw [Dec.bind_ok h2, List.drop_nil, List.drop_nil]
    rfl
  | .entry :: ops, n, hn, x :: l, y, h => by
    obtain ⟨n', hn', rfl⟩ := Option.map_eq_some_iff.mp hn
    obtain ⟨a, b, ha, hb, rfl⟩ := Enc.seq_eq_ok.mp h
    obtain ⟨y', h1, h2⟩ := mapOps_singles he rest takes ops n' hn' l b hb
    refine ⟨y', h1, ?_⟩
    unfold mapOps
    have h3 : mapOp F takes e .entry (x :: l).length (a ++ b ++ rest) = .ok (([x], l.length), b ++ rest) := by
      rw [List.length_cons, mapOp, List.append_assoc, Dec.bind_ok (he x a (b ++ rest) ha (by simp))]
      rfl
    rw [Dec.bind_ok h3]
    dsimp only
    rw [Dec.bind_ok h2]
    rfl

end

/-! ## JSON -/

namespace Json
open Spec

theorem endMap_members {first : Bool} {ps : List (Bytes → Prop)} {e : Bytes}
    (hall : ∀ p ∈ ps, ∀ x, p x → IsMember x) (h : After first ps e) (s : Bytes) :
    endMap first (e ++ 0x7D#8 :: s) = .ok ((), s) := by
  unfold endMap skipFuel
  have hf : 2 * (e ++ 0x7D#8 :: s).length + 2 = (2 * (e ++ 0x7D#8 :: s).length + 1) + 1 := rfl
  cases ps with
  | nil =>
    rw [hf]
    exact skipEntries_close _ first (after_nil h) s
  | cons p ps =>
    have hall' := fun q (hq : q ∈ ps) => hall q (List.mem_cons_of_mem _ hq)
    have hp := hall p (List.mem_cons_self ..)
    cases first with
    | true =>
      obtain ⟨b, x, r, hb, hx, hr, rfl⟩ := h
      exact skips (more_members hall' hb (hp x hx) hr) _ (by simp; omega) true s
    | false =>
      obtain ⟨a, b, x, r, ha, hb, hx, hr, rfl⟩ := h
      rw [hf]
      have e2 : a ++ 0x2C#8 :: (b ++ (x ++ r)) ++ 0x7D#8 :: s =
        a ++ 0x2C#8 :: ((b ++ (x ++ r)) ++ 0x7D#8 :: s) := by simp
      rw [e2, skipEntries_comma _ ha]
      exact skips (more_members hall' hb (hp x hx) hr) _ (by simp; omega) false s

section
variable {α : Type} {d : P α} {p : α → Bytes → Prop}
  (hq : ∀ a x, p a x → ∃ y, x = 0x22#8 :: y) (hm : ∀ a x, p a x → IsMember x)
  (hd : ∀ a x, p a x → ∀ s, NoNumber s → d (x ++ s) = .ok (a, s)) (s : Bytes)
include hq hd

theorem takeEntries_after : ∀ (k : Nat) (l : List α) (first : Bool) (e : Bytes),
    After first (l.map p) e → ∃ first' e', After first' ((l.drop k).map p) e' ∧
      takeEntries d k first (e ++ 0x7D#8 :: s) = .ok ((l.take k, first'), e' ++ 0x7D#8 :: s)
  | 0, l, first, e, h => ⟨first, e, h, rfl⟩
  | k + 1, [], first, e, h => by
    refine ⟨false, [], ws_nil, ?_⟩
    unfold takeEntries
    rw [P.bind_apply, nextKey_ws (after_nil h), nextKey_close]
    rfl
  | k + 1, a :: l, first, e, h => by
    obtain ⟨x, r, hx, hr, _, h2⟩ := after_cons h
    obtain ⟨first', e', h3, h4⟩ := takeEntries_after k l false r hr
    refine ⟨first', e', h3, ?_⟩
    unfold takeEntries
    rw [P.bind_ok (h2 (hq a x hx) _)]
    show (d >>= _) _ = _
    rw [P.bind_ok (hd a x hx _ (more_noNumber hr noNumber_brace s)), P.bind_ok h4]
    rfl

include hm

/-- The calls see what they should, as long as the remaining entries are asked for once. -/
theorem mapOps_after : ∀ (ops : List MapOp) (l : List α) (first : Bool) (e : Bytes),
    After first (l.map p) e → (ops.filter (fun op => op ≠ .entry)).length ≤ 1 →
    ∃ st s', mapOps d ops ⟨first, false⟩ (e ++ 0x7D#8 :: s) = .ok ((MapOp.sees ops l, st), s') ∧
      (if st.finalized then s' = s else ∃ l' e', After st.first (List.map p l') e' ∧ s' = e' ++ 0x7D#8 :: s)
  | [], l, first, e, h, _ => ⟨⟨first, false⟩, _, rfl, l, e, h, rfl⟩
  | .entry :: ops, l, first, e, h, hc => by
    obtain ⟨first', e', h1, h2⟩ := takeEntries_after hq hd s 1 l first e h
    obtain ⟨st, s', h3, h4⟩ := mapOps_after ops (l.drop 1) first' e' h1 (by simpa using hc)
    refine ⟨st, s', ?_, h4⟩
    unfold mapOps mapOp
    have h5 : (do
        let (l, first) ← takeEntries d 1 first
        pure (l, (⟨first, false⟩ : ObjState))) (e ++ 0x7D#8 :: s) =
        .ok ((l.take 1, ⟨first', false⟩), e' ++ 0x7D#8 :: s) := by
      rw [P.bind_ok h2]; rfl
    dsimp only [Bool.false_eq_true, if_false]
    rw [if_neg (by simp)]
    rw [P.bind_ok h5, P.bind_ok h3]
    rfl
  | .rest k :: ops, l, first, e, h, hc => by
    obtain ⟨first', e', h1, h2⟩ := takeEntries_after hq hd s k l first e h
    have hall : ∀ q ∈ (l.drop k).map p, ∀ x, q x → IsMember x := by
      intro q hq x hx
      obtain ⟨a, _, rfl⟩ := List.mem_map.mp hq
      exact hm a x hx
    have hno : ∀ (ops : List MapOp), (ops.filter (fun op => op ≠ .entry)).length ≤ 0 →
        ∀ st : ObjState, st.finalized = true →
        mapOps d ops st s = .ok ((MapOp.sees ops [], st), s) := by
      intro ops
      induction ops with
      | nil => intro _ st _; rfl
      | cons op ops ih =>
        intro hc st hst
        cases op with
        | entry =>
          unfold mapOps mapOp
          have h6 : (if st.finalized = true then pure ([], st) else do
              let (l, first) ← takeEntries d 1 st.first
              pure (l, { st with first := first })) s = .ok (([], st), s) := by
            rw [if_pos hst]; rfl
          rw [P.bind_ok h6]
          dsimp only
          rw [P.bind_ok (ih (by simpa using hc) st hst)]
          rfl
        | rest k => simp at hc
    refine ⟨⟨first, true⟩, s, ?_, rfl⟩
    unfold mapOps mapOp
    have h5 : (do
        let (l, first') ← takeEntries d k first
        endMap first'
        pure (l, (⟨first, true⟩ : ObjState))) (e ++ 0x7D#8 :: s) =
        .ok ((l.take k, ⟨first, true⟩), s) := by
      rw [P.bind_ok h2]
      dsimp only
      rw [P.bind_ok (endMap_members hall h1 s)]; rfl
    dsimp only
    rw [if_neg (by simp)]
    rw [P.bind_ok h5, P.bind_ok (hno ops (by simpa using hc) _ rfl)]
    rfl

end

theorem decodeMapWith_text (full : Bool) (env : Env) (k t : Ty) (h : (Ty.map k t).jsonNames = true)
    (v : List (k.Val × t.Val)) (ops : List MapOp)
    (hc : (ops.filter (fun op => op ≠ .entry)).length ≤ 1) :
    Decodes (decodeMapWith full env k t ops) (MapOp.sees ops v) (Denotes env (.map k t) v) := by
  intro x hx ws hw s hs
  simp only [Denotes] at hx
  simp only [Ty.jsonNames, Bool.and_eq_true] at h
  obtain ⟨e, he, h1⟩ := obj_ws hx hw (s := s)
  have hd : ∀ (a : k.Val × t.Val) x, MemberL (KeyText k a.1) (Lead t) (Denotes env t a.2) x → ∀ s, NoNumber s →
      (do
        let a ← decKey full k
        expect .colon
        let b ← decJ full env t
        pure (a, b)) (x ++ s) = .ok (a, s) := by
    intro a x hx s hs
    have := member_textL (decKey_text full k h.1 a.1)
      (fun y => do let b ← decJ full env t; pure (y, b)) (b := a)
      (DecodesL.bind (decJ_denotes full env t h.2 a.2) (fun s => rfl)) x hx [] ws_nil s hs
    exact this
  obtain ⟨st, s', h2, h3⟩ := mapOps_after (p := fun (a : k.Val × t.Val) => MemberL (KeyText k a.1) (Lead t) (Denotes env t a.2))
    (fun a x hx => memberL_quote (fun s => keyText_str k) hx)
    (fun a x hx => memberL_isMember (fun s => keyText_str k) (fun _ => lead_ws) (fun s => denotes_isValue env t a.2 s) hx) hd s ops v true e he hc
  unfold decodeMapWith
  rw [P.bind_ok h1, P.bind_ok h2]
  dsimp only
  cases hf : st.finalized with
  | true =>
    rw [hf, if_pos rfl] at h3
    rw [if_pos rfl, h3]
    rfl
  | false =>
    rw [hf, if_neg (by simp)] at h3
    obtain ⟨l', e', h4, rfl⟩ := h3
    rw [if_neg (by simp)]
    rw [P.bind_ok (endMap_members (fun q hq x hx => by
      obtain ⟨a, _, rfl⟩ := List.mem_map.mp hq
      exact memberL_isMember (fun s => keyText_str k) (fun _ => lead_ws) (fun s => denotes_isValue env t a.2 s) hx) h4 s)]
    rfl

end Json

/-! ## Values -/

namespace Value

/-- No call follows one that asks for the remaining entries. -/
def restLast : List MapOp → Bool
  | [] => true
  | .entry :: ops => restLast ops
  | .rest _ :: ops => ops.isEmpty

theorem mapOps_restLast {α} {e : Value × Value → Except Err α} : ∀ (ops : List MapOp)
    (l : List (Value × Value)) (v : List α), restLast ops = true → l.mapM e = .ok v →
    mapOps e ops l = .ok (MapOp.sees ops v)
  | [], _, _, _, _ => rfl
  | .entry :: ops, [], v, h, hv => by
    cases hv
    have := mapOps_restLast (e := e) ops [] ([] : List α) h rfl
    simp only [mapOps, mapOp, MapOp.sees, this]
    rfl
  | .entry :: ops, x :: l, v, h, hv => by
    rw [List.mapM_cons] at hv
    cases hx : e x with
    | error err => rw [hx] at hv; cases hv
    | ok a =>
      rw [hx] at hv
      cases hl : l.mapM e with
      | error err => rw [hl] at hv; cases hv
      | ok w =>
        rw [hl] at hv
        cases hv
        have := mapOps_restLast ops l w h hl
        simp only [mapOps, mapOp, hx, MapOp.sees, this]
        rfl
  | .rest k :: ops, l, v, h, hv => by
    cases ops with
    | cons _ _ => cases h
    | nil =>
      have hk : ∀ (k : Nat) (l : List (Value × Value)) (v : List α), l.mapM e = .ok v →
          (l.take k).mapM e = .ok (v.take k) := by
        intro k l
        induction l generalizing k with
        | nil => intro v hv; cases hv; simp; rfl
        | cons x l ih =>
          intro v hv
          rw [List.mapM_cons] at hv
          cases hx : e x with
          | error err => rw [hx] at hv; cases hv
          | ok a =>
            rw [hx] at hv
            cases hl : l.mapM e with
            | error err => rw [hl] at hv; cases hv
            | ok w =>
              rw [hl] at hv
              cases hv
              cases k with
              | zero => rfl
              | succ k =>
                rw [List.take_succ_cons, List.mapM_cons, hx]
                show ((l.take k).mapM e >>= fun as => pure (a :: as)) = _
                rw [ih k w hl]
                rfl
      simp only [mapOps, mapOp, hk k l v hv, MapOp.sees]

theorem readPairs_mapM {α β} (f : Value → Except Err α) (g : Value → Except Err β) :
    ∀ l, readPairs f g l = l.mapM (readPair f g)
  | [] => rfl
  | x :: l => by
    rw [List.mapM_cons, ← readPairs_mapM f g l, readPairs, readPair]
    cases f x.1 with
    | error e => rfl
    | ok a => cases g x.2 with
      | error e => rfl
      | ok b => rfl

theorem decodeMapWith_restLast [Host] (o : Options) (env : Env) (k t : Ty) (ops : List MapOp)
    (h : restLast ops = true) (x : Value) (v : List (k.Val × t.Val))
    (hx : fromValue o env (.map k t) x = .ok v) :
    decodeMapWith o env k t ops x = .ok (MapOp.sees ops v) := by
  unfold fromValue at hx
  simp only [decV] at hx
  unfold decodeMapWith
  cases hr : readMap x with
  | error e => rw [hr] at hx; cases hx
  | ok l =>
    rw [hr] at hx
    refine mapOps_restLast ops l v h ?_
    exact (readPairs_mapM (decV o env k true) (decV o env t false) l).symm.trans hx

end Value

end Musli
