import Verif.Spec.Collections
import Verif.Proofs.RoundTrip
/-!
# Collections of the standard library
-/
set_option linter.unusedSectionVars false
namespace Musli

/-! ## Maps and sets as values -/

namespace MapImpl
variable {K V : Type} [DecidableEq K] (I : MapImpl K V)

theorem get_mem {I : MapImpl K V} (h : I.Lawful) (m : I.Map) (k : K) (v : V) :
    I.get m k = some v ↔ (k, v) ∈ I.iter m := by
  have hn := h.nodup m
  unfold get
  generalize I.iter m = l at hn
  induction l with
  | nil => simp
  | cons e l ih =>
    rw [List.map_cons, List.nodup_cons] at hn
    rw [List.find?_cons]
    by_cases he : e.1 = k
    · simp only [he, decide_true, Option.map_some, Option.some.injEq, List.mem_cons]
      constructor
      · intro hv; left; subst he; subst hv; rfl
      · rintro (rfl | hm)
        · rfl
        · exact absurd (List.mem_map_of_mem (f := Prod.fst) hm) (he ▸ hn.1)
    · simp only [he, decide_false, List.mem_cons]
      refine (ih hn.2).trans ?_
      constructor
      · exact .inr
      · rintro (rfl | hm)
        · exact absurd rfl he
        · exact hm

/-- Equal maps have the same entries, perhaps in another order. -/
theorem get_of_mem_iff {I : MapImpl K V} (h : I.Lawful) (m : I.Map) (f : K → Option V)
    (hm : ∀ k v, (k, v) ∈ I.iter m ↔ f k = some v) (k : K) : I.get m k = f k := by
  cases hf : f k with
  | some v => rw [get_mem h, hm, hf]
  | none =>
    cases hg : I.get m k with
    | none => rfl
    | some v => rw [get_mem h, hm, hf] at hg; cases hg

theorem get_insert {I : MapImpl K V} (h : I.Lawful) (m : I.Map) (k : K) (v : V) (k' : K) :
    I.get (I.insert m k v) k' = if k = k' then some v else I.get m k' := by
  refine get_of_mem_iff h _ (fun k' => if k = k' then some v else I.get m k') ?_ k'
  intro k'' v''
  rw [(h.insert m k v).mem_iff, List.mem_cons, List.mem_filter]
  by_cases hk : k = k''
  · subst hk
    simp [eq_comm]
  · simp only [hk, if_false, get_mem h]
    constructor
    · rintro (he | he)
      · cases he; exact absurd rfl hk
      · exact he.1
    · intro he; exact .inr ⟨he, by simpa using fun hc => hk hc.symm⟩

theorem lastValue_cons (e : K × V) (l : List (K × V)) (k : K) :
    lastValue (e :: l) k = (lastValue l k).or (if e.1 = k then some e.2 else none) := by
  unfold lastValue
  by_cases he : e.1 = k
  · rw [List.filter_cons_of_pos (by simpa using he), if_pos he]
    cases hl : (l.filter (fun e => e.1 = k)) with
    | nil => rfl
    | cons x y =>
      rw [List.getLast?_cons_cons]
      cases h : (x :: y).getLast? with
      | none => simp at h
      | some z => rfl
  · rw [List.filter_cons_of_neg (by simpa using he), if_neg he]
    cases (Option.map Prod.snd (List.filter (fun e => decide (e.1 = k)) l).getLast?) <;> rfl

theorem get_foldl {I : MapImpl K V} (h : I.Lawful) (l : List (K × V)) (m : I.Map) (k : K) :
    I.get (l.foldl (fun out e => I.insert out e.1 e.2) m) k = (lastValue l k).or (I.get m k) := by
  induction l generalizing m with
  | nil => rfl
  | cons e l ih =>
    rw [List.foldl_cons, ih, get_insert h, lastValue_cons, Option.or_assoc]
    congr 1
    split <;> rfl

theorem get_new {I : MapImpl K V} (h : I.Lawful) (k : K) : I.get I.new k = none := by
  unfold get; rw [h.new]; rfl

theorem get_foldl_new {I : MapImpl K V} (h : I.Lawful) (l : List (K × V)) (k : K) :
    I.get (l.foldl (fun out e => I.insert out e.1 e.2) I.new) k = lastValue l k := by
  rw [get_foldl h, get_new h, Option.or_none]

/-- Each key comes once: the last value is the value. -/
theorem lastValue_iter {I : MapImpl K V} (h : I.Lawful) (m : I.Map) (k : K) :
    lastValue (I.iter m) k = I.get m k := by
  have hn := h.nodup m
  unfold get
  generalize I.iter m = l at hn
  induction l with
  | nil => rfl
  | cons e l ih =>
    rw [List.map_cons, List.nodup_cons] at hn
    rw [lastValue_cons, List.find?_cons, ih hn.2]
    by_cases he : e.1 = k
    · simp only [he, if_true, decide_true]
      cases hf : l.find? (fun e => decide (e.1 = k)) with
      | none => rfl
      | some x =>
        have h1 := List.find?_some hf
        have h2 := List.mem_of_find?_eq_some hf
        have : x.1 = k := by simpa using h1
        exact absurd (this ▸ List.mem_map_of_mem (f := Prod.fst) h2) (he ▸ hn.1)
    · simp only [he, if_false, decide_false, Option.or_none]

end MapImpl

namespace SetImpl
variable {K : Type}

theorem mem_foldl [DecidableEq K] {I : SetImpl K} (h : I.Lawful) (l : List K) (m : I.Set) (k : K) :
    k ∈ I.iter (l.foldl I.insert m) ↔ k ∈ l ∨ k ∈ I.iter m := by
  induction l generalizing m with
  | nil => simp
  | cons e l ih =>
    rw [List.foldl_cons, ih, (h.insert m e).mem_iff, List.mem_cons, List.mem_cons, List.mem_filter]
    by_cases he : k = e
    · simp [he]
    · simp [he]

theorem perm_foldl {I : SetImpl K} (h : I.LawfulHeap) (l : List K) (m : I.Set) :
    (I.iter (l.foldl I.insert m)).Perm (l ++ I.iter m) := by
  induction l generalizing m with
  | nil => exact .refl _
  | cons e l ih =>
    rw [List.foldl_cons]
    refine (ih _).trans ?_
    refine ((h.insert m e).append_left l).trans ?_
    exact List.perm_middle

end SetImpl

/-! ## Loops -/

theorem loopN_decN {α σ} (d : Dec α) (f : σ → α → σ) (n : Nat) (s0 : σ) (s : Bytes) :
    loopN (fun st => do
      let a ← d
      pure (f st a)) n s0 s =
      (do
        let l ← decN d n
        pure (l.foldl f s0) : Dec σ) s := by
  induction n generalizing s0 s with
  | zero => rfl
  | succ n ih =>
    rw [loopN, decN, Dec.bind_apply, Dec.bind_apply, Dec.bind_apply, Dec.bind_apply]
    cases d s with
    | error e => rfl
    | ok x =>
      show loopN _ n (f s0 x.1) x.2 = _
      rw [ih, Dec.bind_apply]
      dsimp only
      rw [Dec.bind_apply]
      cases decN d n x.2 with
      | error e => rfl
      | ok y => rfl

end Musli

namespace Musli
section
variable [Host] (o : Options) (env : Env)

theorem encode_map_eq (m : Mode) (k t : Ty) (I : MapImpl k.Val t.Val) (x : I.Map) :
    I.encode o env m k t x = encode o env m (.map k t) (I.iter x) := rfl

theorem encode_set_eq (m : Mode) (t : Ty) (I : SetImpl t.Val) (x : I.Set) :
    I.encode o env m t x = encode o env m (.set t) (I.iter x) := rfl

theorem decode_map_eq (m : Mode) (k t : Ty) (I : MapImpl k.Val t.Val) (s : Bytes) :
    I.decode o env m k t s =
      (do
        let l ← decode o env m (.map k t)
        pure (l.foldl (fun out e => I.insert out e.1 e.2) I.new) : Dec I.Map) s := by
  unfold MapImpl.decode Musli.decode
  simp only [decD]
  rw [Dec.bind_apply, Dec.bind_apply, Dec.bind_apply]
  cases (m.fmt o).decMap s with
  | error e => rfl
  | ok x =>
    dsimp only
    have := loopN_decN (do
      let a ← fastD ((m.fmt o).native && k.bwD) k.rawD (decD o env k m)
      let b ← fastD ((m.fmt o).native && t.bwD) t.rawD (decD o env t m)
      pure (a, b)) (fun out e => I.insert out e.1 e.2) x.1 I.new x.2
    have hb : (fun st => (do
        let a ← (do
          let a ← fastD ((m.fmt o).native && k.bwD) k.rawD (decD o env k m)
          let b ← fastD ((m.fmt o).native && t.bwD) t.rawD (decD o env t m)
          pure (a, b))
        pure (I.insert st a.1 a.2) : Dec I.Map)) = fun out => (do
      let key ← viaD o env k m
      let value ← viaD o env t m
      pure (I.insert out key value)) := by
      funext st s
      unfold viaD
      simp only [Dec.bind_apply]
      cases fastD ((m.fmt o).native && k.bwD) k.rawD (decD o env k m) s with
      | error e => rfl
      | ok y =>
        dsimp only
        cases fastD ((m.fmt o).native && t.bwD) t.rawD (decD o env t m) y.2 with
        | error e => rfl
        | ok z => rfl
    rw [hb] at this
    rw [Dec.bind_apply, Dec.bind_apply, this, Dec.bind_apply]
    cases decN (do
      let a ← fastD ((m.fmt o).native && k.bwD) k.rawD (decD o env k m)
      let b ← fastD ((m.fmt o).native && t.bwD) t.rawD (decD o env t m)
      pure (a, b)) x.1 x.2 with
    | error e => rfl
    | ok y =>
      dsimp only
      show ((m.fmt o).endMap 0 >>= _) y.2 = _
      rw [Dec.bind_apply, Dec.bind_apply]
      cases (m.fmt o).endMap 0 y.2 with
      | error e => rfl
      | ok z => rfl

theorem decode_set_eq (m : Mode) (t : Ty) (I : SetImpl t.Val) (s : Bytes) :
    I.decode o env m t s =
      (do
        let l ← decode o env m (.set t)
        pure (l.foldl I.insert I.new) : Dec I.Set) s := by
  unfold SetImpl.decode Musli.decode
  simp only [decD]
  rw [Dec.bind_apply, Dec.bind_apply, Dec.bind_apply]
  cases (m.fmt o).decSeq s with
  | error e => rfl
  | ok x =>
    dsimp only
    have := loopN_decN (fastD ((m.fmt o).native && t.bwD) t.rawD (decD o env t m))
      I.insert x.1 I.new x.2
    rw [Dec.bind_apply, Dec.bind_apply]
    unfold viaD
    rw [this, Dec.bind_apply]
    cases decN (fastD ((m.fmt o).native && t.bwD) t.rawD (decD o env t m)) x.1 x.2 with
    | error e => rfl
    | ok y =>
      dsimp only
      show ((m.fmt o).endSeq 0 >>= _) y.2 = _
      rw [Dec.bind_apply, Dec.bind_apply]
      cases (m.fmt o).endSeq 0 y.2 with
      | error e => rfl
      | ok z => rfl

theorem encodeSlices_eq (m : Mode) (t : Ty) (slices : List (List t.Val)) :
    encodeSlices o env m t slices.flatten.length slices = encode o env m (.vec t) slices.flatten := by
  unfold encodeSlices Musli.encode
  simp only [encD]
  cases hn : ((m.fmt o).native && t.bwE) with
  | true =>
    simp only [if_true]
    congr 1
    induction slices with
    | nil => rfl
    | cons s l ih => rw [eachSlice, ih, List.flatten_cons, List.flatMap_append]; rfl
  | false =>
    simp only [Bool.false_eq_true, if_false]
    congr 1
    induction slices with
    | nil => rfl
    | cons s l ih =>
      rw [eachSlice, ih, List.flatten_cons, all_append]
      unfold pushSlice
      congr 2
      funext v
      unfold viaE fastE
      rw [hn]
      rfl

end
end Musli
