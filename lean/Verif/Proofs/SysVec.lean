import Verif.Proofs.SysHeap
/-!
# All vectors and boxes of a program

The invariant which relates the memory to the account of the program, and that every call
preserves it.
-/
namespace Musli.Sys

set_option linter.unusedSectionVars false

namespace Contents

theorem get_put_same (c : Contents) (h : Nat) (x : Bool × List Tok) : (c.put h x).get h = some x := by
  simp [get, put]

theorem get_del_same (c : Contents) (h : Nat) : (c.del h).get h = none := by
  simp [get, del]

theorem get_del_other (c : Contents) {h k : Nat} (hk : k ≠ h) : (c.del h).get k = c.get k := by
  unfold get del
  rw [List.find?_filter]
  congr 2
  funext a
  by_cases h1 : a.1 = k
  · subst h1
    simp [hk]
  · simp [h1]

theorem get_put_other (c : Contents) {h k : Nat} (hk : k ≠ h) (x : Bool × List Tok) :
    (c.put h x).get k = c.get k := by
  have : (c.put h x).get k = (c.del h).get k := by
    unfold put get
    rw [List.find?_cons_of_neg (by simpa using Ne.symm hk)]
  rw [this, get_del_other c hk]

/-- No number occurs twice. -/
def Keys (c : Contents) : Prop := (c.map (·.1)).Nodup

theorem Keys.del {c : Contents} (hk : c.Keys) (h : Nat) : (c.del h).Keys :=
  (List.filter_sublist.map _).nodup hk

theorem Keys.put {c : Contents} (hk : c.Keys) (h : Nat) (x : Bool × List Tok) : (c.put h x).Keys := by
  refine List.nodup_cons.mpr ⟨?_, hk.del h⟩
  simp [Contents.del]

theorem get_none_of_not_mem {c : Contents} {h : Nat} (hn : h ∉ c.map (·.1)) : c.get h = none := by
  unfold get
  rw [List.find?_eq_none.mpr, Option.map_none]
  intro x hx e
  exact hn (List.mem_map.mpr ⟨x, hx, by simpa using e⟩)

theorem del_of_not_mem {c : Contents} {h : Nat} (hn : h ∉ c.map (·.1)) : c.del h = c := by
  unfold del
  rw [List.filter_eq_self]
  intro x hx
  have : x.1 ≠ h := fun e => hn (List.mem_map.mpr ⟨x, hx, e⟩)
  simpa using this

theorem count_del {c : Contents} (hk : c.Keys) (h t : Nat) :
    (c.del h).live.count t + (c.list h).count t = c.live.count t := by
  induction c with
  | nil => rfl
  | cons a c ih =>
    obtain ⟨k, b, l⟩ := a
    have hk' : k ∉ c.map (·.1) ∧ (c.map (·.1)).Nodup := List.nodup_cons.mp hk
    have ih := ih hk'.2
    by_cases e : k = h
    · subst e
      have h1 : Contents.del ((k, b, l) :: c) k = Contents.del c k := by simp [del]
      have h2 : Contents.list ((k, b, l) :: c) k = l := by simp [list, get]
      rw [h1, h2, del_of_not_mem hk'.1]
      show _ = List.count t (l ++ live c)
      rw [List.count_append]
      omega
    · have h1 : Contents.del ((k, b, l) :: c) h = (k, b, l) :: Contents.del c h := by simp [del, e]
      have h2 : Contents.list ((k, b, l) :: c) h = Contents.list c h := by simp [list, get, e]
      rw [h1, h2]
      show List.count t (l ++ live _) + _ = List.count t (l ++ live c)
      rw [List.count_append, List.count_append]
      omega

theorem count_put {c : Contents} (hk : c.Keys) (h t : Nat) (b : Bool) (l : List Tok) :
    (c.put h (b, l)).live.count t + (c.list h).count t = c.live.count t + l.count t := by
  show List.count t (l ++ live _) + _ = _
  rw [List.count_append, ← count_del hk h t]
  omega

theorem list_of_get {c : Contents} {h : Nat} {b : Bool} {l : List Tok} (hg : c.get h = some (b, l)) :
    c.list h = l := by
  rw [list, hg]

theorem list_of_none {c : Contents} {h : Nat} (hg : c.get h = none) : c.list h = [] := by
  rw [list, hg]

end Contents

/-- The memory of a vector or box with the given elements; values of size zero need none. -/
def Holds (E : Elem) (H : Heap) (a : SystemAlloc) (l : List Tok) : Prop :=
  (E.size = 0 → a.data = none ∧ ∀ v ∈ l, v = 0) ∧ (0 < E.size → Owns E H a l)

theorem Holds.frame {E : Elem} {H H' : Heap} {a : SystemAlloc} {l : List Tok} {old new : Option Nat}
    (ho : Holds E H a l) (hc : Change H H' old new) (hf : Fresh H)
    (h : ∀ p, a.data = some p → old ≠ some p) : Holds E H' a l :=
  ⟨ho.1, fun h0 => (ho.2 h0).frame hc hf h⟩

/-- The memory, the vectors and boxes, and the account of the program fit together. -/
structure Inv (E : Elem) (H : Heap) (O : Nat → Option Obj) (C : Contents) : Prop where
  keys : C.Keys
  fresh : Fresh H
  absent : ∀ h, O h = none ↔ C.get h = none
  holds : ∀ h x b l, O h = some x → C.get h = some (b, l) →
    x.boxed = b ∧ x.len = l.length ∧ Holds E H x.buf l
  distinct : ∀ h k x y p, O h = some x → O k = some y → x.buf.data = some p → y.buf.data = some p → h = k
  owned : ∀ p b, H.blocks p = some b → ∃ h x, O h = some x ∧ x.buf.data = some p

theorem Inv.init (E : Elem) : Inv E ⟨0, fun _ => none⟩ (fun _ => none) [] :=
  ⟨List.nodup_nil, fun _ _ => rfl, fun _ => ⟨fun _ => rfl, fun _ => rfl⟩, fun _ _ _ _ h => (nomatch h),
    fun _ _ _ _ _ h => (nomatch h), fun _ _ h => (nomatch h)⟩

/-- Where the memory of a vector or box is. -/
def place (O : Nat → Option Obj) (h : Nat) : Option Nat := (O h).bind (·.buf.data)

theorem place_some {O : Nat → Option Obj} {h : Nat} {x : Obj} (hx : O h = some x) :
    place O h = x.buf.data := by
  rw [place, hx, Option.bind_some]

theorem place_none {O : Nat → Option Obj} {h : Nat} (hx : O h = none) :
    place O h = none := by
  rw [place, hx, Option.bind_none]

section
variable {E : Elem} {H H' : Heap} {O : Nat → Option Obj} {C : Contents}

theorem Inv.place_ne (hI : Inv E H O C) {h k : Nat} (hk : k ≠ h) {y : Obj} (hy : O k = some y) (p : Nat)
    (hp : y.buf.data = some p) : place O h ≠ some p := by
  intro e
  cases hx : O h with
  | none =>
    rw [place_none hx] at e
    cases e
  | some x =>
    rw [place_some hx] at e
    exact hk (hI.distinct k h y x p hy hx hp e)

/-- Where memory is that is in use. -/
theorem Inv.lt_next (hI : Inv E H O C) (hs : 0 < E.size) {k : Nat} {y : Obj} (hy : O k = some y) (p : Nat)
    (hp : y.buf.data = some p) : p < H.next := by
  cases hg : C.get k with
  | none =>
    rw [(hI.absent k).mpr hg] at hy
    cases hy
  | some bl =>
    obtain ⟨b, l⟩ := bl
    have ho := (hI.holds k y b l hy hg).2.2.2 hs
    by_cases h0 : y.buf.size = 0
    · rw [ho.empty h0] at hp
      cases hp
    · obtain ⟨q, bl, hq, hb, -⟩ := ho.block (by omega)
      rw [hp] at hq
      cases hq
      rcases Nat.lt_or_ge p H.next with h | h
      · exact h
      · rw [hI.fresh p h] at hb
        cases hb

theorem Inv.data_none (hI : Inv E H O C) (hs : E.size = 0) {k : Nat} {y : Obj} (hy : O k = some y) :
    y.buf.data = none := by
  cases hg : C.get k with
  | none =>
    rw [(hI.absent k).mpr hg] at hy
    cases hy
  | some bl => exact ((hI.holds k y bl.1 bl.2 hy hg).2.2.1 hs).1

theorem Inv.put (hI : Inv E H O C) {h : Nat} {x : Obj} {l : List Tok}
    (hc : Change H H' (place O h) x.buf.data) (hl : x.len = l.length) (hx : Holds E H' x.buf l) :
    Inv E H' (upd O h (some x)) (C.put h (x.boxed, l)) := by
  refine ⟨hI.keys.put h _, hc.fresh, ?_, ?_, ?_, ?_⟩
  · intro k
    by_cases hk : k = h
    · subst hk
      rw [upd_same, Contents.get_put_same]
      simp
    · rw [upd_other _ hk, Contents.get_put_other _ hk]
      exact hI.absent k
  · intro k y b m hy hg
    by_cases hk : k = h
    · subst hk
      rw [upd_same] at hy
      rw [Contents.get_put_same] at hg
      cases hy
      cases hg
      exact ⟨rfl, hl, hx⟩
    · rw [upd_other _ hk] at hy
      rw [Contents.get_put_other _ hk] at hg
      have h1 := hI.holds k y b m hy hg
      exact ⟨h1.1, h1.2.1, h1.2.2.frame hc hI.fresh (hI.place_ne hk hy)⟩
  · intro a k y z p hy hz hyp hzp
    have key : ∀ k z, k ≠ h → O k = some z → z.buf.data = some p → x.buf.data = some p → False := by
      intro k z hk hz hzp hxp
      rcases hc.place p hxp with h1 | h1
      · exact hI.place_ne hk hz p hzp h1
      · by_cases hs : E.size = 0
        · rw [hI.data_none hs hz] at hzp
          cases hzp
        · have := hI.lt_next (by omega) hz p hzp
          omega
    by_cases ha : a = h
    · subst ha
      by_cases hk : k = a
      · exact hk.symm
      · rw [upd_same] at hy
        cases hy
        rw [upd_other _ hk] at hz
        exact (key k z hk hz hzp hyp).elim
    · rw [upd_other _ ha] at hy
      by_cases hk : k = h
      · subst hk
        rw [upd_same] at hz
        cases hz
        exact (key a y ha hy hyp hzp).elim
      · rw [upd_other _ hk] at hz
        exact hI.distinct a k y z p hy hz hyp hzp
  · intro p b hp
    by_cases hn : x.buf.data = some p
    · exact ⟨h, x, upd_same _ _ _, hn⟩
    · by_cases ho : place O h = some p
      · rw [hc.gone p ho hn] at hp
        cases hp
      · rw [hc.frame p ho hn] at hp
        obtain ⟨k, y, hy, hyp⟩ := hI.owned p b hp
        refine ⟨k, y, ?_, hyp⟩
        rw [upd_other _ ?_, hy]
        intro e
        subst e
        exact ho (by rw [place_some hy, hyp])

theorem Inv.del (hI : Inv E H O C) {h : Nat} (hc : Change H H' (place O h) none) :
    Inv E H' (upd O h none) (C.del h) := by
  refine ⟨hI.keys.del h, hc.fresh, ?_, ?_, ?_, ?_⟩
  · intro k
    by_cases hk : k = h
    · subst hk
      rw [upd_same, Contents.get_del_same]
      simp
    · rw [upd_other _ hk, Contents.get_del_other _ hk]
      exact hI.absent k
  · intro k y b m hy hg
    by_cases hk : k = h
    · subst hk
      rw [upd_same] at hy
      cases hy
    · rw [upd_other _ hk] at hy
      rw [Contents.get_del_other _ hk] at hg
      have h1 := hI.holds k y b m hy hg
      exact ⟨h1.1, h1.2.1, h1.2.2.frame hc hI.fresh (hI.place_ne hk hy)⟩
  · intro a k y z p hy hz hyp hzp
    by_cases ha : a = h
    · subst ha
      rw [upd_same] at hy
      cases hy
    · rw [upd_other _ ha] at hy
      by_cases hk : k = h
      · subst hk
        rw [upd_same] at hz
        cases hz
      · rw [upd_other _ hk] at hz
        exact hI.distinct a k y z p hy hz hyp hzp
  · intro p b hp
    by_cases ho : place O h = some p
    · rw [hc.gone p ho (fun e => nomatch e)] at hp
      cases hp
    · rw [hc.frame p ho (fun e => nomatch e)] at hp
      obtain ⟨k, y, hy, hyp⟩ := hI.owned p b hp
      refine ⟨k, y, ?_, hyp⟩
      rw [upd_other _ ?_, hy]
      intro e
      subst e
      exact ho (by rw [place_some hy, hyp])

/-- What is known of a vector or box in use. -/
theorem Inv.find (hI : Inv E H O C) {h : Nat} {b : Bool} {l : List Tok} (hg : C.get h = some (b, l)) :
    ∃ x, O h = some x ∧ x.boxed = b ∧ x.len = l.length ∧ Holds E H x.buf l := by
  cases hx : O h with
  | none =>
    rw [(hI.absent h).mp hx] at hg
    cases hg
  | some x => exact ⟨x, rfl, hI.holds h x b l hx hg⟩

theorem values_spec {x : Obj} {l : List Tok} (hl : x.len = l.length) (hx : Holds E H x.buf l) :
    values E H x = .ok l := by
  unfold values
  split
  · rename_i h
    rw [hl]
    congr 1
    exact (List.eq_replicate_iff.mpr ⟨rfl, (hx.1 h).2⟩).symm
  · rw [read_spec (hx.2 (by omega)) 0 x.len (by omega), hl]
    simp

theorem free_holds (hf : Fresh H) {a : SystemAlloc} {l : List Tok} (hx : Holds E H a l) :
    ∃ H', a.free E H = .ok H' ∧ Change H H' a.data none := by
  by_cases hs : E.size = 0
  · refine ⟨H, by rw [SystemAlloc.free, if_pos (.inl hs)], ?_⟩
    rw [(hx.1 hs).1]
    exact Change.refl hf _
  · exact free_spec (by omega) hf (hx.2 (by omega))

theorem resize_holds (hf : Fresh H) {a : SystemAlloc} {l : List Tok} (hx : Holds E H a l) (fail : Bool)
    (n : Nat) :
    ∃ done a' H', a.resize E H fail l.length n = .ok (done, a', H') ∧ Holds E H' a' l ∧
      Change H H' a.data a'.data ∧ (done = true → 0 < E.size → l.length + n ≤ a'.size) := by
  by_cases hs : E.size = 0
  · exact ⟨_, _, _, by rw [SystemAlloc.resize, if_pos hs], hx, Change.refl hf _, fun _ h => by omega⟩
  · obtain ⟨d, a', H', h1, h2, h3, h4⟩ := reserve_spec (by omega) hf (hx.2 (by omega)) fail n
    exact ⟨d, a', H', by rw [SystemAlloc.resize, if_neg hs, h1], ⟨fun h => absurd h hs, fun _ => h2⟩, h3,
      fun h _ => h4 h⟩

theorem dangling_holds (H : Heap) : Holds E H .dangling [] :=
  ⟨fun _ => ⟨rfl, fun _ h => (nomatch h)⟩, fun _ => ⟨Nat.le_refl _, fun _ => rfl, fun h => absurd h (Nat.lt_irrefl 0)⟩⟩

/-- `extend_from_slice`. -/
theorem extend_holds (hf : Fresh H) {x : Obj} {l : List Tok} (hl : x.len = l.length) (hx : Holds E H x.buf l)
    (vs : List Tok) (hv : E.size = 0 → ∀ v ∈ vs, v = 0) (fail : Bool) :
    ∃ done x' H', extendFromSlice E H x vs fail = .ok (done, x', H') ∧ x'.boxed = x.boxed ∧
      Change H H' x.buf.data x'.buf.data ∧
      (done = true → x'.len = (l ++ vs).length ∧ Holds E H' x'.buf (l ++ vs)) ∧
      (done = false → x'.len = l.length ∧ Holds E H' x'.buf l) := by
  unfold extendFromSlice
  by_cases hs : E.size = 0
  · rw [if_pos hs]
    refine ⟨_, _, _, rfl, rfl, Change.refl hf _, fun _ => ⟨by simp [hl], ⟨fun _ => ⟨(hx.1 hs).1, ?_⟩, fun h => by omega⟩⟩,
      fun h => nomatch h⟩
    intro v hm
    rcases List.mem_append.mp hm with h | h
    · exact (hx.1 hs).2 v h
    · exact hv hs v h
  · rw [if_neg hs, hl]
    obtain ⟨d, a', H1, h1, h2, h3, h4⟩ := resize_holds hf hx fail vs.length
    rw [h1]
    simp only [bind, Except.bind]
    cases d with
    | false => exact ⟨_, _, _, rfl, rfl, h3, fun h => (nomatch h), fun _ => ⟨rfl, h2⟩⟩
    | true =>
      rw [if_neg (by decide)]
      obtain ⟨H2, h5, h6, h7⟩ := write_spec h3.fresh (h2.2 (by omega)) vs (h4 rfl (by omega))
      rw [h5]
      refine ⟨_, _, _, rfl, rfl, h3.trans hf h7, fun _ => ⟨by simp, ?_⟩, fun h => (nomatch h)⟩
      exact ⟨fun h => absurd h hs, fun _ => h6⟩

end

/-- Every value which the program has given away is in a vector or box, or has been dropped,
or has been given back: once. -/
def Counted (w : World) (dropped : List Tok) : Prop :=
  ∀ t, w.given.count t = w.objs.live.count t + dropped.count t + w.returned.count t

end Musli.Sys
