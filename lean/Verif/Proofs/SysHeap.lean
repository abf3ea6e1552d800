import Verif.Spec.SysVec
/-!
# The memory of one vector

What the operations of `SystemAlloc` do to the block of one vector, and that they leave
other blocks alone.
-/
namespace Musli.Sys

/-- Blocks beyond `next` do not exist. -/
def Fresh (H : Heap) : Prop := ∀ q, H.next ≤ q → H.blocks q = none

/-- From `H` to `H'` only the block of one vector has changed, from `old` to `new`. -/
structure Change (H H' : Heap) (old new : Option Nat) : Prop where
  frame : ∀ q, old ≠ some q → new ≠ some q → H'.blocks q = H.blocks q
  gone : ∀ q, old = some q → new ≠ some q → H'.blocks q = none
  place : ∀ q, new = some q → old = some q ∨ (H.next ≤ q ∧ q < H'.next)
  next : H.next ≤ H'.next
  fresh : Fresh H'

theorem Change.refl {H : Heap} (hf : Fresh H) (p : Option Nat) : Change H H p p :=
  ⟨fun _ _ _ => rfl, fun _ h1 h2 => absurd h1 h2, fun _ h => .inl h, Nat.le_refl _, hf⟩

theorem Change.trans {H H1 H2 : Heap} {a b c : Option Nat} (hf : Fresh H)
    (h1 : Change H H1 a b) (h2 : Change H1 H2 b c) : Change H H2 a c := by
  refine ⟨?_, ?_, ?_, Nat.le_trans h1.next h2.next, h2.fresh⟩
  · intro q ha hc
    by_cases hb : b = some q
    · rw [h2.gone q hb hc]
      rcases h1.place q hb with h | h
      · exact absurd h ha
      · exact (hf q h.1).symm
    · rw [h2.frame q hb hc, h1.frame q ha hb]
  · intro q ha hc
    by_cases hb : b = some q
    · exact h2.gone q hb hc
    · rw [h2.frame q hb hc, h1.gone q ha hb]
  · intro q hc
    rcases h2.place q hc with h | h
    · rcases h1.place q h with h | h
      · exact .inl h
      · exact .inr ⟨h.1, Nat.lt_of_lt_of_le h.2 h2.next⟩
    · exact .inr ⟨Nat.le_trans h1.next h.1, h.2⟩

/-- The memory of a vector with the given elements. -/
structure Owns (E : Elem) (H : Heap) (a : SystemAlloc) (l : List Tok) : Prop where
  room : l.length ≤ a.size
  empty : a.size = 0 → a.data = none
  block : 0 < a.size → ∃ p b, a.data = some p ∧ H.blocks p = some b ∧ b.bytes = a.size * E.size ∧
    b.align = E.align ∧ b.slots.length = a.size ∧ b.slots.take l.length = l.map some ∧
    a.size * E.size ≤ maxBytes E.align

theorem maxBytes_lt (a : Nat) : maxBytes a < 2 ^ 63 := by unfold maxBytes; omega

theorem Owns.size_lt {E : Elem} {H : Heap} {a : SystemAlloc} {l : List Tok} (hE : 0 < E.size)
    (h : Owns E H a l) : a.size < 2 ^ 63 := by
  by_cases h0 : 0 < a.size
  · obtain ⟨p, b, -, -, -, -, -, -, hm⟩ := h.block h0
    have := maxBytes_lt E.align
    have h1 : a.size * 1 ≤ a.size * E.size := Nat.mul_le_mul_left _ hE
    omega
  · omega

theorem Owns.mod {E : Elem} {H : Heap} {a : SystemAlloc} {l : List Tok}
    (h : Owns E H a l) (h0 : 0 < a.size) : a.size * E.size % 2 ^ 64 = a.size * E.size := by
  obtain ⟨p, b, -, -, -, -, -, -, hm⟩ := h.block h0
  have := maxBytes_lt E.align
  exact Nat.mod_eq_of_lt (by omega)

theorem upd_same {α : Type} (f : Nat → Option α) (k : Nat) (v : Option α) : upd f k v k = v := by
  simp [upd]

theorem upd_other {α : Type} (f : Nat → Option α) {k i : Nat} (h : i ≠ k) (v : Option α) :
    upd f k v i = f i := by
  simp [upd, h]

/-- Fresh blocks stay fresh if a new one is made. -/
theorem fresh_upd {H : Heap} (hf : Fresh H) (b : Block) (f : Nat → Option Block)
    (h : ∀ q, H.next ≤ q → f q = none) :
    Fresh ⟨H.next + 1, upd f H.next (some b)⟩ := by
  intro q hq
  have hq : H.next + 1 ≤ q := hq
  show upd _ _ _ _ = _
  rw [upd_other _ (by omega)]
  exact h q (by omega)

theorem alloc_spec {E : Elem} {H : Heap} (hf : Fresh H) (fail : Bool) {cap : Nat} (h0 : 0 < cap * E.size)
    (hm : cap * E.size ≤ maxBytes E.align) :
    (H.alloc fail (cap * E.size) E.align cap = .ok (none, H) ∧ fail = true) ∨
    ∃ H', H.alloc fail (cap * E.size) E.align cap = .ok (some H.next, H') ∧
      Owns E H' ⟨some H.next, cap⟩ [] ∧ Change H H' none (some H.next) := by
  have hc : 0 < cap := Nat.pos_of_mul_pos_right h0
  cases fail with
  | true =>
    left
    exact ⟨by rw [Heap.alloc, if_neg (by omega), if_pos rfl], rfl⟩
  | false =>
    right
    refine ⟨_, by rw [Heap.alloc, if_neg (by omega), if_neg (by decide)], ?_, ?_⟩
    · refine ⟨Nat.zero_le _, fun h => by exact absurd h (by show cap ≠ 0; omega), fun _ => ?_⟩
      exact ⟨_, _, rfl, upd_same _ _ _, rfl, rfl, by simp, rfl, hm⟩
    · refine ⟨?_, fun q h => (nomatch h), ?_, Nat.le_succ _, fresh_upd hf _ _ hf⟩
      · intro q _ h
        exact upd_other _ (fun e => h (by rw [e])) _
      · rintro q ⟨⟩
        exact .inr ⟨Nat.le_refl _, Nat.lt_succ_self _⟩

theorem realloc_spec {E : Elem} {H : Heap} (hf : Fresh H) (fail : Bool) {cap p n : Nat} {l : List Tok}
    (ho : Owns E H ⟨some p, n⟩ l) (hn : 0 < n) (hc : n ≤ cap) (h0 : 0 < cap * E.size)
    (hm : cap * E.size ≤ maxBytes E.align) :
    (H.realloc fail p (n * E.size % 2 ^ 64) E.align (cap * E.size) cap = .ok (none, H)) ∨
    ∃ H', H.realloc fail p (n * E.size % 2 ^ 64) E.align (cap * E.size) cap = .ok (some H.next, H') ∧
      Owns E H' ⟨some H.next, cap⟩ l ∧ Change H H' (some p) (some H.next) := by
  have hmod := ho.mod hn
  have hroom : l.length ≤ n := ho.room
  obtain ⟨p', b, hp, hb, h1, h2, h3, h4, h5⟩ := ho.block hn
  cases hp
  have hlt : p < H.next := by
    rcases Nat.lt_or_ge p H.next with h | h
    · exact h
    · have hx := hf p h
      rw [hx] at hb
      cases hb
  have hmod : n * E.size % 2 ^ 64 = n * E.size := hmod
  have h1 : b.bytes = n * E.size := h1
  have h3 : b.slots.length = n := h3
  rw [hmod]
  simp only [Heap.realloc, hb]
  rw [if_neg (by omega)]
  cases fail with
  | true => left; rw [if_pos rfl]
  | false =>
    right
    refine ⟨_, by rw [if_neg (by decide)], ?_, ?_⟩
    · refine ⟨Nat.le_trans hroom hc, fun h => absurd h (by show cap ≠ 0; omega), fun _ => ?_⟩
      refine ⟨_, _, rfl, upd_same _ _ _, rfl, rfl, ?_, ?_, hm⟩
      · simp [h3]; omega
      · show List.take l.length (List.take cap b.slots ++ _) = _
        rw [List.take_of_length_le (by omega : b.slots.length ≤ cap), List.take_append_of_le_length (by omega)]
        exact h4
    · refine ⟨?_, ?_, ?_, Nat.le_succ _, ?_⟩
      · intro q h h'
        show upd (upd _ _ _) _ _ _ = _
        rw [upd_other _ (fun e => h' (by rw [e])), upd_other _ (fun e => h (by rw [e]))]
      · rintro q ⟨⟩ h'
        show upd (upd _ _ _) _ _ _ = _
        rw [upd_other _ (fun e => h' (by rw [e])), upd_same]
      · rintro q ⟨⟩
        exact .inr ⟨Nat.le_refl _, Nat.lt_succ_self _⟩
      · refine fresh_upd hf _ _ fun q hq => ?_
        rw [upd_other _ (by omega)]
        exact hf q hq

theorem reserve_spec {E : Elem} {H : Heap} (hE : 0 < E.size) (hf : Fresh H) {a : SystemAlloc} {l : List Tok}
    (ho : Owns E H a l) (fail : Bool) (additional : Nat) :
    ∃ done a' H', a.reserve E H fail l.length additional = .ok (done, a', H') ∧ Owns E H' a' l ∧
      Change H H' a.data a'.data ∧ (done = true → l.length + additional ≤ a'.size) := by
  unfold SystemAlloc.reserve
  have hlt := ho.size_lt hE
  have hroom := ho.room
  split
  · exact ⟨_, _, _, rfl, ho, Change.refl hf _, by simp⟩
  split
  · exact ⟨_, _, _, rfl, ho, Change.refl hf _, fun _ => by assumption⟩
  rw [if_neg (by omega)]
  dsimp only
  split
  · exact ⟨_, _, _, rfl, ho, Change.refl hf _, by simp⟩
  rename_i h1 h2 h3
  obtain ⟨cap, hcap⟩ : ∃ c, c = max (SystemAlloc.minNonZeroCap E) (max (a.size * 2) (l.length + additional)) :=
    ⟨_, rfl⟩
  rw [← hcap] at h3 ⊢
  have hc : l.length + additional ≤ cap := by omega
  have hs : a.size ≤ cap := by omega
  have h0 : 0 < cap * E.size := Nat.mul_pos (by omega) hE
  unfold SystemAlloc.realloc
  by_cases ha : a.size > 0
  · rw [if_pos ha]
    have hob := ho.block ha
    obtain ⟨p, b, hp, -⟩ := hob
    obtain ⟨d, n⟩ := a
    cases hp
    rcases realloc_spec hf fail ho ha hs h0 (by omega) with h | ⟨H', h, h4, h5⟩
    · refine ⟨false, ⟨some p, n⟩, H, ?_, ho, Change.refl hf _, by simp⟩
      simp only [bind, Except.bind, h, Option.map_none]
    · refine ⟨true, ⟨some H.next, cap⟩, H', ?_, h4, h5, fun _ => hc⟩
      simp only [bind, Except.bind, h, Option.map_some]
  · rw [if_neg ha]
    have hl : l = [] := List.length_eq_zero_iff.mp (by omega)
    subst hl
    rw [ho.empty (by omega)]
    rcases alloc_spec hf fail h0 (by omega) with ⟨h, -⟩ | ⟨H', h, h4, h5⟩
    · refine ⟨false, a, H, ?_, ho, ?_, by simp⟩
      · simp only [bind, Except.bind, h, Option.map_none]
      · rw [ho.empty (by omega)]
        exact Change.refl hf _
    · refine ⟨true, ⟨some H.next, cap⟩, H', ?_, h4, h5, fun _ => hc⟩
      simp only [bind, Except.bind, h, Option.map_some]

theorem write_spec {E : Elem} {H : Heap} (hf : Fresh H) {a : SystemAlloc} {l : List Tok}
    (ho : Owns E H a l) (vs : List Tok) (hr : l.length + vs.length ≤ a.size) :
    ∃ H', H.write a.data l.length vs = .ok H' ∧ Owns E H' a (l ++ vs) ∧ Change H H' a.data a.data := by
  unfold Heap.write
  split
  · rename_i h
    subst h
    exact ⟨H, rfl, by rwa [List.append_nil], Change.refl hf _⟩
  · rename_i h
    have h0 : 0 < vs.length := List.length_pos_iff.mpr h
    obtain ⟨p, b, hp, hb, h1, h2, h3, h4, h5⟩ := ho.block (by omega)
    rw [hp]
    dsimp only
    rw [hb]
    dsimp only
    rw [if_pos (by omega)]
    refine ⟨_, rfl, ⟨by rw [List.length_append]; exact hr, fun h => by omega, fun _ => ?_⟩, ?_⟩
    · refine ⟨p, _, hp, upd_same _ _ _, h1, h2, ?_, ?_, h5⟩
      · simp; omega
      · show List.take _ (_ ++ _ ++ _) = _
        rw [h4, ← List.map_append]
        conv => lhs; rw [← List.length_map (f := some)]
        exact List.take_left' rfl
    · refine ⟨?_, fun q h1 h2 => absurd h1 h2, fun q h => .inl h, Nat.le_refl _, ?_⟩
      · intro q h _
        exact upd_other _ (fun e => h (by rw [e])) _
      · intro q hq
        have hq : H.next ≤ q := hq
        show upd _ _ _ _ = _
        rw [upd_other, hf q hq]
        intro e
        subst e
        rw [hf q hq] at hb
        cases hb

theorem mapM_id_map_some (l : List Tok) : (l.map some).mapM id = some l := by
  induction l with
  | nil => rfl
  | cons a l ih => simp [ih]

theorem read_spec {E : Elem} {H : Heap} {a : SystemAlloc} {l : List Tok}
    (ho : Owns E H a l) (i n : Nat) (hr : i + n ≤ l.length) :
    H.read a.data i n = .ok ((l.drop i).take n) := by
  unfold Heap.read
  split
  · rename_i h
    subst h
    rfl
  · obtain ⟨p, b, hp, hb, h1, h2, h3, h4, h5⟩ := ho.block (by have := ho.room; omega)
    have := ho.room
    rw [hp]
    dsimp only
    rw [hb]
    dsimp only
    rw [if_pos (by omega)]
    have : (b.slots.drop i).take n = ((l.drop i).take n).map some := by
      rw [List.map_take, List.map_drop, ← h4, List.drop_take, List.take_take, Nat.min_eq_left (by omega)]
    rw [this, mapM_id_map_some]

theorem free_spec {E : Elem} {H : Heap} (hE : 0 < E.size) (hf : Fresh H) {a : SystemAlloc} {l : List Tok}
    (ho : Owns E H a l) : ∃ H', a.free E H = .ok H' ∧ Change H H' a.data none := by
  unfold SystemAlloc.free
  split
  · refine ⟨H, rfl, ?_⟩
    rw [ho.empty (by omega)]
    exact Change.refl hf _
  · obtain ⟨p, b, hp, hb, h1, h2, h3, h4, h5⟩ := ho.block (by omega)
    rw [hp]
    dsimp only
    rw [ho.mod (by omega)]
    simp only [Heap.dealloc, hb]
    rw [if_neg (by simp [h1, h2])]
    refine ⟨_, rfl, ?_, ?_, fun q h => (nomatch h), Nat.le_refl _, ?_⟩
    · intro q h _
      exact upd_other _ (fun e => h (by rw [e])) _
    · rintro q ⟨⟩ _
      exact upd_same _ _ _
    · intro q hq
      have hq : H.next ≤ q := hq
      show upd _ _ _ _ = _
      unfold upd
      split
      · rfl
      · exact hf q hq

/-- Other vectors are not affected. -/
theorem Owns.frame {E : Elem} {H H' : Heap} {a : SystemAlloc} {l : List Tok} {old new : Option Nat}
    (ho : Owns E H a l) (hc : Change H H' old new) (hf : Fresh H)
    (h : ∀ p, a.data = some p → old ≠ some p) : Owns E H' a l := by
  refine ⟨ho.room, ho.empty, fun h0 => ?_⟩
  obtain ⟨p, b, hp, hb, h1⟩ := ho.block h0
  refine ⟨p, b, hp, ?_, h1⟩
  rw [hc.frame p (h p hp) ?_, hb]
  intro e
  rcases hc.place p e with h2 | ⟨h2, -⟩
  · exact h p hp h2
  · rw [hf p h2] at hb
    cases hb

end Musli.Sys
