import Verif.Proofs.Alloc.Step
/-!
# When the code and the corrected allocator do the same
-/
namespace Musli.Slice
open Musli Spec

/-- At most one header is free. -/
def One (i : Internal) : Prop := ∀ id, i.freeHead = some id → (i.hdr id).next = none

theorem allocHeader_eq {i : Internal} {stop : Nat} (h1 : One i) (h2 : stop + headerSize ≤ i.freeEnd) :
    i.allocHeader false stop = i.allocHeader true stop := by
  unfold Internal.allocHeader
  cases hf : i.freeHead with
  | some id =>
    have := h1 id hf
    simp only [this]
    have e : i.modify id (fun x => { x with
        start := i.freeStart, stop := stop, next := if false = true then none else x.next }) =
      i.modify id (fun x => { x with
        start := i.freeStart, stop := stop, next := if true = true then none else x.next }) := by
      unfold Internal.modify
      congr 1
      funext k
      by_cases hk : k = id
      · subst hk; simp [this]
      · simp [hk]
    rw [e]
    simp
  | none =>
    simp only [Bool.false_and, Bool.or_false, Bool.true_and]
    have e : (decide (i.freeEnd - headerSize < i.freeStart) || decide (i.freeEnd - headerSize < stop)) =
        decide (i.freeEnd - headerSize < i.freeStart) := by
      have : decide (i.freeEnd - headerSize < stop) = false := by
        simp; omega
      rw [this, Bool.or_false]
    rw [e]

/-- What is known after taking a header. -/
theorem allocHeader_room {i : Internal} {stop : Nat} (h1 : One i) :
    One (i.allocHeader true stop).2 ∧ i.freeEnd ≤ (i.allocHeader true stop).2.freeEnd + headerSize := by
  unfold Internal.allocHeader
  cases hf : i.freeHead with
  | some id =>
    simp only [if_true]
    refine ⟨fun id' h => ?_, Nat.le_add_right _ _⟩
    simp only [h1 id hf] at h
    cases h
  | none =>
    simp only
    by_cases c1 : i.freeEnd < headerSize
    · simp only [if_pos c1]; exact ⟨h1, Nat.le_add_right _ _⟩
    simp only [if_neg c1]
    by_cases c2 : (decide (i.freeEnd - headerSize < i.freeStart) ||
        (true && decide (i.freeEnd - headerSize < stop))) = true
    · simp only [if_pos c2]; exact ⟨h1, Nat.le_add_right _ _⟩
    simp only [if_neg c2]
    by_cases c3 : (i.fullEnd - (i.freeEnd - headerSize)) / headerSize = 0 ∨
        2 ^ 16 ≤ (i.fullEnd - (i.freeEnd - headerSize)) / headerSize
    · simp only [if_pos c3]; exact ⟨h1, Nat.le_add_right _ _⟩
    simp only [if_neg c3]
    refine ⟨fun id' h => ?_, by omega⟩
    have h : i.freeHead = some id' := h
    rw [hf] at h; cases h

theorem alignOffset_lt {p a : Nat} (ha : 0 < a) : alignOffset p a < a := Nat.mod_lt _ ha

theorem pushBack_one {i : Internal} {id : Nat} (h : One i) (hid : i.freeHead = none) :
    One (i.pushBack id) := by
  intro k hk
  rw [(pushBack_rest i id).1, hid] at hk
  cases hk

theorem allocHeader_head {i : Internal} {stop id : Nat} (h1 : One i)
    (h : (i.allocHeader true stop).1 = some id) : (i.allocHeader true stop).2.freeHead = none := by
  unfold Internal.allocHeader at h ⊢
  cases hf : i.freeHead with
  | some id =>
    simp only [if_true]
    exact h1 id hf
  | none =>
    simp only
    by_cases c1 : i.freeEnd < headerSize
    · simp only [if_pos c1]; exact hf
    simp only [if_neg c1]
    by_cases c2 : (decide (i.freeEnd - headerSize < i.freeStart) ||
        (true && decide (i.freeEnd - headerSize < stop))) = true
    · simp only [if_pos c2]; exact hf
    simp only [if_neg c2]
    by_cases c3 : (i.fullEnd - (i.freeEnd - headerSize)) / headerSize = 0 ∨
        2 ^ 16 ≤ (i.fullEnd - (i.freeEnd - headerSize)) / headerSize
    · simp only [if_pos c3]; exact hf
    simp only [if_neg c3]
    exact hf

theorem align_eq {i : Internal} {a n : Nat} (h1 : One i) (ha : 0 < a)
    (h2 : i.freeStart + a + n + 2 * headerSize ≤ i.freeEnd) :
    i.align false a = i.align true a ∧ One (i.align true a).2 ∧
      (i.align true a).2.freeStart + n + headerSize ≤ (i.align true a).2.freeEnd := by
  unfold Internal.align
  have hl := alignOffset_lt (p := i.freeStart) ha
  by_cases c1 : alignOffset i.freeStart a = 0
  · simp only [if_pos c1]; exact ⟨by trivial, h1, by omega⟩
  simp only [if_neg c1]
  by_cases c2 : i.remaining < alignOffset i.freeStart a
  · simp only [if_pos c2]; exact ⟨by trivial, h1, by omega⟩
  simp only [if_neg c2]
  cases ht : i.tail with
  | some t =>
    simp only
    refine ⟨by trivial, fun id hid => ?_, ?_⟩
    · have := h1 id hid
      simp only [modify_hdr]
      split <;> exact this
    · show i.freeStart + alignOffset i.freeStart a + n + headerSize ≤ i.freeEnd
      omega
  | none =>
    simp only
    rw [allocHeader_eq h1 (by omega)]
    refine ⟨by trivial, ?_⟩
    obtain ⟨q1, q2⟩ := allocHeader_room (stop := i.freeStart + alignOffset i.freeStart a) h1
    have q3 := @allocHeader_head i (i.freeStart + alignOffset i.freeStart a)
    have q4 : (i.allocHeader true (i.freeStart + alignOffset i.freeStart a)).1 = none →
        (i.allocHeader true (i.freeStart + alignOffset i.freeStart a)).2 = i := by
      unfold Internal.allocHeader
      cases hf : i.freeHead with
      | some id => intro h; cases h
      | none =>
        simp only
        split
        · intro; rfl
        · split
          · intro; rfl
          · split
            · intro; rfl
            · intro h; cases h
    cases hx : i.allocHeader true (i.freeStart + alignOffset i.freeStart a) with
    | mk o j =>
    rw [hx] at q1 q2 q3 q4
    simp only at q1 q2 q3 q4
    cases o with
    | none =>
      simp only
      cases q4 rfl
      exact ⟨h1, by omega⟩
    | some id =>
      simp only
      refine ⟨pushBack_one q1 (q3 h1 rfl), ?_⟩
      rw [(pushBack_rest j id).2.2.2.2.2.1]
      omega

theorem allocNew_eq {i : Internal} {a n : Nat} (h1 : One i) (ha : 0 < a)
    (h2 : i.freeStart + a + n + 2 * headerSize ≤ i.freeEnd) : i.allocNew false n a = i.allocNew true n a := by
  obtain ⟨q1, q2, q3⟩ := align_eq h1 ha h2
  unfold Internal.allocNew
  rw [q1]
  cases hx : i.align true a with
  | mk ok j =>
  rw [hx] at q2 q3
  cases ok with
  | false => rfl
  | true =>
    simp only at q3 ⊢
    rw [allocHeader_eq q2 (by omega)]

theorem alloc_eq {i : Internal} {a n : Nat} (h1 : One i) (ha : 0 < a)
    (h2 : i.freeStart + a + n + 2 * headerSize ≤ i.freeEnd) : i.alloc false n a = i.alloc true n a := by
  unfold Internal.alloc
  rw [allocNew_eq h1 ha h2]

theorem realloc_eq {i : Internal} {id len a n : Nat} (h1 : One i) (ha : 0 < a)
    (h2 : i.freeStart + a + n + 2 * headerSize ≤ i.freeEnd) :
    i.realloc false id len n a = i.realloc true id len n a := by
  unfold Internal.realloc Internal.move Internal.reserve
  rw [alloc_eq h1 ha h2, (align_eq h1 ha h2).1]

theorem resize_eq {s : State} {h n : Nat} {b : Buf} (h1 : One s.i) (ha : 0 < b.align)
    (h2 : Room s b.align ((b.len + n) * b.size)) : s.resize false h b n = s.resize true h b n := by
  unfold Room at h2
  rw [Nat.add_mul] at h2
  unfold State.resize
  cases hr : b.region with
  | none => rfl
  | some id => simp only; rw [realloc_eq h1 ha h2]

theorem extend_eq {s : State} {h n : Nat} {b : Buf} {bytes : (Nat → Byte) → Bytes} (h1 : One s.i) (ha : 0 < b.align)
    (h2 : Room s b.align ((b.len + n) * b.size)) :
    s.extendFromSlice false h b n bytes = s.extendFromSlice true h b n bytes := by
  unfold State.extendFromSlice
  rw [resize_eq h1 ha h2]

theorem merge_eq {s : State} {h o : Nat} {b d : Buf}
    (h1 : ∀ id next, b.region = some id → (s.i.hdr id).next = some next → (s.i.hdr id).stop = s.ptr d →
      d.region = some next) : s.tryMerge false h b o d = s.tryMerge true h b o d := by
  unfold State.tryMerge
  obtain hr | ⟨id, hr⟩ : b.region = none ∨ ∃ id, b.region = some id := by cases b.region <;> simp
  · rw [hr]
  · rw [hr]
    simp only
    by_cases c : (s.i.hdr id).stop ≠ s.ptr d
    · rw [if_pos c, if_pos c]
    · rw [if_neg c, if_neg c]
      obtain hn | ⟨nx, hn⟩ : (s.i.hdr id).next = none ∨ ∃ nx, (s.i.hdr id).next = some nx := by
        cases (s.i.hdr id).next <;> simp
      · rw [hn]
      · rw [hn]
        have := h1 id nx hr hn (by simpa using c)
        simp [this]

theorem step_eq {s : State} {l fl : List Nat} {c : Buffers} (G : Good s l fl c) {op : Op} (hop : op.ok s)
    (hb : Benign s op) : s.step false op = s.step true op := by
  obtain ⟨h1, h2⟩ := hb
  have h1 : One s.i := h1
  cases op with
  | new h size align =>
    obtain ⟨_, _, ⟨e, rfl⟩, _⟩ := hop
    simp only [State.step]
    rw [alloc_eq h1 (Nat.two_pow_pos e) h2]
  | box h align bytes =>
    obtain ⟨_, _, ⟨e, rfl⟩, _⟩ := hop
    have : s.i.alloc false bytes.length (2 ^ e) = s.i.alloc true bytes.length (2 ^ e) :=
      alloc_eq h1 (Nat.two_pow_pos e) h2
    simp only [State.step, this]
  | extend h n bytes =>
    obtain ⟨b, hb, _⟩ := hop
    simp only [State.step, hb]
    exact extend_eq h1 (G.ok h b hb).align (h2 b hb)
  | reserve h n =>
    obtain ⟨b, hb⟩ := hop
    simp only [State.step, hb]
    exact resize_eq h1 (G.ok h b hb).align (h2 b hb)
  | truncate h n => rfl
  | write h off bytes => rfl
  | append h o =>
    obtain ⟨_, b, d, hb, hd, _⟩ := hop
    obtain ⟨q1, q2⟩ := h2 b d hb hd
    simp only [State.step, hb, hd]
    rw [merge_eq q2, extend_eq h1 (G.ok h b hb).align q1]
  | drop h => rfl

theorem benign_runs {s : State} {c : Buffers} (h : BenignRuns s c) : Runs true s c := by
  induction h with
  | new base size mem => exact .new base size mem
  | step op _ hop hb ih =>
    obtain ⟨l, fl, G⟩ := runs_good ih
    rw [step_eq G hop hb]
    exact .step op ih hop

end Musli.Slice
