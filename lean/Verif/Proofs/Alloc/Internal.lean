import Verif.Proofs.Alloc.Chain
/-!
# The operations of the slice allocator keep its data structure in order
-/
namespace Musli.Slice
open Musli

/-- Every region which is in use, except for `x`, stays where it is, with its contents. -/
structure Keep (s s' : Internal) (l l' : List Nat) (x : Option Nat) : Prop where
  fullStart : s'.fullStart = s.fullStart
  fullEnd : s'.fullEnd = s.fullEnd
  keep : ∀ a ∈ l, s.occupied ≠ some a → x ≠ some a → a ∈ l' ∧ s'.occupied ≠ some a ∧
    (s'.hdr a).start = (s.hdr a).start ∧ (s.hdr a).stop ≤ (s'.hdr a).stop ∧
    ∀ p, (s.hdr a).start ≤ p → p < (s.hdr a).stop → s'.mem p = s.mem p

theorem Keep.refl (s : Internal) (l : List Nat) (x : Option Nat) : Keep s s l l x :=
  ⟨rfl, rfl, fun _ ha ho _ => ⟨ha, ho, rfl, Nat.le_refl _, fun _ _ _ => rfl⟩⟩

theorem Keep.trans {s s' s'' : Internal} {l l' l'' : List Nat} {x : Option Nat}
    (h : Keep s s' l l' x) (h' : Keep s' s'' l' l'' x) : Keep s s'' l l'' x := by
  refine ⟨h'.fullStart.trans h.fullStart, h'.fullEnd.trans h.fullEnd, fun a ha ho hx => ?_⟩
  obtain ⟨a1, a2, a3, a4, a5⟩ := h.keep a ha ho hx
  obtain ⟨b1, b2, b3, b4, b5⟩ := h'.keep a a1 a2 hx
  exact ⟨b1, b2, b3.trans a3, by omega, fun p h1 h2 => (b5 p (by omega) (by omega)).trans (a5 p h1 h2)⟩

theorem Keep.weaken {s s' : Internal} {l l' : List Nat} (h : Keep s s' l l' none) (x : Option Nat) :
    Keep s s' l l' x :=
  ⟨h.fullStart, h.fullEnd, fun a ha ho _ => h.keep a ha ho (by simp)⟩

theorem alignOffset_zero {p a : Nat} (ha : 0 < a) : alignOffset p a = 0 ↔ p % a = 0 := by
  have := Nat.mod_lt p ha
  unfold alignOffset
  by_cases h : p % a = 0
  · rw [h]; simp
  · rw [Nat.mod_eq_of_lt (by omega)]; omega

theorem alignOffset_add {p a : Nat} (ha : 0 < a) : (p + alignOffset p a) % a = 0 := by
  have h1 := Nat.mod_lt p ha
  unfold alignOffset
  by_cases h : p % a = 0
  · rw [h]; simp [h]
  · rw [Nat.mod_eq_of_lt (a := a - p % a) (by omega)]
    have := Nat.div_add_mod p a
    have e : p + (a - p % a) = a * (p / a) + a := by omega
    rw [e]; simp

/-- Taking a header. -/
theorem allocHeader_links {s : Internal} {l fl : List Nat} {stop : Nat} (h : Links s l fl)
    (h1 : s.freeStart ≤ stop) (h2 : stop ≤ s.freeEnd) :
    ((s.allocHeader true stop).1 = none ∧ (s.allocHeader true stop).2 = s) ∨
    ∃ id fl' fe fh, id ∉ l ∧ id ∉ fl' ∧ stop ≤ fe ∧
      (s.allocHeader true stop).1 = some id ∧
      (s.allocHeader true stop).2 = { s.modify id (fun _ => ⟨s.freeStart, stop, none, none⟩) with
        freeEnd := fe, freeHead := fh } ∧
      Links (s.allocHeader true stop).2 l fl' ∧
      (∃ n, s.fullEnd = fe + headerSize * n ∧ 1 ≤ id ∧ id ≤ n) := by
  unfold Internal.allocHeader
  cases hf : s.freeHead with
  | some id =>
    right
    cases fl with
    | nil => have := h.free; rw [hf] at this; cases this
    | cons a fl =>
      obtain ⟨f1, f2, f3⟩ := h.free
      rw [hf] at f1; cases f1
      have hid : id ∉ l := fun hm => h.disj hm (by simp)
      have hif : id ∉ fl := (List.nodup_cons.1 h.nodupF).1
      obtain ⟨n, n1, n2⟩ := h.count
      have e : s.modify id (fun x => { x with
          start := s.freeStart, stop := stop, next := none }) =
          s.modify id (fun _ => ⟨s.freeStart, stop, none, none⟩) := by
        unfold Internal.modify
        congr 1
        funext k
        by_cases hk : k = id
        · subst hk; simp [f2]
        · simp [hk]
      refine ⟨id, fl, s.freeEnd, (s.hdr id).next, hid, hif, h2, rfl, ?_, ?_, ⟨n, n1, n2 id (by simp)⟩⟩
      · simp only [if_true, e]; rfl
      · simp only [if_true, e]
        have hne : ∀ k, k ≠ id → (s.modify id (fun _ => ⟨s.freeStart, stop, none, none⟩)).hdr k = s.hdr k := by
          intro k hk; simp [modify_hdr, hk]
        refine ⟨seg_congr (fun k hk => ?_) h.seg, h.tail, free_congr (fun k hk => ?_) f3, ?_,
          ⟨n, n1, fun k hk => n2 k ?_⟩⟩
        · simp [hne k (by rintro rfl; exact hid hk)]
        · simp [hne k (by rintro rfl; exact hif hk)]
        · exact (List.nodup_cons.1 ((List.perm_middle).nodup_iff.1 h.nodup)).2
        · simp at hk ⊢; grind
  | none =>
    cases fl with
    | cons a fl => have := h.free; rw [hf] at this; cases this.1
    | nil =>
    by_cases c1 : s.freeEnd < headerSize
    · left; simp only [if_pos c1]; exact ⟨by trivial, by trivial⟩
    · simp only [if_neg c1]
      by_cases c2 : (decide (s.freeEnd - headerSize < s.freeStart) ||
          (true && decide (s.freeEnd - headerSize < stop))) = true
      · left; simp only [if_pos c2]; exact ⟨by trivial, by trivial⟩
      · simp only [if_neg c2]
        by_cases c3 : (s.fullEnd - (s.freeEnd - headerSize)) / headerSize = 0 ∨
            2 ^ 16 ≤ (s.fullEnd - (s.freeEnd - headerSize)) / headerSize
        · left; simp only [if_pos c3]; exact ⟨by trivial, by trivial⟩
        · right
          simp only [if_neg c3]
          obtain ⟨n, n1, n2⟩ := h.count
          simp at c2
          have e : (s.fullEnd - (s.freeEnd - headerSize)) / headerSize = n + 1 := by
            rw [n1]
            have : s.freeEnd + headerSize * n - (s.freeEnd - headerSize) = headerSize * (n + 1) := by
              rw [Nat.mul_add]; omega
            rw [this]; exact Nat.mul_div_cancel_left _ (by decide)
          rw [e]
          have hl : n + 1 ∉ l := fun hm => by have := (n2 (n + 1) (by simp [hm])).2; omega
          have hc : s.fullEnd = s.freeEnd - headerSize + headerSize * (n + 1) := by
            rw [n1, Nat.mul_add]; omega
          refine ⟨n + 1, [], s.freeEnd - headerSize, none, hl, by simp, c2.2, rfl, ?_, ?_,
            ⟨n + 1, hc, by omega, by omega⟩⟩
          · simp only [Internal.modify, hf]
          · refine ⟨seg_congr (fun k hk => ?_) h.seg, h.tail, hf, h.nodup, ⟨n + 1, hc, fun k hk => ?_⟩⟩
            · have hk : k ≠ n + 1 := by rintro rfl; exact hl hk
              simp [modify_hdr, hk]
            · have := n2 k hk; omega

theorem pushBack_start {s : Internal} {id fs : Nat} :
    { s with freeStart := fs }.pushBack id = { s.pushBack id with freeStart := fs } := by
  unfold Internal.pushBack
  cases s.tail <;> rfl

/-- Adding a region at the end. -/
theorem grow_inv {s : Internal} {l fl : List Nat} {stop : Nat} (h : Inv s l fl)
    (h1 : s.freeStart ≤ stop) (h2 : stop ≤ s.freeEnd) :
    ((s.allocHeader true stop).1 = none ∧ (s.allocHeader true stop).2 = s) ∨
    ∃ id fl', (s.allocHeader true stop).1 = some id ∧ id ∉ l ∧
      Inv { (s.allocHeader true stop).2.pushBack id with freeStart := stop } (l ++ [id]) fl' ∧
      Keep s { (s.allocHeader true stop).2.pushBack id with freeStart := stop } l (l ++ [id]) none ∧
      ((s.allocHeader true stop).2.pushBack id).mem = s.mem ∧
      ((s.allocHeader true stop).2.pushBack id).occupied = s.occupied ∧
      (((s.allocHeader true stop).2.pushBack id).hdr id).start = s.freeStart ∧
      (((s.allocHeader true stop).2.pushBack id).hdr id).stop = stop := by
  rcases allocHeader_links h.toLinks h1 h2 with h | ⟨id, fl', fe, fh, i1, i2, i3, e1, e2, i4, i5⟩
  · exact .inl h
  right
  refine ⟨id, fl', e1, i1, ?_⟩
  rw [e2] at i4 ⊢
  generalize ht : ({ s.modify id (fun _ => ⟨s.freeStart, stop, none, none⟩) with
        freeEnd := fe, freeHead := fh } : Internal) = t at *
  have hid : t.hdr id = ⟨s.freeStart, stop, none, none⟩ := by
    rw [← ht]; simp [Internal.modify]
  have hne : ∀ k, k ≠ id → t.hdr k = s.hdr k := by
    intro k hk; rw [← ht]; simp [Internal.modify, hk]
  have r : t.occupied = s.occupied ∧ t.fullStart = s.fullStart ∧ t.fullEnd = s.fullEnd ∧
      t.freeStart = s.freeStart ∧ t.freeEnd = fe ∧ t.mem = s.mem ∧ t.tail = s.tail := by
    rw [← ht]; exact ⟨rfl, rfl, rfl, rfl, rfl, rfl, rfl⟩
  obtain ⟨t1, t2, t3, t4, t5, t6, t7⟩ := r
  have L := pushBack_links i4 (by rw [hid]) (by rw [hid]) i1 i2 (by rw [t3, t5]; exact i5)
  have htl : t.tail ≠ some id := by rw [i4.tail]; intro h; exact i1 (lst_mem' h)
  have hh := fun k => pushBack_hdr t id k htl
  obtain ⟨r1, r2, r3, r4, r5, r6, r7, r8⟩ := pushBack_rest t id
  have st : ∀ k, k ≠ id → ((t.pushBack id).hdr k).start = (s.hdr k).start ∧
      ((t.pushBack id).hdr k).stop = (s.hdr k).stop := by
    intro k hk; rw [hh, hne k hk]; exact ⟨rfl, rfl⟩
  have hs1 : ((t.pushBack id).hdr id).start = s.freeStart := by rw [hh, hid]
  have hs2 : ((t.pushBack id).hdr id).stop = stop := by rw [hh, hid]
  refine ⟨⟨⟨L.seg, L.tail, L.free, L.nodup, L.count⟩, ?_, ?_, ?_⟩, ⟨?_, ?_, ?_⟩, ?_, ?_, hs1, hs2⟩
  · show Tile (t.pushBack id).hdr (t.pushBack id).fullStart (l ++ [id]) stop
    rw [tile_append]
    refine ⟨s.freeStart, ?_, hs1, by rw [hs2]; exact h1, by rw [hs2]; rfl⟩
    rw [r3, t2]
    exact tile_congr (fun k hk => st k (by rintro rfl; exact i1 hk)) h.tile
  · show stop ≤ (t.pushBack id).freeEnd
    rw [r6, t5]; exact i3
  · intro o ho
    have ho : s.occupied = some o := by rw [← t1, ← r2]; exact ho
    rw [hd_append, ← h.occ o ho]
    have := h.occ o ho
    cases l <;> simp_all [hd]
  · exact r3.trans t2
  · exact r4.trans t3
  · intro a ha ho _
    obtain ⟨q1, q2⟩ := st a (by rintro rfl; exact i1 ha)
    refine ⟨by simp [ha], ?_, q1, Nat.le_of_eq q2.symm, fun p _ _ => ?_⟩
    · show (t.pushBack id).occupied ≠ _; rw [r2, t1]; exact ho
    · show (t.pushBack id).mem p = _; rw [r7, t6]
  · exact r7.trans t6
  · exact r2.trans t1

/-- Extending the last region. -/
theorem extend_last {s : Internal} {m fl : List Nat} {t : Nat} {fs : Nat} (h : Inv s (m ++ [t]) fl)
    (h1 : s.freeStart ≤ fs) (h2 : fs ≤ s.freeEnd) :
    Inv { s.modify t (fun x => { x with stop := fs }) with freeStart := fs } (m ++ [t]) fl ∧
    Keep s { s.modify t (fun x => { x with stop := fs }) with freeStart := fs } (m ++ [t]) (m ++ [t]) none := by
  have nt : t ∉ m := fun hm => (List.nodup_append.1 h.nodupL).2.2 t hm t (by simp) rfl
  have hl : ∀ k, ((s.modify t (fun x => { x with stop := fs })).hdr k).prev = (s.hdr k).prev ∧
      ((s.modify t (fun x => { x with stop := fs })).hdr k).next = (s.hdr k).next ∧
      ((s.modify t (fun x => { x with stop := fs })).hdr k).start = (s.hdr k).start ∧
      ((s.modify t (fun x => { x with stop := fs })).hdr k).stop = if k = t then fs else (s.hdr k).stop := by
    intro k
    rw [modify_hdr]
    by_cases hk : k = t <;> simp [hk]
  obtain ⟨q, T1, T2, T3, T4⟩ := tile_append.1 h.tile
  have T4 : (s.hdr t).stop = s.freeStart := T4
  refine ⟨⟨⟨seg_congr (fun k _ => ⟨(hl k).1, (hl k).2.1⟩) h.seg, h.tail,
    free_congr (fun k _ => ⟨(hl k).1, (hl k).2.1⟩) h.free, h.nodup, h.count⟩, ?_, h2, h.occ⟩,
    ⟨rfl, rfl, fun a ha ho _ => ⟨ha, ho, (hl a).2.2.1, ?_, fun _ _ _ => rfl⟩⟩⟩
  · refine tile_append.2 ⟨q, tile_congr (fun k hk => ⟨(hl k).2.2.1, ?_⟩) T1,
      (hl t).2.2.1.trans T2, ?_, ?_⟩
    · rw [(hl k).2.2.2, if_neg (by rintro rfl; exact nt hk)]
    · show q ≤ ((s.modify t (fun x => { x with stop := fs })).hdr t).stop
      rw [(hl t).2.2.2, if_pos rfl]; omega
    · show ((s.modify t (fun x => { x with stop := fs })).hdr t).stop = fs
      rw [(hl t).2.2.2, if_pos rfl]
  · show _ ≤ ((s.modify t (fun x => { x with stop := fs })).hdr a).stop
    rw [(hl a).2.2.2]
    have := tile_mem h.tile ha
    split <;> omega

/-- `align` -/
theorem align_inv {s : Internal} {l fl : List Nat} {a : Nat} (h : Inv s l fl) (ha : 0 < a) :
    ∃ l' fl', Inv (s.align true a).2 l' fl' ∧ Keep s (s.align true a).2 l l' none ∧
      (s.align true a).2.mem = s.mem ∧ (s.align true a).2.occupied = s.occupied ∧
      (∀ t, s.tail = some t → l' = l ∧ ∀ k, (k ∈ l → ((s.align true a).2.hdr k).start = (s.hdr k).start ∧
        (k ≠ t → ((s.align true a).2.hdr k).stop = (s.hdr k).stop))) ∧
      ((s.align true a).1 = true → (s.align true a).2.freeStart % a = 0) := by
  unfold Internal.align
  by_cases c1 : alignOffset s.freeStart a = 0
  · simp only [if_pos c1]
    exact ⟨l, fl, h, .refl _ _ _, by trivial, by trivial, fun _ _ => ⟨rfl, fun _ _ => ⟨by trivial, fun _ => by trivial⟩⟩,
      fun _ => (alignOffset_zero ha).1 c1⟩
  simp only [if_neg c1]
  by_cases c2 : s.remaining < alignOffset s.freeStart a
  · simp only [if_pos c2]
    exact ⟨l, fl, h, .refl _ _ _, by trivial, by trivial, fun _ _ => ⟨rfl, fun _ _ => ⟨by trivial, fun _ => by trivial⟩⟩,
      fun h => nomatch h⟩
  simp only [if_neg c2]
  have hb := h.bound
  have hr : s.freeStart + alignOffset s.freeStart a ≤ s.freeEnd := by
    unfold Internal.remaining at c2
    rw [if_pos hb] at c2
    omega
  cases ht : s.tail with
  | some t =>
    simp only
    obtain ⟨m, rfl⟩ := lst_snoc (h.tail ▸ ht)
    obtain ⟨e1, e2⟩ := extend_last h (Nat.le_add_right _ _) hr
    refine ⟨_, _, e1, e2, rfl, rfl, fun t' ht' => ⟨rfl, fun k hk => ?_⟩, fun _ => alignOffset_add ha⟩
    cases ht'
    refine ⟨?_, fun hne => ?_⟩
    · simp only [modify_hdr]; split <;> rfl
    · simp only [modify_hdr, if_neg hne]
  | none =>
    simp only
    rcases grow_inv h (Nat.le_add_right _ _) hr with ⟨g1, g2⟩ | ⟨id, fl', g1, g2, g3, g4, g5, g6, g7, g8⟩
    · cases hx : s.allocHeader true (s.freeStart + alignOffset s.freeStart a) with
      | mk o s' =>
      rw [hx] at g1 g2
      cases g1; cases g2
      exact ⟨l, fl, h, .refl _ _ _, rfl, rfl, (fun _ h => nomatch h), (fun h => nomatch h)⟩
    · cases hx : s.allocHeader true (s.freeStart + alignOffset s.freeStart a) with
      | mk o s' =>
      rw [hx] at g1 g3 g4 g5 g6
      cases g1
      exact ⟨_, _, g3, g4, g5, g6, (fun _ h => nomatch h), fun _ => alignOffset_add ha⟩

/-- `alloc` without an occupied region. -/
theorem allocNew_inv {s : Internal} {l fl : List Nat} {n a : Nat} (h : Inv s l fl) (ha : 0 < a) :
    ∃ l' fl', Inv (s.allocNew true n a).2 l' fl' ∧ Keep s (s.allocNew true n a).2 l l' none ∧
      (s.allocNew true n a).2.mem = s.mem ∧ (s.allocNew true n a).2.occupied = s.occupied ∧
      ∀ id, (s.allocNew true n a).1 = some id → id ∈ l' ∧ id ∉ l ∧ s.occupied ≠ some id ∧
        ((s.allocNew true n a).2.hdr id).start % a = 0 ∧
        ((s.allocNew true n a).2.hdr id).start + n ≤ ((s.allocNew true n a).2.hdr id).stop := by
  obtain ⟨l1, fl1, a1, a2, a3, a4, a5, a6⟩ := align_inv h ha
  unfold Internal.allocNew
  cases hx : s.align true a with
  | mk ok s1 =>
  rw [hx] at a1 a2 a3 a4 a5 a6
  cases ok with
  | false => exact ⟨l1, fl1, a1, a2, a3, a4, fun _ h => nomatch h⟩
  | true =>
  simp only at a1 a2 a3 a4 a5 a6 ⊢
  by_cases c : s1.remaining < n
  · simp only [if_pos c]
    exact ⟨l1, fl1, a1, a2, a3, a4, fun _ h => nomatch h⟩
  simp only [if_neg c]
  have hb := a1.bound
  have hr : s1.freeStart + n ≤ s1.freeEnd := by
    unfold Internal.remaining at c
    rw [if_pos hb] at c
    omega
  rcases grow_inv a1 (Nat.le_add_right _ _) hr with ⟨g1, g2⟩ | ⟨id, fl', g1, g2, g3, g4, g5, g6, g7, g8⟩
  · cases hx : s1.allocHeader true (s1.freeStart + n) with
    | mk o s' =>
    rw [hx] at g1 g2
    cases g1; cases g2
    exact ⟨l1, fl1, a1, a2, a3, a4, fun _ h => nomatch h⟩
  · cases hx : s1.allocHeader true (s1.freeStart + n) with
    | mk o s' =>
    rw [hx] at g1 g3 g4 g5 g6 g7 g8
    cases g1
    simp only [pushBack_start] at *
    refine ⟨_, _, g3, a2.trans g4, g5.trans a3, g6.trans a4, fun k hk => ?_⟩
    cases hk
    have hocc : s.occupied ≠ some id := by
      intro ho
      rw [← a4] at ho
      exact g2 (hd_mem (a1.occ _ ho))
    refine ⟨by simp, fun hm => ?_, hocc, by rw [g7]; exact a6 (by trivial), by rw [g7, g8]; exact Nat.le_refl _⟩
    exact g2 (a2.keep id hm hocc (by simp)).1

/-- `alloc` -/
theorem alloc_inv {s : Internal} {l fl : List Nat} {n a : Nat} (h : Inv s l fl) (ha : 0 < a) :
    ∃ l' fl', Inv (s.alloc true n a).2 l' fl' ∧ Keep s (s.alloc true n a).2 l l' none ∧
      (s.alloc true n a).2.mem = s.mem ∧
      ∀ id, (s.alloc true n a).1 = some id → id ∈ l' ∧ (s.alloc true n a).2.occupied ≠ some id ∧
        (id ∈ l → s.occupied = some id) ∧
        ((s.alloc true n a).2.hdr id).start % a = 0 ∧
        ((s.alloc true n a).2.hdr id).start + n ≤ ((s.alloc true n a).2.hdr id).stop := by
  have new : ∃ l' fl', Inv (s.allocNew true n a).2 l' fl' ∧ Keep s (s.allocNew true n a).2 l l' none ∧
      (s.allocNew true n a).2.mem = s.mem ∧
      ∀ id, (s.allocNew true n a).1 = some id → id ∈ l' ∧ (s.allocNew true n a).2.occupied ≠ some id ∧
        (id ∈ l → s.occupied = some id) ∧
        ((s.allocNew true n a).2.hdr id).start % a = 0 ∧
        ((s.allocNew true n a).2.hdr id).start + n ≤ ((s.allocNew true n a).2.hdr id).stop := by
    obtain ⟨l', fl', a1, a2, a3, a4, a5⟩ := allocNew_inv (n := n) h ha
    refine ⟨l', fl', a1, a2, a3, fun id hid => ?_⟩
    obtain ⟨b1, b2, b3, b4, b5⟩ := a5 id hid
    exact ⟨b1, by rw [a4]; exact b3, fun hm => absurd hm b2, b4, b5⟩
  unfold Internal.alloc
  cases ho : s.occupied with
  | none => rw [ho] at new; exact new
  | some o =>
    simp only
    by_cases c : (decide (n ≤ (s.hdr o).capacity) && (s.hdr o).isAligned a) = true
    · simp only [if_pos c]
      obtain ⟨c1, c2⟩ := Bool.and_eq_true_iff.1 c
      have c1 := of_decide_eq_true c1
      unfold Header.capacity at c1
      simp only [Header.isAligned, beq_iff_eq] at c2
      have hm := hd_mem (h.occ o ho)
      have ht := tile_mem h.tile hm
      refine ⟨l, fl, ⟨⟨h.seg, h.tail, h.free, h.nodup, h.count⟩, h.tile, h.bound, fun _ h => nomatch h⟩,
        ⟨rfl, rfl, fun a ha ho _ => ⟨ha, by simp, rfl, Nat.le_refl _, fun _ _ _ => rfl⟩⟩, (by trivial),
        fun id hid => ?_⟩
      cases hid
      exact ⟨hm, by simp, fun _ => rfl, (alignOffset_zero ha).1 c2, by omega⟩
    · simp only [if_neg c]; rw [ho] at new; exact new

/-- A region that is in use is not the occupied one. -/
theorem occ_cons {l1 l2 : List Nat} {a o : Nat} (hd1 : hd (l1 ++ a :: l2) none = some o) (h : o ≠ a) :
    hd (l1 ++ l2) none = some o ∧ hd l1 none = some o := by
  cases l1 with
  | nil => cases hd1; exact absurd rfl h
  | cons b l1 => exact ⟨hd1, hd1⟩

/-- Two neighbours become one. -/
theorem join_inv {s : Internal} {m l2 fl : List Nat} {p a : Nat} (h : Inv s (m ++ p :: a :: l2) fl)
    (ho : s.occupied ≠ some a) :
    Inv ((s.freeRegion a).2.modify p (fun x => { x with stop := (s.freeRegion a).1.stop }))
      (m ++ p :: l2) (a :: fl) ∧
    Keep s ((s.freeRegion a).2.modify p (fun x => { x with stop := (s.freeRegion a).1.stop }))
      (m ++ p :: a :: l2) (m ++ p :: l2) (some a) ∧
    ((s.freeRegion a).2.modify p (fun x => { x with stop := (s.freeRegion a).1.stop })).mem = s.mem ∧
    ((s.freeRegion a).2.modify p (fun x => { x with stop := (s.freeRegion a).1.stop })).occupied = s.occupied ∧
    (((s.freeRegion a).2.modify p (fun x => { x with stop := (s.freeRegion a).1.stop })).hdr p).start =
      (s.hdr p).start ∧
    (((s.freeRegion a).2.modify p (fun x => { x with stop := (s.freeRegion a).1.stop })).hdr p).stop =
      (s.hdr a).stop ∧
    (s.hdr p).stop = (s.hdr a).start ∧ (s.freeRegion a).1 = s.hdr a := by
  have e : m ++ p :: a :: l2 = (m ++ [p]) ++ a :: l2 := by simp
  have e' : m ++ p :: l2 = (m ++ [p]) ++ l2 := by simp
  obtain ⟨f1, f2, f3, f4, f5, f6, f7, f8, f9⟩ := freeRegion_links (e ▸ h.toLinks)
  have nd := h.nodupL
  have npa : p ≠ a := by
    rintro rfl
    have := (List.nodup_append.1 nd).2.1
    simp at this
  have npm : p ∉ m := fun hm => (List.nodup_append.1 nd).2.2 p hm p (by simp) rfl
  have npl : p ∉ l2 := fun hm => by
    have := (List.nodup_append.1 nd).2.1
    simp [hm] at this
  have nam : a ∉ m := fun hm => (List.nodup_append.1 nd).2.2 a hm a (by simp) rfl
  have nal : a ∉ l2 := fun hm => by
    have := (List.nodup_append.1 nd).2.1
    simp [hm] at this
  generalize hs1 : (s.freeRegion a).2 = s1 at *
  rw [f2]
  have hl : ∀ k, ((s1.modify p (fun x => { x with stop := (s.hdr a).stop })).hdr k).prev = (s1.hdr k).prev ∧
      ((s1.modify p (fun x => { x with stop := (s.hdr a).stop })).hdr k).next = (s1.hdr k).next ∧
      ((s1.modify p (fun x => { x with stop := (s.hdr a).stop })).hdr k).start = (s1.hdr k).start ∧
      ((s1.modify p (fun x => { x with stop := (s.hdr a).stop })).hdr k).stop =
        if k = p then (s.hdr a).stop else (s1.hdr k).stop := by
    intro k
    rw [modify_hdr]
    by_cases hk : k = p <;> simp [hk]
  obtain ⟨q, T1, T2, T3, T4, T5, T6⟩ := tile_append.1 h.tile
  refine ⟨⟨⟨seg_congr (fun k _ => ⟨(hl k).1, (hl k).2.1⟩) (e' ▸ f1.seg), by rw [e']; exact f1.tail,
    free_congr (fun k _ => ⟨(hl k).1, (hl k).2.1⟩) f1.free, by rw [e']; exact f1.nodup,
    by rw [e']; exact f1.count⟩, ?_, ?_, ?_⟩, ⟨f5, f6, ?_⟩, f9, f4, ?_, ?_, T4.symm, rfl⟩
  · show Tile _ s1.fullStart _ s1.freeStart
    rw [f5, f7, tile_append]
    refine ⟨q, tile_congr (fun k hk => ?_) T1, ?_, ?_, ?_⟩
    · have h1 : k ≠ p := by rintro rfl; exact npm hk
      have h2 : k ≠ a := by rintro rfl; exact nam hk
      rw [(hl k).2.2.1, (hl k).2.2.2, if_neg h1]
      exact f3 k h2
    · rw [(hl p).2.2.1, (f3 p npa).1]; exact T2
    · rw [(hl p).2.2.2, if_pos rfl]; omega
    · rw [(hl p).2.2.2, if_pos rfl]
      refine tile_congr (fun k hk => ?_) T6
      have h1 : k ≠ p := by rintro rfl; exact npl hk
      have h2 : k ≠ a := by rintro rfl; exact nal hk
      rw [(hl k).2.2.1, (hl k).2.2.2, if_neg h1]
      exact f3 k h2
  · show s1.freeStart ≤ s1.freeEnd
    rw [f7, f8]; exact h.bound
  · intro o ho'
    have ho' : s.occupied = some o := f4 ▸ ho'
    have := h.occ o ho'
    cases m <;> exact this
  · intro k hk hko hx
    have h2 : k ≠ a := by rintro rfl; exact hx rfl
    refine ⟨by simp at hk ⊢; grind, by rw [show (s1.modify p _).occupied = s1.occupied from rfl, f4]; exact hko,
      ?_, ?_, fun x _ _ => by rw [show (s1.modify p _).mem = s1.mem from rfl, f9]⟩
    · rw [(hl k).2.2.1, (f3 k h2).1]
    · rw [(hl k).2.2.2]
      split
      · subst k; omega
      · rw [(f3 k h2).2]; exact Nat.le_refl _
  · rw [(hl p).2.2.1, (f3 p npa).1]
  · rw [(hl p).2.2.2, if_pos rfl]

/-- Freeing the last region. -/
theorem freeLast_inv {s : Internal} {m fl : List Nat} {a : Nat} (h : Inv s (m ++ [a]) fl)
    (hocc : ∀ o, s.occupied = some o → hd m none = some o) :
    Inv { (s.freeRegion a).2 with freeStart := (s.freeRegion a).1.start } m (a :: fl) ∧
    Keep s { (s.freeRegion a).2 with freeStart := (s.freeRegion a).1.start } (m ++ [a]) m (some a) ∧
    (s.freeRegion a).2.mem = s.mem ∧ (s.freeRegion a).1 = s.hdr a ∧
    (s.freeRegion a).2.occupied = s.occupied := by
  obtain ⟨f1, f2, f3, f4, f5, f6, f7, f8, f9⟩ := freeRegion_links h.toLinks
  simp only [List.append_nil] at f1
  have nam : a ∉ m := fun hm => (List.nodup_append.1 h.nodupL).2.2 a hm a (by simp) rfl
  obtain ⟨q, T1, T2, T3, T4⟩ := tile_append.1 h.tile
  have T4 : (s.hdr a).stop = s.freeStart := T4
  refine ⟨⟨⟨f1.seg, f1.tail, f1.free, f1.nodup, f1.count⟩, ?_, ?_, ?_⟩, ⟨f5, f6, ?_⟩, f9, f2, f4⟩
  · show Tile (s.freeRegion a).2.hdr (s.freeRegion a).2.fullStart m (s.freeRegion a).1.start
    rw [f5, f2, T2]
    exact tile_congr (fun k hk => f3 k (by rintro rfl; exact nam hk)) T1
  · show (s.freeRegion a).1.start ≤ (s.freeRegion a).2.freeEnd
    rw [f2, f8]
    have := h.bound
    omega
  · intro o ho
    exact hocc o (f4 ▸ ho)
  · intro k hk hko hx
    have h2 : k ≠ a := by rintro rfl; exact hx rfl
    have hk : k ∈ m := by simp at hk; grind
    obtain ⟨g1, g2⟩ := f3 k h2
    exact ⟨hk, by rw [show Internal.occupied _ = (s.freeRegion a).2.occupied from rfl, f4]; exact hko,
      g1, Nat.le_of_eq g2.symm, fun x _ _ => by
        rw [show Internal.mem _ = (s.freeRegion a).2.mem from rfl, f9]⟩

/-- `free` -/
theorem free_inv {s : Internal} {l fl : List Nat} {a : Nat} (h : Inv s l fl) (ha : a ∈ l)
    (ho : s.occupied ≠ some a) :
    ∃ l' fl', Inv (s.free a) l' fl' ∧ Keep s (s.free a) l l' (some a) ∧ (s.free a).mem = s.mem := by
  obtain ⟨l1, l2, rfl⟩ := List.append_of_mem ha
  obtain ⟨hp, hn⟩ := seg_at h.seg
  unfold Internal.free
  rw [hn, hp]
  cases l2 with
  | nil =>
    simp only [hd]
    unfold Internal.freeTail
    have hocc : ∀ o, s.occupied = some o → hd l1 none = some o := by
      intro o hoo
      exact (occ_cons (h.occ o hoo) (by rintro rfl; exact ho hoo)).2
    obtain ⟨F1, F2, F3, F4, F5⟩ := freeLast_inv h hocc
    cases hx : s.freeRegion a with
    | mk cur s1 =>
    rw [hx] at F1 F2 F3 F4 F5
    simp only at F1 F2 F3 F4 F5 ⊢
    subst F4
    rw [hp]
    have none_case : ∃ l' fl', Inv { s1 with freeStart := (s.hdr a).start } l' fl' ∧
        Keep s { s1 with freeStart := (s.hdr a).start } (l1 ++ [a]) l' (some a) ∧
        ({ s1 with freeStart := (s.hdr a).start } : Internal).mem = s.mem := ⟨_, _, F1, F2, F3⟩
    cases hpp : lst none l1 with
    | none => exact none_case
    | some prev =>
      simp only
      by_cases c : s1.occupied = some prev
      · simp only [if_pos c]
        rw [F5] at c
        have hh := hocc prev c
        obtain ⟨m, rfl⟩ := lst_snoc hpp
        have : m = [] := by
          cases m with
          | nil => rfl
          | cons x m =>
            exfalso
            have : x = prev := by simpa [hd] using hh
            subst this
            have := h.nodupL
            simp at this
        subst this
        have F1' : Inv { s1 with freeStart := (s.hdr a).start, occupied := none } ([] ++ [prev]) (a :: fl) :=
          ⟨⟨F1.seg, F1.tail, F1.free, F1.nodup, F1.count⟩, F1.tile, F1.bound, fun _ h => nomatch h⟩
        obtain ⟨G1, G2, G3, G4, G5⟩ := freeLast_inv F1' (fun _ h => nomatch h)
        have fr : ∀ fs, ({ s1 with freeStart := fs, occupied := none } : Internal).freeRegion prev =
            (({ s1 with occupied := none } : Internal).freeRegion prev).map id
              (fun t => { t with freeStart := fs }) := by
          intro fs
          unfold Internal.freeRegion Internal.unlink Internal.modify
          cases hx1 : (s1.hdr prev).next <;> cases hx2 : (s1.hdr prev).prev <;> rfl
        rw [fr] at G1 G2 G3 G4 G5
        simp only [Prod.map, id] at G1 G2 G3 G4 G5
        refine ⟨_, _, G1, ?_, ?_⟩
        · refine ⟨G2.fullStart.trans F2.fullStart, G2.fullEnd.trans F2.fullEnd, fun k hk hko hx => ?_⟩
          exfalso
          simp at hk
          rcases hk with rfl | rfl
          · exact hko c
          · exact hx rfl
        · exact G3.trans F3
      · simp only [if_neg c]; exact none_case
  | cons b l2 =>
    simp only [hd]
    cases hpp : lst none l1 with
    | none =>
      cases lst_none hpp
      simp only
      refine ⟨a :: b :: l2, fl, ⟨⟨h.seg, h.tail, h.free, h.nodup, h.count⟩, h.tile, h.bound, ?_⟩,
        ⟨rfl, rfl, fun k hk hko hx => ⟨hk, ?_, rfl, Nat.le_refl _, fun _ _ _ => rfl⟩⟩, by trivial⟩
      · intro o ho; cases ho; rfl
      · simpa using hx
    | some prev =>
      simp only
      obtain ⟨m, rfl⟩ := lst_snoc hpp
      have e : m ++ [prev] ++ a :: b :: l2 = m ++ prev :: a :: b :: l2 := by simp
      rw [e] at h ⊢
      obtain ⟨J1, J2, J3, J4, J5, J6, J7, J8⟩ := join_inv h ho
      cases hx : s.freeRegion a with
      | mk cur s1 =>
      rw [hx] at J1 J2 J3 J4 J8
      simp only at J1 J2 J3 J4 J8 ⊢
      subst J8
      rw [hn]
      exact ⟨_, _, J1, J2, J3⟩

end Musli.Slice
