import Verif.Proofs.Alloc.Internal
/-!
# Reallocation
-/
namespace Musli.Slice
open Musli

/-- Memory does not matter for the headers. -/
theorem Inv.mem {s : Internal} {l fl : List Nat} (h : Inv s l fl) (m : Nat → Byte) :
    Inv { s with mem := m } l fl :=
  ⟨⟨h.seg, h.tail, h.free, h.nodup, h.count⟩, h.tile, h.bound, h.occ⟩

theorem lst_some (b : Nat) (l : List Nat) : ∃ t, lst (some b) l = some t := by
  induction l generalizing b with
  | nil => exact ⟨b, rfl⟩
  | cons c l ih => exact ih c

/-- Moving a header to the end. -/
theorem replaceBack_links {s : Internal} {l1 l2 fl : List Nat} {a b : Nat}
    (h : Links s (l1 ++ a :: b :: l2) fl) :
    Links (s.replaceBack a) (l1 ++ b :: l2 ++ [a]) fl ∧
    (∀ k, ((s.replaceBack a).hdr k).start = (s.hdr k).start ∧
      ((s.replaceBack a).hdr k).stop = (s.hdr k).stop) ∧
    (s.replaceBack a).occupied = s.occupied ∧ (s.replaceBack a).fullStart = s.fullStart ∧
    (s.replaceBack a).fullEnd = s.fullEnd ∧ (s.replaceBack a).freeStart = s.freeStart ∧
    (s.replaceBack a).freeEnd = s.freeEnd ∧ (s.replaceBack a).mem = s.mem := by
  obtain ⟨hp, hn⟩ := seg_at h.seg
  have nd := h.nodupL
  have na1 : a ∉ l1 := fun hm => (List.nodup_append.1 nd).2.2 a hm a (by simp) rfl
  have na2 : a ∉ b :: l2 := (List.nodup_cons.1 (List.nodup_append.1 nd).2.1).1
  have naf : a ∉ fl := h.disj (by simp)
  unfold Internal.replaceBack
  rw [hp, hn]
  simp only [hd]
  generalize ht : (Internal.modify (match lst none l1 with
      | some prev => (s.modify a (fun x => { x with prev := none, next := none })).modify prev
          (fun x => { x with next := some b })
      | none => s.modify a (fun x => { x with prev := none, next := none })) b
      (fun x => { x with prev := lst none l1 })) = t
  have r : t.occupied = s.occupied ∧ t.fullStart = s.fullStart ∧ t.fullEnd = s.fullEnd ∧
      t.freeStart = s.freeStart ∧ t.freeEnd = s.freeEnd ∧ t.mem = s.mem ∧ t.tail = s.tail ∧
      t.freeHead = s.freeHead := by
    rw [← ht]; cases lst none l1 <;> exact ⟨rfl, rfl, rfl, rfl, rfl, rfl, rfl, rfl⟩
  obtain ⟨t1, t2, t3, t4, t5, t6, t7, t8⟩ := r
  have hb : a ≠ b := by rintro rfl; simp at na2
  have hl : lst none l1 ≠ some a := fun hx => na1 (lst_mem' hx)
  have hh : ∀ k, t.hdr k = { s.hdr k with
      prev := if k = a then none else if b = k then lst none l1 else (s.hdr k).prev
      next := if k = a then none else if lst none l1 = some k then some b else (s.hdr k).next } := by
    intro k
    rw [← ht]
    cases hq : lst none l1 with
    | none =>
      simp only [modify_hdr, eq_comm (a := b) (b := k)]
      generalize s.hdr k = x
      cases x
      by_cases h1 : k = a <;> by_cases h2 : k = b <;> simp_all
    | some p =>
      have hpa : p ≠ a := by rintro rfl; exact hl hq
      simp only [modify_hdr, eq_comm (a := b) (b := k), Option.some.injEq, eq_comm (a := p) (b := k)]
      generalize s.hdr k = x
      cases x
      by_cases h1 : k = a
      · subst h1
        simp [hb, hpa.symm]
      · simp only [if_neg h1]
        by_cases h2 : k = b <;> by_cases h3 : k = p <;>
          simp only [h2, h3, if_true, if_false] <;> simp_all
  have L : Links t (l1 ++ b :: l2) fl := by
    refine ⟨seg_remove nd h.seg (fun k hk => ?_) (fun k hk => ?_), ?_, ?_, ?_, ?_⟩
    · have hk : k ≠ a := by rintro rfl; simp at hk; simp at na2; grind
      rw [hh]; simp only [if_neg hk, hd, Option.some.injEq]
    · have hk : k ≠ a := by rintro rfl; simp at hk; simp at na2; grind
      rw [hh]; simp only [if_neg hk, hd]
    · rw [t7, h.tail, lst_append, lst_append]; rfl
    · rw [t8]
      refine free_congr (fun k hk => ?_) h.free
      have hka : k ≠ a := by rintro rfl; exact naf hk
      have hk1 : lst none l1 ≠ some k := fun hm => h.disj (a := k) (by simp [lst_mem' hm]) hk
      have hk2 : b ≠ k := by rintro rfl; exact h.disj (a := b) (by simp) hk
      rw [hh]; simp [hka, hk1, hk2]
    · have p : (l1 ++ a :: b :: l2 ++ fl).Perm (a :: (l1 ++ b :: l2 ++ fl)) := by
        simp only [List.append_assoc, List.cons_append]
        exact List.perm_middle
      exact (List.nodup_cons.1 (p.nodup_iff.1 h.nodup)).2
    · obtain ⟨n, n1, n2⟩ := h.count
      refine ⟨n, by rw [t3, t5]; exact n1, fun k hk => n2 k ?_⟩
      simp only [List.mem_append, List.mem_cons] at hk ⊢
      grind
  have hid : a ∉ l1 ++ b :: l2 := by simp at na2 ⊢; grind
  obtain ⟨n, n1, n2⟩ := h.count
  have P := pushBack_links L (by rw [hh]; simp) (by rw [hh]; simp) hid naf
    ⟨n, by rw [t3, t5]; exact n1, n2 a (by simp)⟩
  obtain ⟨r1, r2, r3, r4, r5, r6, r7, r8⟩ := pushBack_rest t a
  have htl : t.tail ≠ some a := by rw [L.tail]; intro h; exact hid (lst_mem' h)
  refine ⟨P, fun k => ?_, r2.trans t1, r3.trans t2, r4.trans t3, r5.trans t4, r6.trans t5, r7.trans t6⟩
  rw [pushBack_hdr t a k htl, hh]
  exact ⟨rfl, rfl⟩

/-- What `realloc` does. -/
structure Realloc (s : Internal) (l : List Nat) (a len requested align : Nat)
    (r : Option Nat × Internal) (l' fl' : List Nat) : Prop where
  inv : Inv r.2 l' fl'
  keep : Keep s r.2 l l' (some a)
  none : r.1 = none → Keep s r.2 l l' none
  some : ∀ id, r.1 = some id → id ∈ l' ∧ r.2.occupied ≠ some id ∧
    (id ∈ l → id = a ∨ s.occupied = some id) ∧ (r.2.hdr id).start % align = 0 ∧
    (r.2.hdr id).start + requested ≤ (r.2.hdr id).stop ∧
    ∀ k, k < len → r.2.mem ((r.2.hdr id).start + k) = s.mem ((s.hdr a).start + k)

theorem copy_out {m : Nat → Byte} {src dst len p : Nat} (h : p < dst ∨ dst + len ≤ p) :
    copy m src dst len p = m p := by
  unfold copy; rw [if_neg (by omega)]

theorem copy_in {m : Nat → Byte} {src dst len k : Nat} (h : k < len) :
    copy m src dst len (dst + k) = m (src + k) := by
  unfold copy; rw [if_pos (by omega)]; congr 1; omega

/-- Moving to a new region. -/
theorem moveNew_inv {s : Internal} {l fl : List Nat} {a len requested align : Nat} (h : Inv s l fl)
    (ha : a ∈ l) (ho : s.occupied ≠ some a) (hal : 0 < align)
    (hlen : (s.hdr a).start + len ≤ (s.hdr a).stop) (hr : len ≤ requested) :
    ∃ l' fl', Realloc s l a len requested align
      (match s.alloc true requested align with
        | (none, s) => (none, s)
        | (some to, s) =>
          (some to, { s with mem := copy s.mem (s.hdr a).start (s.hdr to).start len }.free a)) l' fl' := by
  obtain ⟨l1, fl1, A1, A2, A3, A4⟩ := alloc_inv (n := requested) h hal
  cases hx : s.alloc true requested align with
  | mk r s1 =>
  rw [hx] at A1 A2 A3 A4
  simp only at A1 A2 A3 A4
  cases r with
  | none => exact ⟨l1, fl1, A1, A2.weaken _, fun _ => A2, fun _ h => nomatch h⟩
  | some to =>
    simp only
    obtain ⟨B1, B2, B3, B4, B5⟩ := A4 to rfl
    obtain ⟨C1, C2, C3, C4, C5⟩ := A2.keep a ha ho (by simp)
    have hne : to ≠ a := by rintro rfl; exact ho (B3 ha)
    generalize hM : copy s1.mem (s1.hdr a).start (s1.hdr to).start len = M
    obtain ⟨l2, fl2, D1, D2, D3⟩ := free_inv (A1.mem M) C1 C2
    obtain ⟨E1, E2, E3, E4, E5⟩ := D2.keep to B1 B2 (by simpa using hne.symm)
    have K : Keep s ({ s1 with mem := M } : Internal) l l1 none := by
      refine ⟨A2.fullStart, A2.fullEnd, fun k hk hko hx => ?_⟩
      obtain ⟨F1, F2, F3, F4, F5⟩ := A2.keep k hk hko hx
      refine ⟨F1, F2, F3, F4, fun p hp1 hp2 => ?_⟩
      show M p = _
      have hkt : k ≠ to := by rintro rfl; exact hko (B3 hk)
      have := tile_disjoint A1.tile F1 B1 hkt
      rw [← hM, copy_out (by omega)]
      exact F5 p hp1 hp2
    refine ⟨l2, fl2, D1, (K.weaken _).trans D2, (fun h => nomatch h), fun id hid => ?_⟩
    cases hid
    refine ⟨E1, E2, fun hm => .inr (B3 hm), by rw [E3]; exact B4, ?_, fun k hk => ?_⟩
    · rw [E3]
      exact Nat.le_trans B5 E4
    · rw [D3, E3]
      show M _ = _
      rw [← hM]
      show copy s1.mem (s1.hdr a).start (s1.hdr to).start len ((s1.hdr to).start + k) = _
      rw [copy_in hk, C3]
      exact C5 _ (by omega) (by omega)

/-- Moving to the previous region. -/
theorem movePrev_inv {s : Internal} {m l2 fl : List Nat} {p a len requested align : Nat}
    (h : Inv s (m ++ p :: a :: l2) fl) (ho : s.occupied = some p) (hal : 0 < align)
    (hlen : (s.hdr a).start + len ≤ (s.hdr a).stop)
    (hcap : requested ≤ (s.hdr p).capacity + (s.hdr a).capacity)
    (hpa : (s.hdr p).isAligned align = true) :
    Realloc s (m ++ p :: a :: l2) a len requested align
      (some p, { ({ (s.freeRegion a).2 with
          mem := copy (s.freeRegion a).2.mem (s.freeRegion a).1.start ((s.freeRegion a).2.hdr p).start len } : Internal).modify p
            (fun x => { x with stop := (s.freeRegion a).1.stop }) with occupied := none })
      (m ++ p :: l2) (a :: fl) := by
  have nd := h.nodupL
  have npa : p ≠ a := by
    rintro rfl
    have := (List.nodup_append.1 nd).2.1
    simp at this
  obtain ⟨J1, J2, J3, J4, J5, J6, J7, J8⟩ := join_inv h (by rw [ho]; simpa using npa)
  have hst : ((s.freeRegion a).2.hdr p).start = (s.hdr p).start := by
    rw [← J5]; simp only [modify_hdr, if_true]
  rw [J8] at J1 J2 J3 J4 J5 J6
  rw [hst, J8]
  have hmem : (s.freeRegion a).2.mem = s.mem := J3
  have tp := tile_mem h.tile (a := p) (by simp)
  have ta := tile_mem h.tile (a := a) (by simp)
  unfold Header.capacity at hcap
  have I : Inv ({ ({ (s.freeRegion a).2 with
      mem := copy (s.freeRegion a).2.mem (s.hdr a).start (s.hdr p).start len } : Internal).modify p
      (fun x => { x with stop := (s.hdr a).stop }) with occupied := none }) (m ++ p :: l2) (a :: fl) :=
    ⟨⟨J1.seg, J1.tail, J1.free, J1.nodup, J1.count⟩, J1.tile, J1.bound, fun _ h => nomatch h⟩
  refine ⟨I, ⟨J2.fullStart, J2.fullEnd, fun k hk hko hx => ?_⟩, (fun h => nomatch h), fun id hid => ?_⟩
  · obtain ⟨F1, F2, F3, F4, F5⟩ := J2.keep k hk hko hx
    refine ⟨F1, by simp, F3, F4, fun x hx1 hx2 => ?_⟩
    have hkp : k ≠ p := by rintro rfl; exact hko ho
    have := tile_disjoint J1.tile F1 (b := p) (by simp) hkp
    rw [J5, J6] at this
    show copy (s.freeRegion a).2.mem (s.hdr a).start (s.hdr p).start len x = _
    rw [copy_out (by omega), hmem]
  · cases hid
    refine ⟨by simp, by simp, fun _ => .inr ho, ?_, ?_, fun k hk => ?_⟩
    · show (((s.freeRegion a).2.modify p (fun x => { x with stop := (s.hdr a).stop })).hdr p).start % align = 0
      rw [J5]
      simpa [Header.isAligned, alignOffset_zero hal] using hpa
    · show (((s.freeRegion a).2.modify p (fun x => { x with stop := (s.hdr a).stop })).hdr p).start + requested ≤
        (((s.freeRegion a).2.modify p (fun x => { x with stop := (s.hdr a).stop })).hdr p).stop
      rw [J5, J6]
      omega
    · show copy (s.freeRegion a).2.mem (s.hdr a).start (s.hdr p).start len
        ((((s.freeRegion a).2.modify p (fun x => { x with stop := (s.hdr a).stop })).hdr p).start + k) = _
      rw [J5, copy_in hk, hmem]

/-- `realloc` -/
theorem realloc_inv {s : Internal} {l fl : List Nat} {a len requested align : Nat} (h : Inv s l fl)
    (ha : a ∈ l) (ho : s.occupied ≠ some a) (hal : 0 < align)
    (hlen : (s.hdr a).start + len ≤ (s.hdr a).stop) (hr : len ≤ requested)
    (hst : (s.hdr a).start % align = 0) :
    ∃ l' fl', Realloc s l a len requested align (s.realloc true a len requested align) l' fl' := by
  obtain ⟨l1, l2, rfl⟩ := List.append_of_mem ha
  obtain ⟨hp, hn⟩ := seg_at h.seg
  unfold Internal.realloc
  rw [hn]
  cases l2 with
  | nil =>
    simp only [hd]
    unfold Internal.reserve
    obtain ⟨l', fl', A1, A2, A3, A4, A5, A6⟩ := align_inv h hal
    cases hx : s.align true align with
    | mk ok s1 =>
    rw [hx] at A1 A2 A3 A4 A5 A6
    simp only at A1 A2 A3 A4 A5 A6
    obtain ⟨rfl, A5⟩ := A5 a (by rw [h.tail, lst_append]; rfl)
    cases ok with
    | false => exact ⟨_, fl', A1, A2.weaken _, fun _ => A2, fun _ h => nomatch h⟩
    | true =>
      simp only
      by_cases c : s1.freeEnd < s1.freeStart + (requested - (s.hdr a).capacity)
      · simp only [if_pos c]
        exact ⟨_, fl', A1, A2.weaken _, fun _ => A2, fun _ h => nomatch h⟩
      · simp only [if_neg c]
        obtain ⟨B1, B2, B3, B4, B5⟩ := A2.keep a ha ho (by simp)
        obtain ⟨q, T1, T2, T3, T4⟩ := tile_append.1 A1.tile
        have T4 : (s1.hdr a).stop = s1.freeStart := T4
        obtain ⟨E1, E2⟩ := extend_last A1 (Nat.le_add_right _ (requested - (s.hdr a).capacity)) (by omega)
        have e : ({ s1 with freeStart := s1.freeStart + (requested - (s.hdr a).capacity) } : Internal).modify a
            (fun x => { x with stop := x.stop + (requested - (s.hdr a).capacity) }) =
            { s1.modify a (fun x => { x with stop := s1.freeStart + (requested - (s.hdr a).capacity) }) with
              freeStart := s1.freeStart + (requested - (s.hdr a).capacity) } := by
          unfold Internal.modify
          congr 1
          funext k
          by_cases hk : k = a
          · subst hk; simp [T4]
          · simp [hk]
        rw [e]
        refine ⟨_, fl', E1, (A2.trans E2).weaken _, (fun h => nomatch h), fun id hid => ?_⟩
        cases hid
        refine ⟨by simp, by show s1.occupied ≠ _; rw [A4]; exact ho, fun _ => .inl rfl, ?_, ?_, fun k hk => ?_⟩
        · simp only [modify_hdr, if_true]; rw [B3]; exact hst
        · simp only [modify_hdr, if_true]
          unfold Header.capacity
          omega
        · simp only [modify_hdr, if_true]
          show s1.mem _ = _
          rw [A3, B3]
  | cons b l2 =>
    simp only [hd]
    by_cases c0 : (s.hdr a).start = (s.hdr a).stop
    · simp only [if_pos c0]
      unfold Internal.reserve
      obtain ⟨l', fl', A1, A2, A3, A4, A5, A6⟩ := align_inv h hal
      cases hx : s.align true align with
      | mk ok s1 =>
      rw [hx] at A1 A2 A3 A4 A5 A6
      simp only at A1 A2 A3 A4 A5 A6
      obtain ⟨t, ht⟩ := lst_some b l2
      obtain ⟨rfl, A5'⟩ := A5 t (by rw [h.tail, lst_append]; exact ht)
      have nd := h.nodupL
      have na2 : a ∉ b :: l2 := (List.nodup_cons.1 (List.nodup_append.1 nd).2.1).1
      have na1 : a ∉ l1 := fun hm => (List.nodup_append.1 nd).2.2 a hm a (by simp) rfl
      have hta : a ≠ t := by
        rintro rfl
        exact na2 (lst_mem' (l := b :: l2) ht)
      cases ok with
      | false => exact ⟨_, fl', A1, A2.weaken _, fun _ => A2, fun _ h => nomatch h⟩
      | true =>
        simp only
        by_cases c : s1.freeEnd < s1.freeStart + requested
        · simp only [if_pos c]
          exact ⟨_, fl', A1, A2.weaken _, fun _ => A2, fun _ h => nomatch h⟩
        · simp only [if_neg c]
          generalize hu : ({ s1 with freeStart := s1.freeStart + requested } : Internal).modify a
            (fun x => { x with start := s1.freeStart, stop := s1.freeStart + requested }) = u
          have u1 : u.occupied = s1.occupied ∧ u.fullStart = s1.fullStart ∧ u.fullEnd = s1.fullEnd ∧
              u.freeStart = s1.freeStart + requested ∧ u.freeEnd = s1.freeEnd ∧ u.mem = s1.mem ∧
              u.tail = s1.tail ∧ u.freeHead = s1.freeHead := by
            rw [← hu]; exact ⟨rfl, rfl, rfl, rfl, rfl, rfl, rfl, rfl⟩
          obtain ⟨u1, u2, u3, u4, u5, u6, u7, u8⟩ := u1
          have uh : ∀ k, (u.hdr k).prev = (s1.hdr k).prev ∧ (u.hdr k).next = (s1.hdr k).next ∧
              (k ≠ a → (u.hdr k).start = (s1.hdr k).start ∧ (u.hdr k).stop = (s1.hdr k).stop) ∧
              (k = a → (u.hdr k).start = s1.freeStart ∧ (u.hdr k).stop = s1.freeStart + requested) := by
            intro k
            rw [← hu]
            by_cases hk : k = a <;> simp [Internal.modify, hk]
          have UL : Links u (l1 ++ a :: b :: l2) fl' :=
            ⟨seg_congr (fun k _ => ⟨(uh k).1, (uh k).2.1⟩) A1.seg, u7.trans A1.tail,
              by rw [u8]; exact free_congr (fun k _ => ⟨(uh k).1, (uh k).2.1⟩) A1.free, A1.nodup,
              by rw [u3, u5]; exact A1.count⟩
          obtain ⟨R1, R2, R3, R4, R5, R6, R7, R8⟩ := replaceBack_links UL
          have hb := A1.bound
          obtain ⟨q, T1, T2, T3, T4⟩ := tile_append.1 A1.tile
          have z : (s1.hdr a).stop = q := by
            have := (A5' a ha).1
            have := (A5' a ha).2 hta
            omega
          rw [z] at T4
          have hst' : ∀ k, k ≠ a → ((u.replaceBack a).hdr k).start = (s1.hdr k).start ∧
              ((u.replaceBack a).hdr k).stop = (s1.hdr k).stop := by
            intro k hk
            rw [(R2 k).1, (R2 k).2]; exact (uh k).2.2.1 hk
          have sa : ((u.replaceBack a).hdr a).start = s1.freeStart ∧
              ((u.replaceBack a).hdr a).stop = s1.freeStart + requested := by
            rw [(R2 a).1, (R2 a).2]; exact (uh a).2.2.2 rfl
          have I : Inv (u.replaceBack a) (l1 ++ b :: l2 ++ [a]) fl' := by
            refine ⟨R1, ?_, ?_, ?_⟩
            · rw [R4, R6, u2, u4]
              refine tile_append.2 ⟨s1.freeStart, tile_append.2 ⟨q, ?_, ?_⟩, sa.1, by rw [sa.2]; omega, sa.2⟩
              · exact tile_congr (fun k hk => hst' k (by rintro rfl; exact na1 hk)) T1
              · exact tile_congr (fun k hk => hst' k (by rintro rfl; exact na2 hk)) T4
            · rw [R6, R7, u4, u5]; omega
            · intro o hoo
              rw [R3, u1] at hoo
              have := (occ_cons (A1.occ o hoo) (by rintro rfl; rw [A4] at hoo; exact ho hoo)).2
              cases l1 with
              | nil => cases this
              | cons x l1 => exact this
          have K : Keep s1 (u.replaceBack a) (l1 ++ a :: b :: l2) (l1 ++ b :: l2 ++ [a]) (some a) := by
            refine ⟨R4.trans u2, R5.trans u3, fun k hk hko hx => ?_⟩
            have hka : k ≠ a := by rintro rfl; exact hx rfl
            obtain ⟨g1, g2⟩ := hst' k hka
            exact ⟨by simp at hk ⊢; grind, by rw [R3, u1]; exact hko, g1, Nat.le_of_eq g2.symm,
              fun p _ _ => by rw [R8, u6]⟩
          refine ⟨_, fl', I, (A2.weaken _).trans K, (fun h => nomatch h), fun id hid => ?_⟩
          cases hid
          refine ⟨by simp, by rw [R3, u1, A4]; exact ho, fun _ => .inl rfl, ?_, ?_, fun k hk => ?_⟩
          · rw [sa.1]; exact A6 (by trivial)
          · rw [sa.1, sa.2]; exact Nat.le_refl _
          · omega
    · simp only [if_neg c0]
      unfold Internal.move
      have N := moveNew_inv (len := len) (requested := requested) h ha ho hal hlen hr
      rw [hp]
      cases hpp : lst none l1 with
      | none => exact N
      | some p =>
        simp only
        by_cases c1 : s.occupied ≠ some p
        · simp only [if_pos c1]; exact N
        · simp only [if_neg c1]
          by_cases c2 : (s.hdr p).capacity + (s.hdr a).capacity < requested
          · simp only [if_pos c2]; exact N
          · simp only [if_neg c2]
            by_cases c3 : (!(s.hdr p).isAligned align) = true
            · simp only [if_pos c3]; exact N
            · simp only [if_neg c3]
              obtain ⟨m, rfl⟩ := lst_snoc hpp
              have e : m ++ [p] ++ a :: b :: l2 = m ++ p :: a :: b :: l2 := by simp
              rw [e] at h ⊢
              exact ⟨_, _, movePrev_inv h (by simpa using c1) hal hlen (by omega) (by simpa using c3)⟩

end Musli.Slice
