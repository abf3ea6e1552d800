import Verif.Proofs.Alloc.State
/-!
# Every operation of the corrected allocator keeps all buffers in order
-/
namespace Musli.Slice
open Musli Spec

theorem holds_some {s : State} {l fl : List Nat} {c : Buffers} (G : Good s l fl c) {h : Nat} {b : Buf}
    (hb : s.bufs h = some b) : c h = some (b.size, bytesOf s.i b) := by
  rw [G.holds h, hb]; rfl

theorem bytesOf_length (i : Internal) (b : Buf) : (bytesOf i b).length = b.len * b.size := by
  simp [bytesOf]

/-- `try_merge` -/
theorem merge_good {s s' : State} {l fl : List Nat} {c : Buffers} (G : Good s l fl c) {h o : Nat}
    {b d : Buf} (hb : s.bufs h = some b) (hd' : s.bufs o = some d) (hne : h ≠ o) (hs : b.size = d.size)
    (hm : s.tryMerge true h b o d = some s') :
    ∃ l' fl', Good s' l' fl' ((c.set h (some (b.size, bytesOf s.i b ++ bytesOf s.i d))).set o none) := by
  unfold State.tryMerge at hm
  obtain hr | ⟨id, hr⟩ : b.region = none ∨ ∃ id, b.region = some id := by cases b.region <;> simp
  · simp [hr] at hm
  rw [hr] at hm
  simp only at hm
  by_cases c1 : (s.i.hdr id).stop ≠ s.ptr d
  · rw [if_pos c1] at hm; cases hm
  rw [if_neg c1] at hm
  obtain hn | ⟨nx, hn⟩ : (s.i.hdr id).next = none ∨ ∃ nx, (s.i.hdr id).next = some nx := by
    cases (s.i.hdr id).next <;> simp
  · rw [hn] at hm; cases hm
  rw [hn] at hm
  simp only at hm
  by_cases c2 : (true && d.region != some nx) = true
  · rw [if_pos c2] at hm; cases hm
  rw [if_neg c2] at hm
  simp at c1 c2
  obtain ⟨r1, r2, r3, r4, r5⟩ := (G.ok h b hb).region id hr
  obtain ⟨t1, t2, t3, t4, t5⟩ := (G.ok o d hd').region nx c2
  obtain ⟨m, l2, rfl⟩ := List.append_of_mem r1
  have hn' := (seg_at G.inv.seg).2
  rw [hn] at hn'
  cases l2 with
  | nil => cases hn'
  | cons x l2 =>
  cases hn'
  generalize hM : (if (s.i.hdr id).stop ≠ (s.i.hdr id).start + b.len * b.size then
      copy s.i.mem (s.i.hdr id).stop ((s.i.hdr id).start + b.len * b.size) (d.len * d.size) else s.i.mem) = M
  have e : (if (s.i.hdr id).stop ≠ (s.i.hdr id).start + b.len * b.size then
        ({ s.i with mem := copy s.i.mem (s.i.hdr id).stop ((s.i.hdr id).start + b.len * b.size) (d.len * d.size) } : Internal)
      else s.i) = { s.i with mem := M } := by
    rw [← hM]
    split <;> rfl
  rw [e] at hm
  obtain ⟨J1, J2, J3, J4, J5, J6, J7, J8⟩ := join_inv (G.inv.mem M) t2
  cases hm
  generalize hj : (({ s.i with mem := M } : Internal).freeRegion nx).2.modify id
    (fun x => { x with stop := (({ s.i with mem := M } : Internal).freeRegion nx).1.stop }) = j at *
  simp only at J3 J4 J5 J6 J7 J8
  have tn := tile_mem G.inv.tile t1
  have hpd : s.ptr d = (s.i.hdr nx).start := by unfold State.ptr; rw [c2]
  have outM : ∀ p, p < (s.i.hdr id).start + b.len * b.size ∨
      (s.i.hdr id).start + b.len * b.size + d.len * d.size ≤ p → M p = s.i.mem p := by
    intro p hp
    rw [← hM]
    split
    · exact copy_out hp
    · rfl
  have inM : ∀ k, k < d.len * d.size → M ((s.i.hdr id).start + b.len * b.size + k) =
      s.i.mem ((s.i.hdr nx).start + k) := by
    intro k hk
    rw [← hM]
    split
    · rw [copy_in hk, J7]
    · rename_i hq
      simp only [ne_eq, Decidable.not_not] at hq
      rw [← hq, J7]
  have okb : Ok j (m ++ id :: l2) { b with region := some id, len := b.len + d.len } := by
    refine ⟨(G.ok h b hb).size, (G.ok h b hb).align, (fun hq => nomatch hq),
      fun id' hid => ?_⟩
    cases hid
    refine ⟨by simp, by rw [J4]; exact r2, by rw [J5]; exact r3, ?_, ?_⟩
    · rw [J5, J6]; show _ + b.cap * b.size ≤ _; omega
    · rw [J5, J6]; show _ + (b.len + d.len) * b.size ≤ _
      rw [Nat.add_mul]
      have : d.len * b.size = d.len * d.size := by rw [hs]
      omega
  have hbytes : bytesOf j { b with region := some id, len := b.len + d.len } = bytesOf s.i b ++ bytesOf s.i d := by
    unfold bytesOf ptrOf
    rw [hr, c2]
    simp only
    rw [J3, J5, Nat.add_mul, map_range_add (fun k => M ((s.i.hdr id).start + k))]
    congr 1
    · refine List.map_congr_left (fun k hk => ?_)
      have := List.mem_range.1 hk
      exact outM _ (by omega)
    · rw [hs]
      refine List.map_congr_left (fun k hk => ?_)
      rw [← inM k (List.mem_range.1 hk), hs, Nat.add_assoc]
  refine ⟨_, _, good_update G (fun k => k = h ∨ k = o) J1 (fun h' b' hh hb' => ?_) (fun h' hh => ?_)
    (fun h' hh => ?_) (fun h1 h2 b1 b2 q1 q2 p1 p2 => ?_)⟩
  · have hh1 : h' ≠ h := fun he => hh (.inl he)
    have hh2 : h' ≠ o := fun he => hh (.inr he)
    have hok := G.ok h' b' hb'
    show Ok j _ b' ∧ bytesOf j b' = _
    cases hr' : b'.region with
    | none =>
      refine ⟨⟨hok.size, hok.align, fun _ => hok.empty hr', fun id' hid => by rw [hr'] at hid; cases hid⟩, ?_⟩
      unfold bytesOf; rw [(hok.empty hr').1]; simp
    | some k =>
      obtain ⟨u1, u2, u3, u4, u5⟩ := hok.region k hr'
      have kid : k ≠ id := by rintro rfl; exact hh1 (G.own h' h b' b k hb' hb hr' hr)
      have knx : k ≠ nx := by rintro rfl; exact hh2 (G.own h' o b' d k hb' hd' hr' c2)
      obtain ⟨v1, v2, v3, v4, v5⟩ := J2.keep k u1 u2 (by simpa using knx.symm)
      simp only at v3 v4
      refine ⟨⟨hok.size, hok.align, (fun hq => by rw [hr'] at hq; cases hq), fun id' hid => ?_⟩, ?_⟩
      · rw [hr'] at hid; cases hid
        exact ⟨v1, v2, by rw [v3]; exact u3, by omega, by omega⟩
      · unfold bytesOf ptrOf
        rw [hr']
        simp only
        refine List.map_congr_left (fun p hp => ?_)
        have := List.mem_range.1 hp
        have := tile_disjoint J1.tile v1 (b := id) (by simp) kid
        rw [J5, J6] at this
        rw [J3, v3]
        have : d.len * b.size = d.len * d.size := by rw [hs]
        exact outM _ (by omega)
  · have hh1 : h' ≠ h := fun he => hh (.inl he)
    have hh2 : h' ≠ o := fun he => hh (.inr he)
    simp [State.set, Buffers.set, hh1, hh2]
  · rcases hh with rfl | rfl
    · have e1 : ((({ s with i := j } : State).set o none).set h' (some { b with region := some id, len := b.len + d.len })).bufs h' =
          some { b with region := some id, len := b.len + d.len } := by simp [State.set]
      refine ⟨fun b' hb' => ?_, ?_⟩
      · rw [e1] at hb'; cases hb'
        refine ⟨okb, fun id' hid h2 b2 hh2 hb2 hr2 => ?_⟩
        cases hid
        exact hh2 (.inl (G.own h2 h' b2 b id hb2 hb hr2 hr))
      · rw [e1]
        simp only [Buffers.set, if_neg hne, if_true, Option.map]
        rw [show (({ s with i := j } : State).set o none).set h' (some { b with region := some id, len := b.len + d.len }) =
          (({ s with i := j } : State).set o none).set h' (some { b with region := some id, len := b.len + d.len }) from rfl]
        show _ = some (b.size, bytesOf j { b with region := some id, len := b.len + d.len })
        rw [hbytes]
    · have e1 : ((({ s with i := j } : State).set h' none).set h (some { b with region := some id, len := b.len + d.len })).bufs h' =
          none := by simp [State.set, hne.symm]
      refine ⟨fun b' hb' => ?_, ?_⟩
      · rw [e1] at hb'; cases hb'
      · rw [e1]; simp [Buffers.set]
  · have no : ∀ b', ((({ s with i := j } : State).set o none).set h (some { b with region := some id, len := b.len + d.len })).bufs o =
        some b' → False := by
      intro b' hb'
      simp [State.set, hne.symm] at hb'
    rcases q1 with rfl | rfl
    · rcases q2 with rfl | rfl
      · rfl
      · exact (no _ p2).elim
    · exact (no _ p1).elim

/-- Every operation. -/
theorem step_good {s : State} {l fl : List Nat} {c : Buffers} (G : Good s l fl c) {op : Op} (hop : op.ok s) :
    ∃ l' fl', Good (s.step true op).2 l' fl' (effect c (s.step true op).1 op) := by
  cases op with
  | new h size align =>
    obtain ⟨h1, h2, ⟨e, rfl⟩, h4⟩ := hop
    obtain ⟨l', fl', I, K, _, A⟩ := alloc_inv (n := 0) (a := 2 ^ e) G.inv (Nat.two_pow_pos e)
    simp only [State.step, effect]
    cases hx : s.i.alloc true 0 (2 ^ e) with
    | mk r i =>
    rw [hx] at I K A
    simp only at I K A
    have g := good_set (h := h) (x := none) (nb := some ⟨r, 0, 0, size, 2 ^ e⟩) G I K
      (fun _ _ _ _ _ _ => by simp)
      (fun b' hb' => by
        cases hb'
        refine ⟨h2, Nat.two_pow_pos e, fun _ => ⟨rfl, rfl⟩, fun id hid => ?_⟩
        obtain ⟨a1, a2, a3, a4, a5⟩ := A id hid
        exact ⟨a1, a2, a4, by simpa using a5, by simpa using a5⟩)
      (fun b' id hb' hid hm => by cases hb'; exact .inr ((A id hid).2.2.1 hm))
    simp only [Option.map, bytesOf, Nat.zero_mul, List.range_zero, List.map_nil] at g
    exact ⟨l', fl', g⟩
  | box h align bytes =>
    obtain ⟨h1, h2, ⟨e, rfl⟩, h4⟩ := hop
    obtain ⟨l', fl', I, K, _, A⟩ := alloc_inv (n := bytes.length) (a := 2 ^ e) G.inv (Nat.two_pow_pos e)
    cases hx : s.i.alloc true bytes.length (2 ^ e) with
    | mk r i =>
    rw [hx] at I K A
    simp only at I K A
    cases r with
    | none =>
      have es : s.step true (.box h (2 ^ e) bytes) = (false, { s with i := i }) := by
        simp only [State.step, hx]
      rw [es]
      exact ⟨l', fl', good_keep G I K⟩
    | some id =>
      have es : s.step true (.box h (2 ^ e) bytes) =
          (true, { s with i := { i with mem := store i.mem (i.hdr id).start bytes } }.set h
            (some ⟨some id, 1, 1, bytes.length, 2 ^ e⟩)) := by
        simp only [State.step, hx]
      rw [es]
      simp only [effect, if_true]
      obtain ⟨a1, a2, a3, a4, a5⟩ := A id rfl
      obtain ⟨I', K'⟩ := keep_store (at_ := (i.hdr id).start) (bs := bytes) I a1 (Nat.le_refl _) a5
      have hx : ∀ h' b id', h' ≠ h → s.bufs h' = some b → b.region = some id' → some id ≠ some id' := by
        intro h' b' id' hh hb' hr' he
        cases he
        obtain ⟨q1, q2, _⟩ := (G.ok h' b' hb').region id hr'
        exact q2 (a3 q1)
      have g := good_set (h := h) (x := some id) (nb := some ⟨some id, 1, 1, bytes.length, 2 ^ e⟩) G I'
        ((K.weaken _).trans K') hx
        (fun b' hb' => by
          cases hb'
          refine ⟨List.length_pos_iff.2 h2, Nat.two_pow_pos e, (fun h => nomatch h), fun id hid => ?_⟩
          cases hid
          exact ⟨a1, a2, a4, by simpa using a5, by simpa using a5⟩)
        (fun b' id hb' hid hm => by cases hb'; cases hid; exact .inr (a3 hm))
      have e' : bytesOf { i with mem := store i.mem (i.hdr id).start bytes }
          ⟨some id, 1, 1, bytes.length, 2 ^ e⟩ = bytes := by
        unfold bytesOf ptrOf
        simp only [Nat.one_mul]
        exact map_store _ _ _
      simp only [Option.map] at g
      rw [e'] at g
      exact ⟨l', fl', g⟩
  | extend h n bytes =>
    obtain ⟨b, hb, hl⟩ := hop
    obtain ⟨l', fl', g, _⟩ := extend_good (bytes := fun _ => bytes) (val := bytes) G hb (fun _ _ _ => rfl) hl
    refine ⟨l', fl', ?_⟩
    simp only [State.step, hb, effect, holds_some G hb, Option.map]
    exact g
  | reserve h n =>
    obtain ⟨b, hb⟩ := hop
    obtain ⟨l', fl', R⟩ := resize_good (n := n) G hb
    refine ⟨l', fl', ?_⟩
    simp only [State.step, hb, effect]
    exact R.good
  | truncate h n =>
    obtain ⟨b, hb, hn⟩ := hop
    simp only [State.step, hb, effect, holds_some G hb, Option.map]
    have hok := G.ok h b hb
    have hle := Nat.mul_le_mul_right b.size hn
    have g := store_good (off := 0) (bs := []) (len := n) G hb
      (fun hr => ⟨rfl, by have := (hok.empty hr).1; omega⟩)
      (fun id hid => by
        obtain ⟨_, _, _, _, q⟩ := hok.region id hid
        exact ⟨by simp; omega, by omega⟩)
    rw [store_nil] at g
    refine ⟨l, fl, ?_⟩
    unfold bytesOf
    rw [take_map_range _ hle]
    exact g
  | write h off bytes =>
    obtain ⟨b, hb, hn⟩ := hop
    simp only [State.step, hb, effect, holds_some G hb, Option.map]
    have hok := G.ok h b hb
    have g := store_good (off := off) (bs := bytes) (len := b.len) G hb
      (fun hr => by
        have := (hok.empty hr).1
        rw [this] at hn
        exact ⟨List.eq_nil_of_length_eq_zero (by omega), this⟩)
      (fun id hid => by
        obtain ⟨_, _, _, _, q⟩ := hok.region id hid
        exact ⟨by omega, q⟩)
    refine ⟨l, fl, ?_⟩
    rw [set_self (b := some { b with len := b.len }) hb] at g
    have e : (List.range (b.len * b.size)).map (fun k => store s.i.mem (s.ptr b + off) bytes (s.ptr b + k)) =
        (bytesOf s.i b).take off ++ bytes ++ (bytesOf s.i b).drop (off + bytes.length) := by
      obtain ⟨d, hd⟩ := Nat.le.dest hn
      unfold bytesOf
      rw [← hd, take_map_range _ (by omega), drop_map_range,
        map_range_add (fun k => store s.i.mem (s.ptr b + off) bytes (s.ptr b + k)),
        map_range_add (fun k => store s.i.mem (s.ptr b + off) bytes (s.ptr b + k)),
        map_store_out _ _ _ _ _ (.inl (Nat.le_refl _))]
      have e1 : (List.range bytes.length).map (fun k => store s.i.mem (s.ptr b + off) bytes (s.ptr b + (off + k))) =
          bytes := by
        simpa only [Nat.add_assoc] using map_store s.i.mem (s.ptr b + off) bytes
      have e2 : (List.range d).map (fun k => store s.i.mem (s.ptr b + off) bytes (s.ptr b + (off + bytes.length + k))) =
          (List.range d).map (fun k => s.i.mem (s.ptr b + (off + bytes.length + k))) := by
        have := map_store_out s.i.mem (s.ptr b + off) (s.ptr b + (off + bytes.length)) d bytes (.inr (by omega))
        simpa only [Nat.add_assoc] using this
      rw [e1, e2]
      rfl
    rw [e] at g
    exact g
  | append h o =>
    obtain ⟨hne, b, d, hb, hd, hs, ha⟩ := hop
    simp only [State.step, hb, hd, effect, holds_some G hb, holds_some G hd, Option.map, Option.getD]
    cases hm : s.tryMerge true h b o d with
    | some s' =>
      simp only [if_true]
      exact merge_good G hb hd hne hs hm
    | none =>
      simp only
      have hok := G.ok o d hd
      obtain ⟨l', fl', g, ho⟩ := extend_good (n := d.len)
        (bytes := fun mem => (List.range (d.len * d.size)).map (fun k => mem (s.ptr d + k)))
        (val := bytesOf s.i d) G hb
        (fun l2 fl2 R => by
          have q1 := holds_some R.good ((R.others o hne.symm).1.trans hd)
          rw [holds_some G hd] at q1
          simp only [Option.some.injEq, Prod.mk.injEq, true_and] at q1
          rw [q1]
          unfold bytesOf
          rw [(R.others o hne.symm).2 d hd]
          rfl)
        (by rw [bytesOf_length, hs])
      exact drop_good g ((ho o hne.symm).trans hd)
  | drop h =>
    obtain ⟨b, hb⟩ := hop
    simp only [State.step, hb, effect]
    exact drop_good G hb

/-- Every history. -/
theorem runs_good {s : State} {c : Buffers} (h : Runs true s c) : ∃ l fl, Good s l fl c := by
  induction h with
  | new base size mem =>
    exact ⟨[], [], inv_new base size mem, (fun _ _ h => nomatch h), (fun _ _ _ _ _ h => nomatch h), fun _ => rfl⟩
  | step op _ hop ih =>
    obtain ⟨l, fl, G⟩ := ih
    exact step_good G hop

theorem good_separate {s : State} {l fl : List Nat} {c : Buffers} (G : Good s l fl c) : Separate s := by
  refine ⟨fun h b id hb hr => ?_, fun h b id h' b' id' hh hb hr hb' hr' => ?_⟩
  · obtain ⟨r1, r2, r3, r4, r5⟩ := (G.ok h b hb).region id hr
    have t := tile_mem G.inv.tile r1
    have := G.inv.bound
    obtain ⟨n, n1, _⟩ := G.inv.count
    exact ⟨t.1, r5, by omega, by omega, r3⟩
  · have r1 := ((G.ok h b hb).region id hr).1
    have r2 := ((G.ok h' b' hb').region id' hr').1
    refine tile_disjoint G.inv.tile r1 r2 ?_
    rintro rfl
    exact hh (G.own h h' b b' id hb hb' hr hr')

theorem good_holds {s : State} {l fl : List Nat} {c : Buffers} (G : Good s l fl c) : Holds s c := by
  intro h
  rw [G.holds h]
  unfold State.contents
  cases s.bufs h <;> rfl

end Musli.Slice
