import Verif.Proofs.Alloc.Realloc
/-!
# Buffers in the slice allocator
-/
namespace Musli.Slice
open Musli Spec

/-- Where a buffer is. -/
def ptrOf (i : Internal) (b : Buf) : Nat :=
  match b.region with
  | some id => (i.hdr id).start
  | none => b.align

/-- What a buffer holds. -/
def bytesOf (i : Internal) (b : Buf) : Bytes :=
  (List.range (b.len * b.size)).map (fun k => i.mem (ptrOf i b + k))

/-- A buffer is in order. -/
structure Ok (i : Internal) (l : List Nat) (b : Buf) : Prop where
  size : 0 < b.size
  align : 0 < b.align
  empty : b.region = none → b.len = 0 ∧ b.cap = 0
  region : ∀ id, b.region = some id → id ∈ l ∧ i.occupied ≠ some id ∧ (i.hdr id).start % b.align = 0 ∧
    (i.hdr id).start + b.cap * b.size ≤ (i.hdr id).stop ∧ (i.hdr id).start + b.len * b.size ≤ (i.hdr id).stop

/-- All is in order, and the buffers hold what they should. -/
structure Good (s : State) (l fl : List Nat) (c : Buffers) : Prop where
  inv : Inv s.i l fl
  ok : ∀ h b, s.bufs h = some b → Ok s.i l b
  own : ∀ h h' b b' id, s.bufs h = some b → s.bufs h' = some b' → b.region = some id →
    b'.region = some id → h = h'
  holds : ∀ h, c h = (s.bufs h).map (fun b => (b.size, bytesOf s.i b))

theorem ok_keep {i i' : Internal} {l l' : List Nat} {x : Option Nat} {b : Buf} (h : Ok i l b)
    (k : Keep i i' l l' x) (hx : ∀ id, b.region = some id → x ≠ some id) :
    Ok i' l' b ∧ bytesOf i' b = bytesOf i b ∧ ptrOf i' b = ptrOf i b := by
  obtain ⟨h1, h2, h3, h4⟩ := h
  cases hr : b.region with
  | none =>
    refine ⟨⟨h1, h2, fun _ => h3 hr, fun id hid => by rw [hr] at hid; cases hid⟩, ?_, ?_⟩
    · unfold bytesOf; rw [(h3 hr).1]; simp
    · unfold ptrOf; rw [hr]
  | some id =>
    obtain ⟨a1, a2, a3, a4, a5⟩ := h4 id hr
    obtain ⟨b1, b2, b3, b4, b5⟩ := k.keep id a1 a2 (hx id hr)
    refine ⟨⟨h1, h2, (fun hn => by rw [hr] at hn; cases hn), fun id' hid => ?_⟩, ?_, ?_⟩
    · rw [hr] at hid; cases hid
      exact ⟨b1, b2, by rw [b3]; exact a3, by omega, by omega⟩
    · unfold bytesOf ptrOf
      rw [hr]
      simp only
      refine List.map_congr_left (fun p hp => ?_)
      have := List.mem_range.1 hp
      rw [b3, b5 _ (by omega) (by omega)]
    · unfold ptrOf; rw [hr]; exact b3

theorem good_update {s : State} {l fl : List Nat} {c : Buffers} (G : Good s l fl c)
    {s' : State} {l' fl' : List Nat} {c' : Buffers} (T : Nat → Prop) (I : Inv s'.i l' fl')
    (frame : ∀ h b, ¬T h → s.bufs h = some b → Ok s'.i l' b ∧ bytesOf s'.i b = bytesOf s.i b)
    (same : ∀ h, ¬T h → s'.bufs h = s.bufs h ∧ c' h = c h)
    (touch : ∀ h, T h → (∀ b, s'.bufs h = some b → Ok s'.i l' b ∧
      ∀ id, b.region = some id → ∀ h' b', ¬T h' → s.bufs h' = some b' → b'.region ≠ some id) ∧
      c' h = (s'.bufs h).map (fun b => (b.size, bytesOf s'.i b)))
    (uniq : ∀ h h' b b', T h → T h' → s'.bufs h = some b → s'.bufs h' = some b' → h = h') :
    Good s' l' fl' c' := by
  refine ⟨I, fun h b hb => ?_, fun h h' b b' id hb hb' hr hr' => ?_, fun h => ?_⟩
  · by_cases t : T h
    · exact ((touch h t).1 b hb).1
    · exact (frame h b t ((same h t).1 ▸ hb)).1
  · by_cases t : T h <;> by_cases t' : T h'
    · exact uniq h h' b b' t t' hb hb'
    · exact absurd hr' (((touch h t).1 b hb).2 id hr h' b' t' ((same h' t').1 ▸ hb'))
    · exact absurd hr (((touch h' t').1 b' hb').2 id hr' h b t ((same h t).1 ▸ hb))
    · exact G.own h h' b b' id ((same h t).1 ▸ hb) ((same h' t').1 ▸ hb') hr hr'
  · by_cases t : T h
    · exact (touch h t).2
    · rw [(same h t).2, (same h t).1, G.holds h]
      cases hb : s.bufs h with
      | none => rfl
      | some b => simp only [Option.map]; rw [(frame h b t hb).2]

/-- Only one buffer changes. -/
theorem good_set {s : State} {l fl : List Nat} {c : Buffers} (G : Good s l fl c) {i : Internal}
    {l' fl' : List Nat} {h : Nat} {x : Option Nat} {nb : Option Buf} (I : Inv i l' fl')
    (K : Keep s.i i l l' x)
    (hx : ∀ h' b id, h' ≠ h → s.bufs h' = some b → b.region = some id → x ≠ some id)
    (ok : ∀ b, nb = some b → Ok i l' b)
    (fresh : ∀ b id, nb = some b → b.region = some id → id ∈ l →
      (∃ b', s.bufs h = some b' ∧ b'.region = some id) ∨ s.i.occupied = some id) :
    Good ({ s with i := i }.set h nb) l' fl' (c.set h (nb.map (fun b => (b.size, bytesOf i b)))) := by
  refine good_update G (· = h) I (fun h' b hh hb => ?_) (fun h' hh => ?_) (fun h' hh => ?_)
    (fun h1 h2 _ _ t1 t2 _ _ => t1.trans t2.symm)
  · obtain ⟨a1, a2, _⟩ := ok_keep (G.ok h' b hb) K (fun id hid => hx h' b id hh hb hid)
    exact ⟨a1, a2⟩
  · simp [State.set, Buffers.set, hh]
  · subst hh
    simp only [State.set, Buffers.set, if_true, and_true]
    refine fun b hb => ⟨ok b hb, fun id hid h2 b2 hh2 hb2 hr2 => ?_⟩
    obtain ⟨q1, q2, _⟩ := (G.ok h2 b2 hb2).region id hr2
    rcases fresh b id hb hid q1 with ⟨b', f1, f2⟩ | f
    · exact hh2 (G.own h2 h' b2 b' id hb2 f1 hr2 f2)
    · exact q2 f

theorem set_self {s : State} {i : Internal} {h : Nat} {b : Option Buf} (hb : s.bufs h = b) :
    ({ s with i := i }.set h b : State) = { s with i := i } := by
  unfold State.set
  congr 1
  funext k
  by_cases hk : k = h
  · subst hk; simp [hb]
  · simp [hk]

theorem buffers_set_self {c : Buffers} {h : Nat} {b : Option (Nat × Bytes)} (hb : c h = b) :
    c.set h b = c := by
  funext k
  unfold Buffers.set
  by_cases hk : k = h
  · subst hk; simp [hb]
  · simp [hk]

/-- Nothing changes for the buffers. -/
theorem good_keep {s : State} {l fl : List Nat} {c : Buffers} (G : Good s l fl c) {i : Internal}
    {l' fl' : List Nat} (I : Inv i l' fl') (K : Keep s.i i l l' none) :
    Good { s with i := i } l' fl' c := by
  refine good_update G (fun _ => False) I (fun h' b _ hb => ?_) (fun h' hh => ⟨rfl, rfl⟩)
    (fun h' hh => hh.elim) (fun h1 h2 _ _ t1 => t1.elim)
  obtain ⟨a1, a2, _⟩ := ok_keep (G.ok h' b hb) K (fun id hid => by simp)
  exact ⟨a1, a2⟩

/-- Writing into a region. -/
theorem keep_store {i : Internal} {l fl : List Nat} {id at_ : Nat} {bs : Bytes} (I : Inv i l fl)
    (hid : id ∈ l) (h1 : (i.hdr id).start ≤ at_) (h2 : at_ + bs.length ≤ (i.hdr id).stop) :
    Inv { i with mem := store i.mem at_ bs } l fl ∧
    Keep i { i with mem := store i.mem at_ bs } l l (some id) := by
  refine ⟨I.mem _, rfl, rfl, fun a ha ho hx => ⟨ha, ho, rfl, Nat.le_refl _, fun p p1 p2 => ?_⟩⟩
  have hne : a ≠ id := by rintro rfl; exact hx rfl
  have := tile_disjoint I.tile ha hid hne
  show store i.mem at_ bs p = _
  unfold store
  rw [if_neg (by omega)]

theorem store_nil {m : Nat → Byte} {at_ : Nat} : store m at_ [] = m := by
  funext p
  unfold store
  rw [if_neg (by simp)]

theorem map_range_add (f : Nat → Byte) (a b : Nat) :
    (List.range (a + b)).map f = (List.range a).map f ++ (List.range b).map (fun k => f (a + k)) := by
  rw [List.range_add, List.map_append, List.map_map]; rfl

theorem map_store (m : Nat → Byte) (at_ : Nat) (bs : Bytes) :
    (List.range bs.length).map (fun k => store m at_ bs (at_ + k)) = bs := by
  refine List.ext_getElem (by simp) (fun k h1 h2 => ?_)
  simp only [List.getElem_map, List.getElem_range]
  unfold store
  rw [if_pos (by omega), Nat.add_sub_cancel_left]
  simp [h2]

theorem map_store_out (m : Nat → Byte) (at_ p n : Nat) (bs : Bytes)
    (h : p + n ≤ at_ ∨ at_ + bs.length ≤ p) :
    (List.range n).map (fun k => store m at_ bs (p + k)) = (List.range n).map (fun k => m (p + k)) := by
  refine List.map_congr_left (fun k hk => ?_)
  have := List.mem_range.1 hk
  unfold store
  rw [if_neg (by omega)]

theorem take_map_range (f : Nat → Byte) {a b : Nat} (h : a ≤ b) :
    ((List.range b).map f).take a = (List.range a).map f := by
  obtain ⟨d, rfl⟩ := Nat.le.dest h
  rw [map_range_add, List.take_append_of_le_length (by simp), List.take_of_length_le (by simp)]

theorem drop_map_range (f : Nat → Byte) (a b : Nat) :
    ((List.range (a + b)).map f).drop a = (List.range b).map (fun k => f (a + k)) := by
  rw [map_range_add, List.drop_append_of_le_length (by simp), List.drop_of_length_le (by simp)]
  rfl

/-- The result of resizing a buffer. -/
structure Resized (s : State) (h : Nat) (b : Buf) (n : Nat) (r : Bool × State) (l fl : List Nat)
    (c : Buffers) : Prop where
  good : Good r.2 l fl c
  others : ∀ h', h' ≠ h → r.2.bufs h' = s.bufs h' ∧
    ∀ b', s.bufs h' = some b' → ptrOf r.2.i b' = ptrOf s.i b'
  buf : ∃ b', r.2.bufs h = some b' ∧ b'.size = b.size ∧ b'.len = b.len ∧ b'.align = b.align ∧
    (r.1 = true → (b'.region = none → n = 0) ∧
      ∀ id, b'.region = some id → (r.2.i.hdr id).start + (b.len + n) * b.size ≤ (r.2.i.hdr id).stop)

theorem resize_good {s : State} {l fl : List Nat} {c : Buffers} (G : Good s l fl c) {h n : Nat} {b : Buf}
    (hb : s.bufs h = some b) :
    ∃ l' fl', Resized s h b n (s.resize true h b n) l' fl' c := by
  have hok := G.ok h b hb
  unfold State.resize
  by_cases c1 : b.len + n ≤ b.cap
  · simp only [if_pos c1]
    refine ⟨l, fl, G, fun _ _ => ⟨rfl, fun _ _ => rfl⟩, b, hb, rfl, rfl, rfl, fun _ => ⟨fun hr => ?_, fun id hid => ?_⟩⟩
    · have := (hok.empty hr).2; omega
    · have := (hok.region id hid).2.2.2.1
      have := Nat.mul_le_mul_right b.size c1
      simp only; omega
  simp only [if_neg c1]
  cases hr : b.region with
  | none =>
    exact ⟨l, fl, G, fun _ _ => ⟨rfl, fun _ _ => rfl⟩, b, hb, rfl, rfl, rfl, fun h => nomatch h⟩
  | some id =>
    simp only
    by_cases c2 : maxBytes < b.len * b.size + n * b.size
    · simp only [if_pos c2]
      exact ⟨l, fl, G, fun _ _ => ⟨rfl, fun _ _ => rfl⟩, b, hb, rfl, rfl, rfl, fun h => nomatch h⟩
    simp only [if_neg c2]
    obtain ⟨r1, r2, r3, r4, r5⟩ := hok.region id hr
    have ht := tile_mem G.inv.tile r1
    have dm : ∀ (hh : Header), hh.start ≤ hh.stop → hh.start + hh.capacity / b.size * b.size ≤ hh.stop := by
      intro hh hle
      have := Nat.div_mul_le_self hh.capacity b.size
      have e : hh.capacity = hh.stop - hh.start := rfl
      omega
    by_cases c3 : b.len * b.size + n * b.size ≤ (s.i.hdr id).capacity
    · simp only [if_pos c3]
      have nb : Ok s.i l { b with region := some id, cap := (s.i.hdr id).capacity / b.size } :=
        ⟨hok.size, hok.align, (fun hn => nomatch hn), fun id' hid' => by
          cases hid'
          exact ⟨r1, r2, r3, dm _ ht.2.1, r5⟩⟩
      have g := good_set (h := h) (x := none)
        (nb := some { b with region := some id, cap := (s.i.hdr id).capacity / b.size })
        G G.inv (Keep.refl _ _ _) (fun _ _ _ _ _ _ => by simp) (fun b' hb' => by cases hb'; exact nb)
        (fun b' id' hb' hid' _ => by cases hb'; cases hid'; exact .inl ⟨b, hb, hr⟩)
      have hby : bytesOf s.i { b with region := some id, cap := (s.i.hdr id).capacity / b.size } =
          bytesOf s.i b := by
        unfold bytesOf ptrOf
        rw [hr]
      rw [buffers_set_self (by rw [G.holds h, hb]; simp only [Option.map]; rw [hby])] at g
      refine ⟨l, fl, g, fun h' hh => ⟨by simp [State.set, hh], fun _ _ => rfl⟩,
        { b with region := some id, cap := (s.i.hdr id).capacity / b.size }, by simp [State.set],
        rfl, rfl, rfl, fun _ => ⟨(fun hn => nomatch hn), fun id' hid' => ?_⟩⟩
      cases hid'
      unfold Header.capacity at c3
      rw [Nat.add_mul]
      show (s.i.hdr id).start + _ ≤ (s.i.hdr id).stop
      omega
    · simp only [if_neg c3]
      obtain ⟨l', fl', R⟩ := realloc_inv (requested := b.len * b.size + n * b.size) G.inv r1 r2 hok.align r5
        (Nat.le_add_right _ _) r3
      have hx : ∀ h' b' id', h' ≠ h → s.bufs h' = some b' → b'.region = some id' → some id ≠ some id' := by
        intro h' b' id' hh hb' hr' he
        cases he
        exact hh (G.own h' h b' b id hb' hb hr' hr)
      cases hx' : s.i.realloc true id (b.len * b.size) (b.len * b.size + n * b.size) b.align with
      | mk o i =>
      rw [hx'] at R
      cases o with
      | none =>
        simp only
        have K := R.none rfl
        refine ⟨l', fl', good_keep G R.inv K, fun h' hh => ⟨rfl, fun b' hb' => ?_⟩, b, hb, rfl, rfl, rfl,
          fun h => nomatch h⟩
        exact (ok_keep (G.ok h' b' hb') K (fun _ _ => by simp)).2.2
      | some id' =>
        simp only
        obtain ⟨q1, q2, q3, q4, q5, q6⟩ := R.some id' rfl
        simp only at q2 q4 q5 q6
        have tq := tile_mem R.inv.tile q1
        simp only at tq
        have nb : Ok i l' { b with region := some id', cap := (i.hdr id').capacity / b.size } :=
          ⟨hok.size, hok.align, (fun hn => nomatch hn), fun id2 hid2 => by
            cases hid2
            exact ⟨q1, q2, q4, dm _ tq.2.1, by show _ + b.len * b.size ≤ _; omega⟩⟩
        have g := good_set (h := h) (x := some id)
          (nb := some { b with region := some id', cap := (i.hdr id').capacity / b.size })
          G R.inv R.keep hx (fun b' hb' => by cases hb'; exact nb)
          (fun b' id2 hb' hid' hm => by
            cases hb'; cases hid'
            rcases q3 hm with rfl | q
            · exact .inl ⟨b, hb, hr⟩
            · exact .inr q)
        have hby : bytesOf i { b with region := some id', cap := (i.hdr id').capacity / b.size } =
            bytesOf s.i b := by
          unfold bytesOf ptrOf
          rw [hr]
          exact List.map_congr_left (fun k hk => q6 k (List.mem_range.1 hk))
        rw [buffers_set_self (by rw [G.holds h, hb]; simp only [Option.map]; rw [hby])] at g
        refine ⟨l', fl', g, fun h' hh => ⟨by simp [State.set, hh], fun b' hb' => ?_⟩,
          { b with region := some id', cap := (i.hdr id').capacity / b.size }, by simp [State.set],
          rfl, rfl, rfl, fun _ => ⟨(fun hn => nomatch hn), fun id2 hid2 => ?_⟩⟩
        · exact (ok_keep (G.ok h' b' hb') R.keep (fun id2 hid2 => hx h' b' id2 hh hb' hid2)).2.2
        · cases hid2
          rw [Nat.add_mul]
          exact q5

/-- Writing to a buffer, and changing its length. -/
theorem store_good {s : State} {l fl : List Nat} {c : Buffers} (G : Good s l fl c) {h off len : Nat} {b : Buf}
    {bs : Bytes} (hb : s.bufs h = some b)
    (h1 : b.region = none → bs = [] ∧ len = 0)
    (h2 : ∀ id, b.region = some id → (s.i.hdr id).start + (off + bs.length) ≤ (s.i.hdr id).stop ∧
      (s.i.hdr id).start + len * b.size ≤ (s.i.hdr id).stop) :
    Good ({ s with i := { s.i with mem := store s.i.mem (s.ptr b + off) bs } }.set h (some { b with len := len }))
      l fl (c.set h (some (b.size,
        (List.range (len * b.size)).map (fun k => store s.i.mem (s.ptr b + off) bs (s.ptr b + k))))) := by
  have hok := G.ok h b hb
  obtain hr | ⟨id, hr⟩ : b.region = none ∨ ∃ id, b.region = some id := by
    cases b.region <;> simp
  · obtain ⟨rfl, rfl⟩ := h1 hr
    rw [store_nil]
    have g := good_set (h := h) (x := none) (nb := some { b with len := 0 }) G G.inv (Keep.refl _ _ _)
      (fun _ _ _ _ _ _ => by simp)
      (fun b' hb' => by
        cases hb'
        exact ⟨hok.size, hok.align, fun _ => ⟨rfl, (hok.empty hr).2⟩, fun id hid => by
          simp only at hid; rw [hr] at hid; cases hid⟩)
      (fun b' id hb' hid => by cases hb'; simp only at hid; rw [hr] at hid; cases hid)
    simpa [bytesOf] using g
  · obtain ⟨r1, r2, r3, r4, r5⟩ := hok.region id hr
    obtain ⟨s1, s2⟩ := h2 id hr
    have hp : s.ptr b = (s.i.hdr id).start := by unfold State.ptr; rw [hr]
    rw [hp]
    obtain ⟨I, K⟩ := keep_store (at_ := (s.i.hdr id).start + off) (bs := bs) G.inv r1 (by omega) (by omega)
    have g := good_set (h := h) (x := some id) (nb := some { b with len := len }) G I K
      (fun h' b' id' hh hb' hr' he => by cases he; exact hh (G.own h' h b' b id hb' hb hr' hr))
      (fun b' hb' => by
        cases hb'
        refine ⟨hok.size, hok.align, (fun hn => by simp only at hn; rw [hr] at hn; cases hn), fun id' hid => ?_⟩
        simp only at hid; rw [hr] at hid; cases hid
        exact ⟨r1, r2, r3, r4, s2⟩)
      (fun b' id' hb' hid _ => by cases hb'; exact .inl ⟨b, hb, hid⟩)
    have e : bytesOf { s.i with mem := store s.i.mem ((s.i.hdr id).start + off) bs } { b with len := len } =
        (List.range (len * b.size)).map
          (fun k => store s.i.mem ((s.i.hdr id).start + off) bs ((s.i.hdr id).start + k)) := by
      unfold bytesOf ptrOf
      rw [hr]
    simp only [Option.map] at g
    rw [e] at g
    exact g

/-- `extend_from_slice` -/
theorem extend_good {s : State} {l fl : List Nat} {c : Buffers} (G : Good s l fl c) {h n : Nat} {b : Buf}
    {bytes : (Nat → Byte) → Bytes} {val : Bytes} (hb : s.bufs h = some b)
    (hv : ∀ l' fl', Resized s h b n (s.resize true h b n) l' fl' c →
      bytes (s.resize true h b n).2.i.mem = val)
    (hlen : val.length = n * b.size) :
    ∃ l' fl', Good (s.extendFromSlice true h b n bytes).2 l' fl'
      (if (s.extendFromSlice true h b n bytes).1 then
        c.set h (some (b.size, bytesOf s.i b ++ val)) else c) ∧
      (∀ h', h' ≠ h → (s.extendFromSlice true h b n bytes).2.bufs h' = s.bufs h') := by
  obtain ⟨l', fl', R⟩ := resize_good (n := n) G hb
  have hv := hv l' fl' R
  unfold State.extendFromSlice
  cases hx : s.resize true h b n with
  | mk ok s1 =>
  rw [hx] at R hv
  simp only at hv
  obtain ⟨b', e1, e2, e3, e4, e5⟩ := R.buf
  simp only at e1 e5
  have hc : bytesOf s1.i b' = bytesOf s.i b := by
    have q1 := R.good.holds h
    have q2 := G.holds h
    simp only at q1
    rw [q1, e1, hb] at q2
    simp only [Option.map, Option.some.injEq, Prod.mk.injEq] at q2
    exact q2.2
  cases ok with
  | false => exact ⟨l', fl', R.good, fun h' hh => (R.others h' hh).1⟩
  | true =>
    obtain ⟨e5, e6⟩ := e5 rfl
    simp only [e1, hv, if_true]
    refine ⟨l', fl', ?_, fun h' hh => ?_⟩
    · have hok := R.good.ok h b' e1
      have g := store_good (off := b'.len * b'.size) (len := b'.len + n) (bs := val) R.good e1
        (fun hr => by
          have := (hok.empty hr).1
          have := e5 hr
          subst this
          simp at hlen
          exact ⟨hlen, by omega⟩)
        (fun id hid => by
          have := e6 id hid
          rw [← e2, ← e3, Nat.add_mul] at this
          rw [Nat.add_mul, hlen, ← e2]
          exact ⟨this, this⟩)
      rw [Nat.add_mul] at g
      have hn : n * b'.size = val.length := by rw [hlen, e2]
      rw [map_range_add (fun k => store s1.i.mem (s1.ptr b' + b'.len * b'.size) val (s1.ptr b' + k)),
        map_store_out _ _ _ _ _ (.inl (Nat.le_refl _)), hn] at g
      have e : (List.range val.length).map (fun k => store s1.i.mem (s1.ptr b' + b'.len * b'.size) val
          (s1.ptr b' + (b'.len * b'.size + k))) = val := by
        have := map_store s1.i.mem (s1.ptr b' + b'.len * b'.size) val
        simpa only [Nat.add_assoc] using this
      rw [e, show (List.range (b'.len * b'.size)).map (fun k => s1.i.mem (s1.ptr b' + k)) = bytesOf s1.i b' from rfl,
        hc] at g
      rw [← e2]
      exact g
    · simp only [State.set, if_neg hh]
      exact (R.others h' hh).1

/-- Dropping a buffer -/
theorem drop_good {s : State} {l fl : List Nat} {c : Buffers} (G : Good s l fl c) {h : Nat} {b : Buf}
    (hb : s.bufs h = some b) : ∃ l' fl', Good (s.drop h b) l' fl' (c.set h none) := by
  unfold State.drop
  have hok := G.ok h b hb
  cases hr : b.region with
  | none =>
    exact ⟨l, fl, good_set (h := h) (x := none) (nb := none) G G.inv (Keep.refl _ _ _)
      (fun _ _ _ _ _ _ => by simp) (fun _ h => nomatch h) (fun _ _ h => nomatch h)⟩
  | some id =>
    obtain ⟨r1, r2, r3, r4, r5⟩ := hok.region id hr
    obtain ⟨l', fl', I, K, _⟩ := free_inv G.inv r1 r2
    exact ⟨l', fl', good_set (h := h) (x := some id) (nb := none) G I K
      (fun h' b' id' hh hb' hr' he => by cases he; exact hh (G.own h' h b' b id hb' hb hr' hr))
      (fun _ h => nomatch h) (fun _ _ h => nomatch h)⟩

end Musli.Slice
