import Verif.Proofs.SysVec
/-!
# Every call keeps memory and account together
-/
namespace Musli.Sys

set_option linter.unusedSectionVars false

variable {E : Elem} {bomb : Tok → Bool}

/-- The account is right. -/
def Good (E : Elem) (s : State) (w : World) : Prop :=
  Inv E s.heap s.objs w.objs ∧ (E.copy = false → Counted w s.dropped)

theorem runDrops_out (s : State) (vs : List Tok) : (runDrops E bomb s vs).1 = dropping E bomb vs := by
  unfold runDrops dropping
  split
  · rfl
  · rw [List.countP_eq_length_filter]
    rfl

theorem runDrops_state (s : State) (vs : List Tok) :
    (runDrops E bomb s vs).2 = { s with dropped := if E.copy then s.dropped else vs.reverse ++ s.dropped } := by
  unfold runDrops
  split
  · rfl
  · rfl

theorem runDrops_eq (s : State) (vs : List Tok) : runDrops E bomb s vs =
    (dropping E bomb vs, { s with dropped := if E.copy then s.dropped else vs.reverse ++ s.dropped }) := by
  rw [← runDrops_out, ← runDrops_state]

theorem upd_upd {α : Type} (f : Nat → Option α) (k : Nat) (a b : Option α) :
    upd (upd f k a) k b = upd f k b := by
  funext i
  unfold upd
  split <;> rfl

/-- Dropping one value never aborts. -/
theorem dropping_one (v : Tok) : dropping E bomb [v] = .ok ∨ dropping E bomb [v] = .panic := by
  unfold dropping
  split
  · exact .inl rfl
  · cases h : bomb v with
    | true => right; simp [h]
    | false => left; simp [h]

theorem dropping_cases (vs : List Tok) :
    dropping E bomb vs = .ok ∨ dropping E bomb vs = .panic ∨ dropping E bomb vs = .abort := by
  unfold dropping
  split
  · exact .inl rfl
  · split
    · exact .inl rfl
    · exact .inr (.inl rfl)
    · exact .inr (.inr rfl)

theorem count_getLast {l : List Tok} {v : Tok} (h : l.getLast? = some v) (t : Nat) :
    l.count t = l.dropLast.count t + [v].count t := by
  have h1 : l.dropLast ++ [v] = l := by
    rw [List.getLast?_eq_some_iff] at h
    obtain ⟨ys, rfl⟩ := h
    simp
  conv => lhs; rw [← h1]
  rw [List.count_append]

/-- What the next state of a call looks like, whatever the call. -/
def After (E : Elem) (bomb : Tok → Bool) (s : State) (w : World) (op : Op) : Prop :=
  ∃ out s', step true E bomb s op = .ok (out, s') ∧ op.Expected E bomb w out ∧
    (out ≠ .abort → Good E s' (w.next op out))

section
variable {s : State} {w : World}

theorem after_new (hg : Good E s w) {h : Nat} (hp : (Op.new h).Possible E w) :
    After E bomb s w (.new h) := by
  have hp : w.objs.get h = none := hp
  refine ⟨_, _, rfl, rfl, fun _ => ⟨?_, fun hc t => ?_⟩⟩
  · refine hg.1.put (x := ⟨.dangling, 0, false⟩) (l := []) ?_ rfl (dangling_holds _)
    rw [place_none ((hg.1.absent h).mpr hp)]
    exact Change.refl hg.1.fresh _
  · have h1 := Contents.count_put hg.1.keys h t false []
    rw [Contents.list_of_none hp] at h1
    have h2 := hg.2 hc t
    simp only [List.count_nil, Nat.add_zero] at h1
    show _ = List.count t (Contents.live (Contents.put _ _ _)) + _ + _
    rw [h1]
    exact h2

theorem after_withCapacity (hg : Good E s w) {h n : Nat} {fail : Bool}
    (hp : (Op.withCapacity h n fail).Possible E w) : After E bomb s w (.withCapacity h n fail) := by
  have hp : w.objs.get h = none := hp.1
  obtain ⟨d, a', H1, h1, h2, h3, h4⟩ := resize_holds hg.1.fresh (dangling_holds (E := E) s.heap) fail n
  have h1 : SystemAlloc.dangling.resize E s.heap fail 0 n = .ok (d, a', H1) := h1
  have hnone := place_none ((hg.1.absent h).mpr hp)
  unfold After
  simp only [step, bind, Except.bind, h1]
  cases d with
  | true =>
    refine ⟨_, _, rfl, .inl rfl, fun _ => ⟨?_, fun hc t => ?_⟩⟩
    · refine hg.1.put (x := ⟨a', 0, false⟩) (l := []) ?_ rfl h2
      rw [hnone]
      exact h3
    · have h1 := Contents.count_put hg.1.keys h t false []
      rw [Contents.list_of_none hp] at h1
      have h2 := hg.2 hc t
      simp only [List.count_nil, Nat.add_zero] at h1
      show _ = List.count t (Contents.live (Contents.put _ _ _)) + _ + _
      rw [h1]
      exact h2
  | false =>
    obtain ⟨H2, h5, h6⟩ := free_holds h3.fresh h2
    rw [if_neg (by decide), h5]
    refine ⟨_, _, rfl, .inr rfl, fun _ => ⟨?_, hg.2⟩⟩
    have h7 : Change s.heap H2 none none := h3.trans hg.1.fresh h6
    have h8 := hg.1.del (h := h) (by rw [hnone]; exact h7)
    have e1 : upd s.objs h none = s.objs := by
      funext k
      unfold upd
      split
      · rename_i e
        subst e
        exact ((hg.1.absent k).mpr hp).symm
      · rfl
    have e2 : w.objs.del h = w.objs := by
      apply Contents.del_of_not_mem
      intro hm
      obtain ⟨x, hx, e⟩ := List.mem_map.mp hm
      unfold Contents.get at hp
      rw [Option.map_eq_none_iff, List.find?_eq_none] at hp
      exact hp x hx (by simpa using e)
    rw [e1, e2] at h8
    exact h8

/-- A call which changes the memory of a vector, but not its contents. -/
theorem same_contents (hI : Inv E s.heap s.objs w.objs) {h : Nat} {x x' : Obj} {b : Bool} {l : List Tok} {H' : Heap}
    (hx : s.objs h = some x) (hget : w.objs.get h = some (b, l)) (hb : x'.boxed = b)
    (hc : Change s.heap H' x.buf.data x'.buf.data) (hl : x'.len = l.length) (hh : Holds E H' x'.buf l) :
    Inv E H' (upd s.objs h (some x')) w.objs := by
  have h1 := hI.put (h := h) (by rw [place_some hx]; exact hc) hl hh
  refine ⟨hI.keys, h1.fresh, ?_, ?_, h1.distinct, h1.owned⟩
  · intro k
    have h2 := h1.absent k
    by_cases hk : k = h
    · subst hk
      rw [upd_same, hget]
      simp
    · rw [h2, Contents.get_put_other _ hk]
  · intro k y c m hy hm
    have h2 := h1.holds k y c m hy
    by_cases hk : k = h
    · subst hk
      rw [hget] at hm
      cases hm
      exact h2 (by rw [Contents.get_put_same, hb])
    · exact h2 (by rw [Contents.get_put_other _ hk]; exact hm)

theorem after_reserve (hg : Good E s w) {h n : Nat} {fail : Bool}
    (hp : (Op.reserve h n fail).Possible E w) : After E bomb s w (.reserve h n fail) := by
  obtain ⟨⟨l, hget⟩, -⟩ := hp
  obtain ⟨x, hx, hb, hl, hh⟩ := hg.1.find hget
  unfold After
  simp only [step, hx]
  split
  · exact ⟨_, _, rfl, .inl rfl, fun _ => hg⟩
  · obtain ⟨d, a', H1, h1, h2, h3, h4⟩ := resize_holds hg.1.fresh hh fail n
    rw [hl]
    simp only [bind, Except.bind, h1]
    refine ⟨_, _, rfl, ?_, fun _ => ⟨?_, ?_⟩⟩
    · cases d
      · exact .inr rfl
      · exact .inl rfl
    · have : (w.next (.reserve h n fail) (if d = true then .ok else .err)) = w := by
        cases d <;> rfl
      rw [this]
      exact same_contents hg.1 hx hget hb h3 rfl h2
    · have : (w.next (.reserve h n fail) (if d = true then .ok else .err)) = w := by
        cases d <;> rfl
      rw [this]
      exact hg.2

theorem after_push (hg : Good E s w) {h : Nat} {v : Tok} {fail : Bool}
    (hp : (Op.push h v fail).Possible E w) : After E bomb s w (.push h v fail) := by
  obtain ⟨⟨l, hget⟩, hv⟩ := hp
  obtain ⟨x, hx, hb, hl, hh⟩ := hg.1.find hget
  have hlist := Contents.list_of_get hget
  have hcount : E.copy = false → ∀ t, List.count t (v :: w.given) =
      List.count t (w.objs.put h (false, l ++ [v])).live + List.count t s.dropped + List.count t w.returned := by
    intro hc t
    have h1 := Contents.count_put hg.1.keys h t false (l ++ [v])
    rw [hlist, List.count_append] at h1
    have h2 := hg.2 hc t
    have h3 : List.count t (v :: w.given) = List.count t [v] + List.count t w.given := by
      rw [← List.count_append]; rfl
    omega
  unfold After
  simp only [step, hx]
  split
  · rename_i hs
    rw [if_pos trivial]
    refine ⟨_, _, rfl, .inl rfl, fun _ => ⟨?_, ?_⟩⟩
    · show Inv E _ _ (w.objs.put h (false, w.objs.list h ++ [v]))
      rw [hlist, ← hb]
      refine hg.1.put (x := { x with len := x.len + 1 }) ?_ (by simp [hl]) ⟨fun _ => ⟨(hh.1 hs).1, ?_⟩, fun h => by omega⟩
      · rw [place_some hx]
        exact Change.refl hg.1.fresh _
      · intro t ht
        rcases List.mem_append.mp ht with h | h
        · exact (hh.1 hs).2 t h
        · rw [List.mem_singleton.mp h]
          exact hv hs
    · intro hc
      show Counted { w with objs := w.objs.put h (false, w.objs.list h ++ [v]), given := v :: w.given } _
      rw [hlist]
      exact hcount hc
  · rename_i hs
    obtain ⟨d, a', H1, h1, h2, h3, h4⟩ := resize_holds hg.1.fresh hh fail 1
    rw [hl]
    simp only [bind, Except.bind, h1]
    cases d with
    | false =>
      have hI : Inv E H1 (upd s.objs h (some { x with buf := a' })) w.objs :=
        same_contents hg.1 hx hget hb h3 hl h2
      rw [runDrops_eq]
      rw [← hl]
      have hgood : ∀ out, out ≠ .ok → Good E { s with heap := H1, objs := upd s.objs h (some { x with buf := a' }), dropped := if E.copy = true then s.dropped else [v].reverse ++ s.dropped } (w.next (.push h v fail) out) := by
        intro out hout
        have hn : w.next (.push h v fail) out = { w with given := v :: w.given } := by
          cases out <;> first | rfl | exact absurd rfl hout
        rw [hn]
        refine ⟨hI, fun hc t => ?_⟩
        have h5 := hg.2 hc t
        show List.count t (v :: w.given) = _ + List.count t (if E.copy = true then _ else _) + _
        rw [if_neg (by simp [hc])]
        have h6 : List.count t (v :: w.given) = List.count t [v] + List.count t w.given := by
          rw [← List.count_append]; rfl
        have h7 : List.count t ([v].reverse ++ s.dropped) = List.count t [v] + List.count t s.dropped := by
          rw [← List.count_append]; rfl
        rw [h7, h6, h5]
        show _ = List.count t w.objs.live + _ + List.count t w.returned
        omega
      rcases dropping_one (E := E) (bomb := bomb) v with hd | hd
      · rw [hd]
        exact ⟨_, _, rfl, .inr (.inl rfl), fun _ => hgood _ (by decide)⟩
      · rw [hd]
        exact ⟨_, _, rfl, .inr (.inr ⟨rfl, hd⟩), fun _ => hgood _ (by decide)⟩
    | true =>
      obtain ⟨H2, h5, h6, h7⟩ := write_spec h3.fresh (h2.2 (by omega)) [v] (h4 rfl (by omega))
      rw [if_neg (by decide), h5]
      refine ⟨_, _, rfl, .inl rfl, fun _ => ⟨?_, ?_⟩⟩
      · show Inv E _ _ (w.objs.put h (false, w.objs.list h ++ [v]))
        rw [hlist, ← hb]
        have := hg.1.put (h := h) (H' := H2) (x := { x with buf := a', len := l.length + 1 }) (l := l ++ [v])
          (by rw [place_some hx]; exact h3.trans hg.1.fresh h7) (by simp) ⟨fun h => absurd h hs, fun _ => h6⟩
        rw [upd_upd]
        exact this
      · intro hc
        show Counted { w with objs := w.objs.put h (false, w.objs.list h ++ [v]), given := v :: w.given } _
        rw [hlist]
        exact hcount hc

theorem after_pop (hg : Good E s w) {h : Nat} (hp : (Op.pop h).Possible E w) :
    After E bomb s w (.pop h) := by
  obtain ⟨l, hget⟩ := hp
  obtain ⟨x, hx, hb, hl, hh⟩ := hg.1.find hget
  have hlist := Contents.list_of_get hget
  unfold After
  simp only [step, hx]
  rcases List.eq_nil_or_concat l with rfl | ⟨m, v, hm⟩
  · rw [show x.len = 0 from hl]
    refine ⟨_, _, rfl, ?_, fun _ => hg⟩
    show _ = Out.item (w.objs.list h).getLast?
    rw [hlist]
    rfl
  · rw [List.concat_eq_append] at hm
    subst hm
    have hlen : x.len = m.length + 1 := by rw [hl]; simp
    have hgl : (m ++ [v]).getLast? = some v := by simp
    rw [hlen]
    dsimp only
    -- what remains is the same in both cases
    have fin : ∀ out, out = Out.item (some v) → (Op.pop h).Expected E bomb w out ∧
        (out ≠ .abort → Good E { s with objs := upd s.objs h (some { x with len := m.length }) } (w.next (.pop h) out)) := by
      rintro out rfl
      refine ⟨?_, fun _ => ⟨?_, fun hc t => ?_⟩⟩
      · show _ = Out.item (w.objs.list h).getLast?
        rw [hlist, hgl]
      · show Inv E _ _ (w.objs.put h (false, (w.objs.list h).dropLast))
        rw [hlist, List.dropLast_concat, ← hb]
        refine hg.1.put (x := { x with len := m.length }) ?_ rfl ⟨fun hs => ⟨(hh.1 hs).1, ?_⟩, fun hs => ?_⟩
        · rw [place_some hx]
          exact Change.refl hg.1.fresh _
        · intro t ht
          exact (hh.1 hs).2 t (List.mem_append_left _ ht)
        · have ho := hh.2 hs
          have hr := ho.room
          refine ⟨by show m.length ≤ x.buf.size; simp at hr; omega, ho.empty, fun h0 => ?_⟩
          obtain ⟨p, b, h1, h2, h3, h4, h5, h6, h7⟩ := ho.block h0
          refine ⟨p, b, h1, h2, h3, h4, h5, ?_, h7⟩
          have := congrArg (List.take m.length) h6
          rw [List.take_take, List.length_append, Nat.min_eq_left (Nat.le_add_right _ _)] at this
          rw [this, List.map_append, List.take_append_of_le_length (by simp)]
          exact List.take_of_length_le (by simp)
      · show List.count t w.given = List.count t (w.objs.put h (false, (w.objs.list h).dropLast)).live + _ +
          List.count t (v :: w.returned)
        have h1 := Contents.count_put hg.1.keys h t false m
        rw [hlist, List.count_append] at h1
        rw [hlist, List.dropLast_concat]
        have h2 := hg.2 hc t
        have h3 : List.count t (v :: w.returned) = List.count t [v] + List.count t w.returned := by
          rw [← List.count_append]; rfl
        show _ = _ + List.count t s.dropped + _
        omega
    split
    · rename_i hs
      have hv0 : v = 0 := (hh.1 hs).2 v (by simp)
      exact ⟨_, _, rfl, fin _ (by rw [hv0])⟩
    · rename_i hs
      have hr : s.heap.read x.buf.data m.length 1 = .ok [v] := by
        rw [read_spec (hh.2 (by omega)) m.length 1 (by simp)]
        simp
      simp only [bind, Except.bind, hr]
      exact ⟨_, _, rfl, fin _ rfl⟩

theorem after_clear (hg : Good E s w) {h : Nat} (hp : (Op.clear h).Possible E w) :
    After E bomb s w (.clear h) := by
  obtain ⟨l, hget⟩ := hp
  obtain ⟨x, hx, hb, hl, hh⟩ := hg.1.find hget
  have hlist := Contents.list_of_get hget
  unfold After
  simp only [step, hx, clear, values_spec hl hh, bind, Except.bind, if_pos, runDrops_eq]
  refine ⟨_, _, rfl, ?_, fun _ => ⟨?_, fun hc t => ?_⟩⟩
  · show _ = dropping E bomb (w.objs.list h)
    rw [hlist]
  · show Inv E _ _ (w.objs.put h (false, []))
    rw [← hb]
    refine hg.1.put (x := { x with len := 0 }) ?_ rfl ⟨fun hs => ⟨(hh.1 hs).1, fun v h => (nomatch h)⟩, fun hs => ?_⟩
    · rw [place_some hx]
      exact Change.refl hg.1.fresh _
    · have ho := hh.2 hs
      refine ⟨Nat.zero_le _, ho.empty, fun h0 => ?_⟩
      obtain ⟨p, b, h1, h2, h3, h4, h5, h6, h7⟩ := ho.block h0
      exact ⟨p, b, h1, h2, h3, h4, h5, rfl, h7⟩
  · show List.count t w.given = List.count t (w.objs.put h (false, [])).live + List.count t (if E.copy = true then _ else _) + _
    rw [if_neg (by simp [hc]), List.count_append, List.count_reverse]
    have h1 := Contents.count_put hg.1.keys h t false []
    rw [hlist, List.count_nil] at h1
    have h2 := hg.2 hc t
    show _ = _ + _ + List.count t w.returned
    omega

theorem after_read (hg : Good E s w) {h : Nat} (hp : (Op.read h).Possible E w) :
    After E bomb s w (.read h) := by
  obtain ⟨b, l, hget⟩ := hp
  obtain ⟨x, hx, hb, hl, hh⟩ := hg.1.find hget
  have hlist := Contents.list_of_get hget
  unfold After
  simp only [step, hx, values_spec hl hh, bind, Except.bind]
  refine ⟨_, _, rfl, ?_, fun _ => hg⟩
  show _ = Out.items (w.objs.list h)
  rw [hlist]

theorem after_extendFromSlice (hg : Good E s w) {h : Nat} {vs : List Tok} {fail : Bool}
    (hp : (Op.extendFromSlice h vs fail).Possible E w) : After E bomb s w (.extendFromSlice h vs fail) := by
  obtain ⟨⟨l, hget⟩, hcopy, hv⟩ := hp
  obtain ⟨x, hx, hb, hl, hh⟩ := hg.1.find hget
  have hlist := Contents.list_of_get hget
  obtain ⟨d, x', H1, h1, h2, h3, h4, h5⟩ := extend_holds hg.1.fresh hl hh vs hv fail
  unfold After
  simp only [step, hx, bind, Except.bind, h1]
  cases d with
  | true =>
    refine ⟨_, _, rfl, .inl rfl, fun _ => ⟨?_, fun hc => by simp [hc] at hcopy⟩⟩
    show Inv E _ _ (w.objs.put h (false, w.objs.list h ++ vs))
    rw [hlist, ← hb, ← h2]
    exact hg.1.put (by rw [place_some hx]; exact h3) (h4 rfl).1 (h4 rfl).2
  | false =>
    refine ⟨_, _, rfl, .inr rfl, fun _ => ⟨?_, hg.2⟩⟩
    exact same_contents hg.1 hx hget (h2.trans hb) h3 (h5 rfl).1 (h5 rfl).2

theorem after_extend (hg : Good E s w) {h o : Nat} {fail : Bool}
    (hp : (Op.extend h o fail).Possible E w) : After E bomb s w (.extend h o fail) := by
  obtain ⟨⟨l, hget⟩, ⟨m, hget'⟩, hne, hcopy⟩ := hp
  obtain ⟨x, hx, hb, hl, hh⟩ := hg.1.find hget
  obtain ⟨y, hy, hb', hl', hh'⟩ := hg.1.find hget'
  have hlist := Contents.list_of_get hget
  have hlist' := Contents.list_of_get hget'
  have hnc : ∀ {p : Prop}, E.copy = false → p := fun hc => by simp [hc] at hcopy
  unfold After
  simp only [step, hx, hy]
  have keep : ∀ (x' : Option Obj), upd s.objs h x' o = some y := fun x' => by
    rw [upd_other _ (Ne.symm hne), hy]
  split
  · rename_i hs
    refine ⟨_, _, rfl, .inl rfl, fun _ => ⟨?_, fun hc => hnc hc⟩⟩
    show Inv E _ _ ((w.objs.put h (false, w.objs.list h ++ w.objs.list o)).del o)
    rw [hlist, hlist', ← hb]
    have h1 := hg.1.put (h := h) (x := { x with len := x.len + y.len }) (l := l ++ m)
      (by rw [place_some hx]; exact Change.refl hg.1.fresh _) (by simp [hl, hl'])
      ⟨fun hs => ⟨(hh.1 hs).1, fun v hv => by
        rcases List.mem_append.mp hv with h | h
        · exact (hh.1 hs).2 v h
        · exact (hh'.1 hs).2 v h⟩, fun h => by omega⟩
    refine h1.del ?_
    rw [place_some (keep _), (hh'.1 hs).1]
    exact Change.refl hg.1.fresh _
  · rename_i hs
    simp only [values_spec hl' hh', bind, Except.bind]
    obtain ⟨d, x', H1, h1, h2, h3, h4, h5⟩ := extend_holds hg.1.fresh hl hh m (fun h => absurd h hs) fail
    rw [h1]
    have hy1 : Holds E H1 y.buf m := hh'.frame h3 hg.1.fresh (fun p hp => by
      rw [← place_some hx]
      exact hg.1.place_ne (Ne.symm hne) hy p hp)
    obtain ⟨H2, h6, h7⟩ := free_holds h3.fresh hy1
    simp only [h6]
    cases d with
    | true =>
      refine ⟨_, _, rfl, .inl rfl, fun _ => ⟨?_, fun hc => hnc hc⟩⟩
      show Inv E _ _ ((w.objs.put h (false, w.objs.list h ++ w.objs.list o)).del o)
      rw [hlist, hlist', ← hb, ← h2]
      have h8 := hg.1.put (by rw [place_some hx]; exact h3) (h4 rfl).1 (h4 rfl).2
      exact h8.del (by rw [place_some (keep _)]; exact h7)
    | false =>
      refine ⟨_, _, rfl, .inr rfl, fun _ => ⟨?_, fun hc => hnc hc⟩⟩
      show Inv E _ _ (w.objs.del o)
      have h8 := same_contents hg.1 hx hget (h2.trans hb) h3 (h5 rfl).1 (h5 rfl).2
      exact h8.del (by rw [place_some (keep _)]; exact h7)

theorem after_intoStd (hg : Good E s w) {h : Nat} (hp : (Op.intoStd h).Possible E w) :
    After E bomb s w (.intoStd h) := by
  obtain ⟨l, hget⟩ := hp
  obtain ⟨x, hx, hb, hl, hh⟩ := hg.1.find hget
  have hlist := Contents.list_of_get hget
  obtain ⟨H1, h1, h2⟩ := free_holds hg.1.fresh hh
  unfold After
  simp only [step, hx, values_spec hl hh, bind, Except.bind, h1]
  refine ⟨_, _, rfl, ?_, fun _ => ⟨?_, fun hc t => ?_⟩⟩
  · show _ = Out.items (w.objs.list h)
    rw [hlist]
  · exact hg.1.del (by rw [place_some hx]; exact h2)
  · show List.count t w.given = List.count t (w.objs.del h).live + List.count t s.dropped + List.count t (l ++ w.returned)
    have h3 := Contents.count_del hg.1.keys h t
    rw [hlist] at h3
    have h4 := hg.2 hc t
    rw [List.count_append]
    omega

/-- Memory with elements in it which has just been made. -/
theorem fresh_block (hs : 0 < E.size) {H : Heap} (hf : Fresh H) {cap : Nat} (vs : List Tok) (hc : vs.length ≤ cap)
    (h0 : 0 < cap) (hm : cap * E.size ≤ maxBytes E.align) (fail : Bool) :
    (H.alloc fail (cap * E.size) E.align cap = .ok (none, H) ∧ fail = true) ∨
    ∃ H1 H2, H.alloc fail (cap * E.size) E.align cap = .ok (some H.next, H1) ∧
      H1.write (some H.next) 0 vs = .ok H2 ∧
      Owns E H2 ⟨some H.next, cap⟩ vs ∧ Change H H2 none (some H.next) := by
  rcases alloc_spec hf fail (Nat.mul_pos h0 hs) hm with h | ⟨H1, h1, h2, h3⟩
  · exact .inl h
  · obtain ⟨H2, h4, h5, h6⟩ := write_spec h3.fresh h2 vs (by simpa using hc)
    exact .inr ⟨H1, H2, h1, h4, h5, h3.trans hf h6⟩

/-- Counting a new vector or box. -/
theorem count_new (hg : Good E s w) {h : Nat} (hp : w.objs.get h = none) (b : Bool) (vs : List Tok)
    (hc : E.copy = false) :
    Counted { w with objs := w.objs.put h (b, vs), given := vs ++ w.given } s.dropped := by
  intro t
  have h1 := Contents.count_put hg.1.keys h t b vs
  rw [Contents.list_of_none hp, List.count_nil] at h1
  have h2 := hg.2 hc t
  show List.count t (vs ++ w.given) = _ + _ + List.count t w.returned
  rw [List.count_append]
  show _ = List.count t (w.objs.put h (b, vs)).live + _ + _
  omega

theorem after_fromStd (hg : Good E s w) {h cap : Nat} {vs : List Tok} (hp : (Op.fromStd h vs cap).Possible E w) :
    After E bomb s w (.fromStd h vs cap) := by
  obtain ⟨hp, hz, hcap⟩ := hp
  have hnone := place_none ((hg.1.absent h).mpr hp)
  unfold After
  simp only [step]
  split
  · rename_i hs
    refine ⟨_, _, rfl, rfl, fun _ => ⟨?_, count_new hg hp false vs⟩⟩
    refine hg.1.put (h := h) (x := ⟨⟨none, 2 ^ 64 - 1⟩, vs.length, false⟩) (l := vs) ?_ rfl ⟨fun h => ⟨rfl, hz h⟩, fun h => by omega⟩
    rw [hnone]
    exact Change.refl hg.1.fresh _
  · rename_i hs
    have hcap := hcap (by omega)
    split
    · rename_i h0
      subst h0
      have : vs = [] := List.length_eq_zero_iff.mp (by omega)
      subst this
      refine ⟨_, _, rfl, rfl, fun _ => ⟨?_, count_new hg hp false []⟩⟩
      refine hg.1.put (h := h) (x := ⟨.dangling, 0, false⟩) (l := []) ?_ rfl (dangling_holds _)
      rw [hnone]
      exact Change.refl hg.1.fresh _
    · rename_i h0
      rcases fresh_block (E := E) (by omega) hg.1.fresh vs hcap.1 (by omega) hcap.2 false with ⟨-, h⟩ | ⟨H1, H2, h1, h2, h3, h4⟩
      · cases h
      · simp only [bind, Except.bind, h1, h2]
        refine ⟨_, _, rfl, rfl, fun _ => ⟨?_, count_new hg hp false vs⟩⟩
        refine hg.1.put (h := h) (x := ⟨⟨some s.heap.next, cap⟩, vs.length, false⟩) (l := vs) ?_ rfl
          ⟨fun h => absurd h hs, fun _ => h3⟩
        rw [hnone]
        exact h4

theorem after_box (hE : E.Valid) (hg : Good E s w) {h : Nat} {v : Tok} {fail : Bool} (hp : (Op.box h v fail).Possible E w) :
    After E bomb s w (.box h v fail) := by
  obtain ⟨hp, hz⟩ := hp
  have hnone := place_none ((hg.1.absent h).mpr hp)
  unfold After
  by_cases hs : E.size = 0
  · simp only [step, SystemAlloc.alloc, if_pos hs, bind, Except.bind]
    refine ⟨_, _, rfl, .inl rfl, fun _ => ⟨?_, count_new hg hp true [v]⟩⟩
    refine hg.1.put (h := h) (x := ⟨⟨none, 1⟩, 1, true⟩) (l := [v]) ?_ rfl
      ⟨fun h => ⟨rfl, fun t ht => by rw [List.mem_singleton.mp ht]; exact hz h⟩, fun h => by omega⟩
    rw [hnone]
    exact Change.refl hg.1.fresh _
  · simp only [step, SystemAlloc.alloc, if_neg hs]
    rcases fresh_block (E := E) (cap := 1) (by omega) hg.1.fresh [v] (by simp) (by omega) (by rw [Nat.one_mul]; exact hE.size) fail
      with ⟨h1, -⟩ | ⟨H1, H2, h1, h2, h3, h4⟩
    · rw [Nat.one_mul] at h1
      simp only [bind, Except.bind, h1, runDrops_eq]
      have hgood : ∀ out, out ≠ .ok → Good E { s with dropped := if E.copy = true then s.dropped else [v].reverse ++ s.dropped } (w.next (.box h v fail) out) := by
        intro out hout
        have hn : w.next (.box h v fail) out = { w with given := v :: w.given } := by
          cases out <;> first | rfl | exact absurd rfl hout
        rw [hn]
        refine ⟨hg.1, fun hc t => ?_⟩
        have h5 := hg.2 hc t
        show List.count t (v :: w.given) = _ + List.count t (if E.copy = true then _ else _) + _
        rw [if_neg (by simp [hc])]
        have h6 : List.count t (v :: w.given) = List.count t [v] + List.count t w.given := by
          rw [← List.count_append]; rfl
        have h7 : List.count t ([v].reverse ++ s.dropped) = List.count t [v] + List.count t s.dropped := by
          rw [← List.count_append]; rfl
        rw [h7, h6, h5]
        show _ = List.count t w.objs.live + _ + List.count t w.returned
        omega
      rcases dropping_one (E := E) (bomb := bomb) v with hd | hd
      · rw [hd]
        exact ⟨_, _, rfl, .inr (.inl rfl), fun _ => hgood _ (by decide)⟩
      · rw [hd]
        exact ⟨_, _, rfl, .inr (.inr ⟨rfl, hd⟩), fun _ => hgood _ (by decide)⟩
    · rw [Nat.one_mul] at h1
      simp only [bind, Except.bind, h1, h2]
      refine ⟨_, _, rfl, .inl rfl, fun _ => ⟨?_, count_new hg hp true [v]⟩⟩
      refine hg.1.put (h := h) (x := ⟨⟨some s.heap.next, 1⟩, 1, true⟩) (l := [v]) ?_ rfl
        ⟨fun h => absurd h hs, fun _ => h3⟩
      rw [hnone]
      exact h4

theorem after_drop (hg : Good E s w) {h : Nat} (hp : (Op.drop h).Possible E w) :
    After E bomb s w (.drop h) := by
  obtain ⟨b, l, hget⟩ := hp
  obtain ⟨x, hx, hb, hl, hh⟩ := hg.1.find hget
  have hlist := Contents.list_of_get hget
  obtain ⟨H1, h1, h2⟩ := free_holds hg.1.fresh hh
  unfold After
  simp only [step, hx, dropObj, values_spec hl hh, bind, Except.bind, runDrops_eq]
  have hexp : (Op.drop h).Expected E bomb w (dropping E bomb l) := by
    show _ = dropping E bomb (w.objs.list h)
    rw [hlist]
  split
  · rename_i ha
    exact ⟨_, _, rfl, hexp, fun h => absurd ha h⟩
  · rw [h1]
    refine ⟨_, _, rfl, hexp, fun _ => ⟨?_, fun hc t => ?_⟩⟩
    · exact hg.1.del (by rw [place_some hx]; exact h2)
    · show List.count t w.given = List.count t (w.objs.del h).live + List.count t (if E.copy = true then _ else _) + _
      rw [if_neg (by simp [hc]), List.count_append, List.count_reverse]
      have h3 := Contents.count_del hg.1.keys h t
      rw [hlist] at h3
      have h4 := hg.2 hc t
      show _ = _ + _ + List.count t w.returned
      omega

theorem after (hE : E.Valid) (hg : Good E s w) {op : Op} (hp : op.Possible E w) : After E bomb s w op := by
  cases op with
  | new h => exact after_new hg hp
  | withCapacity h n fail => exact after_withCapacity hg hp
  | reserve h n fail => exact after_reserve hg hp
  | push h v fail => exact after_push hg hp
  | pop h => exact after_pop hg hp
  | clear h => exact after_clear hg hp
  | read h => exact after_read hg hp
  | extendFromSlice h vs fail => exact after_extendFromSlice hg hp
  | extend h o fail => exact after_extend hg hp
  | intoStd h => exact after_intoStd hg hp
  | fromStd h vs cap => exact after_fromStd hg hp
  | box h v fail => exact after_box hE hg hp
  | drop h => exact after_drop hg hp

end

theorem good_init : Good E .init .init := ⟨Inv.init E, fun _ _ => rfl⟩

theorem runs_good (hE : E.Valid) {s : State} {w : World} (h : Runs true E bomb s w) : Good E s w := by
  induction h with
  | init => exact good_init
  | step _ hp hs ha ih =>
    obtain ⟨out, s', h1, -, h2⟩ := after hE ih hp
    rw [hs] at h1
    cases h1
    exact h2 ha

/-- The code as it is does the same as the corrected code unless values of size zero have
destructors, or destructors panic. -/
theorem step_fix (h : E.copy = true ∨ 0 < E.size ∧ ∀ t, bomb t = false) (s : State) (op : Op) :
    step false E bomb s op = step true E bomb s op := by
  have hdrop : ∀ vs, dropping E bomb vs = .ok := by
    intro vs
    unfold dropping
    rcases h with h | h
    · rw [if_pos h]
    · split
      · rfl
      · have : vs.countP bomb = 0 := by
          rw [List.countP_eq_zero]
          intro a _
          simp [h.2 a]
        rw [this]
        rfl
  cases op with
  | push h' v fail =>
    simp only [step]
    cases s.objs h' with
    | none => rfl
    | some x =>
      dsimp only
      rcases h with h | h
      · simp only [runDrops, h, if_true]
        rfl
      · rw [if_neg (by omega), if_neg (by omega)]
  | box h' v fail =>
    simp only [step]
    rcases h with h | h
    · simp only [runDrops, h, if_true]
      rfl
    · simp only [if_neg (show ¬ E.size = 0 by omega)]
  | clear h' =>
    simp only [step]
    cases s.objs h' with
    | none => rfl
    | some x =>
      simp only [clear, runDrops_eq, hdrop]
      rfl
  | _ => rfl

theorem runs_fix (h : E.copy = true ∨ 0 < E.size ∧ ∀ t, bomb t = false) {s : State} {w : World}
    (hr : Runs false E bomb s w) : Runs true E bomb s w := by
  induction hr with
  | init => exact .init
  | step _ hp hs ha ih => exact .step ih hp (by rw [← step_fix h, hs]) ha

end Musli.Sys
