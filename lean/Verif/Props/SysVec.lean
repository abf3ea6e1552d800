import Verif.Proofs.SysMemory
/-!
# C88–C90: vectors and boxes with the system allocator

`Runs fix E bomb s w`: some history of calls has led to the state `s`, and `w` is what the
program has in its vectors and boxes by its own account (`Spec/SysVec.lean`). `fix` is
`false` for the code as it is.
-/
namespace Musli.Sys

/-- Whether the two defects can show: values of size zero have destructors, or destructors
may panic. -/
def Harmless (E : Elem) (bomb : Tok → Bool) : Prop :=
  E.copy = true ∨ 0 < E.size ∧ ∀ t, bomb t = false

section
variable {E : Elem} {bomb : Tok → Bool} {s : State} {w : World}

/-- **C88**, for the corrected code: whatever has been called before, a call has no undefined
behaviour, and answers what is expected, also if allocations fail and destructors panic. -/
theorem C88_corrected (hE : E.Valid) (h : Runs true E bomb s w) (op : Op) (hp : op.Possible E w) :
    ∃ out s', step true E bomb s op = .ok (out, s') ∧ op.Expected E bomb w out := by
  obtain ⟨out, s', h1, h2, -⟩ := after hE (runs_good hE h) hp
  exact ⟨out, s', h1, h2⟩

/-- **C88**, for the code as it is. What is missing: values of size zero with a destructor, and
destructors which panic (`C88_violated_clear`). -/
theorem C88_partial (hE : E.Valid) (hh : Harmless E bomb) (h : Runs false E bomb s w) (op : Op)
    (hp : op.Possible E w) :
    ∃ out s', step false E bomb s op = .ok (out, s') ∧ op.Expected E bomb w out := by
  rw [step_fix hh]
  exact C88_corrected hE (runs_fix hh h) op hp

/-- **C89**, for the corrected code: every value that has been given away is in a vector or box, or
its destructor has run, or it has been given back, and exactly one of these, once. -/
theorem C89_corrected (hE : E.Valid) (hc : E.copy = false) (h : Runs true E bomb s w) (t : Tok) :
    w.given.count t = w.objs.live.count t + s.dropped.count t + w.returned.count t :=
  (runs_good hE h).2 hc t

/-- **C89**, for the code as it is. What is missing: values of size zero, and destructors which
panic (`C89_violated_zero_sized`, `C89_violated_box`, `C89_violated_clear`). -/
theorem C89_partial (hE : E.Valid) (hc : E.copy = false) (hs : 0 < E.size) (hb : ∀ t, bomb t = false)
    (h : Runs false E bomb s w) (t : Tok) :
    w.given.count t = w.objs.live.count t + s.dropped.count t + w.returned.count t :=
  C89_corrected hE hc (runs_fix (.inr ⟨hs, hb⟩) h) t

/-- What the invariant says of memory. -/
theorem memory {C : Contents} (hI : Inv E s.heap s.objs C) :
    (∀ p b, s.heap.blocks p = some b → ∃ k l c, C.get k = some (c, l) ∧ place s.objs k = some p ∧
      l.length * E.size ≤ b.bytes ∧ b.slots.take l.length = l.map some) ∧
    (∀ j k p, place s.objs j = some p → place s.objs k = some p → j = k) ∧
    (C = [] → ∀ p, s.heap.blocks p = none) := by
  have key : ∀ p b, s.heap.blocks p = some b → ∃ k l c, C.get k = some (c, l) ∧
      place s.objs k = some p ∧ l.length * E.size ≤ b.bytes ∧ b.slots.take l.length = l.map some := by
    intro p b hb
    obtain ⟨k, x, hx, hp⟩ := hI.owned p b hb
    cases hg : C.get k with
    | none =>
      rw [(hI.absent k).mpr hg] at hx
      cases hx
    | some cl =>
      obtain ⟨c, l⟩ := cl
      refine ⟨k, l, c, hg, by rw [place_some hx, hp], ?_⟩
      have hh := (hI.holds k x c l hx hg).2.2
      by_cases hs : E.size = 0
      · rw [(hh.1 hs).1] at hp
        cases hp
      · have ho := hh.2 (by omega)
        by_cases h0 : x.buf.size = 0
        · rw [ho.empty h0] at hp
          cases hp
        · obtain ⟨q, b', hq, hb', h1, -, -, h2, -⟩ := ho.block (by omega)
          rw [hp] at hq
          cases hq
          rw [hb] at hb'
          cases hb'
          exact ⟨by rw [h1]; exact Nat.mul_le_mul_right _ ho.room, h2⟩
  refine ⟨key, ?_, ?_⟩
  · intro j k p hj hk
    cases hx : s.objs j with
    | none => rw [place_none hx] at hj; cases hj
    | some x =>
      cases hy : s.objs k with
      | none => rw [place_none hy] at hk; cases hk
      | some y =>
        rw [place_some hx] at hj
        rw [place_some hy] at hk
        exact hI.distinct j k x y p hx hy hj hk
  · intro he p
    cases hb : s.heap.blocks p with
    | none => rfl
    | some b =>
      obtain ⟨k, l, c, hk, -⟩ := key p b hb
      rw [he] at hk
      cases hk

/-- **C90**, for the corrected code: memory belongs to vectors and boxes which are still
in use, and has room for their elements; when there are none, all memory has been given back
to the global allocator. -/
theorem C90_corrected (hE : E.Valid) (h : Runs true E bomb s w) :
    (∀ p b, s.heap.blocks p = some b → ∃ k l c, w.objs.get k = some (c, l) ∧ place s.objs k = some p ∧
      l.length * E.size ≤ b.bytes ∧ b.slots.take l.length = l.map some) ∧
    (∀ j k p, place s.objs j = some p → place s.objs k = some p → j = k) ∧
    (w.objs = [] → ∀ p, s.heap.blocks p = none) :=
  memory (runs_good hE h).1

/-- **C90**, for the code as it is, whatever destructors do: memory belongs to exactly one vector or
box which is still in use, and has the size for its elements; when there are none, all memory has
been given back to the global allocator. -/
theorem C90_memory (hE : E.Valid) (h : Runs false E bomb s w) :
    (∀ p b, s.heap.blocks p = some b → ∃ k l c, w.objs.get k = some (c, l) ∧ place s.objs k = some p ∧
      l.length * E.size ≤ b.bytes) ∧
    (∀ j k p, place s.objs j = some p → place s.objs k = some p → j = k) ∧
    (w.objs = [] → ∀ p, s.heap.blocks p = none) := by
  obtain ⟨C, hI, hc⟩ := runs_fits hE h
  obtain ⟨h1, h2, -⟩ := memory hI
  have key : ∀ p b, s.heap.blocks p = some b → ∃ k l c, w.objs.get k = some (c, l) ∧
      place s.objs k = some p ∧ l.length * E.size ≤ b.bytes := by
    intro p b hb
    obtain ⟨k, l, c, hg, hp, hl, -⟩ := h1 p b hb
    rcases hc k with ⟨e, -⟩ | ⟨c', m, l', e, e', hle⟩
    · rw [hg] at e
      cases e
    · rw [hg] at e
      cases e
      exact ⟨k, l', c, e', hp, Nat.le_trans (Nat.mul_le_mul_right _ hle) hl⟩
  refine ⟨key, h2, fun he p => ?_⟩
  cases hb : s.heap.blocks p with
  | none => rfl
  | some b =>
    obtain ⟨k, l, c, hk, -⟩ := key p b hb
    rw [he] at hk
    cases hk

/-- **C90**, for the code as it is, whatever destructors do: no call allocates nothing, or frees or
grows what is not allocated or has another layout, or writes or reads outside of a block or
what has not been written: `step` would be `.error .ub`. -/
theorem C90_layout (hE : E.Valid) (h : Runs false E bomb s w) (op : Op) (hp : op.Possible E w) :
    ∃ r, step false E bomb s op = .ok r := by
  obtain ⟨out, s', h1, -⟩ := fits_step (bomb := bomb) hE (runs_fits hE h) hp
  exact ⟨_, h1⟩

/-- What is more, if the two defects cannot show, memory has the elements. -/
theorem C90_contents (hE : E.Valid) (hh : Harmless E bomb) (h : Runs false E bomb s w) :
    ∀ p b, s.heap.blocks p = some b → ∃ k l c, w.objs.get k = some (c, l) ∧ place s.objs k = some p ∧
      l.length * E.size ≤ b.bytes ∧ b.slots.take l.length = l.map some :=
  (C90_corrected hE (runs_fix hh h)).1

end

/-! ## Concrete histories -/

/-- Make calls one after the other: the last answer, and what it has led to. -/
def exec (fix : Bool) (E : Elem) (bomb : Tok → Bool) : List Op → Out × State × World → Except Fault (Out × State × World)
  | [], r => .ok r
  | op :: ops, (_, s, w) =>
    match step fix E bomb s op with
    | .error e => .error e
    | .ok (out, s') => exec fix E bomb ops (out, s', w.next op out)

instance (E : Elem) (w : World) (op : Op) : Decidable (op.Possible E w) := by
  have hex : ∀ h, Decidable (∃ l, w.objs.get h = some (false, l)) := fun h =>
    match e : w.objs.get h with
    | some (false, l) => .isTrue ⟨l, rfl⟩
    | some (true, _) => .isFalse (fun ⟨_, h⟩ => by cases h)
    | none => .isFalse (fun ⟨_, h⟩ => by cases h)
  have hex2 : ∀ h, Decidable (∃ b l, w.objs.get h = some (b, l)) := fun h =>
    match e : w.objs.get h with
    | some (b, l) => .isTrue ⟨b, l, rfl⟩
    | none => .isFalse (fun ⟨_, _, h⟩ => by cases h)
  cases op <;> unfold Op.Possible <;> infer_instance

/-- Whether a program can make these calls, and the process is never aborted. -/
def possible (fix : Bool) (E : Elem) (bomb : Tok → Bool) : List Op → State × World → Bool
  | [], _ => true
  | op :: ops, (s, w) =>
    decide (op.Possible E w) &&
    match step fix E bomb s op with
    | .error _ => false
    | .ok (out, s') => out != .abort && possible fix E bomb ops (s', w.next op out)

theorem runs_exec {fix : Bool} {E : Elem} {bomb : Tok → Bool} :
    ∀ (ops : List Op) {s : State} {w : World} (o : Out), Runs fix E bomb s w → possible fix E bomb ops (s, w) = true →
    ∃ o' s' w', exec fix E bomb ops (o, s, w) = .ok (o', s', w') ∧ Runs fix E bomb s' w'
  | [], s, w, o, h, _ => ⟨o, s, w, rfl, h⟩
  | op :: ops, s, w, o, h, hp => by
    simp only [possible, Bool.and_eq_true, decide_eq_true_eq] at hp
    obtain ⟨h1, h2⟩ := hp
    cases hs : step fix E bomb s op with
    | error e => rw [hs] at h2; cases h2
    | ok r =>
      obtain ⟨out, s'⟩ := r
      rw [hs] at h2
      simp only [Bool.and_eq_true, bne_iff_ne, ne_eq] at h2
      obtain ⟨o', s'', w', h3, h4⟩ := runs_exec ops out (.step h h1 hs h2.1) h2.2
      refine ⟨o', s'', w', ?_, h4⟩
      rw [exec, hs]
      exact h3

/-- What can be seen of a history: the last answer, the values dropped, and what the program has. -/
def seen (fix : Bool) (E : Elem) (bomb : Tok → Bool) (ops : List Op) : Option (Out × List Tok × Contents × List Tok × List Tok) :=
  match exec fix E bomb ops (.ok, .init, .init) with
  | .error _ => none
  | .ok (o, s, w) => some (o, s.dropped, w.objs, w.given, w.returned)

theorem runs_seen {fix : Bool} {E : Elem} {bomb : Tok → Bool} {ops : List Op} {o : Out} {d : List Tok} {c : Contents}
    {g r : List Tok} (hp : possible fix E bomb ops (.init, .init) = true)
    (hs : seen fix E bomb ops = some (o, d, c, g, r)) :
    ∃ s w, Runs fix E bomb s w ∧ s.dropped = d ∧ w = ⟨c, g, r⟩ := by
  obtain ⟨o', s, w, h1, h2⟩ := runs_exec ops .ok Runs.init hp
  unfold seen at hs
  rw [h1] at hs
  cases hs
  exact ⟨s, w, h2, rfl, rfl⟩

/-- A type like `String`: 24 bytes, with a destructor. -/
def text : Elem := ⟨24, 8, false⟩

theorem text_valid : text.Valid := ⟨by decide, by decide⟩

/-- A type of size zero with a destructor, for example one that counts. -/
def guard : Elem := ⟨0, 1, false⟩

theorem guard_valid : guard.Valid := ⟨by decide, by decide⟩

/-- A history with two vectors and a box, one of which has to move, and a failed allocation. -/
def history : List Op :=
  [.new 0, .push 0 1 false, .push 0 2 false, .push 0 3 false, .push 0 4 false, .push 0 5 false, .pop 0,
   .box 1 6 false, .withCapacity 2 10 false, .push 2 7 false, .push 0 8 false, .drop 1, .clear 2,
   .fromStd 3 [10, 11] 2, .push 3 12 true]

/-- The hypotheses are met: the history can be, and this is where it leads. -/
example : ∃ s w, Runs false text (fun _ => false) s w ∧ s.dropped = [12, 7, 6] ∧
    w.objs = [(3, (false, [10, 11])), (2, (false, [])), (0, (false, [1, 2, 3, 4, 8]))] ∧ w.returned = [5] := by
  obtain ⟨s, w, h1, h2, rfl⟩ := runs_seen (fix := false) (E := text) (bomb := fun _ => false) (ops := history)
    (by decide +kernel) (o := .err) (d := [12, 7, 6])
    (c := [(3, (false, [10, 11])), (2, (false, [])), (0, (false, [1, 2, 3, 4, 8]))])
    (g := [12, 10, 11, 8, 7, 6, 5, 4, 3, 2, 1]) (r := [5]) (by rfl)
  exact ⟨s, _, h1, h2, rfl, rfl⟩

/-! ## What goes wrong -/

/-- **C89**, violated: the destructor of a value of size zero runs when it is pushed, and again
when the vector is dropped. -/
theorem C89_violated_zero_sized : ∃ s w, Runs false guard (fun _ => false) s w ∧
    w.given = [0] ∧ w.objs = [] ∧ w.returned = [] ∧ s.dropped = [0, 0] := by
  obtain ⟨s, w, h1, h2, rfl⟩ := runs_seen (fix := false) (E := guard) (bomb := fun _ => false)
    (ops := [.new 0, .push 0 0 false, .drop 0])
    (by decide +kernel) (o := .ok) (d := [0, 0]) (c := []) (g := [0]) (r := []) (by rfl)
  exact ⟨s, _, h1, rfl, rfl, rfl, h2⟩

/-- **C89**, violated: the same with a box. -/
theorem C89_violated_box : ∃ s w, Runs false guard (fun _ => false) s w ∧
    w.given = [0] ∧ w.objs = [] ∧ w.returned = [] ∧ s.dropped = [0, 0] := by
  obtain ⟨s, w, h1, h2, rfl⟩ := runs_seen (fix := false) (E := guard) (bomb := fun _ => false)
    (ops := [.box 0 0 false, .drop 0])
    (by decide +kernel) (o := .ok) (d := [0, 0]) (c := []) (g := [0]) (r := []) (by rfl)
  exact ⟨s, _, h1, rfl, rfl, rfl, h2⟩

/-- A destructor panics: that of value 1. -/
def oneBomb : Tok → Bool := (· == 1)

/-- **C88**, violated: if a destructor panics in `clear`, the vector still has the values
which have been dropped. -/
theorem C88_violated_clear : ∃ s w s', Runs false text oneBomb s w ∧ w.objs = [(0, (false, []))] ∧
    step false text oneBomb s (.read 0) = .ok (.items [1, 2], s') ∧ s.dropped = [2, 1] := by
  obtain ⟨o', s, w, h1, h2⟩ := runs_exec (fix := false) (E := text) (bomb := oneBomb)
    [.new 0, .push 0 1 false, .push 0 2 false, .clear 0] .ok Runs.init (by decide +kernel)
  cases h1
  exact ⟨_, _, _, h2, rfl, rfl, rfl⟩

/-- **C89**, violated: their destructors run again when the vector is dropped. -/
theorem C89_violated_clear : ∃ s w, Runs false text oneBomb s w ∧
    w.given = [2, 1] ∧ w.objs = [] ∧ w.returned = [] ∧ s.dropped = [2, 1, 2, 1] := by
  obtain ⟨s, w, h1, h2, rfl⟩ := runs_seen (fix := false) (E := text) (bomb := oneBomb)
    (ops := [.new 0, .push 0 1 false, .push 0 2 false, .clear 0, .drop 0])
    (by decide +kernel) (o := .panic) (d := [2, 1, 2, 1]) (c := []) (g := [2, 1]) (r := []) (by rfl)
  exact ⟨s, _, h1, rfl, rfl, rfl, h2⟩

/-- Memory does not depend on it (`C90_memory`): the block is given back, once. -/
example : ∃ s w, Runs false text oneBomb s w ∧ w.objs = [] ∧ s.dropped = [2, 1, 2, 1] ∧
    ∀ p, s.heap.blocks p = none := by
  obtain ⟨s, w, h, -, e, -, hd⟩ := C89_violated_clear
  exact ⟨s, w, h, e, hd, (C90_memory text_valid h).2.2 e⟩

/-- The corrected code in the same situation. -/
example : ∃ s w, Runs true text oneBomb s w ∧
    w.given = [2, 1] ∧ w.objs = [] ∧ w.returned = [] ∧ s.dropped = [2, 1] := by
  obtain ⟨s, w, h1, h2, rfl⟩ := runs_seen (fix := true) (E := text) (bomb := oneBomb)
    (ops := [.new 0, .push 0 1 false, .push 0 2 false, .clear 0, .drop 0])
    (by decide +kernel) (o := .ok) (d := [2, 1]) (c := []) (g := [2, 1]) (r := []) (by rfl)
  exact ⟨s, _, h1, rfl, rfl, rfl, h2⟩

end Musli.Sys
