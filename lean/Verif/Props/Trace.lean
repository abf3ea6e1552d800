import Verif.Model.Trace
/-!
# C81, C82: the reports of contexts
-/
namespace Musli.Trace
open Musli

/-- The steps which were entered and were not left. -/
def opened (includeType : Bool) : List Step → List Ev → List Step
  | st, [] => st
  | st, .enter s _ :: es => opened includeType (st ++ [s]) es
  | st, .enterType s _ :: es => opened includeType (if includeType then st ++ [s] else st) es
  | st, .enterKey k _ _ :: es => opened includeType (st ++ [.key k]) es
  | st, .leave :: es => opened includeType st.dropLast es
  | st, .leaveType :: es => opened includeType (if includeType then st.dropLast else st) es
  | _, .clear :: es => opened includeType [] es
  | st, _ :: es => opened includeType st es

/-- Every allocation succeeds. -/
def Ev.fits : Ev → Bool
  | .enter _ room => room
  | .enterType _ room => room
  | .enterKey _ fmt room => fmt && room
  | .message _ _ fmt room => fmt && room
  | _ => true

/-- The state shows the steps: the first of them, and the number of the others. -/
def Shows (s : State) (st : List Step) : Prop := ∃ rest, st = s.path ++ rest ∧ rest.length = s.cap

/-- The errors of a history: each of those since the last `clear`, with its range. -/
def messages : BitVec 64 → List (BitVec 64 × BitVec 64 × Bytes) → List Ev → List (BitVec 64 × BitVec 64 × Bytes)
  | _, acc, [] => acc
  | m, acc, .advance n :: es => messages (m + n) acc es
  | _, acc, .restore m :: es => messages m acc es
  | m, acc, .message start e _ _ :: es => messages m (acc ++ [(start.getD m, m, e)]) es
  | _, _, .clear :: es => messages 0 [] es
  | m, acc, _ :: es => messages m acc es

theorem run_fits (includeType : Bool) : ∀ (es : List Ev) (s : State), es.all Ev.fits = true → s.cap = 0 →
    (s.run includeType es).path = opened includeType s.path es ∧ (s.run includeType es).cap = 0 ∧
      (s.run includeType es).errors = messages s.mark s.errors es
  | [], s, _, h0 => ⟨rfl, h0, rfl⟩
  | e :: es, s, h, h0 => by
    rw [List.all_cons, Bool.and_eq_true] at h
    have ih := run_fits includeType es (s.event includeType e) h.2
    show ((s.event includeType e).run includeType es).path = _ ∧ ((s.event includeType e).run includeType es).cap = 0 ∧
      ((s.event includeType e).run includeType es).errors = _
    have hf := h.1
    cases e with
    | enter st room =>
      have : room = true := hf
      subst this
      exact ih h0
    | enterType st room =>
      have : room = true := hf
      subst this
      cases includeType <;> exact ih h0
    | enterKey k fmt room =>
      have : (fmt && room) = true := hf
      rw [Bool.and_eq_true] at this
      obtain ⟨rfl, rfl⟩ := this
      exact ih h0
    | leave =>
      have hp : s.event includeType .leave = { s with path := s.path.dropLast } := if_neg (by omega)
      rw [hp] at ih ⊢
      exact ih h0
    | leaveType =>
      cases includeType with
      | false => exact ih h0
      | true =>
        have hp : s.event true .leaveType = { s with path := s.path.dropLast } := if_neg (by omega)
        rw [hp] at ih ⊢
        exact ih h0
    | advance n => exact ih h0
    | restore m => exact ih h0
    | message start m fmt room =>
      have : (fmt && room) = true := hf
      rw [Bool.and_eq_true] at this
      obtain ⟨rfl, rfl⟩ := this
      exact ih h0
    | clear => exact ih h0

/-- **C81**, what holds: if no allocation fails, the path of a context with tracing is at every time that of the
steps which were entered and not left, and it has exactly the errors which were raised since it was
cleared, with the ranges of bytes at which they were. -/
theorem C81_path_partial (includeType : Bool) (es : List Ev) (h : es.all Ev.fits = true) :
    (init.run includeType es).path = opened includeType [] es ∧ (init.run includeType es).cap = 0 ∧
      (init.run includeType es).errors = messages 0 [] es :=
  run_fits includeType es init h rfl

/-- No allocation succeeds after one has failed, until what failed is left; keys can be formatted; and contexts are not cleared
while steps are missing. -/
def Monotone (includeType : Bool) : State → List Ev → Prop
  | _, [] => True
  | s, e :: es =>
    (match e with
      | .enter _ room => s.cap > 0 → room = false
      | .enterType _ room => includeType = true → s.cap > 0 → room = false
      | .enterKey _ fmt room => fmt = true ∧ (s.cap > 0 → room = false)
      | .clear => s.cap = 0
      | _ => True) ∧ Monotone includeType (s.event includeType e) es

theorem shows_push {s : State} {st : List Step} (h : Shows s st) (x : Step) (room : Bool) (hr : s.cap > 0 → room = false) :
    Shows (s.pushPath x room) (st ++ [x]) := by
  obtain ⟨rest, h1, h2⟩ := h
  unfold State.pushPath
  cases room with
  | false => exact ⟨rest ++ [x], by rw [h1, List.append_assoc]; rfl, by simp; omega⟩
  | true =>
    have h0 : s.cap = 0 := by
      rcases Nat.eq_zero_or_pos s.cap with h | h
      · exact h
      · cases hr h
    have : rest = [] := List.eq_nil_of_length_eq_zero (by omega)
    subst this
    exact ⟨[], by rw [h1]; simp, by simp [h0]⟩

theorem shows_pop {s : State} {st : List Step} (h : Shows s st) : Shows s.popPath st.dropLast := by
  obtain ⟨rest, h1, h2⟩ := h
  unfold State.popPath
  by_cases h0 : s.cap > 0
  · rw [if_pos h0]
    refine ⟨rest.dropLast, ?_, by simp; omega⟩
    rw [h1]
    have : rest ≠ [] := by intro h; rw [h] at h2; simp at h2; omega
    exact List.dropLast_append_of_ne_nil this
  · rw [if_neg h0]
    have : rest = [] := List.eq_nil_of_length_eq_zero (by omega)
    subst this
    exact ⟨[], by rw [h1]; simp, by simp; omega⟩

/-- **C81**, what holds if allocation fails: the path shows the first of the steps, and the number of
those which are missing. -/
theorem C81_capped_partial (includeType : Bool) : ∀ (es : List Ev) (s : State) (st : List Step), Shows s st →
    Monotone includeType s es → Shows (s.run includeType es) (opened includeType st es)
  | [], _, _, h, _ => h
  | e :: es, s, st, h, hm => by
    show Shows ((s.event includeType e).run includeType es) _
    obtain ⟨h1, h2⟩ := hm
    have ih := fun st' h' => C81_capped_partial includeType es (s.event includeType e) st' h' h2
    cases e with
    | enter x room => exact ih _ (shows_push h x room h1)
    | enterType x room =>
      cases includeType with
      | false => exact ih _ h
      | true => exact ih _ (shows_push h x room (h1 rfl))
    | enterKey k fmt room =>
      obtain ⟨rfl, h1⟩ := h1
      exact ih _ (shows_push h _ room h1)
    | leave => exact ih _ (shows_pop h)
    | leaveType =>
      cases includeType with
      | false => exact ih _ h
      | true => exact ih _ (shows_pop h)
    | advance n => exact ih _ h
    | restore m => exact ih _ h
    | message start m fmt room =>
      refine ih _ ?_
      unfold State.event State.message
      dsimp only
      split <;> exact h
    | clear => exact ih _ ⟨[], rfl, by have : s.cap = 0 := h1; simp [State.event, State.clear, this]⟩

/-- Histories in which everything which is entered is left again, as those of successful decoders
are. -/
inductive Balanced : List Ev → Prop where
  | nil : Balanced []
  | enter (s : Step) (room : Bool) {es : List Ev} : Balanced es → Balanced (.enter s room :: es ++ [.leave])
  | enterType (s : Step) (room : Bool) {es : List Ev} : Balanced es → Balanced (.enterType s room :: es ++ [.leaveType])
  | enterKey (k : Bytes) (room : Bool) {es : List Ev} : Balanced es → Balanced (.enterKey k true room :: es ++ [.leave])
  | advance (n : BitVec 64) : Balanced [.advance n]
  | restore (m : BitVec 64) : Balanced [.restore m]
  | message (start : Option (BitVec 64)) (m : Bytes) (fmt room : Bool) : Balanced [.message start m fmt room]
  | append {a b : List Ev} : Balanced a → Balanced b → Balanced (a ++ b)

theorem run_append (includeType : Bool) (s : State) (a b : List Ev) :
    s.run includeType (a ++ b) = (s.run includeType a).run includeType b := List.foldl_append

theorem run_cons (includeType : Bool) (s : State) (e : Ev) (b : List Ev) :
    s.run includeType (e :: b) = (s.event includeType e).run includeType b := rfl

/-- A path begins with another one, and the number of steps is what it should be. -/
def Above (p : List Step) (n : Nat) (s : State) : Prop := p <+: s.path ∧ s.path.length + s.cap = p.length + n

theorem above_push {p : List Step} {n : Nat} {s : State} (h : Above p n s) (x : Step) (room : Bool) :
    Above p (n + 1) (s.pushPath x room) := by
  obtain ⟨h1, h2⟩ := h
  unfold State.pushPath
  cases room with
  | false => exact ⟨h1, by show s.path.length + (s.cap + 1) = _; omega⟩
  | true => exact ⟨h1.trans (List.prefix_append _ _), by show (s.path ++ [x]).length + s.cap = _; simp; omega⟩

theorem above_pop {p : List Step} {n : Nat} {s : State} (h : Above p (n + 1) s) : Above p n s.popPath := by
  obtain ⟨h1, h2⟩ := h
  unfold State.popPath
  by_cases h0 : s.cap > 0
  · rw [if_pos h0]
    exact ⟨h1, by show s.path.length + (s.cap - 1) = _; omega⟩
  · rw [if_neg h0]
    refine ⟨?_, by show s.path.dropLast.length + s.cap = _; simp; omega⟩
    show p <+: s.path.dropLast
    obtain ⟨q, hq⟩ := h1
    have hne : q ≠ [] := by intro h; subst h; rw [← hq] at h2; simp at h2; omega
    rw [← hq, List.dropLast_append_of_ne_nil hne]
    exact List.prefix_append _ _

theorem above_balanced (includeType : Bool) {es : List Ev} (hb : Balanced es) {p : List Step} :
    ∀ {n : Nat} {s : State}, Above p n s → Above p n (s.run includeType es) := by
  induction hb with
  | nil => intro n s h; exact h
  | enter x room _ ih =>
    intro n s h
    rw [List.cons_append, run_cons, run_append]
    exact above_pop (ih (above_push h x room))
  | enterType x room _ ih =>
    intro n s h
    rw [List.cons_append, run_cons, run_append]
    cases includeType with
    | false => exact ih h
    | true => exact above_pop (ih (above_push h x room))
  | enterKey k room _ ih =>
    intro n s h
    rw [List.cons_append, run_cons, run_append]
    exact above_pop (ih (above_push h _ room))
  | advance m => intro n s h; exact h
  | restore m => intro n s h; exact h
  | message start m fmt room =>
    intro n s h
    show Above p n (s.message start m fmt room)
    unfold State.message
    dsimp only
    split <;> exact h
  | append _ _ ih1 ih2 =>
    intro n s h
    rw [run_append]
    exact ih2 (ih1 h)

/-- **C81**: whatever is encoded or decoded successfully leaves the path as it was, even if allocations fail. -/
theorem C81_balanced (includeType : Bool) {es : List Ev} (hb : Balanced es) (s : State) (h0 : s.cap = 0) :
    (s.run includeType es).path = s.path ∧ (s.run includeType es).cap = 0 := by
  have h : Above s.path 0 s := ⟨List.prefix_refl _, by omega⟩
  obtain ⟨⟨q, hq⟩, h2⟩ := above_balanced includeType hb h
  rw [← hq] at h2
  simp only [List.length_append] at h2
  have : q = [] := List.eq_nil_of_length_eq_zero (by omega)
  subst this
  rw [← hq]
  exact ⟨by simp, by omega⟩

/-- **C81** is violated by keys of maps which cannot be formatted: they are left although they were not
entered, and the path loses another step. -/
theorem C81_violated_key (a : Step) (k : Bytes) (room includeType : Bool) :
    let es := [.enter a true, .enterKey k false room, .leave]
    opened includeType [] es = [a] ∧ (init.run includeType es).path = [] := ⟨rfl, rfl⟩

/-- **C81** is violated by `clear`: it does not reset the number of steps which are missing. If
a call failed with such steps, the next call with the same context has a path which is wrong from its beginning, and which keeps what was
left. -/
theorem C81_violated_clear (a b c : Step) (includeType : Bool) :
    let es := [.enter a false, .clear, .enter b true, .leave, .enter c true]
    opened includeType [] es = [c] ∧ (init.run includeType es).path = [b, c] := ⟨rfl, rfl⟩

/-- **C81** is violated if there is room again after an allocation has failed: the path shows a step which was left. -/
theorem C81_violated_room (a b c : Step) (includeType : Bool) :
    let es := [.enter a true, .enter b false, .enter c true, .leave]
    opened includeType [] es = [a, b] ∧ (init.run includeType es).path = [a, c] ∧ (init.run includeType es).cap = 0 :=
  ⟨rfl, rfl, rfl⟩

/-- The runs of decoders which do not recover from errors, and which are started on a clean context: errors
are raised if and only if the decoder fails. -/
def Honest (r : Run) : Prop :=
  (r.ok = true → ∀ e ∈ r.events, match e with | .message _ _ _ _ => False | _ => True) ∧
  (r.ok = false → ∃ es start m fmt room, r.events = es ++ [.message start m fmt room])

theorem captured_event (includeType : Bool) (s : State) (e : Ev)
    (h : match e with | .message _ _ _ _ => False | _ => True) (hs : s.captured = none) :
    (s.event includeType e).captured = none := by
  have push (x : Step) (room : Bool) : (s.pushPath x room).captured = none := by
    unfold State.pushPath
    split <;> exact hs
  have pop : s.popPath.captured = none := by
    unfold State.popPath
    split <;> exact hs
  cases e with
  | enter x room => exact push x room
  | enterType x room =>
    cases includeType with
    | false => exact hs
    | true => exact push x room
  | enterKey k fmt room =>
    cases fmt with
    | false => exact hs
    | true => exact push _ room
  | leave => exact pop
  | leaveType =>
    cases includeType with
    | false => exact hs
    | true => exact pop
  | advance n => exact hs
  | restore m => exact hs
  | message start m fmt room => exact absurd h id
  | clear => rfl

/-- **C82**, what holds: after a call of a decoder which does not recover from errors, `result` is an error if and only if the call
failed, whatever happened before the call. -/
theorem C82_result_partial (includeType : Bool) (s : State) (r : Run) (h : Honest r) :
    ((s.clear.run includeType r.events).result = .ok () ↔ r.ok = true) := by
  cases hr : r.ok with
  | true =>
    have : ∀ (es : List Ev) (s : State), (∀ e ∈ es, match e with | .message _ _ _ _ => False | _ => True) →
        s.captured = none → (s.run includeType es).captured = none := by
      intro es
      induction es with
      | nil => intro s _ hs; exact hs
      | cons e es ih =>
        intro s he hs
        exact ih _ (fun x hx => he x (List.mem_cons_of_mem _ hx)) (captured_event includeType s e (he e (List.mem_cons_self)) hs)
    have hc := this r.events s.clear (h.1 hr) rfl
    unfold State.result
    rw [hc]
    exact ⟨fun _ => rfl, fun _ => rfl⟩
  | false =>
    obtain ⟨es, start, m, fmt, room, he⟩ := h.2 hr
    rw [he, run_append]
    refine ⟨fun h => ?_, fun h => by (cases h)⟩
    exact absurd h (by
      have : ((s.clear.run includeType es).run includeType [.message start m fmt room]).captured = some m := by
        show ((s.clear.run includeType es).message start m fmt room).captured = _
        rfl
      unfold State.result
      rw [this]
      exact fun h => by (cases h))

/-- A decoder which fails. -/
def fails (m : Bytes) : Run := ⟨[.message none m true true], false⟩

/-- **C82** is violated by untagged enums: their first variant has a field `a`, which is not what it should be, and the second one is
decoded. The call succeeds, but `result` is the error, it is reported, and the path is not empty. -/
theorem C82_violated_untagged (includeType : Bool) :
    let r := untagged [0x45] 0 [0x3f] [field [0x61] (fails [0x21]), field [0x62] ⟨[.advance 1], true⟩]
    r.ok = true ∧ (init.clear.run includeType r.events).result = .error [0x21] ∧
      (init.clear.run includeType r.events).reported.length = 1 ∧ (init.clear.run includeType r.events).path ≠ [] := by
  cases includeType <;> decide +kernel

/-- **C82** is violated by untagged enums: if another field `b` fails, the path of its error is that of `a` and `b`, and so
is that of the error of `a`. -/
theorem C82_violated_path :
    let r := untagged [0x45] 0 [0x3f] [field [0x61] (fails [0x21]), field [0x62] (fails [0x22])]
    (init.run false r.events).reported.map (·.path) =
      [[.named [0x61], .named [0x62]], [.named [0x61], .named [0x62]], [.named [0x61], .named [0x62]]] := by
  decide +kernel

/-- A history for C81_path_partial, and one for C81_capped_partial. -/
example : (init.run true [.enterType (.struct [0x53]) true, .enter (.named [0x61]) true, .advance 3,
      .message (some 1) [0x21] true true]).reported =
    [⟨[.struct [0x53], .named [0x61]], 0, 1, 3, [0x21]⟩] := by decide +kernel

example : Monotone true init [.enter (.index 1) true, .enter (.index 2) false, .enter (.index 3) false, .leave, .leave, .enter (.index 4) true] := by
  simp [Monotone, init, State.event, State.pushPath, State.popPath]

/-- Honest runs. -/
example : Honest (field [0x61] (fails [0x21])) ∧ Honest (field [0x61] ⟨[.advance 1], true⟩) := by
  refine ⟨⟨fun h => by (cases h), fun _ => ⟨[.enter (.named [0x61]) true], none, [0x21], true, true, rfl⟩⟩, ⟨fun _ => ?_, fun h => by (cases h)⟩⟩
  intro e he
  simp [field] at he
  rcases he with rfl | rfl | rfl <;> trivial

end Musli.Trace
