import Verif.Proofs.Zero.Session
/-!
# `SliceMut`: which calls panic
-/
set_option linter.unusedSectionVars false
namespace Musli.Zero
open Musli

variable [Host] {env : Env}

theorem bind_isOk {α β : Type} {r : Except ZErr α} {f : α → Except ZErr β} :
    (∃ b, (r >>= f) = .ok b) ↔ ∃ a, r = .ok a ∧ ∃ b, f a = .ok b := by
  cases r with
  | error e =>
    constructor
    · rintro ⟨_, h⟩; cases h
    · rintro ⟨_, h, _⟩; cases h
  | ok a =>
    constructor
    · rintro ⟨b, h⟩; exact ⟨a, rfl, b, h⟩
    · rintro ⟨a', h, b, h'⟩; cases h; exact ⟨b, h'⟩

theorem ensureCapacity_fixed {b : Owned} (hf : b.fixed = true) (c : Nat) :
    ensureCapacity env b c = if c ≤ b.capacity ∧ 2 ^ b.requested ≤ b.capacity then .ok b else .error .panic := by
  unfold ensureCapacity
  dsimp only
  by_cases h : c ≤ b.capacity ∧ 2 ^ b.requested ≤ b.capacity
  · rw [if_pos h, if_pos (by omega)]
  · rw [if_neg h, if_neg (by omega), if_pos hf]

theorem reserve_fixed {b : Owned} (hi : b.Inv) (hf : b.fixed = true) (n : Nat) :
    reserve env b n = if b.len + n ≤ b.capacity ∧ 2 ^ b.requested ≤ b.capacity then .ok b else .error .panic := by
  unfold reserve
  have := hi.small
  by_cases h : b.len + n ≥ 2 ^ 64
  · rw [if_pos h, if_neg (by omega)]
  · rw [if_neg h, ensureCapacity_fixed hf]

/-- The buffer of a slice after zeros up to an alignment. -/
def padded (b : Owned) (lg : Nat) : Owned :=
  { b with requested := max b.requested lg
           data := b.data ++ List.replicate (roundUp b.len lg - b.len) (some 0#8) }

theorem nextOffset_fixed {b : Owned} (hi : b.Inv) (hf : b.fixed = true) (lg n : Nat) :
    nextOffset env b lg n = if roundUp b.len lg + n ≤ b.capacity ∧ 2 ^ max b.requested lg ≤ b.capacity
      then .ok (padded b lg) else .error .panic := by
  have hi' : Owned.Inv { b with requested := max b.requested lg } :=
    ⟨hi.len, hi.small, Nat.le_trans hi.align (Nat.le_max_left _ _), hi.fixed, hi.none, hi.some⟩
  have hle := le_roundUp b.len lg
  have hr := reserve_fixed (env := env) hi' hf (paddingTo b.len (2 ^ lg) + n)
  have hpad : paddingTo b.len (2 ^ lg) = roundUp b.len lg - b.len := paddingTo_eq _ _
  unfold nextOffset ensureAligned
  show (reserve env { b with requested := max b.requested lg } (paddingTo b.len (2 ^ lg) + n) >>= _) = _
  rw [hr]
  show ((if b.len + _ ≤ b.capacity ∧ 2 ^ max b.requested lg ≤ b.capacity then _ else _) >>= _) = _
  rw [hpad]
  by_cases h : roundUp b.len lg + n ≤ b.capacity ∧ 2 ^ max b.requested lg ≤ b.capacity
  · rw [if_pos h, if_pos (by omega)]
    show append { b with requested := max b.requested lg } (List.replicate (paddingTo b.len (2 ^ lg)) (some 0#8)) = _
    rw [hpad]
    unfold append
    rw [if_pos]
    · rfl
    · rw [List.length_replicate]
      show b.len + _ ≤ b.capacity
      omega
  · rw [if_neg h, if_neg (by omega)]
    rfl

theorem padded_len (b : Owned) (lg : Nat) : (padded b lg).len = roundUp b.len lg := by
  have := le_roundUp b.len lg
  show (b.data ++ List.replicate _ _).length = _
  rw [List.length_append, List.length_replicate]
  show b.len + _ = _
  omega

theorem append_isOk (b : Owned) (m : Memory) : (∃ b', append b m = .ok b') ↔ b.len + m.length ≤ b.capacity := by
  unfold append
  by_cases h : b.len + m.length ≤ b.capacity
  · rw [if_pos h]; exact ⟨fun _ => h, fun _ => ⟨_, rfl⟩⟩
  · rw [if_neg h]; exact ⟨fun ⟨_, h'⟩ => (nomatch h'), fun h' => absurd h' h⟩

theorem append_same {b b' : Owned} {m : Memory} (h : append b m = .ok b') :
    b'.addr = b.addr ∧ b'.capacity = b.capacity ∧ b'.fixed = b.fixed := by
  unfold append at h
  split at h
  · cases h; exact ⟨rfl, rfl, rfl⟩
  · cases h

theorem newRef_isOk (n : Nat) : (∃ u, newRef env n = .ok u) ↔ n < env.limit := by
  unfold newRef
  by_cases h : n < env.limit
  · rw [if_pos h]; exact ⟨fun _ => h, fun _ => ⟨_, rfl⟩⟩
  · rw [if_neg h]; exact ⟨fun ⟨_, h'⟩ => (nomatch h'), fun h' => absurd h' h⟩

theorem ite_isOk {α : Type} {p : Prop} [Decidable p] {a a' : α} :
    (if p then Except.ok a else Except.error ZErr.panic) = .ok a' ↔ p ∧ a = a' := by
  by_cases h : p
  · rw [if_pos h]; exact ⟨fun e => ⟨h, by cases e; rfl⟩, fun e => by rw [e.2]⟩
  · rw [if_neg h]; exact ⟨fun e => (nomatch e), fun e => absurd e.1 h⟩

/-- A call which pads and then writes `m`. -/
theorem put_isOk {b : Owned} (hi : b.Inv) (hf : b.fixed = true) (lg : Nat) (m : Memory) {β : Type}
    (k : Owned → Owned → Except ZErr β) (r : β) :
    (nextOffset env b lg m.length >>= fun b1 => append b1 m >>= k b1) = .ok r ↔
      (roundUp b.len lg + m.length ≤ b.capacity ∧ 2 ^ max b.requested lg ≤ b.capacity) ∧
      k (padded b lg) { padded b lg with data := (padded b lg).data ++ m } = .ok r := by
  rw [nextOffset_fixed hi hf]
  by_cases h : roundUp b.len lg + m.length ≤ b.capacity ∧ 2 ^ max b.requested lg ≤ b.capacity
  · rw [if_pos h]
    show (append (padded b lg) m >>= _) = _ ↔ _
    have ha : append (padded b lg) m = .ok { padded b lg with data := (padded b lg).data ++ m } := by
      unfold append
      rw [if_pos (by rw [padded_len]; exact h.1)]
    rw [ha]
    exact ⟨fun e => ⟨h, e⟩, fun e => e.2⟩
  · rw [if_neg h]
    exact ⟨fun e => (nomatch e), fun e => absurd e.1 h⟩

theorem newRef_bind {β : Type} (n : Nat) (f : Unit → Except ZErr β) (r : β) :
    (newRef env n >>= f) = .ok r ↔ n < env.limit ∧ f () = .ok r := by
  unfold newRef
  by_cases h : n < env.limit
  · rw [if_pos h]; exact ⟨fun e => ⟨h, e⟩, fun e => e.2⟩
  · rw [if_neg h]; exact ⟨fun e => (nomatch e), fun e => absurd e.1 h⟩

/-- `b'` is on top of the same slice. -/
def OnTop (b b' : Owned) : Prop := b'.addr = b.addr ∧ b'.capacity = b.capacity ∧ b'.fixed = b.fixed

theorem store_fixed {b : Owned} (hi : b.Inv) (hf : b.fixed = true) {t : ZTy} {m : Memory} (hw : t.WF) (ho : t.StoreOk)
    (hm : Mem t m) :
    ((∃ r, store env b t m = .ok r) ↔ (roundUp b.len t.lg + t.size ≤ b.capacity ∧ 2 ^ max b.requested t.lg ≤ b.capacity) ∧
      roundUp b.len t.lg < env.limit) ∧ ∀ r, store env b t m = .ok r → OnTop b r.1 := by
  have hl : (zeroed m).length = t.size := by rw [zeroed_length, mem_length t m hw hm]
  have e : store env b t m = nextOffset env b t.lg (zeroed m).length >>= fun b1 => append b1 (zeroed m) >>= fun b2 =>
      newRef env b1.len >>= fun _ => .ok (b2, b1.len) := by
    unfold store
    rw [hl, store_ok hw ho hm]
    rfl
  have key : ∀ r, store env b t m = .ok r ↔ (roundUp b.len t.lg + t.size ≤ b.capacity ∧ 2 ^ max b.requested t.lg ≤ b.capacity) ∧
      roundUp b.len t.lg < env.limit ∧ ({ padded b t.lg with data := (padded b t.lg).data ++ zeroed m }, roundUp b.len t.lg) = r := by
    intro r
    rw [e, put_isOk hi hf t.lg (zeroed m) (fun b1 b2 => newRef env b1.len >>= fun _ => .ok (b2, b1.len)), newRef_bind,
      padded_len, hl]
    exact and_congr_right fun _ => and_congr_right fun _ => ⟨fun h => by cases h; rfl, fun h => by rw [h]⟩
  constructor
  · constructor
    · rintro ⟨r, h⟩; exact ⟨((key r).1 h).1, ((key r).1 h).2.1⟩
    · rintro ⟨h1, h2⟩; exact ⟨_, (key _).2 ⟨h1, h2, rfl⟩⟩
  · intro r h
    obtain ⟨-, -, rfl⟩ := (key r).1 h
    exact ⟨rfl, rfl, rfl⟩

theorem storeSlice_fixed {b : Owned} (hi : b.Inv) (hf : b.fixed = true) {t : ZTy} {ms : List Memory} (hw : t.WF)
    (ho : t.StoreOk) (hm : ∀ m ∈ ms, Mem t m) :
    ((∃ r, storeSlice env b t ms = .ok r) ↔ (roundUp b.len t.lg + ms.length * t.size ≤ b.capacity ∧
        2 ^ max b.requested t.lg ≤ b.capacity) ∧ roundUp b.len t.lg < env.limit ∧ ms.length < env.limit) ∧
      ∀ r, storeSlice env b t ms = .ok r → OnTop b r.1 := by
  have hma : Mem (.array t ms.length) ms.flatten := by rw [Mem]; exact ⟨ms, rfl, rfl, hm⟩
  have hwa : (ZTy.array t ms.length).WF := by rw [ZTy.WF]; exact hw
  have hoka : (ZTy.array t ms.length).StoreOk := by rw [ZTy.StoreOk]; exact ho
  have hl : (zeroed ms.flatten).length = ms.length * t.size := by
    rw [zeroed_length]; exact flatten_length t.size ms (fun p hp => mem_length t p hw (hm p hp))
  have e : storeSlice env b t ms = nextOffset env b t.lg (zeroed ms.flatten).length >>= fun b1 =>
      append b1 (zeroed ms.flatten) >>= fun b2 =>
      newRef env b1.len >>= fun _ => newRef env ms.length >>= fun _ => .ok (b2, b1.len) := by
    unfold storeSlice
    rw [hl, store_ok hwa hoka hma]
    rfl
  have key : ∀ r, storeSlice env b t ms = .ok r ↔ (roundUp b.len t.lg + ms.length * t.size ≤ b.capacity ∧
      2 ^ max b.requested t.lg ≤ b.capacity) ∧ roundUp b.len t.lg < env.limit ∧ ms.length < env.limit ∧
      ({ padded b t.lg with data := (padded b t.lg).data ++ zeroed ms.flatten }, roundUp b.len t.lg) = r := by
    intro r
    rw [e, put_isOk hi hf t.lg (zeroed ms.flatten) (fun b1 b2 => newRef env b1.len >>= fun _ => newRef env ms.length >>=
      fun _ => .ok (b2, b1.len)), newRef_bind, newRef_bind, padded_len, hl]
    exact and_congr_right fun _ => and_congr_right fun _ => and_congr_right fun _ =>
      ⟨fun h => by cases h; rfl, fun h => by rw [h]⟩
  constructor
  · constructor
    · rintro ⟨r, h⟩; obtain ⟨h1, h2, h3, -⟩ := (key r).1 h; exact ⟨h1, h2, h3⟩
    · rintro ⟨h1, h2, h3⟩; exact ⟨_, (key _).2 ⟨h1, h2, h3, rfl⟩⟩
  · intro r h
    obtain ⟨-, -, -, rfl⟩ := (key r).1 h
    exact ⟨rfl, rfl, rfl⟩

theorem storeStr_fixed {b : Owned} (hi : b.Inv) (hf : b.fixed = true) (str : Bytes) :
    ((∃ r, storeStr env b str = .ok r) ↔ (roundUp b.len 0 + str.length ≤ b.capacity ∧
        2 ^ max b.requested 0 ≤ b.capacity) ∧ b.len < env.limit ∧ str.length < env.limit) ∧
      ∀ r, storeStr env b str = .ok r → OnTop b r.1 := by
  have hl : (str.map some).length = str.length := List.length_map ..
  have e : storeStr env b str = nextOffset env b 0 (str.map some).length >>= fun b1 =>
      append b1 (str.map some) >>= fun b2 =>
      newRef env b1.len >>= fun _ => newRef env str.length >>= fun _ => .ok (b2, b1.len) := by
    unfold storeStr
    rw [hl]
  have key : ∀ r, storeStr env b str = .ok r ↔ (roundUp b.len 0 + str.length ≤ b.capacity ∧
      2 ^ max b.requested 0 ≤ b.capacity) ∧ b.len < env.limit ∧ str.length < env.limit ∧
      ({ padded b 0 with data := (padded b 0).data ++ str.map some }, roundUp b.len 0) = r := by
    intro r
    rw [e, put_isOk hi hf 0 (str.map some) (fun b1 b2 => newRef env b1.len >>= fun _ => newRef env str.length >>=
      fun _ => .ok (b2, b1.len)), newRef_bind, newRef_bind, padded_len, hl, roundUp_zero]
    exact and_congr_right fun _ => and_congr_right fun _ => and_congr_right fun _ =>
      ⟨fun h => by cases h; rfl, fun h => by rw [h]⟩
  constructor
  · constructor
    · rintro ⟨r, h⟩; obtain ⟨h1, h2, h3, -⟩ := (key r).1 h; exact ⟨h1, h2, h3⟩
    · rintro ⟨h1, h2, h3⟩; exact ⟨_, (key _).2 ⟨h1, h2, h3, rfl⟩⟩
  · intro r h
    obtain ⟨-, -, -, rfl⟩ := (key r).1 h
    exact ⟨rfl, rfl, rfl⟩

theorem storeUninit_fixed {b : Owned} (hi : b.Inv) (hf : b.fixed = true) (t : ZTy) :
    ((∃ r, storeUninit env b t = .ok r) ↔ (roundUp b.len t.lg + t.size ≤ b.capacity ∧
        2 ^ max b.requested t.lg ≤ b.capacity) ∧ roundUp b.len t.lg < env.limit) ∧
      ∀ r, storeUninit env b t = .ok r → OnTop b r := by
  have hl : (List.replicate t.size (some 0#8)).length = t.size := List.length_replicate ..
  have e : storeUninit env b t = nextOffset env b t.lg (List.replicate t.size (some 0#8)).length >>= fun b1 =>
      append b1 (List.replicate t.size (some 0#8)) >>= fun b2 => newRef env b1.len >>= fun _ => .ok b2 := by
    unfold storeUninit
    rw [hl]
  have key : ∀ r, storeUninit env b t = .ok r ↔ (roundUp b.len t.lg + t.size ≤ b.capacity ∧
      2 ^ max b.requested t.lg ≤ b.capacity) ∧ roundUp b.len t.lg < env.limit ∧
      { padded b t.lg with data := (padded b t.lg).data ++ List.replicate t.size (some 0#8) } = r := by
    intro r
    rw [e, put_isOk hi hf t.lg (List.replicate t.size (some 0#8)) (fun b1 b2 => newRef env b1.len >>= fun _ => .ok b2),
      newRef_bind, padded_len, hl]
    exact and_congr_right fun _ => and_congr_right fun _ => ⟨fun h => by cases h; rfl, fun h => by rw [h]⟩
  constructor
  · constructor
    · rintro ⟨r, h⟩; obtain ⟨h1, h2, -⟩ := (key r).1 h; exact ⟨h1, h2⟩
    · rintro ⟨h1, h2⟩; exact ⟨_, (key _).2 ⟨h1, h2, rfl⟩⟩
  · intro r h
    obtain ⟨-, -, rfl⟩ := (key r).1 h
    exact ⟨rfl, rfl, rfl⟩

theorem isOk_map {α β : Type} {r : Except ZErr α} {f : α → β} :
    (∃ b, (do let a ← r; Except.ok (f a) : Except ZErr β) = .ok b) ↔ ∃ a, r = .ok a := by
  rw [bind_isOk]
  exact ⟨fun ⟨a, h, _⟩ => ⟨a, h⟩, fun ⟨a, h⟩ => ⟨a, h, _, rfl⟩⟩

theorem map_ok {α β : Type} {r : Except ZErr α} {f : α → β} {b : β}
    (h : (do let a ← r; Except.ok (f a) : Except ZErr β) = .ok b) : ∃ a, r = .ok a ∧ f a = b := by
  cases r with
  | error e => cases h
  | ok a => cases h; exact ⟨a, rfl, rfl⟩

theorem op_fixed {s : Session} {i : Image} (hc : Corr s i) (hf : s.buf.fixed = true) (op : Op) (hok : op.Ok) :
    ((∃ s', op.run env s = .ok s') ↔ op.FitsIn s.buf.addr s.buf.capacity env.limit i) ∧
    ∀ s', op.run env s = .ok s' → OnTop s.buf s'.buf := by
  have hlen := hc.holds.len
  have hlg := hc.holds.2
  cases op with
  | store t m =>
    obtain ⟨hw, ho, hm⟩ := hok
    obtain ⟨h1, h2⟩ := store_fixed (env := env) hc.inv hf hw ho hm
    rw [hlen, hlg] at h1
    refine ⟨isOk_map.trans h1, fun s' h => ?_⟩
    obtain ⟨a, ha, rfl⟩ := map_ok h
    exact h2 _ ha
  | storeSlice t ms =>
    obtain ⟨hw, ho, hm⟩ := hok
    obtain ⟨h1, h2⟩ := storeSlice_fixed (env := env) hc.inv hf hw ho hm
    rw [hlen, hlg] at h1
    refine ⟨isOk_map.trans h1, fun s' h => ?_⟩
    obtain ⟨a, ha, rfl⟩ := map_ok h
    exact h2 _ ha
  | storeStr str =>
    obtain ⟨h1, h2⟩ := storeStr_fixed (env := env) hc.inv hf str
    rw [hlen, hlg] at h1
    refine ⟨isOk_map.trans h1, fun s' h => ?_⟩
    obtain ⟨a, ha, rfl⟩ := map_ok h
    exact h2 _ ha
  | storeUninit t =>
    obtain ⟨h1, h2⟩ := storeUninit_fixed (env := env) hc.inv hf t
    rw [hlen, hlg] at h1
    refine ⟨isOk_map.trans h1, fun s' h => ?_⟩
    obtain ⟨a, ha, rfl⟩ := map_ok h
    exact h2 _ ha
  | extend str =>
    have e := reserve_fixed (env := env) hc.inv hf str.length
    have hl : (str.map some).length = str.length := List.length_map ..
    constructor
    · refine isOk_map.trans ?_
      unfold extend
      rw [bind_isOk]
      show _ ↔ roundUp i.bytes.length 0 + str.length ≤ s.buf.capacity ∧ 2 ^ max i.lg 0 ≤ s.buf.capacity
      rw [roundUp_zero, Nat.max_zero, ← hlen, ← hlg]
      constructor
      · rintro ⟨a, ha, -⟩
        rw [e] at ha
        exact (ite_isOk.1 ha).1
      · intro h
        refine ⟨s.buf, by rw [e, if_pos h], (append_isOk _ _).2 (by rw [hl]; exact h.1)⟩
    · intro s' h
      obtain ⟨a, ha, rfl⟩ := map_ok h
      unfold extend at ha
      rw [e] at ha
      by_cases h' : s.buf.len + str.length ≤ s.buf.capacity ∧ 2 ^ s.buf.requested ≤ s.buf.capacity
      · rw [if_pos h'] at ha
        exact append_same ha
      · rw [if_neg h'] at ha; cases ha
  | request t =>
    have e := nextOffset_fixed (env := env) hc.inv hf t.lg t.size
    rw [hlen, hlg] at e
    constructor
    · refine isOk_map.trans ?_
      rw [e]
      constructor
      · rintro ⟨a, ha⟩; exact (ite_isOk.1 ha).1
      · intro h; exact ⟨_, if_pos h⟩
    · intro s' h
      obtain ⟨a, ha, rfl⟩ := map_ok h
      rw [e] at ha
      obtain ⟨-, rfl⟩ := ite_isOk.1 ha
      exact ⟨rfl, rfl, rfl⟩
  | reserve n =>
    have e := reserve_fixed (env := env) hc.inv hf n
    constructor
    · refine isOk_map.trans ?_
      show _ ↔ roundUp i.bytes.length 0 + n ≤ s.buf.capacity ∧ 2 ^ max i.lg 0 ≤ s.buf.capacity
      rw [roundUp_zero, Nat.max_zero, ← hlen, ← hlg, e]
      constructor
      · rintro ⟨a, ha⟩; exact (ite_isOk.1 ha).1
      · intro h; exact ⟨_, if_pos h⟩
    · intro s' h
      obtain ⟨a, ha, rfl⟩ := map_ok h
      rw [e] at ha
      obtain ⟨-, rfl⟩ := ite_isOk.1 ha
      exact ⟨rfl, rfl, rfl⟩
  | alignInPlace =>
    have e : Zero.alignInPlace env s.buf = if isAligned s.buf.addr s.buf.requested = true then .ok s.buf else .error .panic := by
      unfold Zero.alignInPlace
      rw [if_pos hf]
    constructor
    · refine isOk_map.trans ?_
      show _ ↔ s.buf.addr % 2 ^ i.lg = 0
      rw [← isAligned_iff, ← hlg, e]
      constructor
      · rintro ⟨a, ha⟩; exact (ite_isOk.1 ha).1
      · intro h; exact ⟨_, if_pos h⟩
    · intro s' h
      obtain ⟨a, ha, rfl⟩ := map_ok h
      rw [e] at ha
      obtain ⟨-, rfl⟩ := ite_isOk.1 ha
      exact ⟨rfl, rfl, rfl⟩
  | clone =>
    have e : cloneBuf env s.buf = .ok s.buf := by unfold cloneBuf; rw [if_pos hf]
    refine ⟨isOk_map.trans ⟨fun _ => trivial, fun _ => ⟨_, e⟩⟩, fun s' h => ?_⟩
    obtain ⟨a, ha, rfl⟩ := map_ok h
    rw [e] at ha
    cases ha
    exact ⟨rfl, rfl, rfl⟩
  | truncate n =>
    refine ⟨⟨fun _ => trivial, fun _ => ⟨_, rfl⟩⟩, fun s' h => ?_⟩
    cases h
    exact ⟨rfl, rfl, rfl⟩

theorem ops_fixed : ∀ (ops : List Op) {s : Session} {i : Image}, Corr s i → s.buf.fixed = true → (∀ op ∈ ops, op.Ok) →
    ((∃ s', runOps env ops s = .ok s') ↔ opsFitIn s.buf.addr s.buf.capacity env.limit ops i)
  | [], s, i, _, _, _ => ⟨fun _ => trivial, fun _ => ⟨_, rfl⟩⟩
  | op :: ops, s, i, hc, hf, hok => by
    obtain ⟨h1, h2⟩ := op_fixed (env := env) hc hf op (hok op (by simp))
    have step : ∀ s1, op.run env s = .ok s1 → ((∃ s', runOps env ops s1 = .ok s') ↔
        opsFitIn s.buf.addr s.buf.capacity env.limit ops (op.image i)) := by
      intro s1 hs
      obtain ⟨k1, k2, k3⟩ := h2 s1 hs
      have hc1 : Corr s1 (op.image i) := by
        rcases op_spec (env := env) hc op (hok op (by simp)) with ⟨s2, g1, g2, _⟩ | ⟨g1, _⟩ | ⟨g1, _⟩
        · rw [hs] at g1; cases g1; exact g2
        · rw [hs] at g1; cases g1
        · rw [hs] at g1; cases g1
      have := ops_fixed ops hc1 (k3.trans hf) (fun o ho => hok o (by simp [ho]))
      rwa [k1, k2] at this
    rw [runOps, opsFitIn]
    rw [bind_isOk]
    constructor
    · rintro ⟨s1, hs, hr⟩
      exact ⟨h1.1 ⟨s1, hs⟩, (step s1 hs).1 hr⟩
    · rintro ⟨hfit, hrest⟩
      obtain ⟨s1, hs⟩ := h1.2 hfit
      exact ⟨s1, hs, (step s1 hs).2 hrest⟩

end Musli.Zero
