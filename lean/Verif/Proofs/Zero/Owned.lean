import Verif.Spec.ZeroHistory
import Verif.Proofs.Zero.Load
import Verif.Proofs.Zero.Store
set_option linter.unusedSectionVars false
namespace Musli.Zero
open Musli

/-- What holds of a buffer. -/
structure Owned.Inv (b : Owned) : Prop where
  len : b.len ≤ b.capacity
  small : b.capacity < 2 ^ 63
  align : b.align ≤ b.requested
  fixed : b.fixed = true → b.live = []
  none : b.fixed = false → b.capacity = 0 → b.live = []
  some : b.fixed = false → b.capacity ≠ 0 → b.live = [⟨b.addr, b.capacity, b.align⟩]

/-- A buffer without memory is aligned. -/
def Owned.Good (b : Owned) : Prop := b.fixed = false → b.capacity = 0 → isAligned b.addr b.requested = true

/-- `b'` has the same contents. -/
structure Same (b b' : Owned) : Prop where
  data : b'.data = b.data
  requested : b'.requested = b.requested
  fixed : b'.fixed = b.fixed

theorem Same.refl (b : Owned) : Same b b := ⟨rfl, rfl, rfl⟩

theorem erase_pair (x y : Block) : [x, y].erase y = [x] := by
  rw [List.erase_cons]
  split
  · rename_i h; simp only [beq_iff_eq] at h; rw [h]
  · simp

theorem layoutOk_lt {size lg : Nat} (h : layoutOk size lg = true) : size < 2 ^ 63 := by
  simp only [layoutOk, decide_eq_true_eq] at h
  exact Nat.lt_of_le_of_lt (le_roundUp _ _) h

/-- How much memory is allocated if `n` bytes are needed. -/
def Bound (env : Env) (b b' : Owned) (n : Nat) : Prop :=
  env.Grows → b'.capacity ≤ max b.capacity (2 * max n (2 ^ b'.requested))

section
variable {env : Env}

theorem ensureCapacity_spec {b : Owned} (hi : b.Inv) (c : Nat) :
    (∃ b', ensureCapacity env b c = .ok b' ∧ b'.Inv ∧ Same b b' ∧ max c (2 ^ b.requested) ≤ b'.capacity ∧
      Bound env b b' c) ∨
    (ensureCapacity env b c = .error .panic ∧ b.capacity < max c (2 ^ b.requested) ∧
      (b.fixed = true ∨ layoutOk (max (max c (2 ^ b.requested)) (env.grow b.capacity)) b.requested = false)) := by
  unfold ensureCapacity
  dsimp only
  by_cases h1 : b.capacity ≥ max c (2 ^ b.requested)
  · rw [if_pos h1]; exact .inl ⟨b, rfl, hi, Same.refl b, h1, fun _ => Nat.le_max_left _ _⟩
  rw [if_neg h1]
  by_cases h2 : b.fixed = true
  · rw [if_pos h2]; exact .inr ⟨rfl, by omega, .inl h2⟩
  rw [if_neg h2]
  have h2 : b.fixed = false := by simpa using h2
  have hc0 : ¬ max (max c (2 ^ b.requested)) (env.grow b.capacity) = 0 := by
    have := Nat.two_pow_pos b.requested; omega
  generalize hcap : max (max c (2 ^ b.requested)) (env.grow b.capacity) = cap at *
  have hle : max c (2 ^ b.requested) ≤ cap := by omega
  have hbound : env.Grows → cap ≤ max b.capacity (2 * max c (2 ^ b.requested)) := by
    intro hg
    have := hg b.capacity
    omega
  by_cases h3 : layoutOk cap b.requested = true
  · rw [if_pos h3]
    refine .inl ?_
    have hlt := layoutOk_lt h3
    by_cases h4 : b.capacity = 0
    · rw [if_pos h4]
      unfold allocInit allocBlock
      rw [if_neg hc0]
      refine ⟨_, rfl, ⟨?_, hlt, Nat.le_refl _, fun h => absurd (h2.symm.trans h) (by simp), fun _ h => absurd h hc0, fun _ _ => ?_⟩,
        ⟨rfl, rfl, rfl⟩, hle, hbound⟩
      · have := hi.len; simp only [Owned.len] at *; omega
      · show _ :: b.live = _
        rw [hi.none h2 h4]
    · rw [if_neg h4]
      have hl := hi.some h2 h4
      by_cases h5 : b.requested = b.align
      · rw [if_pos h5]
        unfold allocRealloc allocBlock
        rw [if_neg hc0]
        simp only [Bind.bind, Except.bind, deallocBlock, hl]
        rw [if_pos (by simp)]
        refine ⟨_, rfl, ⟨?_, hlt, hi.align, fun h => absurd (h2.symm.trans h) (by simp), fun _ h => absurd h hc0, fun _ _ => ?_⟩,
          ⟨rfl, rfl, rfl⟩, hle, hbound⟩
        · have := hi.len; simp only [Owned.len] at *; omega
        · exact erase_pair _ _
      · rw [if_neg h5]
        unfold allocNew allocBlock
        rw [if_neg hc0]
        simp only [Bind.bind, Except.bind, deallocBlock, hl]
        have := hi.len
        rw [if_pos (by omega), if_pos (by simp)]
        refine ⟨_, rfl, ⟨?_, hlt, Nat.le_refl _, fun h => absurd (h2.symm.trans h) (by simp), fun _ h => absurd h hc0, fun _ _ => ?_⟩,
          ⟨rfl, rfl, rfl⟩, hle, hbound⟩
        · simp only [Owned.len] at *; omega
        · exact erase_pair _ _
  · rw [if_neg h3]
    exact .inr ⟨rfl, by omega, .inr (by simpa using h3)⟩

/-- Why `reserve` panics: the length overflows, the slice is full, or the allocation is too large. -/
def ReserveFails (env : Env) (b : Owned) (n : Nat) : Prop :=
  b.len + n ≥ 2 ^ 64 ∨ (b.capacity < max (b.len + n) (2 ^ b.requested) ∧
    (b.fixed = true ∨ layoutOk (max (max (b.len + n) (2 ^ b.requested)) (env.grow b.capacity)) b.requested = false))

theorem reserve_spec {b : Owned} (hi : b.Inv) (n : Nat) :
    (∃ b', reserve env b n = .ok b' ∧ b'.Inv ∧ Same b b' ∧ b.len + n ≤ b'.capacity ∧ 0 < b'.capacity ∧
      Bound env b b' (b.len + n)) ∨
    (reserve env b n = .error .panic ∧ ReserveFails env b n) := by
  unfold reserve
  by_cases h : b.len + n ≥ 2 ^ 64
  · rw [if_pos h]; exact .inr ⟨rfl, .inl h⟩
  · rw [if_neg h]
    rcases ensureCapacity_spec (env := env) hi (b.len + n) with ⟨b', h1, h2, h3, h4, h6⟩ | ⟨h1, h2⟩
    · have := Nat.two_pow_pos b.requested
      exact .inl ⟨b', h1, h2, h3, by omega, by omega, h6⟩
    · exact .inr ⟨h1, .inr h2⟩

theorem append_spec {b : Owned} (hi : b.Inv) {m : Memory} (h : b.len + m.length ≤ b.capacity) :
    append b m = .ok { b with data := b.data ++ m } ∧ Owned.Inv { b with data := b.data ++ m } := by
  unfold append
  rw [if_pos h]
  exact ⟨rfl, by simpa [Owned.len] using h, hi.small, hi.align, hi.fixed, hi.none, hi.some⟩

/-- The bytes in the buffer. -/
def Holds (b : Owned) (bytes : Bytes) (lg : Nat) : Prop := b.data = bytes.map some ∧ b.requested = lg

theorem Holds.len {b : Owned} {bytes : Bytes} {lg : Nat} (h : Holds b bytes lg) : b.len = bytes.length := by
  rw [Owned.len, h.1, List.length_map]

theorem nextOffset_spec {b : Owned} (hi : b.Inv) {bytes : Bytes} {l : Nat} (hh : Holds b bytes l) (lg n : Nat) :
    (∃ b', nextOffset env b lg n = .ok b' ∧ b'.Inv ∧ b'.fixed = b.fixed ∧
      Holds b' (bytes ++ List.replicate (roundUp bytes.length lg - bytes.length) 0#8) (max l lg) ∧
      b'.len = roundUp bytes.length lg ∧ b'.len + n ≤ b'.capacity ∧ 0 < b'.capacity ∧
      Bound env b b' (roundUp bytes.length lg + n)) ∨
    (nextOffset env b lg n = .error .panic ∧
      ReserveFails env { b with requested := max b.requested lg } (roundUp bytes.length lg - bytes.length + n)) := by
  have hi' : Owned.Inv { b with requested := max b.requested lg } :=
    ⟨hi.len, hi.small, Nat.le_trans hi.align (Nat.le_max_left _ _), hi.fixed, hi.none, hi.some⟩
  unfold nextOffset ensureAligned
  dsimp only
  rw [paddingTo_eq, show Owned.len { b with requested := max b.requested lg } = bytes.length from hh.len]
  have hlen : Owned.len { b with requested := max b.requested lg } = bytes.length := hh.len
  have hr := le_roundUp bytes.length lg
  rcases reserve_spec (env := env) hi' (roundUp bytes.length lg - bytes.length + n) with ⟨b', h1, h2, h3, h4, h5, hb⟩ | ⟨h1, h2⟩
  · rw [h1]
    have hl : b'.len = bytes.length := by rw [Owned.len, h3.data, ← hlen]; rfl
    have ha := append_spec h2 (m := List.replicate (roundUp bytes.length lg - bytes.length) (some 0#8))
      (by rw [List.length_replicate]; omega)
    simp only [Bind.bind, Except.bind]
    have hd : b'.data = bytes.map some := h3.data.trans hh.1
    refine .inl ⟨_, ha.1, ha.2, h3.fixed, ⟨?_, ?_⟩, ?_, ?_, h5, fun hg => ?_⟩
    · show b'.data ++ _ = _
      rw [hd, List.map_append, List.map_replicate]
    · show b'.requested = _
      rw [h3.requested, ← hh.2]
    · simp [Owned.len, hd]; omega
    · simp [Owned.len, hd]; omega
    · have := hb hg
      rw [hlen] at this
      rw [show bytes.length + (roundUp bytes.length lg - bytes.length + n) = roundUp bytes.length lg + n by omega] at this
      exact this
  · rw [h1]
    exact .inr ⟨rfl, h2⟩

theorem put_spec {b : Owned} (hi : b.Inv) {bytes : Bytes} {l : Nat} (hh : Holds b bytes l) (x : Bytes)
    (h : b.len + x.length ≤ b.capacity) :
    ∃ b', append b (x.map some) = .ok b' ∧ b'.Inv ∧ b'.fixed = b.fixed ∧ Holds b' (bytes ++ x) l ∧
      b'.capacity = b.capacity ∧ b'.requested = b.requested := by
  have ha := append_spec hi (m := x.map some) (by rw [List.length_map]; exact h)
  refine ⟨_, ha.1, ha.2, rfl, ⟨?_, hh.2⟩, rfl, rfl⟩
  show b.data ++ _ = _
  rw [hh.1, List.map_append]

theorem bound_of {b b1 b2 : Owned} {n : Nat} (h : b2.capacity = b1.capacity) (h' : b2.requested = b1.requested)
    (hb : Bound env b b1 n) : Bound env b b2 n := by
  unfold Bound; rw [h, h']; exact hb

theorem newRef_cases (n : Nat) : (newRef env n = .ok () ∧ n < env.limit) ∨ (newRef env n = .error .panic ∧ env.limit ≤ n) := by
  unfold newRef
  by_cases h : n < env.limit
  · rw [if_pos h]; exact .inl ⟨rfl, h⟩
  · rw [if_neg h]; exact .inr ⟨rfl, by omega⟩

theorem bytesOf_map (m : Memory) : (bytesOf m).map some = zeroed m := by
  simp only [bytesOf, zeroed, List.map_map]; rfl

theorem bytesOf_length (m : Memory) : (bytesOf m).length = m.length := by simp [bytesOf]

/-- Why storing something of that size and alignment panics. -/
def StoreFails (env : Env) (b : Owned) (lg n count : Nat) : Prop :=
  ReserveFails env { b with requested := max b.requested lg } (roundUp b.len lg - b.len + n) ∨
  env.limit ≤ roundUp b.len lg ∨ env.limit ≤ count

/-- What a function which stores something returns. -/
def Stores (env : Env) (b : Owned) (bytes : Bytes) (l lg count : Nat) (x : Bytes) (r : Except ZErr (Owned × Nat)) : Prop :=
  (∃ b', r = .ok (b', roundUp bytes.length lg) ∧ b'.Inv ∧ b'.fixed = b.fixed ∧
    Holds b' (bytes ++ List.replicate (roundUp bytes.length lg - bytes.length) 0#8 ++ x) (max l lg) ∧ 0 < b'.capacity ∧
    Bound env b b' (roundUp bytes.length lg + x.length)) ∨
  (r = .error .panic ∧ StoreFails env b lg x.length count)

variable [Host]

theorem store_spec {b : Owned} (hi : b.Inv) {bytes : Bytes} {l : Nat} (hh : Holds b bytes l) {t : ZTy} {m : Memory}
    (hw : t.WF) (hok : t.StoreOk) (hm : Mem t m) :
    Stores env b bytes l t.lg 0 (bytesOf m) (store env b t m) := by
  have hml := mem_length t m hw hm
  unfold Stores store
  rcases nextOffset_spec (env := env) hi hh t.lg t.size with ⟨b1, h1, h2, h3, h4, h5, h6, h7, hb⟩ | ⟨h1, h2⟩
  · rw [h1, store_ok hw hok hm, ← bytesOf_map]
    obtain ⟨b2, g1, g2, g3, g4, g5, g6⟩ := put_spec h2 h4 (bytesOf m) (by rw [bytesOf_length]; omega)
    simp only [Bind.bind, Except.bind, g1]
    rcases newRef_cases (env := env) b1.len with ⟨q, q'⟩ | ⟨q, q'⟩
    · rw [q]
      exact .inl ⟨b2, by rw [h5], g2, g3.trans h3, g4, by omega, by rw [bytesOf_length, hml]; exact bound_of g5 g6 hb⟩
    · rw [q]
      exact .inr ⟨rfl, .inr (.inl (by rw [hh.len, ← h5]; exact q'))⟩
  · rw [h1]
    rw [StoreFails, hh.len, bytesOf_length, hml]
    exact .inr ⟨rfl, .inl h2⟩

theorem storeSlice_spec {b : Owned} (hi : b.Inv) {bytes : Bytes} {l : Nat} (hh : Holds b bytes l) {t : ZTy}
    {ms : List Memory} (hw : t.WF) (hok : t.StoreOk) (hm : ∀ m ∈ ms, Mem t m) :
    Stores env b bytes l t.lg ms.length (bytesOf ms.flatten) (storeSlice env b t ms) := by
  have hma : Mem (.array t ms.length) ms.flatten := by rw [Mem]; exact ⟨ms, rfl, rfl, hm⟩
  have hwa : (ZTy.array t ms.length).WF := by rw [ZTy.WF]; exact hw
  have hoka : (ZTy.array t ms.length).StoreOk := by rw [ZTy.StoreOk]; exact hok
  have hml := mem_length _ _ hwa hma
  rw [ZTy.size] at hml
  unfold Stores storeSlice
  rcases nextOffset_spec (env := env) hi hh t.lg (ms.length * t.size) with ⟨b1, h1, h2, h3, h4, h5, h6, h7, hb⟩ | ⟨h1, h2⟩
  · rw [h1, store_ok hwa hoka hma, ← bytesOf_map]
    obtain ⟨b2, g1, g2, g3, g4, g5, g6⟩ := put_spec h2 h4 (bytesOf ms.flatten) (by rw [bytesOf_length]; omega)
    simp only [Bind.bind, Except.bind, g1]
    rcases newRef_cases (env := env) b1.len with ⟨q, q'⟩ | ⟨q, q'⟩
    · rw [q]
      rcases newRef_cases (env := env) ms.length with ⟨r, r'⟩ | ⟨r, r'⟩
      · rw [r]
        exact .inl ⟨b2, by rw [h5], g2, g3.trans h3, g4, by omega, by rw [bytesOf_length, hml]; exact bound_of g5 g6 hb⟩
      · rw [r]
        exact .inr ⟨rfl, .inr (.inr r')⟩
    · rw [q]
      exact .inr ⟨rfl, .inr (.inl (by rw [hh.len, ← h5]; exact q'))⟩
  · rw [h1]
    rw [StoreFails, hh.len, bytesOf_length, hml]
    exact .inr ⟨rfl, .inl h2⟩

omit [Host] in
theorem storeStr_spec {b : Owned} (hi : b.Inv) {bytes : Bytes} {l : Nat} (hh : Holds b bytes l) (s : Bytes) :
    Stores env b bytes l 0 s.length s (storeStr env b s) := by
  unfold Stores storeStr
  rcases nextOffset_spec (env := env) hi hh 0 s.length with ⟨b1, h1, h2, h3, h4, h5, h6, h7, hb⟩ | ⟨h1, h2⟩
  · rw [h1]
    obtain ⟨b2, g1, g2, g3, g4, g5, g6⟩ := put_spec h2 h4 s (by omega)
    simp only [Bind.bind, Except.bind, g1]
    rcases newRef_cases (env := env) b1.len with ⟨q, q'⟩ | ⟨q, q'⟩
    · rw [q]
      rcases newRef_cases (env := env) s.length with ⟨r, r'⟩ | ⟨r, r'⟩
      · rw [r]
        exact .inl ⟨b2, by rw [h5], g2, g3.trans h3, g4, by omega, bound_of g5 g6 hb⟩
      · rw [r]
        exact .inr ⟨rfl, .inr (.inr r')⟩
    · rw [q]
      exact .inr ⟨rfl, .inr (.inl (by rw [hh.len, ← h5]; exact q'))⟩
  · rw [h1]
    rw [StoreFails, hh.len]
    exact .inr ⟨rfl, .inl h2⟩

omit [Host] in
theorem storeUninit_spec {b : Owned} (hi : b.Inv) {bytes : Bytes} {l : Nat} (hh : Holds b bytes l) (t : ZTy) :
    (∃ b', storeUninit env b t = .ok b' ∧ b'.Inv ∧ b'.fixed = b.fixed ∧
      Holds b' (bytes ++ List.replicate (roundUp bytes.length t.lg - bytes.length) 0#8 ++ List.replicate t.size 0#8)
        (max l t.lg) ∧ 0 < b'.capacity ∧ Bound env b b' (roundUp bytes.length t.lg + t.size)) ∨
    (storeUninit env b t = .error .panic ∧ StoreFails env b t.lg t.size 0) := by
  unfold storeUninit
  rcases nextOffset_spec (env := env) hi hh t.lg t.size with ⟨b1, h1, h2, h3, h4, h5, h6, h7, hb⟩ | ⟨h1, h2⟩
  · rw [h1, show List.replicate t.size (some 0#8) = (List.replicate t.size 0#8).map some by rw [List.map_replicate]]
    obtain ⟨b2, g1, g2, g3, g4, g5, g6⟩ := put_spec h2 h4 (List.replicate t.size 0#8) (by rw [List.length_replicate]; omega)
    simp only [Bind.bind, Except.bind, g1]
    rcases newRef_cases (env := env) b1.len with ⟨q, q'⟩ | ⟨q, q'⟩
    · rw [q]
      exact .inl ⟨b2, rfl, g2, g3.trans h3, g4, by omega, bound_of g5 g6 hb⟩
    · rw [q]
      exact .inr ⟨rfl, .inr (.inl (by rw [hh.len, ← h5]; exact q'))⟩
  · rw [h1]
    rw [StoreFails, hh.len]
    exact .inr ⟨rfl, .inl h2⟩

omit [Host] in
theorem extend_spec {b : Owned} (hi : b.Inv) {bytes : Bytes} {l : Nat} (hh : Holds b bytes l) (s : Bytes) :
    (∃ b', extend env b s = .ok b' ∧ b'.Inv ∧ b'.fixed = b.fixed ∧ Holds b' (bytes ++ s) l ∧ 0 < b'.capacity ∧
      Bound env b b' (b.len + s.length)) ∨
    (extend env b s = .error .panic ∧ ReserveFails env b s.length) := by
  unfold extend
  rcases reserve_spec (env := env) hi s.length with ⟨b', h1, h2, h3, h4, h5, hb⟩ | ⟨h1, h2⟩
  · rw [h1]
    have hl : b'.len = b.len := by rw [Owned.len, h3.data]; rfl
    obtain ⟨b2, g1, g2, g3, g4, g5, g6⟩ := put_spec h2 (bytes := bytes) (l := l) ⟨h3.data.trans hh.1, h3.requested.trans hh.2⟩ s (by omega)
    exact .inl ⟨b2, g1, g2, g3.trans h3.fixed, g4, by omega, bound_of g5 g6 hb⟩
  · rw [h1]
    exact .inr ⟨rfl, h2⟩

omit [Host] in
theorem alignInPlace_spec {b : Owned} (hi : b.Inv) :
    (∃ b', alignInPlace env b = .ok b' ∧ b'.Inv ∧ Same b b' ∧ (b = b' ∨ 0 < b'.capacity) ∧ b'.capacity = b.capacity ∧
      (env.Lawful → isAligned b'.addr b.requested = true)) ∨
    (alignInPlace env b = .error .panic ∧ isAligned b.addr b.requested = false ∧
      (b.fixed = true ∨ layoutOk b.capacity b.requested = false)) ∨
    (¬ b.Good ∧ alignInPlace env b = .error .ub) := by
  unfold alignInPlace
  by_cases h1 : isAligned b.addr b.requested = true
  · rw [if_pos h1]; exact .inl ⟨b, rfl, hi, Same.refl b, .inl rfl, rfl, fun _ => h1⟩
  rw [if_neg h1]
  have h1 : isAligned b.addr b.requested = false := by simpa using h1
  by_cases h2 : b.fixed = true
  · rw [if_pos h2]; exact .inr (.inl ⟨rfl, h1, .inl h2⟩)
  rw [if_neg h2]
  have h2 : b.fixed = false := by simpa using h2
  by_cases h3 : layoutOk b.capacity b.requested = true
  · rw [if_pos h3]
    unfold allocNew allocBlock
    by_cases h4 : b.capacity = 0
    · rw [if_pos h4]
      refine .inr (.inr ⟨fun h => ?_, rfl⟩)
      exact absurd (h h2 h4) (by rw [h1]; simp)
    · rw [if_neg h4]
      have hl := hi.some h2 h4
      simp only [Bind.bind, Except.bind, deallocBlock, hl]
      have := hi.len
      rw [if_pos (by omega), if_pos (by simp)]
      refine .inl ⟨_, rfl, ⟨?_, hi.small, Nat.le_refl _, fun h => absurd (h2.symm.trans h) (by simp), fun _ h => absurd h h4,
        fun _ _ => ?_⟩, ⟨rfl, rfl, rfl⟩,   .inr (Nat.pos_of_ne_zero h4), rfl, fun hlaw => ?_⟩
      · simp only [Owned.len] at *; omega
      · exact erase_pair _ _
      · rw [isAligned_iff]; exact hlaw _ _ _
  · rw [if_neg h3]
    exact .inr (.inl ⟨rfl, h1, .inr (by simpa using h3)⟩)

omit [Host] in
theorem dropBuf_spec {b : Owned} (hi : b.Inv) : ∃ b', dropBuf b = .ok b' ∧ b'.live = [] := by
  unfold dropBuf
  by_cases h : b.fixed = true ∨ b.capacity = 0
  · rw [if_pos h]
    refine ⟨b, rfl, ?_⟩
    by_cases hf : b.fixed = true
    · exact hi.fixed hf
    · exact hi.none (by simpa using hf) (by rcases h with h | h; exact absurd h hf; exact h)
  · rw [if_neg h]
    simp only [not_or] at h
    have hl := hi.some (by simpa using h.1) h.2
    unfold deallocBlock
    rw [hl, if_pos (by simp)]
    exact ⟨_, rfl, by simp⟩

omit [Host] in
theorem cloneBuf_spec {b : Owned} (hi : b.Inv) :
    (∃ b', cloneBuf env b = .ok b' ∧ b'.Inv ∧ Same b b' ∧ b'.capacity ≤ b.capacity ∧
      (b.Good → b.len ≠ 0 ∨ b.align = b.requested → b'.Good)) ∨
    (cloneBuf env b = .error .panic ∧ layoutOk b.len b.align = false) := by
  unfold cloneBuf
  by_cases h1 : b.fixed = true
  · rw [if_pos h1]; exact .inl ⟨b, rfl, hi, Same.refl b, Nat.le_refl _, fun h _ => h⟩
  rw [if_neg h1]
  have h1 : b.fixed = false := by simpa using h1
  by_cases h2 : b.len = 0
  · rw [if_pos h2]
    have hd : b.data = [] := by simpa [Owned.len] using h2
    refine .inl ?_
    unfold dropBuf
    by_cases h3 : b.capacity = 0
    · rw [if_pos (.inr h3)]
      refine ⟨_, rfl, ⟨by simp [Owned.len], by simp, hi.align, fun h => hi.fixed h, fun _ _ => hi.none h1 h3, fun _ h => absurd rfl h⟩,
        ⟨hd.symm, rfl, rfl⟩, Nat.zero_le _, fun _ hor _ _ => ?_⟩
      rcases hor with hor | hor
      · exact absurd h2 hor
      · show isAligned (2 ^ b.align) b.requested = true
        rw [isAligned_iff, hor, Nat.mod_self]
    · rw [if_neg (by simp [h1, h3])]
      unfold deallocBlock
      rw [hi.some h1 h3, if_pos (by simp)]
      refine ⟨_, rfl, ⟨by simp [Owned.len], by simp, hi.align, fun h => absurd (h1.symm.trans h) (by simp),
        fun _ _ => by simp, fun _ h => absurd rfl h⟩, ⟨hd.symm, rfl, rfl⟩, Nat.zero_le _, fun _ hor _ _ => ?_⟩
      rcases hor with hor | hor
      · exact absurd h2 hor
      · show isAligned (2 ^ b.align) b.requested = true
        rw [isAligned_iff, hor, Nat.mod_self]
  · rw [if_neg h2]
    have hlen := hi.len
    have hc : ¬ b.capacity = 0 := by omega
    by_cases h3 : layoutOk b.len b.align = true
    · rw [if_pos h3]
      unfold allocBlock
      rw [if_neg h2]
      simp only [Bind.bind, Except.bind, dropBuf]
      rw [if_neg (by simp [h1, hc])]
      simp only [deallocBlock, hi.some h1 hc]
      rw [if_pos (by simp)]
      refine .inl ⟨_, rfl, ⟨Nat.le_refl _, layoutOk_lt h3, hi.align, fun h => absurd (h1.symm.trans h) (by simp),
        fun _ h => absurd h h2, fun _ _ => erase_pair _ _⟩, ⟨rfl, rfl, rfl⟩, hlen, fun _ _ _ h => absurd h h2⟩
    · rw [if_neg h3]
      exact .inr ⟨rfl, by simpa using h3⟩

end
end Musli.Zero
