import Verif.Proofs.Zero.SliceMut
import Verif.Props.ZeroLayout
/-!
# `OwnedBuf` and `SliceMut`
-/
set_option linter.unusedSectionVars false
namespace Musli.Zero.OwnedProps
open Musli Musli.Zero Musli.Zero.LayoutProps

section
variable [Host] {env : Env}

omit [Host] in
theorem start_spec {b : Owned} (h : Start env b) :
    b.Inv ∧ b.Good ∧ b.data = [] ∧ (b.fixed = false → b.align = b.requested) := by
  rcases h with ⟨c, lg, h⟩ | ⟨addr, c, lg, hc, rfl⟩
  · unfold Owned.new at h
    dsimp only at h
    by_cases h0 : c = 0
    · rw [if_pos h0] at h
      cases h
      refine ⟨⟨by simp [Owned.len], by simp, Nat.le_refl _, (by intro h; simp at h), fun _ _ => rfl, fun _ h => absurd rfl h⟩,
        fun _ _ => ?_, rfl, fun _ => rfl⟩
      rw [isAligned_iff]; simp
    · rw [if_neg h0] at h
      by_cases h1 : layoutOk c lg = true
      · rw [if_pos h1, allocBlock, if_neg h0] at h
        cases h
        exact ⟨⟨by simp [Owned.len], layoutOk_lt h1, Nat.le_refl _, (by intro h; simp at h), fun _ h => absurd h h0,
          fun _ _ => rfl⟩, fun _ h => absurd h h0, rfl, fun _ => rfl⟩
      · rw [if_neg h1] at h; cases h
  · exact ⟨⟨by simp [Owned.len, Owned.slice], hc, Nat.le_refl _, fun _ => rfl, (by intro h; simp [Owned.slice] at h),
      (by intro h; simp [Owned.slice] at h)⟩, (by intro h; simp [Owned.slice] at h), rfl, (by intro h; simp [Owned.slice] at h)⟩

omit [Host] in
theorem start_corr {b : Owned} (h : Start env b) : Corr ⟨b, []⟩ ⟨[], b.requested, []⟩ :=
  ⟨(start_spec h).1, ⟨(start_spec h).2.2.1, rfl⟩, rfl⟩

/-! ## C53: what has been stored can be loaded -/

/-- **C53** (partial). After any calls the contents, the requested alignment and the references are those
which the calls should leave; they depend neither on the allocator nor on the kind of buffer.

Missing are the types the padding of which is not found (C52). -/
theorem C53_contents_partial {b : Owned} (hb : Start env b) {ops : List Op} (hok : ∀ op ∈ ops, op.Ok) {s : Session}
    (hr : runOps env ops ⟨b, []⟩ = .ok s) :
    s.buf.data = (imageOf ops ⟨[], b.requested, []⟩).bytes.map some ∧
    s.buf.requested = (imageOf ops ⟨[], b.requested, []⟩).lg ∧
    s.items = (imageOf ops ⟨[], b.requested, []⟩).items ∧ s.buf.len ≤ s.buf.capacity := by
  obtain ⟨hc, _⟩ := ops_corr ops (start_corr hb) hok hr
  exact ⟨hc.holds.1, hc.holds.2, hc.items, hc.inv.len⟩

theorem mem_agree : ∀ (m : Memory), Agree m (bytesOf m)
  | [] => .nil
  | none :: m => .pad _ (mem_agree m)
  | some _ :: m => .byte _ (mem_agree m)

/-- **C53** (partial). After any calls, and after the buffer has been aligned, everything which has been
stored (and not truncated) is loaded by its reference; padding is zero. What the references point to does not
overlap.

Missing are the types of which it is false: those the padding or the fields of which are not found (C51, C52). -/
theorem C53_round_trip_partial (hlaw : env.Lawful) {b : Owned} (hb : Start env b) {ops : List Op}
    (hok : ∀ op ∈ ops, op.Ok) (hlo : ∀ op ∈ ops, op.Loads) {s : Session} (hr : runOps env ops ⟨b, []⟩ = .ok s)
    {b' : Owned} (ha : alignInPlace env s.buf = .ok b') :
    ∃ bytes : Bytes, b'.data = bytes.map some ∧
      (∀ p ∈ s.items, p.2.load b'.addr bytes p.1 = .ok p.2.bytes) ∧
      s.items.Pairwise (fun p q => q.1 + q.2.bytes.length ≤ p.1) := by
  obtain ⟨hc, _⟩ := ops_corr ops (start_corr hb) hok hr
  have hp := placed_ops ops (i := ⟨[], b.requested, []⟩) ⟨by simp, .nil⟩
  have hit := items_ops ops (i := ⟨[], b.requested, []⟩) (by simp) hok hlo
  generalize imageOf ops ⟨[], b.requested, []⟩ = i at *
  rcases alignInPlace_spec (env := env) hc.inv with ⟨b1, h1, h2, h3, h4, h5, h6⟩ | ⟨h1, _⟩ | ⟨_, h1⟩
  · rw [h1] at ha
    cases ha
    refine ⟨i.bytes, h3.data.trans hc.holds.1, fun p hp' => ?_, hc.items ▸ hp.sorted⟩
    rw [hc.items] at hp'
    obtain ⟨o, item⟩ := p
    obtain ⟨g1, g2, g3, g4⟩ := hp.at_ _ hp'
    have hi := hit _ hp'
    have hal : b'.addr % 2 ^ i.lg = 0 := by
      have := h6 hlaw
      rwa [isAligned_iff, hc.holds.2] at this
    have haddr : (b'.addr + o) % 2 ^ item.lg = 0 := add_mod_zero (mod_of_le hal g4) g3
    have hsmall : i.bytes.length < 2 ^ 63 := by
      have hl : b'.len ≤ b'.capacity := h2.len
      have hs := h2.small
      rw [Owned.len, h3.data, hc.holds.1, List.length_map] at hl
      omega
    cases item with
    | value t m =>
      obtain ⟨hw, hm, hl⟩ := hi
      have hlen : (Item.value t m).bytes.length = t.size := by rw [Item.bytes, bytesOf_length, mem_length t m hw hm]
      rw [hlen] at g1 g2
      refine ((loadSized_right hw hl (by omega)).1 _).2 ⟨g2, haddr, g1.symm, m, hm, mem_agree m⟩
    | slice t ms =>
      obtain ⟨hw, hm, hl⟩ := hi
      have hlen : (Item.slice t ms).bytes.length = ms.length * t.size := by
        rw [Item.bytes, bytesOf_length]
        exact flatten_length t.size ms (fun p hp => mem_length t p hw (hm p hp))
      rw [hlen] at g1 g2
      refine ((C51_load_slice_partial hw hl hsmall).1 _).2 ⟨by rw [ZTy.size]; exact g2, haddr, ?_, ms.flatten, ?_, mem_agree _⟩
      · rw [ZTy.size]; exact g1.symm
      · rw [Mem]; exact ⟨ms, rfl, rfl, hm⟩
    | str str => exact (C51_load_str.1 _).2 ⟨g2, g1.symm, hi⟩
  · rw [h1] at ha; cases ha
  · rw [h1] at ha; cases ha

/-- **C53** (partial). The calls on an `OwnedBuf` do not panic if there is room for what they store: up to
2⁶⁰ bytes, alignments up to 2²⁹, and offsets which can be represented. -/
theorem C53_total_partial (hgr : env.Grows) {capacity lg : Nat} (hcap : capacity ≤ 2 ^ 62) (hlg : lg ≤ 29) {b : Owned}
    (hb : Owned.new env capacity lg = .ok b) {ops : List Op} (hok : ∀ op ∈ ops, op.Ok) (hcl : ClonesOk env ops ⟨b, []⟩)
    (hfit : opsFit env.limit ops ⟨[], lg, []⟩) : ∃ s, runOps env ops ⟨b, []⟩ = .ok s := by
  have hst : Start env b := .inl ⟨_, _, hb⟩
  have hcorr := start_corr hst
  have hb' : b.fixed = false ∧ b.capacity = capacity ∧ b.requested = lg := by
    unfold Owned.new at hb
    dsimp only at hb
    by_cases h0 : capacity = 0
    · rw [if_pos h0] at hb; cases hb; exact ⟨rfl, h0.symm, rfl⟩
    · rw [if_neg h0] at hb
      by_cases h1 : layoutOk capacity lg = true
      · rw [if_pos h1, allocBlock, if_neg h0] at hb
        cases hb
        exact ⟨rfl, rfl, rfl⟩
      · rw [if_neg h1] at hb; cases hb
  rw [hb'.2.2] at hcorr
  exact ops_total ops hcorr (start_spec hst).2.1 hok hcl hb'.1 (by rw [hb'.2.1]; exact hcap) hlg hgr hfit

/-- **C53** (partial). The calls on a `SliceMut` do not panic, and therefore do what `C53_contents_partial` says,
exactly if what they store fits into the slice with its padding, the slice is at least as long as the greatest
alignment asked for, and offsets and lengths can be represented. (The slice is aligned by `align_in_place` only if
its address already is.)

Missing is that the length of the slice does not matter for an alignment, `C53_violated_by_slice`. -/
theorem C53_total_slice_partial {addr capacity lg : Nat} (hcap : capacity < 2 ^ 63) {ops : List Op} (hok : ∀ op ∈ ops, op.Ok) :
    (∃ s, runOps env ops ⟨Owned.slice addr capacity lg, []⟩ = .ok s) ↔
      opsFitIn addr capacity env.limit ops ⟨[], lg, []⟩ := by
  have hst : Start env (Owned.slice addr capacity lg) := .inr ⟨addr, capacity, lg, hcap, rfl⟩
  exact ops_fixed ops (start_corr hst) rfl hok

/-! ## C54: the allocator is used as it should be -/

/-- **C54** (partial). Whatever calls are made, nothing is read or written outside of the buffer's memory, no
uninitialised byte is read, nothing of size zero is allocated, nothing is freed which is not allocated with the
same layout: the calls end or panic. At no time is there more than one allocation, and after dropping the
buffer there is none.

Missing are calls which clone an empty buffer with a pending alignment, of which it is false
(`C54_violated_by_clone`), and the types of C52. -/
theorem C54_safe_partial {b : Owned} (hb : Start env b) {ops : List Op} (hok : ∀ op ∈ ops, op.Ok)
    (hcl : ClonesOk env ops ⟨b, []⟩) :
    (∃ s, runOps env ops ⟨b, []⟩ = .ok s ∧ s.buf.live.length ≤ 1 ∧ alignInPlace env s.buf ≠ .error .ub ∧
      ∃ b', dropBuf s.buf = .ok b' ∧ b'.live = []) ∨
    runOps env ops ⟨b, []⟩ = .error .panic := by
  rcases ops_safe ops (start_corr hb) (start_spec hb).2.1 hok hcl with ⟨s, h, hg⟩ | h
  · have hi := (ops_corr ops (start_corr hb) hok h).1.inv
    refine .inl ⟨s, h, ?_, ?_, dropBuf_spec hi⟩
    · by_cases hf : s.buf.fixed = true
      · rw [hi.fixed hf]; simp
      · have hf : s.buf.fixed = false := by simpa using hf
        by_cases hc : s.buf.capacity = 0
        · rw [hi.none hf hc]; simp
        · rw [hi.some hf hc]; simp
    · rcases alignInPlace_spec (env := env) hi with ⟨b1, h1, _⟩ | ⟨h1, _⟩ | ⟨h2, h1⟩
      · rw [h1]; simp
      · rw [h1]; simp
      · exact absurd hg h2
  · exact .inr h

end

/-! ### Examples -/

/-- An allocator: addresses are multiples of the alignment, and not of a greater one. -/
def bump : Env := ⟨fun n _ lg => (2 * n + 1) * 2 ^ lg, fun c => c + c / 2, 2 ^ 32⟩

theorem bump_lawful : bump.Lawful ∧ bump.Grows :=
  ⟨fun n _ lg => Nat.mul_mod_left _ _, fun c => by show c + c / 2 ≤ 2 * c; omega⟩

/-- The record of `ZeroLayout`, with uninitialised padding. -/
def rec1 : Memory := [some 7#8, none, none, none, some 0#8, some 1#8, some 0#8, some 0#8, some 1#8, none, none, none]

def rec2 : Memory := [some 9#8, none, none, none, some 3#8, some 0#8, some 0#8, some 0#8, some 0#8, none, none, none]

/-- A history with everything in it. -/
def sampleOps : List Op :=
  [.storeStr [0xC3#8, 0xA4#8, 0x62#8], .store record rec1, .extend [1#8, 2#8, 3#8], .clone, .storeSlice record [rec2, rec1],
   .request (.num 8 3), .storeUninit (.num 2 1), .reserve 100, .alignInPlace, .truncate 45, .store .bool [some 1#8]]

def sample : Except ZErr Session := do
  let b ← Owned.new bump 0 0
  runOps bump sampleOps ⟨b, []⟩

theorem rec_mem {a x y : Byte} (h : [x, y, 0#8, 0#8] ≠ [0#8, 0#8, 0#8, 0#8]) {m : Memory} (hm : Mem .bool m) :
    Mem record ([some a] ++ gap 3 ++ [some x, some y, some 0#8, some 0#8] ++ m ++ gap 3) := by
  unfold record
  rw [Mem]
  refine ⟨[some a] ++ gap 3 ++ [some x, some y, some 0#8, some 0#8] ++ m, rfl, ?_⟩
  rw [MemFields]
  refine ⟨[some a], gap 3 ++ [some x, some y, some 0#8, some 0#8] ++ m, rfl, ?_, ?_⟩
  · rw [Mem]; exact ⟨[a], rfl, rfl⟩
  rw [MemFields]
  refine ⟨[some x, some y, some 0#8, some 0#8], m, by simp; rfl, ?_, ?_⟩
  · rw [Mem]
    refine ⟨[x, y, 0#8, 0#8], rfl, rfl, ?_⟩
    by_cases hx : x = 0#8
    · by_cases hy : y = 0#8
      · subst hx hy; exact absurd rfl h
      · exact ⟨y, by simp, hy⟩
    · exact ⟨x, by simp, hx⟩
  rw [MemFields]
  refine ⟨m, [], by simp; rfl, hm, ?_⟩
  rw [MemFields]
  refine ⟨[], [], by simp; rfl, ?_, ?_⟩
  · rw [Mem]
  · rw [MemFields]

theorem rec1_mem : Mem record rec1 := rec_mem (a := 7#8) (x := 0#8) (y := 1#8) (by decide) (.inr rfl)
theorem rec2_mem : Mem record rec2 := rec_mem (a := 9#8) (x := 3#8) (y := 0#8) (by decide) (.inl rfl)

theorem record_ok : record.WF ∧ record.LoadOk ∧ record.StoreOk := by
  refine ⟨by simp [record, ZTy.WF, ZFields.WF, ZTy.zeroSized], ?_, ?_⟩
  · right; simp [ZFields.LoadOk, ZTy.LoadOk, ZTy.need, capped, ZTy.lg]
  · right; simp [ZFields.StoreOk, ZTy.StoreOk, capped, ZTy.lg]

/-- The hypotheses of the theorems are met by the sample: values are values, -/
theorem sample_ok : (∀ op ∈ sampleOps, op.Ok) ∧ (∀ op ∈ sampleOps, op.Loads) := by
  have hb : Mem .bool [some 1#8] := .inr rfl
  constructor
  · simp only [sampleOps, List.forall_mem_cons]
    refine ⟨trivial, ⟨record_ok.1, record_ok.2.2, rec1_mem⟩, trivial, trivial, ⟨record_ok.1, record_ok.2.2, ?_⟩, trivial,
      trivial, trivial, trivial, trivial, ⟨trivial, trivial, hb⟩, by simp⟩
    intro m hm
    simp only [List.mem_cons, List.not_mem_nil, or_false] at hm
    rcases hm with rfl | rfl
    · exact rec2_mem
    · exact rec1_mem
  · simp only [sampleOps, List.forall_mem_cons]
    exact ⟨⟨['ä', 'b'], by decide⟩, record_ok.2.1, trivial, trivial, record_ok.2.1, trivial,
      trivial, trivial, trivial, trivial, trivial, by simp⟩

/-- there is room, -/
example : opsFit bump.limit sampleOps ⟨[], 0, []⟩ := by
  simp only [opsFit, sampleOps, Op.Fits, Op.image, Image.Room, and_true, true_and]
  decide +kernel

/-- also in a slice of 200 bytes, but not in one of 119, since there is a call which reserves 100 bytes, -/
example : opsFitIn 64 200 bump.limit sampleOps ⟨[], 0, []⟩ ∧ ¬opsFitIn 64 119 bump.limit sampleOps ⟨[], 0, []⟩ := by
  simp only [opsFitIn, sampleOps, Op.FitsIn, Op.image, Image.RoomIn, and_true, true_and]
  decide +kernel

/-- the non-empty buffer is cloned, it runs and aligns, with these references, -/
example : sample.toOption.map (fun s => (s.items.map (·.1), s.buf.live.length, (alignInPlace bump s.buf).toOption.isSome)) =
    some ([45, 20, 4, 0], 1, true) := by decide +kernel

/-- and no empty buffer is cloned. -/
theorem sample_clone {b : Owned} (hb : Owned.new bump 0 0 = .ok b) : ClonesOk bump sampleOps ⟨b, []⟩ := by
  cases hb
  intro pre post s' h hr
  rcases pre with _ | ⟨o1, _ | ⟨o2, _ | ⟨o3, _ | ⟨o4, pre⟩⟩⟩⟩
  · simp [sampleOps] at h
  · simp [sampleOps] at h
  · simp [sampleOps] at h
  · simp only [sampleOps, List.cons_append, List.nil_append, List.cons.injEq] at h
    obtain ⟨rfl, rfl, rfl, -⟩ := h
    have : (runOps bump [.storeStr [0xC3#8, 0xA4#8, 0x62#8], .store record rec1, .extend [1#8, 2#8, 3#8]]
      ⟨⟨false, 2 ^ 0, [], 0, 0, 0, [], 0⟩, []⟩).toOption.map (fun s => s.buf.len) = some 19 := by decide +kernel
    left
    intro h0
    rw [hr] at this
    simp only [Except.toOption, Option.map_some, h0] at this
    exact absurd this (by decide)
  · exfalso
    simp only [sampleOps, List.cons_append, List.cons.injEq] at h
    obtain ⟨-, -, -, -, h⟩ := h
    have : Op.clone ∈ [.storeSlice record [rec2, rec1], .request (.num 8 3), .storeUninit (.num 2 1), .reserve 100,
        .alignInPlace, .truncate 45, .store .bool [some 1#8]] := by rw [h]; simp
    simp at this

/-! ### Where C53 and C54 are false -/

/-- **C54 is false**: `OwnedBuf::with_capacity_and_alignment::<u8>(100)`, `store(&1u64)`, `clear()`, `clone()`,
`align_in_place()`: the clone has a dangling pointer which is aligned as the memory of the original was, and
not as requested, and aligning it allocates zero bytes. This holds for any lawful allocator whose first
address is not a multiple of 8. -/
theorem C54_violated_by_clone :
    (do
      let b ← Owned.new bump 100 0
      runOps bump [.store (.num 8 3) ([1#8, 0#8, 0#8, 0#8, 0#8, 0#8, 0#8, 0#8].map some), .truncate 0, .clone, .alignInPlace]
        ⟨b, []⟩ : Except ZErr Session) matches .error .ub := by decide +kernel

/-- **C53 is false** of `SliceMut`: storing four bytes in a slice of four bytes panics if a greater alignment
has been requested, as it is by default. -/
theorem C53_violated_by_slice :
    runOps bump [.store (.num 4 2) ([1#8, 0#8, 0#8, 0#8].map some)] ⟨Owned.slice 64 4 3, []⟩ matches .error .panic := by
  decide +kernel

end Musli.Zero.OwnedProps
