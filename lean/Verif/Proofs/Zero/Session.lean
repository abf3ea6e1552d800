import Verif.Proofs.Zero.Owned
set_option linter.unusedSectionVars false
namespace Musli.Zero
open Musli

variable [Host] {env : Env}

/-- A buffer has the contents which it should have. -/
structure Corr (s : Session) (i : Image) : Prop where
  inv : s.buf.Inv
  holds : Holds s.buf i.bytes i.lg
  items : s.items = i.items

/-- There is enough memory for a call. -/
structure Small (env : Env) (s : Session) (i : Image) (op : Op) : Prop where
  fits : op.Fits env.limit i
  owned : s.buf.fixed = false
  lg : i.lg ≤ 29
  cap : s.buf.capacity ≤ 2 ^ 62
  grows : env.Grows

/-- After a call. -/
def After (env : Env) (s : Session) (i : Image) (op : Op) (s' : Session) : Prop :=
  Corr s' (op.image i) ∧ s'.buf.fixed = s.buf.fixed ∧
  (s.buf.Good → (op = .clone → s.buf.len ≠ 0 ∨ s.buf.align = s.buf.requested) → s'.buf.Good) ∧
  (Small env s i op → s'.buf.capacity ≤ 2 ^ 62 ∧ (op.image i).lg ≤ 29)

/-- A call ends as it should. -/
def Runs (env : Env) (s : Session) (i : Image) (op : Op) (r : Except ZErr Session) : Prop :=
  (∃ s', r = .ok s' ∧ After env s i op s') ∨
  (r = .error .panic ∧ ¬ (Small env s i op ∧ s.buf.Good)) ∨
  (r = .error .ub ∧ ¬ s.buf.Good)

theorem good_of_pos {b : Owned} (h : 0 < b.capacity) : b.Good := fun _ h' => absurd h' (by omega)

theorem layoutOk_small {n lg : Nat} (hn : n ≤ 2 ^ 62) (hl : lg ≤ 29) : layoutOk n lg = true := by
  simp only [layoutOk, decide_eq_true_eq]
  have := roundUp_lt n lg
  have : (2 : Nat) ^ lg ≤ 2 ^ 29 := Nat.pow_le_pow_right (by omega) hl
  omega

theorem not_reserveFails {b : Owned} {n : Nat} (hf : b.fixed = false) (hn : b.len + n ≤ 2 ^ 60) (hl : b.requested ≤ 29)
    (_ : b.capacity ≤ 2 ^ 62) (hg : env.Grows) : ¬ ReserveFails env b n := by
  have h29 : (2 : Nat) ^ b.requested ≤ 2 ^ 29 := Nat.pow_le_pow_right (by omega) hl
  rintro (h | ⟨h1, h | h⟩)
  · omega
  · rw [hf] at h; simp at h
  · have := hg b.capacity
    rw [layoutOk_small (by omega) hl] at h
    simp at h

theorem not_storeFails {b : Owned} {i : Image} {lg n count : Nat} (hh : Holds b i.bytes i.lg) (hf : b.fixed = false)
    (hr : i.Room env.limit lg n count) (hl : i.lg ≤ 29) (hc : b.capacity ≤ 2 ^ 62) (hg : env.Grows) :
    ¬ StoreFails env b lg n count := by
  obtain ⟨h1, h2, h3, h4⟩ := hr
  have hle := le_roundUp i.bytes.length lg
  rintro (h | h | h)
  · refine not_reserveFails (env := env) ?_ ?_ ?_ ?_ hg h
    · exact hf
    · show b.len + _ ≤ _
      rw [hh.len]; omega
    · show max b.requested lg ≤ 29
      rw [hh.2]; omega
    · exact hc
  · rw [hh.len] at h; omega
  · omega

theorem bound_small {b b' : Owned} {n : Nat} (hb : Bound env b b' n) (hn : n ≤ 2 ^ 60) (hl : b'.requested ≤ 29)
    (hc : b.capacity ≤ 2 ^ 62) (hg : env.Grows) : b'.capacity ≤ 2 ^ 62 := by
  have h29 : (2 : Nat) ^ b'.requested ≤ 2 ^ 29 := Nat.pow_le_pow_right (by omega) hl
  have := hb hg
  omega

theorem stores_runs {s : Session} {i : Image} (hc : Corr s i) {op : Op} {item : Item} {count : Nat} {r : Except ZErr (Owned × Nat)}
    (hrun : op.run env s = r.bind (fun p => .ok ⟨p.1, (p.2, item) :: s.items⟩)) (him : op.image i = i.add item)
    (hfit : op.Fits env.limit i → i.Room env.limit item.lg item.bytes.length count)
    (hs : Stores env s.buf i.bytes i.lg item.lg count item.bytes r) : Runs env s i op (op.run env s) := by
  rw [hrun]
  rcases hs with ⟨b', h1, h2, h3, h4, h5, h6⟩ | ⟨h1, h2⟩
  · rw [h1]
    have hl : (i.bytes ++ List.replicate (roundUp i.bytes.length item.lg - i.bytes.length) 0#8).length =
        roundUp i.bytes.length item.lg := by
      have := le_roundUp i.bytes.length item.lg
      rw [List.length_append, List.length_replicate]; omega
    refine .inl ⟨_, rfl, ⟨h2, ?_, ?_⟩, h3, fun _ _ => good_of_pos h5, fun hsm => ?_⟩
    · rw [him]; exact h4
    · rw [him]
      show (_, item) :: s.items = (List.length _, item) :: i.items
      rw [hc.items]
      exact congrArg (fun n => (n, item) :: i.items) hl.symm
    · have hr := hfit hsm.fits
      have h29 : max i.lg item.lg ≤ 29 := by have := hsm.lg; have := hr.1; omega
      exact ⟨bound_small h6 hr.2.1 (by rw [h4.2]; exact h29) hsm.cap hsm.grows, by rw [him]; exact h29⟩
  · rw [h1]
    refine .inr (.inl ⟨rfl, fun hsm => ?_⟩)
    exact not_storeFails hc.holds hsm.1.owned (hfit hsm.1.fits) hsm.1.lg hsm.1.cap hsm.1.grows h2

theorem op_spec {s : Session} {i : Image} (hc : Corr s i) (op : Op) (hok : op.Ok) : Runs env s i op (op.run env s) := by
  cases op with
  | store t m =>
    obtain ⟨hw, ho, hm⟩ := hok
    have hl := mem_length t m hw hm
    exact stores_runs hc (item := .value t m) (count := 0) (r := store env s.buf t m) rfl rfl
      (fun h => by rw [show (Item.value t m).bytes.length = t.size by rw [Item.bytes, bytesOf_length, hl]]; exact h)
      (store_spec hc.inv hc.holds hw ho hm)
  | storeSlice t ms =>
    obtain ⟨hw, ho, hm⟩ := hok
    have hl : ms.flatten.length = ms.length * t.size := flatten_length t.size ms (fun p hp => mem_length t p hw (hm p hp))
    exact stores_runs hc (item := .slice t ms) (count := ms.length) (r := storeSlice env s.buf t ms) rfl rfl
      (fun h => by rw [show (Item.slice t ms).bytes.length = ms.length * t.size by rw [Item.bytes, bytesOf_length, hl]]; exact h)
      (storeSlice_spec hc.inv hc.holds hw ho hm)
  | storeStr str =>
    exact stores_runs hc (item := .str str) (count := str.length) (r := storeStr env s.buf str) rfl rfl (fun h => h)
      (storeStr_spec hc.inv hc.holds str)
  | storeUninit t =>
    rw [Op.run]
    rcases storeUninit_spec (env := env) hc.inv hc.holds t with ⟨b', h1, h2, h3, h4, h5, h6⟩ | ⟨h1, h2⟩
    · rw [h1]
      refine .inl ⟨_, rfl, ⟨h2, h4, hc.items⟩, h3, fun _ _ => good_of_pos h5, fun hsm => ?_⟩
      have hr : i.Room _ _ _ _ := hsm.fits
      have h29 : max i.lg t.lg ≤ 29 := by have := hsm.lg; have := hr.1; omega
      exact ⟨bound_small h6 hr.2.1 (by rw [h4.2]; exact h29) hsm.cap hsm.grows, h29⟩
    · rw [h1]
      refine .inr (.inl ⟨rfl, fun hsm => ?_⟩)
      exact not_storeFails hc.holds hsm.1.owned hsm.1.fits hsm.1.lg hsm.1.cap hsm.1.grows h2
  | extend str =>
    rw [Op.run]
    rcases extend_spec (env := env) hc.inv hc.holds str with ⟨b', h1, h2, h3, h4, h5, h6⟩ | ⟨h1, h2⟩
    · rw [h1]
      refine .inl ⟨_, rfl, ⟨h2, h4, hc.items⟩, h3, fun _ _ => good_of_pos h5, fun hsm => ?_⟩
      have hr : _ ≤ _ := hsm.fits
      exact ⟨bound_small h6 (by rw [hc.holds.len]; exact hr) (by rw [h4.2]; exact hsm.lg) hsm.cap hsm.grows, hsm.lg⟩
    · rw [h1]
      refine .inr (.inl ⟨rfl, fun hsm => ?_⟩)
      have hr : _ ≤ _ := hsm.1.fits
      exact not_reserveFails hsm.1.owned (by rw [hc.holds.len]; exact hr) (by rw [hc.holds.2]; exact hsm.1.lg) hsm.1.cap hsm.1.grows h2
  | request t =>
    rw [Op.run]
    rcases nextOffset_spec (env := env) hc.inv hc.holds t.lg t.size with ⟨b', h1, h2, h3, h4, h5, h6, h7, h8⟩ | ⟨h1, h2⟩
    · rw [h1]
      refine .inl ⟨_, rfl, ⟨h2, h4, hc.items⟩, h3, fun _ _ => good_of_pos h7, fun hsm => ?_⟩
      have hr : _ ∧ _ := hsm.fits
      have h29 : max i.lg t.lg ≤ 29 := by have := hsm.lg; have := hr.1; omega
      exact ⟨bound_small h8 hr.2 (by rw [h4.2]; exact h29) hsm.cap hsm.grows, h29⟩
    · rw [h1]
      refine .inr (.inl ⟨rfl, fun hsm => ?_⟩)
      have hr : _ ∧ _ := hsm.1.fits
      have h29 : max i.lg t.lg ≤ 29 := by have := hsm.1.lg; have := hr.1; omega
      refine not_reserveFails (env := env) ?_ ?_ ?_ ?_ hsm.1.grows h2
      · exact hsm.1.owned
      · show s.buf.len + _ ≤ _
        have := le_roundUp i.bytes.length t.lg
        have := hr.2
        rw [hc.holds.len]; omega
      · show max s.buf.requested t.lg ≤ 29
        rw [hc.holds.2]; exact h29
      · exact hsm.1.cap
  | reserve n =>
    rw [Op.run]
    rcases reserve_spec (env := env) hc.inv n with ⟨b', h1, h2, h3, h4, h5, h6⟩ | ⟨h1, h2⟩
    · rw [h1]
      refine .inl ⟨_, rfl, ⟨h2, ⟨h3.data.trans hc.holds.1, h3.requested.trans hc.holds.2⟩, hc.items⟩, h3.fixed,
        fun _ _ => good_of_pos h5, fun hsm => ?_⟩
      have hr : _ ≤ _ := hsm.fits
      exact ⟨bound_small h6 (by rw [hc.holds.len]; exact hr) (by rw [h3.requested, hc.holds.2]; exact hsm.lg) hsm.cap hsm.grows, hsm.lg⟩
    · rw [h1]
      refine .inr (.inl ⟨rfl, fun hsm => ?_⟩)
      have hr : _ ≤ _ := hsm.1.fits
      exact not_reserveFails hsm.1.owned (by rw [hc.holds.len]; exact hr) (by rw [hc.holds.2]; exact hsm.1.lg) hsm.1.cap hsm.1.grows h2
  | alignInPlace =>
    rw [Op.run]
    rcases alignInPlace_spec (env := env) hc.inv with ⟨b', h1, h2, h3, h4, h5, h6⟩ | ⟨h1, h2, h3⟩ | ⟨h1, h2⟩
    · rw [h1]
      refine .inl ⟨_, rfl, ⟨h2, ⟨h3.data.trans hc.holds.1, h3.requested.trans hc.holds.2⟩, hc.items⟩, h3.fixed,
        fun hg _ => ?_, fun hsm => ?_⟩
      · rcases h4 with h4 | h4
        · rw [← h4]; exact hg
        · exact good_of_pos h4
      · exact ⟨by rw [h5]; exact hsm.cap, hsm.lg⟩
    · rw [h1]
      refine .inr (.inl ⟨rfl, fun hsm => ?_⟩)
      rcases h3 with h3 | h3
      · rw [hsm.1.owned] at h3; simp at h3
      · rw [layoutOk_small hsm.1.cap (by rw [hc.holds.2]; exact hsm.1.lg)] at h3
        simp at h3
    · rw [h2]
      exact .inr (.inr ⟨rfl, h1⟩)
  | clone =>
    rw [Op.run]
    rcases cloneBuf_spec (env := env) hc.inv with ⟨b', h1, h2, h3, h4, h5⟩ | ⟨h1, h2⟩
    · rw [h1]
      refine .inl ⟨_, rfl, ⟨h2, ⟨h3.data.trans hc.holds.1, h3.requested.trans hc.holds.2⟩, hc.items⟩, h3.fixed,
        fun hg hcl => h5 hg (hcl rfl), fun hsm => ?_⟩
      exact ⟨Nat.le_trans h4 hsm.cap, hsm.lg⟩
    · rw [h1]
      refine .inr (.inl ⟨rfl, fun hsm => ?_⟩)
      have := hc.inv.len
      have := hc.inv.align
      have := hsm.1.cap
      have := hsm.1.lg
      have := hc.holds.2
      rw [layoutOk_small (by omega) (by omega)] at h2
      simp at h2
  | truncate n =>
    refine .inl ⟨_, rfl, ⟨⟨?_, hc.inv.small, hc.inv.align, hc.inv.fixed, hc.inv.none, hc.inv.some⟩, ⟨?_, hc.holds.2⟩, ?_⟩, rfl, fun hg _ => hg,
      fun hsm => ⟨hsm.cap, hsm.lg⟩⟩
    · have := hc.inv.len
      simp only [Owned.len, truncate] at *
      rw [List.length_take]; omega
    · show s.buf.data.take n = _
      rw [hc.holds.1, ← List.map_take]; rfl
    · show itemsUpTo n s.items = itemsUpTo n i.items
      rw [hc.items]

theorem ops_corr : ∀ (ops : List Op) {s : Session} {i : Image}, Corr s i → (∀ op ∈ ops, op.Ok) → ∀ {s'},
    runOps env ops s = .ok s' → Corr s' (imageOf ops i) ∧ s'.buf.fixed = s.buf.fixed
  | [], s, i, hc, _, s', h => by
    cases h
    exact ⟨hc, rfl⟩
  | op :: ops, s, i, hc, hok, s', h => by
    rw [runOps] at h
    rcases op_spec (env := env) hc op (hok op (by simp)) with ⟨s1, h1, h2, h3, _⟩ | ⟨h1, _⟩ | ⟨h1, _⟩
    · rw [h1] at h
      obtain ⟨g1, g2⟩ := ops_corr ops h2 (fun o ho => hok o (by simp [ho])) h
      exact ⟨g1, g2.trans h3⟩
    · rw [h1] at h; cases h
    · rw [h1] at h; cases h

theorem ops_safe : ∀ (ops : List Op) {s : Session} {i : Image}, Corr s i → s.buf.Good → (∀ op ∈ ops, op.Ok) →
    ClonesOk env ops s → (∃ s', runOps env ops s = .ok s' ∧ s'.buf.Good) ∨ runOps env ops s = .error .panic
  | [], s, i, _, hg, _, _ => .inl ⟨s, rfl, hg⟩
  | op :: ops, s, i, hc, hg, hok, hcl => by
    rw [runOps]
    rcases op_spec (env := env) hc op (hok op (by simp)) with ⟨s1, h1, h2, h3, h4, _⟩ | ⟨h1, _⟩ | ⟨h1, h2⟩
    · rw [h1]
      refine ops_safe ops h2 (h4 hg fun he => ?_) (fun o ho => hok o (by simp [ho])) fun pre post s' hp hr => ?_
      · exact hcl [] ops s (by rw [he]; rfl) rfl
      · refine hcl (op :: pre) post s' (by rw [hp]; rfl) ?_
        rw [runOps, h1]; exact hr
    · rw [h1]; exact .inr rfl
    · exact absurd hg h2

theorem ops_total : ∀ (ops : List Op) {s : Session} {i : Image}, Corr s i → s.buf.Good → (∀ op ∈ ops, op.Ok) →
    ClonesOk env ops s → s.buf.fixed = false → s.buf.capacity ≤ 2 ^ 62 → i.lg ≤ 29 → env.Grows → opsFit env.limit ops i →
    ∃ s', runOps env ops s = .ok s'
  | [], s, i, _, _, _, _, _, _, _, _, _ => ⟨s, rfl⟩
  | op :: ops, s, i, hc, hg, hok, hcl, hf, hcap, hl, hgr, hfit => by
    rw [runOps]
    have hsm : Small env s i op := ⟨hfit.1, hf, hl, hcap, hgr⟩
    rcases op_spec (env := env) hc op (hok op (by simp)) with ⟨s1, h1, h2, h3, h4, h5⟩ | ⟨h1, h2⟩ | ⟨h1, h2⟩
    · rw [h1]
      refine ops_total ops h2 (h4 hg fun he => ?_) (fun o ho => hok o (by simp [ho])) (fun pre post s' hp hr => ?_)
        (h3.trans hf) (h5 hsm).1 (h5 hsm).2 hgr hfit.2
      · exact hcl [] ops s (by rw [he]; rfl) rfl
      · refine hcl (op :: pre) post s' (by rw [hp]; rfl) ?_
        rw [runOps, h1]; exact hr
    · exact absurd ⟨hsm, hg⟩ h2
    · exact absurd hg h2

/-! ## What is at the references -/

/-- Items are where they should be. -/
structure Image.Placed (i : Image) : Prop where
  at_ : ∀ p ∈ i.items, (i.bytes.drop p.1).take p.2.bytes.length = p.2.bytes ∧ p.1 + p.2.bytes.length ≤ i.bytes.length ∧
    p.1 % 2 ^ p.2.lg = 0 ∧ p.2.lg ≤ i.lg
  sorted : i.items.Pairwise (fun p q => q.1 + q.2.bytes.length ≤ p.1)

theorem take_drop_append {α} (a b : List α) (o n : Nat) (h : o + n ≤ a.length) :
    ((a ++ b).drop o).take n = (a.drop o).take n := by
  rw [List.drop_append_of_le_length (by omega), List.take_append_of_le_length (by rw [List.length_drop]; omega)]

theorem Image.Placed.grow {i : Image} (h : i.Placed) (x : Bytes) (lg : Nat) (hl : i.lg ≤ lg) :
    Image.Placed { i with bytes := i.bytes ++ x, lg := lg } := by
  refine ⟨fun p hp => ?_, h.sorted⟩
  obtain ⟨h1, h2, h3, h4⟩ := h.at_ p hp
  refine ⟨?_, ?_, h3, Nat.le_trans h4 hl⟩
  · show ((i.bytes ++ x).drop p.1).take _ = _
    rw [take_drop_append _ _ _ _ h2]; exact h1
  · show _ ≤ (i.bytes ++ x).length
    rw [List.length_append]; omega

theorem Image.Placed.align {i : Image} (h : i.Placed) (lg : Nat) : (i.align lg).Placed :=
  h.grow _ _ (Nat.le_max_left _ _)

theorem Image.Placed.add {i : Image} (h : i.Placed) (item : Item) : (i.add item).Placed := by
  have ha := h.align item.lg
  have hl : (i.align item.lg).bytes.length = roundUp i.bytes.length item.lg := by
    have := le_roundUp i.bytes.length item.lg
    rw [Image.align, List.length_append, List.length_replicate]; omega
  have hg := ha.grow item.bytes (i.align item.lg).lg (Nat.le_refl _)
  refine ⟨fun p hp => ?_, ?_⟩
  · rcases List.mem_cons.1 hp with hp | hp
    · subst hp
      refine ⟨?_, ?_, ?_, Nat.le_max_right _ _⟩
      · show ((_ ++ item.bytes).drop (List.length _)).take _ = _
        rw [List.drop_left, List.take_length]
      · show _ ≤ (_ ++ item.bytes).length
        rw [List.length_append]
        exact Nat.le_refl _
      · show (i.align item.lg).bytes.length % _ = 0
        rw [hl]; exact roundUp_mod _ _
    · exact hg.at_ p hp
  · show List.Pairwise _ (_ :: i.items)
    rw [List.pairwise_cons]
    exact ⟨fun q hq => (ha.at_ q hq).2.1, h.sorted⟩

theorem Image.Placed.truncate {i : Image} (h : i.Placed) (n : Nat) :
    Image.Placed { i with bytes := i.bytes.take n, items := itemsUpTo n i.items } := by
  refine ⟨fun p hp => ?_, h.sorted.filter _⟩
  have hm := List.mem_filter.1 hp
  have hn : p.1 + p.2.bytes.length ≤ n := by simpa using hm.2
  obtain ⟨h1, h2, h3, h4⟩ := h.at_ p hm.1
  refine ⟨?_, ?_, h3, h4⟩
  · show ((i.bytes.take n).drop _).take _ = _
    rw [List.drop_take, List.take_take, Nat.min_eq_left (by omega)]; exact h1
  · show _ ≤ (i.bytes.take n).length
    rw [List.length_take]; omega

theorem placed_op {i : Image} (h : i.Placed) (op : Op) : (op.image i).Placed := by
  cases op with
  | store t m => exact h.add _
  | storeSlice t ms => exact h.add _
  | storeStr s => exact h.add _
  | storeUninit t => exact (h.align t.lg).grow _ _ (Nat.le_refl _)
  | extend s => exact h.grow _ _ (Nat.le_refl _)
  | request t => exact h.align t.lg
  | truncate n => exact h.truncate n
  | _ => exact h

theorem placed_ops : ∀ (ops : List Op) {i : Image}, i.Placed → (imageOf ops i).Placed
  | [], _, h => h
  | op :: ops, _, h => placed_ops ops (placed_op h op)

/-- An item which can be loaded. -/
def Item.Ok : Item → Prop
  | .value t m => t.WF ∧ Mem t m ∧ t.LoadOk
  | .slice t ms => t.WF ∧ (∀ m ∈ ms, Mem t m) ∧ t.LoadOk
  | .str s => ∃ cs : List Char, s = Utf8.encode cs

theorem items_op {i : Image} (h : ∀ p ∈ i.items, p.2.Ok) (op : Op) (hok : op.Ok) (hlo : op.Loads) :
    ∀ p ∈ (op.image i).items, p.2.Ok := by
  intro p hp
  cases op with
  | store t m =>
    rcases List.mem_cons.1 hp with hp | hp
    · subst hp; exact ⟨hok.1, hok.2.2, hlo⟩
    · exact h p hp
  | storeSlice t ms =>
    rcases List.mem_cons.1 hp with hp | hp
    · subst hp; exact ⟨hok.1, hok.2.2, hlo⟩
    · exact h p hp
  | storeStr s =>
    rcases List.mem_cons.1 hp with hp | hp
    · subst hp; exact hlo
    · exact h p hp
  | truncate n => exact h p (List.mem_filter.1 hp).1
  | _ => exact h p hp

theorem items_ops : ∀ (ops : List Op) {i : Image}, (∀ p ∈ i.items, p.2.Ok) → (∀ op ∈ ops, op.Ok) →
    (∀ op ∈ ops, op.Loads) → ∀ p ∈ (imageOf ops i).items, p.2.Ok
  | [], _, h, _, _ => h
  | op :: ops, _, h, hok, hlo => items_ops ops (items_op h op (hok op (by simp)) (hlo op (by simp)))
      (fun o ho => hok o (by simp [ho])) (fun o ho => hlo o (by simp [ho]))

end Musli.Zero
