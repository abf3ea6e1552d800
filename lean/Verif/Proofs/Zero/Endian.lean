import Verif.Spec.ZeroEndianOk
import Verif.Proofs.Zero.Ref
import Verif.Proofs.Zero.Layout
/-! Swapping bytes: lemmas. -/
set_option linter.unusedSectionVars false
namespace Musli.Zero
open Musli

/-! ## The layout does not depend on the byte order -/

mutual
theorem zty_lg (H E : ByteOrder) : ∀ (t : STy), (t.zty H).lg = (t.zty E).lg
  | .num _ _ => rfl
  | .bool => rfl
  | .char => rfl
  | .nonzero _ _ => rfl
  | .zst => rfl
  | .array t _ => by simp only [STy.zty, ZTy.lg]; exact zty_lg H E t
  | .struct packed _ fs => by simp only [STy.zty, ZTy.lg]; rw [ztyFields_lg H E fs packed]
  | .transparent t => by simp only [STy.zty, ZTy.lg]; exact zty_lg H E t
  | .wrapping t => by simp only [STy.zty, ZTy.lg]; exact zty_lg H E t
  | .endian _ t => by simp only [STy.zty, ZTy.lg]; exact zty_lg H E t
  | .enum tagSize _ _ _ vs => by simp only [STy.zty, ZTy.lg]; rw [ztyVariants_lg H E vs tagSize]

theorem ztyFields_lg (H E : ByteOrder) : ∀ (fs : SFields) (p : Option Nat), (fs.zty H).lg p = (fs.zty E).lg p
  | .nil, _ => rfl
  | .cons _ _ t rest, p => by
    simp only [SFields.zty, ZFields.lg]; rw [zty_lg H E t, ztyFields_lg H E rest p]

theorem ztyVariants_lg (H E : ByteOrder) : ∀ (vs : SVariants) (n : Nat), (vs.zty H n).lg = (vs.zty E n).lg
  | .nil, _ => rfl
  | .cons _ _ fs rest, n => by
    simp only [SVariants.zty, ZVariants.lg]; rw [ztyFields_lg H E fs none, ztyVariants_lg H E rest n]
end

mutual
theorem zty_size (H E : ByteOrder) : ∀ (t : STy), (t.zty H).size = (t.zty E).size
  | .num _ _ => rfl
  | .bool => rfl
  | .char => rfl
  | .nonzero _ _ => rfl
  | .zst => rfl
  | .array t _ => by simp only [STy.zty, ZTy.size]; rw [zty_size H E t]
  | .struct packed _ fs => by
    simp only [STy.zty, ZTy.size]; rw [ztyFields_lg H E fs packed, zty_fin H E fs packed 0]
  | .transparent t => by simp only [STy.zty, ZTy.size]; exact zty_size H E t
  | .wrapping t => by simp only [STy.zty, ZTy.size]; exact zty_size H E t
  | .endian _ t => by simp only [STy.zty, ZTy.size]; exact zty_size H E t
  | .enum tagSize _ _ _ vs => by
    simp only [STy.zty, ZTy.size]; rw [ztyVariants_lg H E vs tagSize, ztyVariants_fin H E vs tagSize tagSize]

theorem zty_fin (H E : ByteOrder) : ∀ (fs : SFields) (p : Option Nat) (off : Nat),
    (fs.zty H).fin p off = (fs.zty E).fin p off
  | .nil, _, _ => rfl
  | .cons _ _ t rest, p, off => by
    simp only [SFields.zty, ZFields.fin]; rw [zty_lg H E t, zty_size H E t, zty_fin H E rest p]

theorem ztyVariants_fin (H E : ByteOrder) : ∀ (vs : SVariants) (n m : Nat), (vs.zty H n).fin m = (vs.zty E n).fin m
  | .nil, _, _ => rfl
  | .cons _ _ fs rest, n, m => by
    simp only [SVariants.zty, ZVariants.fin]; rw [zty_fin H E fs none, ztyVariants_fin H E rest n]
end

/-! ## Values have the memory of values -/

theorem numBytes_ne_zero (H : ByteOrder) {w n : Nat} (hn : n < 256 ^ w) (h0 : n ≠ 0) : ∃ b ∈ numBytes H w n, b ≠ 0#8 := by
  by_cases h : ∃ b ∈ numBytes H w n, b ≠ 0#8
  · exact h
  · exfalso
    have hz : ∀ s : Bytes, (∀ b ∈ s, b = 0#8) → Grammar.little s = 0 := by
      intro s
      induction s with
      | nil => intro _; rfl
      | cons b s ih =>
        intro hs
        rw [Grammar.little, ih (fun b hb => hs b (by simp [hb])), hs b (by simp)]
        rfl
    have hall : ∀ b ∈ numBytes H w n, b = 0#8 := fun b hb => by
      by_cases hb0 : b = 0#8
      · exact hb0
      · exact absurd ⟨b, hb, hb0⟩ h
    have := fixed_numBytes H hn
    cases H with
    | little => rw [Grammar.fixed, hz _ hall] at this; exact h0 this.symm
    | big =>
      rw [Grammar.fixed, hz _ (fun b hb => hall b (List.mem_reverse.1 hb))] at this
      exact h0 this.symm

theorem char_lt (c : Char) : c.toNat < 256 ^ 4 := by
  have := c.val.toNat_lt
  exact this

mutual
theorem repr_mem (H : ByteOrder) : ∀ (t : STy) (v : Val), Typed t v → @Mem ⟨H⟩ (t.zty H) (repr H t v)
  | .num size _, .num n, h => by
    simp only [STy.zty, Mem, repr]; exact ⟨_, rfl, numBytes_length _ _ _⟩
  | .bool, .num n, h => by
    simp only [Typed] at h
    simp only [STy.zty, Mem, repr]
    have : n = 0 ∨ n = 1 := by omega
    rcases this with rfl | rfl
    · exact .inl rfl
    · exact .inr rfl
  | .char, .num n, h => by
    simp only [Typed] at h
    obtain ⟨c, rfl⟩ := h
    simp only [STy.zty, Mem, repr]
    exact ⟨_, rfl, numBytes_length _ _ _, c, (fixed_numBytes H (char_lt c)).symm⟩
  | .nonzero size _, .num n, h => by
    simp only [Typed] at h
    simp only [STy.zty, Mem, repr]
    exact ⟨_, rfl, numBytes_length _ _ _, numBytes_ne_zero H h.1 h.2⟩
  | .zst, .list vs, _ => by simp only [STy.zty, Mem, repr]
  | .array t n, .list vs, h => by
    simp only [Typed] at h
    simp only [STy.zty, Mem, repr]
    refine ⟨_, rfl, by simp [h.1], fun p hp => ?_⟩
    obtain ⟨v, hv, rfl⟩ := List.mem_map.1 hp
    exact repr_mem H t v (h.2 v hv)
  | .struct packed align fs, .list vs, h => by
    simp only [Typed] at h
    simp only [STy.zty, Mem, repr]
    exact ⟨_, rfl, reprFields_mem H fs vs packed 0 h⟩
  | .transparent t, v, h => by simp only [Typed] at h; simp only [STy.zty, Mem, repr]; exact repr_mem H t v h
  | .wrapping t, v, h => by simp only [Typed] at h; simp only [STy.zty, Mem, repr]; exact repr_mem H t v h
  | .endian _ t, v, h => by simp only [Typed] at h; simp only [STy.zty, Mem, repr]; exact repr_mem H t v h
  | .enum tagSize tagLg align swaps vs, .variant i xs, h => by
    simp only [Typed] at h
    simp only [STy.zty, Mem, repr]
    exact reprVariant_mem H vs tagSize _ i xs h
  | .num _ _, .list _, h | .num _ _, .variant _ _, h | .bool, .list _, h | .bool, .variant _ _, h
  | .char, .list _, h | .char, .variant _ _, h | .nonzero _ _, .list _, h | .nonzero _ _, .variant _ _, h
  | .zst, .num _, h | .zst, .variant _ _, h | .array _ _, .num _, h | .array _ _, .variant _ _, h
  | .struct _ _ _, .num _, h | .struct _ _ _, .variant _ _, h
  | .enum _ _ _ _ _, .num _, h | .enum _ _ _ _ _, .list _, h => by simp [Typed] at h

theorem reprFields_mem (H : ByteOrder) : ∀ (fs : SFields) (vs : List Val) (p : Option Nat) (off : Nat),
    TypedFields fs vs → @MemFields ⟨H⟩ (fs.zty H) p off (reprFields H fs p off vs)
  | .nil, vs, p, off, h => by simp only [SFields.zty, MemFields, reprFields]
  | .cons _ _ t rest, vs, p, off, h => by
    simp only [TypedFields] at h
    obtain ⟨v, ws, rfl, ht, hr⟩ := h
    simp only [SFields.zty, MemFields, reprFields]
    exact ⟨_, _, rfl, repr_mem H t v ht, reprFields_mem H rest ws p _ hr⟩

theorem reprVariant_mem (H : ByteOrder) : ∀ (vs : SVariants) (tagSize size i : Nat) (xs : List Val),
    TypedVariant vs tagSize i xs → @MemVariants ⟨H⟩ (vs.zty H tagSize) tagSize size (reprVariant H vs tagSize size i xs)
  | .nil, _, _, _, _, h => by simp [TypedVariant] at h
  | .cons disc _ fs rest, tagSize, size, 0, xs, h => by
    simp only [TypedVariant] at h
    simp only [SVariants.zty, MemVariants, reprVariant]
    exact .inl ⟨_, rfl, reprFields_mem H fs xs none _ h.2⟩
  | .cons disc _ fs rest, tagSize, size, i + 1, xs, h => by
    simp only [TypedVariant] at h
    simp only [SVariants.zty, MemVariants, reprVariant]
    exact .inr (reprVariant_mem H rest tagSize size i xs h)
end

theorem repr_length (H : ByteOrder) {t : STy} {v : Val} (hw : (t.zty H).WF) (h : Typed t v) :
    (repr H t v).length = (t.zty H).size :=
  @mem_length ⟨H⟩ (t.zty H) _ hw (repr_mem H t v h)

theorem repr_zeroSized (H : ByteOrder) {t : STy} {v : Val} (hw : (t.zty H).WF) (hz : (t.zty H).zeroSized = true)
    (h : Typed t v) : repr H t v = [] := by
  apply List.length_eq_zero_iff.1
  rw [repr_length H hw h, zeroSized_size _ hz]

/-! ## Variants -/

theorem typedVariant_iff : ∀ (vs : SVariants) (tagSize i : Nat) (xs : List Val),
    TypedVariant vs tagSize i xs ↔ ∃ d fs, vs.get i = some (d, fs) ∧ d < 256 ^ tagSize ∧ TypedFields fs xs
  | .nil, _, _, _ => by simp [TypedVariant, SVariants.get]
  | .cons disc s fs rest, tagSize, 0, xs => by
    simp only [TypedVariant, SVariants.get, Option.some.injEq, Prod.mk.injEq]
    constructor
    · intro h; exact ⟨disc, fs, ⟨rfl, rfl⟩, h⟩
    · rintro ⟨d, fs', ⟨rfl, rfl⟩, h⟩; exact h
  | .cons disc s fs rest, tagSize, i + 1, xs => by
    simp only [TypedVariant, SVariants.get]
    exact typedVariant_iff rest tagSize i xs

theorem reprVariant_eq (H : ByteOrder) : ∀ (vs : SVariants) (tagSize size i : Nat) (xs : List Val) {d : Nat} {fs : SFields},
    vs.get i = some (d, fs) → reprVariant H vs tagSize size i xs = (numBytes H tagSize d).map some ++
        (reprFields H fs none tagSize xs ++ gap (size - (fs.zty H).fin none tagSize))
  | .nil, _, _, _, _, _, _, h => by simp [SVariants.get] at h
  | .cons disc s fs rest, tagSize, size, 0, xs, d, fs', h => by
    simp only [SVariants.get, Option.some.injEq, Prod.mk.injEq] at h
    obtain ⟨rfl, rfl⟩ := h
    simp only [reprVariant]
  | .cons disc s fs rest, tagSize, size, i + 1, xs, d, fs', h => by
    simp only [SVariants.get] at h
    simp only [reprVariant]
    exact reprVariant_eq H rest tagSize size i xs h

theorem swapVariant_eq (H E : ByteOrder) : ∀ (vs : SVariants) (i : Nat) (xs : List Val) {d : Nat} {fs : SFields},
    vs.get i = some (d, fs) → swapVariant H E vs i xs = swapFields H E fs xs
  | .nil, _, _, _, _, h => by simp [SVariants.get] at h
  | .cons disc s fs rest, 0, xs, d, fs', h => by
    simp only [SVariants.get, Option.some.injEq, Prod.mk.injEq] at h
    obtain ⟨rfl, rfl⟩ := h
    simp only [swapVariant]
  | .cons disc s fs rest, i + 1, xs, d, fs', h => by
    simp only [SVariants.get] at h
    simp only [swapVariant]
    exact swapVariant_eq H E rest i xs h

theorem buildVariant_eq (H : ByteOrder) : ∀ (vs : SVariants) (i : Nat) (xs : List Val) {d : Nat} {fs : SFields},
    vs.get i = some (d, fs) → buildVariant H vs i xs = buildFields H fs xs
  | .nil, _, _, _, _, h => by simp [SVariants.get] at h
  | .cons disc s fs rest, 0, xs, d, fs', h => by
    simp only [SVariants.get, Option.some.injEq, Prod.mk.injEq] at h
    obtain ⟨rfl, rfl⟩ := h
    simp only [buildVariant]
  | .cons disc s fs rest, i + 1, xs, d, fs', h => by
    simp only [SVariants.get] at h
    simp only [buildVariant]
    exact buildVariant_eq H rest i xs h

theorem get_lists : ∀ (vs : SVariants) (i : Nat) {d : Nat} {fs : SFields}, vs.get i = some (d, fs) →
    vs.discs[i]? = some d ∧ vs.names[i]? = some fs.names ∧ ∃ s, vs.swaps[i]? = some s
  | .nil, _, _, _, h => by simp [SVariants.get] at h
  | .cons disc s fs rest, 0, d, fs', h => by
    simp only [SVariants.get, Option.some.injEq, Prod.mk.injEq] at h
    obtain ⟨rfl, rfl⟩ := h
    simp [SVariants.discs, SVariants.names, SVariants.swaps]
  | .cons disc s fs rest, i + 1, d, fs', h => by
    simp only [SVariants.get] at h
    have := get_lists rest i h
    simpa [SVariants.discs, SVariants.names, SVariants.swaps] using this

theorem discs_length : ∀ (vs : SVariants), vs.discs.length = vs.swaps.length
  | .nil => rfl
  | .cons _ _ _ rest => by simp [SVariants.discs, SVariants.swaps, discs_length rest]

theorem variants_swapOk : ∀ (vs : SVariants) (i : Nat) {d : Nat} {fs : SFields}, vs.SwapOk → vs.get i = some (d, fs) →
    fs.SwapOk ∧ fs.names.Nodup
  | .nil, _, _, _, _, h => by simp [SVariants.get] at h
  | .cons disc s fs rest, 0, d, fs', hs, h => by
    simp only [SVariants.get, Option.some.injEq, Prod.mk.injEq] at h
    obtain ⟨rfl, rfl⟩ := h
    simp only [SVariants.SwapOk] at hs
    exact ⟨hs.1, hs.2.1⟩
  | .cons disc s fs rest, i + 1, d, fs', hs, h => by
    simp only [SVariants.get] at h
    simp only [SVariants.SwapOk] at hs
    exact variants_swapOk rest i hs.2.2 h

theorem variants_canSwap : ∀ (vs : SVariants) (i : Nat) {d : Nat} {fs : SFields}, vs.canSwap = true →
    vs.get i = some (d, fs) → fs.canSwap = true
  | .nil, _, _, _, _, h => by simp [SVariants.get] at h
  | .cons disc s fs rest, 0, d, fs', hs, h => by
    simp only [SVariants.get, Option.some.injEq, Prod.mk.injEq] at h
    obtain ⟨rfl, rfl⟩ := h
    simp only [SVariants.canSwap, Bool.and_eq_true] at hs
    exact hs.1
  | .cons disc s fs rest, i + 1, d, fs', hs, h => by
    simp only [SVariants.get] at h
    simp only [SVariants.canSwap, Bool.and_eq_true] at hs
    exact variants_canSwap rest i hs.2 h

theorem swapNum_swapNum {w n : Nat} (hn : n < 256 ^ w) : swapNum w (swapNum w n) = n := by
  have := orderSwap_orderSwap ⟨.little, 8⟩ .big hn
  simpa [orderSwap] using this

theorem typedFields_length : ∀ (fs : SFields) (xs : List Val), TypedFields fs xs → xs.length = fs.names.length
  | .nil, xs, h => by simp only [TypedFields] at h; simp [h, SFields.names]
  | .cons _ _ t rest, xs, h => by
    simp only [TypedFields] at h
    obtain ⟨v, ws, rfl, _, hr⟩ := h
    simp [SFields.names, typedFields_length rest ws hr]

theorem arrange_self : ∀ (names : List Nat) (xs : List Val), names.Nodup → xs.length = names.length →
    arrange names names xs = xs
  | [], [], _, _ => rfl
  | n :: names, x :: xs, hn, hl => by
    have ih := arrange_self names xs (List.nodup_cons.1 hn).2 (by simpa using hl)
    unfold arrange at ih ⊢
    rw [List.map_cons, List.zip_cons_cons]
    congr 1
    · simp
    · rw [← ih]
      refine (List.map_congr_left fun m hm => ?_).trans (by rw [ih])
      have : (m == n) = false := by
        simp only [beq_eq_false_iff_ne]
        rintro rfl
        exact (List.nodup_cons.1 hn).1 hm
      rw [ih, List.lookup_cons, this]
  | [], _ :: _, _, h => by simp at h
  | _ :: _, [], _, h => by simp at h

/-- In an enum which can be swapped, a variant is swapped to one with the swapped discriminant and the same
fields, which is swapped back to it. -/
theorem target_spec {vs : SVariants} {tagSize i d : Nat} {fs : SFields} (hp : vs.Paired tagSize)
    (hc : conditions tagSize vs.discs vs.swaps = true) (hg : vs.get i = some (d, fs)) :
    d < 256 ^ tagSize ∧ vs.get (target vs.swaps i) = some (swapNum tagSize d, fs) ∧
    target vs.swaps (target vs.swaps i) = i := by
  obtain ⟨hnd, hlt, hmatch, hfields⟩ := hp
  have hd : ∀ {j e : Nat}, vs.discs[j]? = some e → e < 256 ^ tagSize := fun h => hlt _ (List.mem_of_getElem? h)
  have hcond : ∀ {k j e : Nat}, vs.discs[k]? = some e → vs.swaps[k]? = some (some j) →
      ∃ b, vs.discs[j]? = some b ∧ e = swapNum tagSize b := by
    intro k j e h1 h2
    simp only [conditions, List.all_eq_true] at hc
    have hm : (e, some j) ∈ vs.discs.zip vs.swaps := by
      apply List.mem_of_getElem? (i := k)
      rw [List.getElem?_zip_eq_some]
      exact ⟨h1, h2⟩
    have := hc _ hm
    simp only at this
    split at this
    · next b hb => exact ⟨b, hb, by simpa using this⟩
    · cases this
  have huniq : ∀ {j k e : Nat}, vs.discs[j]? = some e → vs.discs[k]? = some e → j = k := by
    intro j k e h1 h2
    obtain ⟨hj, h1⟩ := List.getElem?_eq_some_iff.1 h1
    obtain ⟨hk, h2⟩ := List.getElem?_eq_some_iff.1 h2
    exact (List.getElem_inj hnd).1 (h1.trans h2.symm)
  -- the discriminant of the target
  have key : ∀ {j e : Nat}, vs.discs[j]? = some e → vs.discs[target vs.swaps j]? = some (swapNum tagSize e) := by
    intro j e he
    have hj : j < vs.swaps.length := by
      rw [← discs_length]; exact (List.getElem?_eq_some_iff.1 he).1
    cases hs : vs.swaps[j]? with
    | none => rw [List.getElem?_eq_none_iff] at hs; omega
    | some s => cases s with
      | some k =>
        obtain ⟨b, hb, hbe⟩ := hcond he hs
        simp only [target, hs]
        rw [hb, hbe, swapNum_swapNum (hd hb)]
      | none =>
        obtain ⟨k, hk⟩ := hmatch j hs
        simp only [target, hs]
        cases hf : vs.swaps.findIdx? (· == some j) with
        | none =>
          rw [List.findIdx?_eq_none_iff] at hf
          have := hf _ (List.mem_of_getElem? hk)
          simp at this
        | some k' =>
          rw [List.findIdx?_eq_some_iff_getElem] at hf
          obtain ⟨hk', hp', _⟩ := hf
          have hsk : vs.swaps[k']? = some (some j) := by
            rw [List.getElem?_eq_getElem hk']
            simpa using hp'
          have hlk : k' < vs.discs.length := by rw [discs_length]; exact hk'
          obtain ⟨b, hb, hbe⟩ := hcond (List.getElem?_eq_getElem hlk) hsk
          rw [he] at hb
          cases hb
          simp only [Option.getD_some]
          rw [List.getElem?_eq_getElem hlk, hbe]
  obtain ⟨h1, -, -⟩ := get_lists vs i hg
  obtain ⟨d', hg'⟩ := hfields i d fs hg
  have h2 := key h1
  have h3 := (get_lists vs _ hg').1
  rw [h3] at h2
  cases h2
  refine ⟨hd h1, hg', ?_⟩
  have h4 := key h3
  rw [swapNum_swapNum (hd h1)] at h4
  exact huniq h4 h1

end Musli.Zero
