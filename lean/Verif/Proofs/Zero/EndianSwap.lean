import Verif.Proofs.Zero.Endian
/-! Swapping bytes preserves types, is its own inverse, and gives the bytes of the other order. -/
set_option linter.unusedSectionVars false
namespace Musli.Zero
open Musli

theorem swapTo_lt (H E : ByteOrder) {w n : Nat} (h : n < 256 ^ w) : swapTo H E w n < 256 ^ w := orderSwap_lt _ _ h

theorem swapTo_swapTo (H E : ByteOrder) {w n : Nat} (h : n < 256 ^ w) : swapTo H E w (swapTo H E w n) = n :=
  orderSwap_orderSwap _ _ h

theorem swapTo_ne (H E : ByteOrder) {w n : Nat} (h : n < 256 ^ w) (h0 : n ≠ 0) : swapTo H E w n ≠ 0 := by
  intro hz
  have h1 := swapTo_swapTo H E h
  have h2 : numBytes H w (swapTo H E w 0) = numBytes E w 0 := numBytes_orderSwap ⟨H, 8⟩ E w 0
  have hp : 0 < 256 ^ w := Nat.pow_pos (by omega)
  rw [hz] at h1
  have h3 : numBytes E w 0 = numBytes H w 0 := by
    have : ∀ w, toLittle w 0 = List.replicate w 0#8 := by
      intro w
      induction w with
      | zero => rfl
      | succ w ih => rw [toLittle, Nat.zero_div, ih]; rfl
    cases E <;> cases H <;> simp [numBytes, this]
  rw [h3, h1] at h2
  have := fixed_numBytes H h
  rw [h2, fixed_numBytes H hp] at this
  exact h0 this.symm

variable (H E : ByteOrder)

theorem tryMap_prop {α : Type} {P : α → Prop} {v w : α} (hv : P v) (hw : P w) : P (tryMap H E v w) := by
  unfold tryMap; split <;> assumption

mutual
theorem typed_swap : ∀ (t : STy) (v : Val), t.SwapOk → t.canSwap = true → Typed t v → Typed t (swapBytes H E t v)
  | .num size _, .num n, _, _, h => by simp only [Typed, swapBytes] at h ⊢; exact swapTo_lt H E h
  | .bool, .num n, _, _, h => by simp only [swapBytes]; exact h
  | .char, .num n, _, _, h => by simp only [swapBytes]; exact h
  | .nonzero size _, .num n, _, _, h => by
    simp only [Typed, swapBytes] at h ⊢; exact ⟨swapTo_lt H E h.1, swapTo_ne H E h.1 h.2⟩
  | .zst, .list vs, _, _, h => by simp only [swapBytes]; exact h
  | .array t n, .list vs, hs, hc, h => by
    simp only [Typed, swapBytes, STy.SwapOk, STy.canSwap] at h hs hc ⊢
    refine ⟨by simp [h.1], fun v hv => ?_⟩
    obtain ⟨w, hw, rfl⟩ := List.mem_map.1 hv
    exact typed_swap t w hs hc (h.2 w hw)
  | .struct packed align fs, .list vs, hs, hc, h => by
    simp only [STy.SwapOk, STy.canSwap] at hs hc
    simp only [swapBytes]
    refine tryMap_prop H E h ?_
    simp only [Typed] at h ⊢
    exact typed_swapFields fs vs hs hc h
  | .transparent t, v, hs, hc, h => by
    simp only [Typed, swapBytes, STy.SwapOk, STy.canSwap] at h hs hc ⊢
    exact tryMap_prop H E h (typed_swap t v hs hc h)
  | .wrapping t, v, hs, hc, h => by
    simp only [Typed, swapBytes, STy.SwapOk, STy.canSwap] at h hs hc ⊢
    exact typed_swap t v hs hc h
  | .endian _ t, v, hs, hc, h => by simp only [swapBytes]; exact h
  | .enum tagSize tagLg align swaps vs, .variant i xs, hs, hc, h => by
    simp only [STy.SwapOk, STy.canSwap, Bool.and_eq_true] at hs hc
    simp only [swapBytes, hc.1.1, if_true]
    refine tryMap_prop H E h ?_
    simp only [Typed] at h ⊢
    obtain ⟨d, fs, hg, hd, hf⟩ := (typedVariant_iff vs tagSize i xs).1 h
    obtain ⟨-, hg', -⟩ := target_spec (hs.2 hc.1.1) hc.1.2 hg
    obtain ⟨-, hnd⟩ := variants_swapOk vs i hs.1 hg
    have ih := typed_swapVariant vs i xs hs.1 hc.2 hg hf
    rw [(get_lists vs i hg).2.1, (get_lists vs _ hg').2.1, Option.getD_some,
      swapVariant_eq H E vs i xs hg, arrange_self _ _ hnd (typedFields_length fs _ ih)]
    exact (typedVariant_iff vs tagSize _ _).2 ⟨_, fs, hg', swapNum_lt _ _, ih⟩
  | .num _ _, .list _, _, _, h | .num _ _, .variant _ _, _, _, h | .bool, .list _, _, _, h | .bool, .variant _ _, _, _, h
  | .char, .list _, _, _, h | .char, .variant _ _, _, _, h | .nonzero _ _, .list _, _, _, h
  | .nonzero _ _, .variant _ _, _, _, h
  | .zst, .num _, _, _, h | .zst, .variant _ _, _, _, h | .array _ _, .num _, _, _, h | .array _ _, .variant _ _, _, _, h
  | .struct _ _ _, .num _, _, _, h | .struct _ _ _, .variant _ _, _, _, h
  | .enum _ _ _ _ _, .num _, _, _, h | .enum _ _ _ _ _, .list _, _, _, h => by simp [Typed] at h

theorem typed_swapFields : ∀ (fs : SFields) (vs : List Val), fs.SwapOk → fs.canSwap = true → TypedFields fs vs →
    TypedFields fs (swapFields H E fs vs)
  | .nil, vs, _, _, h => by simp only [TypedFields] at h; subst h; simp [swapFields, TypedFields]
  | .cons _ ignored t rest, vs, hs, hc, h => by
    simp only [TypedFields] at h
    obtain ⟨v, ws, rfl, ht, hr⟩ := h
    simp only [SFields.SwapOk, SFields.canSwap, Bool.and_eq_true, Bool.or_eq_true] at hs hc
    simp only [swapFields, TypedFields]
    refine ⟨_, _, rfl, ?_, typed_swapFields rest ws hs.2 hc.2 hr⟩
    split
    · exact ht
    · next hi => exact typed_swap t v hs.1 (hc.1.resolve_left hi) ht

theorem typed_swapVariant : ∀ (vs : SVariants) (i : Nat) (xs : List Val) {d : Nat} {fs : SFields}, vs.SwapOk →
    vs.canSwap = true → vs.get i = some (d, fs) → TypedFields fs xs → TypedFields fs (swapFields H E fs xs)
  | .nil, _, _, _, _, _, _, h, _ => by simp [SVariants.get] at h
  | .cons disc s fs rest, 0, xs, d, fs', hs, hc, h, hx => by
    simp only [SVariants.get, Option.some.injEq, Prod.mk.injEq] at h
    obtain ⟨rfl, rfl⟩ := h
    simp only [SVariants.SwapOk, SVariants.canSwap, Bool.and_eq_true] at hs hc
    exact typed_swapFields fs xs hs.1 hc.1 hx
  | .cons disc s fs rest, i + 1, xs, d, fs', hs, hc, h, hx => by
    simp only [SVariants.get] at h
    simp only [SVariants.SwapOk, SVariants.canSwap, Bool.and_eq_true] at hs hc
    exact typed_swapVariant rest i xs hs.2.2 hc.2 h hx
end

mutual
theorem swap_swap : ∀ (t : STy) (v : Val), t.SwapOk → t.canSwap = true → Typed t v →
    swapBytes H E t (swapBytes H E t v) = v
  | .num size _, .num n, _, _, h => by simp only [Typed, swapBytes] at h ⊢; rw [swapTo_swapTo H E h]
  | .bool, .num n, _, _, h => by simp only [swapBytes]
  | .char, .num n, _, _, h => by simp only [swapBytes]
  | .nonzero size _, .num n, _, _, h => by simp only [Typed, swapBytes] at h ⊢; rw [swapTo_swapTo H E h.1]
  | .zst, .list vs, _, _, h => by simp only [swapBytes]
  | .array t n, .list vs, hs, hc, h => by
    simp only [Typed, swapBytes, STy.SwapOk, STy.canSwap] at h hs hc ⊢
    rw [List.map_map]
    congr 1
    rw [show vs = vs.map id from (List.map_id vs).symm, List.map_map]
    exact List.map_congr_left fun v hv => swap_swap t v hs hc (h.2 v hv)
  | .struct packed align fs, .list vs, hs, hc, h => by
    simp only [STy.SwapOk, STy.canSwap] at hs hc
    simp only [swapBytes, tryMap]
    by_cases he : H = E
    · simp only [he, if_true, swapBytes, tryMap]
    · simp only [he, if_false, swapBytes, tryMap]
      rw [swap_swapFields fs vs hs hc (by simpa [Typed] using h)]
  | .transparent t, v, hs, hc, h => by
    simp only [Typed, swapBytes, STy.SwapOk, STy.canSwap] at h hs hc ⊢
    unfold tryMap
    by_cases he : H = E
    · simp only [he, if_true]
    · simp only [he, if_false]; exact swap_swap t v hs hc h
  | .wrapping t, v, hs, hc, h => by
    simp only [Typed, swapBytes, STy.SwapOk, STy.canSwap] at h hs hc ⊢
    exact swap_swap t v hs hc h
  | .endian _ t, v, hs, hc, h => by simp only [swapBytes]
  | .enum tagSize tagLg align swaps vs, .variant i xs, hs, hc, h => by
    simp only [STy.SwapOk, STy.canSwap, Bool.and_eq_true] at hs hc
    simp only [Typed] at h
    obtain ⟨d, fs, hg, hd, hf⟩ := (typedVariant_iff vs tagSize i xs).1 h
    obtain ⟨-, hg', hback⟩ := target_spec (hs.2 hc.1.1) hc.1.2 hg
    obtain ⟨-, hnd⟩ := variants_swapOk vs i hs.1 hg
    have h1 := typed_swapVariant H E vs i xs hs.1 hc.2 hg hf
    have h2 := swap_swapVariant vs i xs hs.1 hc.2 hg hf
    simp only [swapBytes, hc.1.1, if_true, tryMap]
    by_cases he : H = E
    · simp only [he, if_true, swapBytes, tryMap]
    · simp only [he, if_false]
      rw [(get_lists vs i hg).2.1, (get_lists vs _ hg').2.1, Option.getD_some,
        swapVariant_eq H E vs i xs hg, arrange_self _ _ hnd (typedFields_length fs _ h1)]
      simp only [swapBytes, if_true, tryMap, he, if_false]
      rw [hback, (get_lists vs i hg).2.1, (get_lists vs _ hg').2.1, Option.getD_some,
        swapVariant_eq H E vs _ _ hg', h2, arrange_self _ _ hnd (typedFields_length fs _ hf)]
  | .num _ _, .list _, _, _, h | .num _ _, .variant _ _, _, _, h | .bool, .list _, _, _, h | .bool, .variant _ _, _, _, h
  | .char, .list _, _, _, h | .char, .variant _ _, _, _, h | .nonzero _ _, .list _, _, _, h
  | .nonzero _ _, .variant _ _, _, _, h
  | .zst, .num _, _, _, h | .zst, .variant _ _, _, _, h | .array _ _, .num _, _, _, h | .array _ _, .variant _ _, _, _, h
  | .struct _ _ _, .num _, _, _, h | .struct _ _ _, .variant _ _, _, _, h
  | .enum _ _ _ _ _, .num _, _, _, h | .enum _ _ _ _ _, .list _, _, _, h => by simp [Typed] at h

theorem swap_swapFields : ∀ (fs : SFields) (vs : List Val), fs.SwapOk → fs.canSwap = true → TypedFields fs vs →
    swapFields H E fs (swapFields H E fs vs) = vs
  | .nil, vs, _, _, h => by simp [swapFields]
  | .cons _ ignored t rest, vs, hs, hc, h => by
    simp only [TypedFields] at h
    obtain ⟨v, ws, rfl, ht, hr⟩ := h
    simp only [SFields.SwapOk, SFields.canSwap, Bool.and_eq_true, Bool.or_eq_true] at hs hc
    simp only [swapFields]
    rw [swap_swapFields rest ws hs.2 hc.2 hr]
    congr 1
    by_cases hi : ignored = true
    · simp only [hi, if_true]
    · simp only [hi]; exact swap_swap t v hs.1 (hc.1.resolve_left hi) ht

theorem swap_swapVariant : ∀ (vs : SVariants) (i : Nat) (xs : List Val) {d : Nat} {fs : SFields}, vs.SwapOk →
    vs.canSwap = true → vs.get i = some (d, fs) → TypedFields fs xs →
    swapFields H E fs (swapFields H E fs xs) = xs
  | .nil, _, _, _, _, _, _, h, _ => by simp [SVariants.get] at h
  | .cons disc s fs rest, 0, xs, d, fs', hs, hc, h, hx => by
    simp only [SVariants.get, Option.some.injEq, Prod.mk.injEq] at h
    obtain ⟨rfl, rfl⟩ := h
    simp only [SVariants.SwapOk, SVariants.canSwap, Bool.and_eq_true] at hs hc
    exact swap_swapFields fs xs hs.1 hc.1 hx
  | .cons disc s fs rest, i + 1, xs, d, fs', hs, hc, h, hx => by
    simp only [SVariants.get] at h
    simp only [SVariants.SwapOk, SVariants.canSwap, Bool.and_eq_true] at hs hc
    exact swap_swapVariant rest i xs hs.2.2 hc.2 h hx
end

mutual
theorem typed_build : ∀ (t : STy) (v : Val), t.SwapOk → Typed t v → Typed t (build H t v)
  | .num size _, .num n, _, h => by simp only [build]; exact h
  | .bool, .num n, _, h => by simp only [build]; exact h
  | .char, .num n, _, h => by simp only [build]; exact h
  | .nonzero size _, .num n, _, h => by simp only [build]; exact h
  | .zst, .list vs, _, h => by simp only [build]; exact h
  | .array t n, .list vs, hs, h => by
    simp only [Typed, build, STy.SwapOk] at h hs ⊢
    refine ⟨by simp [h.1], fun v hv => ?_⟩
    obtain ⟨w, hw, rfl⟩ := List.mem_map.1 hv
    exact typed_build t w hs (h.2 w hw)
  | .struct packed align fs, .list vs, hs, h => by
    simp only [Typed, build, STy.SwapOk] at h hs ⊢
    exact typed_buildFields fs vs hs h
  | .transparent t, v, hs, h => by simp only [Typed, build, STy.SwapOk] at h hs ⊢; exact typed_build t v hs h
  | .wrapping t, v, hs, h => by simp only [Typed, build, STy.SwapOk] at h hs ⊢; exact typed_build t v hs h
  | .endian F t, v, hs, h => by
    simp only [Typed, build, STy.SwapOk, endianNew] at h hs ⊢
    exact typed_swap H F t _ hs.1 hs.2 (typed_build t v hs.1 h)
  | .enum tagSize tagLg align swaps vs, .variant i xs, hs, h => by
    simp only [Typed, build, STy.SwapOk] at h hs ⊢
    obtain ⟨d, fs, hg, hd, hf⟩ := (typedVariant_iff vs tagSize i xs).1 h
    refine (typedVariant_iff vs tagSize _ _).2 ⟨d, fs, hg, hd, ?_⟩
    rw [buildVariant_eq H vs i xs hg]
    exact typed_buildVariant vs i xs hs.1 hg hf
  | .num _ _, .list _, _, h | .num _ _, .variant _ _, _, h | .bool, .list _, _, h | .bool, .variant _ _, _, h
  | .char, .list _, _, h | .char, .variant _ _, _, h | .nonzero _ _, .list _, _, h
  | .nonzero _ _, .variant _ _, _, h
  | .zst, .num _, _, h | .zst, .variant _ _, _, h | .array _ _, .num _, _, h | .array _ _, .variant _ _, _, h
  | .struct _ _ _, .num _, _, h | .struct _ _ _, .variant _ _, _, h
  | .enum _ _ _ _ _, .num _, _, h | .enum _ _ _ _ _, .list _, _, h => by simp [Typed] at h

theorem typed_buildFields : ∀ (fs : SFields) (vs : List Val), fs.SwapOk → TypedFields fs vs →
    TypedFields fs (buildFields H fs vs)
  | .nil, vs, _, h => by simp only [TypedFields] at h; subst h; simp [buildFields, TypedFields]
  | .cons _ ignored t rest, vs, hs, h => by
    simp only [TypedFields] at h
    obtain ⟨v, ws, rfl, ht, hr⟩ := h
    simp only [SFields.SwapOk] at hs
    simp only [buildFields, TypedFields]
    exact ⟨_, _, rfl, typed_build t v hs.1 ht, typed_buildFields rest ws hs.2 hr⟩

theorem typed_buildVariant : ∀ (vs : SVariants) (i : Nat) (xs : List Val) {d : Nat} {fs : SFields}, vs.SwapOk →
    vs.get i = some (d, fs) → TypedFields fs xs → TypedFields fs (buildFields H fs xs)
  | .nil, _, _, _, _, _, h, _ => by simp [SVariants.get] at h
  | .cons disc s fs rest, 0, xs, d, fs', hs, h, hx => by
    simp only [SVariants.get, Option.some.injEq, Prod.mk.injEq] at h
    obtain ⟨rfl, rfl⟩ := h
    simp only [SVariants.SwapOk] at hs
    exact typed_buildFields fs xs hs.1 hx
  | .cons disc s fs rest, i + 1, xs, d, fs', hs, h, hx => by
    simp only [SVariants.get] at h
    simp only [SVariants.SwapOk] at hs
    exact typed_buildVariant rest i xs hs.2.2 h hx
end

theorem numBytes_swapTo (w n : Nat) : numBytes H w (swapTo H E w n) = numBytes E w n :=
  numBytes_orderSwap ⟨H, 8⟩ E w n

end Musli.Zero
