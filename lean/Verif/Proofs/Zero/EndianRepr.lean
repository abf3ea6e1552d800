import Verif.Proofs.Zero.EndianSwap
/-! The bytes of what `Endian::new` returns. -/
set_option linter.unusedSectionVars false
namespace Musli.Zero
open Musli

theorem wf_get (F : ByteOrder) : ∀ (vs : SVariants) (i tagSize : Nat) {d : Nat} {fs : SFields},
    (vs.zty F tagSize).WF tagSize → vs.get i = some (d, fs) → (fs.zty F).WF
  | .nil, _, _, _, _, _, h => by simp [SVariants.get] at h
  | .cons disc s fs rest, 0, tagSize, d, fs', hw, h => by
    simp only [SVariants.get, Option.some.injEq, Prod.mk.injEq] at h
    obtain ⟨rfl, rfl⟩ := h
    simp only [SVariants.zty, ZVariants.WF] at hw
    exact hw.2.1
  | .cons disc s fs rest, i + 1, tagSize, d, fs', hw, h => by
    simp only [SVariants.get] at h
    simp only [SVariants.zty, ZVariants.WF] at hw
    exact wf_get F rest i tagSize hw.2.2 h

theorem swapBytes_self (H : ByteOrder) : ∀ (t : STy) (v : Val), swapBytes H H t v = v
  | .num size _, .num n => by simp [swapBytes, swapTo, orderSwap]
  | .bool, v => by simp only [swapBytes]
  | .char, v => by simp only [swapBytes]
  | .nonzero size _, .num n => by simp [swapBytes, swapTo, orderSwap]
  | .zst, v => by simp only [swapBytes]
  | .array t n, .list vs => by
    simp only [swapBytes]
    congr 1
    exact (List.map_congr_left fun v _ => swapBytes_self H t v).trans (List.map_id vs)
  | .struct packed align fs, .list vs => by simp only [swapBytes, tryMap, if_true]
  | .transparent t, v => by simp only [swapBytes, tryMap, if_true]
  | .wrapping t, v => by simp only [swapBytes]; exact swapBytes_self H t v
  | .endian _ t, v => by simp only [swapBytes]
  | .enum tagSize tagLg align swaps vs, .variant i xs => by simp only [swapBytes, tryMap, if_true]
  | .num _ _, .list _ | .num _ _, .variant _ _ | .nonzero _ _, .list _ | .nonzero _ _, .variant _ _
  | .array _ _, .num _ | .array _ _, .variant _ _ | .struct _ _ _, .num _ | .struct _ _ _, .variant _ _
  | .enum _ _ _ _ _, .num _ | .enum _ _ _ _ _, .list _ => by simp only [swapBytes]

mutual
theorem repr_swap (H E : ByteOrder) : ∀ (t : STy) (a : Val), (∀ F, (t.zty F).WF) → t.SwapOk → t.canSwap = true →
    Typed t a → repr H t (swapBytes H E t (build H t a)) = repr E t (build E t a)
  | .num size _, .num n, _, _, _, h => by simp only [build, swapBytes, repr]; rw [numBytes_swapTo]
  | .bool, .num n, _, _, _, h => by simp only [build, swapBytes, repr]
  | .char, _, _, _, hc, h => by simp [STy.canSwap] at hc
  | .nonzero size _, .num n, _, _, _, h => by simp only [build, swapBytes, repr]; rw [numBytes_swapTo]
  | .zst, .list vs, _, _, _, h => by simp only [repr]
  | .array t n, .list vs, hw, hs, hc, h => by
    simp only [STy.SwapOk, STy.canSwap, STy.zty, ZTy.WF, Typed] at hw hs hc h
    simp only [build, swapBytes, repr, List.map_map]
    congr 1
    exact List.map_congr_left fun v hv => repr_swap H E t v hw hs hc (h.2 v hv)
  | .struct packed align fs, .list vs, hw, hs, hc, h => by
    by_cases he : H = E
    · subst he; rw [swapBytes_self]
    · simp only [STy.SwapOk, STy.canSwap, STy.zty, ZTy.WF, Typed] at hw hs hc h
      simp only [build, swapBytes, tryMap, he, if_false, repr]
      rw [reprFields_swap H E fs vs packed 0 (fun F => (hw F).1) hs hc h, zty_fin H E, zty_size H E]
  | .transparent t, v, hw, hs, hc, h => by
    by_cases he : H = E
    · subst he; rw [swapBytes_self]
    · simp only [STy.SwapOk, STy.canSwap, STy.zty, ZTy.WF, Typed] at hw hs hc h
      simp only [build, swapBytes, tryMap, he, if_false, repr]
      exact repr_swap H E t v hw hs hc h
  | .wrapping t, v, hw, hs, hc, h => by
    simp only [STy.SwapOk, STy.canSwap, STy.zty, ZTy.WF, Typed] at hw hs hc h
    simp only [build, swapBytes, repr]
    exact repr_swap H E t v hw hs hc h
  | .endian F t, v, hw, hs, hc, h => by
    simp only [STy.SwapOk, STy.zty, ZTy.WF, Typed] at hw hs h
    simp only [build, endianNew, swapBytes, repr]
    rw [repr_swap H F t v hw hs.1 hs.2 h, repr_swap E F t v hw hs.1 hs.2 h]
  | .enum tagSize tagLg align swaps vs, .variant i xs, hw, hs, hc, h => by
    by_cases he : H = E
    · subst he; rw [swapBytes_self]
    · simp only [STy.SwapOk, STy.canSwap, Bool.and_eq_true] at hs hc
      have hw' : ∀ F, (vs.zty F tagSize).WF tagSize := fun F => by
        have := hw F
        simp only [STy.zty, ZTy.WF] at this
        exact this.2.2
      simp only [Typed] at h
      obtain ⟨d, fs, hg, hd, hf⟩ := (typedVariant_iff vs tagSize i xs).1 h
      obtain ⟨-, hg', -⟩ := target_spec (hs.2 hc.1.1) hc.1.2 hg
      obtain ⟨hso, hnd⟩ := variants_swapOk vs i hs.1 hg
      have hcf := variants_canSwap vs i hc.2 hg
      have hb := typed_buildFields H fs xs hso hf
      have hsw := typed_swapFields H E fs _ hso hcf hb
      have ih := reprVariant_swap H E vs i xs tagSize hw' hs.1 hc.2 hg hf
      simp only [build, swapBytes, tryMap, he, if_false, hc.1.1, if_true, repr]
      rw [(get_lists vs i hg).2.1, (get_lists vs _ hg').2.1, Option.getD_some,
        swapVariant_eq H E vs i _ hg, buildVariant_eq H vs i xs hg,
        arrange_self _ _ hnd (typedFields_length fs _ hsw),
        reprVariant_eq H vs _ _ _ _ hg', reprVariant_eq E vs _ _ _ _ hg, buildVariant_eq E vs i xs hg,
        zty_fin H E, zty_size H E, ih]
      have hn := numBytes_swapTo H E tagSize d
      rw [swapTo, orderSwap, if_neg he] at hn
      rw [hn]
  | .num _ _, .list _, _, _, _, h | .num _ _, .variant _ _, _, _, _, h | .bool, .list _, _, _, _, h
  | .bool, .variant _ _, _, _, _, h
  | .nonzero _ _, .list _, _, _, _, h
  | .nonzero _ _, .variant _ _, _, _, _, h
  | .zst, .num _, _, _, _, h | .zst, .variant _ _, _, _, _, h | .array _ _, .num _, _, _, _, h
  | .array _ _, .variant _ _, _, _, _, h
  | .struct _ _ _, .num _, _, _, _, h | .struct _ _ _, .variant _ _, _, _, _, h
  | .enum _ _ _ _ _, .num _, _, _, _, h | .enum _ _ _ _ _, .list _, _, _, _, h => by simp [Typed] at h

theorem reprFields_swap (H E : ByteOrder) : ∀ (fs : SFields) (xs : List Val) (p : Option Nat) (off : Nat),
    (∀ F, (fs.zty F).WF) → fs.SwapOk → fs.canSwap = true → TypedFields fs xs →
    reprFields H fs p off (swapFields H E fs (buildFields H fs xs)) = reprFields E fs p off (buildFields E fs xs)
  | .nil, xs, p, off, _, _, _, h => by simp only [reprFields]
  | .cons _ ignored t rest, xs, p, off, hw, hs, hc, h => by
    simp only [TypedFields] at h
    obtain ⟨v, ws, rfl, ht, hr⟩ := h
    simp only [SFields.SwapOk, SFields.canSwap, Bool.and_eq_true, Bool.or_eq_true, SFields.zty, ZFields.WF] at hs hc hw
    simp only [buildFields, swapFields, reprFields]
    rw [reprFields_swap H E rest ws p _ (fun F => (hw F).2.2) hs.2 hc.2 hr, zty_lg H E, zty_size H E]
    congr 2
    by_cases hi : ignored = true
    · simp only [hi, if_true]
      rw [repr_zeroSized H (hw H).1 ((hw H).2.1 hi) (typed_build H t v hs.1 ht),
        repr_zeroSized E (hw E).1 ((hw E).2.1 hi) (typed_build E t v hs.1 ht)]
    · simp only [hi]
      exact repr_swap H E t v (fun F => (hw F).1) hs.1 (hc.1.resolve_left hi) ht

theorem reprVariant_swap (H E : ByteOrder) : ∀ (vs : SVariants) (i : Nat) (xs : List Val) {d : Nat} {fs : SFields}
    (tagSize : Nat), (∀ F, (vs.zty F tagSize).WF tagSize) → vs.SwapOk → vs.canSwap = true → vs.get i = some (d, fs) →
    TypedFields fs xs →
    reprFields H fs none tagSize (swapFields H E fs (buildFields H fs xs)) =
      reprFields E fs none tagSize (buildFields E fs xs)
  | .nil, _, _, _, _, _, _, _, _, h, _ => by simp [SVariants.get] at h
  | .cons disc s fs rest, 0, xs, d, fs', tagSize, hw, hs, hc, h, hx => by
    simp only [SVariants.get, Option.some.injEq, Prod.mk.injEq] at h
    obtain ⟨rfl, rfl⟩ := h
    simp only [SVariants.SwapOk, SVariants.canSwap, Bool.and_eq_true, SVariants.zty, ZVariants.WF] at hs hc hw
    exact reprFields_swap H E fs xs none tagSize (fun F => (hw F).2.1) hs.1 hc.1 hx
  | .cons disc s fs rest, i + 1, xs, d, fs', tagSize, hw, hs, hc, h, hx => by
    simp only [SVariants.get] at h
    simp only [SVariants.SwapOk, SVariants.canSwap, Bool.and_eq_true, SVariants.zty, ZVariants.WF] at hs hc hw
    exact reprVariant_swap H E rest i xs tagSize (fun F => (hw F).2.2) hs.2.2 hc.2 h hx
end

theorem numBytes_small (H E : ByteOrder) {w : Nat} (h : w ≤ 1) (n : Nat) : numBytes H w n = numBytes E w n := by
  have : w = 0 ∨ w = 1 := by omega
  rcases this with rfl | rfl <;> cases H <;> cases E <;> rfl

mutual
theorem repr_portable (H E : ByteOrder) : ∀ (t : STy) (a : Val), (∀ F, (t.zty F).WF) → t.SwapOk → t.portable = true →
    Typed t a → repr H t (build H t a) = repr E t (build E t a)
  | .num size _, .num n, _, _, hp, h => by
    simp only [STy.portable, decide_eq_true_eq] at hp
    simp only [build, repr]; rw [numBytes_small H E hp]
  | .bool, .num n, _, _, _, h => by simp only [build, repr]
  | .char, _, _, _, hc, h => by simp [STy.portable] at hc
  | .nonzero size _, .num n, _, _, hp, h => by
    simp only [STy.portable, decide_eq_true_eq] at hp
    simp only [build, repr]; rw [numBytes_small H E hp]
  | .zst, .list vs, _, _, _, h => by simp only [repr]
  | .array t n, .list vs, hw, hs, hc, h => by
    simp only [STy.SwapOk, STy.portable, STy.zty, ZTy.WF, Typed] at hw hs hc h
    simp only [build, repr, List.map_map]
    congr 1
    exact List.map_congr_left fun v hv => repr_portable H E t v hw hs hc (h.2 v hv)
  | .struct packed align fs, .list vs, hw, hs, hc, h => by
    simp only [STy.SwapOk, STy.portable, STy.zty, ZTy.WF, Typed] at hw hs hc h
    simp only [build, repr]
    rw [reprFields_portable H E fs vs packed 0 (fun F => (hw F).1) hs hc h, zty_fin H E, zty_size H E]
  | .transparent t, v, hw, hs, hc, h => by
    simp only [STy.SwapOk, STy.portable, STy.zty, ZTy.WF, Typed] at hw hs hc h
    simp only [build, repr]
    exact repr_portable H E t v hw hs hc h
  | .wrapping t, v, hw, hs, hc, h => by
    simp only [STy.SwapOk, STy.portable, STy.zty, ZTy.WF, Typed] at hw hs hc h
    simp only [build, repr]
    exact repr_portable H E t v hw hs hc h
  | .endian F t, v, hw, hs, hc, h => by
    simp only [STy.SwapOk, STy.zty, ZTy.WF, Typed] at hw hs h
    simp only [build, endianNew, repr]
    rw [repr_swap H F t v hw hs.1 hs.2 h, repr_swap E F t v hw hs.1 hs.2 h]
  | .enum tagSize tagLg align swaps vs, .variant i xs, hw, hs, hc, h => by
    simp only [STy.SwapOk, STy.portable, Bool.and_eq_true, decide_eq_true_eq] at hs hc
    have hw' : ∀ F, (vs.zty F tagSize).WF tagSize := fun F => by
      have := hw F
      simp only [STy.zty, ZTy.WF] at this
      exact this.2.2
    simp only [Typed] at h
    obtain ⟨d, fs, hg, hd, hf⟩ := (typedVariant_iff vs tagSize i xs).1 h
    have ih := reprVariant_portable H E vs i xs tagSize hw' hs.1 hc.2 hg hf
    simp only [build, repr]
    rw [reprVariant_eq H vs _ _ _ _ hg, reprVariant_eq E vs _ _ _ _ hg, buildVariant_eq H vs i xs hg,
      buildVariant_eq E vs i xs hg, zty_fin H E, zty_size H E, ih, numBytes_small H E hc.1]
  | .num _ _, .list _, _, _, _, h | .num _ _, .variant _ _, _, _, _, h | .bool, .list _, _, _, _, h
  | .bool, .variant _ _, _, _, _, h
  | .nonzero _ _, .list _, _, _, _, h
  | .nonzero _ _, .variant _ _, _, _, _, h
  | .zst, .num _, _, _, _, h | .zst, .variant _ _, _, _, _, h | .array _ _, .num _, _, _, _, h
  | .array _ _, .variant _ _, _, _, _, h
  | .struct _ _ _, .num _, _, _, _, h | .struct _ _ _, .variant _ _, _, _, _, h
  | .enum _ _ _ _ _, .num _, _, _, _, h | .enum _ _ _ _ _, .list _, _, _, _, h => by simp [Typed] at h

theorem reprFields_portable (H E : ByteOrder) : ∀ (fs : SFields) (xs : List Val) (p : Option Nat) (off : Nat),
    (∀ F, (fs.zty F).WF) → fs.SwapOk → fs.portable = true → TypedFields fs xs →
    reprFields H fs p off (buildFields H fs xs) = reprFields E fs p off (buildFields E fs xs)
  | .nil, xs, p, off, _, _, _, h => by simp only [reprFields]
  | .cons _ ignored t rest, xs, p, off, hw, hs, hc, h => by
    simp only [TypedFields] at h
    obtain ⟨v, ws, rfl, ht, hr⟩ := h
    simp only [SFields.SwapOk, SFields.portable, Bool.and_eq_true, SFields.zty, ZFields.WF] at hs hc hw
    simp only [buildFields, reprFields]
    rw [reprFields_portable H E rest ws p _ (fun F => (hw F).2.2) hs.2 hc.2 hr, zty_lg H E, zty_size H E,
      repr_portable H E t v (fun F => (hw F).1) hs.1 hc.1 ht]

theorem reprVariant_portable (H E : ByteOrder) : ∀ (vs : SVariants) (i : Nat) (xs : List Val) {d : Nat} {fs : SFields}
    (tagSize : Nat), (∀ F, (vs.zty F tagSize).WF tagSize) → vs.SwapOk → vs.portable = true → vs.get i = some (d, fs) →
    TypedFields fs xs →
    reprFields H fs none tagSize (buildFields H fs xs) = reprFields E fs none tagSize (buildFields E fs xs)
  | .nil, _, _, _, _, _, _, _, _, h, _ => by simp [SVariants.get] at h
  | .cons disc s fs rest, 0, xs, d, fs', tagSize, hw, hs, hc, h, hx => by
    simp only [SVariants.get, Option.some.injEq, Prod.mk.injEq] at h
    obtain ⟨rfl, rfl⟩ := h
    simp only [SVariants.SwapOk, SVariants.portable, Bool.and_eq_true, SVariants.zty, ZVariants.WF] at hs hc hw
    exact reprFields_portable H E fs xs none tagSize (fun F => (hw F).2.1) hs.1 hc.1 hx
  | .cons disc s fs rest, i + 1, xs, d, fs', tagSize, hw, hs, hc, h, hx => by
    simp only [SVariants.get] at h
    simp only [SVariants.SwapOk, SVariants.portable, Bool.and_eq_true, SVariants.zty, ZVariants.WF] at hs hc hw
    exact reprVariant_portable H E rest i xs tagSize (fun F => (hw F).2.2) hs.2.2 hc.2 h hx
end

end Musli.Zero
