import Verif.Proofs.Zero.EndianRepr
/-! Values with the same memory are the same. -/
set_option linter.unusedSectionVars false
namespace Musli.Zero
open Musli

variable (H : ByteOrder)

theorem tags_zty (n : Nat) : ∀ (vs : SVariants), (vs.zty H n).tags = vs.discs.map (numBytes H n)
  | .nil => rfl
  | .cons d s fs rest => by simp only [SVariants.zty, ZVariants.tags, SVariants.discs, List.map_cons, tags_zty n rest]

theorem numBytes_inj {w m n : Nat} (hm : m < 256 ^ w) (hn : n < 256 ^ w)
    (h : (numBytes H w m).map some = (numBytes H w n).map some) : m = n := by
  have h' : numBytes H w m = numBytes H w n := by
    have := congrArg (List.map (fun o : Option (BitVec 8) => o.getD 0#8)) h
    simpa [List.map_map, Function.comp_def] using this
  rw [← fixed_numBytes H hm, ← fixed_numBytes H hn, h']

theorem reprFields_length {fs : SFields} {p : Option Nat} {off : Nat} {xs ys : List Val} (hw : (fs.zty H).WF)
    (h : TypedFields fs xs) (h' : TypedFields fs ys) :
    (reprFields H fs p off xs).length = (reprFields H fs p off ys).length := by
  have h1 := @memFields_length ⟨H⟩ (fs.zty H) p off _ hw (reprFields_mem H fs xs p off h)
  have h2 := @memFields_length ⟨H⟩ (fs.zty H) p off _ hw (reprFields_mem H fs ys p off h')
  omega

theorem flatten_inj {f : Val → Memory} : ∀ {vs ws : List Val} (_ : vs.length = ws.length)
    (_ : ∀ v ∈ vs, ∀ w ∈ ws, (f v).length = (f w).length ∧ (f v = f w → v = w)),
    (vs.map f).flatten = (ws.map f).flatten → vs = ws
  | [], [], _, _, _ => rfl
  | v :: vs, w :: ws, hl, hf, h => by
    simp only [List.map_cons, List.flatten_cons] at h
    have hvw := hf v (by simp) w (by simp)
    obtain ⟨h1, h2⟩ := List.append_inj h hvw.1
    rw [hvw.2 h1, flatten_inj (by simpa using hl) (fun v hv w hw => hf v (by simp [hv]) w (by simp [hw])) h2]
  | [], _ :: _, h, _, _ => by simp at h
  | _ :: _, [], h, _, _ => by simp at h

mutual
theorem repr_inj : ∀ (t : STy) (v w : Val), (t.zty H).WF → Typed t v → Typed t w → repr H t v = repr H t w → v = w
  | .num size _, .num m, .num n, _, hv, hw, h => by
    simp only [Typed, repr] at hv hw h; rw [numBytes_inj H hv hw h]
  | .bool, .num m, .num n, _, hv, hw, h => by
    simp only [Typed, repr] at hv hw h
    have hm : m = 0 ∨ m = 1 := by omega
    have hn : n = 0 ∨ n = 1 := by omega
    rcases hm with rfl | rfl <;> rcases hn with rfl | rfl <;> first | rfl | (simp at h)
  | .char, .num m, .num n, _, hv, hw, h => by
    simp only [Typed, repr] at hv hw h
    obtain ⟨c, rfl⟩ := hv
    obtain ⟨d, rfl⟩ := hw
    rw [numBytes_inj H (char_lt c) (char_lt d) h]
  | .nonzero size _, .num m, .num n, _, hv, hw, h => by
    simp only [Typed, repr] at hv hw h; rw [numBytes_inj H hv.1 hw.1 h]
  | .zst, .list vs, .list ws, _, hv, hw, _ => by simp only [Typed] at hv hw; rw [hv, hw]
  | .array t n, .list vs, .list ws, hwf, hv, hw, h => by
    simp only [STy.zty, ZTy.WF] at hwf
    simp only [Typed, repr] at hv hw h
    congr 1
    refine flatten_inj (hv.1.trans hw.1.symm) (fun v hv' w hw' => ⟨?_, repr_inj t v w hwf (hv.2 v hv') (hw.2 w hw')⟩) h
    rw [repr_length H hwf (hv.2 v hv'), repr_length H hwf (hw.2 w hw')]
  | .struct packed align fs, .list vs, .list ws, hwf, hv, hw, h => by
    simp only [STy.zty, ZTy.WF] at hwf
    simp only [Typed, repr] at hv hw h
    congr 1
    exact reprFields_inj fs vs ws packed 0 hwf.1 hv hw (List.append_inj h (reprFields_length H hwf.1 hv hw)).1
  | .transparent t, v, w, hwf, hv, hw, h => by
    simp only [STy.zty, ZTy.WF] at hwf
    simp only [Typed, repr] at hv hw h
    exact repr_inj t v w hwf hv hw h
  | .wrapping t, v, w, hwf, hv, hw, h => by
    simp only [STy.zty, ZTy.WF] at hwf
    simp only [Typed, repr] at hv hw h
    exact repr_inj t v w hwf hv hw h
  | .endian _ t, v, w, hwf, hv, hw, h => by
    simp only [STy.zty, ZTy.WF] at hwf
    simp only [Typed, repr] at hv hw h
    exact repr_inj t v w hwf hv hw h
  | .enum tagSize tagLg align swaps vs, .variant i xs, .variant j ys, hwf, hv, hw, h => by
    simp only [STy.zty, ZTy.WF] at hwf
    simp only [Typed, repr] at hv hw h
    obtain ⟨d, fs, hg, hd, hf⟩ := (typedVariant_iff vs tagSize i xs).1 hv
    obtain ⟨d', fs', hg', hd', hf'⟩ := (typedVariant_iff vs tagSize j ys).1 hw
    rw [reprVariant_eq H vs _ _ _ _ hg, reprVariant_eq H vs _ _ _ _ hg'] at h
    obtain ⟨h1, h2⟩ := List.append_inj h (by simp [numBytes_length])
    have hdd := numBytes_inj H hd hd' h1
    subst hdd
    have hij : i = j := by
      have h1 := (get_lists vs i hg).1
      have h2 := (get_lists vs j hg').1
      obtain ⟨hi, h1⟩ := List.getElem?_eq_some_iff.1 h1
      obtain ⟨hj, h2⟩ := List.getElem?_eq_some_iff.1 h2
      have hnd := hwf.2.1
      rw [tags_zty] at hnd
      have hnd' : vs.discs.Nodup := (List.pairwise_map.1 hnd).imp fun h e => h (congrArg _ e)
      exact (List.getElem_inj hnd').1 (h1.trans h2.symm)
    subst hij
    rw [hg] at hg'
    cases hg'
    have hwfs := wf_get H vs i tagSize hwf.2.2 hg
    rw [reprVariant_inj vs i tagSize xs ys hwf.2.2 hg hf hf'
      (List.append_inj h2 (reprFields_length H hwfs hf hf')).1]
  | .num _ _, .list _, _, _, h, _, _ | .num _ _, .variant _ _, _, _, h, _, _ | .bool, .list _, _, _, h, _, _
  | .bool, .variant _ _, _, _, h, _, _
  | .char, .list _, _, _, h, _, _ | .char, .variant _ _, _, _, h, _, _ | .nonzero _ _, .list _, _, _, h, _, _
  | .nonzero _ _, .variant _ _, _, _, h, _, _
  | .zst, .num _, _, _, h, _, _ | .zst, .variant _ _, _, _, h, _, _ | .array _ _, .num _, _, _, h, _, _
  | .array _ _, .variant _ _, _, _, h, _, _
  | .struct _ _ _, .num _, _, _, h, _, _ | .struct _ _ _, .variant _ _, _, _, h, _, _
  | .enum _ _ _ _ _, .num _, _, _, h, _, _ | .enum _ _ _ _ _, .list _, _, _, h, _, _ => by simp [Typed] at h
  | .num _ _, .num _, .list _, _, _, h, _ | .num _ _, .num _, .variant _ _, _, _, h, _
  | .bool, .num _, .list _, _, _, h, _ | .bool, .num _, .variant _ _, _, _, h, _
  | .char, .num _, .list _, _, _, h, _ | .char, .num _, .variant _ _, _, _, h, _
  | .nonzero _ _, .num _, .list _, _, _, h, _ | .nonzero _ _, .num _, .variant _ _, _, _, h, _
  | .zst, .list _, .num _, _, _, h, _ | .zst, .list _, .variant _ _, _, _, h, _
  | .array _ _, .list _, .num _, _, _, h, _ | .array _ _, .list _, .variant _ _, _, _, h, _
  | .struct _ _ _, .list _, .num _, _, _, h, _ | .struct _ _ _, .list _, .variant _ _, _, _, h, _
  | .enum _ _ _ _ _, .variant _ _, .num _, _, _, h, _
  | .enum _ _ _ _ _, .variant _ _, .list _, _, _, h, _ => by simp [Typed] at h

theorem reprFields_inj : ∀ (fs : SFields) (xs ys : List Val) (p : Option Nat) (off : Nat), (fs.zty H).WF →
    TypedFields fs xs → TypedFields fs ys → reprFields H fs p off xs = reprFields H fs p off ys → xs = ys
  | .nil, xs, ys, p, off, _, hx, hy, _ => by simp only [TypedFields] at hx hy; rw [hx, hy]
  | .cons _ _ t rest, xs, ys, p, off, hw, hx, hy, h => by
    simp only [TypedFields] at hx hy
    obtain ⟨v, xs, rfl, hv, hx⟩ := hx
    obtain ⟨w, ys, rfl, hw', hy⟩ := hy
    simp only [SFields.zty, ZFields.WF] at hw
    simp only [reprFields] at h
    have h := (List.append_inj h rfl).2
    obtain ⟨h1, h2⟩ := List.append_inj h (by rw [repr_length H hw.1 hv, repr_length H hw.1 hw'])
    rw [repr_inj t v w hw.1 hv hw' h1, reprFields_inj rest xs ys p _ hw.2.2 hx hy h2]

theorem reprVariant_inj : ∀ (vs : SVariants) (i tagSize : Nat) (xs ys : List Val) {d : Nat} {fs : SFields},
    (vs.zty H tagSize).WF tagSize → vs.get i = some (d, fs) → TypedFields fs xs → TypedFields fs ys →
    reprFields H fs none tagSize xs = reprFields H fs none tagSize ys → xs = ys
  | .nil, _, _, _, _, _, _, _, h, _, _, _ => by simp [SVariants.get] at h
  | .cons disc s fs rest, 0, tagSize, xs, ys, d, fs', hw, h, hx, hy, he => by
    simp only [SVariants.get, Option.some.injEq, Prod.mk.injEq] at h
    obtain ⟨rfl, rfl⟩ := h
    simp only [SVariants.zty, ZVariants.WF] at hw
    exact reprFields_inj fs xs ys none tagSize hw.2.1 hx hy he
  | .cons disc s fs rest, i + 1, tagSize, xs, ys, d, fs', hw, h, hx, hy, he => by
    simp only [SVariants.get] at h
    simp only [SVariants.zty, ZVariants.WF] at hw
    exact reprVariant_inj rest i tagSize xs ys hw.2.2 h hx hy he
end

end Musli.Zero
