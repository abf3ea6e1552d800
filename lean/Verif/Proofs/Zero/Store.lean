import Verif.Proofs.Zero.Layout
import Verif.Spec.ZeroLayoutOk
/-! Storing fills the padding, and nothing else. -/
set_option linter.unusedSectionVars false
namespace Musli.Zero
open Musli

/-- Memory with its padding filled. -/
def zeroed (m : Memory) : Memory := m.map (fun o => some (o.getD 0#8))

theorem zeroed_append (a b : Memory) : zeroed (a ++ b) = zeroed a ++ zeroed b := by simp [zeroed]
theorem zeroed_gap (n : Nat) : zeroed (gap n) = List.replicate n (some 0#8) := by simp [zeroed, gap]
theorem zeroed_map (bs : Bytes) : zeroed (bs.map some) = bs.map some := by simp [zeroed]
theorem zeroed_length (m : Memory) : (zeroed m).length = m.length := by simp [zeroed]

/-- Memory without padding. -/
def Full (m : Memory) : Prop := zeroed m = m

theorem Full.append {a b : Memory} (ha : Full a) (hb : Full b) : Full (a ++ b) := by
  unfold Full at *; rw [zeroed_append, ha, hb]

theorem full_nil : Full [] := rfl
theorem full_map (bs : Bytes) : Full (bs.map some) := zeroed_map bs

theorem full_flatten : ∀ (l : List Memory), (∀ p ∈ l, Full p) → Full l.flatten
  | [], _ => full_nil
  | p :: ps, h => by
    rw [List.flatten_cons]
    exact (h p (by simp)).append (full_flatten ps (fun q hq => h q (by simp [hq])))

theorem zeroRaw_mid (pre x post : Memory) (off n : Nat) (ho : pre.length = off) (hn : x.length = n) :
    zeroRaw (pre ++ (x ++ post)) off n = .ok (pre ++ (List.replicate n (some 0#8) ++ post)) := by
  subst ho; subst hn
  unfold zeroRaw
  rw [if_pos (by simp)]
  simp [List.drop_append]

theorem zeroRaw_zero (m : Memory) (off : Nat) (h : off ≤ m.length) : zeroRaw m off 0 = .ok m := by
  unfold zeroRaw
  rw [if_pos (by omega)]; simp

theorem mapM_map (bs : Bytes) : (bs.map some).mapM (m := Option) id = some bs := by
  induction bs with
  | nil => rfl
  | cons b bs ih => simp [ih]

theorem readInit_mid (pre post : Memory) (bs : Bytes) (off n : Nat) (ho : pre.length = off) (hn : bs.length = n) :
    readInit (pre ++ (bs.map some ++ post)) off n = .ok bs := by
  subst ho; subst hn
  unfold readInit
  rw [if_pos (by simp)]
  have : (List.take bs.length (List.drop pre.length (pre ++ (List.map some bs ++ post)))) = bs.map some := by simp
  rw [this, mapM_map]

section
variable [Host]

/-! ## Types which are not `PADDED` have no padding -/

theorem sum_le_fin : ∀ (fs : ZFields) (p : Option Nat) (off : Nat), off + fs.sum ≤ fs.fin p off
  | .nil, _, off => by simp [ZFields.fin, ZFields.sum]
  | .cons i t rest, p, off => by
    rw [ZFields.fin, ZFields.sum]
    have := sum_le_fin rest p (roundUp off (capped p t.lg) + t.size)
    have := le_roundUp off (capped p t.lg)
    split <;> omega

mutual
theorem not_padded_full : ∀ (t : ZTy) (m : Memory), t.WF → t.padded = false → Mem t m → Full m
  | .num _ _, m, _, _, h => by simp only [Mem] at h; obtain ⟨bs, rfl, _⟩ := h; exact full_map bs
  | .bool, m, _, _, h => by
    simp only [Mem] at h
    rcases h with rfl | rfl
    · exact full_map [0#8]
    · exact full_map [1#8]
  | .char, m, _, _, h => by simp only [Mem] at h; obtain ⟨bs, rfl, _⟩ := h; exact full_map bs
  | .nonzero _ _, m, _, _, h => by simp only [Mem] at h; obtain ⟨bs, rfl, _⟩ := h; exact full_map bs
  | .zst, m, _, _, h => by simp only [Mem] at h; rw [h]; exact full_nil
  | .array t n, m, hw, hp, h => by
    simp only [Mem] at h; obtain ⟨parts, rfl, _, h⟩ := h
    rw [ZTy.WF] at hw; rw [ZTy.padded] at hp
    exact full_flatten parts (fun p hp' => not_padded_full t p hw hp (h p hp'))
  | .transparent t, m, hw, hp, h => by
    simp only [Mem] at h
    refine not_padded_full t m (by simpa [ZTy.WF] using hw) ?_ h
    simpa [ZTy.padded] using hp
  | .wrapping t, m, hw, hp, h => by
    simp only [Mem] at h
    exact not_padded_full t m (by simpa [ZTy.WF] using hw) (by simpa [ZTy.padded] using hp) h
  | .struct p a fs, m, hw, hp, h => by
    simp only [Mem] at h; obtain ⟨mf, rfl, h⟩ := h
    rw [ZTy.WF] at hw
    rw [ZTy.padded, Bool.or_eq_false_iff, decide_eq_false_iff_not] at hp
    have h1 := sum_le_fin fs p 0
    have h2 : fs.fin p 0 ≤ (ZTy.struct p a fs).size := by rw [ZTy.size]; exact le_roundUp _ _
    have h3 : (ZTy.struct p a fs).size - fs.fin p 0 = 0 := by omega
    rw [h3]
    exact (not_padded_fields fs p 0 mf hw.1 hp.2 (by omega) h).append full_nil
  | .enum ts tl a vs, m, hw, hp, h => by
    rw [ZTy.WF] at hw
    rw [ZTy.padded] at hp
    rw [Mem] at h
    exact not_padded_variants vs ts _ m hw.2.2 hp (by rw [ZTy.size]; exact le_roundUp _ _) h
theorem not_padded_fields : ∀ (fs : ZFields) (p : Option Nat) (off : Nat) (m : Memory), fs.WF → fs.padded = false →
    fs.fin p off ≤ off + fs.sum → MemFields fs p off m → Full m
  | .nil, _, _, m, _, _, _, h => by simp only [MemFields] at h; rw [h]; exact full_nil
  | .cons i t rest, p, off, m, hw, hp, hs, h => by
    rw [MemFields] at h
    obtain ⟨mt, mr, rfl, h1, h2⟩ := h
    rw [ZFields.WF] at hw
    rw [ZFields.fin, ZFields.sum] at hs
    rw [ZFields.padded, Bool.or_eq_false_iff] at hp
    have ha := le_roundUp off (capped p t.lg)
    have hb := sum_le_fin rest p (roundUp off (capped p t.lg) + t.size)
    have hc : (if i = true then 0 else t.size) = t.size := by
      split
      · rw [zeroSized_size t (hw.2.1 (by assumption))]
      · rfl
    rw [hc] at hs
    have hg : roundUp off (capped p t.lg) - off = 0 := by omega
    rw [hg]
    refine full_nil.append (Full.append ?_ (not_padded_fields rest p _ mr hw.2.2 hp.2 (by omega) h2))
    cases i with
    | true =>
      have := mem_length t mt hw.1 h1
      rw [zeroSized_size t (hw.2.1 rfl)] at this
      rw [List.length_eq_zero_iff.1 this]; exact full_nil
    | false => exact not_padded_full t mt hw.1 (by simpa using hp.1) h1
theorem not_padded_variants : ∀ (vs : ZVariants) (ts size : Nat) (m : Memory), vs.WF ts → vs.padded ts size = false →
    vs.fin ts ≤ size → MemVariants vs ts size m → Full m
  | .nil, _, _, m, _, _, _, h => by simp [MemVariants] at h
  | .cons tag fs rest, ts, size, m, hw, hp, hf, h => by
    rw [ZVariants.WF] at hw
    rw [ZVariants.padded, Bool.or_eq_false_iff, Bool.or_eq_false_iff, decide_eq_false_iff_not] at hp
    rw [ZVariants.fin] at hf
    rw [MemVariants] at h
    rcases h with ⟨mf, rfl, h⟩ | h
    · have h1 := sum_le_fin fs none ts
      have h3 : size - fs.fin none ts = 0 := by omega
      rw [h3]
      exact (full_map tag).append ((not_padded_fields fs none ts mf hw.2.1 hp.1.2 (by omega) h).append full_nil)
    · exact not_padded_variants rest ts size m hw.2.2 hp.2 (by omega) h
end

/-! ## Padding -/

/-- What `pad` does to a value. -/
def Pads (t : ZTy) (m : Memory) : Prop := ∀ (pre post : Memory), ∃ off, off ≤ t.size ∧
  pad t (pre ++ (m ++ post)) pre.length = .ok (pre ++ ((zeroed (m.take off) ++ m.drop off) ++ post), off) ∧
  m.drop off = gap (t.size - off)

theorem remaining_mid (pre x post : Memory) (off size : Nat) (hx : x.length = off) (hs : off ≤ size) :
    remaining (pre ++ ((x ++ gap (size - off)) ++ post)) pre.length off size =
      .ok (pre ++ ((x ++ List.replicate (size - off) (some 0#8)) ++ post)) := by
  unfold remaining
  rw [if_pos hs]
  have : pre ++ ((x ++ gap (size - off)) ++ post) = (pre ++ x) ++ (gap (size - off) ++ post) := by simp
  rw [this, zeroRaw_mid _ _ _ _ _ (by simp [hx]) (by simp [gap])]
  simp

/-- `pad` and `remaining` one after the other. -/
theorem Pads.then_remaining {t : ZTy} {m : Memory} (h : Pads t m) (pre post : Memory) (hm : m.length = t.size) :
    ∃ (m' : Memory) (off : Nat), pad t (pre ++ (m ++ post)) pre.length = .ok (m', off) ∧
      remaining m' pre.length off t.size = .ok (pre ++ (zeroed m ++ post)) := by
  obtain ⟨off, ho, hp, hg⟩ := h pre post
  refine ⟨_, off, hp, ?_⟩
  rw [hg, remaining_mid pre (zeroed (m.take off)) post off t.size (by rw [zeroed_length]; simp; omega) ho]
  rw [← zeroed_gap, ← hg, ← zeroed_append, List.take_append_drop]

theorem padWith_ok {t : ZTy} {mt : Memory} (hm : mt.length = t.size) (hp : t.padded = true → Pads t mt)
    (hf : t.padded = false → Full mt) (lg : Nat) (pre post : Memory) (start offset : Nat)
    (hl : pre.length = start + offset) :
    padWith t.padded (pad t) t.size (2 ^ lg) (pre ++ (gap (roundUp offset lg - offset) ++ (mt ++ post))) start offset =
      .ok (pre ++ (zeroed (gap (roundUp offset lg - offset)) ++ (zeroed mt ++ post)), roundUp offset lg + t.size) := by
  unfold padWith
  rw [paddingTo_eq]
  show (zeroRaw _ _ (roundUp offset lg - offset) >>= _) = _
  rw [zeroRaw_mid pre _ _ _ _ hl (by simp [gap]), ← zeroed_gap]
  have hr := le_roundUp offset lg
  have e : offset + (roundUp offset lg - offset) = roundUp offset lg := by omega
  show (if t.padded = true then _ else _) = _
  rw [e]
  by_cases hpd : t.padded = true
  · rw [if_pos hpd]
    have hl' : (pre ++ zeroed (gap (roundUp offset lg - offset))).length = start + roundUp offset lg := by
      rw [List.length_append, zeroed_length, gap, List.length_replicate]; omega
    obtain ⟨m', off, h1, h2⟩ := (hp hpd).then_remaining (pre ++ zeroed (gap (roundUp offset lg - offset))) post hm
    rw [hl'] at h1 h2
    rw [List.append_assoc] at h1
    rw [h1]
    show (remaining _ _ _ _ >>= _) = _
    rw [h2]
    simp only [List.append_assoc]; rfl
  · rw [if_neg hpd]
    rw [(hf (by simpa using hpd) : zeroed mt = mt)]

theorem padMany_ok {t : ZTy} (hw : t.WF) (start : Nat) : ∀ (parts : List Memory) (k : Nat) (pre post : Memory),
    (∀ mt ∈ parts, mt.length = t.size ∧ (t.padded = true → Pads t mt) ∧ (t.padded = false → Full mt)) →
    pre.length = start + k * t.size →
    padMany (fun m offset => padWith t.padded (pad t) t.size (2 ^ t.lg) m start offset) parts.length
      (pre ++ (parts.flatten ++ post)) (k * t.size) =
      .ok (pre ++ (zeroed parts.flatten ++ post), (k + parts.length) * t.size)
  | [], k, pre, post, _, _ => rfl
  | mt :: parts, k, pre, post, h, hl => by
    have hmt := h mt (by simp)
    have hz : roundUp (k * t.size) t.lg = k * t.size :=
      roundUp_eq _ _ (by rw [Nat.mul_mod, size_mod t hw]; simp)
    have := padWith_ok hmt.1 hmt.2.1 hmt.2.2 t.lg pre (parts.flatten ++ post) start (k * t.size) hl
    rw [hz, Nat.sub_self] at this
    rw [List.length_cons, padMany]
    have e : pre ++ ((mt :: parts).flatten ++ post) = pre ++ (gap 0 ++ (mt ++ (parts.flatten ++ post))) := by simp [gap]
    rw [e, this]
    show padMany _ _ _ _ = _
    have ih := padMany_ok hw start parts (k + 1) (pre ++ zeroed mt) post (fun q hq => h q (by simp [hq]))
      (by rw [List.length_append, zeroed_length, hmt.1, Nat.succ_mul]; omega)
    have e2 : pre ++ (zeroed (gap 0) ++ (zeroed mt ++ (parts.flatten ++ post))) =
        pre ++ zeroed mt ++ (parts.flatten ++ post) := by simp [gap, zeroed]
    rw [e2, ← Nat.succ_mul, ih, List.flatten_cons, zeroed_append]
    have : k + 1 + parts.length = k + (parts.length + 1) := by omega
    simp only [List.append_assoc, this]

theorem pads_of_full {t : ZTy} {m : Memory} (hm : m.length = t.size) (h : ∀ (pre post : Memory),
    pad t (pre ++ (m ++ post)) pre.length = .ok (pre ++ (zeroed m ++ post), t.size)) : Pads t m := by
  intro pre post
  refine ⟨t.size, Nat.le_refl _, ?_, ?_⟩
  · rw [h, ← hm]; simp
  · rw [← hm]; simp [gap]

/-- The values of fields which are followed by padding. -/
theorem pads_of_prefix {t : ZTy} {x m : Memory} {n : Nat} (hm : m = x ++ gap n) (hn : x.length + n = t.size)
    (h : ∀ (pre post : Memory),
      pad t (pre ++ (x ++ post)) pre.length = .ok (pre ++ (zeroed x ++ post), x.length)) : Pads t m := by
  intro pre post
  subst hm
  refine ⟨x.length, by omega, ?_, ?_⟩
  · rw [List.append_assoc, h]; simp
  · rw [List.drop_left]; congr 1; omega

mutual
theorem pad_ok : ∀ (t : ZTy) (m : Memory), t.WF → t.StoreOk → t.padded = true → Mem t m → Pads t m
  | .num _ _, m, _, _, hp, _ => by simp [ZTy.padded] at hp
  | .bool, m, _, _, hp, _ => by simp [ZTy.padded] at hp
  | .char, m, _, _, hp, _ => by simp [ZTy.padded] at hp
  | .nonzero _ _, m, _, _, hp, _ => by simp [ZTy.padded] at hp
  | .zst, m, _, _, hp, _ => by simp [ZTy.padded] at hp
  | .array t n, m, hw, hok, hp, h => by
    have hlen := mem_length _ m hw h
    simp only [Mem] at h; obtain ⟨parts, rfl, hn, h⟩ := h
    rw [ZTy.WF] at hw; rw [ZTy.StoreOk] at hok; rw [ZTy.padded] at hp
    refine pads_of_full hlen ?_
    intro pre post
    have := padMany_ok hw pre.length parts 0 pre post (fun mt hmt =>
      ⟨mem_length t mt hw (h mt hmt), fun _ => pad_ok t mt hw hok hp (h mt hmt), fun hf => by rw [hp] at hf; cases hf⟩)
      (by simp)
    rw [Nat.zero_mul, hn, Nat.zero_add] at this
    rw [pad, this, ZTy.size]
  | .transparent t, m, hw, hok, hp, h => by
    simp only [Mem] at h
    have := pad_ok t m (by simpa [ZTy.WF] using hw) (by simpa [ZTy.StoreOk] using hok) (by simpa [ZTy.padded] using hp) h
    intro pre post
    obtain ⟨off, h1, h2, h3⟩ := this pre post
    exact ⟨off, by simpa [ZTy.size] using h1, by rw [pad]; exact h2, by rw [ZTy.size]; exact h3⟩
  | .wrapping t, m, hw, hok, hp, h => by
    have hlen := mem_length _ m hw h
    simp only [Mem] at h
    rw [ZTy.padded] at hp
    rw [ZTy.WF] at hw
    rw [ZTy.StoreOk] at hok
    have ih := pad_ok t m hw hok hp h
    refine pads_of_full hlen ?_
    intro pre post
    have := padWith_ok (mem_length t m hw h) (fun _ => ih) (fun hf => by rw [hp] at hf; cases hf) t.lg pre post
      pre.length 0 rfl
    rw [roundUp_eq 0 _ (Nat.zero_mod _), Nat.sub_zero, Nat.zero_add] at this
    rw [pad, ZTy.size]
    exact this
  | .struct p a fs, m, hw, hok, hp, h => by
    have hlen := mem_length _ m hw h
    simp only [Mem] at h; obtain ⟨mf, rfl, h⟩ := h
    rw [ZTy.StoreOk] at hok
    have hok := hok.resolve_left (by rw [hp]; simp)
    rw [ZTy.WF] at hw
    have hl := memFields_length fs p 0 mf hw.1 h
    refine pads_of_prefix rfl (by rw [List.length_append] at hlen; simpa [gap] using hlen) ?_
    intro pre post
    rw [pad, padFields_ok fs p 0 mf hw.1 hok h pre post pre.length rfl, ← hl, Nat.add_zero]
  | .enum ts tl a vs, m, hw, hok, hp, h => by
    rw [ZTy.StoreOk] at hok
    have hok := hok.resolve_left (by rw [hp]; simp)
    rw [ZTy.WF] at hw
    rw [Mem] at h
    obtain ⟨tag, mf, n, rfl, ht, hn, hv⟩ := padVariants_ok vs ts (ZTy.enum ts tl a vs).size m hw.2.2 hw.2.1 hok
      (by rw [ZTy.size]; exact le_roundUp _ _) h
    refine pads_of_prefix (x := tag.map some ++ mf) (n := n) (by simp)
      (by rw [List.length_append, List.length_map, ht, ← hn]) ?_
    intro pre post
    rw [pad, paddingTo_eq, roundUp_eq 0 _ (Nat.zero_mod _)]
    show (zeroRaw _ _ 0 >>= _) = _
    rw [zeroRaw_zero _ _ (by simp)]
    show (readInit _ _ _ >>= _) = _
    rw [Nat.add_zero, List.append_assoc, readInit_mid pre (mf ++ post) tag _ _ rfl ht]
    show padVariants _ _ _ _ _ = _
    have := hv (pre ++ tag.map some) post pre.length (by simp [ht])
    rw [List.append_assoc] at this
    rw [Nat.zero_add, this, zeroed_append, zeroed_map]
    simp [ht]
theorem padFields_ok : ∀ (fs : ZFields) (p : Option Nat) (off : Nat) (m : Memory), fs.WF → fs.StoreOk p →
    MemFields fs p off m → ∀ (pre post : Memory) (start : Nat), pre.length = start + off →
    padFields fs p (pre ++ (m ++ post)) start off = .ok (pre ++ (zeroed m ++ post), fs.fin p off)
  | .nil, _, _, m, _, _, h, pre, post, start, hl => by
    simp only [MemFields] at h; rw [h, padFields, ZFields.fin]; rfl
  | .cons true t rest, p, off, m, hw, hok, h, pre, post, start, hl => by
    rw [MemFields] at h
    obtain ⟨mt, mr, rfl, h1, h2⟩ := h
    rw [ZFields.WF] at hw
    rw [ZFields.StoreOk] at hok
    have hz := zeroSized_size t (hw.2.1 rfl)
    have hmt := mem_length t mt hw.1 h1
    rw [hz] at hmt
    rw [hok.1, roundUp_zero, hz, Nat.add_zero] at h2
    have ih := padFields_ok rest p off mr hw.2.2 hok.2 h2 pre post start hl
    rw [padFields, ZFields.fin, hok.1, roundUp_zero, hz, List.length_eq_zero_iff.1 hmt, Nat.sub_self]
    exact ih
  | .cons false t rest, p, off, m, hw, hok, h, pre, post, start, hl => by
    rw [MemFields] at h
    obtain ⟨mt, mr, rfl, h1, h2⟩ := h
    rw [ZFields.WF] at hw
    rw [ZFields.StoreOk] at hok
    have hmt := mem_length t mt hw.1 h1
    have := padWith_ok hmt (fun hp => pad_ok t mt hw.1 hok.1 hp h1) (fun hp => not_padded_full t mt hw.1 hp h1)
      (capped p t.lg) pre (mr ++ post) start off hl
    rw [padFields, getD_eq_capped _ _ hok.2.1]
    have e : ∀ g : Memory, pre ++ (g ++ (mt ++ mr) ++ post) = pre ++ (g ++ (mt ++ (mr ++ post))) := by simp
    rw [e, this]
    show padFields _ _ _ _ _ = _
    have hr := le_roundUp off (capped p t.lg)
    have ih := padFields_ok rest p _ mr hw.2.2 hok.2.2 h2
      (pre ++ zeroed (gap (roundUp off (capped p t.lg) - off)) ++ zeroed mt) post start (by
        rw [List.length_append, List.length_append, zeroed_length, zeroed_length, hmt, gap, List.length_replicate]
        omega)
    rw [ZFields.fin, zeroed_append, zeroed_append]
    simp only [List.append_assoc] at ih ⊢
    exact ih
theorem padVariants_ok : ∀ (vs : ZVariants) (ts size : Nat) (m : Memory), vs.WF ts → vs.tags.Nodup → vs.StoreOk →
    vs.fin ts ≤ size → MemVariants vs ts size m →
    ∃ (tag : Bytes) (mf : Memory) (n : Nat), m = tag.map some ++ (mf ++ gap n) ∧ tag.length = ts ∧
      ts + mf.length + n = size ∧
      ∀ (pre post : Memory) (start : Nat), pre.length = start + ts →
        padVariants vs tag (pre ++ (mf ++ post)) start ts = .ok (pre ++ (zeroed mf ++ post), ts + mf.length)
  | .nil, _, _, m, _, _, _, _, h => by simp [MemVariants] at h
  | .cons tag fs rest, ts, size, m, hw, hd, hok, hf, h => by
    rw [ZVariants.WF] at hw
    rw [ZVariants.tags, List.nodup_cons] at hd
    rw [ZVariants.StoreOk] at hok
    rw [ZVariants.fin] at hf
    rw [MemVariants] at h
    rcases h with ⟨mf, rfl, h⟩ | h
    · have hl := memFields_length fs none ts mf hw.2.1 h
      refine ⟨tag, mf, _, rfl, hw.1, by omega, ?_⟩
      intro pre post start hp
      rw [padVariants, if_pos rfl, padFields_ok fs none ts mf hw.2.1 hok.1 h pre post start hp, ← hl, Nat.add_comm]
    · obtain ⟨tag', mf, n, rfl, ht, hn, hv⟩ := padVariants_ok rest ts size m hw.2.2 hd.2 hok.2 (by omega) h
      refine ⟨tag', mf, n, rfl, ht, hn, ?_⟩
      intro pre post start hp
      rw [padVariants, if_neg ?_]
      · exact hv pre post start hp
      · rintro rfl
        exact hd.1 (memVariants_tag rest ts size _ _ hw.2.2 ht h)
theorem memVariants_tag : ∀ (vs : ZVariants) (ts size : Nat) (tag : Bytes) (m : Memory), vs.WF ts → tag.length = ts →
    MemVariants vs ts size (tag.map some ++ m) → tag ∈ vs.tags
  | .nil, _, _, _, m, _, _, h => by simp [MemVariants] at h
  | .cons tag fs rest, ts, size, tag', m, hw, ht, h => by
    rw [ZVariants.WF] at hw
    rw [MemVariants] at h
    rw [ZVariants.tags]
    rcases h with ⟨mf, he, _⟩ | h
    · have := List.append_inj_left he (by simp [hw.1, ht])
      have : tag' = tag := by
        exact (List.map_inj_right (fun _ _ h => Option.some.inj h)).1 this
      rw [this]; simp
    · exact List.mem_cons_of_mem _ (memVariants_tag rest ts size tag' m hw.2.2 ht h)
end

/-- Storing fills the padding with zeros. -/
theorem store_ok {t : ZTy} {m : Memory} (hw : t.WF) (hok : t.StoreOk) (h : Mem t m) :
    storeUnaligned t m = .ok (zeroed m) := by
  unfold storeUnaligned
  by_cases hp : t.padded = true
  · rw [if_pos hp]
    obtain ⟨m', off, h1, h2⟩ := (pad_ok t m hw hok hp h).then_remaining [] [] (mem_length t m hw h)
    simp only [List.nil_append, List.append_nil, List.length_nil] at h1 h2
    rw [h1]
    exact h2
  · rw [if_neg hp, (not_padded_full t m hw (by simpa using hp) h : zeroed m = m)]

end
end Musli.Zero
