import Verif.Proofs.Zero.Layout
import Verif.Spec.ZeroLayoutOk
/-! Validation decides whether bytes are those of a value. -/
set_option linter.unusedSectionVars false
namespace Musli.Zero
open Musli

/-- A check which fails exactly if the proposition does not hold. -/
def Decides (r : Except ZErr Unit) (P : Prop) : Prop := (r = .ok () ∧ P) ∨ (r = .error .illegal ∧ ¬P)

theorem Decides.bind {r r' : Except ZErr Unit} {P Q : Prop} (h : Decides r P) (h' : Decides r' Q) :
    Decides (r >>= fun _ => r') (P ∧ Q) := by
  rcases h with ⟨rfl, hp⟩ | ⟨rfl, hp⟩
  · rcases h' with ⟨rfl, hq⟩ | ⟨rfl, hq⟩
    · exact .inl ⟨rfl, hp, hq⟩
    · exact .inr ⟨rfl, fun h => hq h.2⟩
  · exact .inr ⟨rfl, fun h => hp h.1⟩

theorem Decides.iff {r : Except ZErr Unit} {P Q : Prop} (h : Decides r P) (e : P ↔ Q) : Decides r Q := by
  rcases h with ⟨rfl, hp⟩ | ⟨rfl, hp⟩
  · exact .inl ⟨rfl, e.1 hp⟩
  · exact .inr ⟨rfl, fun h => hp (e.2 h)⟩

theorem Decides.of_true {r : Except ZErr Unit} {P : Prop} (h : r = .ok ()) (hp : P) : Decides r P := .inl ⟨h, hp⟩

section
variable [Host]

/-- The bytes are those of fields. -/
def IsFields (fs : ZFields) (p : Option Nat) (off : Nat) (bs : Bytes) : Prop := ∃ m, MemFields fs p off m ∧ Agree m bs

/-- The bytes are those of one of the variants. -/
def IsVariant (vs : ZVariants) (ts size : Nat) (bs : Bytes) : Prop := ∃ m, MemVariants vs ts size m ∧ Agree m bs

theorem isValue_array_zero (t : ZTy) (bs : Bytes) : IsValue (.array t 0) bs ↔ bs = [] := by
  unfold IsValue
  simp only [Mem]
  constructor
  · rintro ⟨m, ⟨parts, rfl, h0, _⟩, h⟩
    rw [List.length_eq_zero_iff.1 h0] at h; cases h; rfl
  · rintro rfl; exact ⟨[], ⟨[], rfl, rfl, by simp⟩, .nil⟩

theorem isValue_array_succ {t : ZTy} {n : Nat} {x y : Bytes} (hw : t.WF) (hx : x.length = t.size) :
    IsValue (.array t (n + 1)) (x ++ y) ↔ IsValue t x ∧ IsValue (.array t n) y := by
  unfold IsValue
  simp only [Mem]
  constructor
  · rintro ⟨m, ⟨parts, rfl, hl, hp⟩, h⟩
    cases parts with
    | nil => simp at hl
    | cons p ps =>
      have hpm := hp p (by simp)
      rw [List.flatten_cons, agree_append (by rw [mem_length t p hw hpm, hx])] at h
      exact ⟨⟨p, hpm, h.1⟩, ps.flatten, ⟨ps, rfl, by simpa using hl, fun q hq => hp q (by simp [hq])⟩, h.2⟩
  · rintro ⟨⟨p, hpm, h1⟩, m, ⟨ps, rfl, hl, hp⟩, h2⟩
    refine ⟨p ++ ps.flatten, ⟨p :: ps, rfl, by simp [hl], ?_⟩, ?_⟩
    · intro q hq
      rcases List.mem_cons.1 hq with rfl | hq
      · exact hpm
      · exact hp q hq
    · exact (agree_append (agree_length h1)).2 ⟨h1, h2⟩

theorem isFields_nil (p : Option Nat) (off : Nat) (bs : Bytes) : IsFields .nil p off bs ↔ bs = [] := by
  unfold IsFields
  simp only [MemFields]
  constructor
  · rintro ⟨m, rfl, h⟩; cases h; rfl
  · rintro rfl; exact ⟨[], rfl, .nil⟩

theorem isFields_cons {i : Bool} {t : ZTy} {r : ZFields} {p : Option Nat} {off : Nat} {g x y : Bytes} (hw : t.WF)
    (hg : g.length = roundUp off (capped p t.lg) - off) (hx : x.length = t.size) :
    IsFields (.cons i t r) p off (g ++ (x ++ y)) ↔
      IsValue t x ∧ IsFields r p (roundUp off (capped p t.lg) + t.size) y := by
  unfold IsFields IsValue
  simp only [MemFields]
  constructor
  · rintro ⟨m, ⟨mt, mr, rfl, h1, h2⟩, h⟩
    rw [agree_append (by simp [gap, hg]), agree_append (by rw [mem_length t mt hw h1, hx])] at h
    exact ⟨⟨mt, h1, h.2.1⟩, mr, h2, h.2.2⟩
  · rintro ⟨⟨mt, h1, h1'⟩, mr, h2, h2'⟩
    refine ⟨_, ⟨mt, mr, rfl, h1, h2⟩, ?_⟩
    rw [agree_append (by simp [gap, hg]), agree_append (agree_length h1')]
    exact ⟨agree_gap.2 hg, h1', h2'⟩

theorem isValue_struct {fs : ZFields} {p : Option Nat} {a : Nat} {x y : Bytes} (hw : fs.WF)
    (hx : x.length = fs.fin p 0) (hy : y.length = (ZTy.struct p a fs).size - fs.fin p 0) :
    IsValue (.struct p a fs) (x ++ y) ↔ IsFields fs p 0 x := by
  unfold IsFields IsValue
  simp only [Mem]
  constructor
  · rintro ⟨m, ⟨mf, rfl, h1⟩, h⟩
    have hl := memFields_length fs p 0 mf hw h1
    rw [agree_append (by omega)] at h
    exact ⟨mf, h1, h.1⟩
  · rintro ⟨mf, h1, h⟩
    exact ⟨_, ⟨mf, rfl, h1⟩, (agree_append (agree_length h)).2 ⟨h, agree_gap.2 hy⟩⟩

theorem isVariant_tag : ∀ {vs : ZVariants} {ts size : Nat} {x y : Bytes}, vs.WF ts → x.length = ts →
    IsVariant vs ts size (x ++ y) → x ∈ vs.tags
  | .nil, _, _, _, _, _, _, ⟨m, h, _⟩ => by simp [MemVariants] at h
  | .cons tag fs rest, ts, size, x, y, hw, hx, ⟨m, h, ha⟩ => by
    rw [ZVariants.WF] at hw
    rw [MemVariants] at h
    rw [ZVariants.tags]
    rcases h with ⟨mf, rfl, h⟩ | h
    · rw [agree_append (by rw [List.length_map, hw.1, hx]), agree_map] at ha
      rw [ha.1]; simp
    · exact List.mem_cons_of_mem _ (isVariant_tag hw.2.2 hx ⟨m, h, ha⟩)

theorem isVariant_cons {tag : Bytes} {fs : ZFields} {rest : ZVariants} {ts size : Nat} {x y z : Bytes}
    (ht : tag.length = ts) (hw : fs.WF) (hx : x.length = ts) (hy : y.length = fs.fin none ts - ts)
    (hz : z.length = size - fs.fin none ts) :
    IsVariant (.cons tag fs rest) ts size (x ++ (y ++ z)) ↔
      (x = tag ∧ IsFields fs none ts y) ∨ IsVariant rest ts size (x ++ (y ++ z)) := by
  unfold IsVariant IsFields
  simp only [MemVariants]
  constructor
  · rintro ⟨m, ⟨mf, rfl, h⟩ | h, ha⟩
    · have hl := memFields_length fs none ts mf hw h
      rw [agree_append (by rw [List.length_map, ht, hx]), agree_map, agree_append (by omega)] at ha
      exact .inl ⟨ha.1, mf, h, ha.2.1⟩
    · exact .inr ⟨m, h, ha⟩
  · rintro (⟨rfl, mf, h, ha⟩ | ⟨m, h, ha⟩)
    · refine ⟨_, .inl ⟨mf, rfl, h⟩, ?_⟩
      rw [agree_append (by simp), agree_map, agree_append (agree_length ha)]
      exact ⟨rfl, ha, agree_gap.2 hz⟩
    · exact ⟨m, .inr h, ha⟩

/-! ## Types with `ANY_BITS` -/

theorem anyBits_array (t : ZTy) (hw : t.WF) (h : ∀ bs : Bytes, bs.length = t.size → IsValue t bs) :
    ∀ (n : Nat) (bs : Bytes), bs.length = n * t.size → IsValue (.array t n) bs
  | 0, bs, hl => (isValue_array_zero t bs).2 (List.length_eq_zero_iff.1 (by omega))
  | n + 1, bs, hl => by
    rw [Nat.succ_mul] at hl
    rw [← List.take_append_drop t.size bs, isValue_array_succ hw (by simp; omega)]
    exact ⟨h _ (by simp; omega), anyBits_array t hw h n _ (by simp; omega)⟩

mutual
theorem anyBits_isValue : ∀ (t : ZTy) (bs : Bytes), t.WF → t.anyBits = true → bs.length = t.size → IsValue t bs
  | .num _ _, bs, _, _, hl => ⟨bs.map some, by simp only [Mem]; exact ⟨bs, rfl, by simpa [ZTy.size] using hl⟩,
      agree_map.2 rfl⟩
  | .bool, _, _, h, _ => by simp [ZTy.anyBits] at h
  | .char, _, _, h, _ => by simp [ZTy.anyBits] at h
  | .nonzero _ _, _, _, h, _ => by simp [ZTy.anyBits] at h
  | .enum _ _ _ _, _, _, h, _ => by simp [ZTy.anyBits] at h
  | .zst, bs, _, _, hl => by
    have : bs = [] := List.length_eq_zero_iff.1 (by simpa [ZTy.size] using hl)
    subst this
    exact ⟨[], by simp [Mem], .nil⟩
  | .array t n, bs, hw, h, hl => by
    have hw : t.WF := by simpa [ZTy.WF] using hw
    exact anyBits_array t hw (fun bs hl => anyBits_isValue t bs hw (by simpa [ZTy.anyBits] using h) hl) n bs
      (by simpa [ZTy.size] using hl)
  | .transparent t, bs, hw, h, hl => by
    obtain ⟨m, h1, h2⟩ := anyBits_isValue t bs (by simpa [ZTy.WF] using hw) (by simpa [ZTy.anyBits] using h)
      (by simpa [ZTy.size] using hl)
    exact ⟨m, by simpa [Mem] using h1, h2⟩
  | .wrapping t, bs, hw, h, hl => by
    obtain ⟨m, h1, h2⟩ := anyBits_isValue t bs (by simpa [ZTy.WF] using hw) (by simpa [ZTy.anyBits] using h)
      (by simpa [ZTy.size] using hl)
    exact ⟨m, by simpa [Mem] using h1, h2⟩
  | .struct p a fs, bs, hw, h, hl => by
    rw [ZTy.WF] at hw
    have hf : fs.fin p 0 ≤ bs.length := by rw [hl, ZTy.size]; exact le_roundUp _ _
    rw [← List.take_append_drop (fs.fin p 0) bs, isValue_struct hw.1 (by simp; omega) (by simp; omega)]
    exact anyBits_isFields fs p 0 _ hw.1 (by simpa [ZTy.anyBits] using h) (by simp; omega)
theorem anyBits_isFields : ∀ (fs : ZFields) (p : Option Nat) (off : Nat) (bs : Bytes), fs.WF → fs.anyBits = true →
    bs.length + off = fs.fin p off → IsFields fs p off bs
  | .nil, p, off, bs, _, _, hl => (isFields_nil p off bs).2 (List.length_eq_zero_iff.1 (by
      rw [ZFields.fin] at hl; omega))
  | .cons i t rest, p, off, bs, hw, h, hl => by
    rw [ZFields.WF] at hw
    rw [ZFields.fin] at hl
    have h1 := le_roundUp off (capped p t.lg)
    have h2 := le_fin rest p (roundUp off (capped p t.lg) + t.size)
    rw [← List.take_append_drop (roundUp off (capped p t.lg) - off) bs,
      ← List.take_append_drop t.size (List.drop _ bs), isFields_cons hw.1 (by simp; omega) (by simp; omega)]
    simp only [ZFields.anyBits, Bool.and_eq_true, Bool.or_eq_true] at h
    refine ⟨?_, anyBits_isFields rest p _ _ hw.2.2 h.2 (by simp; omega)⟩
    rcases h.1 with hi | hb
    · have hz := hw.2.1 hi
      have hs := zeroSized_size t hz
      rw [hs, List.take_zero]
      exact ⟨[], zeroSized_mem t hz, .nil⟩
    · exact anyBits_isValue t _ hw.1 hb (by simp; omega)
end

theorem validateMany_ok (f : Nat → Except ZErr Unit) (size : Nat) (h : ∀ o, f o = .ok ()) :
    ∀ n off, validateMany f size n off = .ok ()
  | 0, _ => rfl
  | n + 1, off => by rw [validateMany, h]; exact validateMany_ok f size h n (off + size)

mutual
theorem anyBits_validate (base : Nat) (bs : Bytes) : ∀ (t : ZTy) (off : Nat), t.anyBits = true →
    validate base bs t off = .ok ()
  | .num _ _, _, _ => by simp [validate]
  | .bool, _, h => by simp [ZTy.anyBits] at h
  | .char, _, h => by simp [ZTy.anyBits] at h
  | .nonzero _ _, _, h => by simp [ZTy.anyBits] at h
  | .enum _ _ _ _, _, h => by simp [ZTy.anyBits] at h
  | .zst, _, _ => by simp [validate]
  | .array t n, off, h => by
    rw [validate]
    exact validateMany_ok _ _ (fun o => anyBits_validate base bs t o (by simpa [ZTy.anyBits] using h)) n off
  | .transparent t, off, h => by
    rw [validate]; exact anyBits_validate base bs t off (by simpa [ZTy.anyBits] using h)
  | .wrapping t, off, h => by
    rw [validate]; exact anyBits_validate base bs t _ (by simpa [ZTy.anyBits] using h)
  | .struct p a fs, off, h => by
    rw [validate]; exact anyBits_validateFields base bs fs p off (by simpa [ZTy.anyBits] using h)
theorem anyBits_validateFields (base : Nat) (bs : Bytes) : ∀ (fs : ZFields) (p : Option Nat) (off : Nat),
    fs.anyBits = true → validateFields base bs fs p off = .ok ()
  | .nil, _, _, _ => by simp [validateFields]
  | .cons true t rest, p, off, h => by
    rw [validateFields]
    exact anyBits_validateFields base bs rest p off (by simpa [ZFields.anyBits] using h)
  | .cons false t rest, p, off, h => by
    simp only [ZFields.anyBits, Bool.and_eq_true, Bool.false_or] at h
    rw [validateFields]
    rw [anyBits_validate base bs t _ h.1]
    exact anyBits_validateFields base bs rest p _ h.2
end

theorem anyBits_of_zeroSized_need : ∀ (t : ZTy), t.anyBits = true → t.need = 0
  | .num _ _, _ => by simp [ZTy.need]
  | .bool, _ => by simp [ZTy.need]
  | .char, _ => by simp [ZTy.need]
  | .nonzero _ _, _ => by simp [ZTy.need]
  | .zst, _ => by simp [ZTy.need]
  | .enum _ _ _ _, h => by simp [ZTy.anyBits] at h
  | .array t n, h => by
    rw [ZTy.need]; exact anyBits_of_zeroSized_need t (by simpa [ZTy.anyBits] using h)
  | .transparent t, h => by
    rw [ZTy.need]; exact anyBits_of_zeroSized_need t (by simpa [ZTy.anyBits] using h)
  | .wrapping t, h => by
    rw [ZTy.need, if_pos (by simpa [ZTy.anyBits] using h)]
  | .struct p a fs, h => by
    rw [ZTy.need, if_pos (by simpa [ZTy.anyBits] using h)]

theorem need_le_lg : ∀ (t : ZTy), t.need ≤ t.lg
  | .num _ _ => by simp [ZTy.need]
  | .bool => by simp [ZTy.need]
  | .char => by simp [ZTy.need]
  | .nonzero _ _ => by simp [ZTy.need]
  | .zst => by simp [ZTy.need]
  | .enum _ _ _ _ => by rw [ZTy.need, ZTy.lg]; omega
  | .array t n => by rw [ZTy.need, ZTy.lg]; exact need_le_lg t
  | .transparent t => by rw [ZTy.need, ZTy.lg]; exact need_le_lg t
  | .wrapping t => by rw [ZTy.need, ZTy.lg]; split <;> omega
  | .struct p a fs => by rw [ZTy.need, ZTy.lg]; split <;> omega

/-! ## Validation -/

theorem charTry_iff (n : Nat) : charTry n = true ↔ ∃ c : Char, c.toNat = n := by
  unfold charTry
  constructor
  · intro h
    simp only [Bool.or_eq_true, Bool.and_eq_true, decide_eq_true_eq] at h
    have hv : Nat.isValidChar n := by
      rcases h with h | h
      · exact .inl h
      · exact .inr h
    refine ⟨Char.ofNat n, ?_⟩
    rw [Char.ofNat, dif_pos hv]; rfl
  · rintro ⟨c, rfl⟩
    have := c.valid
    simp only [Bool.or_eq_true, Bool.and_eq_true, decide_eq_true_eq]
    exact this

omit [Host] in
theorem little_eq_zero : ∀ (bs : Bytes), Grammar.little bs = 0 ↔ ∀ b ∈ bs, b = 0#8
  | [] => by simp [Grammar.little]
  | b :: bs => by
    have := little_eq_zero bs
    rw [Grammar.little]
    constructor
    · intro h c hc
      rcases List.mem_cons.1 hc with rfl | hc
      · exact BitVec.eq_of_toNat_eq (by simp; omega)
      · exact (this.1 (by omega)) c hc
    · intro h
      have h1 := this.2 (fun c hc => h c (by simp [hc]))
      have h2 : b = 0#8 := h b (by simp)
      rw [h1, h2]; rfl

theorem native_eq_zero (bs : Bytes) : native bs = 0 ↔ ∀ b ∈ bs, b = 0#8 := by
  unfold native
  cases Host.order
  · exact little_eq_zero bs
  · rw [Grammar.fixed, little_eq_zero]; simp

omit [Host] in
theorem add_mod_zero {a b n : Nat} (ha : a % n = 0) (hb : b % n = 0) : (a + b) % n = 0 := by
  rw [Nat.add_mod, ha, hb, Nat.add_zero, Nat.zero_mod]

theorem validateMany_decides {f : Nat → Except ZErr Unit} {t : ZTy} {bs : Bytes} (hw : t.WF) (good : Nat → Prop)
    (hg : ∀ s, good s → good (s + t.size))
    (h : ∀ s, good s → s + t.size ≤ bs.length → Decides (f s) (IsValue t (slice bs s t.size))) :
    ∀ (n s : Nat), good s → s + n * t.size ≤ bs.length →
      Decides (validateMany f t.size n s) (IsValue (.array t n) (slice bs s (n * t.size)))
  | 0, s, _, _ => .of_true rfl ((isValue_array_zero t _).2 (by simp [slice]))
  | n + 1, s, hs, hl => by
    rw [Nat.succ_mul, Nat.add_comm (n * t.size)] at hl ⊢
    rw [slice_add, validateMany]
    refine ((h s hs (by omega)).bind (validateMany_decides hw good hg h n (s + t.size) (hg s hs) (by omega))).iff ?_
    exact (isValue_array_succ hw (slice_length (by omega))).symm

mutual
theorem validate_decides (base : Nat) (bs : Bytes) : ∀ (t : ZTy) (s : Nat), t.WF → t.LoadOk →
    (base + s) % 2 ^ t.need = 0 → s + t.size ≤ bs.length →
    Decides (validate base bs t s) (IsValue t (slice bs s t.size))
  | .num _ _, s, hw, _, _, hl =>
    .of_true (by simp [validate]) (anyBits_isValue _ _ hw (by simp [ZTy.anyBits]) (slice_length hl))
  | .zst, s, hw, _, _, hl =>
    .of_true (by simp [validate]) (anyBits_isValue _ _ hw (by simp [ZTy.anyBits]) (slice_length hl))
  | .bool, s, _, _, _, hl => by
    rw [ZTy.size] at hl ⊢
    rw [validate, readRaw_ok hl]
    show Decides (if _ then _ else _) _
    have : IsValue .bool (slice bs s 1) ↔ slice bs s 1 = [0#8] ∨ slice bs s 1 = [1#8] := by
      unfold IsValue
      simp only [Mem]
      constructor
      · rintro ⟨m, rfl | rfl, h⟩
        · exact .inl (agree_map (bs := [0#8]).1 h)
        · exact .inr (agree_map (bs := [1#8]).1 h)
      · rintro (h | h)
        · exact ⟨_, .inl rfl, agree_map (bs := [0#8]).2 h⟩
        · exact ⟨_, .inr rfl, agree_map (bs := [1#8]).2 h⟩
    rw [this]
    split
    · exact .inl ⟨rfl, by assumption⟩
    · exact .inr ⟨rfl, by assumption⟩
  | .char, s, _, _, _, hl => by
    rw [ZTy.size] at hl ⊢
    rw [validate, readRaw_ok hl]
    show Decides (if _ then _ else _) _
    have : IsValue .char (slice bs s 4) ↔ ∃ c : Char, c.toNat = native (slice bs s 4) := by
      unfold IsValue
      simp only [Mem]
      constructor
      · rintro ⟨m, ⟨bs', rfl, _, h⟩, ha⟩
        rw [agree_map] at ha
        rw [ha]; exact h
      · intro h
        exact ⟨_, ⟨_, rfl, slice_length hl, h⟩, agree_map.2 rfl⟩
    rw [this, ← charTry_iff]
    split
    · exact .inl ⟨rfl, by assumption⟩
    · exact .inr ⟨rfl, by assumption⟩
  | .nonzero size lg, s, _, _, _, hl => by
    rw [ZTy.size] at hl ⊢
    rw [validate, readRaw_ok hl]
    show Decides (if _ then _ else _) _
    have : IsValue (.nonzero size lg) (slice bs s size) ↔ ¬ native (slice bs s size) = 0 := by
      unfold IsValue
      simp only [Mem]
      rw [native_eq_zero]
      constructor
      · rintro ⟨m, ⟨bs', rfl, _, b, hb, hb'⟩, ha⟩ h
        rw [agree_map] at ha
        exact hb' (h b (ha ▸ hb))
      · intro h
        refine ⟨_, ⟨_, rfl, slice_length hl, ?_⟩, agree_map.2 rfl⟩
        simpa using h
    rw [this]
    split
    · exact .inr ⟨rfl, fun h => h (by assumption)⟩
    · exact .inl ⟨rfl, by assumption⟩
  | .array t n, s, hw, hok, ha, hl => by
    rw [ZTy.WF] at hw
    rw [ZTy.LoadOk] at hok
    rw [ZTy.need] at ha
    rw [ZTy.size] at hl ⊢
    rw [validate]
    refine validateMany_decides hw (fun s => (base + s) % 2 ^ t.need = 0) ?_ ?_ n s ha hl
    · intro s hs
      show (base + (s + t.size)) % _ = 0
      rw [← Nat.add_assoc]
      exact add_mod_zero hs (mod_of_le (size_mod t hw) (need_le_lg t))
    · intro s hs hl
      exact validate_decides base bs t s hw hok hs hl
  | .transparent t, s, hw, hok, ha, hl => by
    rw [validate]
    refine (validate_decides base bs t s (by simpa [ZTy.WF] using hw) (by simpa [ZTy.LoadOk] using hok)
      (by simpa [ZTy.need] using ha) (by simpa [ZTy.size] using hl)).iff ?_
    simp only [IsValue, Mem, ZTy.size]
  | .wrapping t, s, hw, hok, ha, hl => by
    by_cases hb : t.anyBits = true
    · exact .of_true (anyBits_validate base bs _ s (by simpa [ZTy.anyBits] using hb))
        (anyBits_isValue _ _ hw (by simpa [ZTy.anyBits] using hb) (slice_length hl))
    rw [ZTy.need, if_neg hb] at ha
    rw [validate, alignWith_self _ _ _ ha]
    refine (validate_decides base bs t s (by simpa [ZTy.WF] using hw) (by simpa [ZTy.LoadOk] using hok)
      (mod_of_le ha (need_le_lg t)) (by simpa [ZTy.size] using hl)).iff ?_
    simp only [IsValue, Mem, ZTy.size]
  | .struct p a fs, s, hw, hok, ha, hl => by
    by_cases hb : fs.anyBits = true
    · exact .of_true (anyBits_validate base bs _ s (by simpa [ZTy.anyBits] using hb))
        (anyBits_isValue _ _ hw (by simpa [ZTy.anyBits] using hb) (slice_length hl))
    rw [ZTy.need, if_neg hb] at ha
    rw [ZTy.LoadOk] at hok
    have hok := hok.resolve_left hb
    rw [ZTy.WF] at hw
    have hf : fs.fin p 0 ≤ (ZTy.struct p a fs).size := by rw [ZTy.size]; exact le_roundUp _ _
    have h := validateFields_decides base bs fs p 0 s hw.1 hok ha (by omega)
    rw [validate]
    rw [Nat.add_zero, Nat.sub_zero] at h
    refine h.iff ?_
    have he : (ZTy.struct p a fs).size = fs.fin p 0 + ((ZTy.struct p a fs).size - fs.fin p 0) := by omega
    rw [he, slice_add]
    exact (isValue_struct hw.1 (slice_length (by omega)) (slice_length (by omega))).symm
  | .enum ts tl a vs, s, hw, hok, ha, hl => by
    rw [ZTy.WF] at hw
    rw [ZTy.LoadOk] at hok
    rw [ZTy.need] at ha
    have hf : vs.fin ts ≤ (ZTy.enum ts tl a vs).size := by rw [ZTy.size]; exact le_roundUp _ _
    have hts := le_vfin vs ts
    rw [validate]
    rw [alignWith_self _ _ _ (mod_of_le ha (by omega)), readRaw_ok (by omega)]
    have h := validateVariants_decides base bs vs ts (ZTy.enum ts tl a vs).size s hw.2.2 hw.2.1 hok
      (mod_of_le ha (by omega)) hf hl
    refine Decides.iff h ?_
    simp only [IsVariant, IsValue, Mem]
theorem validateFields_decides (base : Nat) (bs : Bytes) : ∀ (fs : ZFields) (p : Option Nat) (off s : Nat), fs.WF →
    fs.LoadOk p → (base + s) % 2 ^ fs.lg p = 0 → s + fs.fin p off ≤ bs.length →
    Decides (validateFields base bs fs p (s + off)) (IsFields fs p off (slice bs (s + off) (fs.fin p off - off)))
  | .nil, p, off, s, _, _, _, _ =>
    .of_true (by simp [validateFields]) ((isFields_nil _ _ _).2 (by simp [ZFields.fin, slice]))
  | .cons true t rest, p, off, s, hw, hok, ha, hl => by
    rw [ZFields.WF] at hw
    rw [ZFields.LoadOk] at hok
    rw [ZFields.lg] at ha
    have hz := hw.2.1 rfl
    have hs := zeroSized_size t hz
    have hr : roundUp off (capped p t.lg) + t.size = off := by rw [hok.1, roundUp_zero, hs]; rfl
    have hfin : (ZFields.cons true t rest).fin p off = rest.fin p off := by rw [ZFields.fin, hr]
    rw [hfin] at hl ⊢
    rw [validateFields]
    have h := validateFields_decides base bs rest p off s hw.2.2 hok.2 (mod_of_le ha (by omega)) hl
    refine h.iff ?_
    have := isFields_cons (i := true) (t := t) (r := rest) (p := p) (off := off) (g := []) (x := [])
      (y := slice bs (s + off) (rest.fin p off - off)) hw.1
      (by rw [hok.1, roundUp_zero]; simp) (by rw [hs]; rfl)
    rw [hr] at this
    simp only [List.nil_append] at this
    rw [this]
    exact ⟨fun h => ⟨⟨[], zeroSized_mem t hz, .nil⟩, h⟩, fun h => h.2⟩
  | .cons false t rest, p, off, s, hw, hok, ha, hl => by
    rw [ZFields.WF] at hw
    rw [ZFields.LoadOk] at hok
    rw [ZFields.lg] at ha
    rw [ZFields.fin] at hl ⊢
    have hc : (base + s) % 2 ^ capped p t.lg = 0 := mod_of_le ha (by omega)
    have h1 := le_roundUp off (capped p t.lg)
    have h2 := le_fin rest p (roundUp off (capped p t.lg) + t.size)
    rw [validateFields]
    rw [getD_eq_capped _ _ hok.2.1, alignWith_eq _ _ _ _ hc, Nat.add_assoc]
    have hv := validate_decides base bs t (s + roundUp off (capped p t.lg)) hw.1 hok.1
      (by
        rw [← Nat.add_assoc]
        exact add_mod_zero (mod_of_le hc hok.2.2.1) (mod_of_le (roundUp_mod _ _) hok.2.2.1))
      (by omega)
    have hr := validateFields_decides base bs rest p (roundUp off (capped p t.lg) + t.size) s hw.2.2 hok.2.2.2
      (mod_of_le ha (by omega)) hl
    refine (hv.bind hr).iff ?_
    have he : rest.fin p (roundUp off (capped p t.lg) + t.size) - off =
        (roundUp off (capped p t.lg) - off) + (t.size +
          (rest.fin p (roundUp off (capped p t.lg) + t.size) - (roundUp off (capped p t.lg) + t.size))) := by omega
    rw [he, slice_add, slice_add]
    have e1 : s + off + (roundUp off (capped p t.lg) - off) = s + roundUp off (capped p t.lg) := by omega
    rw [e1, Nat.add_assoc s]
    exact (isFields_cons hw.1 (slice_length (by omega)) (slice_length (by omega))).symm
theorem validateVariants_decides (base : Nat) (bs : Bytes) : ∀ (vs : ZVariants) (ts size s : Nat), vs.WF ts →
    vs.tags.Nodup → vs.LoadOk → (base + s) % 2 ^ vs.lg = 0 → vs.fin ts ≤ size → s + size ≤ bs.length →
    Decides (validateVariants base bs vs (slice bs s ts) (s + ts)) (IsVariant vs ts size (slice bs s size))
  | .nil, _, _, _, _, _, _, _, _, _ => .inr ⟨by simp [validateVariants], fun ⟨m, h, _⟩ => by simp [MemVariants] at h⟩
  | .cons tag fs rest, ts, size, s, hw, hd, hok, ha, hf, hl => by
    rw [ZVariants.WF] at hw
    rw [ZVariants.tags, List.nodup_cons] at hd
    rw [ZVariants.LoadOk] at hok
    rw [ZVariants.lg] at ha
    rw [ZVariants.fin] at hf
    have h1 := le_fin fs none ts
    have he : size = ts + ((fs.fin none ts - ts) + (size - fs.fin none ts)) := by omega
    have hs : slice bs s size = slice bs s ts ++ (slice bs (s + ts) (fs.fin none ts - ts) ++
        slice bs (s + fs.fin none ts) (size - fs.fin none ts)) := by
      rw [he, slice_add, slice_add]
      have : s + ts + (fs.fin none ts - ts) = s + fs.fin none ts := by omega
      rw [this, ← he]
    have hlt : (slice bs s ts).length = ts := slice_length (by omega)
    have hc := isVariant_cons (tag := tag) (fs := fs) (rest := rest) (size := size) hw.1 hw.2.1 hlt
      (slice_length (bs := bs) (off := s + ts) (n := fs.fin none ts - ts) (by omega))
      (slice_length (bs := bs) (off := s + fs.fin none ts) (n := size - fs.fin none ts) (by omega))
    rw [← hs] at hc
    rw [validateVariants]
    by_cases heq : slice bs s ts = tag
    · rw [if_pos heq]
      refine (validateFields_decides base bs fs none ts s hw.2.1 hok.1 (mod_of_le ha (by omega)) (by omega)).iff ?_
      rw [hc]
      constructor
      · exact fun h => .inl ⟨heq, h⟩
      · rintro (h | h)
        · exact h.2
        · rw [hs] at h
          exact absurd (heq ▸ isVariant_tag hw.2.2 hlt h) hd.1
    · rw [if_neg heq]
      refine (validateVariants_decides base bs rest ts size s hw.2.2 hd.2 hok.2 (mod_of_le ha (by omega))
        (by omega) hl).iff ?_
      rw [hc]
      exact ⟨.inr, fun h => h.resolve_left (fun h => heq h.1)⟩
end

end
end Musli.Zero
