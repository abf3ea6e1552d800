import Verif.Model.Zero.Layout
/-! Facts about layouts and memory. -/
set_option linter.unusedSectionVars false
namespace Musli.Zero
open Musli

theorem le_roundUp (n lg : Nat) : n ≤ roundUp n lg := by
  unfold roundUp
  have hp : 0 < 2 ^ lg := Nat.two_pow_pos lg
  generalize 2 ^ lg = p at *
  have h := Nat.div_add_mod (n + (p - 1)) p
  have h2 := Nat.mod_lt (n + (p - 1)) hp
  rw [Nat.mul_comm] at h
  omega

theorem roundUp_mod (n lg : Nat) : roundUp n lg % 2 ^ lg = 0 := by
  unfold roundUp; exact Nat.mul_mod_left _ _

theorem roundUp_zero (n : Nat) : roundUp n 0 = n := by simp [roundUp]

theorem roundUp_eq (n lg : Nat) (h : n % 2 ^ lg = 0) : roundUp n lg = n := by
  unfold roundUp
  have hp : 0 < 2 ^ lg := Nat.two_pow_pos lg
  generalize 2 ^ lg = p at *
  obtain ⟨k, rfl⟩ := Nat.dvd_of_mod_eq_zero h
  rw [Nat.mul_add_div hp, Nat.div_eq_of_lt (by omega), Nat.add_zero, Nat.mul_comm]

theorem roundUp_add (b n lg : Nat) (h : b % 2 ^ lg = 0) : roundUp (b + n) lg = b + roundUp n lg := by
  unfold roundUp
  have hp : 0 < 2 ^ lg := Nat.two_pow_pos lg
  generalize 2 ^ lg = p at *
  obtain ⟨k, rfl⟩ := Nat.dvd_of_mod_eq_zero h
  rw [Nat.add_assoc, Nat.mul_add_div hp, Nat.add_mul, Nat.mul_comm k p]

theorem roundUp_lt (n lg : Nat) : roundUp n lg < n + 2 ^ lg := by
  unfold roundUp
  have hp : 0 < 2 ^ lg := Nat.two_pow_pos lg
  generalize 2 ^ lg = p at *
  have h := Nat.div_add_mod (n + (p - 1)) p
  rw [Nat.mul_comm] at h
  omega

theorem roundUp_least (n m lg : Nat) (h : n ≤ m) (hm : m % 2 ^ lg = 0) : roundUp n lg ≤ m := by
  have h1 := roundUp_lt n lg
  have h2 := roundUp_mod n lg
  have hp : 0 < 2 ^ lg := Nat.two_pow_pos lg
  generalize 2 ^ lg = p at *
  obtain ⟨k, rfl⟩ := Nat.dvd_of_mod_eq_zero hm
  obtain ⟨j, hj⟩ := Nat.dvd_of_mod_eq_zero h2
  rw [hj] at h1 ⊢
  rcases Nat.lt_or_ge k j with hkj | hkj
  · have := Nat.mul_le_mul_left p hkj
    rw [Nat.mul_succ] at this; omega
  · exact Nat.mul_le_mul_left p hkj

theorem mod_of_le {a i j : Nat} (h : a % 2 ^ j = 0) (hij : i ≤ j) : a % 2 ^ i = 0 := by
  apply Nat.mod_eq_zero_of_dvd
  exact Nat.dvd_trans (Nat.pow_dvd_pow 2 hij) (Nat.dvd_of_mod_eq_zero h)

theorem alignWith_eq (base s off lg : Nat) (h : (base + s) % 2 ^ lg = 0) :
    alignWith base (s + off) lg = s + roundUp off lg := by
  unfold alignWith
  rw [← Nat.add_assoc, roundUp_add _ _ _ h]
  have := le_roundUp off lg
  omega

theorem alignWith_self (base s lg : Nat) (h : (base + s) % 2 ^ lg = 0) : alignWith base s lg = s := by
  have := alignWith_eq base s 0 lg h
  rw [Nat.add_zero, roundUp_eq 0 lg (Nat.zero_mod _), Nat.add_zero] at this
  exact this

theorem isAligned_iff (addr lg : Nat) : isAligned addr lg = true ↔ addr % 2 ^ lg = 0 := by
  unfold isAligned
  rw [Nat.and_two_pow_sub_one_eq_mod, beq_iff_eq]

theorem paddingTo_eq (n lg : Nat) : paddingTo n (2 ^ lg) = roundUp n lg - n := by
  unfold paddingTo
  rw [Nat.and_two_pow_sub_one_eq_mod, Nat.and_two_pow_sub_one_eq_mod]
  have hp : 0 < 2 ^ lg := Nat.two_pow_pos lg
  have h1 := roundUp_lt n lg
  have h0 := le_roundUp n lg
  have h2 := roundUp_mod n lg
  generalize 2 ^ lg = p at *
  obtain ⟨j, hj⟩ := Nat.dvd_of_mod_eq_zero h2
  have hd := Nat.div_add_mod n p
  have hm := Nat.mod_lt n hp
  rcases Nat.eq_zero_or_pos (n % p) with h | h
  · have := roundUp_least n n lg
    have : roundUp n lg = n := by
      rw [hj] at h1 h0 ⊢
      obtain ⟨k, rfl⟩ := Nat.dvd_of_mod_eq_zero h
      have : j = k := by
        rcases Nat.lt_trichotomy j k with hh | hh | hh
        · have := Nat.mul_le_mul_left p hh; rw [Nat.mul_succ] at this; omega
        · exact hh
        · have := Nat.mul_le_mul_left p hh; rw [Nat.mul_succ] at this; omega
      rw [this]
    rw [this, h]; simp
  · rw [Nat.mod_eq_of_lt (by omega)]
    rw [hj] at h1 h0 ⊢
    have : j = n / p + 1 := by
      rcases Nat.lt_trichotomy j (n / p + 1) with hh | hh | hh
      · have := Nat.mul_le_mul_left p (Nat.le_of_lt_succ hh); omega
      · exact hh
      · have := Nat.mul_le_mul_left p hh; rw [Nat.mul_succ, Nat.mul_succ] at this; omega
    rw [this, Nat.mul_succ]
    omega

theorem capped_le (p : Option Nat) (lg : Nat) : capped p lg ≤ lg := by
  cases p <;> simp [capped]; omega

theorem getD_eq_capped (p : Option Nat) (lg : Nat) (h : ∀ k, p = some k → k ≤ lg) : p.getD lg = capped p lg := by
  cases p with
  | none => rfl
  | some k => have := h k rfl; simp [capped]; omega

/-! ## Sizes -/

theorem le_fin : ∀ (fs : ZFields) (p : Option Nat) (off : Nat), off ≤ fs.fin p off
  | .nil, _, off => by simp [ZFields.fin]
  | .cons _ t rest, p, off => by
    rw [ZFields.fin]
    have := le_fin rest p (roundUp off (capped p t.lg) + t.size)
    have := le_roundUp off (capped p t.lg)
    omega

theorem le_vfin : ∀ (vs : ZVariants) (n : Nat), n ≤ vs.fin n
  | .nil, n => by simp [ZVariants.fin]
  | .cons _ fs rest, n => by
    rw [ZVariants.fin]
    have := le_vfin rest n
    omega

theorem size_mod : ∀ (t : ZTy), t.WF → t.size % 2 ^ t.lg = 0
  | .num _ _, h => by simpa [ZTy.size, ZTy.lg, ZTy.WF] using h
  | .bool, _ => by simp [ZTy.size, ZTy.lg]
  | .char, _ => by simp [ZTy.size, ZTy.lg]
  | .nonzero _ _, h => by simpa [ZTy.size, ZTy.lg, ZTy.WF] using h
  | .zst, _ => by simp [ZTy.size]
  | .array t n, h => by
    have := size_mod t (by simpa [ZTy.WF] using h)
    simp only [ZTy.size, ZTy.lg]
    rw [Nat.mul_mod, this]; simp
  | .struct p a fs, _ => by simp only [ZTy.size, ZTy.lg]; exact roundUp_mod _ _
  | .transparent t, h => by simpa [ZTy.size, ZTy.lg] using size_mod t (by simpa [ZTy.WF] using h)
  | .wrapping t, h => by simpa [ZTy.size, ZTy.lg] using size_mod t (by simpa [ZTy.WF] using h)
  | .enum _ _ _ _, _ => by simp only [ZTy.size, ZTy.lg]; exact roundUp_mod _ _

mutual
theorem zeroSized_size : ∀ (t : ZTy), t.zeroSized = true → t.size = 0
  | .zst, _ => by simp [ZTy.size]
  | .array t n, h => by
    have : n = 0 := by simpa [ZTy.zeroSized] using h
    simp [ZTy.size, this]
  | .struct p a fs, h => by
    have := zeroSized_fin fs p (by simpa [ZTy.zeroSized] using h)
    simp only [ZTy.size, this]
    exact roundUp_eq _ _ (Nat.zero_mod _)
  | .transparent t, h => by simpa [ZTy.size] using zeroSized_size t (by simpa [ZTy.zeroSized] using h)
  | .wrapping t, h => by simpa [ZTy.size] using zeroSized_size t (by simpa [ZTy.zeroSized] using h)
  | .num _ _, h => by simp [ZTy.zeroSized] at h
  | .bool, h => by simp [ZTy.zeroSized] at h
  | .char, h => by simp [ZTy.zeroSized] at h
  | .nonzero _ _, h => by simp [ZTy.zeroSized] at h
  | .enum _ _ _ _, h => by simp [ZTy.zeroSized] at h
theorem zeroSized_fin : ∀ (fs : ZFields) (p : Option Nat), fs.zeroSized = true → fs.fin p 0 = 0
  | .nil, _, _ => by simp [ZFields.fin]
  | .cons _ t rest, p, h => by
    simp only [ZFields.zeroSized, Bool.and_eq_true] at h
    rw [ZFields.fin, zeroSized_size t h.1, roundUp_eq 0 _ (Nat.zero_mod _)]
    exact zeroSized_fin rest p h.2
end

section
variable [Host]

mutual
theorem zeroSized_mem : ∀ (t : ZTy), t.zeroSized = true → Mem t []
  | .zst, _ => by simp [Mem]
  | .array t n, h => by
    have : n = 0 := by simpa [ZTy.zeroSized] using h
    subst this
    simp only [Mem]; exact ⟨[], rfl, rfl, by simp⟩
  | .struct p a fs, h => by
    have h' : fs.zeroSized = true := by simpa [ZTy.zeroSized] using h
    simp only [Mem]
    refine ⟨[], ?_, zeroSized_memFields fs p h'⟩
    rw [zeroSized_size _ h, gap, Nat.zero_sub]; rfl
  | .transparent t, h => by simpa [Mem] using zeroSized_mem t (by simpa [ZTy.zeroSized] using h)
  | .wrapping t, h => by simpa [Mem] using zeroSized_mem t (by simpa [ZTy.zeroSized] using h)
  | .num _ _, h => by simp [ZTy.zeroSized] at h
  | .bool, h => by simp [ZTy.zeroSized] at h
  | .char, h => by simp [ZTy.zeroSized] at h
  | .nonzero _ _, h => by simp [ZTy.zeroSized] at h
  | .enum _ _ _ _, h => by simp [ZTy.zeroSized] at h
theorem zeroSized_memFields : ∀ (fs : ZFields) (p : Option Nat), fs.zeroSized = true → MemFields fs p 0 []
  | .nil, _, _ => by simp [MemFields]
  | .cons _ t rest, p, h => by
    simp only [ZFields.zeroSized, Bool.and_eq_true] at h
    rw [MemFields]
    refine ⟨[], [], ?_, zeroSized_mem t h.1, ?_⟩
    · rw [roundUp_eq 0 _ (Nat.zero_mod _)]; rfl
    · rw [zeroSized_size t h.1, roundUp_eq 0 _ (Nat.zero_mod _)]
      exact zeroSized_memFields rest p h.2
end

theorem flatten_length (n : Nat) : ∀ (parts : List Memory), (∀ p ∈ parts, p.length = n) →
    parts.flatten.length = parts.length * n
  | [], _ => by simp
  | p :: ps, h => by
    rw [List.flatten_cons, List.length_append, flatten_length n ps (fun q hq => h q (by simp [hq])),
      h p (by simp), List.length_cons, Nat.succ_mul]
    omega

mutual
/-- The memory of a value has the size of the type. -/
theorem mem_length : ∀ (t : ZTy) (m : Memory), t.WF → Mem t m → m.length = t.size
  | .num _ _, m, _, h => by
    simp only [Mem] at h; obtain ⟨bs, rfl, h⟩ := h; simp [ZTy.size, h]
  | .bool, m, _, h => by
    simp only [Mem] at h; rcases h with rfl | rfl <;> simp [ZTy.size]
  | .char, m, _, h => by
    simp only [Mem] at h; obtain ⟨bs, rfl, h, _⟩ := h; simp [ZTy.size, h]
  | .nonzero _ _, m, _, h => by
    simp only [Mem] at h; obtain ⟨bs, rfl, h, _⟩ := h; simp [ZTy.size, h]
  | .zst, m, _, h => by
    simp only [Mem] at h; simp [ZTy.size, h]
  | .array t n, m, hw, h => by
    simp only [Mem] at h; obtain ⟨parts, rfl, hn, h⟩ := h
    simp only [ZTy.WF] at hw
    rw [flatten_length t.size parts (fun p hp => mem_length t p hw (h p hp)), ZTy.size, hn]
  | .struct p a fs, m, hw, h => by
    simp only [Mem] at h; obtain ⟨mf, rfl, h⟩ := h
    rw [ZTy.WF] at hw
    have := memFields_length fs p 0 mf hw.1 h
    have := le_roundUp (fs.fin p 0) (max a (fs.lg p))
    rw [List.length_append, gap, List.length_replicate, ZTy.size]
    omega
  | .transparent t, m, hw, h => by
    simp only [Mem] at h; rw [ZTy.size]; exact mem_length t m (by simpa [ZTy.WF] using hw) h
  | .wrapping t, m, hw, h => by
    simp only [Mem] at h; rw [ZTy.size]; exact mem_length t m (by simpa [ZTy.WF] using hw) h
  | .enum ts tl a vs, m, hw, h => by
    have hw : ts % 2 ^ tl = 0 ∧ vs.tags.Nodup ∧ vs.WF ts := by simpa [ZTy.WF] using hw
    rw [Mem] at h
    refine memVariants_length vs ts _ m hw.2.2 ?_ h
    rw [ZTy.size]; exact le_roundUp _ _
theorem memFields_length : ∀ (fs : ZFields) (p : Option Nat) (off : Nat) (m : Memory), fs.WF →
    MemFields fs p off m → m.length + off = fs.fin p off
  | .nil, _, _, m, _, h => by simp only [MemFields] at h; simp [h, ZFields.fin]
  | .cons _ t rest, p, off, m, hw, h => by
    rw [MemFields] at h
    rw [ZFields.WF] at hw
    obtain ⟨mt, mr, rfl, h1, h2⟩ := h
    have h1 := mem_length t mt hw.1 h1
    have h2 := memFields_length rest p _ mr hw.2.2 h2
    have := le_roundUp off (capped p t.lg)
    rw [ZFields.fin, ← h2]
    simp only [List.length_append, gap, List.length_replicate]
    omega
theorem memVariants_length : ∀ (vs : ZVariants) (ts size : Nat) (m : Memory), vs.WF ts → vs.fin ts ≤ size →
    MemVariants vs ts size m → m.length = size
  | .nil, _, _, m, _, _, h => by simp [MemVariants] at h
  | .cons tag fs rest, ts, size, m, hw, hs, h => by
    rw [ZVariants.WF] at hw
    rw [MemVariants] at h
    rw [ZVariants.fin] at hs
    rcases h with ⟨mf, rfl, h⟩ | h
    · have := memFields_length fs none ts mf hw.2.1 h
      have := le_fin fs none ts
      simp only [List.length_append, gap, List.length_replicate, List.length_map, hw.1]
      omega
    · exact memVariants_length rest ts size m hw.2.2 (by omega) h
end

/-! ## Contents -/

omit [Host] in
theorem agree_length {m : Memory} {bs : Bytes} (h : Agree m bs) : m.length = bs.length := by
  induction h <;> simp_all

omit [Host] in
theorem agree_map {bs bs' : Bytes} : Agree (bs.map some) bs' ↔ bs' = bs := by
  induction bs generalizing bs' with
  | nil => constructor
           · intro h; cases h; rfl
           · rintro rfl; exact .nil
  | cons b bs ih =>
    constructor
    · intro h; cases h with | byte _ h => rw [ih.1 h]
    · rintro rfl; exact .byte _ (ih.2 rfl)

omit [Host] in
theorem agree_gap {n : Nat} {bs : Bytes} : Agree (gap n) bs ↔ bs.length = n := by
  unfold gap
  induction n generalizing bs with
  | zero => constructor
            · intro h; cases h; rfl
            · intro h; rw [List.length_eq_zero_iff.1 h]; exact .nil
  | succ n ih =>
    rw [List.replicate_succ]
    constructor
    · intro h; cases h with | pad _ h => simp [ih.1 h]
    · intro h
      cases bs with
      | nil => simp at h
      | cons b bs => exact .pad _ (ih.2 (by simpa using h))

omit [Host] in
theorem agree_append {a b : Memory} {x y : Bytes} (hl : a.length = x.length) :
    Agree (a ++ b) (x ++ y) ↔ Agree a x ∧ Agree b y := by
  induction a generalizing x with
  | nil =>
    have : x = [] := by cases x <;> simp_all
    subst this
    exact ⟨fun h => ⟨.nil, h⟩, fun h => h.2⟩
  | cons o a ih =>
    cases x with
    | nil => simp at hl
    | cons c x =>
      simp only [List.cons_append]
      have ih := ih (x := x) (by simpa using hl)
      constructor
      · intro h
        cases h with
        | pad _ h => exact ⟨.pad _ (ih.1 h).1, (ih.1 h).2⟩
        | byte _ h => exact ⟨.byte _ (ih.1 h).1, (ih.1 h).2⟩
      · rintro ⟨h1, h2⟩
        cases h1 with
        | pad _ h => exact .pad _ (ih.2 ⟨h, h2⟩)
        | byte _ h => exact .byte _ (ih.2 ⟨h, h2⟩)

/-- Some bytes of a slice. -/
def slice (bs : Bytes) (off n : Nat) : Bytes := (bs.drop off).take n

omit [Host] in
theorem slice_length {bs : Bytes} {off n : Nat} (h : off + n ≤ bs.length) : (slice bs off n).length = n := by
  simp [slice]; omega

omit [Host] in
theorem slice_add (bs : Bytes) (off n k : Nat) : slice bs off (n + k) = slice bs off n ++ slice bs (off + n) k := by
  simp only [slice]
  rw [← List.drop_drop, List.take_add]

omit [Host] in
theorem readRaw_ok {bs : Bytes} {off n : Nat} (h : off + n ≤ bs.length) : readRaw bs off n = .ok (slice bs off n) := by
  simp [readRaw, h, slice]

end
end Musli.Zero
