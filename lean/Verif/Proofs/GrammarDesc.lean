import Verif.Proofs.GrammarSkip
/-!
# What the decoders accept: the descriptive format
-/
set_option linter.unusedSectionVars false
namespace Musli.Grammar
open Musli Musli.Spec

section
variable [Host] (o : Options)

namespace Desc

/-! ### Tags -/

theorem tag_cases (t : Byte) : (Desc.data t = none ∧ t = Desc.kind t + 31#8) ∨
    ∃ d, Desc.data t = some d ∧ d.toNat < 31 ∧ t = Desc.kind t + d := by
  have key : ∀ t : Byte, Desc.data t = none ∧ t = Desc.kind t + 31#8 ∨
      (Desc.data t = some (t &&& 31#8) ∧ (t &&& 31#8).toNat < 31 ∧ t = Desc.kind t + (t &&& 31#8)) := by
    decide
  rcases key t with ⟨h1, h2⟩ | ⟨h1, h2, h3⟩
  · exact .inl ⟨h1, h2⟩
  · exact .inr ⟨_, h1, h2, h3⟩

theorem tag_byte : ∀ k ∈ [0x60, 0x80, 0xA0, 0xC0], ∀ n, n < 31 →
    Desc.kind (byte (k + n)) = byte k ∧ Desc.data (byte (k + n)) = some (byte n) := by
  intro k hk n hn
  have key : ∀ n : Fin 31, ∀ k ∈ [0x60, 0x80, 0xA0, 0xC0],
      Desc.kind (byte (k + n)) = byte k ∧ Desc.data (byte (k + n)) = some (byte n) := by decide
  exact key ⟨n, hn⟩ k hk

theorem tag_full : ∀ k ∈ [0x60, 0x80, 0xA0, 0xC0],
    Desc.kind (byte (k + 31)) = byte k ∧ Desc.data (byte (k + 31)) = none := by decide

/-- A tag and its number. -/
theorem tag_iff {k : Nat} (hk : k ∈ [0x60, 0x80, 0xA0, 0xC0]) (n : Nat) (t : Byte) (l : Bytes) :
    (Desc.kind t = byte k ∧ (match Desc.data t with
      | some d => n = d.toNat ∧ l = []
      | none => Len o n l)) ↔ Tag o k n (t :: l) := by
  constructor
  · rintro ⟨h1, h2⟩
    rcases tag_cases t with ⟨h3, h4⟩ | ⟨d, h3, h4, h5⟩
    · rw [h3] at h2
      refine .inr ⟨l, h2, ?_⟩
      rw [h4, h1]
      simp [byte, BitVec.ofNat_add]
    · rw [h3] at h2
      obtain ⟨rfl, rfl⟩ := h2
      refine .inl ⟨h4, ?_⟩
      rw [h5, h1]
      simp [byte, BitVec.ofNat_add]
  · rintro (⟨h1, h⟩ | ⟨l', h1, h⟩)
    · obtain ⟨h2, h3⟩ := tag_byte k hk n h1
      cases h
      refine ⟨h2, ?_⟩
      rw [h3]
      refine ⟨?_, rfl⟩
      simp [byte]; omega
    · obtain ⟨h2, h3⟩ := tag_full k hk
      cases h
      refine ⟨h2, ?_⟩
      rw [h3]; exact h1

theorem tag_ne_nil {k n : Nat} {s : Bytes} (h : Tag o k n s) : ∃ t l, s = t :: l := by
  rcases h with ⟨_, rfl⟩ | ⟨_, _, rfl⟩ <;> exact ⟨_, _, rfl⟩

theorem reads_tagLen' (t : Byte) : Reads (Desc.tagLen o t) fun n s _ => match Desc.data t with
      | some d => n = d.toNat ∧ s = []
      | none => Len o n s := by
  unfold Desc.tagLen
  cases Desc.data t with
  | some d => exact reads_pure _
  | none => exact reads_len o

theorem reads_tag {k : Nat} (hk : k ∈ [0x60, 0x80, 0xA0, 0xC0]) :
    Reads (Desc.decTagLen o (byte k)) fun n s _ => Tag o k n s := by
  have h := reads_byteThen (f := fun t => if Desc.kind t = byte k then Desc.tagLen o t
    else Dec.fail .invalid) fun t => reads_guard (fun _ => reads_tagLen' o t)
  refine h.congr fun n s r => ?_
  constructor
  · rintro ⟨t, l, rfl, h⟩
    exact (tag_iff o hk n t l).mp h
  · intro h
    obtain ⟨t, l, rfl⟩ := tag_ne_nil o h
    exact ⟨t, l, rfl, (tag_iff o hk n t l).mpr h⟩

/-! ### Skipping -/

/-- What `step` reads. -/
def Header (k : Nat) (s : Bytes) : Prop :=
  (k = 0 ∧ ∃ t n l, VarNum 128 n l ∧ 0x40 ≤ t ∧ t < 0x60 ∧ s = byte t :: l) ∨
  (k = 0 ∧ ∃ j n h b, (j = 0xA0 ∨ j = 0xC0) ∧ Tag o j n h ∧ b.length = n ∧ s = h ++ b) ∨
  Tag o 0x60 k s ∨ (∃ n, k = 2 * n ∧ Tag o 0x80 n s) ∨
  (∃ t, 0xE0 ≤ t ∧ t < 0x100 ∧ ((k = 2 ∧ t % 8 = 4 ∧ s = [byte t]) ∨ (k = 1 ∧ t % 8 = 1 ∧ s = [byte t]) ∨
    (k = 0 ∧ t % 8 = 5 ∧ ∃ n l, VarNum 32 n l ∧ s = byte t :: l) ∨
    (k = 0 ∧ t % 8 ∉ [1, 4, 5] ∧ s = [byte t])))

theorem tree_iff (s : Bytes) : Tree (Header o) s ↔ Item o s := by
  constructor
  · intro h
    induction h with
    | @mk a items h1 _ ih =>
      have nil : items.length = 0 → items = [] := List.length_eq_zero_iff.mp
      rcases h1 with ⟨h0, t, n, l, h1, h2, h3, rfl⟩ | ⟨h0, j, n, h, b, hj, h1, h2, rfl⟩ | h1 | ⟨n, h0, h1⟩ |
        ⟨t, ht, ht', ⟨h0, h1, rfl⟩ | ⟨h0, h1, rfl⟩ | ⟨h0, h1, n, l, h2, rfl⟩ | ⟨h0, h1, rfl⟩⟩
      · rw [nil h0]; simpa using Item.number h1 h2 h3
      · rw [nil h0]; simpa using Item.bytes hj h1 h2
      · exact .seq h1 rfl ih
      · exact .map h1 h0 ih
      · match items, h0, ih with
        | [x, y], _, ih => simpa using Item.variant ht ht' h1 (ih x (by simp)) (ih y (by simp))
      · match items, h0, ih with
        | [x], _, ih => simpa using Item.some ht ht' h1 (ih x (by simp))
      · rw [nil h0]; simpa using Item.char ht ht' h1 h2
      · rw [nil h0]; exact Item.mark ht ht' h1
  · intro h
    have leaf : ∀ {s : Bytes}, Header o 0 s → Tree (Header o) s := fun h => by
      simpa using Tree.mk (S := Header o) (items := []) h (by simp)
    induction h with
    | number h1 h2 h3 => exact leaf (.inl ⟨rfl, _, _, _, h1, h2, h3, rfl⟩)
    | bytes hj h1 h2 => exact leaf (.inr (.inl ⟨rfl, _, _, _, _, hj, h1, h2, rfl⟩))
    | seq h1 h2 _ ih => exact .mk (.inr (.inr (.inl (by rw [h2]; exact h1)))) ih
    | map h1 h2 _ ih => exact .mk (.inr (.inr (.inr (.inl ⟨_, h2, h1⟩)))) ih
    | @variant t a b h1 h2 h3 _ _ ih1 ih2 =>
      have := Tree.mk (S := Header o) (a := [byte t]) (items := [a, b])
        (.inr (.inr (.inr (.inr ⟨t, h1, h2, .inl ⟨rfl, h3, rfl⟩⟩)))) (by
          intro x hx
          simp only [List.mem_cons, List.not_mem_nil, or_false] at hx
          rcases hx with rfl | rfl
          · exact ih1
          · exact ih2)
      simpa using this
    | @some t a h1 h2 h3 _ ih =>
      have := Tree.mk (S := Header o) (a := [byte t]) (items := [a])
        (.inr (.inr (.inr (.inr ⟨t, h1, h2, .inr (.inl ⟨rfl, h3, rfl⟩)⟩)))) (by simpa using ih)
      simpa using this
    | char h1 h2 h3 h4 =>
      exact leaf (.inr (.inr (.inr (.inr ⟨_, h1, h2, .inr (.inr (.inl ⟨rfl, h3, _, _, h4, rfl⟩))⟩))))
    | mark h1 h2 h3 =>
      exact leaf (.inr (.inr (.inr (.inr ⟨_, h1, h2, .inr (.inr (.inr ⟨rfl, h3, rfl⟩))⟩))))

theorem number_iff (t : Byte) : Desc.kind t = Desc.NUMBER ↔ 0x40 ≤ t.toNat ∧ t.toNat < 0x60 := by
  revert t; decide

theorem mark_iff (t : Byte) : Desc.kind t = Desc.MARK ↔ 0xE0 ≤ t.toNat := by
  revert t; decide

theorem mark_mod (t : Byte) : (Desc.mark t = Desc.mVariant ↔ t.toNat % 8 = 4) ∧
    (Desc.mark t = Desc.mSome ↔ t.toNat % 8 = 1) ∧ (Desc.mark t = Desc.mChar ↔ t.toNat % 8 = 5) := by
  revert t; decide

theorem byte_eq (t : Byte) : byte t.toNat = t := by simp [byte]

theorem byte_lt {t : Nat} (h : t < 0x100) : (byte t).toNat = t := by simp [byte]; omega

/-- A number which is thrown away. -/
theorem reads_varint0 {w : Nat} (hw : 8 ≤ w) :
    Reads (Varint.decode w >>= fun _ => (pure 0 : Dec Nat)) fun k s _ => k = 0 ∧ ∃ n, VarNum w n s := by
  refine (reads_map (fun _ => 0) (reads_varint hw)).congr fun v s r => ?_
  constructor
  · rintro ⟨a, h, rfl⟩; exact ⟨rfl, _, h⟩
  · rintro ⟨rfl, n, h⟩
    have : n < 2 ^ w := by rw [← h.2.2]; exact Nat.mod_lt _ (Nat.two_pow_pos w)
    exact ⟨BitVec.ofNat w n, by rw [BitVec.toNat_ofNat, Nat.mod_eq_of_lt this]; exact h, rfl⟩

theorem reads_step : Reads (Desc.step o) fun k => plain (Header o k) := by
  have h := reads_byteThen fun t => reads_ite (p := Desc.kind t = Desc.NUMBER)
    (fun _ => reads_varint0 (w := 128) (by omega))
    (fun _ => reads_ite (p := Desc.kind t = Desc.MARK)
      (fun _ => reads_ite (p := Desc.mark t = Desc.mVariant) (fun _ => reads_pure 2)
        fun _ => reads_ite (p := Desc.mark t = Desc.mSome) (fun _ => reads_pure 1)
        fun _ => reads_ite (p := Desc.mark t = Desc.mChar) (fun _ => reads_varint0 (w := 32) (by omega))
        fun _ => reads_pure 0)
      (fun _ => reads_ite (p := Desc.kind t = Desc.BYTES ∨ Desc.kind t = Desc.STRING)
        (fun _ => reads_bind (reads_tagLen' o t) fun n => reads_bind (reads_skip n) fun _ => reads_pure 0)
        (fun _ => reads_ite (p := Desc.kind t = Desc.SEQUENCE) (fun _ => reads_tagLen' o t)
          fun _ => reads_guard (p := Desc.kind t = Desc.MAP) (e := .invalid)
            (fun _ => reads_map (· * 2) (reads_tagLen' o t)))))
  refine h.congr fun k s r => ?_
  clear h
  constructor
  · rintro ⟨t, l, rfl, ⟨h1, rfl, n, h2⟩ | ⟨h1, ⟨h2, h3⟩ | ⟨h2, ⟨h3, n, x, y, rfl, h4, _, z, u, rfl, h5, rfl, rfl⟩ |
      ⟨h3, ⟨h4, h5⟩ | ⟨h4, h5, n, h6, rfl⟩⟩⟩⟩⟩
    · have := (number_iff t).mp h1
      exact .inl ⟨rfl, t.toNat, n, l, h2, this.1, this.2, by rw [byte_eq]⟩
    · have hm := mark_mod t
      refine .inr (.inr (.inr (.inr ⟨t.toNat, (mark_iff t).mp h2, t.isLt, ?_⟩)))
      rw [byte_eq]
      rcases h3 with ⟨h3, rfl, rfl⟩ | ⟨h3, ⟨h4, rfl, rfl⟩ | ⟨h4, ⟨h5, rfl, n, h6⟩ | ⟨h5, rfl, rfl⟩⟩⟩
      · exact .inl ⟨rfl, hm.1.mp h3, rfl⟩
      · exact .inr (.inl ⟨rfl, hm.2.1.mp h4, rfl⟩)
      · exact .inr (.inr (.inl ⟨rfl, hm.2.2.mp h5, n, l, h6, rfl⟩))
      · refine .inr (.inr (.inr ⟨rfl, ?_, rfl⟩))
        rw [hm.1] at h3; rw [hm.2.1] at h4; rw [hm.2.2] at h5
        simp [h3, h4, h5]
    · refine .inr (.inl ⟨rfl, ?_⟩)
      rcases h3 with h3 | h3
      · exact ⟨0xA0, n, t :: x, z, .inl rfl, (tag_iff o (by simp) n t x).mp ⟨h3, h4⟩, h5, by simp⟩
      · exact ⟨0xC0, n, t :: x, z, .inr rfl, (tag_iff o (by simp) n t x).mp ⟨h3, h4⟩, h5, by simp⟩
    · exact .inr (.inr (.inl ((tag_iff o (by simp) k t l).mp ⟨h4, h5⟩)))
    · exact .inr (.inr (.inr (.inl ⟨n, Nat.mul_comm _ _, (tag_iff o (by simp) n t l).mp ⟨h5, h6⟩⟩)))
  · rintro (⟨rfl, t, n, l, h1, h2, h3, rfl⟩ | ⟨rfl, j, n, h, b, hj, h1, h2, rfl⟩ | h1 | ⟨n, rfl, h1⟩ |
        ⟨t, ht, ht', hs⟩)
    · refine ⟨_, l, rfl, .inl ⟨?_, rfl, n, h1⟩⟩
      rw [number_iff, byte_lt (by omega)]; exact ⟨h2, h3⟩
    · obtain ⟨t, x, rfl⟩ := tag_ne_nil o h1
      obtain ⟨h3, h4⟩ := (tag_iff o (k := j) (by rcases hj with rfl | rfl <;> simp) n t x).mpr h1
      refine ⟨t, x ++ b, rfl, .inr ⟨?_, .inr ⟨?_, .inl ⟨?_, n, x, b, rfl, h4, (), b, [], by simp, h2, rfl, rfl⟩⟩⟩⟩
      all_goals rcases hj with rfl | rfl <;> rw [h3] <;> decide
    · obtain ⟨t, x, rfl⟩ := tag_ne_nil o h1
      obtain ⟨h3, h4⟩ := (tag_iff o (k := 0x60) (by simp) k t x).mpr h1
      exact ⟨t, x, rfl, .inr ⟨by rw [h3]; decide, .inr ⟨by rw [h3]; decide,
        .inr ⟨by rw [h3]; decide, .inl ⟨h3, h4⟩⟩⟩⟩⟩
    · obtain ⟨t, x, rfl⟩ := tag_ne_nil o h1
      obtain ⟨h3, h4⟩ := (tag_iff o (k := 0x80) (by simp) n t x).mpr h1
      exact ⟨t, x, rfl, .inr ⟨by rw [h3]; decide, .inr ⟨by rw [h3]; decide,
        .inr ⟨by rw [h3]; decide, .inr ⟨by rw [h3]; decide, h3, n, h4, Nat.mul_comm _ _⟩⟩⟩⟩⟩
    · have hm := mark_mod (byte t)
      rw [byte_lt ht'] at hm
      have h1 : Desc.kind (byte t) = Desc.MARK := by rw [mark_iff, byte_lt ht']; exact ht
      have h0 : Desc.kind (byte t) ≠ Desc.NUMBER := by rw [h1]; decide
      rcases hs with ⟨rfl, h2, rfl⟩ | ⟨rfl, h2, rfl⟩ | ⟨rfl, h2, n, l, h3, rfl⟩ | ⟨rfl, h2, rfl⟩
      · exact ⟨_, [], rfl, .inr ⟨h0, .inl ⟨h1, .inl ⟨hm.1.mpr h2, rfl, rfl⟩⟩⟩⟩
      · exact ⟨_, [], rfl, .inr ⟨h0, .inl ⟨h1, .inr ⟨by rw [hm.1]; omega, .inl ⟨hm.2.1.mpr h2, rfl, rfl⟩⟩⟩⟩⟩
      · exact ⟨_, l, rfl, .inr ⟨h0, .inl ⟨h1, .inr ⟨by rw [hm.1]; omega, .inr ⟨by rw [hm.2.1]; omega,
          .inl ⟨hm.2.2.mpr h2, rfl, n, h3⟩⟩⟩⟩⟩⟩
      · simp only [List.mem_cons, List.not_mem_nil, or_false, not_or] at h2
        exact ⟨_, [], rfl, .inr ⟨h0, .inl ⟨h1, .inr ⟨by rw [hm.1]; omega, .inr ⟨by rw [hm.2.1]; omega,
          .inr ⟨by rw [hm.2.2]; omega, rfl, rfl⟩⟩⟩⟩⟩⟩

theorem reads_skip : Reads (Desc.skip o) fun _ => plain (Item o) :=
  (reads_skipAny (reads_step o) (Desc.consumes_step o)).congr fun _ s _ => tree_iff o s

/-! ### Values -/

theorem numberKind_eq (t : Byte) : Desc.numberKind t = match t.toNat % 4 with
    | 0 => .signed | 1 => .unsigned | 2 => .float | _ => .reserved := by
  revert t; decide

theorem reads_typed {w : Nat} (hw : 8 ≤ w) : Reads (Desc.decTyped w) fun v s _ =>
    ∃ t l, VarNum w v.1.toNat l ∧ 0x40 ≤ t ∧ t < 0x60 ∧ s = byte t :: l ∧ v.2 = match t % 4 with
      | 0 => .signed | 1 => .unsigned | 2 => .float | _ => .reserved := by
  refine (reads_byteThen fun t => reads_guard fun _ => reads_map _ (reads_varint hw)).congr fun v s r => ?_
  constructor
  · rintro ⟨t, l, rfl, h1, n, h2, rfl⟩
    have := (number_iff t).mp h1
    exact ⟨t.toNat, l, h2, this.1, this.2, by rw [byte_eq], numberKind_eq t⟩
  · rintro ⟨t, l, h1, h2, h3, rfl, h4⟩
    refine ⟨byte t, l, rfl, ?_, v.1, h1, ?_⟩
    · rw [number_iff, byte_lt (by omega)]; exact ⟨h2, h3⟩
    · rw [numberKind_eq, byte_lt (by omega), ← h4]

theorem even_of_nonneg {w : Nat} (hw : 1 ≤ w) (x v : BitVec w) :
    ((ZigZag.decode x).msb = false ∧ v = ZigZag.decode x) ↔ x.toNat = 2 * v.toNat := by
  have hp := ZigZag.pow_pred hw
  have hx := x.isLt
  have hv := v.isLt
  have hd := ZigZag.decode_toNat hw x
  rw [BitVec.msb_eq_false_iff_two_mul_lt]
  constructor
  · rintro ⟨h1, rfl⟩
    rw [hd] at h1 ⊢
    split at h1 <;> split <;> omega
  · intro h
    rw [if_pos (by omega)] at hd
    exact ⟨by rw [hd]; omega, BitVec.eq_of_toNat_eq (by rw [hd]; omega)⟩

theorem nonneg_of_msb {w : Nat} (x v : BitVec w) :
    (x.msb = false ∧ v = x) ↔ (0 ≤ v.toInt ∧ x.toNat = v.toInt.toNat) := by
  have hx := x.isLt
  have hv := v.isLt
  rw [BitVec.msb_eq_false_iff_two_mul_lt]
  constructor
  · rintro ⟨h1, rfl⟩
    rw [BitVec.toInt_eq_toNat_cond, if_pos h1]
    omega
  · rw [BitVec.toInt_eq_toNat_cond]
    split
    · rintro ⟨_, h⟩
      have : x.toNat = v.toNat := by omega
      exact ⟨by omega, BitVec.eq_of_toNat_eq this.symm⟩
    · rintro ⟨h, _⟩; omega

theorem mod_of_kind {t : Nat} : (∀ k, k = (match t % 4 with
      | 0 => Desc.NumberKind.signed | 1 => .unsigned | 2 => .float | _ => .reserved) →
    (k = .signed → t % 4 = 0) ∧ (k = .unsigned → t % 4 = 1) ∧ (k = .float → t % 4 = 2)) := by
  intro k hk
  have h4 : t % 4 < 4 := Nat.mod_lt _ (by omega)
  generalize t % 4 = m at hk h4 ⊢
  match m, h4 with
  | 0, _ => subst hk; simp
  | 1, _ => subst hk; simp
  | 2, _ => subst hk; simp
  | 3, _ => subst hk; simp

theorem reads_unsigned {w : Nat} (hw : 8 ≤ w) :
    Reads (Desc.decTypedUnsigned w) fun v s _ => Unsigned w v.toNat s := by
  have h := reads_bind (reads_typed hw) (f := fun x : BitVec w × Desc.NumberKind => match x.2 with
    | .signed => if (ZigZag.decode x.1).msb then Dec.fail .overflow else pure (ZigZag.decode x.1)
    | .unsigned => pure x.1
    | .float => pure x.1
    | .reserved => Dec.fail .invalid) (H := fun x v s _ => s = [] ∧ match x.2 with
    | .signed => (ZigZag.decode x.1).msb = false ∧ v = ZigZag.decode x.1
    | .unsigned => v = x.1
    | .float => v = x.1
    | .reserved => False) (by
      rintro ⟨x, k⟩
      cases k with
      | signed =>
        simp only
        cases hm : (ZigZag.decode x).msb
        · exact (reads_pure _).congr fun v s r => by simp [and_comm]
        · exact (reads_fail _).congr fun v s r => by simp
      | unsigned => exact (reads_pure _).congr fun v s r => and_comm
      | float => exact (reads_pure _).congr fun v s r => and_comm
      | reserved => exact (reads_fail _).congr fun v s r => by simp)
  refine Reads.congr (show Reads (Desc.decTypedUnsigned w) _ from h) fun v s r => ?_
  clear h
  constructor
  · rintro ⟨⟨x, k⟩, a, b, rfl, ⟨t, l, h1, h2, h3, rfl, hk⟩, rfl, h4⟩
    have hmod := mod_of_kind k hk
    rw [List.append_nil]
    cases k with
    | signed =>
      have := (even_of_nonneg (by omega) x v).mp h4
      exact .inr (.inr ⟨t, l, this ▸ h1, h2, h3, hmod.1 rfl, rfl⟩)
    | unsigned =>
      have h4 : v = x := h4
      exact .inl ⟨t, l, h4 ▸ h1, h2, h3, hmod.2.1 rfl, rfl⟩
    | float =>
      have h4 : v = x := h4
      exact .inr (.inl ⟨t, l, h4 ▸ h1, h2, h3, hmod.2.2 rfl, rfl⟩)
    | reserved => exact h4.elim
  · rintro (⟨t, l, h1, h2, h3, h4, rfl⟩ | ⟨t, l, h1, h2, h3, h4, rfl⟩ | ⟨t, l, h1, h2, h3, h4, rfl⟩)
    · exact ⟨(v, .unsigned), _, [], by simp, ⟨t, l, h1, h2, h3, rfl, by rw [h4]; rfl⟩, rfl, rfl⟩
    · exact ⟨(v, .float), _, [], by simp, ⟨t, l, h1, h2, h3, rfl, by rw [h4]; rfl⟩, rfl, rfl⟩
    · have hlt : 2 * v.toNat < 2 ^ w := by rw [← h1.2.2]; exact Nat.mod_lt _ (Nat.two_pow_pos w)
      have e : (BitVec.ofNat w (2 * v.toNat)).toNat = 2 * v.toNat := by
        rw [BitVec.toNat_ofNat, Nat.mod_eq_of_lt hlt]
      exact ⟨(BitVec.ofNat w (2 * v.toNat), .signed), _, [], by simp,
        ⟨t, l, by rw [e]; exact h1, h2, h3, rfl, by rw [h4]; rfl⟩, rfl,
        (even_of_nonneg (by omega) _ v).mpr e⟩

theorem reads_signed {w : Nat} (hw : 8 ≤ w) :
    Reads (Desc.decTypedSigned w) fun v s _ => Signed w v.toInt s := by
  have h := reads_bind (reads_typed hw) (f := fun x : BitVec w × Desc.NumberKind => match x.2 with
    | .signed => pure (ZigZag.decode x.1)
    | .unsigned => if x.1.msb then Dec.fail .overflow else pure x.1
    | _ => Dec.fail .invalid) (H := fun x v s _ => s = [] ∧ match x.2 with
    | .signed => v = ZigZag.decode x.1
    | .unsigned => x.1.msb = false ∧ v = x.1
    | _ => False) (by
      rintro ⟨x, k⟩
      cases k with
      | signed => exact (reads_pure _).congr fun v s r => and_comm
      | unsigned =>
        simp only
        cases hm : x.msb
        · exact (reads_pure _).congr fun v s r => by simp [and_comm]
        · exact (reads_fail _).congr fun v s r => by simp
      | float => exact (reads_fail _).congr fun v s r => by simp
      | reserved => exact (reads_fail _).congr fun v s r => by simp)
  refine Reads.congr (show Reads (Desc.decTypedSigned w) _ from h) fun v s r => ?_
  clear h
  constructor
  · rintro ⟨⟨x, k⟩, a, b, rfl, ⟨t, l, h1, h2, h3, rfl, hk⟩, rfl, h4⟩
    have hmod := mod_of_kind k hk
    rw [List.append_nil]
    cases k with
    | signed =>
      have := (zig_decode (by omega) v x).mp h4
      exact .inl ⟨t, l, this ▸ h1, h2, h3, hmod.1 rfl, rfl⟩
    | unsigned =>
      have h4 := (nonneg_of_msb x v).mp h4
      exact .inr ⟨h4.1, t, l, h4.2 ▸ h1, h2, h3, hmod.2.1 rfl, rfl⟩
    | float => exact h4.elim
    | reserved => exact h4.elim
  · rintro (⟨t, l, h1, h2, h3, h4, rfl⟩ | ⟨h0, t, l, h1, h2, h3, h4, rfl⟩)
    · exact ⟨(ZigZag.encode v, .signed), _, [], by simp,
        ⟨t, l, by rw [zig_encode (by omega)]; exact h1, h2, h3, rfl, by rw [h4]; rfl⟩, rfl,
        (ZigZag.decode_encode (by omega) v).symm⟩
    · have hlt : v.toInt.toNat < 2 ^ w := by rw [← h1.2.2]; exact Nat.mod_lt _ (Nat.two_pow_pos w)
      have e : (BitVec.ofNat w v.toInt.toNat).toNat = v.toInt.toNat := by
        rw [BitVec.toNat_ofNat, Nat.mod_eq_of_lt hlt]
      exact ⟨(BitVec.ofNat w v.toInt.toNat, .unsigned), _, [], by simp,
        ⟨t, l, by rw [e]; exact h1, h2, h3, rfl, by rw [h4]; rfl⟩, rfl,
        (nonneg_of_msb _ v).mpr ⟨h0, e⟩⟩

theorem reads_prim (p : Prim) : Reads (Desc.decPrim p) fun v => plain (PrimDoc p v) := by
  cases p with
  | bool => exact Wire.reads_two 0xE3#8 0xE2#8 (by decide) (by decide)
  | char =>
    have := reads_byteThen (f := fun t => if t = 0xE5#8 then
      (Varint.decode 32 >>= fun n => Dec.ofExcept (charOf n)) else Dec.fail .invalid) fun t =>
      reads_guard fun _ => reads_char (reads_varint (w := 32) (by omega))
    refine Reads.congr (show Reads Desc.decChar _ from this) fun v s r => ?_
    constructor
    · rintro ⟨t, l, rfl, rfl, h⟩; exact ⟨l, h, rfl⟩
    · rintro ⟨l, h, rfl⟩; exact ⟨_, l, rfl, rfl, h⟩
  | uint w => cases w <;> exact reads_unsigned (by decide)
  | sint w => cases w <;> exact reads_signed (by decide)
  | usize => exact reads_unsigned (by decide)
  | isize => exact reads_signed (by decide)
  | f32 => exact reads_unsigned (by decide)
  | f64 => exact reads_unsigned (by decide)

theorem reads_bytes {k : Nat} (hk : k ∈ [0x60, 0x80, 0xA0, 0xC0]) :
    Reads (Desc.decBytes o (byte k)) fun v s _ => Counted o k v s := by
  refine (reads_bind (reads_tag o hk) fun n => reads_readBytes n).congr
    fun v s r => ?_
  constructor
  · rintro ⟨n, x, y, rfl, h, rfl, rfl⟩; exact ⟨x, h, rfl⟩
  · rintro ⟨x, h, rfl⟩; exact ⟨_, x, v, rfl, h, rfl, rfl⟩

theorem agrees : Agrees (Desc.fmt o) (Desc.lex o) where
  native := rfl
  prim := reads_prim
  unit := reads_skip o
  bytes := reads_bytes o (k := 0xA0) (by simp)
  arr n := by
    refine (reads_bind (reads_tag o (k := 0xA0) (by simp)) fun m => reads_guard (p := m = n) fun _ =>
      reads_readBytes n).congr fun v s r => ?_
    constructor
    · rintro ⟨m, x, y, rfl, h, rfl, rfl, rfl⟩; exact ⟨rfl, x, h, rfl⟩
    · rintro ⟨rfl, x, h, rfl⟩; exact ⟨_, x, v, rfl, h, rfl, rfl, rfl⟩
  str := reads_bytes o (k := 0xC0) (by simp)
  option := (Wire.reads_two 0xE0#8 0xE1#8 (by decide) (f := false) (t := true) (by decide)).congr
    fun v s r => by cases v <;> exact Iff.rfl
  seq := reads_tag o (k := 0x60) (by simp)
  seqRest n := by
    cases n with
    | zero =>
      refine (reads_pure ()).congr fun v s r => ?_
      constructor
      · rintro ⟨_, rfl⟩; exact .inl ⟨rfl, rfl⟩
      · rintro (⟨_, rfl⟩ | ⟨h, _⟩)
        · exact ⟨rfl, rfl⟩
        · exact (h rfl).elim
    | succ n =>
      refine (reads_skip o).congr fun v s r => ?_
      constructor
      · intro h; exact .inr ⟨by simp, h⟩
      · rintro (⟨h, _⟩ | ⟨_, h⟩)
        · cases h
        · exact h
  noSeqRest := rfl
  map := reads_tag o (k := 0x80) (by simp)
  mapRest n := by
    have h := reads_many (f := fun n => if n % 2 = 0 then Desc.endMap o (n / 2) else
      (do let _ ← Desc.skip o; Desc.endMap o (n / 2))) (reads_skip o) rfl (by
      intro n
      rcases Nat.mod_two_eq_zero_or_one n with hm | hm
      · rw [if_neg (by omega), if_pos hm, show (n + 1) / 2 = n / 2 by omega]
      · rw [if_pos (by omega), if_neg (by omega), show (n + 1) / 2 = n / 2 + 1 by omega]; rfl) (2 * n)
    simp only [Nat.mul_mod_right, if_true] at h
    rw [show 2 * n / 2 = n by omega] at h
    exact h
  noMapRest := rfl
  variant := by
    refine (reads_byteThen fun t => reads_guard fun _ => reads_pure ()).congr fun v s r => ?_
    constructor
    · rintro ⟨t, l, rfl, rfl, _, rfl⟩; rfl
    · intro h; exact ⟨0xE4#8, [], h, rfl, rfl, rfl⟩
  pack d G h := by
    refine (reads_bind (reads_tag o (k := 0xA0) (by simp)) fun n => reads_limited h n).congr
      fun v s r => ?_
    constructor
    · rintro ⟨n, x, y, rfl, h1, a, b, rfl, h2, h3⟩; exact ⟨x, a, b, by rw [h2]; exact h1, h3, rfl⟩
    · rintro ⟨x, a, b, h1, h2, rfl⟩; exact ⟨_, x, a ++ b, rfl, h1, a, b, rfl, rfl, h2⟩
  unknown := reads_skip o

end Desc
end

end Musli.Grammar
