import Verif.Model.Utf8
/-!
# Well-formed UTF-8 is the encoding of scalar values
-/
namespace Musli.Utf8

theorem isCont_iff (b : Byte) : isCont b = true ↔ 128 ≤ b.toNat ∧ b.toNat < 192 := by
  revert b; decide +revert

theorem inRange_iff (b lo hi : Byte) :
    inRange b lo hi = true ↔ lo.toNat ≤ b.toNat ∧ b.toNat ≤ hi.toNat := by
  simp [inRange, BitVec.le_def]

theorem beq_iff (a b : Byte) : (a == b) = true ↔ a.toNat = b.toNat := by
  rw [beq_iff_eq, BitVec.toNat_eq]

theorem ok2_iff (a b : Byte) : ok2 a b = true ↔
    (0xC2 ≤ a.toNat ∧ a.toNat ≤ 0xDF) ∧ 128 ≤ b.toNat ∧ b.toNat < 192 := by
  unfold ok2
  rw [Bool.and_eq_true, inRange_iff, isCont_iff]
  simp

theorem ok3_iff (a b c : Byte) : ok3 a b c = true ↔
    ((a.toNat = 0xE0 ∧ 0xA0 ≤ b.toNat ∧ b.toNat ≤ 0xBF)
      ∨ (0xE1 ≤ a.toNat ∧ a.toNat ≤ 0xEC ∧ 128 ≤ b.toNat ∧ b.toNat < 192)
      ∨ (a.toNat = 0xED ∧ 0x80 ≤ b.toNat ∧ b.toNat ≤ 0x9F)
      ∨ (0xEE ≤ a.toNat ∧ a.toNat ≤ 0xEF ∧ 128 ≤ b.toNat ∧ b.toNat < 192)) ∧
    128 ≤ c.toNat ∧ c.toNat < 192 := by
  unfold ok3
  simp only [Bool.and_eq_true, Bool.or_eq_true, inRange_iff, isCont_iff, beq_iff]
  simp [and_assoc, or_assoc]

theorem ok4_iff (a b c d : Byte) : ok4 a b c d = true ↔
    ((a.toNat = 0xF0 ∧ 0x90 ≤ b.toNat ∧ b.toNat ≤ 0xBF)
      ∨ (0xF1 ≤ a.toNat ∧ a.toNat ≤ 0xF3 ∧ 128 ≤ b.toNat ∧ b.toNat < 192)
      ∨ (a.toNat = 0xF4 ∧ 0x80 ≤ b.toNat ∧ b.toNat ≤ 0x8F)) ∧
    (128 ≤ c.toNat ∧ c.toNat < 192) ∧ 128 ≤ d.toNat ∧ d.toNat < 192 := by
  unfold ok4
  simp only [Bool.and_eq_true, Bool.or_eq_true, inRange_iff, isCont_iff, beq_iff]
  simp [and_assoc, or_assoc]

theorem valid_cons1 {a : Byte} (s : Bytes) (h : a.toNat < 128) : valid (a :: s) = valid s := by
  conv => lhs; unfold valid
  rw [if_pos (by rw [BitVec.lt_def]; exact h)]

theorem valid_cons2 {a b : Byte} (s : Bytes) (h : ok2 a b = true) :
    valid (a :: b :: s) = valid s := by
  have h' := (ok2_iff a b).1 h
  conv => lhs; unfold valid
  rw [if_neg (by rw [BitVec.lt_def]; show ¬ a.toNat < 128; omega)]
  show (if ok2 a b = true then _ else _) = _
  rw [if_pos h]

theorem valid_cons3 {a b c : Byte} (s : Bytes) (h : ok3 a b c = true) :
    valid (a :: b :: c :: s) = valid s := by
  have h' := (ok3_iff a b c).1 h
  have h2 : ¬ ok2 a b = true := by rw [ok2_iff]; omega
  conv => lhs; unfold valid
  rw [if_neg (by rw [BitVec.lt_def]; show ¬ a.toNat < 128; omega)]
  show (if ok2 a b = true then _ else if ok3 a b c = true then _ else _) = _
  rw [if_neg h2, if_pos h]

theorem valid_cons4 {a b c d : Byte} (s : Bytes) (h : ok4 a b c d = true) :
    valid (a :: b :: c :: d :: s) = valid s := by
  have h' := (ok4_iff a b c d).1 h
  have h2 : ¬ ok2 a b = true := by rw [ok2_iff]; omega
  have h3 : ¬ ok3 a b c = true := by rw [ok3_iff]; omega
  conv => lhs; unfold valid
  rw [if_neg (by rw [BitVec.lt_def]; show ¬ a.toNat < 128; omega)]
  show (if ok2 a b = true then _ else if ok3 a b c = true then _
    else if ok4 a b c d = true then _ else _) = _
  rw [if_neg h2, if_neg h3, if_pos h]

theorem char_range (c : Char) : c.toNat < 0xD800 ∨ (0xDFFF < c.toNat ∧ c.toNat < 0x110000) :=
  c.valid

/-- The encoding of a scalar value is one well-formed unit. -/
theorem valid_encodeChar_append (c : Char) (s : Bytes) :
    valid (encodeChar c ++ s) = valid s := by
  have hr := char_range c
  unfold encodeChar
  generalize c.toNat = n at *
  dsimp only
  split
  · exact valid_cons1 s (by simp; omega)
  split
  · exact valid_cons2 s (by rw [ok2_iff]; simp; omega)
  split
  · exact valid_cons3 s (by rw [ok3_iff]; simp; omega)
  · exact valid_cons4 s (by rw [ok4_iff]; simp; omega)

/-- A scalar value from its number. -/
theorem exists_char {n : Nat} (h : n < 0xD800 ∨ (0xDFFF < n ∧ n < 0x110000)) :
    ∃ c : Char, c.toNat = n := by
  refine ⟨Char.ofNatAux n h, ?_⟩
  simp only [Char.ofNatAux, Char.toNat]
  rfl

theorem ofNat_toNat (b : Byte) {n : Nat} (h : n = b.toNat) : BitVec.ofNat 8 n = b := by
  subst h; simp

/-- Well-formed UTF-8 starts with the encoding of a scalar value. -/
theorem valid_cases {s : Bytes} (h : valid s = true) :
    s = [] ∨ ∃ c s', s = encodeChar c ++ s' ∧ valid s' = true := by
  match s, h with
  | [], _ => exact .inl rfl
  | a :: s, h =>
    right
    by_cases h1 : a.toNat < 128
    · obtain ⟨c, hc⟩ := exists_char (n := a.toNat) (by omega)
      refine ⟨c, s, ?_, by rw [valid_cons1 s h1] at h; exact h⟩
      unfold encodeChar
      simp only [hc, if_pos h1, BitVec.ofNat_toNat, BitVec.setWidth_eq, List.cons_append,
        List.nil_append]
    · unfold valid at h
      rw [if_neg (by rw [BitVec.lt_def]; exact h1)] at h
      match s, h with
      | [], h => cases h
      | b :: s, h =>
        have h : (if ok2 a b = true then valid s else _) = true := h
        by_cases h2 : ok2 a b = true
        · rw [if_pos h2] at h
          have h2' := (ok2_iff a b).1 h2
          obtain ⟨c, hc⟩ := exists_char (n := (a.toNat - 0xC0) * 64 + (b.toNat - 0x80))
            (by omega)
          refine ⟨c, s, ?_, h⟩
          unfold encodeChar
          dsimp only
          rw [if_neg (by omega), if_pos (by omega), hc,
            ofNat_toNat a (by omega), ofNat_toNat b (by omega)]
          rfl
        · rw [if_neg h2] at h
          match s, h with
          | [], h => cases h
          | c :: s, h =>
            have h : (if ok3 a b c = true then valid s else _) = true := h
            by_cases h3 : ok3 a b c = true
            · rw [if_pos h3] at h
              have h3' := (ok3_iff a b c).1 h3
              obtain ⟨x, hx⟩ := exists_char
                (n := (a.toNat - 0xE0) * 4096 + (b.toNat - 0x80) * 64 + (c.toNat - 0x80))
                (by omega)
              refine ⟨x, s, ?_, h⟩
              unfold encodeChar
              dsimp only
              rw [if_neg (by omega), if_neg (by omega), if_pos (by omega), hx,
                ofNat_toNat a (by omega), ofNat_toNat b (by omega), ofNat_toNat c (by omega)]
              rfl
            · rw [if_neg h3] at h
              match s, h with
              | [], h => cases h
              | d :: s, h =>
                have h : (if ok4 a b c d = true then valid s else false) = true := h
                by_cases h4 : ok4 a b c d = true
                · rw [if_pos h4] at h
                  have h4' := (ok4_iff a b c d).1 h4
                  obtain ⟨x, hx⟩ := exists_char
                    (n := (a.toNat - 0xF0) * 262144 + (b.toNat - 0x80) * 4096
                      + (c.toNat - 0x80) * 64 + (d.toNat - 0x80))
                    (by omega)
                  refine ⟨x, s, ?_, h⟩
                  unfold encodeChar
                  dsimp only
                  rw [if_neg (by omega), if_neg (by omega), if_neg (by omega), hx,
                    ofNat_toNat a (by omega), ofNat_toNat b (by omega),
                    ofNat_toNat c (by omega), ofNat_toNat d (by omega)]
                  rfl
                · rw [if_neg h4] at h; cases h

theorem encodeChar_ne_nil (c : Char) : encodeChar c ≠ [] := by
  unfold encodeChar
  dsimp only
  split
  · simp
  split
  · simp
  split <;> simp

theorem encode_cons (c : Char) (cs : List Char) : encode (c :: cs) = encodeChar c ++ encode cs := by
  simp [encode]

theorem encode_append (a b : List Char) : encode (a ++ b) = encode a ++ encode b := by
  simp [encode]

theorem valid_encode (cs : List Char) : valid (encode cs) = true := by
  induction cs with
  | nil => rfl
  | cons c cs ih => rw [encode_cons, valid_encodeChar_append, ih]

/-- Well-formed UTF-8 is exactly what encoding scalar values gives. -/
theorem valid_iff (s : Bytes) : valid s = true ↔ ∃ cs, s = encode cs := by
  constructor
  · intro h
    suffices H : ∀ n, ∀ s : Bytes, s.length ≤ n → valid s = true → ∃ cs, s = encode cs from
      H _ s (Nat.le_refl _) h
    intro n
    induction n with
    | zero =>
      intro s hl _
      have : s = [] := by cases s <;> simp_all
      exact ⟨[], by simp [this, encode]⟩
    | succ n ih =>
      intro s hl h
      rcases valid_cases h with h0 | ⟨c, s', hs, hv⟩
      · exact ⟨[], by simp [h0, encode]⟩
      · have hlen : s'.length ≤ n := by
          have h1 : 0 < (encodeChar c).length := List.length_pos_iff.2 (encodeChar_ne_nil c)
          have h2 := congrArg List.length hs
          rw [List.length_append] at h2
          omega
        obtain ⟨cs, hcs⟩ := ih s' hlen hv
        exact ⟨c :: cs, by rw [encode_cons, hs, hcs]⟩
  · rintro ⟨cs, rfl⟩; exact valid_encode cs

theorem valid_append {a : Bytes} (h : valid a = true) (b : Bytes) :
    valid (a ++ b) = valid b := by
  obtain ⟨cs, rfl⟩ := (valid_iff a).1 h
  induction cs with
  | nil => rfl
  | cons c cs ih =>
    rw [encode_cons, List.append_assoc, valid_encodeChar_append, ih (valid_encode cs)]

/-- Splitting before an ASCII byte keeps both parts well-formed. -/
theorem valid_split {a : Bytes} {x : Byte} {b : Bytes} (hx : x.toNat < 128)
    (h : valid (a ++ x :: b) = true) : valid a = true ∧ valid b = true := by
  suffices H : ∀ n, ∀ a : Bytes, a.length ≤ n → valid (a ++ x :: b) = true →
      valid a = true ∧ valid b = true from H _ a (Nat.le_refl _) h
  intro n
  induction n with
  | zero =>
    intro a hl h
    have : a = [] := by cases a <;> simp_all
    subst this
    rw [List.nil_append, valid_cons1 _ hx] at h
    exact ⟨rfl, h⟩
  | succ n ih =>
    intro a hl h
    match a, hl, h with
    | [], _, h =>
      rw [List.nil_append, valid_cons1 _ hx] at h
      exact ⟨rfl, h⟩
    | y :: a, hl, h =>
      rcases valid_cases h with h0 | ⟨c, s', hs, hv⟩
      · cases h0
      · -- the first character ends before the ASCII byte
        by_cases hle : (encodeChar c).length ≤ (y :: a).length
        · have hp := hs
          have htake := congrArg (List.take (encodeChar c).length) hs
          have hdrop := congrArg (List.drop (encodeChar c).length) hs
          rw [List.take_append_of_le_length hle, List.take_left] at htake
          rw [List.drop_append_of_le_length hle, List.drop_left] at hdrop
          rw [← hdrop] at hv
          have h1 : 0 < (encodeChar c).length := List.length_pos_iff.2 (encodeChar_ne_nil c)
          have hl' : (List.drop (encodeChar c).length (y :: a)).length ≤ n := by
            rw [List.length_drop]; simp at hl ⊢; omega
          obtain ⟨ha, hb⟩ := ih _ hl' hv
          refine ⟨?_, hb⟩
          rw [← List.take_append_drop (encodeChar c).length (y :: a), htake,
            valid_encodeChar_append, ha]
        · exfalso
          -- the ASCII byte would be inside of the character, after its first byte
          have hmem : ∀ z ∈ (encodeChar c).tail, 128 ≤ z.toNat := by
            have hr := char_range c
            unfold encodeChar
            generalize c.toNat = m at *
            dsimp only
            split
            · simp
            split
            · simp; omega
            split
            · simp; omega
            · simp; omega
          have htail := congrArg List.tail hs
          have hne := encodeChar_ne_nil c
          obtain ⟨e, es, hes⟩ : ∃ e es, encodeChar c = e :: es := by
            cases hc : encodeChar c with
            | nil => exact absurd hc hne
            | cons e es => exact ⟨e, es, rfl⟩
          rw [hes] at htail hmem hle
          simp only [List.cons_append, List.tail_cons] at htail hmem
          have hlt : a.length < es.length := by simp at hle; omega
          have hget := congrArg (fun l => l[a.length]?) htail
          simp only [List.getElem?_append_right (Nat.le_refl _), Nat.sub_self,
            List.getElem?_cons_zero, List.getElem?_append_left hlt] at hget
          have := hmem x (List.mem_of_getElem? hget.symm)
          omega

theorem valid_append_right {a b : Bytes} (ha : valid a = true) (h : valid (a ++ b) = true) :
    valid b = true := by rw [valid_append ha] at h; exact h

end Musli.Utf8
