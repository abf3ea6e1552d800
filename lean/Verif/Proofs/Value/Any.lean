import Verif.Proofs.Value.Transcode
import Verif.Proofs.Lawful
/-!
# Decoding any value of the descriptive format
-/
set_option linter.unusedSectionVars false
set_option linter.unusedSimpArgs false
namespace Musli
namespace Desc
section
variable [Host] (o : Options)

theorem anyV_cons (fuel : Nat) (b : Byte) (s : Bytes) :
    anyV o (fuel + 1) (b :: s) =
      (if kind b = NUMBER then
        match data b with
        | Option.none => Dec.fail .invalid
        | some d => anyNumber d
      else if kind b = SEQUENCE then do
        let n ← decTagLen o SEQUENCE
        let l ← decN (anyV o fuel) n
        let _ ← endSeq o 0
        pure (.seq l)
      else if kind b = MAP then do
        let n ← decTagLen o MAP
        let l ← decN (do
          let k ← anyV o fuel
          let v ← anyV o fuel
          pure (k, v)) n
        let _ ← endMap o 0
        pure (.map l)
      else if kind b = BYTES then do
        let b ← decBytes o BYTES
        pure (.bytes b)
      else if kind b = STRING then do
        let b ← decBytes o STRING
        let s ← Dec.ofExcept (toStr b)
        pure (.string s)
      else if kind b = MARK then
        if mark b = mTrue ∨ mark b = mFalse then do
          let b ← decBool
          pure (.bool b)
        else if mark b = mVariant then do
          let _ ← decVariant
          let k ← anyV o fuel
          let v ← anyV o fuel
          pure (.variant k v)
        else if mark b = mSome ∨ mark b = mNone then do
          let b ← decOption
          if b then do
            let v ← anyV o fuel
            pure (.some v)
          else pure .none
        else if mark b = mChar then do
          let c ← decChar
          pure (.char c)
        else if mark b = mUnit then do
          let _ ← skip o
          pure .unit
        else Dec.fail .invalid
      else Dec.fail .invalid : Dec Value) (b :: s) := by
  rw [anyV]
  rfl

theorem encTagLen_head {k : Byte} (hk : k ∈ [SEQUENCE, MAP, BYTES, STRING]) {n : Nat} {bs : Bytes}
    (h : encTagLen o k n = .ok bs) : ∃ b r, bs = b :: r ∧ kind b = k := by
  unfold encTagLen at h
  split at h
  · rename_i hn
    cases h
    exact ⟨_, _, rfl, (kind_data_small k hk ⟨n, hn⟩).1⟩
  · obtain ⟨x, y, hx, hy, rfl⟩ := Enc.seq_eq_ok.mp h
    cases hx
    exact ⟨_, _, rfl, (kind_data_mask k hk).1⟩

omit [Host] in
theorem number_data (w : IW) (k : NumberKind) (h : number w k ≠ DATA_MASK) :
    data (tag NUMBER (number w k)) = some (number w k) := by
  cases w <;> cases k <;> first | rfl | exact absurd rfl h

theorem anyNumber_enc (n : Number) {bs : Bytes} (h : encNumber (fmt o) n = .ok bs) (s : Bytes) :
    ∃ b r d, bs = b :: r ∧ kind b = NUMBER ∧ data b = some d ∧
      anyNumber d (bs ++ s) = .ok (.number n.fixedWidth, s) := by
  cases n with
  | uint w v =>
    have h' : encTyped (number w .unsigned) (w := w.bits) v = .ok bs := h
    have e := decTypedUnsigned_encTyped (by cases w <;> decide) w .unsigned (.inl rfl) v bs s h'
    refine ⟨tag NUMBER (number w .unsigned), Varint.encode v, number w .unsigned, ?_, ?_, ?_, ?_⟩
    · cases h'; rfl
    · exact (number_tag _ _).1
    · cases w <;> rfl
    · unfold anyNumber
      cases w
      all_goals
        repeat (first | rw [if_pos rfl] | rw [if_neg (by decide)])
        exact Dec.bind_ok e
  | sint w v =>
    have h' : encTyped (number w .signed) (w := w.bits) (ZigZag.encode v) = .ok bs := h
    have e := decTypedSigned_encTyped (by cases w <;> decide) w v bs s h'
    refine ⟨tag NUMBER (number w .signed), Varint.encode (ZigZag.encode v), number w .signed, ?_, ?_, ?_, ?_⟩
    · cases h'; rfl
    · exact (number_tag _ _).1
    · cases w <;> rfl
    · unfold anyNumber
      cases w
      all_goals
        repeat (first | rw [if_pos rfl] | rw [if_neg (by decide)])
        exact Dec.bind_ok e
  | usize v =>
    have h' : encTyped (number .w64 .unsigned) (w := 64) v = .ok bs := h
    have e := decTypedUnsigned_encTyped (by decide) .w64 .unsigned (.inl rfl) v bs s h'
    refine ⟨tag NUMBER (number .w64 .unsigned), Varint.encode v, number .w64 .unsigned, ?_, ?_, rfl, ?_⟩
    · cases h'; rfl
    · exact (number_tag _ _).1
    · unfold anyNumber
      repeat (first | rw [if_pos rfl] | rw [if_neg (by decide)])
      exact Dec.bind_ok e
  | isize v =>
    have h' : encTyped (number .w64 .signed) (w := 64) (ZigZag.encode v) = .ok bs := h
    have e := decTypedSigned_encTyped (by decide) .w64 v bs s h'
    refine ⟨tag NUMBER (number .w64 .signed), Varint.encode (ZigZag.encode v), number .w64 .signed, ?_, ?_, rfl, ?_⟩
    · cases h'; rfl
    · exact (number_tag _ _).1
    · unfold anyNumber
      repeat (first | rw [if_pos rfl] | rw [if_neg (by decide)])
      exact Dec.bind_ok e
  | f32 v =>
    have h' : encTyped (number .w32 .float) (w := 32) v = .ok bs := h
    have e := decTypedUnsigned_encTyped (by decide) .w32 .float (.inr rfl) v bs s h'
    refine ⟨tag NUMBER (number .w32 .float), Varint.encode v, number .w32 .float, ?_, ?_, rfl, ?_⟩
    · cases h'; rfl
    · exact (number_tag _ _).1
    · unfold anyNumber
      repeat (first | rw [if_pos rfl] | rw [if_neg (by decide)])
      exact Dec.bind_ok e
  | f64 v =>
    have h' : encTyped (number .w64 .float) (w := 64) v = .ok bs := h
    have e := decTypedUnsigned_encTyped (by decide) .w64 .float (.inr rfl) v bs s h'
    refine ⟨tag NUMBER (number .w64 .float), Varint.encode v, number .w64 .float, ?_, ?_, rfl, ?_⟩
    · cases h'; rfl
    · exact (number_tag _ _).1
    · unfold anyNumber
      repeat (first | rw [if_pos rfl] | rw [if_neg (by decide)])
      exact Dec.bind_ok e

mutual

theorem anyV_enc : ∀ (x : Value) (fuel : Nat) (bs s : Bytes), encValue (fmt o) x = .ok bs →
    bs.length ≤ fuel → anyV o fuel (bs ++ s) = .ok (x.fixedWidth, s)
  | .unit, fuel, bs, s, h, hf => by
    rw [encValue] at h
    cases h
    cases fuel with
    | zero => cases hf
    | succ fuel =>
    rw [List.singleton_append, anyV_cons]
    repeat (first | rw [if_pos (by decide)] | rw [if_neg (by decide)])
    rw [← List.singleton_append, Dec.bind_ok (skip_unit o s)]
    rfl
  | .bool b, fuel, bs, s, h, hf => by
    rw [encValue] at h
    have h' : encPrim .bool b = .ok bs := h
    have e := decPrim_encPrim .bool b bs s h'
    cases h
    cases fuel with
    | zero => cases hf
    | succ fuel =>
    rw [List.singleton_append, anyV_cons]
    rw [if_neg (by cases b <;> decide), if_neg (by cases b <;> decide),
      if_neg (by cases b <;> decide), if_neg (by cases b <;> decide),
      if_neg (by cases b <;> decide), if_pos (by cases b <;> decide),
      if_pos (by cases b <;> decide)]
    exact Dec.bind_ok e
  | .char c, fuel, bs, s, h, hf => by
    rw [encValue] at h
    have h' : encPrim .char c = .ok bs := h
    have e := decPrim_encPrim .char c bs s h'
    cases h
    cases fuel with
    | zero => cases hf
    | succ fuel =>
    rw [List.cons_append, anyV_cons]
    repeat (first | rw [if_pos (by decide)] | rw [if_neg (by decide)])
    exact Dec.bind_ok e
  | .number n, fuel, bs, s, h, hf => by
    rw [encValue] at h
    obtain ⟨b, r, d, rfl, h1, h2, h3⟩ := anyNumber_enc o n h s
    cases fuel with
    | zero => cases hf
    | succ fuel =>
    rw [List.cons_append] at h3 ⊢
    rw [anyV_cons, if_pos h1, h2]
    exact h3
  | .bytes x, fuel, bs, s, h, hf => by
    rw [encValue] at h
    have h' : encBytes o BYTES x = .ok bs := h
    have e := decBytes_encBytes o (k := BYTES) (by decide) x bs s h'
    obtain ⟨y, z, hy, hz, rfl⟩ := Enc.seq_eq_ok.mp h'
    obtain ⟨b, r, rfl, hk⟩ := encTagLen_head o (by decide) hy
    cases fuel with
    | zero => cases hf
    | succ fuel =>
    simp only [List.cons_append] at e ⊢
    rw [anyV_cons, hk]
    repeat (first | rw [if_pos (by decide)] | rw [if_neg (by decide)])
    exact Dec.bind_ok e
  | .string x, fuel, bs, s, h, hf => by
    rw [encValue] at h
    have h' : encBytes o STRING x.bytes = .ok bs := h
    have e := decBytes_encBytes o (k := STRING) (by decide) x.bytes bs s h'
    obtain ⟨y, z, hy, hz, rfl⟩ := Enc.seq_eq_ok.mp h'
    obtain ⟨b, r, rfl, hk⟩ := encTagLen_head o (by decide) hy
    cases fuel with
    | zero => cases hf
    | succ fuel =>
    simp only [List.cons_append] at e ⊢
    rw [anyV_cons, hk]
    repeat (first | rw [if_pos (by decide)] | rw [if_neg (by decide)])
    rw [Dec.bind_ok e, Dec.bind_ok (ofExcept_ok (toStr_val x) s)]
    rfl
  | .seq l, fuel, bs, s, h, hf => by
    rw [encValue] at h
    obtain ⟨y, z, hy, hz, rfl⟩ := Enc.seq_eq_ok.mp h
    have hy' : encTagLen o SEQUENCE l.length = .ok y := hy
    have e := decTagLen_encTagLen o (k := SEQUENCE) (by decide) hy' (z ++ s)
    obtain ⟨b, r, rfl, hk⟩ := encTagLen_head o (by decide) hy'
    cases fuel with
    | zero => cases hf
    | succ fuel =>
    simp only [List.cons_append, List.length_cons, List.length_append, List.append_assoc] at e hf ⊢
    rw [anyV_cons, hk]
    repeat (first | rw [if_pos (by decide)] | rw [if_neg (by decide)])
    rw [Dec.bind_ok e, Dec.bind_ok (anyVs_enc l fuel z s hz (by omega))]
    rfl
  | .map l, fuel, bs, s, h, hf => by
    rw [encValue] at h
    obtain ⟨y, z, hy, hz, rfl⟩ := Enc.seq_eq_ok.mp h
    have hy' : encTagLen o MAP l.length = .ok y := hy
    have e := decTagLen_encTagLen o (k := MAP) (by decide) hy' (z ++ s)
    obtain ⟨b, r, rfl, hk⟩ := encTagLen_head o (by decide) hy'
    cases fuel with
    | zero => cases hf
    | succ fuel =>
    simp only [List.cons_append, List.length_cons, List.length_append, List.append_assoc] at e hf ⊢
    rw [anyV_cons, hk]
    repeat (first | rw [if_pos (by decide)] | rw [if_neg (by decide)])
    rw [Dec.bind_ok e, Dec.bind_ok (anyPairs_enc l fuel z s hz (by omega))]
    rfl
  | .variant t d, fuel, bs, s, h, hf => by
    rw [encValue] at h
    obtain ⟨y, z, hy, hz, rfl⟩ := Enc.seq_eq_ok.mp h
    obtain ⟨z1, z2, hz1, hz2, rfl⟩ := Enc.seq_eq_ok.mp hz
    cases hy
    cases fuel with
    | zero => cases hf
    | succ fuel =>
    simp only [List.cons_append, List.length_cons, List.length_append, List.append_assoc,
      List.nil_append, List.length_nil] at hf ⊢
    rw [anyV_cons]
    repeat (first | rw [if_pos (by decide)] | rw [if_neg (by decide)])
    have e : decVariant (tag MARK mVariant :: (z1 ++ (z2 ++ s))) = .ok ((), z1 ++ (z2 ++ s)) := rfl
    rw [Dec.bind_ok e, Dec.bind_ok (anyV_enc t fuel z1 _ hz1 (by omega)),
      Dec.bind_ok (anyV_enc d fuel z2 s hz2 (by omega))]
    rfl
  | .none, fuel, bs, s, h, hf => by
    rw [encValue] at h
    cases h
    cases fuel with
    | zero => cases hf
    | succ fuel =>
    rw [List.singleton_append, anyV_cons]
    repeat (first | rw [if_pos (by decide)] | rw [if_neg (by decide)])
    rfl
  | .some v, fuel, bs, s, h, hf => by
    rw [encValue] at h
    obtain ⟨y, z, hy, hz, rfl⟩ := Enc.seq_eq_ok.mp h
    cases hy
    cases fuel with
    | zero => cases hf
    | succ fuel =>
    simp only [List.cons_append, List.length_cons, List.length_append, List.append_assoc,
      List.nil_append, List.length_nil] at hf ⊢
    rw [anyV_cons]
    repeat (first | rw [if_pos (by decide)] | rw [if_neg (by decide)])
    have e : decOption (tag MARK mSome :: (z ++ s)) = .ok (true, z ++ s) := rfl
    rw [Dec.bind_ok e, if_pos rfl, Dec.bind_ok (anyV_enc v fuel z s hz (by omega))]
    rfl

theorem anyVs_enc : ∀ (l : List Value) (fuel : Nat) (bs s : Bytes), encValues (fmt o) l = .ok bs →
    bs.length ≤ fuel → decN (anyV o fuel) l.length (bs ++ s) = .ok (fixedWidths l, s)
  | [], fuel, bs, s, h, hf => by
    rw [encValues] at h; cases h; rfl
  | v :: l, fuel, bs, s, h, hf => by
    rw [encValues] at h
    obtain ⟨y, z, hy, hz, rfl⟩ := Enc.seq_eq_ok.mp h
    simp only [List.length_append] at hf
    rw [List.length_cons, decN, List.append_assoc,
      Dec.bind_ok (anyV_enc v fuel y _ hy (by omega)),
      Dec.bind_ok (anyVs_enc l fuel z s hz (by omega))]
    rfl

theorem anyPairs_enc : ∀ (l : List (Value × Value)) (fuel : Nat) (bs s : Bytes),
    encPairs (fmt o) l = .ok bs → bs.length ≤ fuel →
    decN (do
          let k ← anyV o fuel
          let v ← anyV o fuel
          pure (k, v)) l.length (bs ++ s) = .ok (fixedPairs l, s)
  | [], fuel, bs, s, h, hf => by
    rw [encPairs] at h; cases h; rfl
  | p :: l, fuel, bs, s, h, hf => by
    rw [encPairs] at h
    obtain ⟨y, z, hy, hz, rfl⟩ := Enc.seq_eq_ok.mp h
    simp only [List.length_append] at hf
    rw [List.length_cons, decN, List.append_assoc,
      Dec.bind_ok (anyPair_enc p fuel y _ hy (by omega)),
      Dec.bind_ok (anyPairs_enc l fuel z s hz (by omega))]
    rfl

theorem anyPair_enc : ∀ (p : Value × Value) (fuel : Nat) (bs s : Bytes),
    encPair (fmt o) p = .ok bs → bs.length ≤ fuel →
    (do
          let k ← anyV o fuel
          let v ← anyV o fuel
          pure (k, v) : Dec (Value × Value)) (bs ++ s) = .ok (fixedPair p, s)
  | (k, v), fuel, bs, s, h, hf => by
    rw [encPair] at h
    obtain ⟨y, z, hy, hz, rfl⟩ := Enc.seq_eq_ok.mp h
    simp only [List.length_append] at hf
    rw [List.append_assoc, Dec.bind_ok (anyV_enc k fuel y _ hy (by omega)),
      Dec.bind_ok (anyV_enc v fuel z s hz (by omega))]
    rfl

end

/-- `readValue` reads back what was encoded. -/
theorem readValue_enc {x : Value} {bs : Bytes} (h : encValue (fmt o) x = .ok bs) (s : Bytes) :
    readValue o (bs ++ s) = .ok (x.fixedWidth, s) :=
  anyV_enc o x _ bs s h (by rw [List.length_append]; omega)

end
end Desc
end Musli
