import Verif.Model.Zero.Lossy
import Verif.Spec.Lossy
import Verif.Proofs.Utf8
/-!
# How tries show their keys
-/
namespace Musli.Zero.Lossy
open Musli Musli.Utf8

set_option linter.unusedSectionVars false

theorem next_encode (c : Char) (s : Bytes) : next (encodeChar c ++ s) = some (c, s) := by
  have hr := char_range c
  have hc : Char.ofNat c.toNat = c := Char.ofNat_toNat c
  unfold encodeChar
  generalize hn : c.toNat = n at *
  dsimp only
  split
  · next h =>
    unfold next
    simp only [List.cons_append, List.nil_append]
    rw [if_pos (by rw [BitVec.lt_def]; simp; omega)]
    simp only [BitVec.toNat_ofNat, Option.some.injEq, Prod.mk.injEq, and_true]
    rw [Nat.mod_eq_of_lt (by omega), hc]
  split
  · next h =>
    unfold next
    simp only [List.cons_append, List.nil_append]
    rw [if_neg (by rw [BitVec.lt_def]; simp; omega), if_pos (by rw [ok2_iff]; simp; omega)]
    simp only [BitVec.toNat_ofNat, Option.some.injEq, Prod.mk.injEq, and_true]
    rw [← hc]; congr 1; omega
  split
  · next h =>
    unfold next
    simp only [List.cons_append, List.nil_append]
    rw [if_neg (by rw [BitVec.lt_def]; simp; omega), if_neg (by rw [ok2_iff]; simp; omega), if_pos (by rw [ok3_iff]; simp; omega)]
    simp only [BitVec.toNat_ofNat, Option.some.injEq, Prod.mk.injEq, and_true]
    rw [← hc]; congr 1; omega
  · next h =>
    unfold next
    simp only [List.cons_append, List.nil_append]
    rw [if_neg (by rw [BitVec.lt_def]; simp; omega), if_neg (by rw [ok2_iff]; simp; omega), if_neg (by rw [ok3_iff]; simp; omega),
      if_pos (by rw [ok4_iff]; simp; omega)]
    simp only [BitVec.toNat_ofNat, Option.some.injEq, Prod.mk.injEq, and_true]
    rw [← hc]; congr 1; omega

theorem next_some {s r : Bytes} {c : Char} (h : next s = some (c, r)) : s = encodeChar c ++ r := by
  unfold next at h
  split at h
  · cases h
  · next a s =>
    split at h
    · next h1 =>
      rw [BitVec.lt_def] at h1
      have h1 : a.toNat < 128 := h1
      obtain ⟨x, hx⟩ := exists_char (n := a.toNat) (by omega)
      cases h
      rw [← hx, Char.ofNat_toNat]
      unfold encodeChar
      dsimp only
      rw [hx, if_pos h1, ofNat_toNat a rfl]; rfl
    · split at h
      · cases h
      · next b s =>
        split at h
        · next h2 =>
          have h2' := (ok2_iff a b).1 h2
          obtain ⟨x, hx⟩ := exists_char (n := a.toNat % 32 * 64 + b.toNat % 64) (by omega)
          cases h
          rw [← hx, Char.ofNat_toNat]
          unfold encodeChar
          dsimp only
          rw [hx, if_neg (by omega), if_pos (by omega), ofNat_toNat a (by omega), ofNat_toNat b (by omega)]; rfl
        · split at h
          · cases h
          · next c s =>
            split at h
            · next h3 =>
              have h3' := (ok3_iff a b c).1 h3
              obtain ⟨x, hx⟩ := exists_char (n := a.toNat % 16 * 4096 + b.toNat % 64 * 64 + c.toNat % 64) (by omega)
              cases h
              rw [← hx, Char.ofNat_toNat]
              unfold encodeChar
              dsimp only
              rw [hx, if_neg (by omega), if_neg (by omega), if_pos (by omega), ofNat_toNat a (by omega), ofNat_toNat b (by omega),
                ofNat_toNat c (by omega)]; rfl
            · split at h
              · cases h
              · next d s =>
                split at h
                · next h4 =>
                  have h4' := (ok4_iff a b c d).1 h4
                  obtain ⟨x, hx⟩ := exists_char (n := a.toNat % 8 * 262144 + b.toNat % 64 * 4096 + c.toNat % 64 * 64 + d.toNat % 64)
                    (by omega)
                  cases h
                  rw [← hx, Char.ofNat_toNat]
                  unfold encodeChar
                  dsimp only
                  rw [hx, if_neg (by omega), if_neg (by omega), if_neg (by omega), ofNat_toNat a (by omega), ofNat_toNat b (by omega),
                    ofNat_toNat c (by omega), ofNat_toNat d (by omega)]; rfl
                · cases h

theorem next_none {s : Bytes} (h : next s = none) (c : Char) (t : Bytes) : s ≠ encodeChar c ++ t := by
  intro e
  rw [e, next_encode] at h; cases h

/-! ### Parts -/

theorem parts_total (s : Bytes) : ∃ l, Spec.Parts s l := by
  induction hn : s.length using Nat.strongRecOn generalizing s with
  | ind n ih =>
    cases hs : next s with
    | some p =>
      obtain ⟨c, r⟩ := p
      obtain ⟨l, hl⟩ := ih r.length (by have := next_length s c r hs; omega) r rfl
      rw [next_some hs]
      exact ⟨_, .char c r l hl⟩
    | none =>
      cases s with
      | nil => exact ⟨_, .nil⟩
      | cons b s =>
        obtain ⟨l, hl⟩ := ih s.length (by simp at hn; omega) s rfl
        exact ⟨_, .byte b s l (next_none hs) hl⟩

theorem parts_unique {s : Bytes} {l l' : List (Char ⊕ Byte)} (h : Spec.Parts s l) (h' : Spec.Parts s l') : l = l' := by
  induction h generalizing l' with
  | nil =>
    generalize hs : ([] : Bytes) = s at h'
    cases h' with
    | nil => rfl
    | char c t l h =>
      have := encodeChar_ne_nil c
      cases he : encodeChar c with
      | nil => exact absurd he this
      | cons x y => rw [he] at hs; cases hs
    | byte => cases hs
  | char c s l h ih =>
    generalize hs : encodeChar c ++ s = s' at h'
    cases h' with
    | nil =>
      have := encodeChar_ne_nil c
      rw [List.append_eq_nil_iff] at hs
      exact absurd hs.1 this
    | char c' s' l' h' =>
      have e := next_encode c s
      rw [hs, next_encode] at e
      cases e
      rw [ih h']
    | byte b t l' hb h' => exact absurd hs.symm (hb c s)
  | byte b s l hb h ih =>
    generalize hs : b :: s = s' at h'
    cases h' with
    | nil => cases hs
    | char c t l' h' => exact absurd hs (hb c t)
    | byte b' t l' hb' h' => cases hs; rw [ih h']

theorem parts_encode (cs : List Char) : Spec.Parts (encode cs) (cs.map .inl) := by
  induction cs with
  | nil => exact .nil
  | cons c cs ih => rw [encode_cons]; exact .char c _ _ ih

/-- The bytes are there in the parts. -/
theorem parts_bytes {s : Bytes} {l : List (Char ⊕ Byte)} (h : Spec.Parts s l) :
    s = l.flatMap (fun | .inl c => encodeChar c | .inr b => [b]) := by
  induction h with
  | nil => rfl
  | char c s l h ih => rw [List.flatMap_cons, ← ih]
  | byte b s l hb h ih => rw [List.flatMap_cons, ← ih]; rfl

/-! ### The loop -/

theorem validPrefix_some {s r : Bytes} {c : Char} (h : next s = some (c, r)) :
    validPrefix s = (c :: (validPrefix r).1, (validPrefix r).2) := by
  rw [validPrefix]
  split
  · next h' => rw [h] at h'; cases h'
  · next h' => rw [h] at h'; cases h'; rfl

theorem validPrefix_none {s : Bytes} (h : next s = none) : validPrefix s = ([], s) := by
  rw [validPrefix]
  split
  · rfl
  · next h' => rw [h] at h'; cases h'

/-- What follows the characters. -/
def tail (shown : Char → Bool) : Bytes → List Char
  | [] => []
  | _ :: rest => '\uFFFD' :: body shown rest

theorem body_eq (shown : Char → Bool) (s : Bytes) :
    body shown s = (validPrefix s).1.flatMap (showChar shown) ++ tail shown (validPrefix s).2 := by
  rw [body]
  congr 1
  split
  · next h => rw [h]; rfl
  · next b rest h =>
    show '\uFFFD' :: body shown rest = _
    rw [h]; rfl

theorem body_some (shown : Char → Bool) {s r : Bytes} {c : Char} (h : next s = some (c, r)) :
    body shown s = showChar shown c ++ body shown r := by
  rw [body_eq, body_eq shown r, validPrefix_some h, List.flatMap_cons, List.append_assoc]

theorem body_none (shown : Char → Bool) {b : Byte} {s : Bytes} (h : next (b :: s) = none) :
    body shown (b :: s) = '\uFFFD' :: body shown s := by
  rw [body_eq, validPrefix_none h]; rfl

theorem body_nil (shown : Char → Bool) : body shown [] = [] := by
  rw [body_eq, validPrefix_none rfl]; rfl

/-! ### Digits -/

theorem hexDigit_digit {n : Nat} (h : n < 16) : Spec.digit (hexDigit n) = some n := by
  have H : ∀ n : Fin 16, Spec.digit (hexDigit n.1) = some n.1 := by decide +kernel
  exact H ⟨n, h⟩

theorem number_snoc {ds : List Char} {n : Nat} (h : Spec.number ds = some n) {c : Char} {d : Nat} (hd : Spec.digit c = some d) :
    Spec.number (ds ++ [c]) = some (16 * n + d) := by
  unfold Spec.number at h ⊢
  rw [List.foldl_append, h]
  simp [hd]

theorem hex_number (n : Nat) : Spec.number (hex n) = some n := by
  induction n using Nat.strongRecOn with
  | ind n ih =>
    unfold hex
    split
    · next h => simp [Spec.number, hexDigit_digit h]
    · next h =>
      rw [number_snoc (ih (n / 16) (by omega)) (hexDigit_digit (Nat.mod_lt _ (by omega)))]
      congr 1; omega

theorem hex_length (k n : Nat) (h : n < 16 ^ (k + 1)) : (hex n).length ≤ k + 1 := by
  induction k generalizing n with
  | zero =>
    unfold hex
    rw [if_pos (by simpa using h)]; simp
  | succ k ih =>
    unfold hex
    split
    · simp
    · have := ih (n / 16) (by rw [Nat.div_lt_iff_lt_mul (by omega)]; rw [Nat.pow_succ] at h; omega)
      simp; omega

theorem hex_ne_nil (n : Nat) : hex n ≠ [] := by
  unfold hex
  split <;> simp

theorem hex_two {n : Nat} (h : n < 0x80) : ∃ d1 d2, (if (hex n).length < 2 then '0' :: hex n else hex n) = [d1, d2] ∧
    Spec.number [d1, d2] = some n := by
  have hn := hex_number n
  have hl := hex_length 1 n (by omega)
  have h0 := hex_ne_nil n
  match hh : hex n with
  | [] => exact absurd hh h0
  | [d] =>
    rw [hh] at hn
    refine ⟨'0', d, by simp, ?_⟩
    unfold Spec.number at hn ⊢
    have e0 : Spec.digit '0' = some 0 := by decide +kernel
    simpa [e0] using hn
  | [d1, d2] => exact ⟨d1, d2, by simp, by rw [← hh]; exact hn⟩
  | _ :: _ :: _ :: _ => rw [hh] at hl; simp at hl

/-! ### Literals -/

theorem literal_char (shown : Char → Bool) (c : Char) {t cs : List Char} (h : Spec.Literal t cs) :
    Spec.Literal (showChar shown c ++ t) (c :: cs) := by
  unfold showChar
  split
  · next e => subst e; exact .escape _ _ _ _ (by decide) h
  · next h0 =>
    split
    · next hr =>
      have hlt : c.toNat < 0x80 := by omega
      obtain ⟨d1, d2, e, hd⟩ := hex_two hlt
      rw [e]
      exact .ascii d1 d2 c t cs hd hlt h
    · unfold escapeDebug
      rw [if_neg h0]
      split
      · next e => subst e; exact .escape _ _ _ _ (by decide) h
      split
      · next e => subst e; exact .escape _ _ _ _ (by decide) h
      split
      · next e => subst e; exact .escape _ _ _ _ (by decide) h
      split
      · next e => subst e; exact .escape _ _ _ _ (by decide) h
      split
      · next e => subst e; exact .escape _ _ _ _ (by decide) h
      split
      · next e => subst e; exact .escape _ _ _ _ (by decide) h
      split
      · next hq _ hb _ =>
        refine .char c t cs ?_ hb ?_ h <;> assumption
      · have e : '\\' :: 'u' :: '{' :: (hex c.toNat ++ ['}']) ++ t = '\\' :: 'u' :: '{' :: (hex c.toNat ++ '}' :: t) := by simp
        rw [e]
        refine .unicode _ _ _ _ (hex_ne_nil _) (hex_length 5 _ ?_) (hex_number _) h
        have := char_range c
        omega

theorem literal_body (shown : Char → Bool) {s : Bytes} {l : List (Char ⊕ Byte)} (h : Spec.Parts s l) :
    Spec.Literal (body shown s) (l.map Spec.replaced) := by
  induction h with
  | nil => rw [body_nil]; exact .nil
  | char c s l h ih =>
    rw [body_some shown (next_encode c s)]
    exact literal_char shown c ih
  | byte b s l hb h ih =>
    have hn : next (b :: s) = none := by
      cases hs : next (b :: s) with
      | none => rfl
      | some p => exact absurd (next_some hs) (hb p.1 p.2)
    rw [body_none shown hn]
    exact .char _ _ _ (by decide) (by decide) (by decide) ih

theorem digits_brace : ∀ (ds : List Char) (n : Option Nat), ds.foldl (fun acc c => acc.bind fun n => (Spec.digit c).map fun d => 16 * n + d) n ≠ none →
    ∀ c ∈ ds, c ≠ '}'
  | [], _, _, _, h => by cases h
  | d :: ds, n, h, c, hc => by
    have hnone : ∀ ds : List Char, ds.foldl (fun (acc : Option Nat) c => acc.bind fun n => (Spec.digit c).map fun d => 16 * n + d) none = none := by
      intro ds; induction ds with
      | nil => rfl
      | cons d ds ih => exact ih
    rw [List.foldl_cons] at h
    rcases List.mem_cons.1 hc with rfl | hc
    · intro e
      subst e
      apply h
      have : (n.bind fun n => (Spec.digit '}').map fun d => 16 * n + d) = none := by
        have e0 : Spec.digit '}' = none := by decide +kernel
        rw [e0]; cases n <;> rfl
      rw [this]; exact hnone ds
    · exact digits_brace ds _ h c hc

theorem cut_brace : ∀ {a b x y : List Char}, (∀ c ∈ a, c ≠ '}') → (∀ c ∈ b, c ≠ '}') → a ++ '}' :: x = b ++ '}' :: y → a = b ∧ x = y
  | [], [], _, _, _, _, h => by simpa using h
  | [], d :: b, _, _, _, hb, h => by
    simp at h
    exact absurd h.1.symm (hb d (by simp))
  | d :: a, [], _, _, ha, _, h => by
    simp at h
    exact absurd h.1 (ha d (by simp))
  | d :: a, e :: b, x, y, ha, hb, h => by
    simp only [List.cons_append, List.cons.injEq] at h
    obtain ⟨h1, h2⟩ := cut_brace (fun c hc => ha c (by simp [hc])) (fun c hc => hb c (by simp [hc])) h.2
    exact ⟨by rw [h.1, h1], h2⟩

theorem char_toNat_inj {c d : Char} (h : c.toNat = d.toNat) : c = d := by
  rw [← Char.ofNat_toNat c, h, Char.ofNat_toNat]

theorem number_digits {ds : List Char} {n : Nat} (h : Spec.number ds = some n) : ∀ c ∈ ds, c ≠ '}' :=
  digits_brace ds _ (by unfold Spec.number at h; rw [h]; simp)

/-- A literal ends at its quote, and stands for one text. -/
theorem literal_cut {t cs t' cs' x y : List Char} (h : Spec.Literal t cs) (h' : Spec.Literal t' cs')
    (e : t ++ '"' :: x = t' ++ '"' :: y) : t = t' ∧ cs = cs' ∧ x = y := by
  induction h generalizing t' cs' with
  | nil =>
    cases h' with
    | nil => simpa using e
    | char c t cs h1 => simp at e; exact absurd e.1.symm h1
    | escape => simp at e
    | ascii => simp at e
    | unicode => simp at e
  | char c t cs h1 h2 h3 h ih =>
    cases h' with
    | nil => simp at e; exact absurd e.1 h1
    | char c' t' cs' _ _ _ h' =>
      simp only [List.cons_append, List.cons.injEq] at e
      obtain ⟨e1, e2, e3⟩ := ih h' e.2
      exact ⟨by rw [e.1, e1], by rw [e.1, e2], e3⟩
    | escape => simp at e; exact absurd e.1 h2
    | ascii => simp at e; exact absurd e.1 h2
    | unicode => simp at e; exact absurd e.1 h2
  | escape k c t cs hm h ih =>
    cases h' with
    | nil => simp at e
    | char c' t' cs' _ h2 => simp at e; exact absurd e.1.symm h2
    | escape k' c' t' cs' hm' h' =>
      simp only [List.cons_append, List.cons.injEq, true_and] at e
      obtain ⟨e1, e2, e3⟩ := ih h' e.2
      have hk := e.1
      subst hk
      have hc : c = c' := by
        simp only [List.mem_cons, Prod.mk.injEq, List.not_mem_nil, or_false] at hm hm'
        rcases hm with h | h | h | h | h | h | h <;> obtain ⟨rfl, rfl⟩ := h <;> (have := hm'; simp at this; exact this.symm)
      exact ⟨by rw [e1], by rw [hc, e2], e3⟩
    | ascii =>
      simp only [List.cons_append, List.cons.injEq, true_and] at e
      obtain ⟨rfl, _⟩ := e
      exact absurd hm (by simp)
    | unicode =>
      simp only [List.cons_append, List.cons.injEq, true_and] at e
      obtain ⟨rfl, _⟩ := e
      exact absurd hm (by simp)
  | ascii d1 d2 c t cs hn hlt h ih =>
    cases h' with
    | nil => simp at e
    | char c' t' cs' _ h2 => simp at e; exact absurd e.1.symm h2
    | escape k' c' t' cs' hm' h' =>
      simp only [List.cons_append, List.cons.injEq, true_and] at e
      obtain ⟨rfl, _⟩ := e
      exact absurd hm' (by simp)
    | ascii d1' d2' c' t' cs' hn' _ h' =>
      simp only [List.cons_append, List.cons.injEq, true_and] at e
      obtain ⟨rfl, rfl, e⟩ := e
      obtain ⟨e1, e2, e3⟩ := ih h' e
      rw [hn] at hn'
      exact ⟨by rw [e1], by rw [char_toNat_inj (Option.some.inj hn'), e2], e3⟩
    | unicode => simp at e
  | unicode ds c t cs h0 hl hn h ih =>
    cases h' with
    | nil => simp at e
    | char c' t' cs' _ h2 => simp at e; exact absurd e.1.symm h2
    | escape k' c' t' cs' hm' h' =>
      simp only [List.cons_append, List.cons.injEq, true_and] at e
      obtain ⟨rfl, _⟩ := e
      exact absurd hm' (by simp)
    | ascii => simp at e
    | unicode ds' c' t' cs' _ _ hn' h' =>
      simp only [List.cons_append, List.cons.injEq, true_and, List.append_assoc] at e
      obtain ⟨e1, e2⟩ := cut_brace (number_digits hn) (number_digits hn') e
      subst e1
      obtain ⟨e1, e2, e3⟩ := ih h' e2
      rw [hn] at hn'
      exact ⟨by rw [e1], by rw [char_toNat_inj (Option.some.inj hn'), e2], e3⟩

theorem encode_parts {s : Bytes} {l : List (Char ⊕ Byte)} (hv : Utf8.valid s = true) (h : Spec.Parts s l) :
    s = encode (l.map Spec.replaced) := by
  obtain ⟨cs, rfl⟩ := (valid_iff s).1 hv
  rw [parts_unique h (parts_encode cs), List.map_map]
  congr 1
  exact (List.map_id cs).symm

theorem cut_sep {f : Char → Bool} : ∀ {v v' : List Char} {a b : Char} {x y : List Char}, (∀ c ∈ v, f c = true) → (∀ c ∈ v', f c = true) →
    f a = false → f b = false → v ++ a :: x = v' ++ b :: y → v = v' ∧ a = b ∧ x = y
  | [], [], a, b, x, y, _, _, _, _, h => by simpa using h
  | [], d :: v', a, b, x, y, _, h2, ha, _, h => by
    simp at h
    have := h2 d (by simp)
    rw [← h.1, ha] at this; cases this
  | d :: v, [], a, b, x, y, h1, _, _, hb, h => by
    simp at h
    have := h1 d (by simp)
    rw [h.1, hb] at this; cases this
  | d :: v, e :: v', a, b, x, y, h1, h2, ha, hb, h => by
    simp only [List.cons_append, List.cons.injEq] at h
    obtain ⟨e1, e2, e3⟩ := cut_sep (fun c hc => h1 c (by simp [hc])) (fun c hc => h2 c (by simp [hc])) ha hb h.2
    exact ⟨by rw [h.1, e1], e2, e3⟩

/-- Texts of keys with something after them. -/
theorem debug_cut (shown : Char → Bool) {s s' : Bytes} {x y : List Char} (hv : Utf8.valid s = true) (hv' : Utf8.valid s' = true)
    (e : debug shown s ++ x = debug shown s' ++ y) : s = s' ∧ x = y := by
  obtain ⟨l, hl⟩ := parts_total s
  obtain ⟨l', hl'⟩ := parts_total s'
  simp only [debug, List.cons_append, List.append_assoc, List.cons.injEq, true_and, List.nil_append] at e
  obtain ⟨-, e2, e3⟩ := literal_cut (literal_body shown hl) (literal_body shown hl') e
  exact ⟨by rw [encode_parts hv hl, encode_parts hv' hl', e2], e3⟩

/-- Neither a comma nor a brace. -/
def plain (c : Char) : Bool := c != ',' && c != '}'

/-- The entries with what separates them. -/
def joined (shown : Char → Bool) (l : List (Bytes × List Char)) : List Char :=
  (List.intersperse [',', ' '] (l.map fun e => debug shown e.1 ++ [':', ' '] ++ e.2)).flatten

theorem joined_one (shown : Char → Bool) (e : Bytes × List Char) :
    joined shown [e] = debug shown e.1 ++ (':' :: ' ' :: e.2) := by simp [joined]

theorem joined_more (shown : Char → Bool) (e f : Bytes × List Char) (l) :
    joined shown (e :: f :: l) = debug shown e.1 ++ (':' :: ' ' :: (e.2 ++ (',' :: ' ' :: joined shown (f :: l)))) := by
  simp [joined, List.intersperse]

theorem joined_cut (shown : Char → Bool) : ∀ {l l' : List (Bytes × List Char)} {x y : List Char},
    (∀ e ∈ l, Utf8.valid e.1 = true ∧ ∀ c ∈ e.2, plain c = true) → (∀ e ∈ l', Utf8.valid e.1 = true ∧ ∀ c ∈ e.2, plain c = true) →
    joined shown l ++ '}' :: x = joined shown l' ++ '}' :: y → l = l'
  | [], [], _, _, _, _, _ => rfl
  | [], [e], _, _, _, _, h => by rw [joined_one] at h; simp [joined, debug] at h
  | [], e :: f :: l, _, _, _, _, h => by rw [joined_more] at h; simp [joined, debug] at h
  | [e], [], _, _, _, _, h => by rw [joined_one] at h; simp [joined, debug] at h
  | e :: f :: l, [], _, _, _, _, h => by rw [joined_more] at h; simp [joined, debug] at h
  | [e], [e'], x, y, h1, h2, h => by
    rw [joined_one, joined_one, List.append_assoc, List.append_assoc] at h
    obtain ⟨hk, h⟩ := debug_cut shown (h1 e (by simp)).1 (h2 e' (by simp)).1 h
    simp only [List.cons_append, List.cons.injEq, true_and] at h
    obtain ⟨hv, -, -⟩ := cut_sep (f := plain) (h1 e (by simp)).2 (h2 e' (by simp)).2 (by decide) (by decide) h
    exact congrArg (fun e => [e]) (Prod.ext hk hv)
  | [e], e' :: f' :: l', x, y, h1, h2, h => by
    rw [joined_one, joined_more, List.append_assoc, List.append_assoc] at h
    obtain ⟨hk, h⟩ := debug_cut shown (h1 e (by simp)).1 (h2 e' (by simp)).1 h
    simp only [List.cons_append, List.cons.injEq, true_and, List.append_assoc] at h
    obtain ⟨-, hc, -⟩ := cut_sep (f := plain) (h1 e (by simp)).2 (h2 e' (by simp)).2 (by decide) (by decide) h
    exact absurd hc (by decide)
  | e :: f :: l, [e'], x, y, h1, h2, h => by
    rw [joined_one, joined_more, List.append_assoc, List.append_assoc] at h
    obtain ⟨hk, h⟩ := debug_cut shown (h1 e (by simp)).1 (h2 e' (by simp)).1 h
    simp only [List.cons_append, List.cons.injEq, true_and, List.append_assoc] at h
    obtain ⟨-, hc, -⟩ := cut_sep (f := plain) (h1 e (by simp)).2 (h2 e' (by simp)).2 (by decide) (by decide) h
    exact absurd hc (by decide)
  | e :: f :: l, e' :: f' :: l', x, y, h1, h2, h => by
    rw [joined_more, joined_more, List.append_assoc, List.append_assoc] at h
    obtain ⟨hk, h⟩ := debug_cut shown (h1 e (by simp)).1 (h2 e' (by simp)).1 h
    simp only [List.cons_append, List.cons.injEq, true_and, List.append_assoc] at h
    obtain ⟨hv, -, h⟩ := cut_sep (f := plain) (h1 e (by simp)).2 (h2 e' (by simp)).2 (by decide) (by decide) h
    simp only [List.cons.injEq, true_and] at h
    rw [joined_cut shown (fun e he => h1 e (List.mem_cons_of_mem _ he)) (fun e he => h2 e (List.mem_cons_of_mem _ he)) h]
    exact congrArg (· :: _) (Prod.ext hk hv)

end Musli.Zero.Lossy
