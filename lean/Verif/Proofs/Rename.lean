import Verif.Spec.Rename
/-!
# Proofs about the names of fields and variants
-/
set_option linter.unusedSectionVars false
namespace Musli.Rename
open Spec

variable {cc : CharCase}

/-- The rule joins words. -/
abbrev NameAll.Joins (r : NameAll) : Prop := r ≠ .index ∧ r ≠ .name

/-- What the loop appends. -/
def go (cc : CharCase) (r : NameAll) (k : Nat) (g : Bool) : List Char → List Char
  | [] => []
  | c :: l =>
    if c = '_' then go cc r (if g then k else k + 1) true l
    else
      let k' := if cc.isUpper c && !g then k + 1 else k
      let g' := g || cc.isUpper c
      (if g' && decide (k' > 0) then r.pre else []) ++ r.feed cc g' k' c ++ go cc r k' false l

theorem foldl_go (r : NameAll) (l : List Char) (s : Loop) :
    (l.foldl (r.step cc) s).output = s.output ++ go cc r s.count s.group l := by
  induction l generalizing s with
  | nil => simp [go]
  | cons c l ih =>
    rw [List.foldl_cons, ih]
    rw [go]
    simp only [NameAll.step]
    by_cases hc : c = '_'
    · simp [hc]
    · obtain ⟨out, k, g⟩ := s
      cases hu : cc.isUpper c <;> cases g <;> by_cases hk : 0 < k <;> simp [hc, hk]

/-- The words as the loop emits them. -/
def emitWord (cc : CharCase) (r : NameAll) (first : Bool) : List Char → List Char
  | [] => []
  | c :: w => (if first then [] else r.pre) ++ r.feed cc true (if first then 0 else 1) c ++
      w.flatMap (r.feed cc false 0)

def emit (cc : CharCase) (r : NameAll) (first : Bool) : List (List Char) → List Char
  | [] => []
  | w :: ws => emitWord cc r first w ++ emit cc r false ws

def continues (cc : CharCase) : List Char → Bool
  | [] => false
  | c :: _ => decide (c ≠ '_') && !cc.isUpper c

theorem parts_ne_nil (sep : Char) (l : List Char) : parts sep l ≠ [] := by
  cases l with
  | nil => simp [parts]
  | cons a l =>
    simp only [parts]
    split
    · simp
    · split <;> simp

theorem words_nil : words cc [] = [] := rfl

theorem words_us (l : List Char) : words cc ('_' :: l) = words cc l := by
  simp [words, parts, cutBefore]

theorem cutBefore_ne (p : Char → Bool) (a : Char) (l : List Char) : cutBefore p (a :: l) ≠ [] := by
  cases l with
  | nil => simp [cutBefore]
  | cons b l =>
    simp only [cutBefore]
    split
    · simp
    · split <;> simp

theorem words_cons {c : Char} (hc : c ≠ '_') (l : List Char) :
    words cc (c :: l) = if continues cc l then
        match words cc l with
        | h :: t => (c :: h) :: t
        | [] => [[c]]
      else [c] :: words cc l := by
  cases l with
  | nil => simp [words, parts, hc, cutBefore, continues]
  | cons b l =>
    by_cases hb : b = '_'
    · simp [words, parts, hc, hb, cutBefore, continues]
    · cases hp : parts '_' l with
      | nil => exact absurd hp (parts_ne_nil _ _)
      | cons w ws =>
        cases hu : cc.isUpper b
        · simp only [words, parts, hb, hc, if_false, hp, List.flatMap_cons, cutBefore, hu, continues,
            Bool.not_false, Bool.and_true, ne_eq, not_false_iff, decide_true, if_true]
          cases h2 : cutBefore cc.isUpper (b :: w) with
          | nil => exact absurd h2 (cutBefore_ne _ _ _)
          | cons x xs => simp
        · simp [words, parts, hb, hc, hp, cutBefore, hu, continues]

theorem words_ne (l : List Char) : ∀ w ∈ words cc l, w ≠ [] := by
  induction l with
  | nil => simp [words_nil]
  | cons c l ih =>
    by_cases hc : c = '_'
    · rw [hc, words_us]; exact ih
    · rw [words_cons hc]
      intro w hw
      split at hw
      · cases h : words cc l with
        | nil => rw [h] at hw; simp_all
        | cons x xs =>
          rw [h] at hw ih
          simp only [List.mem_cons] at hw
          rcases hw with rfl | hw
          · simp
          · exact ih w (by simp [hw])
      · simp only [List.mem_cons] at hw
        rcases hw with rfl | hw
        · simp
        · exact ih w hw

theorem continues_words {l : List Char} (h : continues cc l = true) :
    ∃ x xs, words cc l = x :: xs := by
  cases l with
  | nil => simp [continues] at h
  | cons c l =>
    simp [continues] at h
    rw [words_cons h.1]
    split
    · split <;> exact ⟨_, _, rfl⟩
    · exact ⟨_, _, rfl⟩

theorem feed_false (r : NameAll) (k : Nat) (c : Char) : r.feed cc false k c = r.feed cc false 0 c := by
  cases r <;> simp [NameAll.feed]

theorem feed_true (r : NameAll) (k : Nat) (c : Char) :
    r.feed cc true k c = r.feed cc true (if decide (k = 0) then 0 else 1) c := by
  cases r <;> simp [NameAll.feed] <;> by_cases h : k = 0 <;> simp [h, Nat.pos_of_ne_zero]

/-- The rest of the word the loop is in. -/
def inside (cc : CharCase) (r : NameAll) (l : List Char) : List Char :=
  if continues cc l then
    match words cc l with
    | h :: t => h.flatMap (r.feed cc false 0) ++ emit cc r false t
    | [] => []
  else emit cc r false (words cc l)

theorem emit_word_start (r : NameAll) (c : Char) (hc : c ≠ '_') (l : List Char) (first : Bool) :
    emit cc r first (words cc (c :: l)) =
      (if first then [] else r.pre) ++ r.feed cc true (if first then 0 else 1) c ++
        inside cc r l := by
  rw [words_cons hc]
  unfold inside
  split
  · rename_i h
    obtain ⟨x, xs, hx⟩ := continues_words h
    simp [hx, emit, emitWord]
  · simp [emit, emitWord]

theorem go_spec (r : NameAll) (l : List Char) :
    (∀ k, go cc r k true l = emit cc r (decide (k = 0)) (words cc l)) ∧
    (∀ k, go cc r k false l = inside cc r l) := by
  induction l with
  | nil => simp [go, words_nil, emit, inside, continues]
  | cons c l ih =>
    obtain ⟨ih1, ih2⟩ := ih
    by_cases hc : c = '_'
    · subst hc
      constructor
      · intro k; simp [go, ih1, words_us]
      · intro k; simp [go, ih1, inside, continues, words_us]
    · constructor
      · intro k
        rw [emit_word_start r c hc]
        simp only [go, hc, if_false, Bool.not_true, Bool.and_false, Bool.false_eq_true, Bool.true_or,
          Bool.true_and, ih2]
        rw [feed_true r k]
        by_cases h : k = 0
        · simp [h]
        · simp [h, Nat.pos_of_ne_zero h]
      · intro k
        cases hu : cc.isUpper c
        · simp only [go, hc, if_false, hu, Bool.false_and, Bool.false_eq_true, Bool.false_or,
            List.nil_append, ih2]
          have hcont : continues cc (c :: l) = true := by simp [continues, hc, hu]
          rw [show inside cc r (c :: l) = (match words cc (c :: l) with
            | h :: t => h.flatMap (r.feed cc false 0) ++ emit cc r false t
            | [] => []) by simp [inside, hcont]]
          rw [words_cons hc, feed_false]
          unfold inside
          cases hl : continues cc l
          · simp
          · obtain ⟨x, xs, hx⟩ := continues_words hl
            simp [hx]
        · have hcont : continues cc (c :: l) = false := by simp [continues, hu]
          rw [show inside cc r (c :: l) = emit cc r false (words cc (c :: l)) by
            simp [inside, hcont]]
          rw [emit_word_start r c hc]
          simp only [go, hc, if_false, hu, Bool.not_false, Bool.and_true, if_true, Bool.false_or,
            ih2, Bool.true_and]
          rw [feed_true r (k + 1)]
          simp

theorem feed_pascal (cc : CharCase) : NameAll.feed cc .pascal false 0 = cc.lower := by
  funext c; simp [NameAll.feed]

theorem feed_camel (cc : CharCase) : NameAll.feed cc .camel false 0 = cc.lower := by
  funext c; simp [NameAll.feed]

theorem emit_inCase (r : NameAll) (hr : r.Joins) (ws : List (List Char)) (hws : ∀ w ∈ ws, w ≠ []) :
    emit cc r true ws = inCase cc r ws := by
  have hcap : ∀ (ws : List (List Char)), emit cc .pascal false ws = (ws.map (capWord cc)).flatten := by
    intro ws
    induction ws with
    | nil => rfl
    | cons w ws ih => cases w <;> simp [emit, emitWord, capWord, lowerWord, feed_pascal, feed_camel, ih] <;> simp [NameAll.feed, NameAll.pre]
  have hcam : ∀ (ws : List (List Char)), emit cc .camel false ws = (ws.map (capWord cc)).flatten := by
    intro ws
    induction ws with
    | nil => rfl
    | cons w ws ih => cases w <;> simp [emit, emitWord, capWord, lowerWord, feed_pascal, feed_camel, ih] <;> simp [NameAll.feed, NameAll.pre]
  have hsep : ∀ (r : NameAll) (f : Char → List Char) (sep : List Char),
      (∀ g k c, r.feed cc g k c = f c) → r.pre = sep → ∀ (ws : List (List Char)),
      (∀ w ∈ ws, w ≠ []) → emit cc r true ws = sep.intercalate (ws.map (·.flatMap f)) ∧
        (ws ≠ [] → emit cc r false ws = sep ++ sep.intercalate (ws.map (·.flatMap f))) := by
    intro r f sep hf hp ws
    induction ws with
    | nil => intro _; simp [emit]
    | cons w ws ih =>
      intro h
      obtain ⟨ih1, ih2⟩ := ih (fun w hw => h w (by simp [hw]))
      obtain ⟨c, w', rfl⟩ : ∃ c w', w = c :: w' := by
        cases w with
        | nil => exact absurd rfl (h [] (by simp))
        | cons c w' => exact ⟨_, _, rfl⟩
      have hff : r.feed cc false 0 = f := by funext c; exact hf _ _ _
      cases ws with
      | nil => simp [emit, emitWord, hf, hp, hff, List.intercalate]
      | cons v vs =>
        have := ih2 (by simp)
        simp only [emit] at this ih1 ⊢
        rw [this]
        simp [emitWord, hf, hp, hff, List.intercalate]
  obtain ⟨h1, h2⟩ := hr
  cases r with
  | index => exact absurd rfl h1
  | name => exact absurd rfl h2
  | pascal =>
    cases ws with
    | nil => rfl
    | cons w ws =>
      simp only [emit, hcap, inCase]
      cases w <;> simp [emitWord, capWord, lowerWord, feed_pascal] <;> simp [NameAll.feed]
  | camel =>
    cases ws with
    | nil => rfl
    | cons w ws =>
      simp only [emit, hcam, inCase]
      cases w <;> simp [emitWord, lowerWord, feed_camel] <;> simp [NameAll.feed]
  | snake => exact (hsep .snake cc.lower _ (fun _ _ _ => rfl) rfl ws hws).1
  | screamingSnake => exact (hsep .screamingSnake cc.upper _ (fun _ _ _ => rfl) rfl ws hws).1
  | kebab => exact (hsep .kebab cc.lower _ (fun _ _ _ => rfl) rfl ws hws).1
  | screamingKebab => exact (hsep .screamingKebab cc.upper _ (fun _ _ _ => rfl) rfl ws hws).1

theorem apply_eq (r : NameAll) (hr : r.Joins) (s : List Char) :
    r.apply cc s = some (inCase cc r (words cc s)) := by
  have h : r.apply cc s =
      some (s.foldl (r.step cc) { output := [], count := 0, group := true }).output := by
    obtain ⟨h1, h2⟩ := hr
    cases r <;> first | rfl | exact absurd rfl h1 | exact absurd rfl h2
  rw [h, foldl_go, (go_spec r s).1, ← emit_inCase r hr _ (words_ne s)]
  simp

/-! ### Collisions -/

theorem parts_free {sep : Char} (w : List Char) (h : sep ∉ w) : parts sep w = [w] := by
  induction w with
  | nil => rfl
  | cons c w ih =>
    simp only [List.mem_cons, not_or] at h
    simp [parts, Ne.symm h.1, ih h.2]

theorem parts_append {sep : Char} (w l : List Char) (h : sep ∉ w) :
    parts sep (w ++ sep :: l) = w :: parts sep l := by
  induction w with
  | nil => simp [parts]
  | cons c w ih =>
    simp only [List.mem_cons, not_or] at h
    simp [parts, Ne.symm h.1, ih h.2]

theorem parts_intercalate {sep : Char} (ws : List (List Char)) (h : ∀ w ∈ ws, sep ∉ w)
    (hne : ws ≠ []) : parts sep ([sep].intercalate ws) = ws := by
  induction ws with
  | nil => exact absurd rfl hne
  | cons w ws ih =>
    cases ws with
    | nil => simp [List.intercalate, parts_free w (h w (by simp))]
    | cons v vs =>
      have := ih (fun w hw => h w (by simp [hw])) (by simp)
      have e : [sep].intercalate (w :: v :: vs) = w ++ sep :: [sep].intercalate (v :: vs) := by
        simp [List.intercalate]
      rw [e, parts_append w _ (h w (by simp)), this]

theorem intercalate_inj {sep : Char} {vs ws : List (List Char)}
    (hv : ∀ w ∈ vs, w ≠ [] ∧ sep ∉ w) (hw : ∀ w ∈ ws, w ≠ [] ∧ sep ∉ w)
    (h : [sep].intercalate vs = [sep].intercalate ws) : vs = ws := by
  have key : ∀ (us : List (List Char)), (∀ w ∈ us, w ≠ [] ∧ sep ∉ w) →
      (parts sep ([sep].intercalate us)).filter (fun w => !w.isEmpty) = us := by
    intro us hu
    cases us with
    | nil => simp [List.intercalate, parts]
    | cons u us =>
      rw [parts_intercalate _ (fun w hw => (hu w hw).2) (by simp)]
      rw [List.filter_eq_self]
      intro a ha
      have := (hu a ha).1
      cases a <;> simp_all
  rw [← key vs hv, h, key ws hw]

theorem cutBefore_word (p : Char → Bool) (c : Char) (l rest : List Char)
    (h : ∀ d ∈ l, p d = false) (hr : ∀ b t, rest = b :: t → p b = true) :
    cutBefore p (c :: l ++ rest) = (c :: l) :: cutBefore p rest := by
  induction l generalizing c with
  | nil =>
    cases rest with
    | nil => rfl
    | cons b t => simp [cutBefore, hr b t rfl]
  | cons d l ih =>
    have := ih d (fun e he => h e (by simp [he]))
    simp only [List.cons_append, cutBefore, h d (by simp), Bool.false_eq_true, if_false] at this ⊢
    rw [this]

/-- A word whose first letter is upper case. -/
def Capital (p : Char → Bool) (w : List Char) : Prop :=
  ∃ c l, w = c :: l ∧ p c = true ∧ ∀ d ∈ l, p d = false

theorem cutBefore_flatten (p : Char → Bool) (ws : List (List Char)) (h : ∀ w ∈ ws, Capital p w) :
    cutBefore p ws.flatten = ws ∧ (∀ b t, ws.flatten = b :: t → p b = true) := by
  induction ws with
  | nil => simp [cutBefore]
  | cons w ws ih =>
    obtain ⟨ih1, ih2⟩ := ih (fun w hw => h w (by simp [hw]))
    obtain ⟨c, l, rfl, hc, hl⟩ := h w (by simp)
    constructor
    · rw [List.flatten_cons, cutBefore_word p c l _ hl ih2, ih1]
    · intro b t hb
      simp at hb
      rw [← hb.1]; exact hc

/-! ### ASCII -/

instance (c : Char) : Decidable (AsciiUpper c) := inferInstanceAs (Decidable (_ ∧ _))
instance (c : Char) : Decidable (AsciiLower c) := inferInstanceAs (Decidable (_ ∧ _))
instance (c : Char) : Decidable (AsciiDigit c) := inferInstanceAs (Decidable (_ ∧ _))

/-- Letters and digits. -/
def Alnum (c : Char) : Prop := AsciiUpper c ∨ AsciiLower c ∨ AsciiDigit c

instance (c : Char) : Decidable (Alnum c) := inferInstanceAs (Decidable (_ ∨ _))

def lowC (c : Char) : Char := if AsciiUpper c then Char.ofNat (c.toNat + 32) else c
def upC (c : Char) : Char := if AsciiLower c then Char.ofNat (c.toNat - 32) else c

theorem alnum_lt {c : Char} (h : Alnum c) : c.toNat < 128 := by
  have hn : ∀ d : Char, c ≤ d → c.toNat ≤ d.toNat := fun d hd => hd
  rcases h with h | h | h
  · have := hn _ h.2; exact Nat.lt_of_le_of_lt this (by decide)
  · have := hn _ h.2; exact Nat.lt_of_le_of_lt this (by decide)
  · have := hn _ h.2; exact Nat.lt_of_le_of_lt this (by decide)

theorem by_table {P : Char → Prop} (h : ∀ n : Nat, n < 128 → Alnum (Char.ofNat n) → P (Char.ofNat n))
    {c : Char} (hc : Alnum c) : P c := by
  have e : Char.ofNat c.toNat = c := Char.ofNat_toNat c
  have := h c.toNat (alnum_lt hc)
  rw [e] at this
  exact this hc

/-- What the tables say about a letter or digit. -/
def Facts (c : Char) : Prop :=
  lowC (upC c) = lowC c ∧ upC (lowC c) = upC c ∧ ¬ AsciiUpper (lowC c) ∧ Alnum (lowC c) ∧
      Alnum (upC c) ∧ lowC c ≠ '_' ∧ lowC c ≠ '-' ∧ upC c ≠ '_' ∧ upC c ≠ '-' ∧
      (¬ AsciiDigit c → AsciiUpper (upC c)) ∧ (¬ AsciiUpper c → lowC c = c) ∧
      (AsciiUpper c → upC c = c) ∧ (AsciiUpper c → ¬ AsciiLower c ∧ ¬ AsciiDigit c) ∧ c ≠ '_'

set_option synthInstance.maxSize 1000 in
set_option synthInstance.maxHeartbeats 200000 in
instance (c : Char) : Decidable (Facts c) := by unfold Facts; infer_instance

theorem table_facts : ∀ n : Nat, n < 128 → Alnum (Char.ofNat n) → Facts (Char.ofNat n) := by
  decide +kernel

theorem facts {c : Char} (hc : Alnum c) : Facts c := by_table (P := Facts) table_facts hc

theorem lower_alnum (ha : Ascii cc) {c : Char} (hc : Alnum c) : cc.lower c = [lowC c] := by
  have hf := facts hc
  rcases hc with h | h | h
  · rw [ha.lower_upper c h, lowC, if_pos h]
  · rw [ha.lower_lower c h, lowC, if_neg (fun hu => (hf.2.2.2.2.2.2.2.2.2.2.2.2.1 hu).1 h)]
  · rw [ha.lower_digit c h, lowC, if_neg (fun hu => (hf.2.2.2.2.2.2.2.2.2.2.2.2.1 hu).2 h)]

theorem digit_not_lower : ∀ n : Nat, n < 128 → Alnum (Char.ofNat n) →
    (AsciiDigit (Char.ofNat n) → ¬ AsciiLower (Char.ofNat n)) := by decide +kernel

theorem upper_alnum (ha : Ascii cc) {c : Char} (hc : Alnum c) : cc.upper c = [upC c] := by
  have hf := facts hc
  have hd := by_table (P := fun c => AsciiDigit c → ¬ AsciiLower c) digit_not_lower hc
  rcases hc with h | h | h
  · rw [ha.upper_upper c h, upC, if_neg (hf.2.2.2.2.2.2.2.2.2.2.2.2.1 h).1]
  · rw [ha.upper_lower c h, upC, if_pos h]
  · rw [ha.upper_digit c h, upC, if_neg (hd h)]

theorem isUpper_alnum (ha : Ascii cc) {c : Char} (hc : Alnum c) :
    cc.isUpper c = true ↔ AsciiUpper c := by
  have hf := facts hc
  rcases hc with h | h | h
  · simp [ha.isUpper_upper c h, h]
  · simp only [ha.isUpper_lower c h, Bool.false_eq_true, false_iff]
    exact fun hu => (hf.2.2.2.2.2.2.2.2.2.2.2.2.1 hu).1 h
  · simp only [ha.isUpper_digit c h, Bool.false_eq_true, false_iff]
    exact fun hu => (hf.2.2.2.2.2.2.2.2.2.2.2.2.1 hu).2 h

/-- A word of letters and digits. -/
def AlnumWord (w : List Char) : Prop := w ≠ [] ∧ ∀ c ∈ w, Alnum c

theorem lowerWord_eq (ha : Ascii cc) (w : List Char) (hw : ∀ c ∈ w, Alnum c) :
    lowerWord cc w = w.map lowC := by
  induction w with
  | nil => rfl
  | cons c w ih =>
    have := ih (fun d hd => hw d (by simp [hd]))
    simp only [lowerWord, List.flatMap_cons, List.map_cons] at this ⊢
    rw [lower_alnum ha (hw c (by simp)), this]; rfl

theorem upperWord_eq (ha : Ascii cc) (w : List Char) (hw : ∀ c ∈ w, Alnum c) :
    upperWord cc w = w.map upC := by
  induction w with
  | nil => rfl
  | cons c w ih =>
    have := ih (fun d hd => hw d (by simp [hd]))
    simp only [upperWord, List.flatMap_cons, List.map_cons] at this ⊢
    rw [upper_alnum ha (hw c (by simp)), this]; rfl

theorem words_mem (l : List Char) : ∀ w ∈ words cc l, ∀ c ∈ w, c ∈ l ∧ c ≠ '_' := by
  induction l with
  | nil => simp [words_nil]
  | cons a l ih =>
    by_cases ha : a = '_'
    · rw [ha, words_us]
      intro w hw c hc
      have := ih w hw c hc
      exact ⟨by simp [this.1], this.2⟩
    · rw [words_cons ha]
      intro w hw c hc
      split at hw
      · cases h : words cc l with
        | nil => rw [h] at hw; simp_all
        | cons x xs =>
          rw [h] at hw ih
          simp only [List.mem_cons] at hw
          rcases hw with rfl | hw
          · simp only [List.mem_cons] at hc
            rcases hc with rfl | hc
            · exact ⟨by simp, ha⟩
            · have := ih x (by simp) c hc
              exact ⟨by simp [this.1], this.2⟩
          · have := ih w (by simp [hw]) c hc
            exact ⟨by simp [this.1], this.2⟩
      · simp only [List.mem_cons] at hw
        rcases hw with rfl | hw
        · simp only [List.mem_singleton] at hc
          subst hc
          exact ⟨by simp, ha⟩
        · have := ih w hw c hc
          exact ⟨by simp [this.1], this.2⟩

theorem words_head {b : Char} (hb : b ≠ '_') (l : List Char) :
    ∃ x xs, words cc (b :: l) = (b :: x) :: xs ∧ True := by
  rw [words_cons hb]
  split
  · split
    · exact ⟨_, _, rfl, trivial⟩
    · exact ⟨_, _, rfl, trivial⟩
  · exact ⟨_, _, rfl, trivial⟩

theorem words_tail (l : List Char) : ∀ w ∈ words cc l, ∀ c ∈ w.tail, cc.isUpper c = false := by
  induction l with
  | nil => simp [words_nil]
  | cons a l ih =>
    by_cases ha : a = '_'
    · rw [ha, words_us]; exact ih
    · rw [words_cons ha]
      intro w hw c hc
      split at hw
      · rename_i hcont
        cases l with
        | nil => simp [continues] at hcont
        | cons b l =>
          simp only [continues, Bool.and_eq_true, decide_eq_true_eq, Bool.not_eq_true'] at hcont
          obtain ⟨x, xs, hx, hb⟩ := words_head hcont.1 (cc := cc) l
          rw [hx] at hw ih
          simp only [List.mem_cons] at hw
          rcases hw with rfl | hw
          · simp only [List.tail_cons, List.mem_cons] at hc
            rcases hc with rfl | hc
            · exact hcont.2
            · exact ih (b :: x) (by simp) c (by simpa using hc)
          · exact ih w (by simp [hw]) c hc
      · simp only [List.mem_cons] at hw
        rcases hw with rfl | hw
        · simp at hc
        · exact ih w hw c hc

theorem words_flatten (l : List Char) : (words cc l).flatten = l.filter (· ≠ '_') := by
  induction l with
  | nil => simp [words_nil]
  | cons a l ih =>
    by_cases ha : a = '_'
    · rw [ha, words_us, ih]; simp
    · rw [words_cons ha]
      split
      · rename_i hcont
        obtain ⟨x, xs, hx⟩ := continues_words hcont
        rw [hx] at ih ⊢
        simp only [List.flatten_cons, List.cons_append] at ih ⊢
        rw [ih]; simp [ha]
      · rw [List.flatten_cons, ih]; simp [ha]

theorem words_alnum {s : List Char} (hs : AsciiIdent s) : ∀ w ∈ words cc s, AlnumWord w := by
  intro w hw
  refine ⟨words_ne s w hw, fun c hc => ?_⟩
  obtain ⟨h1, h2⟩ := words_mem s w hw c hc
  rcases hs c h1 with h | h | h | h
  · exact .inl h
  · exact .inr (.inl h)
  · exact .inr (.inr h)
  · exact absurd h h2

theorem map_up_low {v w : List Char} (hv : ∀ c ∈ v, Alnum c) (hw : ∀ c ∈ w, Alnum c) :
    v.map upC = w.map upC ↔ v.map lowC = w.map lowC := by
  have e1 : ∀ (u : List Char), (∀ c ∈ u, Alnum c) → u.map lowC = (u.map upC).map lowC := by
    intro u hu
    rw [List.map_map]
    exact List.map_congr_left fun c hc => (facts (hu c hc)).1.symm
  have e2 : ∀ (u : List Char), (∀ c ∈ u, Alnum c) → u.map upC = (u.map lowC).map upC := by
    intro u hu
    rw [List.map_map]
    exact List.map_congr_left fun c hc => (facts (hu c hc)).2.1.symm
  constructor
  · intro h; rw [e1 v hv, e1 w hw, h]
  · intro h; rw [e2 v hv, e2 w hw, h]

/-- Mapping by two functions that identify the same elements. -/
theorem map_iff {f g : List Char → List Char} {P : List Char → Prop}
    (h : ∀ v w, P v → P w → (f v = f w ↔ g v = g w)) :
    ∀ (vs ws : List (List Char)), (∀ v ∈ vs, P v) → (∀ w ∈ ws, P w) →
      (vs.map f = ws.map f ↔ vs.map g = ws.map g) := by
  intro vs
  induction vs with
  | nil => intro ws _ _; cases ws <;> simp
  | cons v vs ih =>
    intro ws hv hw
    cases ws with
    | nil => simp
    | cons w ws =>
      simp only [List.map_cons, List.cons.injEq]
      rw [h v w (hv v (by simp)) (hw w (by simp)),
        ih ws (fun v hv' => hv v (by simp [hv'])) (fun w hw' => hw w (by simp [hw']))]

theorem intercalate_map_iff {sep : Char} {f : List Char → List Char}
    {vs ws : List (List Char)}
    (hv : ∀ v ∈ vs, f v ≠ [] ∧ sep ∉ f v) (hw : ∀ w ∈ ws, f w ≠ [] ∧ sep ∉ f w) :
    [sep].intercalate (vs.map f) = [sep].intercalate (ws.map f) ↔ vs.map f = ws.map f := by
  constructor
  · refine intercalate_inj ?_ ?_
    · intro w hw'
      obtain ⟨v, hv', rfl⟩ := List.mem_map.mp hw'
      exact hv v hv'
    · intro w hw'
      obtain ⟨v, hv', rfl⟩ := List.mem_map.mp hw'
      exact hw v hv'
  · intro h; rw [h]

theorem sep_free (ha : Ascii cc) {w : List Char} (hw : AlnumWord w) (sep : Char)
    (hs : sep = '_' ∨ sep = '-') :
    (lowerWord cc w ≠ [] ∧ sep ∉ lowerWord cc w) ∧ (upperWord cc w ≠ [] ∧ sep ∉ upperWord cc w) := by
  rw [lowerWord_eq ha w hw.2, upperWord_eq ha w hw.2]
  refine ⟨⟨by simp [hw.1], ?_⟩, by simp [hw.1], ?_⟩
  · intro h
    obtain ⟨c, hc, he⟩ := List.mem_map.mp h
    have := facts (hw.2 c hc)
    rcases hs with rfl | rfl
    · exact this.2.2.2.2.2.1 he
    · exact this.2.2.2.2.2.2.1 he
  · intro h
    obtain ⟨c, hc, he⟩ := List.mem_map.mp h
    have := facts (hw.2 c hc)
    rcases hs with rfl | rfl
    · exact this.2.2.2.2.2.2.2.1 he
    · exact this.2.2.2.2.2.2.2.2.1 he

theorem upper_iff_lower (ha : Ascii cc) {v w : List Char} (hv : AlnumWord v) (hw : AlnumWord w) :
    upperWord cc v = upperWord cc w ↔ lowerWord cc v = lowerWord cc w := by
  rw [lowerWord_eq ha v hv.2, upperWord_eq ha v hv.2, lowerWord_eq ha w hw.2, upperWord_eq ha w hw.2]
  exact map_up_low hv.2 hw.2

theorem conv_alnum {w : List Char} (h : ConvWord w) : AlnumWord w := by
  obtain ⟨c, l, rfl, hc, hl⟩ := h
  refine ⟨by simp, ?_⟩
  intro d hd
  simp only [List.mem_cons] at hd
  rcases hd with rfl | hd
  · rcases hc with h | h
    · exact .inl h
    · exact .inr (.inl h)
  · rcases hl d hd with h | h
    · exact .inr (.inl h)
    · exact .inr (.inr h)

theorem capWord_eq (ha : Ascii cc) {c : Char} {l : List Char} (h : ∀ d ∈ c :: l, Alnum d) :
    capWord cc (c :: l) = upC c :: l.map lowC := by
  simp only [capWord]
  rw [upper_alnum ha (h c (by simp)), lowerWord_eq ha l (fun d hd => h d (by simp [hd]))]
  rfl

theorem cap_iff_lower (ha : Ascii cc) {v w : List Char} (hv : AlnumWord v) (hw : AlnumWord w) :
    capWord cc v = capWord cc w ↔ lowerWord cc v = lowerWord cc w := by
  rw [lowerWord_eq ha v hv.2, lowerWord_eq ha w hw.2]
  obtain ⟨hv1, hv2⟩ := hv
  obtain ⟨hw1, hw2⟩ := hw
  cases v with
  | nil => exact absurd rfl hv1
  | cons c v =>
    cases w with
    | nil => exact absurd rfl hw1
    | cons d w =>
      rw [capWord_eq ha hv2, capWord_eq ha hw2]
      simp only [List.map_cons, List.cons.injEq]
      have h := map_up_low (v := [c]) (w := [d]) (by simpa using hv2 c (by simp))
        (by simpa using hw2 d (by simp))
      simp only [List.map_cons, List.map_nil, List.cons.injEq, and_true] at h
      rw [h]

theorem conv_digit {c : Char} (h : AsciiUpper c ∨ AsciiLower c) : ¬ AsciiDigit c := by
  have hA : Alnum c := by rcases h with h | h; exact .inl h; exact .inr (.inl h)
  rcases h with h | h
  · exact ((facts hA).2.2.2.2.2.2.2.2.2.2.2.2.1 h).2
  · intro hd
    exact by_table (P := fun c => AsciiDigit c → ¬ AsciiLower c) digit_not_lower hA hd h

theorem cap_capital (ha : Ascii cc) {w : List Char} (hw : ConvWord w) :
    Capital cc.isUpper (capWord cc w) := by
  have hA := conv_alnum hw
  obtain ⟨c, l, rfl, hc, hl⟩ := hw
  have hcA := hA.2 c (by simp)
  refine ⟨upC c, l.map lowC, capWord_eq ha hA.2, ?_, ?_⟩
  · rw [isUpper_alnum ha (facts hcA).2.2.2.2.1]
    exact (facts hcA).2.2.2.2.2.2.2.2.2.1 (conv_digit hc)
  · intro d hd
    obtain ⟨e, he, rfl⟩ := List.mem_map.mp hd
    have heA := facts (hA.2 e (by simp [he]))
    have := isUpper_alnum ha heA.2.2.2.1
    cases h : cc.isUpper (lowC e)
    · rfl
    · exact absurd (this.mp h) heA.2.2.1

theorem lower_noUpper (ha : Ascii cc) {w : List Char} (hw : AlnumWord w) :
    ∃ c l, lowerWord cc w = c :: l ∧ ∀ d ∈ l, cc.isUpper d = false := by
  rw [lowerWord_eq ha w hw.2]
  cases w with
  | nil => exact absurd rfl hw.1
  | cons c w =>
    refine ⟨lowC c, w.map lowC, rfl, ?_⟩
    intro d hd
    obtain ⟨e, he, rfl⟩ := List.mem_map.mp hd
    have heA := facts (hw.2 e (by simp [he]))
    have := isUpper_alnum ha heA.2.2.2.1
    cases h : cc.isUpper (lowC e)
    · rfl
    · exact absurd (this.mp h) heA.2.2.1

theorem caps_capital (ha : Ascii cc) {ws : List (List Char)} (hw : ∀ w ∈ ws, ConvWord w) :
    ∀ v ∈ ws.map (capWord cc), Capital cc.isUpper v := by
  intro v hv
  obtain ⟨u, hu, rfl⟩ := List.mem_map.mp hv
  exact cap_capital ha (hw u hu)

/-- When the names of two identifiers collide. -/
theorem inCase_iff (ha : Ascii cc) (r : NameAll) (hr : r.Joins) {vs ws : List (List Char)}
    (hv : ∀ v ∈ vs, AlnumWord v) (hw : ∀ w ∈ ws, AlnumWord w)
    (hc : r = .pascal ∨ r = .camel → (∀ v ∈ vs, ConvWord v) ∧ (∀ w ∈ ws, ConvWord w)) :
    inCase cc r vs = inCase cc r ws ↔ vs.map (lowerWord cc) = ws.map (lowerWord cc) := by
  obtain ⟨h1, h2⟩ := hr
  have hcap := map_iff (f := capWord cc) (g := lowerWord cc) (P := AlnumWord)
    (fun v w hv hw => cap_iff_lower ha hv hw)
  have hup := map_iff (f := upperWord cc) (g := lowerWord cc) (P := AlnumWord)
    (fun v w hv hw => upper_iff_lower ha hv hw)
  cases r with
  | index => exact absurd rfl h1
  | name => exact absurd rfl h2
  | pascal =>
    obtain ⟨cv, cw⟩ := hc (.inl rfl)
    simp only [inCase]
    rw [← hcap _ _ hv hw]
    constructor
    · intro h
      rw [← (cutBefore_flatten cc.isUpper _ (caps_capital ha cv)).1, h,
        (cutBefore_flatten cc.isUpper _ (caps_capital ha cw)).1]
    · intro h; rw [h]
  | camel =>
    obtain ⟨cv, cw⟩ := hc (.inr rfl)
    cases vs with
    | nil =>
      cases ws with
      | nil => simp [inCase]
      | cons w ws =>
        obtain ⟨c, l, hcl, _⟩ := lower_noUpper ha (hw w (by simp))
        simp [inCase, hcl]
    | cons v vs =>
      obtain ⟨c, l, hcl, hl⟩ := lower_noUpper ha (hv v (by simp))
      cases ws with
      | nil => simp [inCase, hcl]
      | cons w ws =>
        obtain ⟨d, k, hdk, hk⟩ := lower_noUpper ha (hw w (by simp))
        have fv := cutBefore_flatten cc.isUpper _
          (caps_capital ha (ws := vs) (fun u hu => cv u (by simp [hu])))
        have fw := cutBefore_flatten cc.isUpper _
          (caps_capital ha (ws := ws) (fun u hu => cw u (by simp [hu])))
        have hcap' := hcap vs ws (fun u hu => hv u (by simp [hu]))
          (fun u hu => hw u (by simp [hu]))
        simp only [inCase, List.map_cons, List.cons.injEq]
        rw [← hcap', hcl, hdk]
        constructor
        · intro h
          have h' := congrArg (cutBefore cc.isUpper) h
          rw [cutBefore_word _ c l _ hl fv.2, cutBefore_word _ d k _ hk fw.2, fv.1, fw.1] at h'
          simpa using h'
        · intro h; rw [h.1, h.2]
  | snake =>
    exact intercalate_map_iff (fun v h => (sep_free ha (hv v h) _ (.inl rfl)).1)
      (fun v h => (sep_free ha (hw v h) _ (.inl rfl)).1)
  | screamingSnake =>
    rw [← hup _ _ hv hw]
    exact intercalate_map_iff (fun v h => (sep_free ha (hv v h) _ (.inl rfl)).2)
      (fun v h => (sep_free ha (hw v h) _ (.inl rfl)).2)
  | kebab =>
    exact intercalate_map_iff (fun v h => (sep_free ha (hv v h) _ (.inr rfl)).1)
      (fun v h => (sep_free ha (hw v h) _ (.inr rfl)).1)
  | screamingKebab =>
    rw [← hup _ _ hv hw]
    exact intercalate_map_iff (fun v h => (sep_free ha (hv v h) _ (.inr rfl)).2)
      (fun v h => (sep_free ha (hw v h) _ (.inr rfl)).2)

/-! ### Conventional identifiers -/

theorem cutBefore_none (p : Char → Bool) (c : Char) (l : List Char) (h : ∀ d ∈ l, p d = false) :
    cutBefore p (c :: l) = [c :: l] := by
  have := cutBefore_word p c l [] h (by simp)
  simpa [cutBefore] using this

theorem flatMap_single {f : List Char → List (List Char)} {ws : List (List Char)}
    (h : ∀ w ∈ ws, f w = [w]) : ws.flatMap f = ws := by
  induction ws with
  | nil => rfl
  | cons w ws ih =>
    rw [List.flatMap_cons, h w (by simp), ih (fun w hw => h w (by simp [hw]))]; rfl

theorem tail_alnum {l : List Char} (h : ∀ d ∈ l, AsciiLower d ∨ AsciiDigit d) :
    ∀ d ∈ l, Alnum d := fun d hd => .inr (h d hd)

theorem notUpper (ha : Ascii cc) {d : Char} (h : AsciiLower d ∨ AsciiDigit d) :
    cc.isUpper d = false := by
  rcases h with h | h
  · exact ha.isUpper_lower d h
  · exact ha.isUpper_digit d h

theorem words_snake (ha : Ascii cc) {s : List Char} {ws : List (List Char)} (hne : ws ≠ [])
    (hs : s = ['_'].intercalate ws)
    (hw : ∀ w ∈ ws, ∃ c l, w = c :: l ∧ AsciiLower c ∧ ∀ d ∈ l, AsciiLower d ∨ AsciiDigit d) :
    words cc s = ws := by
  subst hs
  have hfree : ∀ w ∈ ws, '_' ∉ w := by
    intro w hw' hm
    obtain ⟨c, l, rfl, hc, hl⟩ := hw w hw'
    have : Alnum '_' := by
      simp only [List.mem_cons] at hm
      rcases hm with h | h
      · rw [h]; exact .inr (.inl hc)
      · exact tail_alnum hl _ h
    exact absurd this (by decide)
  unfold words
  rw [parts_intercalate ws hfree hne]
  apply flatMap_single
  intro w hw'
  obtain ⟨c, l, rfl, hc, hl⟩ := hw w hw'
  exact cutBefore_none _ _ _ (fun d hd => notUpper ha (hl d hd))

theorem words_pascal (ha : Ascii cc) {s : List Char} {ws : List (List Char)}
    (hs : s = ws.flatten)
    (hw : ∀ w ∈ ws, ∃ c l, w = c :: l ∧ AsciiUpper c ∧ ∀ d ∈ l, AsciiLower d ∨ AsciiDigit d) :
    words cc s = ws := by
  subst hs
  have hfree : '_' ∉ ws.flatten := by
    intro hm
    obtain ⟨w, hw', hm⟩ := List.mem_flatten.mp hm
    obtain ⟨c, l, rfl, hc, hl⟩ := hw w hw'
    have : Alnum '_' := by
      simp only [List.mem_cons] at hm
      rcases hm with h | h
      · rw [h]; exact .inl hc
      · exact tail_alnum hl _ h
    exact absurd this (by decide)
  have hcap : ∀ w ∈ ws, Capital cc.isUpper w := by
    intro w hw'
    obtain ⟨c, l, rfl, hc, hl⟩ := hw w hw'
    exact ⟨c, l, rfl, ha.isUpper_upper c hc, fun d hd => notUpper ha (hl d hd)⟩
  unfold words
  rw [parts_free _ hfree]
  simp [(cutBefore_flatten _ _ hcap).1]

theorem words_conv (ha : Ascii cc) {s : List Char} (hs : SnakeIdent s ∨ PascalIdent s) :
    ∀ w ∈ words cc s, ConvWord w := by
  rcases hs with ⟨ws, hne, he, hw⟩ | ⟨ws, hne, he, hw⟩
  · rw [words_snake ha hne he hw]
    intro w hw'
    obtain ⟨c, l, rfl, hc, hl⟩ := hw w hw'
    exact ⟨c, l, rfl, .inr hc, hl⟩
  · rw [words_pascal ha he hw]
    intro w hw'
    obtain ⟨c, l, rfl, hc, hl⟩ := hw w hw'
    exact ⟨c, l, rfl, .inl hc, hl⟩

theorem map_inj_on {f : List Char → List Char} {P : List Char → Prop}
    (h : ∀ v w, P v → P w → f v = f w → v = w) :
    ∀ {vs ws : List (List Char)}, (∀ v ∈ vs, P v) → (∀ w ∈ ws, P w) →
      vs.map f = ws.map f → vs = ws := by
  intro vs ws hv hw he
  have := (map_iff (f := f) (g := id) (P := P) (fun v w hv hw =>
    ⟨fun e => h v w hv hw e, fun e => by rw [show v = w from e]⟩) vs ws hv hw).mp he
  simpa using this

theorem snake_lower_inj (ha : Ascii cc) {v w : List Char}
    (hv : ∃ c l, v = c :: l ∧ AsciiLower c ∧ ∀ d ∈ l, AsciiLower d ∨ AsciiDigit d)
    (hw : ∃ c l, w = c :: l ∧ AsciiLower c ∧ ∀ d ∈ l, AsciiLower d ∨ AsciiDigit d)
    (h : lowerWord cc v = lowerWord cc w) : v = w := by
  have key : ∀ {u : List Char}, (∃ c l, u = c :: l ∧ AsciiLower c ∧ ∀ d ∈ l, AsciiLower d ∨ AsciiDigit d) →
      lowerWord cc u = u := by
    rintro u ⟨c, l, rfl, hc, hl⟩
    have hA : ∀ d ∈ c :: l, AsciiLower d ∨ AsciiDigit d := by
      intro d hd
      simp only [List.mem_cons] at hd
      rcases hd with rfl | hd
      · exact .inl hc
      · exact hl d hd
    rw [lowerWord_eq ha _ (tail_alnum hA)]
    conv => rhs; rw [← List.map_id (c :: l)]
    apply List.map_congr_left
    intro d hd
    have hn := notUpper ha (hA d hd)
    refine (facts (tail_alnum hA d hd)).2.2.2.2.2.2.2.2.2.2.1 fun hu => ?_
    rw [(isUpper_alnum ha (tail_alnum hA d hd)).mpr hu] at hn
    exact absurd hn (by simp)
  rw [← key hv, h, key hw]

theorem pascal_lower_inj (ha : Ascii cc) {v w : List Char}
    (hv : ∃ c l, v = c :: l ∧ AsciiUpper c ∧ ∀ d ∈ l, AsciiLower d ∨ AsciiDigit d)
    (hw : ∃ c l, w = c :: l ∧ AsciiUpper c ∧ ∀ d ∈ l, AsciiLower d ∨ AsciiDigit d)
    (h : lowerWord cc v = lowerWord cc w) : v = w := by
  have conv : ∀ {u : List Char}, (∃ c l, u = c :: l ∧ AsciiUpper c ∧ ∀ d ∈ l, AsciiLower d ∨ AsciiDigit d) →
      AlnumWord u ∧ capWord cc u = u := by
    rintro u ⟨c, l, rfl, hc, hl⟩
    have hA : AlnumWord (c :: l) := conv_alnum ⟨c, l, rfl, .inl hc, hl⟩
    refine ⟨hA, ?_⟩
    rw [capWord_eq ha hA.2]
    have e1 : upC c = c := (facts (.inl hc)).2.2.2.2.2.2.2.2.2.2.2.1 hc
    rw [e1]
    congr 1
    conv => rhs; rw [← List.map_id l]
    apply List.map_congr_left
    intro d hd
    have hn := notUpper ha (hl d hd)
    refine (facts (tail_alnum hl d hd)).2.2.2.2.2.2.2.2.2.2.1 fun hu => ?_
    rw [(isUpper_alnum ha (tail_alnum hl d hd)).mpr hu] at hn
    exact absurd hn (by simp)
  rw [← (conv hv).2, (cap_iff_lower ha (conv hv).1 (conv hw).1).mpr h, (conv hw).2]

theorem apply_iff (ha : Ascii cc) (r : NameAll) (hr : r.Joins) {s t : List Char}
    (hs : AsciiIdent s) (ht : AsciiIdent t)
    (hc : r = .pascal ∨ r = .camel →
      (∀ w ∈ words cc s, ConvWord w) ∧ (∀ w ∈ words cc t, ConvWord w)) :
    r.apply cc s = r.apply cc t ↔
      (words cc s).map (lowerWord cc) = (words cc t).map (lowerWord cc) := by
  rw [apply_eq r hr, apply_eq r hr, Option.some.injEq]
  exact inCase_iff ha r hr (words_alnum hs) (words_alnum ht) hc

theorem apply_inj_snake (ha : Ascii cc) (r : NameAll) (hr : r ≠ .index) {s t : List Char}
    (hs : SnakeIdent s) (ht : SnakeIdent t) (h : r.apply cc s = r.apply cc t) : s = t := by
  by_cases hn : r = .name
  · subst hn; simpa [NameAll.apply] using h
  · rw [apply_eq r ⟨hr, hn⟩, apply_eq r ⟨hr, hn⟩, Option.some.injEq] at h
    have hcs := words_conv ha (.inl hs)
    have hct := words_conv ha (.inl ht)
    have h' := (inCase_iff ha r ⟨hr, hn⟩ (fun w hw => conv_alnum (hcs w hw))
      (fun w hw => conv_alnum (hct w hw)) (fun _ => ⟨hcs, hct⟩)).mp h
    obtain ⟨vs, hnv, hsv, hv⟩ := hs
    obtain ⟨ws, hnw, htw, hw⟩ := ht
    rw [words_snake ha hnv hsv hv, words_snake ha hnw htw hw] at h'
    have := map_inj_on (fun v w hv hw e => snake_lower_inj ha hv hw e) hv hw h'
    rw [hsv, htw, this]

theorem apply_inj_pascal (ha : Ascii cc) (r : NameAll) (hr : r ≠ .index) {s t : List Char}
    (hs : PascalIdent s) (ht : PascalIdent t) (h : r.apply cc s = r.apply cc t) : s = t := by
  by_cases hn : r = .name
  · subst hn; simpa [NameAll.apply] using h
  · rw [apply_eq r ⟨hr, hn⟩, apply_eq r ⟨hr, hn⟩, Option.some.injEq] at h
    have hcs := words_conv ha (.inr hs)
    have hct := words_conv ha (.inr ht)
    have h' := (inCase_iff ha r ⟨hr, hn⟩ (fun w hw => conv_alnum (hcs w hw))
      (fun w hw => conv_alnum (hct w hw)) (fun _ => ⟨hcs, hct⟩)).mp h
    obtain ⟨vs, hnv, hsv, hv⟩ := hs
    obtain ⟨ws, hnw, htw, hw⟩ := ht
    rw [words_pascal ha hsv hv, words_pascal ha htw hw] at h'
    have := map_inj_on (fun v w hv hw e => pascal_lower_inj ha hv hw e) hv hw h'
    rw [hsv, htw, this]

theorem expandAll_nodup {E : Type} (cc : CharCase) (r : NameAll) (idents : List (List Char))
    (P : List Char → Prop)
    (hinj : r ≠ .index → ∀ s t, P s → P t → r.apply cc s = r.apply cc t → s = t)
    (hconv : ∀ s ∈ idents, P (trimRaw s)) (hdistinct : (idents.map trimRaw).Nodup) :
    (expandAll (E := E) cc r (idents.map fun s => (none, s))).Nodup := by
  unfold expandAll
  rw [List.nodup_iff_pairwise_ne, List.pairwise_iff_getElem]
  intro i j hi hj hij
  simp only [List.length_mapIdx, List.length_map] at hi hj
  simp only [List.getElem_mapIdx, List.getElem_map]
  by_cases hr : r = .index
  · subst hr
    simp only [expandName, NameAll.apply, ne_eq, NameExpr.idx.injEq]
    omega
  · have hsome : ∀ s, ∃ n, r.apply cc s = some n := by
      intro s; cases r <;> first | exact absurd rfl hr | exact ⟨_, rfl⟩
    obtain ⟨n, hn⟩ := hsome (trimRaw idents[i])
    obtain ⟨m, hm⟩ := hsome (trimRaw idents[j])
    simp only [expandName, hn, hm, ne_eq, NameExpr.lit.injEq]
    intro he
    have := hinj hr _ _ (hconv _ (List.getElem_mem hi)) (hconv _ (List.getElem_mem hj))
      (by rw [hn, hm, he])
    rw [List.nodup_iff_pairwise_ne, List.pairwise_iff_getElem] at hdistinct
    have := hdistinct i j (by simpa using hi) (by simpa using hj) hij
    simp only [List.getElem_map] at this
    exact this ‹_›

end Musli.Rename
