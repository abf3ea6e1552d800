import Verif.Proofs.Float.EightDigits
/-!
# Reading digits
-/
set_option linter.unusedSectionVars false
namespace Musli.Dec2Flt

theorem chars_append (a b : List Nat) : chars (a ++ b) = chars a ++ chars b := by simp [chars]
theorem chars_length (a : List Nat) : (chars a).length = a.length := by simp [chars]

theorem parseDigits_spec {α : Type} (f : α → Nat → α) {ds : List Nat} {r : Bytes} (hd : ∀ d ∈ ds, d < 10)
    (hr : NoDigit r) (a : α) : parseDigits f (chars ds ++ r) a = (r, ds.foldl f a) := by
  induction ds generalizing a with
  | nil =>
    cases r with
    | nil => rfl
    | cons c r => simp [chars, parseDigits, hr c rfl]
  | cons d ds ih =>
    have h := hd d (by simp)
    simp only [chars, List.map_cons, List.cons_append, parseDigits, digitOf_char h, h, if_true, List.foldl_cons]
    exact ih (fun x hx => hd x (by simp [hx])) _

/-- Every text is a list of digits, as long as possible, and the rest. -/
theorem exists_digits (s : Bytes) : ∃ ds r, s = chars ds ++ r ∧ (∀ d ∈ ds, d < 10) ∧ NoDigit r := by
  induction s with
  | nil => exact ⟨[], [], by simp [chars], by simp, by simp [NoDigit]⟩
  | cons c s ih =>
    by_cases h : digitOf c < 10
    · obtain ⟨ds, r, h1, h2, h3⟩ := ih
      refine ⟨digitOf c :: ds, r, ?_, ?_, h3⟩
      · simp only [chars, List.map_cons, List.cons_append, char_digitOf h]
        exact congrArg (c :: ·) h1
      · intro d hd
        rcases List.mem_cons.1 hd with rfl | hd
        · exact h
        · exact h2 d hd
    · refine ⟨[], c :: s, by simp [chars], by simp, ?_⟩
      intro c' hc; simp at hc; exact hc ▸ h

/-- The digits in front are unique. -/
theorem digits_unique {a b : List Nat} {r q : Bytes} (ha : ∀ d ∈ a, d < 10) (hb : ∀ d ∈ b, d < 10)
    (hr : NoDigit r) (hq : NoDigit q) (h : chars a ++ r = chars b ++ q) : a = b ∧ r = q := by
  have h1 := parseDigits_spec (fun (l : List Nat) d => l ++ [d]) ha hr []
  have h2 := parseDigits_spec (fun (l : List Nat) d => l ++ [d]) hb hq []
  rw [h, h2] at h1
  have key : ∀ (l acc : List Nat), l.foldl (fun (l : List Nat) d => l ++ [d]) acc = acc ++ l := by
    intro l
    induction l with
    | nil => simp
    | cons d l ih => intro acc; rw [List.foldl_cons, ih]; simp
  simp only [key, List.nil_append, Prod.mk.injEq] at h1
  exact ⟨h1.2.symm, h1.1.symm⟩

theorem foldl_num10 (ds : List Nat) (x : Nat) :
    ds.foldl (fun n d => 10 * n + d) x = x * 10 ^ ds.length + num10 ds := by
  induction ds generalizing x with
  | nil => simp [num10]
  | cons d ds ih => rw [List.foldl_cons, ih]; simp only [num10, List.length_cons, Nat.pow_succ]; ring

theorem wrap_one (x y q M : Nat) : (x % M * y + q) % M = (x * y + q) % M := by
  simp [Nat.add_mod, Nat.mul_mod]

theorem wrap_step (x p y q M : Nat) : ((x % M + p) % M * y + q) % M = ((x + p) * y + q) % M := by
  simp [Nat.add_mod, Nat.mul_mod]

theorem foldl_wrap (ds : List Nat) {x : Nat} (hx : x < 2 ^ 64) :
    ds.foldl (fun x d => (x * 10 % 2 ^ 64 + d) % 2 ^ 64) x = (x * 10 ^ ds.length + num10 ds) % 2 ^ 64 := by
  induction ds generalizing x with
  | nil => simpa [num10] using (Nat.mod_eq_of_lt hx).symm
  | cons d ds ih =>
    rw [List.foldl_cons, ih (Nat.mod_lt _ (by norm_num)), wrap_step]
    congr 1
    simp only [num10, List.length_cons, Nat.pow_succ]; ring

theorem blocks_cases (s : Bytes) (x : Nat) :
    (∃ c0 c1 c2 c3 c4 c5 c6 c7 t, s = c0 :: c1 :: c2 :: c3 :: c4 :: c5 :: c6 :: c7 :: t ∧
      (∀ c ∈ [c0, c1, c2, c3, c4, c5, c6, c7], digitOf c < 10) ∧
      blocks s x = (parse8digits (le [c0, c1, c2, c3, c4, c5, c6, c7])).bind fun p =>
        blocks t ((x * 100000000 % 2 ^ 64 + p) % 2 ^ 64)) ∨ blocks s x = some (s, x) := by
  match s with
  | c0 :: c1 :: c2 :: c3 :: c4 :: c5 :: c6 :: c7 :: t =>
    rw [blocks]
    by_cases h : is8digits (le [c0, c1, c2, c3, c4, c5, c6, c7]) = true
    · left
      refine ⟨c0, c1, c2, c3, c4, c5, c6, c7, t, rfl, (is8digits_iff ..).1 h, ?_⟩
      simp only [h, if_true]
      rfl
    · right; simp only [h, if_false]; rfl
  | [] => right; rfl
  | [_] => right; rfl
  | [_, _] => right; rfl
  | [_, _, _] => right; rfl
  | [_, _, _, _] => right; rfl
  | [_, _, _, _, _] => right; rfl
  | [_, _, _, _, _, _] => right; rfl
  | [_, _, _, _, _, _, _] => right; rfl

theorem blocks_spec (s : Bytes) {x : Nat} (hx : x < 2 ^ 64) : ∃ a t, s = chars a ++ t ∧ (∀ d ∈ a, d < 10) ∧
    blocks s x = some (t, (x * 10 ^ a.length + num10 a) % 2 ^ 64) := by
  induction hn : s.length using Nat.strong_induction_on generalizing s x with
  | _ n ih =>
    rcases blocks_cases s x with ⟨c0, c1, c2, c3, c4, c5, c6, c7, t, rfl, hc, hb⟩ | hb
    · simp only [List.mem_cons, List.not_mem_nil, or_false, forall_eq_or_imp, forall_eq] at hc
      obtain ⟨h0, h1, h2, h3, h4, h5, h6, h7⟩ := hc
      have hch : [c0, c1, c2, c3, c4, c5, c6, c7] = chars [digitOf c0, digitOf c1, digitOf c2, digitOf c3, digitOf c4,
          digitOf c5, digitOf c6, digitOf c7] := by
        simp only [chars, List.map_cons, List.map_nil, char_digitOf, h0, h1, h2, h3, h4, h5, h6, h7]
      have hds : ∀ d ∈ [digitOf c0, digitOf c1, digitOf c2, digitOf c3, digitOf c4,
          digitOf c5, digitOf c6, digitOf c7], d < 10 := by
        simp only [List.mem_cons, List.not_mem_nil, or_false, forall_eq_or_imp, forall_eq]
        exact ⟨h0, h1, h2, h3, h4, h5, h6, h7⟩
      rw [hch, parse8digits_spec _ _ _ _ _ _ _ _ hds, Option.bind_some] at hb
      generalize [digitOf c0, digitOf c1, digitOf c2, digitOf c3, digitOf c4,
          digitOf c5, digitOf c6, digitOf c7] = a0 at hch hds hb
      obtain ⟨a, r, e1, e2, e3⟩ := ih t.length (by simp at hn; omega) t
        (x := (x * 100000000 % 2 ^ 64 + num10 a0) % 2 ^ 64) (Nat.mod_lt _ (by norm_num)) rfl
      have hl : a0.length = 8 := by
        have := congrArg List.length hch; rw [chars_length] at this; exact this.symm
      refine ⟨a0 ++ a, r, ?_, ?_, ?_⟩
      · rw [chars_append, ← hch, List.append_assoc, ← e1]; rfl
      · intro d hd
        rcases List.mem_append.1 hd with hd | hd
        · exact hds d hd
        · exact e2 d hd
      · rw [hb, e3, List.length_append, num10_append, hl]
        refine congrArg (fun z => some (r, z)) ?_
        rw [wrap_step]
        congr 1; rw [Nat.pow_add]; ring
    · exact ⟨[], s, by simp [chars], by simp, by simpa [hb, num10] using (Nat.mod_eq_of_lt hx).symm⟩

theorem tryParseDigits_spec {ds : List Nat} {r : Bytes} (hd : ∀ d ∈ ds, d < 10) (hr : NoDigit r) {x : Nat}
    (hx : x < 2 ^ 64) :
    tryParseDigits (chars ds ++ r) x = some (r, (x * 10 ^ ds.length + num10 ds) % 2 ^ 64) := by
  obtain ⟨a, t, h1, h2, h3⟩ := blocks_spec (chars ds ++ r) hx
  obtain ⟨b, q, rfl, h5, h6⟩ := exists_digits t
  rw [← List.append_assoc, ← chars_append] at h1
  obtain ⟨rfl, rfl⟩ := digits_unique hd (fun d hd => (List.mem_append.1 hd).elim (h2 d) (h5 d)) hr h6 h1
  rw [tryParseDigits, h3]
  simp only [Option.bind_eq_bind, Option.bind_some]
  rw [parseDigits_spec _ h5 hr, foldl_wrap _ (Nat.mod_lt _ (by norm_num))]
  refine congrArg (fun z => some (r, z)) ?_
  rw [wrap_one, num10_append, List.length_append, Nat.pow_add]
  congr 1; ring

/-- `try_parse_19digits` reads digits until there are nineteen of them. -/
theorem tryParse19digits_spec {ds : List Nat} {r : Bytes} (hd : ∀ d ∈ ds, d < 10) (hr : NoDigit r) {x : Nat}
    (hx : x < 10 ^ 19) : ∃ a b, ds = a ++ b ∧ (b = [] ∨ 10 ^ 18 ≤ x * 10 ^ a.length + num10 a) ∧
      x * 10 ^ a.length + num10 a < 10 ^ 19 ∧
      tryParse19digits (chars ds ++ r) x = some (chars b ++ r, x * 10 ^ a.length + num10 a) := by
  induction ds generalizing x with
  | nil =>
    refine ⟨[], [], rfl, .inl rfl, by simpa [num10] using hx, ?_⟩
    cases r with
    | nil => simp [chars, tryParse19digits, num10]
    | cons c r => simp [chars, tryParse19digits, num10, hr c rfl]
  | cons d ds ih =>
    have h := hd d (by simp)
    by_cases hm : x < min19DigitInt
    · have hx' : x * 10 + d < 10 ^ 19 := by unfold min19DigitInt at hm; omega
      obtain ⟨a, b, e1, e2, e3, e4⟩ := ih (fun x hx => hd x (by simp [hx])) hx'
      have hval : x * 10 ^ (d :: a).length + num10 (d :: a) = (x * 10 + d) * 10 ^ a.length + num10 a := by
        simp only [num10, List.length_cons, Nat.pow_succ]; ring
      refine ⟨d :: a, b, by rw [e1]; rfl, hval ▸ e2, hval ▸ e3, ?_⟩
      simp only [chars, List.map_cons, List.cons_append, tryParse19digits, digitOf_char h, h, hm, if_true, u64]
      rw [if_pos (by omega), hval]
      exact e4
    · refine ⟨[], d :: ds, rfl, .inr ?_, by simpa [num10] using hx, ?_⟩
      · unfold min19DigitInt at hm; simp [num10]; omega
      · simp [chars, tryParse19digits, hm, num10]

end Musli.Dec2Flt
