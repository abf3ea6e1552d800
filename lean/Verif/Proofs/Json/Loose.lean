import Verif.Spec.Json.Loose
import Verif.Proofs.Json.Decimals
import Verif.Proofs.Json.DecodeTy
import Verif.Proofs.Grammar
/-!
# Whatever the JSON decoder accepts is a text of the loose grammar
-/
set_option linter.unusedSectionVars false
namespace Musli.Json
open Musli Spec

/-- What is accepted is, after whitespace, as in `R`. -/
def Sound {α} (p : P α) (R : α → Bytes → Prop) : Prop :=
  ∀ s a r, p s = .ok (a, r) → ∃ ws x, Ws ws ∧ R a x ∧ s = ws ++ (x ++ r)

theorem ws_append {a b : Bytes} (ha : Ws a) (hb : Ws b) : Ws (a ++ b) := by
  intro x hx
  rcases List.mem_append.1 hx with h | h
  · exact ha x h
  · exact hb x h

theorem gap_append {first : Bool} {a b : Bytes} (ha : Gap first a) (hb : Gap first b) :
    Gap first (a ++ b) := by
  intro x hx
  rcases List.mem_append.1 hx with h | h
  · exact ha x h
  · exact hb x h

theorem gap_ws {first : Bool} {a : Bytes} (ha : Ws a) : Gap first a := by
  intro x hx
  rcases ha x hx with h | h | h | h <;> simp [h]

theorem gap_nil (first : Bool) : Gap first [] := fun _ h => nomatch h

theorem sound_map {α β} {p : P α} {R : α → Bytes → Prop} {Q : β → Bytes → Prop} (f : α → β)
    (h : Sound p R) (hf : ∀ a x, R a x → Q (f a) x) : Sound (do let a ← p; pure (f a)) Q := by
  intro s b r hs
  obtain ⟨a, s1, h1, h2⟩ := P.bind_eq_ok.1 hs
  cases h2
  obtain ⟨ws, x, hw, hx, e⟩ := h _ _ _ h1
  exact ⟨ws, x, hw, hf a x hx, e⟩

theorem sound_check {α β} {p : P α} {R : α → Bytes → Prop} {Q : β → Bytes → Prop} (f : α → Except Err β)
    (h : Sound p R) (hf : ∀ a b x, f a = .ok b → R a x → Q b x) :
    Sound (do let a ← p; P.ofExcept (f a)) Q := by
  intro s b r hs
  obtain ⟨a, s1, h1, h2⟩ := P.bind_eq_ok.1 hs
  obtain ⟨h3, rfl⟩ := ofExcept_inv h2
  obtain ⟨ws, x, hw, hx, e⟩ := h _ _ _ h1
  exact ⟨ws, x, hw, hf a b x h3 hx, e⟩

theorem sound_fail {α} (e : Err) (R : α → Bytes → Prop) : Sound (P.fail e) R := by
  intro s a r h; cases h

theorem ofByte_first {b : Byte} {t : Token} (h : Token.ofByte b = t) :
    (t = .null → b = 0x6E#8) ∧ (t = .tru → b = 0x74#8) ∧ (t = .fals → b = 0x66#8) := by
  subst h
  revert b
  decide

/-! ## Gaps -/

theorem nextValue_inv (first : Bool) : ∀ (s s' : Bytes) (b : Bool), nextValue first s = .ok (b, s') →
    ∃ g, Gap first g ∧ s = g ++ s' ∧ (b = false → ∃ r, s' = 0x5D#8 :: r) := by
  intro s
  induction s with
  | nil => intro s' b h; cases h
  | cons x s ih =>
    intro s' b h
    unfold nextValue at h
    split at h
    · rename_i hx
      obtain ⟨g, hg, e, hb⟩ := ih _ _ h
      refine ⟨x :: g, ?_, by rw [e]; rfl, hb⟩
      intro y hy
      rcases List.mem_cons.1 hy with rfl | hy
      · rcases isWs_cases hx with h | h | h | h <;> simp [h]
      · exact hg y hy
    · split at h
      · cases h
        exact ⟨[], gap_nil _, rfl, by simp⟩
      · split at h
        · rename_i hc
          simp only [Bool.and_eq_true, beq_iff_eq, Bool.not_eq_true'] at hc
          obtain ⟨g, hg, e, hb⟩ := ih _ _ h
          refine ⟨x :: g, ?_, by rw [e]; rfl, hb⟩
          intro y hy
          rcases List.mem_cons.1 hy with rfl | hy
          · simp [hc]
          · exact hg y hy
        · split at h
          · rename_i hc
            cases h
            have : x = 0x5D#8 := by simpa using hc
            exact ⟨[], gap_nil _, rfl, fun _ => ⟨s, by rw [this]⟩⟩
          · cases h

theorem nextKey_inv (first : Bool) : ∀ (s s' : Bytes) (b : Bool), nextKey first s = .ok (b, s') →
    ∃ g, Gap first g ∧ s = g ++ s' ∧ (b = false → ∃ r, s' = 0x7D#8 :: r) ∧
      (b = true → ∃ r, s' = 0x22#8 :: r) := by
  intro s
  induction s with
  | nil => intro s' b h; cases h
  | cons x s ih =>
    intro s' b h
    unfold nextKey at h
    split at h
    · rename_i hx
      obtain ⟨g, hg, e, hb⟩ := ih _ _ h
      refine ⟨x :: g, ?_, by rw [e]; rfl, hb⟩
      intro y hy
      rcases List.mem_cons.1 hy with rfl | hy
      · rcases isWs_cases hx with h | h | h | h <;> simp [h]
      · exact hg y hy
    · split at h
      · rename_i hc
        cases h
        have : x = 0x22#8 := by simpa using hc
        exact ⟨[], gap_nil _, rfl, by simp, fun _ => ⟨s, by rw [this]⟩⟩
      · split at h
        · rename_i hc
          simp only [Bool.and_eq_true, beq_iff_eq, Bool.not_eq_true'] at hc
          obtain ⟨g, hg, e, hb⟩ := ih _ _ h
          refine ⟨x :: g, ?_, by rw [e]; rfl, hb⟩
          intro y hy
          rcases List.mem_cons.1 hy with rfl | hy
          · simp [hc]
          · exact hg y hy
        · split at h
          · rename_i hc
            cases h
            have : x = 0x7D#8 := by simpa using hc
            exact ⟨[], gap_nil _, rfl, fun _ => ⟨s, by rw [this]⟩, by simp⟩
          · cases h

/-! ## Skipping -/

theorem skipEscape_inv {s s' : Bytes} (h : skipEscape s = .ok ((), s')) :
    ∃ e c, s = e ++ s' ∧ Escape e c := by
  unfold skipEscape at h
  obtain ⟨b, s1, h1, h2⟩ := P.bind_eq_ok.1 h
  have := readByte_inv h1; subst this
  split at h2
  · rename_i hb
    cases h2
    simp only [Bool.or_eq_true, beq_iff_eq] at hb
    refine ⟨[b], ?_⟩
    rcases hb with ((((((h | h) | h) | h) | h) | h) | h) | h <;> subst h
    · exact ⟨_, rfl, .quote⟩
    · exact ⟨_, rfl, .backslash⟩
    · exact ⟨_, rfl, .slash⟩
    · exact ⟨_, rfl, .backspace⟩
    · exact ⟨_, rfl, .formfeed⟩
    · exact ⟨_, rfl, .newline⟩
    · exact ⟨_, rfl, .ret⟩
    · exact ⟨_, rfl, .tab⟩
  · split at h2
    · rename_i hb
      have hb : b = 0x75#8 := by simpa using hb
      subst hb
      obtain ⟨n, s2, h3, h4⟩ := P.bind_eq_ok.1 h2
      obtain ⟨x, hx, rfl⟩ := hexEscape_inv h3
      split at h4
      · cases h4
      · rename_i hlo
        split at h4
        · rename_i hhi
          obtain ⟨y, s3, h5, h6⟩ := P.bind_eq_ok.1 h4
          have := readByte_inv h5; subst this
          split at h6
          · cases h6
          · rename_i hy
            have hy : y = 0x5C#8 := by simpa using hy
            subst hy
            obtain ⟨z, s4, h7, h8⟩ := P.bind_eq_ok.1 h6
            have := readByte_inv h7; subst this
            split at h8
            · cases h8
            · rename_i hz
              have hz : z = 0x75#8 := by simpa using hz
              subst hz
              obtain ⟨n2, s5, h9, h10⟩ := P.bind_eq_ok.1 h8
              obtain ⟨x', hx', rfl⟩ := hexEscape_inv h9
              split at h10
              · rename_i hn2
                obtain ⟨q, s6, h11, h12⟩ := P.bind_eq_ok.1 h10
                cases h12
                obtain ⟨h13, rfl⟩ := ofExcept_inv h11
                obtain ⟨c, hc, _⟩ := utf8Of_inv h13
                rw [surrogatePair_eq hhi.1 hhi.2 hn2.1 hn2.2] at hc
                exact ⟨0x75#8 :: x ++ 0x5C#8 :: 0x75#8 :: x', c, by simp,
                  .pair hx hx' hhi.1 hhi.2 hn2.1 hn2.2 hc⟩
              · cases h10
        · rename_i hhi
          cases h4
          have hlt : n < 65536 := by
            obtain ⟨a, b, c, d, i, j, k, m, _, ha, hb, hc, hd, rfl⟩ := hx
            unfold HexDigit at ha hb hc hd
            omega
          have hv : n.isValidChar := by
            unfold Nat.isValidChar
            omega
          refine ⟨0x75#8 :: x, Char.ofNatAux n hv, rfl, .unicode ?_⟩
          have : (Char.ofNatAux n hv).toNat = n := by
            simp only [Char.ofNatAux, Char.toNat]
            show (UInt32.ofBitVec _).toNat = n
            simp
          rw [this]
          exact hx
    · cases h2

theorem rawLit_plain {p : Bytes} (hp : AllPlain p) {l : Bytes} (hl : RawLit l) : RawLit (p ++ l) := by
  induction p with
  | nil => exact hl
  | cons b p ih =>
    have hb := hp b (by simp)
    have h1 : ¬ (b.toNat < 0x20 ∨ b.toNat = 0x22 ∨ b.toNat = 0x5C) := by
      rw [← needsEscape_iff]; simp [hb]
    refine .plain (by omega) ?_ ?_ (ih (fun x hx => hp x (by simp [hx])))
    · intro h; subst h; simp at h1
    · intro h; subst h; simp at h1

theorem skipStrLoop_inv : ∀ (fuel : Nat) (s s' : Bytes), skipStrLoop fuel s = .ok ((), s') →
    ∃ l, RawLit l ∧ s = l ++ 0x22#8 :: s' := by
  intro fuel
  induction fuel with
  | zero => intro s s' h; cases h
  | succ fuel ih =>
    intro s s' h
    obtain ⟨e, hp, _⟩ := spanPlain_spec s
    unfold skipStrLoop at h
    split at h
    · cases h
    · rename_i b r hr
      split at h
      · rename_i hb
        have hb : b = 0x22#8 := by simpa using hb
        cases h
        refine ⟨_, ?_, by rw [hr, hb] at e; exact e⟩
        have := rawLit_plain hp .nil
        rwa [List.append_nil] at this
      · split at h
        · rename_i hb
          have hb : b = 0x5C#8 := by simpa using hb
          obtain ⟨_, s1, h1, h2⟩ := P.bind_eq_ok.1 h
          obtain ⟨x, c, rfl, hx⟩ := skipEscape_inv h1
          obtain ⟨l, hl, rfl⟩ := ih _ _ h2
          refine ⟨(spanPlain s).1 ++ (0x5C#8 :: x ++ l), rawLit_plain hp (.escape hx hl), ?_⟩
          rw [hr, hb] at e
          conv => lhs; rw [e]
          simp
        · cases h

theorem skipString_inv {s s' : Bytes} (h : skipString s = .ok ((), s')) :
    ∃ l, RawLit l ∧ s = l ++ 0x22#8 :: s' := skipStrLoop_inv _ _ _ h

theorem dropDigits_inv (s : Bytes) : ∃ l, Digits l ∧ s = l ++ dropDigits s := by
  induction s with
  | nil => exact ⟨[], (fun _ h => nomatch h), rfl⟩
  | cons b s ih =>
    unfold dropDigits
    split
    · rename_i hb
      obtain ⟨l, hl, e⟩ := ih
      refine ⟨b :: l, ?_, by rw [List.cons_append, ← e]⟩
      intro x hx
      rcases List.mem_cons.1 hx with rfl | hx
      · exact (isDigit_iff _).1 hb
      · exact hl x hx
    · exact ⟨[], (fun _ h => nomatch h), rfl⟩

theorem skip_one {s s' : Bytes} (h : P.skip 1 s = .ok ((), s')) : ∃ b, s = b :: s' := by
  cases s with
  | nil => cases h
  | cons b s =>
    have : Except.ok (ε := Err × Bytes) ((), s) = Except.ok ((), s') := h
    exact ⟨b, by rw [(Prod.mk.inj (Except.ok.inj this)).2]⟩

theorem skipNumber_inv {s s' : Bytes} (h : skipNumber s = .ok ((), s')) :
    ∃ ws neg d, Ws ws ∧ Lenient d ∧ s = ws ++ ((sign neg ++ d.text) ++ s') := by
  unfold skipNumber at h
  obtain ⟨_, s1, h1, h2⟩ := P.bind_eq_ok.1 h
  cases h1
  obtain ⟨ws, hws, e⟩ := dropWs_spec s
  obtain ⟨neg, s2, h3, h4⟩ := P.bind_eq_ok.1 h2
  have hneg := minus_inv h3
  obtain ⟨_, s3, h5, h6⟩ := P.bind_eq_ok.1 h4
  obtain ⟨_, s4, h7, h8⟩ := P.bind_eq_ok.1 h6
  have hint : ∃ num, Numeral num ∧ s2 = num ++ s3 := by
    unfold skipInt at h5
    obtain ⟨b, s5, h9, h10⟩ := P.bind_eq_ok.1 h5
    have := readByte_inv h9; subst this
    split at h10
    · rename_i hb
      have hb : b = 0x30#8 := by simpa using hb
      cases h10
      exact ⟨[b], .inl (by rw [hb]), rfl⟩
    · split at h10
      · rename_i hb
        have hb := (isDigitNonzero_iff b).1 hb
        cases h10
        obtain ⟨l, hl, e⟩ := dropDigits_inv s5
        exact ⟨b :: l, .inr ⟨b, l, rfl, hb.1, hb.2, hl⟩, by rw [List.cons_append, ← e]⟩
      · cases h10
  have hfrac : ∃ f, Digits (f.getD []) ∧ s3 = fracText f ++ s4 := by
    unfold skipFrac at h7
    obtain ⟨c, s5, h9, h10⟩ := P.bind_eq_ok.1 h7
    cases h9
    split at h10
    · rename_i hc
      obtain ⟨_, s6, h11, h12⟩ := P.bind_eq_ok.1 h10
      obtain ⟨b, rfl⟩ := skip_one h11
      have hb : b = 0x2E#8 := by simpa using hc
      cases h12
      obtain ⟨l, hl, e⟩ := dropDigits_inv s6
      exact ⟨some l, hl, by simp only [fracText]; rw [hb, List.cons_append, ← e]⟩
    · cases h10
      exact ⟨none, by simp [Digits], rfl⟩
  have hexp : ∃ e : Option Exponent, (∀ x, e = some x → x.letter = 0x65#8 ∨ x.letter = 0x45#8) ∧
      (∀ x, e = some x → x.sign = none ∨ x.sign = some 0x2D#8 ∨ x.sign = some 0x2B#8) ∧
      Digits (expDig e) ∧ s4 = expText e ++ s' := by
    unfold skipExp at h8
    obtain ⟨c, s5, h9, h10⟩ := P.bind_eq_ok.1 h8
    cases h9
    split at h10
    · rename_i hc
      obtain ⟨_, s6, h11, h12⟩ := P.bind_eq_ok.1 h10
      obtain ⟨b, rfl⟩ := skip_one h11
      have hb : b = 0x65#8 ∨ b = 0x45#8 := by simpa using hc
      obtain ⟨_, s7, h13, h14⟩ := P.bind_eq_ok.1 h12
      cases h14
      have hsg : ∃ sg : Option Byte, (sg = none ∨ sg = some 0x2D#8 ∨ sg = some 0x2B#8) ∧
          s6 = sg.toList ++ s7 := by
        unfold skipSign at h13
        obtain ⟨c, s8, h15, h16⟩ := P.bind_eq_ok.1 h13
        cases h15
        split at h16
        · rename_i hc
          obtain ⟨b, rfl⟩ := skip_one h16
          refine ⟨some b, ?_, rfl⟩
          simpa using hc
        · cases h16
          exact ⟨none, .inl rfl, rfl⟩
      obtain ⟨sg, hsg, e1⟩ := hsg
      obtain ⟨l, hl, e2⟩ := dropDigits_inv s7
      refine ⟨some ⟨b, sg, l⟩, ?_, ?_, hl, ?_⟩
      · intro x hx; cases hx; exact hb
      · intro x hx; cases hx; exact hsg
      · simp only [expText, Exponent.text]
        rw [e1, List.cons_append, List.append_assoc, ← e2]
    · cases h10
      exact ⟨none, (fun _ h => nomatch h), (fun _ h => nomatch h), by simp [Digits, expDig], rfl⟩
  obtain ⟨num, hn, rfl⟩ := hint
  obtain ⟨f, hf, rfl⟩ := hfrac
  obtain ⟨ex, hl, hsg, hd, rfl⟩ := hexp
  refine ⟨ws, neg, ⟨num, f, ex⟩, hws, ⟨hn, hf, hl, hsg, by rw [← expDig_eq]; exact hd⟩, ?_⟩
  rw [decimal_text]
  rw [hneg] at e
  rw [e]
  simp

theorem parseExact_inv {x s s' : Bytes} (h : parseExact x s = .ok ((), s')) : s = x ++ s' := by
  unfold parseExact at h
  obtain ⟨b, s1, h1, h2⟩ := P.bind_eq_ok.1 h
  split at h2
  · rename_i hb
    cases h2
    unfold P.read at h1
    split at h1
    · cases h1
    · cases h1
      rw [← List.take_append_drop x.length s, hb]
      simp
  · cases h2

theorem tokenAt_inv {s : Bytes} {t : Token} {b : Byte} (ht : t.byte = some b) (h : tokenAt s = t) :
    ∃ r, s = b :: r := by
  cases s with
  | nil =>
    simp only [tokenAt] at h
    subst h
    simp [Token.byte] at ht
  | cons x s =>
    simp only [tokenAt] at h
    exact ⟨s, by rw [(ofByte_eq ht x).1 h]⟩

theorem skip_loose : ∀ (fuel : Nat),
    (∀ s s', skipVal fuel s = .ok ((), s') → ∃ ws x, Ws ws ∧ LooseValue x ∧ s = ws ++ (x ++ s')) ∧
    (∀ first s s', skipElems fuel first s = .ok ((), s') →
      ∃ e, LooseText (.elements first) e ∧ s = e ++ 0x5D#8 :: s') ∧
    (∀ first s s', skipEntries fuel first s = .ok ((), s') →
      ∃ e, LooseText (.members first) e ∧ s = e ++ 0x7D#8 :: s') := by
  intro fuel
  induction fuel with
  | zero =>
    refine ⟨?_, ?_, ?_⟩
    · intro s s' h; unfold skipVal at h; cases h
    · intro f s s' h; unfold skipElems at h; cases h
    · intro f s s' h; unfold skipEntries at h; cases h
  | succ fuel ih =>
    obtain ⟨ihV, ihE, ihM⟩ := ih
    refine ⟨?_, ?_, ?_⟩
    · intro s s' h
      unfold skipVal at h
      rw [lex_bind] at h
      obtain ⟨ws, hws, e⟩ := dropWs_spec s
      generalize dropWs s = d at h e
      cases ht : tokenAt d with
      | openBrace =>
        rw [ht] at h
        obtain ⟨r, rfl⟩ := tokenAt_inv (t := .openBrace) rfl ht
        obtain ⟨_, s1, h1, h2⟩ := P.bind_eq_ok.1 h
        obtain ⟨_, h1⟩ := skip_one h1
        cases h1
        obtain ⟨x, hx, rfl⟩ := ihM _ _ _ h2
        exact ⟨ws, _, hws, .object hx, by rw [e]; simp⟩
      | openBracket =>
        rw [ht] at h
        obtain ⟨r, rfl⟩ := tokenAt_inv (t := .openBracket) rfl ht
        obtain ⟨_, s1, h1, h2⟩ := P.bind_eq_ok.1 h
        obtain ⟨_, h1⟩ := skip_one h1
        cases h1
        obtain ⟨x, hx, rfl⟩ := ihE _ _ _ h2
        exact ⟨ws, _, hws, .array hx, by rw [e]; simp⟩
      | null => rw [ht] at h; exact ⟨ws, _, hws, .null, by rw [e, parseExact_inv h]; rfl⟩
      | tru => rw [ht] at h; exact ⟨ws, _, hws, .tru, by rw [e, parseExact_inv h]; rfl⟩
      | fals => rw [ht] at h; exact ⟨ws, _, hws, .fals, by rw [e, parseExact_inv h]; rfl⟩
      | number =>
        rw [ht] at h
        obtain ⟨ws2, neg, x, hws2, hx, rfl⟩ := skipNumber_inv h
        exact ⟨ws ++ ws2, _, ws_append hws hws2, .number neg hx, by rw [e]; simp⟩
      | string =>
        rw [ht] at h
        obtain ⟨r, rfl⟩ := tokenAt_inv (t := .string) rfl ht
        obtain ⟨_, s1, h1, h2⟩ := P.bind_eq_ok.1 h
        obtain ⟨_, h1⟩ := skip_one h1
        cases h1
        obtain ⟨l, hl, rfl⟩ := skipString_inv h2
        exact ⟨ws, _, hws, .string hl, by rw [e]; simp⟩
      | comma => rw [ht] at h; cases h
      | colon => rw [ht] at h; cases h
      | whitespace => rw [ht] at h; cases h
      | closeBrace => rw [ht] at h; cases h
      | closeBracket => rw [ht] at h; cases h
      | error => rw [ht] at h; cases h
      | eof => rw [ht] at h; cases h
    · intro first s s' h
      unfold skipElems at h
      obtain ⟨more, s1, h1, h2⟩ := P.bind_eq_ok.1 h
      obtain ⟨g, hg, rfl, hb⟩ := nextValue_inv first _ _ _ h1
      cases more with
      | true =>
        simp only [if_true] at h2
        obtain ⟨_, s2, h3, h4⟩ := P.bind_eq_ok.1 h2
        obtain ⟨ws, x, hws, hx, rfl⟩ := ihV _ _ h3
        obtain ⟨e, he, rfl⟩ := ihE _ _ _ h4
        exact ⟨(g ++ ws) ++ (x ++ e), .element (gap_append hg (gap_ws hws)) hx he, by simp⟩
      | false =>
        obtain ⟨r, rfl⟩ := hb rfl
        simp only [Bool.false_eq_true, if_false] at h2
        obtain ⟨ws, hws, e⟩ := expect_inv (t := .closeBracket) rfl h2
        exact ⟨g ++ ws, .noElement (gap_append hg (gap_ws hws)), by rw [e]; simp⟩
    · intro first s s' h
      unfold skipEntries at h
      obtain ⟨more, s1, h1, h2⟩ := P.bind_eq_ok.1 h
      obtain ⟨g, hg, rfl, hb, hq⟩ := nextKey_inv first _ _ _ h1
      cases more with
      | true =>
        simp only [if_true] at h2
        obtain ⟨_, s2, h3, h4⟩ := P.bind_eq_ok.1 h2
        obtain ⟨r, rfl⟩ := hq rfl
        have hkey : ∃ l, RawLit l ∧ 0x22#8 :: r = (0x22#8 :: l ++ [0x22#8]) ++ s2 := by
          cases fuel with
          | zero => unfold skipVal at h3; cases h3
          | succ fuel =>
            unfold skipVal at h3
            rw [lex_bind, dropWs_of_not (by decide)] at h3
            obtain ⟨_, s3, h5, h6⟩ := P.bind_eq_ok.1 h3
            obtain ⟨_, h5⟩ := skip_one h5
            cases h5
            obtain ⟨l, hl, rfl⟩ := skipString_inv h6
            exact ⟨l, hl, by simp⟩
        obtain ⟨l, hl, e1⟩ := hkey
        obtain ⟨_, s4, h7, h8⟩ := P.bind_eq_ok.1 h4
        obtain ⟨a, ha, e2⟩ := expect_inv (t := .colon) rfl h7
        obtain ⟨_, s5, h9, h10⟩ := P.bind_eq_ok.1 h8
        obtain ⟨b, x, hb, hx, e3⟩ := ihV _ _ h9
        obtain ⟨e, he, e4⟩ := ihM _ _ _ h10
        refine ⟨_, .member hg hl ha hb hx he, ?_⟩
        rw [e1, e2, e3, e4]
        simp
      | false =>
        obtain ⟨r, rfl⟩ := hb rfl
        simp only [Bool.false_eq_true, if_false] at h2
        obtain ⟨ws, hws, e⟩ := expect_inv (t := .closeBrace) rfl h2
        exact ⟨g ++ ws, .noMember (gap_append hg (gap_ws hws)), by rw [e]; simp⟩

theorem sound_skip : Sound skip (fun _ => LooseValue) := by
  intro s a r h
  exact (skip_loose _).1 _ _ h


/-! ## Primitives -/

theorem lenient_int {num : Bytes} (h : Numeral num) : Lenient ⟨num, none, none⟩ where
  int := h
  frac := fun _ h => nomatch h
  letter := fun _ h => nomatch h
  sign := fun _ h => nomatch h
  exp := fun _ h => nomatch h

theorem text_int (num : Bytes) : (Decimal.mk num none none).text = num := by
  simp [Decimal.text]

theorem denotes_int (num : Bytes) : (Decimal.mk num none none).Denotes (value num) := by
  simp [Decimal.Denotes, Decimal.fracDigits, Decimal.expValue]

theorem sound_unsigned (full : Bool) {w : Nat} (hw4 : 4 ≤ w) (hw : 2 ^ w % 10 = 6) :
    Sound (parseUnsigned full w) (fun v => LNat full w v.toNat) := by
  intro s v r h
  cases full with
  | true =>
    unfold parseUnsigned at h
    rw [if_pos rfl] at h
    obtain ⟨ws, d, hws, hd, e, hv⟩ := parseUnsignedFull_sound hw4 hw h
    exact ⟨ws, d.text, hws, ⟨d, hd, by simp, rfl, hv⟩, e⟩
  | false =>
    obtain ⟨ws, num, hws, hn, e, hv⟩ := parseUnsigned_inv hw4 h
    refine ⟨ws, num, hws, ⟨⟨num, none, none⟩, lenient_int hn, fun _ => ⟨rfl, rfl⟩, (text_int num).symm, ?_⟩, e⟩
    intro h1 _ _
    have hlt : value num < 2 ^ w := by
      apply Nat.lt_of_not_le
      intro hle
      obtain ⟨x, hx⟩ := parseUnsigned_overflow false hw4 hw hws hn r hle h1
      rw [e, hx] at h; cases h
    rw [hv, Nat.mod_eq_of_lt hlt]
    exact denotes_int num

theorem sound_signed (full : Bool) {w : Nat} (hw4 : 4 ≤ w) (hw : 2 ^ w % 10 = 6) :
    Sound (parseSigned full w) (fun v => LInt full w v.toInt) := by
  intro s v r h
  cases full with
  | true =>
    unfold parseSigned at h
    rw [if_pos rfl] at h
    obtain ⟨ws, neg, d, n, hws, hd, e, hn, hv⟩ := parseSignedFull_sound hw4 hw h
    exact ⟨ws, sign neg ++ d.text, hws, ⟨neg, d.text, n, rfl, hn, d, hd, by simp, rfl, hv⟩, by rw [e]; simp⟩
  | false =>
    unfold parseSigned at h
    rw [if_neg (by decide)] at h
    unfold parseSignedBase at h
    obtain ⟨_, s1, h1, h2⟩ := P.bind_eq_ok.1 h
    cases h1
    obtain ⟨ws, hws, e⟩ := skipWs_inv (s := s)
    obtain ⟨neg, s2, h3, h4⟩ := P.bind_eq_ok.1 h2
    have hneg := minus_inv h3
    obtain ⟨u, s3, h5, h6⟩ := P.bind_eq_ok.1 h4
    obtain ⟨num, hn, e2, _, hv⟩ := unsignedBase_inv hw4 h5
    cases hcs : computeSigned neg u with
    | error y => rw [hcs] at h6; cases h6
    | ok y =>
      rw [hcs] at h6
      cases h6
      refine ⟨ws, sign neg ++ num, hws, ⟨neg, num, u.toNat, rfl, computeSigned_inv (by omega) hcs,
        ⟨num, none, none⟩, lenient_int hn, fun _ => ⟨rfl, rfl⟩, (text_int num).symm, ?_⟩, ?_⟩
      · intro h1 _ _
        have hlt : value num < 2 ^ w := by
          apply Nat.lt_of_not_le
          intro hle
          obtain ⟨x, hx⟩ := unsignedBase_overflow hw4 hw hn r hle h1
          rw [e2, hx] at h5; cases h5
        rw [hv, Nat.mod_eq_of_lt hlt]
        exact denotes_int num
      · rw [List.append_assoc, ← e2, ← hneg]; exact e

theorem iw_ok (w : IW) : 4 ≤ w.bits ∧ 2 ^ w.bits % 10 = 6 := by cases w <;> decide

theorem sound_int (full : Bool) : ∀ p : Prim, Sound (parseInt full p) (LIntPrim full p)
  | .uint w => sound_unsigned full (iw_ok w).1 (iw_ok w).2
  | .sint w => sound_signed full (iw_ok w).1 (iw_ok w).2
  | .usize => sound_unsigned full (w := 64) (by decide) (by decide)
  | .isize => sound_signed full (w := 64) (by decide) (by decide)
  | .bool => sound_fail _ _
  | .char => sound_fail _ _
  | .f32 => sound_fail _ _
  | .f64 => sound_fail _ _

theorem sound_string : Sound parseString (fun b x => ∃ cs, b = Utf8.encode cs ∧ StrText cs x) := by
  intro s b r h
  obtain ⟨ws, l, cs, hws, hl, e, hb⟩ := (parseString_iff _ _ _).1 h
  exact ⟨ws, 0x22#8 :: l ++ [0x22#8], hws, ⟨cs, hb, l, hl, rfl⟩, by rw [e]; simp⟩

theorem sound_str : Sound decStr (fun b x => ∃ cs, b.bytes = Utf8.encode cs ∧ StrText cs x) := by
  intro s b r h
  obtain ⟨ws, l, cs, hws, hl, e, hb⟩ := (decStr_iff _ _ _).1 h
  exact ⟨ws, 0x22#8 :: l ++ [0x22#8], hws, ⟨cs, hb, l, hl, rfl⟩, by rw [e]; simp⟩

theorem encodeChar_ne_nil (c : Char) : Utf8.encodeChar c ≠ [] := by
  unfold Utf8.encodeChar
  dsimp only
  split
  · simp
  · split
    · simp
    · split <;> simp

theorem singleChar_inv {cs : List Char} {c : Char} (h : singleChar (Utf8.encode cs) = .ok c) : cs = [c] := by
  cases cs with
  | nil => cases h
  | cons d cs =>
    unfold singleChar at h
    rw [Utf8.encode_cons, firstChar_encode] at h
    cases cs with
    | nil =>
      have hv : Nat.isValidChar d.toNat := d.valid
      have he : Utf8.encode [] = [] := rfl
      rw [he] at h
      simp only [hv, dif_pos] at h
      cases h
      rfl
    | cons e cs =>
      exfalso
      rw [Utf8.encode_cons] at h
      have := encodeChar_ne_nil e
      cases hx : Utf8.encodeChar e with
      | nil => exact this hx
      | cons a l => rw [hx] at h; cases h

theorem sound_char : Sound decChar (fun c => StrText [c]) := by
  refine sound_check (R := fun b x => ∃ cs, b = Utf8.encode cs ∧ StrText cs x) singleChar sound_string ?_
  rintro a c x hc ⟨cs, rfl, hx⟩
  rw [singleChar_inv hc] at hx
  exact hx

theorem dropWs_not_ws : ∀ (s : Bytes) (b : Byte) (l : Bytes), dropWs s = b :: l → isWs b = false
  | [], b, l, h => by cases h
  | x :: s, b, l, h => by
    unfold dropWs at h
    cases hx : isWs x with
    | true => rw [hx] at h; exact dropWs_not_ws s b l h
    | false => rw [hx] at h; cases h; exact hx

theorem sound_bool : Sound decBool (fun b s => s = if b then [0x74#8, 0x72#8, 0x75#8, 0x65#8]
      else [0x66#8, 0x61#8, 0x6C#8, 0x73#8, 0x65#8]) := by
  intro s b r h
  unfold decBool at h
  rw [lex_bind] at h
  obtain ⟨ws, hws, e⟩ := skipWs_inv (s := s)
  have key : ∀ t : Token, (match t with
      | .tru => do
        parseExact strTrue
        pure true
      | .fals => do
        parseExact strFalse
        pure false
      | _ => P.fail .invalid : P Bool) (dropWs s) = .ok (b, r) →
      (b = true ∧ parseExact strTrue (dropWs s) = .ok ((), r)) ∨
      (b = false ∧ parseExact strFalse (dropWs s) = .ok ((), r)) := by
    intro t ht
    cases t with
    | tru =>
      obtain ⟨_, s1, h1, h2⟩ := P.bind_eq_ok.1 ht
      cases h2
      exact .inl ⟨rfl, h1⟩
    | fals =>
      obtain ⟨_, s1, h1, h2⟩ := P.bind_eq_ok.1 ht
      cases h2
      exact .inr ⟨rfl, h1⟩
    | _ => cases ht
  rcases key _ h with ⟨rfl, h1⟩ | ⟨rfl, h1⟩
  · exact ⟨ws, _, hws, rfl, by rw [e, parseExact_inv h1]; simp [strTrue]⟩
  · exact ⟨ws, _, hws, rfl, by rw [e, parseExact_inv h1]; simp [strFalse]⟩

theorem sound_prim (full : Bool) : ∀ p : Prim, Sound (decPrim full p) (LPrim full p)
  | .bool => sound_bool
  | .char => sound_char
  | .uint w => sound_int full (.uint w)
  | .sint w => sound_int full (.sint w)
  | .usize => sound_int full .usize
  | .isize => sound_int full .isize
  | .f32 => fun s _ _ h => let ⟨x, h1, h2, _, _⟩ := decF32_inv h
    ⟨[], x, (fun _ h => nomatch h), h1, h2⟩
  | .f64 => fun s _ _ h => let ⟨x, h1, h2, _, _⟩ := decF64_inv h
    ⟨[], x, (fun _ h => nomatch h), h1, h2⟩

theorem sound_primKey (full : Bool) (p : Prim) : Sound (decPrimKey full p) (LPrimKey full p) := by
  unfold decPrimKey
  split
  · exact sound_fail _ _
  · refine sound_check (R := fun b x => ∃ cs, b = Utf8.encode cs ∧ StrText cs x) (onBuffer (parseInt full p))
      sound_string ?_
    rintro b v x hv ⟨cs, rfl, hx⟩
    unfold onBuffer at hv
    split at hv
    · rename_i a y h
      cases hv
      obtain ⟨ws, z, hws, hz, e⟩ := sound_int full p _ _ _ h
      exact ⟨cs, ws, z, y, hx, e, hws, hz⟩
    · cases hv

theorem sound_nameV (full : Bool) : ∀ nt : NameTy, Sound (decNameV full nt) (LName full)
  | .idx => sound_map Name.idx (sound_prim full .usize) (fun _ _ h => h)
  | .str => sound_map Name.str sound_str (fun _ _ h => h)

theorem sound_nameK (full : Bool) : ∀ nt : NameTy,
    Sound (decNameK full nt) (fun n x => LNameKey full n x ∧ n.ty = nt)
  | .idx => sound_map Name.idx (sound_primKey full .usize) (fun _ _ h => ⟨h, rfl⟩)
  | .str => sound_map Name.str sound_str (fun _ _ h => ⟨h, rfl⟩)

theorem findName_inv (n : Name) : ∀ (l : List Name) (i : Fin l.length), findName n l = some i → l[i] = n
  | [], i, _ => i.elim0
  | m :: l, i, h => by
    unfold findName at h
    split at h
    · rename_i hm
      cases h
      exact hm
    · split at h
      · rename_i j hj
        cases h
        exact findName_inv n l j hj
      · cases h

theorem sound_find {names : List Name} {p : P Name} {R : Name → Bytes → Prop} (h : Sound p R) :
    Sound (do
      let n ← p
      match findName n names with
      | some i => pure i
      | none => P.fail .unknown) (fun i => R names[i]) := by
  intro s i r hs
  obtain ⟨n, s1, h1, h2⟩ := P.bind_eq_ok.1 hs
  cases hf : findName n names with
  | none => rw [hf] at h2; cases h2
  | some j =>
    rw [hf] at h2
    cases h2
    have := findName_inv n names i hf
    obtain ⟨ws, x, hw, hx, e⟩ := h _ _ _ h1
    exact ⟨ws, x, hw, by show R names[i] x; rw [this]; exact hx, e⟩

theorem sound_nonZero {sg : Bool} {w : IW} {p : P (nonZeroPrim sg w).Val}
    {R : (nonZeroPrim sg w).Val → Bytes → Prop} (h : Sound p R) :
    Sound (do
      let v ← p
      P.ofExcept (toNonZero w (nonZeroUnraw sg w v))) (fun v => R (nonZeroRaw sg w v.1)) := by
  refine sound_check (fun v => toNonZero w (nonZeroUnraw sg w v)) h ?_
  intro a b x hb hx
  unfold toNonZero at hb
  split at hb
  · cases hb
    cases sg <;> exact hx
  · cases hb

theorem sound_key (full : Bool) : ∀ t : Ty, Sound (decKey full t) (LKey full t)
  | .prim p => by simp only [decKey]; exact sound_primKey full p
  | .nonZero sg w => by simp only [decKey]; exact sound_nonZero (sound_primKey full _)
  | .string => by simp only [decKey]; exact sound_str
  | .boxed t => by simp only [decKey]; exact sound_key full t
  | .wrapping t => by simp only [decKey]; exact sound_key full t
  | .transparent t => by simp only [decKey]; exact sound_key full t
  | .unitEnum nt names => by
    simp only [decKey]
    exact sound_find (fun s a r h => by
      obtain ⟨ws, x, hw, hx, e⟩ := sound_nameK full nt s a r h
      exact ⟨ws, x, hw, hx.1, e⟩)
  | .unit => by simp only [decKey]; exact sound_fail _ _
  | .bytes => by simp only [decKey]; exact sound_fail _ _
  | .byteArray _ => by simp only [decKey]; exact sound_fail _ _
  | .option _ => by simp only [decKey]; exact sound_fail _ _
  | .array _ _ => by simp only [decKey]; exact sound_fail _ _
  | .vec _ => by simp only [decKey]; exact sound_fail _ _
  | .set _ => by simp only [decKey]; exact sound_fail _ _
  | .map _ _ => by simp only [decKey]; exact sound_fail _ _
  | .tuple _ => by simp only [decKey]; exact sound_fail _ _
  | .result _ _ _ => by simp only [decKey]; exact sound_fail _ _
  | .unitStruct => by simp only [decKey]; exact sound_fail _ _
  | .strct _ _ => by simp only [decKey]; exact sound_fail _ _
  | .packed _ _ => by simp only [decKey]; exact sound_fail _ _
  | .enm _ _ => by simp only [decKey]; exact sound_fail _ _

/-! ## Sequences and objects -/

theorem elems_loose {α} {d : P α} {R : α → Bytes → Prop} (hd : Sound d R) :
    ∀ (fuel : Nat) (first : Bool) (s : Bytes) (l : List α) (s' : Bytes),
      elems d fuel first s = .ok (l, s') →
      ∃ e r, Loosely first (l.map R) Gap e ∧ s = e ++ s' ∧ s' = 0x5D#8 :: r := by
  intro fuel
  induction fuel with
  | zero => intro first s l s' h; cases h
  | succ fuel ih =>
    intro first s l s' h
    unfold elems at h
    obtain ⟨more, s1, h1, h2⟩ := P.bind_eq_ok.1 h
    obtain ⟨g, hg, rfl, hb⟩ := nextValue_inv first _ _ _ h1
    cases more with
    | false =>
      obtain ⟨r, hr⟩ := hb rfl
      cases h2
      exact ⟨g, r, hg, rfl, hr⟩
    | true =>
      simp only [if_true] at h2
      obtain ⟨a, s2, h3, h4⟩ := P.bind_eq_ok.1 h2
      obtain ⟨l', s3, h5, h6⟩ := P.bind_eq_ok.1 h4
      cases h6
      obtain ⟨ws, x, hw, hx, rfl⟩ := hd _ _ _ h3
      obtain ⟨e, r, he, rfl, hr⟩ := ih _ _ _ _ h5
      exact ⟨(g ++ ws) ++ (x ++ e), r, ⟨g ++ ws, x, e, gap_append hg (gap_ws hw), hx, he, rfl⟩,
        by simp, hr⟩

theorem entries_loose {σ ε} {body : σ → P σ} {step : σ → ε → σ} {R : ε → Bytes → Prop}
    (hb : ∀ st, ∀ s st' r, body st s = .ok (st', r) → ∃ a ws x, st' = step st a ∧ Ws ws ∧ R a x ∧
      s = ws ++ (x ++ r)) :
    ∀ (fuel : Nat) (first : Bool) (st : σ) (s : Bytes) (st' : σ) (f : Bool) (s' : Bytes),
      entries body fuel first st s = .ok ((st', f), s') →
      ∃ (es : List ε) (e r : Bytes), st' = es.foldl step st ∧ Loosely first (es.map R) Gap e ∧ s = e ++ s' ∧
        s' = 0x7D#8 :: r := by
  intro fuel
  induction fuel with
  | zero => intro first st s st' f s' h; cases h
  | succ fuel ih =>
    intro first st s st' f s' h
    unfold entries at h
    obtain ⟨more, s1, h1, h2⟩ := P.bind_eq_ok.1 h
    obtain ⟨g, hg, rfl, hc, _⟩ := nextKey_inv first _ _ _ h1
    cases more with
    | false =>
      obtain ⟨r, hr⟩ := hc rfl
      cases h2
      exact ⟨[], g, r, rfl, hg, rfl, hr⟩
    | true =>
      simp only [if_true] at h2
      obtain ⟨st1, s2, h3, h4⟩ := P.bind_eq_ok.1 h2
      obtain ⟨a, ws, x, rfl, hw, hx, rfl⟩ := hb _ _ _ _ h3
      obtain ⟨es, e, r, rfl, he, rfl, hr⟩ := ih _ _ _ _ _ _ h4
      exact ⟨a :: es, (g ++ ws) ++ (x ++ e), r, rfl,
        ⟨g ++ ws, x, e, gap_append hg (gap_ws hw), hx, he, rfl⟩, by simp, hr⟩

theorem sound_sequence {α} {d : P α} {R : α → Bytes → Prop} (hd : Sound d R) :
    Sound (sequence d) (fun l => LArr (l.map R)) := by
  intro s l r h
  unfold sequence at h
  obtain ⟨_, s1, h1, h2⟩ := P.bind_eq_ok.1 h
  obtain ⟨ws, hw, rfl⟩ := expect_inv (t := .openBracket) rfl h1
  obtain ⟨l', s2, h3, h4⟩ := P.bind_eq_ok.1 h2
  obtain ⟨e, r', he, rfl, rfl⟩ := elems_loose hd _ _ _ _ _ h3
  rw [P.bind_ok (endSeq_close false r')] at h4
  cases h4
  exact ⟨ws, 0x5B#8 :: e ++ [0x5D#8], hw, ⟨e, he, rfl⟩, by simp⟩

theorem object_loose {σ ε} {body : σ → P σ} {step : σ → ε → σ} {R : ε → Bytes → Prop}
    (hb : ∀ st, ∀ s st' r, body st s = .ok (st', r) → ∃ a ws x, st' = step st a ∧ Ws ws ∧ R a x ∧
      s = ws ++ (x ++ r)) (st : σ) :
    Sound (object body st) (fun st' x => ∃ es : List ε, st' = es.foldl step st ∧ LObj (es.map R) x) := by
  intro s st' r h
  unfold object at h
  obtain ⟨_, s1, h1, h2⟩ := P.bind_eq_ok.1 h
  obtain ⟨ws, hw, rfl⟩ := expect_inv (t := .openBrace) rfl h1
  obtain ⟨⟨st1, f⟩, s2, h3, h4⟩ := P.bind_eq_ok.1 h2
  obtain ⟨es, e, r', rfl, he, rfl, rfl⟩ := entries_loose hb _ _ _ _ _ _ _ h3
  have h4 : (endMap false >>= fun _ => pure (es.foldl step st)) (0x7D#8 :: r') = .ok (st', r) := h4
  rw [P.bind_ok (endMap_close false r')] at h4
  cases h4
  exact ⟨ws, 0x7B#8 :: e ++ [0x7D#8], hw, ⟨es, rfl, e, he, rfl⟩, by simp⟩

theorem endSeq_loose {first : Bool} {s s' : Bytes} {u : Unit} (h : endSeq first s = .ok (u, s')) :
    ∃ e, LooseText (.elements first) e ∧ s = e ++ 0x5D#8 :: s' := by
  exact (skip_loose _).2.1 _ _ _ h

theorem endMap_loose {first : Bool} {s s' : Bytes} {u : Unit} (h : endMap first s = .ok (u, s')) :
    ∃ e, LooseText (.members first) e ∧ s = e ++ 0x7D#8 :: s' := by
  exact (skip_loose _).2.2 _ _ _ h

theorem arrayLoop_loose (full : Bool) (n : Nat) :
    ∀ (fuel : Nat) (first : Bool) (acc : Bytes) (index : Nat) (s : Bytes) (b : Bytes) (i : Nat) (s' : Bytes),
      arrayLoop full n fuel first acc index s = .ok ((b, i), s') → i ≤ n →
      ∃ l e r, b = acc ++ l ∧ Loosely first (l.map (fun b => LNat full 8 b.toNat)) Gap e ∧ s = e ++ s' ∧
        s' = 0x5D#8 :: r ∧ index ≤ i := by
  intro fuel
  induction fuel with
  | zero => intro first acc index s b i s' h; cases h
  | succ fuel ih =>
    intro first acc index s b i s' h hi
    unfold arrayLoop at h
    obtain ⟨more, s1, h1, h2⟩ := P.bind_eq_ok.1 h
    obtain ⟨g, hg, rfl, hb⟩ := nextValue_inv first _ _ _ h1
    cases more with
    | false =>
      obtain ⟨r, hr⟩ := hb rfl
      cases h2
      exact ⟨[], g, r, by simp, hg, rfl, hr, Nat.le_refl _⟩
    | true =>
      simp only [if_true] at h2
      by_cases hin : index ≤ n
      · rw [if_pos hin] at h2
        obtain ⟨a, s2, h3, h4⟩ := P.bind_eq_ok.1 h2
        obtain ⟨ws, x, hw, hx, rfl⟩ := sound_unsigned full (w := 8) (by decide) (by decide) _ _ _ h3
        split at h4
        · obtain ⟨l, e, r, rfl, he, rfl, hr, hle⟩ := ih _ _ _ _ _ _ _ h4 hi
          exact ⟨a :: l, (g ++ ws) ++ (x ++ e), r, by simp,
            ⟨g ++ ws, x, e, gap_append hg (gap_ws hw), hx, he, rfl⟩, by simp, hr, by omega⟩
        · cases h4
      · exfalso
        rw [if_neg hin] at h2
        obtain ⟨l, e, r, _, _, _, _, hle⟩ := ih _ _ _ _ _ _ _ h2 hi
        omega

theorem sound_array (full : Bool) (n : Nat) :
    Sound (decArray full n) (fun v => LArr (v.1.map (fun b => LNat full 8 b.toNat))) := by
  intro s v r h
  unfold decArray at h
  obtain ⟨_, s1, h1, h2⟩ := P.bind_eq_ok.1 h
  obtain ⟨ws, hw, rfl⟩ := expect_inv (t := .openBracket) rfl h1
  obtain ⟨⟨b, i⟩, s2, h3, h4⟩ := P.bind_eq_ok.1 h2
  simp only at h4
  by_cases hi : i = n
  · rw [if_pos hi] at h4
    obtain ⟨l, e, r', rfl, he, rfl, rfl, _⟩ := arrayLoop_loose full n _ _ _ _ _ _ _ _ h3 (by omega)
    obtain ⟨v', s3, h5, h6⟩ := P.bind_eq_ok.1 h4
    obtain ⟨h7, rfl⟩ := ofExcept_inv h5
    rw [P.bind_ok (endSeq_close false r')] at h6
    cases h6
    unfold toArray at h7
    split at h7
    · cases h7
      exact ⟨ws, 0x5B#8 :: e ++ [0x5D#8], hw, ⟨e, by simpa using he, rfl⟩, by simp⟩
    · cases h7
  · rw [if_neg hi] at h4; cases h4

theorem needNext_inv {first : Bool} {s s' : Bytes} {u : Unit} (h : needNext first s = .ok (u, s')) :
    ∃ g, Gap first g ∧ s = g ++ s' := by
  unfold needNext at h
  obtain ⟨more, s1, h1, h2⟩ := P.bind_eq_ok.1 h
  obtain ⟨g, hg, rfl, hb⟩ := nextValue_inv first _ _ _ h1
  cases more with
  | false => cases h2
  | true => cases h2; exact ⟨g, hg, rfl⟩

/-! ## Types -/

section
variable (full : Bool) (env : Env)

mutual

theorem sound_decJ : ∀ t : Ty, Sound (decJ full env t) (LDenotes full env t)
  | .prim p => by
    simp only [decJ, LDenotes]
    exact sound_prim full p
  | .nonZero sg w => by
    simp only [decJ, LDenotes]
    exact sound_nonZero (sound_prim full _)
  | .unit => by
    simp only [decJ, LDenotes]
    exact sound_skip
  | .bytes => by
    simp only [decJ, LDenotes]
    exact sound_sequence (sound_unsigned full (w := 8) (by decide) (by decide))
  | .string => by
    simp only [decJ, LDenotes]
    exact sound_str
  | .byteArray n => by
    simp only [decJ, LDenotes]
    exact sound_array full n
  | .option t => by
    simp only [decJ]
    intro s v r h
    rw [lex_bind] at h
    obtain ⟨ws, hws, e⟩ := skipWs_inv (s := s)
    split at h
    · obtain ⟨_, s1, h1, h2⟩ := P.bind_eq_ok.1 h
      cases h2
      refine ⟨ws, [0x6E#8, 0x75#8, 0x6C#8, 0x6C#8], hws, by simp only [LDenotes], ?_⟩
      rw [e, parseExact_inv h1]; simp [strNull]
    · rename_i hne
      obtain ⟨x, s1, h1, h2⟩ := P.bind_eq_ok.1 h
      cases h2
      obtain ⟨ws', y, hws', hy, e'⟩ := sound_decJ t _ _ _ h1
      have hnil : ws' = [] := by
        cases ws' with
        | nil => rfl
        | cons b l =>
          exfalso
          have h1 := dropWs_not_ws s b (l ++ (y ++ r)) (by rw [e']; rfl)
          have h2 := isWs_of hws' b (by simp)
          rw [h1] at h2; cases h2
      subst hnil
      refine ⟨ws, y, hws, ?_, by rw [e, e']; rfl⟩
      simp only [LDenotes]
      refine ⟨hy, ?_⟩
      intro hy0
      apply hne
      cases y with
      | nil => cases hy0
      | cons b y =>
        cases hy0
        rw [e']
        rfl
  | .array n t => by
    simp only [decJ]
    intro s v r h
    obtain ⟨_, s1, h1, h2⟩ := P.bind_eq_ok.1 h
    obtain ⟨ws, hw, rfl⟩ := expect_inv (t := .openBracket) rfl h1
    obtain ⟨l', s2, h3, h4⟩ := P.bind_eq_ok.1 h2
    obtain ⟨e, r', he, rfl, rfl⟩ := elems_loose (sound_decJ t) _ _ _ _ _ h3
    obtain ⟨v', s3, h5, h6⟩ := P.bind_eq_ok.1 h4
    obtain ⟨h7, rfl⟩ := ofExcept_inv h5
    rw [P.bind_ok (endSeq_close false r')] at h6
    cases h6
    unfold toArray at h7
    split at h7
    · cases h7
      refine ⟨ws, 0x5B#8 :: e ++ [0x5D#8], hw, ?_, by simp⟩
      simp only [LDenotes]
      exact ⟨e, he, rfl⟩
    · cases h7
  | .vec t => by
    simp only [decJ, LDenotes]
    exact sound_sequence (sound_decJ t)
  | .set t => by
    simp only [decJ, LDenotes]
    exact sound_sequence (sound_decJ t)
  | .map k t => by
    simp only [decJ, LDenotes]
    intro s v r h
    obtain ⟨ws, x, hw, ⟨es, h1, h2⟩, e⟩ := object_loose (step := fun l (a : k.Val × t.Val) => l ++ [a])
      (R := fun x => Member (LKey full k x.1) (LDenotes full env t x.2)) (by
        intro st s st' r h
        obtain ⟨a, s1, h1, h2⟩ := P.bind_eq_ok.1 h
        obtain ⟨_, s2, h3, h4⟩ := P.bind_eq_ok.1 h2
        obtain ⟨b, s3, h5, h6⟩ := P.bind_eq_ok.1 h4
        cases h6
        obtain ⟨ws, x, hw, hx, rfl⟩ := sound_key full k _ _ _ h1
        obtain ⟨c, hc, rfl⟩ := expect_inv (t := .colon) rfl h3
        obtain ⟨d, y, hd, hy, rfl⟩ := sound_decJ t _ _ _ h5
        exact ⟨(a, b), ws, _, rfl, hw, ⟨x, c, d, y, hx, hc, hd, hy, rfl⟩, by simp⟩) [] _ _ _ h
    have hfold : ∀ (es : List (k.Val × t.Val)) l, es.foldl (fun l a => l ++ [a]) l = l ++ es := by
      intro es
      induction es with
      | nil => intro l; simp
      | cons a es ih => intro l; rw [List.foldl_cons, ih]; simp
    rw [hfold] at h1
    subst h1
    exact ⟨ws, x, hw, h2, e⟩
  | .tuple ts => by
    simp only [decJ]
    intro s v r h
    obtain ⟨_, s1, h1, h2⟩ := P.bind_eq_ok.1 h
    obtain ⟨ws, hw, rfl⟩ := expect_inv (t := .openBracket) rfl h1
    obtain ⟨⟨v', first⟩, s2, h3, h4⟩ := P.bind_eq_ok.1 h2
    obtain ⟨_, s3, h5, h6⟩ := P.bind_eq_ok.1 h4
    cases h6
    obtain ⟨e, he, rfl⟩ := endSeq_loose h5
    obtain ⟨y, hy, rfl⟩ := sound_decTys ts true _ _ _ _ h3 _ _ he rfl
    refine ⟨ws, 0x5B#8 :: y ++ [0x5D#8], hw, ?_, by simp⟩
    simp only [LDenotes]
    exact ⟨y, hy, rfl⟩
  | .result nt t u => by
    simp only [decJ]
    intro s v r h
    obtain ⟨_, s1, h1, h2⟩ := P.bind_eq_ok.1 h
    obtain ⟨ws, hw, rfl⟩ := expect_inv (t := .openBrace) rfl h1
    obtain ⟨n, s2, h3, h4⟩ := P.bind_eq_ok.1 h2
    obtain ⟨a, k, ha, ⟨hk, _⟩, rfl⟩ := sound_nameK full nt _ _ _ h3
    split at h4
    · rename_i hn
      obtain ⟨_, s3, h5, h6⟩ := P.bind_eq_ok.1 h4
      obtain ⟨b, hb, rfl⟩ := expect_inv (t := .colon) rfl h5
      obtain ⟨x, s4, h7, h8⟩ := P.bind_eq_ok.1 h6
      obtain ⟨c, y, hc, hy, rfl⟩ := sound_decJ t _ _ _ h7
      obtain ⟨_, s5, h9, h10⟩ := P.bind_eq_ok.1 h8
      obtain ⟨d, hd, rfl⟩ := expect_inv (t := .closeBrace) rfl h9
      cases h10
      refine ⟨ws, 0x7B#8 :: (a ++ ((k ++ (b ++ 0x3A#8 :: (c ++ y))) ++ d)) ++ [0x7D#8], hw, ?_, ?_⟩
      · simp only [LDenotes]
        rw [hn] at hk
        exact ⟨a, _, d, ha, ⟨k, b, c, y, hk, hb, hc, hy, rfl⟩, hd, rfl⟩
      · simp
    · split at h4
      · rename_i hn
        obtain ⟨_, s3, h5, h6⟩ := P.bind_eq_ok.1 h4
        obtain ⟨b, hb, rfl⟩ := expect_inv (t := .colon) rfl h5
        obtain ⟨x, s4, h7, h8⟩ := P.bind_eq_ok.1 h6
        obtain ⟨c, y, hc, hy, rfl⟩ := sound_decJ u _ _ _ h7
        obtain ⟨_, s5, h9, h10⟩ := P.bind_eq_ok.1 h8
        obtain ⟨d, hd, rfl⟩ := expect_inv (t := .closeBrace) rfl h9
        cases h10
        refine ⟨ws, 0x7B#8 :: (a ++ ((k ++ (b ++ 0x3A#8 :: (c ++ y))) ++ d)) ++ [0x7D#8], hw, ?_, ?_⟩
        · simp only [LDenotes]
          rw [hn] at hk
          exact ⟨a, _, d, ha, ⟨k, b, c, y, hk, hb, hc, hy, rfl⟩, hd, rfl⟩
        · simp
      · cases h4
  | .boxed t => by
    simp only [decJ, LDenotes]
    exact sound_decJ t
  | .wrapping t => by
    simp only [decJ, LDenotes]
    exact sound_decJ t
  | .transparent t => by
    simp only [decJ, LDenotes]
    exact sound_decJ t
  | .unitStruct => by
    simp only [decJ]
    intro s v r h
    obtain ⟨_, s1, h1, h2⟩ := P.bind_eq_ok.1 h
    obtain ⟨ws, hw, rfl⟩ := expect_inv (t := .openBrace) rfl h1
    obtain ⟨e, he, rfl⟩ := endMap_loose h2
    refine ⟨ws, 0x7B#8 :: e ++ [0x7D#8], hw, ?_, by simp⟩
    simp only [LDenotes]
    exact ⟨.object he, _, rfl⟩
  | .strct nt fs => by
    simp only [decJ]
    intro s v r h
    obtain ⟨p, s1, h1, h2⟩ := P.bind_eq_ok.1 h
    obtain ⟨h3, rfl⟩ := ofExcept_inv h2
    obtain ⟨ws, x, hw, ⟨es, h4, h5⟩, e⟩ := object_loose
      (step := fun p (a : { a : fs.Known ⊕ Name // ∀ n, a = .inr n → n ∉ fs.names ∧ n.ty = nt }) =>
        fs.setAny (β := Name) p a.1)
      (R := fun a => looseEntry full fs (looseKnown full env fs) a.1) (by
        intro st s st' r h
        obtain ⟨n, s1, h1, h2⟩ := P.bind_eq_ok.1 h
        obtain ⟨_, s2, h3, h4⟩ := P.bind_eq_ok.1 h2
        obtain ⟨ws, k, hw, ⟨hk, hty⟩, rfl⟩ := sound_nameK full nt _ _ _ h1
        obtain ⟨c, hc, rfl⟩ := expect_inv (t := .colon) rfl h3
        rcases sound_decEntry fs n st _ _ _ h4 with ⟨k', d, y, hkn, hst, hd, hy, rfl⟩ | ⟨d, y, hn, hst, hd, hy, rfl⟩
        · refine ⟨⟨.inl k', by simp⟩, ws, k ++ (c ++ 0x3A#8 :: (d ++ y)), hst, hw, ?_, by simp⟩
          exact ⟨k, c, d, y, by rw [hkn]; exact hk, hc, hd, hy, rfl⟩
        · refine ⟨⟨.inr n, by intro m hm; cases hm; exact ⟨hn, hty⟩⟩, ws, k ++ (c ++ 0x3A#8 :: (d ++ y)), hst, hw,
            ?_, by simp⟩
          exact ⟨k, c, d, y, hk, hc, hd, hy, rfl⟩) fs.none _ _ _ h1
    refine ⟨ws, x, hw, ?_, e⟩
    simp only [LDenotes]
    refine ⟨es.map Subtype.val, ?_, ?_, ?_⟩
    · intro n hn
      obtain ⟨a, _, ha⟩ := List.mem_map.1 hn
      exact a.2 n ha
    · have hmap : es.foldl (fun p a => fs.setAny (β := Name) p a.1) fs.none =
          (es.map Subtype.val).foldl (fs.setAny (β := Name)) fs.none := by
        rw [List.foldl_map]
      rw [hmap, foldl_known] at h4
      rw [← finish_assemble, ← h4]
      exact h3
    · rw [List.map_map]
      exact h5
  | .packed _ fs => by
    simp only [decJ]
    intro s v r h
    obtain ⟨_, s1, h1, h2⟩ := P.bind_eq_ok.1 h
    obtain ⟨ws, hw, rfl⟩ := expect_inv (t := .openBracket) rfl h1
    obtain ⟨⟨v', first⟩, s2, h3, h4⟩ := P.bind_eq_ok.1 h2
    obtain ⟨_, s3, h5, h6⟩ := P.bind_eq_ok.1 h4
    cases h6
    obtain ⟨e, he, rfl⟩ := endSeq_loose h5
    obtain ⟨y, hy, rfl⟩ := sound_decPack fs true _ _ _ _ h3 _ _ he rfl
    refine ⟨ws, 0x5B#8 :: y ++ [0x5D#8], hw, ?_, by simp⟩
    simp only [LDenotes]
    exact ⟨y, hy, rfl⟩
  | .unitEnum nt names => by
    simp only [decJ, LDenotes]
    exact sound_find (sound_nameV full nt)
  | .enm nt vs => by
    simp only [decJ]
    intro s v r h
    obtain ⟨_, s1, h1, h2⟩ := P.bind_eq_ok.1 h
    obtain ⟨ws, hw, rfl⟩ := expect_inv (t := .openBrace) rfl h1
    obtain ⟨n, s2, h3, h4⟩ := P.bind_eq_ok.1 h2
    obtain ⟨a, k, ha, ⟨hk, _⟩, rfl⟩ := sound_nameK full nt _ _ _ h3
    obtain ⟨v', s3, h5, h6⟩ := P.bind_eq_ok.1 h4
    obtain ⟨_, s5, h9, h10⟩ := P.bind_eq_ok.1 h6
    obtain ⟨d, hd, rfl⟩ := expect_inv (t := .closeBrace) rfl h9
    cases h10
    obtain ⟨y, hy, e⟩ := sound_decVariants vs n _ _ _ h5
    refine ⟨ws, 0x7B#8 :: (a ++ ((k ++ y) ++ d)) ++ [0x7D#8], hw, ?_, by rw [e]; simp⟩
    simp only [LDenotes]
    exact ⟨a, k ++ y, d, ha, hy k hk, hd, rfl⟩

theorem sound_decTys : ∀ (ts : Tys) (first : Bool) (s : Bytes) (v : ts.Val) (f : Bool) (r : Bytes),
    decTysJ full env ts first s = .ok ((v, f), r) → ∀ e r', LooseText (.elements f) e → r = e ++ r' →
    ∃ y, Loosely first (looseTys full env ts v) (fun first => LooseText (.elements first)) y ∧ s = y ++ r'
  | .nil, first, s, v, f, r, h, e, r', he, hr => by
    simp only [decTysJ] at h
    cases h
    exact ⟨e, by simp only [looseTys]; exact he, hr⟩
  | .cons t ts, first, s, v, f, r, h, e, r', he, hr => by
    simp only [decTysJ] at h
    obtain ⟨_, s1, h1, h2⟩ := P.bind_eq_ok.1 h
    obtain ⟨g, hg, rfl⟩ := needNext_inv h1
    obtain ⟨a, s2, h3, h4⟩ := P.bind_eq_ok.1 h2
    obtain ⟨ws, x, hw, hx, rfl⟩ := sound_decJ t _ _ _ h3
    obtain ⟨⟨b, f'⟩, s3, h5, h6⟩ := P.bind_eq_ok.1 h4
    cases h6
    obtain ⟨y, hy, rfl⟩ := sound_decTys ts false _ _ _ _ h5 e r' he hr
    refine ⟨(g ++ ws) ++ (x ++ y), ?_, by simp⟩
    simp only [looseTys]
    exact ⟨g ++ ws, x, y, gap_append hg (gap_ws hw), hx, hy, rfl⟩

theorem sound_decEntry : ∀ (fs : Fields) (n : Name) (p : fs.Partial) (s : Bytes) (q : fs.Partial) (r : Bytes),
    decEntryJ full env fs n p s = .ok (q, r) →
    (∃ k ws x, fs.keyOf k = n ∧ q = fs.set k p ∧ Ws ws ∧ looseKnown full env fs k x ∧ s = ws ++ (x ++ r)) ∨
    (∃ ws x, n ∉ fs.names ∧ q = p ∧ Ws ws ∧ LooseValue x ∧ s = ws ++ (x ++ r))
  | .nil, n, p, s, q, r, h => by
    simp only [decEntryJ] at h
    obtain ⟨ws, x, hw, hx, e⟩ := sound_skip _ _ _ h
    exact .inr ⟨ws, x, by simp [Fields.names], rfl, hw, hx, e⟩
  | .cons m d sk t fs, n, p, s, q, r, h => by
    simp only [decEntryJ] at h
    split at h
    · rename_i hm
      obtain ⟨v, s1, h1, h2⟩ := P.bind_eq_ok.1 h
      cases h2
      obtain ⟨ws, x, hw, hx, e⟩ := sound_decJ t _ _ _ h1
      exact .inl ⟨.inl v, ws, x, hm, rfl, hw, by simpa only [looseKnown] using hx, e⟩
    · rename_i hm
      obtain ⟨q', s1, h1, h2⟩ := P.bind_eq_ok.1 h
      cases h2
      rcases sound_decEntry fs n p.2 _ _ _ h1 with ⟨k, ws, x, hk, rfl, hw, hx, e⟩ | ⟨ws, x, hk, rfl, hw, hx, e⟩
      · exact .inl ⟨.inr k, ws, x, hk, rfl, hw, by simpa only [looseKnown] using hx, e⟩
      · refine .inr ⟨ws, x, ?_, rfl, hw, hx, e⟩
        simp only [Fields.names, List.mem_cons, not_or]
        exact ⟨fun hc => hm hc.symm, hk⟩

theorem sound_decPack : ∀ (fs : Fields) (first : Bool) (s : Bytes) (v : fs.Val) (f : Bool) (r : Bytes),
    decPackJ full env fs first s = .ok ((v, f), r) → ∀ e r', LooseText (.elements f) e → r = e ++ r' →
    ∃ y, Loosely first (looseFields full env fs v) (fun first => LooseText (.elements first)) y ∧ s = y ++ r'
  | .nil, first, s, v, f, r, h, e, r', he, hr => by
    simp only [decPackJ] at h
    cases h
    exact ⟨e, by simp only [looseFields]; exact he, hr⟩
  | .cons _ _ _ t fs, first, s, v, f, r, h, e, r', he, hr => by
    simp only [decPackJ] at h
    obtain ⟨_, s1, h1, h2⟩ := P.bind_eq_ok.1 h
    obtain ⟨g, hg, rfl⟩ := needNext_inv h1
    obtain ⟨a, s2, h3, h4⟩ := P.bind_eq_ok.1 h2
    obtain ⟨ws, x, hw, hx, rfl⟩ := sound_decJ t _ _ _ h3
    obtain ⟨⟨b, f'⟩, s3, h5, h6⟩ := P.bind_eq_ok.1 h4
    cases h6
    obtain ⟨y, hy, rfl⟩ := sound_decPack fs false _ _ _ _ h5 e r' he hr
    refine ⟨(g ++ ws) ++ (x ++ y), ?_, by simp⟩
    simp only [looseFields]
    exact ⟨g ++ ws, x, y, gap_append hg (gap_ws hw), hx, hy, rfl⟩

theorem sound_decVariants : ∀ (vs : Variants) (n : Name) (s : Bytes) (v : vs.Val) (r : Bytes),
    decVariantsJ full env vs n s = .ok (v, r) →
    ∃ y, (∀ k, LNameKey full n k → looseVariant full env vs v (k ++ y)) ∧ s = y ++ r
  | .nil, n, s, v, r, h => by simp only [decVariantsJ] at h; cases h
  | .cons m t vs, n, s, v, r, h => by
    simp only [decVariantsJ] at h
    split at h
    · rename_i hm
      obtain ⟨_, s1, h1, h2⟩ := P.bind_eq_ok.1 h
      obtain ⟨b, hb, rfl⟩ := expect_inv (t := .colon) rfl h1
      obtain ⟨x, s2, h3, h4⟩ := P.bind_eq_ok.1 h2
      cases h4
      obtain ⟨c, y, hc, hy, rfl⟩ := sound_decJ t _ _ _ h3
      refine ⟨b ++ 0x3A#8 :: (c ++ y), fun k hk => ?_, by simp⟩
      simp only [looseVariant]
      rw [hm]
      exact ⟨k, b, c, y, hk, hb, hc, hy, rfl⟩
    · obtain ⟨x, s2, h3, h4⟩ := P.bind_eq_ok.1 h
      cases h4
      obtain ⟨y, hy, e⟩ := sound_decVariants vs n _ _ _ h3
      exact ⟨y, fun k hk => by simpa only [looseVariant] using hy k hk, e⟩

end
end

end Musli.Json
