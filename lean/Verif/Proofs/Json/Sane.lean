import Verif.Model.Json.Codec
import Verif.Proofs.Utf8
import Verif.Proofs.Json.Strings
import Verif.Spec.Json.Supported
/-!
# What holds of every run of the JSON decoder, whatever the input
-/
set_option linter.unusedSectionVars false
namespace Musli.Json
open Musli Spec

/-- Input was consumed, and the last byte consumed is ASCII. -/
def Adv (s s' : Bytes) : Prop := ∃ y b, s = y ++ b :: s' ∧ b.toNat < 128

/-- Progress: `true` demands that something was consumed. -/
def Rel : Bool → Bytes → Bytes → Prop
  | true, s, s' => Adv s s'
  | false, s, s' => s' = s ∨ Adv s s'

theorem Adv.trans {s t u : Bytes} (h : Adv s t) (h' : Adv t u) : Adv s u := by
  obtain ⟨y, b, rfl, _⟩ := h
  obtain ⟨z, c, rfl, hc⟩ := h'
  exact ⟨y ++ b :: z, c, by simp, hc⟩

theorem Adv.length {s t : Bytes} (h : Adv s t) : t.length < s.length := by
  obtain ⟨y, b, rfl, _⟩ := h
  simp; omega

theorem Rel.refl (s : Bytes) : Rel false s s := .inl rfl

theorem Rel.trans {a b : Bool} {s t u : Bytes} (h : Rel a s t) (h' : Rel b t u) :
    Rel (a || b) s u := by
  cases a <;> cases b
  · rcases h with rfl | h
    · exact h'
    · rcases h' with rfl | h'
      · exact .inr h
      · exact .inr (h.trans h')
  · rcases h with rfl | h
    · exact h'
    · exact h.trans h'
  · rcases h' with rfl | h'
    · exact h
    · exact Adv.trans h h'
  · exact Adv.trans h h'

theorem Rel.weaken {a : Bool} {s t : Bytes} (h : Rel a s t) : Rel false s t := by
  cases a
  · exact h
  · exact .inr h

theorem Rel.suffix {a : Bool} {s t : Bytes} (h : Rel a s t) : ∃ x, s = x ++ t := by
  cases a
  · rcases h with rfl | ⟨y, b, rfl, _⟩
    · exact ⟨[], rfl⟩
    · exact ⟨y ++ [b], by simp⟩
  · obtain ⟨y, b, rfl, _⟩ := h
    exact ⟨y ++ [b], by simp⟩

theorem Rel.length {a : Bool} {s t : Bytes} (h : Rel a s t) : t.length ≤ s.length := by
  obtain ⟨x, rfl⟩ := h.suffix
  simp

theorem Rel.valid {a : Bool} {s t : Bytes} (h : Rel a s t) (hv : Utf8.valid s = true) :
    Utf8.valid t = true := by
  have h := h.weaken
  rcases h with rfl | ⟨y, b, rfl, hb⟩
  · exact hv
  · exact (Utf8.valid_split hb hv).2

/-- Errors that can happen: the model never runs out of fuel, and panics only if
`pn`. -/
def ErrOk (pn : Bool) (e : Err) : Prop := e ≠ .fuel ∧ (pn = false → e ≠ .panic)

/-- The parser behaves on `s`. -/
structure GoodAt {α} (pn str : Bool) (p : P α) (s : Bytes) : Prop where
  ok : ∀ a s', p s = .ok (a, s') → Rel str s s'
  err : ∀ e s', p s = .error (e, s') → ErrOk pn e ∧ ∃ x, s = x ++ s'

/-- The parser behaves on every input. -/
def Good {α} (pn str : Bool) (p : P α) : Prop := ∀ s, GoodAt pn str p s

variable {pn : Bool} {α β : Type}

theorem GoodAt.bind {a b : Bool} {p : P α} {f : α → P β} {s : Bytes} (h : GoodAt pn a p s)
    (h' : ∀ x s', p s = .ok (x, s') → GoodAt pn b (f x) s') : GoodAt pn (a || b) (p >>= f) s := by
  constructor
  · intro y s' hy
    obtain ⟨x, t, h1, h2⟩ := P.bind_eq_ok.1 hy
    exact (h.ok x t h1).trans ((h' x t h1).ok y s' h2)
  · intro e s' he
    rcases P.bind_eq_error.1 he with he | ⟨x, t, h1, h2⟩
    · exact h.err e s' he
    · obtain ⟨h3, z, h4⟩ := (h' x t h1).err e s' h2
      obtain ⟨w, h5⟩ := (h.ok x t h1).suffix
      exact ⟨h3, w ++ z, by rw [h5, h4]; simp⟩

theorem Good.bind {a b : Bool} {p : P α} {f : α → P β} (h : Good pn a p)
    (h' : ∀ x, Good pn b (f x)) : Good pn (a || b) (p >>= f) :=
  fun s => (h s).bind fun x s' _ => h' x s'

theorem GoodAt.weaken {a : Bool} {p : P α} {s : Bytes} (h : GoodAt pn a p s) : GoodAt pn false p s :=
  ⟨fun x s' hx => (h.ok x s' hx).weaken, h.err⟩

theorem Good.weaken {a : Bool} {p : P α} (h : Good pn a p) : Good pn false p :=
  fun s => (h s).weaken

/-- Strict, then anything. -/
theorem Good.bindS {b : Bool} {p : P α} {f : α → P β} (h : Good pn true p)
    (h' : ∀ x, Good pn b (f x)) : Good pn true (p >>= f) := h.bind h'

/-- Anything, then strict. -/
theorem Good.bindR {a : Bool} {p : P α} {f : α → P β} (h : Good pn a p)
    (h' : ∀ x, Good pn true (f x)) : Good pn true (p >>= f) := by
  have := h.bind h'
  rwa [Bool.or_true] at this

theorem Good.bindF {a b : Bool} {p : P α} {f : α → P β} (h : Good pn a p)
    (h' : ∀ x, Good pn b (f x)) : Good pn false (p >>= f) := h.weaken.bind fun x => (h' x).weaken

theorem good_pure (a : α) : Good pn false (pure a : P α) := fun s =>
  ⟨fun x s' h => by cases h; exact Rel.refl _, fun e s' h => by cases h⟩

theorem good_fail {str : Bool} {e : Err} (h : ErrOk pn e) : Good pn str (P.fail e : P α) := fun s =>
  ⟨fun x s' hx => (by cases hx), fun e s' hx => (by cases hx; exact ⟨h, [], rfl⟩)⟩

theorem good_ofExcept {x : Except Err α} (h : ∀ e, x = .error e → ErrOk pn e) :
    Good pn false (P.ofExcept x) := fun s => by
  cases x with
  | ok a => exact good_pure a s
  | error e => exact good_fail (h e rfl) s

theorem Good.ite {str : Bool} {c : Prop} [Decidable c] {p q : P α} (hp : Good pn str p) (hq : Good pn str q) :
    Good pn str (if c then p else q) := by split <;> assumption

theorem errOk_invalid : ErrOk pn .invalid := ⟨by decide, by intro; decide⟩
theorem errOk_eof : ErrOk pn .eof := ⟨by decide, by intro; decide⟩
theorem errOk_utf8 : ErrOk pn .utf8 := ⟨by decide, by intro; decide⟩
theorem errOk_length : ErrOk pn .length := ⟨by decide, by intro; decide⟩
theorem errOk_missing : ErrOk pn .missing := ⟨by decide, by intro; decide⟩
theorem errOk_unknown : ErrOk pn .unknown := ⟨by decide, by intro; decide⟩
theorem errOk_unsupported : ErrOk pn .unsupported := ⟨by decide, by intro; decide⟩
theorem errOk_overflow : ErrOk pn .overflow := ⟨by decide, by intro; decide⟩

/-! ## Primitives -/

theorem good_peek : Good pn false P.peek := fun s =>
  ⟨fun x s' h => by cases h; exact Rel.refl _, fun e s' h => by cases h⟩

theorem good_skip (n : Nat) (s : Bytes) : ∀ e s', P.skip n s = .error (e, s') →
    ErrOk pn e ∧ ∃ x, s = x ++ s' := by
  intro e s' h
  unfold P.skip at h
  split at h
  · cases h; exact ⟨errOk_eof, [], rfl⟩
  · cases h

theorem goodAt_skip1 {b : Byte} (hb : b.toNat < 128) (s : Bytes) :
    GoodAt pn true (P.skip 1) (b :: s) := by
  refine ⟨fun a s' h => ?_, good_skip 1 _⟩
  unfold P.skip at h
  rw [if_neg (by simp)] at h
  cases h
  exact ⟨[], b, rfl, hb⟩

/-- After looking at the first byte. -/
theorem goodAt_skip1_head {s : Bytes} {b : Byte} (h : s.head? = some b) (hb : b.toNat < 128) :
    GoodAt pn true (P.skip 1) s := by
  cases s with
  | nil => cases h
  | cons c s => cases h; exact goodAt_skip1 hb s

theorem ws_ascii {ws : Bytes} (h : Ws ws) : ∀ b ∈ ws, b.toNat < 128 := by
  intro b hb
  rcases h b hb with h | h | h | h <;> subst h <;> decide

theorem rel_append {x : Bytes} (h : ∀ b ∈ x, b.toNat < 128) (s : Bytes) : Rel false (x ++ s) s := by
  rcases List.eq_nil_or_concat x with rfl | ⟨y, b, rfl⟩
  · exact Rel.refl _
  · exact .inr ⟨y, b, by simp, h b (by simp)⟩

theorem rel_dropWs (s : Bytes) : Rel false s (dropWs s) := by
  obtain ⟨ws, hw, h⟩ := dropWs_spec s
  conv => lhs; rw [h]
  exact rel_append (ws_ascii hw) _

theorem good_skipWs : Good pn false skipWs := fun s =>
  ⟨fun a s' h => by cases h; exact rel_dropWs s, fun e s' h => by cases h⟩

theorem good_lex : Good pn false lex := fun s =>
  ⟨fun a s' h => by cases h; exact rel_dropWs s, fun e s' h => by cases h⟩

theorem good_expect {t : Token} {b : Byte} (h : t.byte = some b) : Good pn true (expect t) := by
  intro s
  constructor
  · rintro ⟨⟩ s' hs
    obtain ⟨ws, hw, rfl⟩ := expect_inv h hs
    refine ⟨ws, b, rfl, ?_⟩
    cases t <;> simp only [Token.byte, Option.some.injEq, reduceCtorEq] at h <;> subst h <;> decide
  · intro e s' hs
    unfold expect at hs
    rcases P.bind_eq_error.1 hs with hs | ⟨x, t', h1, h2⟩
    · cases hs
    · have hsuf := ((good_lex (pn := pn)) s).ok _ _ h1
      split at h2
      · obtain ⟨h3, z, hz⟩ := good_skip (pn := pn) _ _ _ _ h2
        obtain ⟨y, hy⟩ := hsuf.suffix
        exact ⟨h3, y ++ z, by rw [hy, hz]; simp⟩
      · cases h2
        exact ⟨errOk_invalid, hsuf.suffix⟩

theorem good_read (n : Nat) (s : Bytes) : ∀ e s', P.read n s = .error (e, s') →
    ErrOk pn e ∧ ∃ x, s = x ++ s' := by
  intro e s' h
  unfold P.read at h
  split at h
  · cases h; exact ⟨errOk_eof, [], rfl⟩
  · cases h

theorem good_parseExact {exact : Bytes} (ha : ∀ b ∈ exact, b.toNat < 128) (hne : exact ≠ []) :
    Good pn true (parseExact exact) := by
  intro s
  unfold parseExact
  constructor
  · rintro ⟨⟩ s' h
    obtain ⟨x, t, h1, h2⟩ := P.bind_eq_ok.1 h
    split at h2
    · rename_i hx
      cases h2
      unfold P.read at h1
      split at h1
      · cases h1
      · cases h1
        have : s = exact ++ List.drop exact.length s := by
          conv => lhs; rw [← List.take_append_drop exact.length s, hx]
        rcases List.eq_nil_or_concat exact with h0 | ⟨y, b, hb⟩
        · exact absurd h0 hne
        · refine ⟨y, b, ?_, ha b (by rw [hb]; simp)⟩
          conv => lhs; rw [this]
          conv => lhs; lhs; rw [hb]
          simp
    · cases h2
  · intro e s' h
    rcases P.bind_eq_error.1 h with h | ⟨x, t, h1, h2⟩
    · exact good_read _ _ _ _ h
    · split at h2
      · cases h2
      · cases h2
        unfold P.read at h1
        split at h1
        · cases h1
        · cases h1
          exact ⟨errOk_invalid, _, (List.take_append_drop _ _).symm⟩

theorem good_null : Good pn true (parseExact strNull) := good_parseExact (by decide) (by decide)
theorem good_true : Good pn true (parseExact strTrue) := good_parseExact (by decide) (by decide)
theorem good_false : Good pn true (parseExact strFalse) := good_parseExact (by decide) (by decide)

/-! ## Strings -/

theorem suffix_cons {b : Byte} {s s' : Bytes} (h : ∃ x, s = x ++ s') : ∃ x, b :: s = x ++ s' := by
  obtain ⟨x, rfl⟩ := h
  exact ⟨b :: x, rfl⟩

theorem suffix_trans {s t u : Bytes} (h : ∃ x, s = x ++ t) (h' : ∃ x, t = x ++ u) :
    ∃ x, s = x ++ u := by
  obtain ⟨x, rfl⟩ := h
  obtain ⟨y, rfl⟩ := h'
  exact ⟨x ++ y, by simp⟩

/-- Errors and positions only. -/
structure MildAt {α} (pn : Bool) (p : P α) (s : Bytes) : Prop where
  ok : ∀ a s', p s = .ok (a, s') → ∃ x, s = x ++ s'
  err : ∀ e s', p s = .error (e, s') → ErrOk pn e ∧ ∃ x, s = x ++ s'

theorem MildAt.bind {p : P α} {f : α → P β} {s : Bytes} (h : MildAt pn p s)
    (h' : ∀ x s', p s = .ok (x, s') → MildAt pn (f x) s') : MildAt pn (p >>= f) s := by
  constructor
  · intro y s' hy
    obtain ⟨x, t, h1, h2⟩ := P.bind_eq_ok.1 hy
    exact suffix_trans (h.ok x t h1) ((h' x t h1).ok y s' h2)
  · intro e s' he
    rcases P.bind_eq_error.1 he with he | ⟨x, t, h1, h2⟩
    · exact h.err e s' he
    · obtain ⟨h3, h4⟩ := (h' x t h1).err e s' h2
      exact ⟨h3, suffix_trans (h.ok x t h1) h4⟩

theorem GoodAt.mild {str : Bool} {p : P α} {s : Bytes} (h : GoodAt pn str p s) : MildAt pn p s :=
  ⟨fun a s' ha => (h.ok a s' ha).suffix, h.err⟩

theorem MildAt.ite {c : Prop} [Decidable c] {p q : P α} {s : Bytes} (hp : MildAt pn p s)
    (hq : MildAt pn q s) : MildAt pn (if c then p else q) s := by
  by_cases h : c
  · rw [if_pos h]; exact hp
  · rw [if_neg h]; exact hq

theorem mild_readByte (s : Bytes) : MildAt pn P.readByte s := by
  constructor
  · intro b s' h
    rw [readByte_inv h]
    exact ⟨[b], rfl⟩
  · intro e s' h
    cases s with
    | nil => cases h; exact ⟨errOk_eof, [], rfl⟩
    | cons b s => cases h

theorem mild_hexEscape (s : Bytes) : MildAt pn hexEscape s := by
  constructor
  · intro n s' h
    obtain ⟨x, _, h⟩ := hexEscape_inv h
    exact ⟨x, h⟩
  · intro e s' h
    unfold hexEscape at h
    split at h
    · split at h
      · cases h
      · cases h; exact ⟨errOk_invalid, [], rfl⟩
    · cases h; exact ⟨errOk_eof, [], rfl⟩

theorem mild_fail {e : Err} (h : ErrOk pn e) (s : Bytes) : MildAt pn (P.fail e : P α) s :=
  (good_fail (str := false) h s).mild

theorem mild_pure (a : α) (s : Bytes) : MildAt pn (pure a : P α) s := (good_pure a s).mild

theorem utf8Of_err {n : Nat} {e : Err} (h : utf8Of n = .error e) : e = .invalid := by
  unfold utf8Of at h
  split at h
  · cases h
  · cases h; rfl

theorem mild_utf8Of (n : Nat) (s : Bytes) : MildAt pn (P.ofExcept (utf8Of n)) s :=
  (good_ofExcept (fun e h => by rw [utf8Of_err h]; exact errOk_invalid) s).mild

theorem mild_parseU (s : Bytes) : MildAt pn parseU s := by
  unfold parseU
  refine (mild_hexEscape s).bind fun n s1 _ => ?_
  split
  · exact mild_fail errOk_invalid _
  split
  · refine (mild_readByte _).bind fun x s2 _ => ?_
    split
    · exact mild_fail errOk_invalid _
    · refine (mild_readByte _).bind fun y s3 _ => ?_
      split
      · exact mild_fail errOk_invalid _
      · refine (mild_hexEscape _).bind fun n2 s4 _ => ?_
        split
        · exact mild_utf8Of _ _
        · exact mild_fail errOk_invalid _
  · exact mild_utf8Of _ _

theorem mild_parseEscape (s : Bytes) : MildAt pn parseEscape s := by
  unfold parseEscape
  refine (mild_readByte s).bind fun b s1 _ => ?_
  iterate 8 refine MildAt.ite (mild_pure _ _) ?_
  exact MildAt.ite (mild_parseU s1) (mild_fail errOk_invalid _)

theorem hexDigit_ascii {b : Byte} {n : Nat} (h : HexDigit b n) : b.toNat < 128 := by
  unfold HexDigit at h
  omega

theorem hex4_ascii {l : Bytes} {n : Nat} (h : Hex4 l n) : ∀ b ∈ l, b.toNat < 128 := by
  obtain ⟨a, b, c, d, i, j, k, m, rfl, ha, hb, hc, hd, _⟩ := h
  intro x hx
  simp only [List.mem_cons, List.not_mem_nil, or_false] at hx
  rcases hx with rfl | rfl | rfl | rfl
  · exact hexDigit_ascii ha
  · exact hexDigit_ascii hb
  · exact hexDigit_ascii hc
  · exact hexDigit_ascii hd

theorem escape_ascii {e : Bytes} {c : Char} (h : Escape e c) : ∀ b ∈ e, b.toNat < 128 := by
  cases h with
  | unicode h =>
    intro b hb
    rcases List.mem_cons.1 hb with rfl | hb
    · decide
    · exact hex4_ascii h b hb
  | pair h h' =>
    intro b hb
    simp only [List.cons_append, List.mem_cons, List.mem_append] at hb
    rcases hb with rfl | hb | rfl | rfl | hb
    · decide
    · exact hex4_ascii h b hb
    · decide
    · decide
    · exact hex4_ascii h' b hb
  | _ => decide

theorem good_parseEscape : Good pn false parseEscape := fun s => by
  refine ⟨fun x s' h => ?_, (mild_parseEscape s).err⟩
  obtain ⟨e, c, rfl, _, he⟩ := parseEscape_inv h
  exact rel_append (escape_ascii he) _

theorem spanPlain_suffix (s : Bytes) : s = (spanPlain s).1 ++ (spanPlain s).2 := (spanPlain_spec s).1

theorem goodAt_strLoop : ∀ (fuel : Nat) (scratch s : Bytes), s.length < fuel →
    GoodAt pn true (strLoop fuel scratch) s
  | 0, _, _, h => absurd h (by omega)
  | fuel + 1, scratch, s, hl => by
    have hs := spanPlain_suffix s
    constructor
    · intro a s' h
      unfold strLoop at h
      dsimp only at h
      split at h
      · cases h
      · rename_i b r hr
        rw [hr] at hs
        split at h
        · rename_i hb
          split at h
          · cases h
          · cases h
            exact ⟨_, b, hs, by rw [beq_iff_eq.1 hb]; decide⟩
        · split at h
          · rename_i hb
            split at h
            · cases h
            · have h1 : Adv s r := ⟨_, b, hs, by rw [beq_iff_eq.1 hb]; decide⟩
              obtain ⟨x, t, h3, h4⟩ := P.bind_eq_ok.1 h
              have h5 := (good_parseEscape (pn := pn) _).ok _ _ h3
              have h6 := (goodAt_strLoop fuel _ t (by
                have := h1.length; have := h5.length; omega)).ok _ _ h4
              exact Rel.trans (a := true) h1 (h5.trans h6)
          · cases h
    · intro e s' h
      unfold strLoop at h
      dsimp only at h
      split at h
      · cases h; exact ⟨errOk_eof, s, by simp⟩
      · rename_i b r hr
        rw [hr] at hs
        have hu : ∀ seg e, checkUtf8 seg = .error e → ErrOk pn e := by
          intro seg e he
          unfold checkUtf8 at he
          split at he
          · cases he
          · cases he; exact errOk_utf8
        split at h
        · split at h
          · rename_i e' he
            cases h
            refine ⟨hu _ _ he, ?_⟩
            split
            · exact ⟨(spanPlain s).1 ++ [b], by conv => lhs; rw [hs]
                                                simp⟩
            · exact ⟨_, hs⟩
          · cases h
        · split at h
          · rename_i hb
            split at h
            · rename_i e' he
              cases h
              exact ⟨hu _ _ he, _, hs⟩
            · have h1 : Adv s r := ⟨_, b, hs, by rw [beq_iff_eq.1 hb]; decide⟩
              have hsr : ∃ x, s = x ++ r := Rel.suffix (a := true) h1
              rcases P.bind_eq_error.1 h with h | ⟨x, t, h3, h4⟩
              · obtain ⟨h5, h6⟩ := (good_parseEscape (pn := pn) _).err _ _ h
                exact ⟨h5, suffix_trans hsr h6⟩
              · have h5 := (good_parseEscape (pn := pn) _).ok _ _ h3
                obtain ⟨h6, h7⟩ := (goodAt_strLoop fuel _ t (by
                  have := h1.length; have := h5.length; omega)).err _ _ h4
                exact ⟨h6, suffix_trans hsr (suffix_trans h5.suffix h7)⟩
          · cases h
            exact ⟨errOk_invalid, _, hs⟩

theorem good_parseStringInner : Good pn true parseStringInner := fun s => by
  have h := goodAt_strLoop (pn := pn) (s.length + 1) [] s (by omega)
  exact ⟨h.ok, h.err⟩

theorem good_parseString : Good pn true parseString :=
  (good_expect (b := 0x22#8) rfl).bindS fun _ => good_parseStringInner

/-- Read a byte which turns out to be ASCII, or fail. -/
theorem goodAt_readByte {f : Byte → P β} {str : Bool}
    (h1 : ∀ b, b.toNat < 128 → Good pn str (f b))
    (h2 : ∀ b, ¬ b.toNat < 128 → ∃ e, ErrOk pn e ∧ f b = P.fail e) :
    Good pn true (P.readByte >>= f) := by
  intro s
  cases s with
  | nil =>
    exact ⟨fun a s' h => (by cases h), fun e s' h => (by cases h; exact ⟨errOk_eof, [], rfl⟩)⟩
  | cons b s =>
    have e : (P.readByte >>= f) (b :: s) = f b s := rfl
    by_cases hb : b.toNat < 128
    · constructor
      · intro a s' h
        rw [e] at h
        exact Rel.trans (a := true) ⟨[], b, rfl, hb⟩ ((h1 b hb s).ok a s' h)
      · intro x s' h
        rw [e] at h
        obtain ⟨h3, h4⟩ := (h1 b hb s).err x s' h
        exact ⟨h3, suffix_cons h4⟩
    · obtain ⟨x, hx, hf⟩ := h2 b hb
      constructor
      · intro a s' h
        rw [e, hf] at h
        cases h
      · intro y s' h
        rw [e, hf] at h
        cases h
        exact ⟨hx, [b], rfl⟩

theorem good_hexEscape : Good pn false hexEscape := fun s => by
  refine ⟨fun n s' h => ?_, (mild_hexEscape s).err⟩
  obtain ⟨x, hx, rfl⟩ := hexEscape_inv h
  exact rel_append (hex4_ascii hx) _

theorem good_skipU : Good pn false skipU := by
  unfold skipU
  refine good_hexEscape.bindF (b := false) fun n => ?_
  refine Good.ite (good_fail errOk_invalid) (Good.ite ?_ (good_pure _))
  refine Good.weaken (a := true) (goodAt_readByte (str := false) (fun x _ => ?_) (fun x hx => ?_))
  · refine Good.ite (good_fail errOk_invalid) ?_
    refine Good.weaken (a := true) (goodAt_readByte (str := false) (fun y _ => ?_) (fun y hy => ?_))
    · refine Good.ite (good_fail errOk_invalid) ?_
      refine good_hexEscape.bindF (b := false) fun n2 => ?_
      refine Good.ite ?_ (good_fail errOk_invalid)
      refine Good.bindF (a := false) (b := false) (good_ofExcept fun e h => ?_) fun _ => good_pure _
      rw [utf8Of_err h]; exact errOk_invalid
    · refine ⟨.invalid, errOk_invalid, ?_⟩
      rw [if_pos]
      revert hy; revert y; decide
  · refine ⟨.invalid, errOk_invalid, ?_⟩
    rw [if_pos]
    revert hx; revert x; decide

theorem good_skipEscape : Good pn true skipEscape := by
  unfold skipEscape
  refine goodAt_readByte (str := false) (fun b _ => ?_) (fun b hb => ?_)
  · refine Good.ite (good_pure _) (Good.ite ?_ (good_fail errOk_invalid))
    exact good_skipU
  · refine ⟨.invalid, errOk_invalid, ?_⟩
    rw [if_neg, if_neg]
    · revert hb; revert b; decide
    · revert hb; revert b; decide

theorem goodAt_skipStrLoop : ∀ (fuel : Nat) (s : Bytes), s.length < fuel →
    GoodAt pn true (skipStrLoop fuel) s
  | 0, _, h => absurd h (by omega)
  | fuel + 1, s, hl => by
    have hs := spanPlain_suffix s
    constructor
    · rintro ⟨⟩ s' h
      unfold skipStrLoop at h
      split at h
      · cases h
      · rename_i b r hr
        rw [hr] at hs
        split at h
        · rename_i hb
          cases h
          exact ⟨_, b, hs, by rw [beq_iff_eq.1 hb]; decide⟩
        · split at h
          · rename_i hb
            have h1 : Adv s r := ⟨_, b, hs, by rw [beq_iff_eq.1 hb]; decide⟩
            obtain ⟨x, t, h3, h4⟩ := P.bind_eq_ok.1 h
            have h5 := (good_skipEscape (pn := pn) _).ok _ _ h3
            have h6 := (goodAt_skipStrLoop fuel t (by
              have := h1.length; have := h5.length; omega)).ok _ _ h4
            exact Rel.trans (a := true) h1 (h5.trans h6)
          · cases h
    · intro e s' h
      unfold skipStrLoop at h
      split at h
      · cases h; exact ⟨errOk_eof, s, by simp⟩
      · rename_i b r hr
        rw [hr] at hs
        have hsr : ∃ x, s = x ++ r := ⟨(spanPlain s).1 ++ [b], by rw [List.append_assoc]; exact hs⟩
        have hlen : r.length < s.length := by rw [hs]; simp; omega
        split at h
        · cases h
        · split at h
          · rcases P.bind_eq_error.1 h with h | ⟨x, t, h3, h4⟩
            · obtain ⟨h5, h6⟩ := (good_skipEscape (pn := pn) _).err _ _ h
              exact ⟨h5, suffix_trans hsr h6⟩
            · have h5 := (good_skipEscape (pn := pn) _).ok _ _ h3
              obtain ⟨h6, h7⟩ := (goodAt_skipStrLoop fuel t (by
                have := h5.length; omega)).err _ _ h4
              exact ⟨h6, suffix_trans hsr (suffix_trans h5.suffix h7)⟩
          · cases h
            exact ⟨errOk_invalid, hsr⟩

theorem good_skipString : Good pn true skipString := fun s => by
  have h := goodAt_skipStrLoop (pn := pn) (s.length + 1) s (by omega)
  exact ⟨h.ok, h.err⟩

/-! ## Numbers -/

section
variable {w : Nat}

theorem isDigit_ascii {b : Byte} (h : isDigit b = true) : b.toNat < 128 := by
  revert h; revert b; decide

theorem goodAt_digit (out : BitVec w) {b : Byte} (hb : isDigit b = true) (s : Bytes) :
    GoodAt pn true (digit out) (b :: s) := by
  unfold digit
  split
  · exact good_fail errOk_overflow _
  · constructor
    · intro a s' h
      cases h
      exact ⟨[], b, rfl, isDigit_ascii hb⟩
    · intro e s' h
      cases h

theorem good_digits : ∀ (s : Bytes) (out : BitVec w), GoodAt pn false (digits out) s
  | [], out => ⟨fun a s' h => by cases h; exact Rel.refl _, fun e s' h => by cases h⟩
  | b :: s, out => by
    by_cases hb : isDigit b = true
    · have hd := goodAt_digit (pn := pn) out hb s
      constructor
      · intro a s' h
        unfold digits at h
        rw [if_pos hb] at h
        split at h
        · rename_i o' r hr
          have h1 := (good_digits s o').ok _ _ h
          exact Rel.weaken (a := true) (Rel.trans (a := true) ⟨[], b, rfl, isDigit_ascii hb⟩ h1)
        · cases h
      · intro e s' h
        unfold digits at h
        rw [if_pos hb] at h
        split at h
        · rename_i o' r hr
          obtain ⟨h1, h2⟩ := (good_digits s o').err _ _ h
          exact ⟨h1, suffix_cons h2⟩
        · rename_i x hx
          cases h
          exact hd.err _ _ hx
    · constructor
      · intro a s' h
        unfold digits at h
        rw [if_neg hb] at h
        cases h
        exact Rel.refl _
      · intro e s' h
        unfold digits at h
        rw [if_neg hb] at h
        cases h

theorem good_unsignedBase : Good pn true (unsignedBase w) := by
  unfold unsignedBase
  refine goodAt_readByte (str := false) (fun b _ => ?_) (fun b hb => ?_)
  · exact Good.ite (good_pure _) (Good.ite (fun s => good_digits s _) (good_fail errOk_invalid))
  · refine ⟨.invalid, errOk_invalid, ?_⟩
    rw [if_neg, if_neg]
    · revert hb; revert b; decide
    · revert hb; revert b; decide

theorem computeSigned_err {neg : Bool} {u : BitVec w} {e : Err} (h : computeSigned neg u = .error e) :
    e = .overflow := by
  unfold computeSigned at h
  split at h
  · cases h
  · cases h; rfl

/-- Look at the first byte, and skip it if it is the expected ASCII byte. -/
theorem good_peek_bind {f : Option Byte → P β} {str : Bool}
    (h : ∀ s, GoodAt pn str (f s.head?) s) : Good pn str (P.peek >>= f) := by
  intro s
  have e : (P.peek >>= f) s = f s.head? s := rfl
  exact ⟨fun a s' ha => (h s).ok a s' (e ▸ ha), fun x s' hx => (h s).err x s' (e ▸ hx)⟩

theorem GoodAt.bindF {a b : Bool} {p : P α} {f : α → P β} {s : Bytes} (h : GoodAt pn a p s)
    (h' : ∀ x, Good pn b (f x)) : GoodAt pn false (p >>= f) s :=
  (h.bind fun x s' _ => h' x s').weaken

theorem goodAt_skip1_eq {s : Bytes} {b : Byte} (h : (s.head? == some b) = true) (hb : b.toNat < 128) :
    GoodAt pn true (P.skip 1) s := goodAt_skip1_head (beq_iff_eq.1 h) hb

theorem good_minus : Good pn false minus := by
  unfold minus
  refine good_peek_bind fun s => ?_
  split
  · rename_i h
    exact (goodAt_skip1_eq h (by decide)).bindF fun _ => good_pure _
  · exact good_pure _ _

theorem good_parseUnsignedBase : Good pn true (parseUnsignedBase w) :=
  good_skipWs.bindR fun _ => good_unsignedBase

theorem good_computeSigned (neg : Bool) (u : BitVec w) :
    Good pn false (P.ofExcept (computeSigned neg u)) :=
  good_ofExcept fun e h => by rw [computeSigned_err h]; exact errOk_overflow

theorem good_parseSignedBase : Good pn true (parseSignedBase w) :=
  good_skipWs.bindR fun _ => good_minus.bindR fun _ => good_unsignedBase.bindS fun _ =>
    good_computeSigned _ _

theorem zeros_rel (s : Bytes) : Rel false s (zeros s).2 := by
  induction s with
  | nil => exact Rel.refl _
  | cons b s ih =>
    unfold zeros
    split
    · rename_i h
      have hb : b.toNat < 128 := by rw [beq_iff_eq.1 h]; decide
      exact Rel.weaken (a := true) (Rel.trans (a := true) ⟨[], b, rfl, hb⟩ ih)
    · exact Rel.refl _

theorem good_zeros : Good pn false (fun s => .ok (zeros s) : P Nat) := fun s =>
  ⟨fun a s' h => by
    have : zeros s = (a, s') := by injection h
    have h2 : s' = (zeros s).2 := by rw [this]
    rw [h2]; exact zeros_rel s, fun e s' h => by cases h⟩

theorem goodAt_fracLoop : ∀ (fuel : Nat) (s : Bytes) (v : BitVec w) (exp z : Nat), s.length < fuel →
    GoodAt pn false (fracLoop fuel v exp z) s
  | 0, _, _, _, _, h => absurd h (by omega)
  | fuel + 1, [], v, exp, z, _ =>
    ⟨fun a s' h => by cases h; exact Rel.refl _, fun e s' h => by cases h⟩
  | fuel + 1, b :: s, v, exp, z, hl => by
    by_cases hb : isDigit b = true
    · cases hv : (if z > 0 then checkedPow10 v z else some v) with
      | none =>
        have e : fracLoop (fuel + 1) v exp z (b :: s) = .error (.overflow, b :: s) := by
          simp only [fracLoop, hb, if_true, hv]
        constructor
        · intro a s' h; rw [e] at h; cases h
        · intro x s' h; rw [e] at h; cases h; exact ⟨errOk_overflow, [], rfl⟩
      | some v' =>
        have e : fracLoop (fuel + 1) v exp z (b :: s) = (do
          let value ← digit v'
          let z' ← (fun s => .ok (zeros s) : P Nat)
          fracLoop fuel value ((if z > 0 then exp + z else exp) + 1) z') (b :: s) := by
          simp only [fracLoop, hb, if_true, hv]
        have h := GoodAt.bind (goodAt_digit (pn := pn) v' hb s) (b := false) (f := fun value => (do
            let z' ← (fun s => .ok (zeros s) : P Nat)
            fracLoop fuel value ((if z > 0 then exp + z else exp) + 1) z')) (fun x t ht => by
          refine GoodAt.bind (a := false) (b := false) (good_zeros t) fun z' u hu => ?_
          refine goodAt_fracLoop fuel u x _ _ ?_
          have h1 := Adv.length ((goodAt_digit (pn := pn) v' hb s).ok _ _ ht)
          have h2 := ((good_zeros (pn := pn) t).ok _ _ hu).length
          simp at hl h1
          omega)
        have h := h.weaken
        exact ⟨fun a s' ha => h.ok a s' (e ▸ ha), fun x s' hx => h.err x s' (e ▸ hx)⟩
    · have e : fracLoop (fuel + 1) v exp z (b :: s) = .ok ((v, exp), b :: s) := by
        simp only [fracLoop, hb, if_false, Bool.false_eq_true]
      constructor
      · intro a s' h; rw [e] at h; cases h; exact Rel.refl _
      · intro x s' h; rw [e] at h; cases h

theorem good_exponent : Good pn false exponent := by
  unfold exponent
  refine good_peek_bind fun s => ?_
  refine GoodAt.bindF (a := false) (b := false) ?_ fun neg => ?_
  · split
    · rename_i h
      exact (goodAt_skip1_eq h (by decide)).bindF fun _ => good_pure _
    · split
      · rename_i h
        exact (goodAt_skip1_eq h (by decide)).bindF fun _ => good_pure _
      · exact good_pure _ _
  · exact Good.bindF (a := false) (b := false) (fun s => good_digits s _) fun e =>
      (good_computeSigned _ _).bindF fun _ => good_pure _

theorem good_frac : Good pn false (fun s => fracLoop (s.length + 1) (0 : BitVec w) z 0 s) := fun s => by
  have h := goodAt_fracLoop (pn := pn) (s.length + 1) s (0 : BitVec w) z 0 (by omega)
  exact ⟨h.ok, h.err⟩

theorem good_unsignedFull : Good pn true (unsignedFull w) := by
  unfold unsignedFull
  refine good_unsignedBase.bindS (b := false) fun base => ?_
  refine good_peek_bind fun s => ?_
  refine GoodAt.bindF (a := false) (b := false) ?_ fun m => ?_
  · split
    · rename_i h
      refine (goodAt_skip1_eq h (by decide)).bindF (b := false) fun _ => ?_
      exact good_zeros.bindF fun z => good_frac
    · exact good_pure _ _
  · refine good_peek_bind fun s => ?_
    refine GoodAt.bindF (a := false) (b := false) ?_ fun e => good_pure _
    split
    · rename_i h
      rw [Bool.or_eq_true] at h
      rcases h with h | h
      · exact (goodAt_skip1_eq h (by decide)).bindF fun _ => good_exponent
      · exact (goodAt_skip1_eq h (by decide)).bindF fun _ => good_exponent
    · exact good_pure _ _

theorem compute_err {p : Parts w} {e : Err} (h : p.compute = .error e) : ErrOk pn e := by
  unfold Parts.compute at h
  repeat' split at h
  all_goals first
    | (cases h; done)
    | (cases h; exact errOk_invalid)
    | (cases h; exact errOk_overflow)

theorem good_parseUnsignedFull : Good pn true (parseUnsignedFull w) :=
  good_skipWs.bindR fun _ => good_unsignedFull.bindS fun _ => good_ofExcept fun _ h => compute_err h

theorem good_parseSignedFull : Good pn true (parseSignedFull w) :=
  good_skipWs.bindR fun _ => good_minus.bindR fun _ => good_unsignedFull.bindS (b := false) fun _ =>
    (good_ofExcept fun _ h => compute_err h).bindF fun _ => good_computeSigned _ _

theorem good_parseUnsigned (full : Bool) : Good pn true (parseUnsigned full w) := by
  unfold parseUnsigned
  exact Good.ite good_parseUnsignedFull good_parseUnsignedBase

theorem good_parseSigned (full : Bool) : Good pn true (parseSigned full w) := by
  unfold parseSigned
  exact Good.ite good_parseSignedFull good_parseSignedBase

end

theorem dropDigits_rel (s : Bytes) : Rel false s (dropDigits s) := by
  induction s with
  | nil => exact Rel.refl _
  | cons b s ih =>
    unfold dropDigits
    split
    · rename_i h
      exact Rel.weaken (a := true) (Rel.trans (a := true) ⟨[], b, rfl, isDigit_ascii h⟩ ih)
    · exact Rel.refl _

theorem good_consumeDigits : Good pn false consumeDigits := fun s =>
  ⟨fun a s' h => by cases h; exact dropDigits_rel s, fun e s' h => by cases h⟩

theorem good_skipInt : Good pn true skipInt := by
  unfold skipInt
  refine goodAt_readByte (str := false) (fun b _ => ?_) (fun b hb => ?_)
  · exact Good.ite (good_pure _) (Good.ite good_consumeDigits (good_fail errOk_invalid))
  · refine ⟨.invalid, errOk_invalid, ?_⟩
    rw [if_neg, if_neg]
    · revert hb; revert b; decide
    · revert hb; revert b; decide

theorem good_skipFrac : Good pn false skipFrac := by
  unfold skipFrac
  refine good_peek_bind fun s => ?_
  split
  · rename_i h
    exact (goodAt_skip1_eq h (by decide)).bindF fun _ => good_consumeDigits
  · exact good_pure _ _

theorem good_skipSign : Good pn false skipSign := by
  unfold skipSign
  refine good_peek_bind fun s => ?_
  split
  · rename_i h
    rw [Bool.or_eq_true] at h
    rcases h with h | h
    · exact (goodAt_skip1_eq h (by decide)).weaken
    · exact (goodAt_skip1_eq h (by decide)).weaken
  · exact good_pure _ _

theorem good_skipExp : Good pn false skipExp := by
  unfold skipExp
  refine good_peek_bind fun s => ?_
  have h2 : ∀ x : Unit, Good pn false (do skipSign; consumeDigits) := fun _ =>
    good_skipSign.bindF fun _ => good_consumeDigits
  split
  · rename_i h
    rw [Bool.or_eq_true] at h
    rcases h with h | h
    · exact (goodAt_skip1_eq h (by decide)).bindF h2
    · exact (goodAt_skip1_eq h (by decide)).bindF h2
  · exact good_pure _ _

theorem good_skipNumber : Good pn true skipNumber :=
  good_skipWs.bindR fun _ => good_minus.bindR fun _ => good_skipInt.bindS (b := false) fun _ =>
    good_skipFrac.bindF fun _ => good_skipExp

theorem isWs_ascii {b : Byte} (h : isWs b = true) : b.toNat < 128 := by
  revert h; revert b; decide

/-! ## Sequences, objects and skipping -/

theorem good_nextValue (first : Bool) : ∀ s, GoodAt pn false (nextValue first) s
  | [] => ⟨fun a s' h => (by cases h), fun e s' h => (by cases h; exact ⟨errOk_eof, [], rfl⟩)⟩
  | b :: s => by
    have ih := good_nextValue first s
    have step : b.toNat < 128 → nextValue first (b :: s) = nextValue first s →
        GoodAt pn false (nextValue first) (b :: s) := by
      intro hb he
      constructor
      · intro a s' h
        rw [he] at h
        exact Rel.weaken (a := true) (Rel.trans (a := true) ⟨[], b, rfl, hb⟩ (ih.ok a s' h))
      · intro e s' h
        rw [he] at h
        obtain ⟨h1, h2⟩ := ih.err e s' h
        exact ⟨h1, suffix_cons h2⟩
    have stop : ∀ r, nextValue first (b :: s) = .ok (r, b :: s) →
        GoodAt pn false (nextValue first) (b :: s) := by
      intro r he
      constructor
      · intro a s' h; rw [he] at h; cases h; exact Rel.refl _
      · intro e s' h; rw [he] at h; cases h
    by_cases h1 : isWs b = true
    · refine step (isWs_ascii h1) ?_
      conv => lhs; unfold nextValue
      rw [if_pos h1]
    by_cases h2 : (Token.ofByte b).isValue = true
    · exact stop true (by unfold nextValue; rw [if_neg h1, if_pos h2])
    by_cases h3 : (b == 0x2C#8 && !first) = true
    · refine step ?_ (by conv => lhs; unfold nextValue
                         rw [if_neg h1, if_neg h2, if_pos h3])
      rw [Bool.and_eq_true] at h3
      rw [beq_iff_eq.1 h3.1]; decide
    by_cases h4 : (b == 0x5D#8) = true
    · exact stop false (by unfold nextValue; rw [if_neg h1, if_neg h2, if_neg h3, if_pos h4])
    · have e : nextValue first (b :: s) = .error (.invalid, b :: s) := by
        unfold nextValue; rw [if_neg h1, if_neg h2, if_neg h3, if_neg h4]
      constructor
      · intro a s' h; rw [e] at h; cases h
      · intro x s' h; rw [e] at h; cases h; exact ⟨errOk_invalid, [], rfl⟩

theorem good_nextKey (first : Bool) : ∀ s, GoodAt pn false (nextKey first) s
  | [] => ⟨fun a s' h => (by cases h), fun e s' h => (by cases h; exact ⟨errOk_eof, [], rfl⟩)⟩
  | b :: s => by
    have ih := good_nextKey first s
    have step : b.toNat < 128 → nextKey first (b :: s) = nextKey first s →
        GoodAt pn false (nextKey first) (b :: s) := by
      intro hb he
      constructor
      · intro a s' h
        rw [he] at h
        exact Rel.weaken (a := true) (Rel.trans (a := true) ⟨[], b, rfl, hb⟩ (ih.ok a s' h))
      · intro e s' h
        rw [he] at h
        obtain ⟨h1, h2⟩ := ih.err e s' h
        exact ⟨h1, suffix_cons h2⟩
    have stop : ∀ r, nextKey first (b :: s) = .ok (r, b :: s) →
        GoodAt pn false (nextKey first) (b :: s) := by
      intro r he
      constructor
      · intro a s' h; rw [he] at h; cases h; exact Rel.refl _
      · intro e s' h; rw [he] at h; cases h
    by_cases h1 : isWs b = true
    · refine step (isWs_ascii h1) ?_
      conv => lhs; unfold nextKey
      rw [if_pos h1]
    by_cases h2 : (b == 0x22#8) = true
    · exact stop true (by unfold nextKey; rw [if_neg h1, if_pos h2])
    by_cases h3 : (b == 0x2C#8 && !first) = true
    · refine step ?_ (by conv => lhs; unfold nextKey
                         rw [if_neg h1, if_neg h2, if_pos h3])
      rw [Bool.and_eq_true] at h3
      rw [beq_iff_eq.1 h3.1]; decide
    by_cases h4 : (b == 0x7D#8) = true
    · exact stop false (by unfold nextKey; rw [if_neg h1, if_neg h2, if_neg h3, if_pos h4])
    · have e : nextKey first (b :: s) = .error (.invalid, b :: s) := by
        unfold nextKey; rw [if_neg h1, if_neg h2, if_neg h3, if_neg h4]
      constructor
      · intro a s' h; rw [e] at h; cases h
      · intro x s' h; rw [e] at h; cases h; exact ⟨errOk_invalid, [], rfl⟩

/-- After `lex`, the token is that of the first byte. -/
theorem goodAt_lex {f : Token → P β} {s : Bytes} {str : Bool}
    (h : GoodAt pn str (f (tokenAt (dropWs s))) (dropWs s)) : GoodAt pn str (lex >>= f) s := by
  have := GoodAt.bind (good_lex (pn := pn) s) (f := f) (b := str) (fun x s' hx => by
    cases hx; exact h)
  rwa [Bool.false_or] at this

theorem token_ascii {s : Bytes} {t : Token} {b : Byte} (h : t.byte = some b) (hs : tokenAt s = t) :
    GoodAt pn true (P.skip 1) s := by
  cases s with
  | nil => unfold tokenAt at hs; subst hs; cases h
  | cons c s =>
    unfold tokenAt at hs
    rw [ofByte_eq h] at hs
    subst hs
    refine goodAt_skip1 ?_ s
    cases t <;> simp only [Token.byte, Option.some.injEq, reduceCtorEq] at h <;> subst h <;> decide

mutual

theorem goodAt_skipVal : ∀ (fuel : Nat) (s : Bytes), 2 * s.length + 1 ≤ fuel →
    GoodAt pn true (skipVal fuel) s
  | 0, s, h => absurd h (by omega)
  | fuel + 1, s, hl => by
    unfold skipVal
    refine goodAt_lex ?_
    have hd := (rel_dropWs s).length
    generalize dropWs s = t at hd ⊢
    cases ht : tokenAt t with
    | openBrace =>
      dsimp only
      refine GoodAt.bind (b := true) (token_ascii (b := 0x7B#8) rfl ht) fun _ u hu => ?_
      have := Adv.length ((token_ascii (pn := pn) (b := 0x7B#8) rfl ht).ok _ _ hu)
      exact goodAt_skipEntries fuel u true (by omega)
    | openBracket =>
      dsimp only
      refine GoodAt.bind (b := true) (token_ascii (b := 0x5B#8) rfl ht) fun _ u hu => ?_
      have := Adv.length ((token_ascii (pn := pn) (b := 0x5B#8) rfl ht).ok _ _ hu)
      exact goodAt_skipElems fuel u true (by omega)
    | null => exact good_null t
    | tru => exact good_true t
    | fals => exact good_false t
    | number => exact good_skipNumber t
    | string =>
      dsimp only
      exact GoodAt.bind (b := true) (token_ascii (b := 0x22#8) rfl ht) fun _ u hu => good_skipString u
    | _ => exact good_fail errOk_invalid t

theorem goodAt_skipElems : ∀ (fuel : Nat) (s : Bytes) (first : Bool), 2 * s.length + 2 ≤ fuel →
    GoodAt pn true (skipElems fuel first) s
  | 0, s, _, h => absurd h (by omega)
  | fuel + 1, s, first, hl => by
    unfold skipElems
    refine GoodAt.bind (a := false) (b := true) (good_nextValue first s) fun more t ht => ?_
    have h1 := ((good_nextValue (pn := pn) first s).ok _ _ ht).length
    cases more with
    | false => exact good_expect (b := 0x5D#8) rfl t
    | true =>
      simp only [if_true]
      refine GoodAt.bind (a := true) (b := true) (goodAt_skipVal fuel t (by omega)) fun _ u hu => ?_
      have := Adv.length ((goodAt_skipVal fuel t (by omega)).ok _ _ hu)
      exact goodAt_skipElems fuel u false (by omega)

theorem goodAt_skipEntries : ∀ (fuel : Nat) (s : Bytes) (first : Bool), 2 * s.length + 2 ≤ fuel →
    GoodAt pn true (skipEntries fuel first) s
  | 0, s, _, h => absurd h (by omega)
  | fuel + 1, s, first, hl => by
    unfold skipEntries
    refine GoodAt.bind (a := false) (b := true) (good_nextKey first s) fun more t ht => ?_
    have h1 := ((good_nextKey (pn := pn) first s).ok _ _ ht).length
    cases more with
    | false => exact good_expect (b := 0x7D#8) rfl t
    | true =>
      simp only [if_true]
      refine GoodAt.bind (a := true) (b := true) (goodAt_skipVal fuel t (by omega)) fun _ u hu => ?_
      have h2 := Adv.length ((goodAt_skipVal fuel t (by omega)).ok _ _ hu)
      refine GoodAt.bind (a := true) (b := true) (good_expect (b := 0x3A#8) rfl u) fun _ v hv => ?_
      have h3 := Adv.length ((good_expect (pn := pn) (t := .colon) (b := 0x3A#8) rfl u).ok _ _ hv)
      refine GoodAt.bind (a := true) (b := true) (goodAt_skipVal fuel v (by omega)) fun _ x hx => ?_
      have h4 := Adv.length ((goodAt_skipVal fuel v (by omega)).ok _ _ hx)
      exact goodAt_skipEntries fuel x false (by omega)

end

theorem good_skipJ : Good pn true skip := fun s => by
  have h := goodAt_skipVal (pn := pn) (skipFuel s) s (by unfold skipFuel; omega)
  exact ⟨h.ok, h.err⟩

theorem good_endSeq (first : Bool) : Good pn true (endSeq first) := fun s => by
  have h := goodAt_skipElems (pn := pn) (skipFuel s) s first (by unfold skipFuel; omega)
  exact ⟨h.ok, h.err⟩

theorem good_endMap (first : Bool) : Good pn true (endMap first) := fun s => by
  have h := goodAt_skipEntries (pn := pn) (skipFuel s) s first (by unfold skipFuel; omega)
  exact ⟨h.ok, h.err⟩

theorem goodAt_elems {d : P α} (hd : Good pn true d) : ∀ (fuel : Nat) (s : Bytes) (first : Bool),
    s.length < fuel → GoodAt pn false (elems d fuel first) s
  | 0, s, _, h => absurd h (by omega)
  | fuel + 1, s, first, hl => by
    unfold elems
    refine GoodAt.bind (a := false) (b := false) (good_nextValue first s) fun more t ht => ?_
    have h1 := ((good_nextValue (pn := pn) first s).ok _ _ ht).length
    cases more with
    | false => exact good_pure _ t
    | true =>
      simp only [if_true]
      refine GoodAt.weaken (a := true) (GoodAt.bind (a := true) (b := false) (hd t) fun a u hu => ?_)
      have h2 := Adv.length ((hd t).ok _ _ hu)
      exact GoodAt.bind (a := false) (b := false) (goodAt_elems hd fuel u false (by omega))
        fun l v _ => good_pure _ v

theorem good_allElems {d : P α} (hd : Good pn true d) : Good pn false (allElems d) := fun s => by
  have h := goodAt_elems hd (s.length + 1) s true (by omega)
  exact ⟨h.ok, h.err⟩

theorem goodAt_entries {σ} {body : σ → P σ} (hd : ∀ st, Good pn true (body st)) :
    ∀ (fuel : Nat) (s : Bytes) (first : Bool) (st : σ),
    s.length < fuel → GoodAt pn false (entries body fuel first st) s
  | 0, s, _, _, h => absurd h (by omega)
  | fuel + 1, s, first, st, hl => by
    unfold entries
    refine GoodAt.bind (a := false) (b := false) (good_nextKey first s) fun more t ht => ?_
    have h1 := ((good_nextKey (pn := pn) first s).ok _ _ ht).length
    cases more with
    | false => exact good_pure _ t
    | true =>
      simp only [if_true]
      refine GoodAt.weaken (a := true) (GoodAt.bind (a := true) (b := false) (hd st t) fun a u hu => ?_)
      have h2 := Adv.length ((hd st t).ok _ _ hu)
      exact goodAt_entries hd fuel u false a (by omega)

theorem good_allEntries {σ} {body : σ → P σ} (hd : ∀ st, Good pn true (body st)) (st : σ) :
    Good pn false (allEntries body st) := fun s => by
  have h := goodAt_entries hd (s.length + 1) s true st (by omega)
  exact ⟨h.ok, h.err⟩

theorem good_sequence {d : P α} (hd : Good pn true d) : Good pn true (sequence d) :=
  (good_expect (b := 0x5B#8) rfl).bindS (b := false) fun _ => (good_allElems hd).bindF (b := false) fun _ =>
    (good_endSeq false).bindF fun _ => good_pure _

theorem good_object {σ} {body : σ → P σ} (hd : ∀ st, Good pn true (body st)) (st : σ) :
    Good pn true (object body st) :=
  (good_expect (b := 0x7B#8) rfl).bindS (b := false) fun _ => (good_allEntries hd st).bindF (b := false)
    fun _ => (good_endMap false).bindF fun _ => good_pure _

end Musli.Json
