import Verif.Proofs.Json.FloatEncode
import Verif.Proofs.Json.ExactFloat
import Verif.Props.Json
/-!
# C122: floats in JSON documents

The writer of floats, `ryu`, is a parameter; what is expected of it is `RyuLawful` (`Spec/Json/Finite.lean`).
`exactRyu` is a writer which meets it.
-/
set_option linter.unusedSectionVars false
namespace Musli.Json
open Musli Spec Musli.Spec.Float Musli.Dec2Flt

/-! ## Numbers -/

section
variable {R : Ryu} (hR : RyuLawful R) (env : Env)
include hR

/-- **C122.** A value with floats, none of which is infinite or a NaN: what is written decodes to the same value, bit
for bit, at every position in the document. -/
theorem C122_round_trip (full : Bool) (t : Ty) (hok : t.jsonOk = true) (hn : t.jsonNames = true)
    (henv : t.envOk env) (v : t.Val) (hf : AllFinite t v) (bs rest : Bytes) (he : encodeF R env t v = .ok bs)
    (hr : NoNumber rest) : decode full env t (bs ++ rest) = .ok (v, rest) :=
  decJ_denotes full env t hn v bs (encJF_denotes hR env t hok hn henv v hf bs he) [] lead_nil rest hr

/-- **C122.** So two values are never written the same way; `0.0` and `-0.0` in particular. -/
theorem C122_injective (t : Ty) (hok : t.jsonOk = true) (hn : t.jsonNames = true) (henv : t.envOk env)
    (v w : t.Val) (hv : AllFinite t v) (hw : AllFinite t w) (bs : Bytes) (h1 : encodeF R env t v = .ok bs)
    (h2 : encodeF R env t w = .ok bs) : v = w := by
  have a := C122_round_trip hR env true t hok hn henv v hv bs [] h1 (fun _ _ h => nomatch h)
  have b := C122_round_trip hR env true t hok hn henv w hw bs [] h2 (fun _ _ h => nomatch h)
  rw [a] at b
  cases b
  rfl

/-- **C122.** What is written is JSON, and UTF-8, whatever the type. -/
theorem C122_output_is_json (t : Ty) (v : t.Val) (hf : AllFinite t v) (bs : Bytes) (he : encodeF R env t v = .ok bs) :
    IsValue bs ∧ Utf8.valid bs = true :=
  ⟨encJF_isValue hR env t v hf bs he, valid_text (encJF_isValue hR env t v hf bs he)⟩

/-- **C122.** It can be skipped. -/
theorem C122_skip_encoded (t : Ty) (v : t.Val) (hf : AllFinite t v) (bs rest : Bytes) (he : encodeF R env t v = .ok bs)
    (hr : NoNumber rest) : skip (bs ++ rest) = .ok ((), rest) :=
  skip_isValue (ws := []) (fun _ h => nomatch h) (encJF_isValue hR env t v hf bs he) hr

end

/-- **C122.** Whatever has no floats is written as before, so that C28, C30, C37 and C38 are about the same encoder. -/
theorem C122_without_floats (R : Ryu) (env : Env) (t : Ty) (v : t.Val) (bs : Bytes) (he : encode env t v = .ok bs) :
    encodeF R env t v = .ok bs := encJF_of R env t v bs he

/-! ## Infinities and NaNs -/

/-- The text of a float which is not finite. -/
theorem nonfinite_text {R : Ryu} (hR : RyuLawful R) :
    (∀ v : BitVec 32, ¬ FiniteBits f32 v.toNat →
      (v.toNat % f32.sign = f32.inf ∧ R.f32 v = (if f32.sign ≤ v.toNat then [0x2D#8] else []) ++ [0x69#8, 0x6E#8, 0x66#8]) ∨
      (f32.inf < v.toNat % f32.sign ∧ R.f32 v = [0x4E#8, 0x61#8, 0x4E#8])) ∧
    (∀ v : BitVec 64, ¬ FiniteBits f64 v.toNat →
      (v.toNat % f64.sign = f64.inf ∧ R.f64 v = (if f64.sign ≤ v.toNat then [0x2D#8] else []) ++ [0x69#8, 0x6E#8, 0x66#8]) ∨
      (f64.inf < v.toNat % f64.sign ∧ R.f64 v = [0x4E#8, 0x61#8, 0x4E#8])) := by
  constructor
  · intro v hv
    unfold FiniteBits at hv
    rcases Nat.lt_or_ge f32.inf (v.toNat % f32.sign) with h | h
    · exact .inr ⟨h, hR.nan32 v h⟩
    · have h : v.toNat % f32.sign = f32.inf := by omega
      exact .inl ⟨h, hR.inf32 v h⟩
  · intro v hv
    unfold FiniteBits at hv
    rcases Nat.lt_or_ge f64.inf (v.toNat % f64.sign) with h | h
    · exact .inr ⟨h, hR.nan64 v h⟩
    · have h : v.toNat % f64.sign = f64.inf := by omega
      exact .inl ⟨h, hR.inf64 v h⟩

theorem nonfinite_word {R : Ryu} (hR : RyuLawful R) :
    (∀ v : BitVec 32, ¬ FiniteBits f32 v.toNat → R.f32 v ∈
      [[0x69#8, 0x6E#8, 0x66#8], [0x2D#8, 0x69#8, 0x6E#8, 0x66#8], [0x4E#8, 0x61#8, 0x4E#8]]) ∧
    (∀ v : BitVec 64, ¬ FiniteBits f64 v.toNat → R.f64 v ∈
      [[0x69#8, 0x6E#8, 0x66#8], [0x2D#8, 0x69#8, 0x6E#8, 0x66#8], [0x4E#8, 0x61#8, 0x4E#8]]) := by
  constructor
  · intro v hv
    rcases (nonfinite_text hR).1 v hv with ⟨-, h⟩ | ⟨-, h⟩
    · rw [h]; split <;> simp
    · rw [h]; simp
  · intro v hv
    rcases (nonfinite_text hR).2 v hv with ⟨-, h⟩ | ⟨-, h⟩
    · rw [h]; split <;> simp
    · rw [h]; simp

theorem word_not_value {w : Bytes}
    (h : w ∈ [[0x69#8, 0x6E#8, 0x66#8], [0x2D#8, 0x69#8, 0x6E#8, 0x66#8], [0x4E#8, 0x61#8, 0x4E#8]]) : ¬ IsValue w := by
  intro hv
  have h1 : skip w = .ok ((), []) := by
    have := skip_isValue (ws := []) (s := []) (fun _ h => nomatch h) hv (fun _ _ h => nomatch h)
    simpa using this
  simp only [List.mem_cons, List.not_mem_nil, or_false] at h
  rcases h with rfl | rfl | rfl <;> revert h1 <;> decide

/-- **C122** is violated for infinities and NaNs: encoding succeeds, and what is written is not JSON. -/
theorem C122_violated_not_json {R : Ryu} (hR : RyuLawful R) (env : Env) :
    (∀ v : BitVec 32, ¬ FiniteBits f32 v.toNat → ∃ bs, encodeF R env (.prim .f32) v = .ok bs ∧ ¬ IsValue bs) ∧
    (∀ v : BitVec 64, ¬ FiniteBits f64 v.toNat → ∃ bs, encodeF R env (.prim .f64) v = .ok bs ∧ ¬ IsValue bs) :=
  ⟨fun v hv => ⟨R.f32 v, by simp only [encodeF, encJF]; rfl, word_not_value ((nonfinite_word hR).1 v hv)⟩,
    fun v hv => ⟨R.f64 v, by simp only [encodeF, encJF]; rfl, word_not_value ((nonfinite_word hR).2 v hv)⟩⟩

/-- A word followed by something other than a letter is not accepted. -/
theorem word_not_accepted {w : Bytes}
    (h : w ∈ [[0x69#8, 0x6E#8, 0x66#8], [0x2D#8, 0x69#8, 0x6E#8, 0x66#8], [0x4E#8, 0x61#8, 0x4E#8]])
    {c : Byte} (hc : c = 0x2C#8 ∨ c = 0x5D#8 ∨ c = 0x7D#8) (s : Bytes) : ¬ Accepted (w ++ c :: s) := by
  rintro (⟨l, rest, hl, -⟩ | ⟨sign, x, hx, hw⟩)
  · obtain ⟨c', t, h3, h4⟩ := literal_head l.lit rest
    rw [Signed.text, List.append_assoc, h3] at hl
    simp only [List.mem_cons, List.not_mem_nil, or_false] at h
    have key : ∀ b : Byte, (0x30 ≤ b.toNat ∧ b.toNat ≤ 0x39 ∨ b = 0x2E#8) → b ≠ 0x69#8 ∧ b ≠ 0x4E#8 ∧ b ≠ 0x2D#8 := by
      decide +kernel
    have k := key c' h4
    match hs : l.sign with
    | none =>
      rw [hs] at hl
      rcases h with rfl | rfl | rfl
      · exact k.1 (List.cons.inj hl).1.symm
      · exact k.2.2 (List.cons.inj hl).1.symm
      · exact k.2.1 (List.cons.inj hl).1.symm
    | some true =>
      rw [hs] at hl
      rcases h with rfl | rfl | rfl
      · exact absurd (List.cons.inj hl).1 (by decide)
      · exact k.1 (List.cons.inj (List.cons.inj hl).2).1.symm
      · exact absurd (List.cons.inj hl).1 (by decide)
    | some false =>
      rw [hs] at hl
      rcases h with rfl | rfl | rfl <;> exact absurd (List.cons.inj hl).1 (by decide)
  · have hmem : c ∈ Signed.signText sign ++ x := hx ▸ (by simp)
    have hn : ∀ word : List Nat, (∀ n ∈ word, 0x41 ≤ n ∧ n ≤ 0x5A) → sameLetters x word → c ∉ x := by
      intro word hword he hcx
      have : (if 0x61 ≤ c.toNat ∧ c.toNat ≤ 0x7A then c.toNat - 0x20 else c.toNat) ∈ word := by
        rw [← he]; exact List.mem_map.2 ⟨c, hcx, rfl⟩
      have := hword _ this
      rcases hc with rfl | rfl | rfl <;> revert this <;> decide
    rcases List.mem_append.1 hmem with hm | hm
    · match sign with
      | none => cases hm
      | some true => simp [Signed.signText] at hm; subst hm; rcases hc with h | h | h <;> revert h <;> decide
      | some false => simp [Signed.signText] at hm; subst hm; rcases hc with h | h | h <;> revert h <;> decide
    · rcases hw with (hw | hw) | hw
      · exact hn _ (by decide) hw hm
      · exact hn _ (by decide) hw hm
      · exact hn _ (by decide) hw hm

theorem parseFloat_rejects {RF : RawFloat} (L : LawfulAll RF) {s : Bytes} (h : ¬ Accepted s) :
    parseFloat RF s = .error (.invalid, s) := by
  unfold parseFloat
  rcases accepted_cases L s with ⟨h1, -⟩ | ⟨-, h2⟩
  · exact absurd h1 h
  · rw [h2]

/-- **C122** is violated: in front of a comma, a bracket or a brace, which is anywhere inside of an array or an object,
what is written for an infinity or a NaN cannot be read. -/
theorem C122_violated_inside {R : Ryu} (hR : RyuLawful R) (full : Bool) (env : Env) (c : Byte)
    (hc : c = 0x2C#8 ∨ c = 0x5D#8 ∨ c = 0x7D#8) (s : Bytes) :
    (∀ v : BitVec 32, ¬ FiniteBits f32 v.toNat → ∀ bs, encodeF R env (.prim .f32) v = .ok bs →
      decode full env (.prim .f32) (bs ++ c :: s) = .error (.invalid, bs ++ c :: s)) ∧
    (∀ v : BitVec 64, ¬ FiniteBits f64 v.toNat → ∀ bs, encodeF R env (.prim .f64) v = .ok bs →
      decode full env (.prim .f64) (bs ++ c :: s) = .error (.invalid, bs ++ c :: s)) := by
  constructor
  · intro v hv bs he
    simp only [encodeF, encJF] at he
    cases he
    have h := parseFloat_rejects lawfulAll32 (word_not_accepted ((nonfinite_word hR).1 v hv) hc s)
    show decJ full env (.prim .f32) _ = _
    simp only [decJ]
    show (parseFloat rawF32 >>= _) _ = _
    rw [P.bind_apply, h]
  · intro v hv bs he
    simp only [encodeF, encJF] at he
    cases he
    have h := parseFloat_rejects lawfulAll64 (word_not_accepted ((nonfinite_word hR).2 v hv) hc s)
    show decJ full env (.prim .f64) _ = _
    simp only [decJ]
    show (parseFloat rawF64 >>= _) _ = _
    rw [P.bind_apply, h]

theorem elems_fails {α} {d : P α} {x s : Bytes}
    (hx : (∃ b y, x = b :: y ∧ isWs b = false ∧ (Token.ofByte b).isValue = false ∧ b ≠ 0x2C#8 ∧ b ≠ 0x5D#8) ∨
      (∃ b y, x = b :: y ∧ isWs b = false ∧ (Token.ofByte b).isValue = true ∧ ∃ e, d (x ++ s) = .error e)) (first : Bool)
    (fuel : Nat) : ∃ e, elems d (fuel + 1) first (x ++ s) = .error e := by
  rcases hx with ⟨b, y, rfl, h1, h2, h3, h4⟩ | ⟨b, y, rfl, h1, h2, e, h3⟩
  · have hn : nextValue first (b :: (y ++ s)) = .error (.invalid, b :: (y ++ s)) := by
      unfold nextValue
      rw [h1, h2]
      simp [h3, h4]
    refine ⟨(.invalid, b :: (y ++ s)), ?_⟩
    show (nextValue first >>= _) (b :: (y ++ s)) = _
    rw [P.bind_apply, hn]
  · have hn : nextValue first (b :: (y ++ s)) = .ok (true, b :: (y ++ s)) := by
      unfold nextValue
      rw [h1, h2]
      simp
    refine ⟨e, ?_⟩
    show (nextValue first >>= _) (b :: (y ++ s)) = _
    rw [P.bind_ok hn, if_pos rfl, P.bind_apply]
    have h3 : d (b :: (y ++ s)) = .error e := h3
    rw [h3]

theorem elems_comma {α} (d : P α) (fuel : Nat) (s : Bytes) :
    elems d (fuel + 1) false (0x2C#8 :: s) = elems d (fuel + 1) false s := by
  have : nextValue false (0x2C#8 :: s) = nextValue false s := by
    conv => lhs; unfold nextValue
    rfl
  show (nextValue false >>= _) _ = (nextValue false >>= _) _
  rw [P.bind_apply, P.bind_apply, this]

theorem word_elems {w : Bytes}
    (h : w ∈ [[0x69#8, 0x6E#8, 0x66#8], [0x2D#8, 0x69#8, 0x6E#8, 0x66#8], [0x4E#8, 0x61#8, 0x4E#8]])
    {c : Byte} (hc : c = 0x2C#8 ∨ c = 0x5D#8 ∨ c = 0x7D#8) (s : Bytes) (first : Bool) (fuel : Nat) :
    ∃ e, elems decF64 (fuel + 1) first (w ++ c :: s) = .error e := by
  have hd : decF64 (w ++ c :: s) = .error (.invalid, w ++ c :: s) := by
    show (parseFloat rawF64 >>= _) _ = _
    rw [P.bind_apply, parseFloat_rejects lawfulAll64 (word_not_accepted h hc s)]
  refine elems_fails ?_ first fuel
  simp only [List.mem_cons, List.not_mem_nil, or_false] at h
  rcases h with rfl | rfl | rfl
  · exact .inl ⟨_, _, rfl, by decide, by decide, by decide, by decide⟩
  · exact .inr ⟨_, _, rfl, by decide, by decide, _, hd⟩
  · exact .inl ⟨_, _, rfl, by decide, by decide, by decide, by decide⟩

theorem elems_nonfinite {R : Ryu} (hR : RyuLawful R) (env : Env) (rest : Bytes) : ∀ (l : List (BitVec 64)),
    (∃ v ∈ l, ¬ FiniteBits f64 v.toNat) → ∀ (first : Bool) (s : Bytes),
    sepAll (encJF R env (.prim .f64)) first l = .ok s → ∀ fuel, ∃ e, elems decF64 fuel first (s ++ 0x5D#8 :: rest) = .error e
  | [], h, _, _, _, _ => by obtain ⟨v, hv, _⟩ := h; cases hv
  | v :: l, h, first, s, he, fuel => by
    obtain ⟨c, y, hc, hy, rfl⟩ := Enc.seq_eq_ok.mp he
    obtain ⟨x, r, hx, hr, rfl⟩ := Enc.seq_eq_ok.mp hy
    simp only [encJF] at hx
    have hx : .ok (R.f64 v) = (.ok x : Enc) := hx
    cases hx
    cases fuel with
    | zero => exact ⟨(.fuel, c ++ (R.f64 v ++ r) ++ 0x5D#8 :: rest), rfl⟩
    | succ fuel =>
    have hcomma : elems decF64 (fuel + 1) first (c ++ (R.f64 v ++ r) ++ 0x5D#8 :: rest) =
        elems decF64 (fuel + 1) first (R.f64 v ++ (r ++ 0x5D#8 :: rest)) := by
      cases first with
      | true => cases hc; simp
      | false => cases hc; rw [← elems_comma decF64 fuel (R.f64 v ++ (r ++ 0x5D#8 :: rest))]; simp
    rw [hcomma]
    have hnext : ∃ b t, r ++ 0x5D#8 :: rest = b :: t ∧ (b = 0x2C#8 ∨ b = 0x5D#8 ∨ b = 0x7D#8) := by
      cases l with
      | nil => cases hr; exact ⟨_, _, rfl, by simp⟩
      | cons a l =>
        obtain ⟨c, y, hc, hy, rfl⟩ := Enc.seq_eq_ok.mp hr
        cases hc
        exact ⟨_, _, rfl, by simp⟩
    by_cases hv : FiniteBits f64 v.toNat
    · have hft := hR.finite64 v hv
      obtain ⟨b, t, hb, hbt⟩ := hnext
      have hnn : NoNumber (r ++ 0x5D#8 :: rest) := by
        rw [hb]
        rintro b' t' h'
        cases h'
        rcases hbt with rfl | rfl | rfl <;> (unfold Digit; decide)
      have hd : decF64 (R.f64 v ++ (r ++ 0x5D#8 :: rest)) = .ok (v, r ++ 0x5D#8 :: rest) :=
        decPrim_text true .f64 v _ hft [] lead_nil _ hnn
      obtain ⟨a, z, hz, ha⟩ := number_cons hft.1
      have hn : nextValue first (R.f64 v ++ (r ++ 0x5D#8 :: rest)) = .ok (true, R.f64 v ++ (r ++ 0x5D#8 :: rest)) := by
        have hws : isWs a = false := by
          have key : ∀ b : Byte, Token.ofByte b = .number → isWs b = false := by decide +kernel
          exact key a ha
        rw [hz, List.cons_append]
        unfold nextValue
        rw [hws, ha]
        rfl
      obtain ⟨e, ih⟩ := elems_nonfinite hR env rest l (by
        obtain ⟨w, hw, hw2⟩ := h
        rcases List.mem_cons.1 hw with rfl | hw
        · exact absurd hv hw2
        · exact ⟨w, hw, hw2⟩) false r hr fuel
      refine ⟨e, ?_⟩
      show (nextValue first >>= _) _ = _
      rw [P.bind_ok hn, if_pos rfl, P.bind_ok hd, P.bind_apply, ih]
    · obtain ⟨b, t, hb, hbt⟩ := hnext
      rw [hb]
      exact word_elems ((nonfinite_word hR).2 v hv) hbt t first fuel

/-- **C122** is violated: a `Vec<f64>` in which any element is an infinity or a NaN is written, and can not be read
back. -/
theorem C122_violated_sequence {R : Ryu} (hR : RyuLawful R) (full : Bool) (env : Env) (l : List (BitVec 64))
    (h : ∃ v ∈ l, ¬ FiniteBits f64 v.toNat) (rest : Bytes) :
    ∃ bs, encodeF R env (.vec (.prim .f64)) l = .ok bs ∧
      ∃ e, decode full env (.vec (.prim .f64)) (bs ++ rest) = .error e := by
  have hok : ∀ (l : List (BitVec 64)) (first : Bool), ∃ s, sepAll (encJF R env (.prim .f64)) first l = .ok s := by
    intro l
    induction l with
    | nil => intro first; exact ⟨[], rfl⟩
    | cons v l ih =>
      intro first
      obtain ⟨s, hs⟩ := ih false
      have h1 : encJF R env (.prim .f64) v = .ok (R.f64 v) := by simp only [encJF]; rfl
      exact ⟨_, Enc.seq_eq_ok.mpr ⟨if first then [] else [0x2C#8], _, by split <;> rfl,
        Enc.seq_eq_ok.mpr ⟨_, s, h1, hs, rfl⟩, rfl⟩⟩
  obtain ⟨s, hs⟩ := hok l true
  refine ⟨0x5B#8 :: (s ++ [0x5D#8]), ?_, ?_⟩
  · simp only [encodeF, encJF]
    exact Enc.seq_eq_ok.mpr ⟨[0x5B#8], s ++ [0x5D#8], rfl, Enc.seq_eq_ok.mpr ⟨s, [0x5D#8], hs, rfl, rfl⟩, rfl⟩
  · have hd : decJ full env (.prim .f64) = decF64 := by simp only [decJ]; rfl
    obtain ⟨e, he⟩ := elems_nonfinite hR env rest l h true s hs ((s ++ 0x5D#8 :: rest).length + 1)
    refine ⟨e, ?_⟩
    show decJ full env (.vec (.prim .f64)) _ = _
    rw [decJ, hd]
    have h0 : expect .openBracket (0x5B#8 :: (s ++ [0x5D#8]) ++ rest) = .ok ((), s ++ 0x5D#8 :: rest) := by
      have := expect_ok (t := .openBracket) (b := 0x5B#8) (ws := []) rfl (fun _ h => nomatch h) (s ++ 0x5D#8 :: rest)
      simpa using this
    show (expect .openBracket >>= _) _ = _
    rw [P.bind_ok h0, P.bind_apply]
    have : allElems decF64 (s ++ 0x5D#8 :: rest) = .error e := he
    rw [this]

/-- **C122.** Only if nothing follows, an infinity is read back. A NaN is read as `f64::NAN`: its sign and its payload are
lost. -/
theorem C122_top_level {R : Ryu} (hR : RyuLawful R) (full : Bool) (env : Env) (v : BitVec 64) :
    (v.toNat % f64.sign = f64.inf → ∃ bs, encodeF R env (.prim .f64) v = .ok bs ∧
      decode full env (.prim .f64) bs = .ok (v, [])) ∧
    (f64.inf < v.toNat % f64.sign → ∃ bs, encodeF R env (.prim .f64) v = .ok bs ∧
      decode full env (.prim .f64) bs = .ok (0x7FF8000000000000#64, [])) := by
  have hd : decJ full env (.prim .f64) = decF64 := by simp only [decJ]; rfl
  constructor
  · intro h
    refine ⟨R.f64 v, by simp only [encodeF, encJF]; rfl, ?_⟩
    show decJ full env (.prim .f64) _ = _
    rw [hd, hR.inf64 v h]
    have hlt := v.isLt
    have hs : f64.sign = 2 ^ 63 := rfl
    have hi : f64.inf = 0x7FF0000000000000 := rfl
    rw [hs, hi] at h
    by_cases hsg : f64.sign ≤ v.toNat
    · have hv : v = 0xFFF0000000000000#64 := by
        apply BitVec.eq_of_toNat_eq
        rw [hs] at hsg
        show v.toNat = 0xFFF0000000000000
        omega
      subst hv
      rw [if_pos hsg]
      decide +kernel
    · have hv : v = 0x7FF0000000000000#64 := by
        apply BitVec.eq_of_toNat_eq
        rw [hs] at hsg
        show v.toNat = 0x7FF0000000000000
        omega
      subst hv
      rw [if_neg hsg]
      decide +kernel
  · intro h
    refine ⟨R.f64 v, by simp only [encodeF, encJF]; rfl, ?_⟩
    show decJ full env (.prim .f64) _ = _
    rw [hd, hR.nan64 v h]
    decide +kernel

/-! ## Examples -/

/-- The requirements can be met. -/
example : RyuLawful exactRyu := exactRyu_lawful

/-- A struct with floats: `x: f32` is `-0.0`, `ys: Vec<f64>` is `[1.5, 0.1]`. All are
finite, so the round trip applies to it. -/
example : AllFinite (.strct .str (.cons (Sample.str (utf8% "x")) none none (.prim .f32)
        (.cons (Sample.str (utf8% "y")) none none (.vec (.prim .f64)) .nil)))
      (0x80000000#32, [0x3FF8000000000000#64, 0x3FB999999999999A#64], ()) := by
  have h1 : FiniteBits f32 (0x80000000#32).toNat := by unfold FiniteBits; decide
  have h2 : FiniteBits f64 (0x3FF8000000000000#64).toNat := by unfold FiniteBits; decide
  have h3 : FiniteBits f64 (0x3FB999999999999A#64).toNat := by unfold FiniteBits; decide
  simp only [AllFinite, FiniteFields, FinitePrim]
  refine ⟨h1, ?_, trivial⟩
  intro x hx
  simp only [List.mem_cons, List.not_mem_nil, or_false] at hx
  rcases hx with rfl | rfl
  · exact h2
  · exact h3

/-- An infinity and a NaN. -/
example : ¬ FiniteBits f64 (0x7FF0000000000000#64).toNat ∧ ¬ FiniteBits f64 (0xFFF0000000000001#64).toNat := by
  unfold FiniteBits; decide

/-- The words are read back only at the end of the input. -/
example : decode true Sample.env (.prim .f64) (utf8% "inf") = .ok (0x7FF0000000000000#64, []) ∧
    decode true Sample.env (.prim .f64) (utf8% "-inf]") = .error (.invalid, utf8% "-inf]") ∧
    decode true Sample.env (.prim .f64) (utf8% "1.5,") = .ok (0x3FF8000000000000#64, utf8% ",") := by
  refine ⟨?_, ?_, ?_⟩
  · exact (show decF64 (utf8% "inf") = _ by decide +kernel)
  · exact (show decF64 (utf8% "-inf]") = _ by decide +kernel)
  · exact (show decF64 (utf8% "1.5,") = _ by decide +kernel)

end Musli.Json
