import Verif.Proofs.Types
import Verif.Props.Samples
/-!
# C133
-/
namespace Musli.Props
open Musli Musli.Types

/-- Everything which is written is kept as it is, and comes first. -/
theorem C133_kept (types : List (Bytes × Extra)) (hint : Bytes) (kind : Kind) (params : List Bytes) (items out : List Item)
    (h : expand types hint kind params items = .ok out) : items <+: out := by
  unfold expand at h
  split at h
  · cases h
  · cases h
    rw [List.append_assoc, List.append_assoc]
    exact List.prefix_append _ _

/-- Under all conditions each of the names is there exactly once, if it is written at most once. -/
theorem C133_once_partial (types : List (Bytes × Extra)) (hint : Bytes) (kind : Kind) (params : List Bytes) (items out : List Item)
    (h : expand types hint kind params items = .ok out) (hn : (types.map (·.1)).Nodup) (hh : hint ∉ types.map (·.1))
    (n : Bytes) (ht : n ∈ types.map (·.1)) (hp : Types.Spec.Plain n items) (env : Nat → Bool) :
    (Types.Spec.compiled env n out).length = 1 := by
  unfold expand at h
  split at h
  · cases h
  · next missing conditional hs =>
    cases h
    have h1 : isMissing n types = 1 := by
      have := hn.count (a := n)
      rw [if_pos ht] at this
      unfold List.count at this
      rw [List.countP_map] at this
      exact this
    have := scan_once env n _ _ _ _ _ hs hp h1
    have hne : hint ≠ n := fun e => hh (e ▸ ht)
    rw [compiled_append, compiled_append, compiled_append, compiled_missing, compiled_pending, compiled_cons,
      if_neg (by simp [Types.Spec.name, hne])]
    simp only [isPending, List.countP_nil, Types.Spec.compiled, List.filter_nil, List.length_nil] at this ⊢
    omega

/-- Nothing else is put in but the name of the hint. -/
theorem C133_nothing_else (types : List (Bytes × Extra)) (hint : Bytes) (kind : Kind) (params : List Bytes) (items out : List Item)
    (h : expand types hint kind params items = .ok out) (i : Item) (hi : i ∈ out) (hi' : i ∉ items) :
    i = .type hint [] .unit ∨ ∃ n ∈ types.map (·.1), Types.Spec.name i = some n := by
  unfold expand at h
  split at h
  · cases h
  · next missing conditional hs =>
    cases h
    have key : ∀ (items : List Item) (m m' : List (Bytes × Extra)) (acc acc' : List (Bytes × Cfg × Extra)),
        scan items m acc = .ok (m', acc') → (∀ p ∈ m', p ∈ m) ∧ ∀ p ∈ acc', p ∈ acc ∨ p.1 ∈ m.map (·.1) := by
      have hrem : ∀ (m : List (Bytes × Extra)) name, ∀ p ∈ remove m name, p ∈ m := fun m name p hp => (List.mem_filter.1 hp).1
      have hmap : ∀ (m : List (Bytes × Extra)) name (x : Bytes), x ∈ (remove m name).map (·.1) → x ∈ m.map (·.1) := by
        intro m name x hx
        obtain ⟨p, hp, e⟩ := List.mem_map.1 hx
        exact List.mem_map.2 ⟨p, hrem m name p hp, e⟩
      intro items
      induction items with
      | nil => intro m m' acc acc' h; cases h; exact ⟨fun p hp => hp, fun p hp => .inl hp⟩
      | cons i rest ih =>
        intro m m' acc acc' h
        cases i with
        | fn name c b =>
          obtain ⟨h1, h2⟩ := ih _ _ _ _ h
          exact ⟨fun p hp => hrem _ _ p (h1 p hp), fun p hp => (h2 p hp).imp_right (hmap m name _)⟩
        | other k => exact ih _ _ _ _ h
        | type name c t =>
          unfold scan at h
          split at h
          · exact ih _ _ _ _ h
          · next extra hl =>
            split at h
            · obtain ⟨h1, h2⟩ := ih _ _ _ _ h
              exact ⟨fun p hp => hrem _ _ p (h1 p hp), fun p hp => (h2 p hp).imp_right (hmap m name _)⟩
            · obtain ⟨h1, h2⟩ := ih _ _ _ _ h
              refine ⟨fun p hp => hrem _ _ p (h1 p hp), fun p hp => ?_⟩
              rcases h2 p hp with h | h
              · rcases List.mem_append.1 h with h | h
                · exact .inl h
                · right
                  rw [List.mem_singleton.1 h]
                  show name ∈ _
                  by_cases hm : name ∈ m.map (·.1)
                  · exact hm
                  · exfalso
                    have : isMissing name m = 0 := by
                      unfold isMissing
                      rw [List.countP_eq_zero]
                      intro q hq e
                      exact hm (List.mem_map.2 ⟨q, hq, by simpa using e⟩)
                    rw [lookup_missing.2 this] at hl; cases hl
              · exact .inr (hmap m name _ h)
            · cases h
    obtain ⟨h1, h2⟩ := key _ _ _ _ _ hs
    simp only [List.mem_append, List.mem_map, List.mem_singleton] at hi
    rcases hi with ((hi | ⟨p, hp, rfl⟩) | ⟨p, hp, rfl⟩) | rfl
    · exact absurd hi hi'
    · rcases h2 p hp with h | h
      · cases h
      · exact .inr ⟨p.1, h, rfl⟩
    · exact .inr ⟨p.1, List.mem_map.2 ⟨p, h1 p hp, rfl⟩, (missingItem_name kind params p).1⟩
    · exact .inl rfl

/-- It is an error exactly if one of the types is written with two conditions, where it is written first. -/
theorem C133_error_iff (types : List (Bytes × Extra)) (hint : Bytes) (kind : Kind) (params : List Bytes) (items : List Item) :
    expand types hint kind params items = .error () ↔ ∃ before n c1 c2 cs t after, items = before ++ .type n (c1 :: c2 :: cs) t :: after ∧
      n ∈ types.map (·.1) ∧ Types.Spec.written n before = 0 := by
  have key : ∀ (items : List Item) (m : List (Bytes × Extra)) (acc : List (Bytes × Cfg × Extra)),
      scan items m acc = .error () ↔ ∃ before n c1 c2 cs t after, items = before ++ .type n (c1 :: c2 :: cs) t :: after ∧
        isMissing n m ≠ 0 ∧ Types.Spec.written n before = 0 := by
    intro items
    induction items with
    | nil =>
      intro m acc
      constructor
      · intro h; cases h
      · intro ⟨before, _, _, _, _, _, _, h, _⟩; simp at h
    | cons i rest ih =>
      intro m acc
      -- an item before which takes the name `name` away, if it is not the one
      have step : ∀ (name : Bytes) (acc' : List (Bytes × Cfg × Extra)), Types.Spec.name i = some name →
          (∀ c1 c2 cs t, i = .type name (c1 :: c2 :: cs) t → isMissing name m = 0) →
          (scan rest (remove m name) acc' = .error () ↔ ∃ before n c1 c2 cs t after,
            i :: rest = before ++ .type n (c1 :: c2 :: cs) t :: after ∧ isMissing n m ≠ 0 ∧ Types.Spec.written n before = 0) := by
        intro name acc' hname hnot
        rw [ih]
        constructor
        · intro ⟨before, n, c1, c2, cs, t, after, h1, h2, h3⟩
          rw [isMissing_remove] at h2
          have hne : n ≠ name := by intro e; rw [if_pos e] at h2; exact h2 rfl
          rw [if_neg hne] at h2
          exact ⟨i :: before, n, c1, c2, cs, t, after, by rw [h1]; rfl, h2, by rw [written_named hname, h3, if_neg (Ne.symm hne)]⟩
        · intro ⟨before, n, c1, c2, cs, t, after, h1, h2, h3⟩
          cases before with
          | nil =>
            simp only [List.nil_append, List.cons.injEq] at h1
            obtain ⟨h1, -⟩ := h1
            subst h1
            cases hname
            exact absurd (hnot _ _ _ _ rfl) h2
          | cons j before =>
            simp only [List.cons_append, List.cons.injEq] at h1
            obtain ⟨rfl, h1⟩ := h1
            rw [written_named hname] at h3
            have hne : name ≠ n := by intro e; rw [if_pos e] at h3; omega
            rw [if_neg hne, Nat.add_zero] at h3
            exact ⟨before, n, c1, c2, cs, t, after, h1, by rw [isMissing_remove, if_neg (Ne.symm hne)]; exact h2, h3⟩
      cases i with
      | fn name c b => exact step name acc rfl (by intro _ _ _ _ h; cases h)
      | other k =>
        show scan rest m acc = .error () ↔ _
        rw [ih]
        constructor
        · intro ⟨before, n, c1, c2, cs, t, after, h1, h2, h3⟩
          exact ⟨.other k :: before, n, c1, c2, cs, t, after, by rw [h1]; rfl, h2, by rw [written_other]; exact h3⟩
        · intro ⟨before, n, c1, c2, cs, t, after, h1, h2, h3⟩
          cases before with
          | nil => simp at h1
          | cons j before =>
            simp only [List.cons_append, List.cons.injEq] at h1
            obtain ⟨rfl, h1⟩ := h1
            rw [written_other] at h3
            exact ⟨before, n, c1, c2, cs, t, after, h1, h2, h3⟩
      | type name c t =>
        unfold scan
        split
        · next hl =>
          rw [lookup_missing] at hl
          have hr : remove m name = m := by
            unfold remove
            rw [List.filter_eq_self]
            intro p hp
            unfold isMissing at hl
            rw [List.countP_eq_zero] at hl
            simpa using hl p hp
          have := step name acc rfl (fun _ _ _ _ _ => hl)
          rw [hr] at this
          exact this
        · next extra hl =>
          have hm : isMissing name m ≠ 0 := by
            intro h; rw [lookup_missing.2 h] at hl; cases hl
          split
          · exact step name _ rfl (by intro _ _ _ _ h; cases h)
          · exact step name _ rfl (by intro _ _ _ _ h; cases h)
          · next c1 c2 cs =>
            exact ⟨fun _ => ⟨[], name, c1, c2, cs, t, rest, rfl, hm, rfl⟩, fun _ => rfl⟩
  have hmem : ∀ n, isMissing n types ≠ 0 ↔ n ∈ types.map (·.1) := by
    intro n
    unfold isMissing
    rw [Ne, List.countP_eq_zero]
    constructor
    · intro h
      by_cases hn : n ∈ types.map (·.1)
      · exact hn
      · exact absurd (fun p hp e => hn (List.mem_map.2 ⟨p, hp, by simpa using e⟩)) h
    · intro h h'
      obtain ⟨p, hp, e⟩ := List.mem_map.1 h
      exact h' p hp (by simp [e])
  unfold expand
  simp only [← hmem]
  rw [← key items types []]
  split
  · next e he => rw [he]; exact ⟨fun _ => rfl, fun _ => rfl⟩
  · next he => rw [he]; simp

/-- What stands for a context and a mode: the first type parameter which begins with `C` or `M`, or else `__C` and `__M`. -/
theorem C133_param (letter : Byte) (default : Bytes) (params : List Bytes) :
    (∃ before p after, params = before ++ p :: after ∧ p.head? = some letter ∧ (∀ q ∈ before, q.head? ≠ some letter) ∧
      firstParam letter default params = p) ∨
    (∀ q ∈ params, q.head? ≠ some letter) ∧ firstParam letter default params = default := by
  unfold firstParam
  cases h : params.find? fun p => p.head? == some letter with
  | none =>
    rw [List.find?_eq_none] at h
    exact .inr ⟨fun q hq => by simpa using h q hq, rfl⟩
  | some p =>
    rw [List.find?_eq_some_iff_append] at h
    obtain ⟨hp, before, after, e, hb⟩ := h
    exact .inl ⟨before, p, after, e, by simpa using hp, fun q hq => by simpa using hb q hq, rfl⟩

/-- What a name is which is not written. -/
theorem C133_completed (types : List (Bytes × Extra)) (hint : Bytes) (kind : Kind) (params : List Bytes) (items out : List Item)
    (h : expand types hint kind params items = .ok out) (n : Bytes) (e : Extra) (ht : (n, e) ∈ types) (hw : Types.Spec.written n items = 0) :
    missingItem kind params (n, e) ∈ out := by
  unfold expand at h
  split at h
  · cases h
  · next missing conditional hs =>
    cases h
    have key : ∀ (items : List Item) (m m' : List (Bytes × Extra)) (acc acc' : List (Bytes × Cfg × Extra)),
        scan items m acc = .ok (m', acc') → Types.Spec.written n items = 0 → (n, e) ∈ m → (n, e) ∈ m' := by
      intro items
      induction items with
      | nil => intro m m' acc acc' h _ hm; cases h; exact hm
      | cons i rest ih =>
        intro m m' acc acc' h hw hm
        have hrem : ∀ name, Types.Spec.name i = some name → (n, e) ∈ remove m name ∧ Types.Spec.written n rest = 0 := by
          intro name hname
          rw [written_named hname] at hw
          have hne : name ≠ n := by intro e; rw [if_pos e] at hw; omega
          rw [if_neg hne] at hw
          exact ⟨List.mem_filter.2 ⟨hm, by simpa using Ne.symm hne⟩, hw⟩
        cases i with
        | fn name c b => exact ih _ _ _ _ h (hrem name rfl).2 (hrem name rfl).1
        | other k => rw [written_other] at hw; exact ih _ _ _ _ h hw hm
        | type name c t =>
          unfold scan at h
          split at h
          · exact ih _ _ _ _ h (hrem name rfl).2 hm
          · split at h
            · exact ih _ _ _ _ h (hrem name rfl).2 (hrem name rfl).1
            · exact ih _ _ _ _ h (hrem name rfl).2 (hrem name rfl).1
            · cases h
    have := key _ _ _ _ _ hs hw ht
    exact List.mem_append_left _ (List.mem_append_right _ (List.mem_map.2 ⟨_, this, rfl⟩))

/-! ### Cases -/

abbrev encoderHint : Bytes := str "__UseMusliEncoderAttributeMacro"
abbrev decoderHint : Bytes := str "__UseMusliDecoderAttributeMacro"

-- the names are distinct
example : (encoderTypes.map (·.1)).Nodup ∧ encoderHint ∉ encoderTypes.map (·.1) ∧ (decoderTypes.map (·.1)).Nodup ∧
    decoderHint ∉ decoderTypes.map (·.1) ∧ (visitorTypes.map (·.1)).Nodup ∧ (unsizedVisitorTypes.map (·.1)).Nodup := by decide +kernel

/-- An encoder of nothing. -/
theorem C133_encoder : expand encoderTypes encoderHint .selfCx [str "W", str "C", str "M"] [] = .ok
    [.type (str "Cx") [] (.param (str "C")), .fn (str "cx") [] .cxBody, .type (str "Error") [] (.error .selfCx),
      .type (str "Mode") [] (.param (str "M")), .type (str "EncodeSome") [] .neverCoder, .type (str "EncodePack") [] .neverCoder,
      .type (str "EncodeSequence") [] .neverCoder, .type (str "EncodeMap") [] .neverCoder, .type (str "EncodeMapEntries") [] .neverCoder,
      .type (str "EncodeVariant") [] .neverCoder, .type (str "EncodeSequenceVariant") [] .neverCoder,
      .type (str "EncodeMapVariant") [] .neverCoder, .type encoderHint [] .unit] := by decide +kernel

/-- A decoder of nothing. -/
theorem C133_decoder : expand decoderTypes decoderHint .selfCx [str "C"] [.other 0] = .ok
    [.other 0, .type (str "Cx") [] (.param (str "C")), .fn (str "cx") [] .cxBody, .type (str "Error") [] (.error .selfCx),
      .type (str "Mode") [] (.param (str "__M")), .type (str "TryClone") [] .neverCoder, .fn (str "try_clone") [] .noneBody,
      .type (str "Allocator") [] (.allocator .selfCx), .type (str "DecodeBuffer") [] .neverCoder, .type (str "DecodeSome") [] .neverCoder,
      .type (str "DecodePack") [] .neverCoder, .type (str "DecodeSequence") [] .neverCoder, .type (str "DecodeMap") [] .neverCoder,
      .type (str "DecodeMapEntries") [] .neverCoder, .type (str "DecodeVariant") [] .neverCoder, .type decoderHint [] .unit] := by
  decide +kernel

/-- Visitors. -/
theorem C133_visitor : expand visitorTypes (str "h") .genericCx [str "C"] [] = .ok
      [.type (str "Error") [] (.error (.param (str "C"))), .type (str "Allocator") [] (.allocator (.param (str "C"))),
        .type (str "String") [] .neverStr, .type (str "Bytes") [] .neverBytes, .type (str "h") [] .unit] ∧
    expand unsizedVisitorTypes (str "h") .genericCx [] [] = .ok
      [.type (str "Error") [] (.error (.param (str "__C"))), .type (str "Allocator") [] (.allocator (.param (str "__C"))),
        .type (str "h") [] .unit] := by decide +kernel

/-- What is compiled under a name of what an encoder is completed to. -/
abbrev compiledAfter (items : List Item) (env : Nat → Bool) (n : String) : Option (List Item) :=
  (expand encoderTypes encoderHint .selfCx [str "C", str "M"] items).toOption.map (Types.Spec.compiled env (str n))

-- a type under a condition
example : compiledAfter [.type (str "EncodeSome") [.all (.flag 0) (.flag 1)] (.written 0)] (fun _ => true) "EncodeSome" =
      some [.type (str "EncodeSome") [.all (.flag 0) (.flag 1)] (.written 0)] ∧
    compiledAfter [.type (str "EncodeSome") [.all (.flag 0) (.flag 1)] (.written 0)] (fun n => n == 0) "EncodeSome" =
      some [.type (str "EncodeSome") [.not (.all (.flag 0) (.flag 1))] .neverCoder] := by decide +kernel

example : compiledAfter [.type (str "EncodeSome") [.any (.flag 0) (.flag 1)] (.written 0)] (fun n => n == 1) "EncodeSome" =
      some [.type (str "EncodeSome") [.any (.flag 0) (.flag 1)] (.written 0)] ∧
    compiledAfter [.type (str "EncodeSome") [.any (.flag 0) (.flag 1)] (.written 0)] (fun n => n == 0) "EncodeSome" =
      some [.type (str "EncodeSome") [.any (.flag 0) (.flag 1)] (.written 0)] ∧
    compiledAfter [.type (str "EncodeSome") [.any (.flag 0) (.flag 1)] (.written 0)] (fun _ => false) "EncodeSome" =
      some [.type (str "EncodeSome") [.not (.any (.flag 0) (.flag 1))] .neverCoder] := by decide +kernel

example : Types.Spec.Plain (str "EncodeSome") [.type (str "EncodeSome") [.all (.flag 0) (.flag 1)] (.written 0)] := by
  refine ⟨by decide +kernel, ?_⟩
  intro i hi _ ⟨m, c, b, e⟩
  rw [List.mem_singleton.1 hi] at e; cases e

example : expand visitorTypes (str "h") .genericCx [str "C"] [.type (str "String") [.flag 0, .flag 1] (.written 0)] = .error () := by
  decide +kernel

/-- A type which is written twice, under a condition and under its contrary, is there twice when the condition does not hold. -/
theorem C133_violated_twice : ∃ items, (∀ env, (Types.Spec.compiled env (str "EncodeSome") items).length = 1) ∧
    (compiledAfter items (fun _ => false) "EncodeSome").map List.length = some 2 := by
  refine ⟨[.type (str "EncodeSome") [.flag 0] (.written 0), .type (str "EncodeSome") [.not (.flag 0)] (.written 1)], ?_,
    by decide +kernel⟩
  intro env
  cases h : env 0 <;> simp [Types.Spec.compiled, Types.Spec.name, Types.Spec.conditions, Cfg.holds, h, List.filter_cons]

/-- A function which is written under a condition is not there when it does not hold. -/
theorem C133_violated_function : compiledAfter [.fn (str "cx") [.flag 0] (.written 0)] (fun _ => false) "cx" = some [] := by
  decide +kernel

/-- A mode which is written under a condition is otherwise not the mode of the implementation, but `Never`. -/
theorem C133_violated_mode : compiledAfter [.type (str "Mode") [.flag 0] (.written 0)] (fun _ => false) "Mode" =
    some [.type (str "Mode") [.not (.flag 0)] .never] := by decide +kernel

end Musli.Props
