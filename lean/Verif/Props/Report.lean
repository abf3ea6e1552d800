import Verif.Proofs.Report
import Verif.Props.Samples
/-!
# C130: the texts of errors
-/
namespace Musli.Trace
open Musli Musli.Trace.Spec
open Musli.Json (decimal)

/-- **C130**: the text of a path is that of its members and types, in braces which are nested as they are, and then
how many steps are missing. For all paths. -/
theorem C130_text (path : List Step) (cap : Nat) :
    formatPath path cap = pathText decimal .start path ++ cappedText cap := formatPath_text path cap

/-- **C130**: the text of an error is the path, how many steps are missing, the message and the position. For all of them. -/
theorem C130_error_text (r : Reported) :
    r.text = pathText decimal .start r.path ++ missingText decimal r.cap ++ ascii [':', ' '] ++ r.message ++
      positionText decimal r.start.toNat r.stop.toNat := by
  have h1 : cappedText r.cap = missingText decimal r.cap := by
    match r.cap with
    | 0 => rfl
    | 1 => rfl
    | n + 2 => rw [missingText, if_neg (by omega), if_neg (by omega)]; rfl
  have h2 : rangeText r.start.toNat r.stop.toNat = positionText decimal r.start.toNat r.stop.toNat := by
    rcases range_shape r.start.toNat r.stop.toNat with ⟨h, h'⟩ | ⟨h, h'⟩ | h
    · rw [h, h']; rfl
    · rw [← h', range_one h, positionText, if_neg (by omega), if_pos rfl]; rfl
    · rw [range_two h, positionText, if_neg (by omega), if_neg h]; rfl
  unfold Reported.text
  rw [formatPath_text, h1, h2]; rfl

/-- **C130**: two different plain paths do not have the same text. -/
theorem C130_path_partial (types : Bool) (p q : List Step) (m n : Nat) (hp : Plain decimal types .start p)
    (hq : Plain decimal types .start q) (h : formatPath p m = formatPath q n) : p = q ∧ m = n := by
  rw [formatPath_text, formatPath_text] at h
  have em := end_capped m [] (.inl rfl)
  have en := end_capped n [] (.inl rfl)
  rw [List.append_nil] at em en
  obtain ⟨h1, h2⟩ := path_inj p q .start hp hq em en h
  have := capped_inj m n (u := []) (v := []) (by simp) (by simp) (by simpa using h2)
  exact ⟨h1, this.1⟩

/-- **C130**: the text of an error with a plain path, and a message without parentheses, determines the path, the number
of missing steps, the message and the range in the input. -/
theorem C130_error_partial (types : Bool) (r s : Reported) (hr : Plain decimal types .start r.path)
    (hs : Plain decimal types .start s.path) (mr : ∀ b ∈ r.message, b ≠ 0x28) (ms : ∀ b ∈ s.message, b ≠ 0x28)
    (h : r.text = s.text) : r = s := by
  unfold Reported.text at h
  rw [formatPath_text, formatPath_text] at h
  simp only [List.append_assoc, List.cons_append, List.nil_append] at h
  obtain ⟨h1, h2⟩ := path_inj r.path s.path .start hr hs (end_capped _ _ (.inr ⟨_, rfl⟩))
    (end_capped _ _ (.inr ⟨_, rfl⟩)) h
  obtain ⟨h3, h4⟩ := capped_inj _ _ (fun b t e => by rw [← (List.cons.inj e).1]; decide)
    (fun b t e => by rw [← (List.cons.inj e).1]; decide) h2
  simp only [List.cons.injEq, true_and] at h4
  obtain ⟨h5, h6⟩ := message_inj mr ms h4
  obtain ⟨h7, h8⟩ := range_inj h6
  cases r; cases s
  simp only at h1 h3 h5 h7 h8
  rw [h1, h3, h5, BitVec.eq_of_toNat_eq h7, BitVec.eq_of_toNat_eq h8]

/-- **C130**: a report has one line for each error, its text, if the paths are plain and the messages have no line
breaks. -/
theorem C130_lines_partial (types : Bool) : ∀ rs : List Reported,
    (∀ r ∈ rs, Plain decimal types .start r.path ∧ OneLine r.message) →
    lines (report rs) = rs.map Reported.text
  | [], _ => rfl
  | r :: rs, h => by
    have h1 := h r (by simp)
    have e : report (r :: rs) = r.text ++ 0x0A :: report rs := by simp [report]
    rw [e, lines_cons _ _ (oneLine_text h1.1 h1.2),
      C130_lines_partial types rs (fun s hs => h s (List.mem_cons_of_mem _ hs)), List.map_cons]

/-- Such a report determines the errors. -/
theorem C130_report_partial (types : Bool) (rs ss : List Reported)
    (hr : ∀ r ∈ rs, Plain decimal types .start r.path ∧ ∀ b ∈ r.message, b ≠ 0x28 ∧ b ≠ 0x0A)
    (hs : ∀ r ∈ ss, Plain decimal types .start r.path ∧ ∀ b ∈ r.message, b ≠ 0x28 ∧ b ≠ 0x0A)
    (h : report rs = report ss) : rs = ss := by
  have e : rs.map Reported.text = ss.map Reported.text := by
    rw [← C130_lines_partial types rs (fun r h => ⟨(hr r h).1, fun b hb => ((hr r h).2 b hb).2⟩),
      ← C130_lines_partial types ss (fun r h => ⟨(hs r h).1, fun b hb => ((hs r h).2 b hb).2⟩), h]
  clear h
  induction rs generalizing ss with
  | nil => cases ss with
    | nil => rfl
    | cons s ss => simp at e
  | cons r rs ih => cases ss with
    | nil => simp at e
    | cons s ss =>
      simp only [List.map_cons, List.cons.injEq] at e
      have h1 := hr r (by simp)
      have h2 := hs s (by simp)
      rw [C130_error_partial types r s h1.1 h2.1 (fun b hb => (h1.2 b hb).1) (fun b hb => (h2.2 b hb).1) e.1,
        ih ss (fun r h => hr r (List.mem_cons_of_mem _ h)) (fun r h => hs r (List.mem_cons_of_mem _ h)) e.2]

/-! ## What is not so -/

/-- The index of an element and the key of an entry are written in the same way: `[0]`. -/
theorem C130_violated_index (i cap : Nat) :
    formatPath [.index i] cap = formatPath [.key (decimal i)] cap ∧ Step.index i ≠ .key (decimal i) :=
  ⟨rfl, by simp⟩

/-- Keys come from the input, and are not escaped: the entry with the key `a].b[c` looks like an entry of the field `b`
of the entry with the key `a`, for all `a` and `c`. -/
theorem C130_violated_key (a b c : Bytes) (cap : Nat) :
    formatPath [.key (a ++ 0x5D :: 0x2E :: b ++ 0x5B :: c)] cap = formatPath [.key a, .named b, .key c] cap := by
  simp [formatPath, Fmt.step, Fmt.member, closing]

/-- A key with a line break makes a report of one error out of two lines, which is the report of two errors: someone who
writes the input can make up errors. -/
theorem C130_violated_lines (field a b message : Bytes) :
    let key := a ++ [0x5D, 0x3A, 0x20] ++ message ++ [0x0A, 0x2E] ++ field ++ 0x5B :: b
    report [⟨[.named field, .key key], 0, 0, 0, message⟩] =
      report [⟨[.named field, .key a], 0, 0, 0, message⟩, ⟨[.named field, .key b], 0, 0, 0, message⟩] := by
  simp [report, Reported.text, formatPath, Fmt.step, Fmt.member, closing, cappedText, rangeText]

/-- `#[musli(transparent)] struct Outer(Inner)` does not enter a field (`musli-macros/src/de.rs:1384-1388`): the names of both are
written without anything between them. -/
theorem C130_violated_transparent (outer inner : Bytes) (rest : List Step) (cap : Nat) :
    formatPath (.struct outer :: .struct inner :: rest) cap = formatPath (.struct (outer ++ inner) :: rest) cap := by
  simp [formatPath, Fmt.step, Fmt.sort]

/-- The position is not separated from the message, and an error at the very beginning has none. -/
theorem C130_violated_position (path : List Step) (cap : Nat) (message : Bytes) (n : BitVec 64) :
    Reported.text ⟨path, cap, n, n, message⟩ =
      Reported.text ⟨path, cap, 0, 0, message ++ rangeText n.toNat n.toNat⟩ := by
  simp [Reported.text, rangeText]

/-! ## Examples -/

def inner : List Step := [.named (utf8% "field"), .key (utf8% "hello"), .variant (utf8% "Variant2"),
  .named (utf8% "vector"), .index 0]

/-- The hypotheses are met. -/
example : Plain decimal false .start inner := by
  have key : ∀ i, (utf8% "hello") ≠ decimal i := fun i h => by
    have := decimal_digits i (BitVec.ofNat 8 0x68) (by rw [← h]; decide)
    revert this; decide
  have name : ∀ n : Bytes, (n.all nameByte && match n with | b :: _ => !decide (0x30 ≤ b ∧ b ≤ 0x39) | [] => false) = true →
      IsName n := by
    intro n h
    cases n with
    | nil => simp at h
    | cons b r =>
      rw [Bool.and_eq_true, List.all_eq_true] at h
      exact ⟨h.1, b, r, rfl, by
        have h := h.2; rw [Bool.not_eq_true'] at h; exact of_decide_eq_false h⟩
  exact ⟨name _ (by decide), ⟨by decide, key⟩, ⟨.inr rfl, name _ (by decide), name _ (by decide), trivial⟩⟩

/-- `crates/musli/tests/trace_complex.rs`: what a derived decoder tells the context, and the text which is expected. -/
example : (((init.run false [.enterType (.struct (utf8% "To")) true, .advance 49, .enter (.named (utf8% "field")) true,
      .enterKey (utf8% "hello") true true, .enterType (.enum (utf8% "InnerTo")) true,
      .enter (.variant (utf8% "Variant2")) true, .enter (.named (utf8% "vector")) true, .enter (.index 0) true,
      .message none (utf8% "Expected string, found <number>") true true]).reported).map Reported.text) =
    [utf8% ".field[hello] = Variant2 { .vector[0] }: Expected string, found <number> (at byte 49)"] := by decide +kernel

/-- With the names of types. -/
example : formatPath [.struct (utf8% "To"), .named (utf8% "field"), .key (utf8% "hello"), .enum (utf8% "InnerTo"),
      .variant (utf8% "Variant2"), .named (utf8% "vector"), .index 0] 2 =
    utf8% "To { .field[hello] = InnerTo::Variant2 { .vector[0] } } .. *2 capped steps*" := by decide +kernel

/-- `crates/musli/tests/trace_collection.rs:45-48`, `storage_trace.rs:56`. -/
example : Reported.text ⟨[.named (utf8% "values"), .key (utf8% "Hello")], 0, 19, 20, utf8% "Invalid numeric"⟩ =
    utf8% ".values[Hello]: Invalid numeric (at bytes 19-20)" := by decide +kernel

end Musli.Trace
