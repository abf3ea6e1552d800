import Verif.Model.Borrow
import Verif.Proofs.Json.Decode
import Verif.Proofs.Grammar
import Verif.Proofs.GrammarDesc
import Verif.Proofs.GrammarSkip
import Verif.Proofs.Value.Any
/-!
# Strings and bytes borrowed from the input
-/
set_option linter.unusedSectionVars false
namespace Musli

section
variable [Host] (o : Options)

theorem readVisit_bind {α : Type} (d : Dec Nat) (v : Vis Bytes α) (f : Bytes → Except Err α)
    (hv : ∀ b, v.borrowed b = f b) :
    (d >>= fun n => readVisit n v) = (d >>= Dec.readBytes) >>= fun b => Dec.ofExcept (f b) := by
  funext s
  unfold readVisit
  simp only [Dec.bind_apply]
  cases d s with
  | error e => rfl
  | ok x =>
    simp only
    cases Dec.readBytes x.1 x.2 with
    | error e => rfl
    | ok y => simp only [hv]

/-- `decode_bytes` calls `visit_borrowed`. -/
theorem visitBytes_eq {β : Type} (m : Mode) (v : Vis Bytes β) :
    visitBytes o m v = (m.fmt o).decBytes >>= fun b => Dec.ofExcept (v.borrowed b) := by
  cases m <;> exact readVisit_bind _ _ _ fun _ => rfl

theorem ofExcept_bind {α β : Type} (x : Except Err α) (f : α → Except Err β) :
    (Dec.ofExcept x >>= fun a => Dec.ofExcept (f a)) = Dec.ofExcept (x >>= f) := by
  funext s
  cases x <;> rfl

/-- `decode_string` calls `visit_borrowed`. -/
theorem visitStr_eq {β : Type} (m : Mode) (v : Vis Str β) (env : Env) :
    visitStr o m v = decD o env .string m >>= fun x => Dec.ofExcept (v.borrowed x) := by
  have h : visitStr o m v = (m.fmt o).decStr >>= fun b => Dec.ofExcept (v.utf8.borrowed b) := by
    cases m with
    | descriptive => exact readVisit_bind _ _ _ fun _ => rfl
    | storage => exact visitBytes_eq o .storage v.utf8
    | packed => exact visitBytes_eq o .packed v.utf8
    | wire => exact visitBytes_eq o .wire v.utf8
  rw [h, decD]
  funext s
  simp only [Dec.bind_apply]
  cases (m.fmt o).decStr s with
  | error e => rfl
  | ok x =>
    show Dec.ofExcept (toStr x.1 >>= v.borrowed) x.2 = _
    rw [← ofExcept_bind, Dec.bind_apply]

theorem dec_bind_pure {α : Type} (d : Dec α) : (d >>= fun x => Dec.ofExcept (.ok x)) = d := by
  funext s
  rw [Dec.bind_apply]
  cases d s <;> rfl

theorem visitBytes_borrow (m : Mode) : visitBytes o m (Vis.borrow Bytes) = (m.fmt o).decBytes :=
  (visitBytes_eq o m _).trans (dec_bind_pure _)

/-- What is read is the end of what is consumed. -/
theorem decBytes_part (m : Mode) {s b r : Bytes} (h : (m.fmt o).decBytes s = .ok (b, r)) :
    ∃ pre, s = pre ++ (b ++ r) := by
  cases m with
  | storage =>
    obtain ⟨a, rfl, x, _, rfl⟩ := (Grammar.Storage.reads_bytes o s b r).1 h
    exact ⟨x, by simp⟩
  | packed =>
    obtain ⟨a, rfl, x, _, rfl⟩ := (Grammar.Storage.reads_bytes o s b r).1 h
    exact ⟨x, by simp⟩
  | wire =>
    obtain ⟨a, rfl, x, _, rfl⟩ := (Grammar.Wire.reads_bytes o s b r).1 h
    exact ⟨x, by simp⟩
  | descriptive =>
    obtain ⟨a, rfl, x, _, rfl⟩ := (Grammar.Desc.reads_bytes o (k := 0xA0) (by simp) s b r).1 h
    exact ⟨x, by simp⟩

theorem decStr_part (m : Mode) {s b r : Bytes} (h : (m.fmt o).decStr s = .ok (b, r)) :
    ∃ pre, s = pre ++ (b ++ r) := by
  cases m with
  | storage => exact decBytes_part o .storage h
  | packed => exact decBytes_part o .packed h
  | wire => exact decBytes_part o .wire h
  | descriptive =>
    obtain ⟨a, rfl, x, _, rfl⟩ := (Grammar.Desc.reads_bytes o (k := 0xC0) (by simp) s b r).1 h
    exact ⟨x, by simp⟩

theorem wire_head {n : Nat} {bs : Bytes} (h : Wire.encTagLen o Wire.SEQUENCE n = .ok bs) :
    ∃ b r, bs = b :: r ∧ Wire.kind b = Wire.SEQUENCE := by
  unfold Wire.encTagLen at h
  split at h
  · rename_i hn
    cases h
    refine ⟨_, _, rfl, ?_⟩
    revert hn
    revert n
    intro n hn
    have : ∀ k : Fin 63, Wire.kind (Wire.tag Wire.SEQUENCE (BitVec.ofNat 8 k.val)) = Wire.SEQUENCE := by
      decide
    exact this ⟨n, hn⟩
  · obtain ⟨x, y, hx, _, rfl⟩ := Enc.seq_eq_ok.mp h
    cases hx
    exact ⟨_, _, rfl, by decide⟩

theorem wire_slice {v : (Ty.vec (.prim (.uint .w8))).Val} {env : Env} {bs : Bytes}
    (h : encD o env (.vec (.prim (.uint .w8))) .wire v = .ok bs) (r : Bytes) :
    Wire.decBytes o (bs ++ r) = .error .invalid := by
  rw [encD] at h
  obtain ⟨x, y, hx, _, rfl⟩ := Enc.seq_eq_ok.mp h
  obtain ⟨b, z, rfl, hk⟩ := wire_head o hx
  unfold Wire.decBytes Wire.decTagLen
  rw [List.append_assoc, List.cons_append]
  have e : (Dec.readByte >>= fun t => if Wire.kind t = Wire.PREFIX then Wire.tagLen o t
      else Dec.fail .invalid) (b :: (z ++ (y ++ r))) = .error .invalid := by
    rw [Dec.bind_ok (a := b) (s' := z ++ (y ++ r)) rfl, hk, if_neg (by decide)]
    rfl
  exact Dec.bind_error e

theorem desc_slice {v : (Ty.vec (.prim (.uint .w8))).Val} {env : Env} {bs : Bytes}
    (h : encD o env (.vec (.prim (.uint .w8))) .descriptive v = .ok bs) (r : Bytes) :
    Desc.decBytes o Desc.BYTES (bs ++ r) = .error .invalid := by
  rw [encD] at h
  obtain ⟨x, y, hx, _, rfl⟩ := Enc.seq_eq_ok.mp h
  obtain ⟨b, z, rfl, hk⟩ := Desc.encTagLen_head o (k := Desc.SEQUENCE) (by decide) hx
  unfold Desc.decBytes Desc.decTagLen
  rw [List.append_assoc, List.cons_append]
  have e : (Dec.readByte >>= fun t => if Desc.kind t = Desc.BYTES then Desc.tagLen o t
      else Dec.fail .invalid) (b :: (z ++ (y ++ r))) = .error .invalid := by
    rw [Dec.bind_ok (a := b) (s' := z ++ (y ++ r)) rfl, hk, if_neg (by decide)]
    rfl
  exact Dec.bind_error e

theorem storage_u8s (env : Env) (l : Bytes) :
    Enc.all (encD o env (.prim (.uint .w8)) .storage) l = .ok l := by
  induction l with
  | nil => rfl
  | cons b l ih =>
    have e : encD o env (.prim (.uint .w8)) .storage b = .ok [b] := rfl
    show encD o env (.prim (.uint .w8)) .storage b +>
      Enc.all (encD o env (.prim (.uint .w8)) .storage) l = _
    rw [ih, e]
    rfl

theorem packed_u8s (env : Env) (l : Bytes) :
    Enc.all (encD o env (.prim (.uint .w8)) .packed) l = .ok l := by
  induction l with
  | nil => rfl
  | cons b l ih =>
    have e : encD o env (.prim (.uint .w8)) .packed b = .ok [b] := rfl
    show encD o env (.prim (.uint .w8)) .packed b +>
      Enc.all (encD o env (.prim (.uint .w8)) .packed) l = _
    rw [ih, e]
    rfl

theorem storage_slice (ho : Opt.isNativeFixed o = false) (env : Env) (v : Bytes) :
    encD o env (.vec (.prim (.uint .w8))) .storage v = encD o env .bytes .storage v := by
  have e : encD o env .bytes .storage v = encLen o v.length +> .ok v := rfl
  rw [e]
  show (if Opt.isNativeFixed o && _ then _ else
    encLen o v.length +> Enc.all (encD o env (.prim (.uint .w8)) .storage) v) = _
  rw [ho]
  exact congrArg (encLen o v.length +> ·) (storage_u8s o env v)

theorem packed_slice (ho : Opt.isNativeFixed o = false) (env : Env) (v : Bytes) :
    encD o env (.vec (.prim (.uint .w8))) .packed v = encD o env .bytes .packed v := by
  have e : encD o env .bytes .packed v = encLen o v.length +> .ok v := rfl
  rw [e]
  show (if Opt.isNativeFixed o && _ then _ else
    encLen o v.length +> Enc.all (encD o env (.prim (.uint .w8)) .packed) v) = _
  rw [ho]
  exact congrArg (encLen o v.length +> ·) (packed_u8s o env v)

end

namespace Json
open Musli.Json.Spec

theorem encodeChar_ne (c : Char) : Utf8.encodeChar c ≠ [] := by
  unfold Utf8.encodeChar
  dsimp only
  split
  · simp
  · split
    · simp
    · split <;> simp

theorem strLoopB_snd : ∀ (fuel : Nat) (sc s : Bytes),
    strLoop fuel sc s = (strLoopB fuel sc s).map fun r => (r.1.2, r.2) := by
  intro fuel
  induction fuel with
  | zero => intro sc s; rfl
  | succ fuel ih =>
    intro sc s
    unfold strLoop strLoopB
    dsimp only
    cases (spanPlain s).2 with
    | nil => rfl
    | cons b s' =>
      dsimp only
      by_cases hb : b == 0x22#8
      · rw [if_pos hb, if_pos hb]
        cases checkUtf8 (spanPlain s).1 with
        | error e => rfl
        | ok u =>
          dsimp only
          cases sc with
          | nil => rfl
          | cons x sc => rfl
      · rw [if_neg hb, if_neg hb]
        by_cases hb : b == 0x5C#8
        · rw [if_pos hb, if_pos hb]
          cases checkUtf8 (spanPlain s).1 with
          | error e => rfl
          | ok u =>
            dsimp only
            rw [P.bind_apply, P.bind_apply]
            cases parseEscape s' with
            | error e => rfl
            | ok y => exact ih _ _
        · rw [if_neg hb, if_neg hb]; rfl

theorem strLoopB_scratch : ∀ (fuel : Nat) (sc s : Bytes) (b : Bool) (out r : Bytes), sc ≠ [] →
    strLoopB fuel sc s = .ok ((b, out), r) → b = false := by
  intro fuel
  induction fuel with
  | zero => intro sc s b out r _ h; cases h
  | succ fuel ih =>
    intro sc s b out r hsc h
    have he : sc.isEmpty = false := by cases sc with
      | nil => exact absurd rfl hsc
      | cons x sc => rfl
    unfold strLoopB at h
    dsimp only at h
    cases hs : (spanPlain s).2 with
    | nil => rw [hs] at h; cases h
    | cons c s' =>
      rw [hs] at h
      dsimp only at h
      by_cases hc : c == 0x22#8
      · rw [if_pos hc] at h
        cases hu : checkUtf8 (spanPlain s).1 with
        | error e => rw [hu] at h; cases h
        | ok u =>
          rw [hu] at h
          dsimp only at h
          rw [he, if_neg (by decide)] at h
          cases h
          rfl
      · rw [if_neg hc] at h
        by_cases hc : c == 0x5C#8
        · rw [if_pos hc] at h
          cases hu : checkUtf8 (spanPlain s).1 with
          | error e => rw [hu] at h; cases h
          | ok u =>
            rw [hu] at h
            dsimp only at h
            obtain ⟨x, s1, h1, h2⟩ := P.bind_eq_ok.1 h
            exact ih _ _ _ _ _ (by simp [hsc]) h2
        · rw [if_neg hc] at h; cases h

theorem strLoopB_borrowed (fuel : Nat) (s out r : Bytes) :
    strLoopB (fuel + 1) [] s = .ok ((true, out), r) ↔
      AllPlain out ∧ Utf8.valid out = true ∧ s = out ++ 0x22#8 :: r := by
  constructor
  · intro h
    unfold strLoopB at h
    dsimp only at h
    obtain ⟨e, hp, _⟩ := spanPlain_spec s
    cases hs : (spanPlain s).2 with
    | nil => rw [hs] at h; cases h
    | cons c s' =>
      rw [hs] at h e
      dsimp only at h
      by_cases hc : c == 0x22#8
      · rw [if_pos hc] at h
        cases hu : checkUtf8 (spanPlain s).1 with
        | error e => rw [hu] at h; cases h
        | ok u =>
          rw [hu] at h
          dsimp only at h
          simp only [List.isEmpty_nil, if_true] at h
          cases h
          refine ⟨hp, ?_, ?_⟩
          · unfold checkUtf8 at hu
            split at hu
            · assumption
            · cases hu
          · simp only [beq_iff_eq] at hc
            rw [← hc]
            exact e
      · rw [if_neg hc] at h
        by_cases hc : c == 0x5C#8
        · rw [if_pos hc] at h
          cases hu : checkUtf8 (spanPlain s).1 with
          | error e => rw [hu] at h; cases h
          | ok u =>
            rw [hu] at h
            dsimp only at h
            obtain ⟨x, s1, h1, h2⟩ := P.bind_eq_ok.1 h
            obtain ⟨_, ch, _, rfl, _⟩ := parseEscape_inv h1
            exact absurd (strLoopB_scratch _ _ _ _ _ _ (by simp [encodeChar_ne ch]) h2) (by decide)
        · rw [if_neg hc] at h; cases h
  · rintro ⟨hp, hv, rfl⟩
    unfold strLoopB
    dsimp only
    rw [spanPlain_append hp, spanPlain_stop (by decide)]
    simp [checkUtf8, hv]

theorem parseStringB_snd (s : Bytes) : parseString s = (parseStringB s).map fun r => (r.1.2, r.2) := by
  unfold parseString parseStringB
  rw [P.bind_apply, P.bind_apply]
  cases expect .string s with
  | error e => rfl
  | ok x => exact strLoopB_snd _ _ _

theorem parseStringB_borrowed (s out r : Bytes) : parseStringB s = .ok ((true, out), r) ↔
    ∃ ws, Ws ws ∧ AllPlain out ∧ Utf8.valid out = true ∧
      s = ws ++ 0x22#8 :: (out ++ 0x22#8 :: r) := by
  unfold parseStringB
  rw [P.bind_eq_ok]
  constructor
  · rintro ⟨_, s1, h1, h2⟩
    obtain ⟨ws, hw, rfl⟩ := expect_inv (t := .string) rfl h1
    obtain ⟨hp, hv, rfl⟩ := (strLoopB_borrowed _ _ _ _).1 h2
    exact ⟨ws, hw, hp, hv, rfl⟩
  · rintro ⟨ws, hw, hp, hv, rfl⟩
    exact ⟨(), _, expect_ok (t := .string) rfl hw _, (strLoopB_borrowed _ _ _ _).2 ⟨hp, hv, rfl⟩⟩

theorem toStr_inv {b : Bytes} {v : Str} (h : toStr b = .ok v) : b = v.bytes := by
  unfold toStr at h
  split at h
  · cases h; rfl
  · cases h

theorem pOfExcept_ok {α : Type} {x : Except Err α} {s r : Bytes} {a : α} :
    P.ofExcept x s = .ok (a, r) ↔ x = .ok a ∧ r = s := by
  cases x with
  | error e => exact ⟨fun h => (nomatch h), fun h => (nomatch h.1)⟩
  | ok y =>
    constructor
    · intro h; cases h; exact ⟨rfl, rfl⟩
    · rintro ⟨h, rfl⟩; cases h; rfl

/-- When a visitor succeeds. -/
theorem visitStr_ok {β : Type} (v : Vis Str β) (s r : Bytes) (y : β) :
    visitStr v s = .ok (y, r) ↔ ∃ (b : Bool) (x : Str), parseStringB s = .ok ((b, x.bytes), r) ∧
      (if b then v.borrowed x else v.ref x) = .ok y := by
  unfold visitStr
  rw [P.bind_eq_ok]
  constructor
  · rintro ⟨⟨b, out⟩, s1, h1, h2⟩
    obtain ⟨x, s2, h3, h4⟩ := P.bind_eq_ok.1 h2
    obtain ⟨h3', rfl⟩ := pOfExcept_ok.1 h3
    have := toStr_inv h3'
    subst this
    refine ⟨b, x, ?_⟩
    cases b with
    | true =>
      obtain ⟨h4', rfl⟩ := pOfExcept_ok.1 h4
      exact ⟨h1, h4'⟩
    | false =>
      obtain ⟨h4', rfl⟩ := pOfExcept_ok.1 h4
      exact ⟨h1, h4'⟩
  · rintro ⟨b, x, h1, h2⟩
    refine ⟨(b, x.bytes), r, h1, P.bind_eq_ok.2 ⟨x, r, pOfExcept_ok.2 ⟨toStr_val x, rfl⟩, ?_⟩⟩
    cases b with
    | true => exact pOfExcept_ok.2 ⟨h2, rfl⟩
    | false => exact pOfExcept_ok.2 ⟨h2, rfl⟩

theorem decStr_ok (s r : Bytes) (x : Str) :
    decStr s = .ok (x, r) ↔ ∃ b, parseStringB s = .ok ((b, x.bytes), r) := by
  unfold decStr
  rw [P.bind_eq_ok]
  constructor
  · rintro ⟨out, s1, h1, h2⟩
    obtain ⟨h2', rfl⟩ := pOfExcept_ok.1 h2
    have := toStr_inv h2'
    subst this
    rw [parseStringB_snd] at h1
    cases hb : parseStringB s with
    | error e => rw [hb] at h1; cases h1
    | ok q =>
      rw [hb] at h1
      obtain ⟨⟨b, y⟩, z⟩ := q
      cases h1
      exact ⟨b, rfl⟩
  · rintro ⟨b, h⟩
    refine ⟨x.bytes, r, ?_, pOfExcept_ok.2 ⟨toStr_val x, rfl⟩⟩
    rw [parseStringB_snd, h]; rfl

theorem plain_iff (l : Bytes) : AllPlain l ↔ ∀ b ∈ l, 0x20 ≤ b.toNat ∧ b ≠ 0x22#8 ∧ b ≠ 0x5C#8 := by
  refine forall_congr' fun b => forall_congr' fun _ => ?_
  have h := needsEscape_iff b
  have h1 : b = 0x22#8 ↔ b.toNat = 0x22 := by rw [BitVec.toNat_eq]; rfl
  have h2 : b = 0x5C#8 ↔ b.toNat = 0x5C := by rw [BitVec.toNat_eq]; rfl
  cases hb : needsEscape b with
  | true => rw [hb] at h; simp only [ne_eq, h1, h2]; simp only [true_iff] at h; constructor
            · intro h; cases h
            · intro h'; omega
  | false => rw [hb] at h; simp only [ne_eq, h1, h2]
             have h := mt h.2 (by decide)
             constructor
             · intro _; omega
             · intro _; trivial

theorem encStrLoop_plain : ∀ (b pending : Bytes), AllPlain b → encStrLoop pending b = pending ++ b
  | [], p, _ => by simp [encStrLoop]
  | x :: b, p, h => by
    rw [encStrLoop, if_neg (by rw [h x (by simp)]; decide),
      encStrLoop_plain b _ fun y hy => h y (by simp [hy])]
    simp

end Json
end Musli
