import Verif.Spec.Text
import Verif.Proofs.Utf8
/-!
# Proofs about strings in allocated memory
-/
set_option linter.unusedSectionVars false
namespace Musli.Text
open Musli

variable {A : Memory}

theorem extend_spec (v : ByteVec A) (s : Bytes) :
    (v.extend s).2.bytes = v.bytes ++ (if (v.extend s).1 then s else []) := by
  unfold ByteVec.extend
  split
  · simp
  · simp

theorem extend_granted (v : ByteVec A) (s : Bytes) (h : ∀ st n k, (A.resize st n k).1 = true) :
    (v.extend s).1 = true := by
  unfold ByteVec.extend
  have := h v.st v.bytes.length s.length
  split
  · rename_i e; rw [e] at this; cases this
  · rfl

theorem push_spec (t : Text A) (c : Char) :
    (t.push c).2.vec.bytes = t.vec.bytes ++ (if (t.push c).1 then Utf8.encodeChar c else []) :=
  extend_spec _ _

theorem pushStr_spec (t : Text A) (s : Str) :
    (t.pushStr s).2.vec.bytes = t.vec.bytes ++ (if (t.pushStr s).1 then s.bytes else []) :=
  extend_spec _ _

theorem run_accepts (d : Show) : ∀ t : Text A, ∃ w, Accepts d w (d.run t).1 ∧
    (d.run t).2.vec.bytes = t.vec.bytes ++ w := by
  induction d with
  | ret ok => exact fun t => ⟨[], .ret ok, (List.append_nil _).symm⟩
  | str s k ih =>
    intro t
    obtain ⟨w, hw, e⟩ := ih (t.pushStr s).1 (t.pushStr s).2
    rw [pushStr_spec] at e
    cases hb : (t.pushStr s).1 with
    | true =>
      refine ⟨s.bytes ++ w, ?_, ?_⟩
      · show Accepts _ _ ((k (t.pushStr s).1).run (t.pushStr s).2).1
        rw [hb] at hw ⊢; exact .str hw
      · show ((k (t.pushStr s).1).run (t.pushStr s).2).2.vec.bytes = _
        rw [e, hb]; simp
    | false =>
      refine ⟨w, ?_, ?_⟩
      · show Accepts _ _ ((k (t.pushStr s).1).run (t.pushStr s).2).1
        rw [hb] at hw ⊢; exact .noStr hw
      · show ((k (t.pushStr s).1).run (t.pushStr s).2).2.vec.bytes = _
        rw [e, hb]; simp
  | chr c k ih =>
    intro t
    obtain ⟨w, hw, e⟩ := ih (t.push c).1 (t.push c).2
    rw [push_spec] at e
    cases hb : (t.push c).1 with
    | true =>
      refine ⟨Utf8.encodeChar c ++ w, ?_, ?_⟩
      · show Accepts _ _ ((k (t.push c).1).run (t.push c).2).1
        rw [hb] at hw ⊢; exact .chr hw
      · show ((k (t.push c).1).run (t.push c).2).2.vec.bytes = _
        rw [e, hb]; simp
    | false =>
      refine ⟨w, ?_, ?_⟩
      · show Accepts _ _ ((k (t.push c).1).run (t.push c).2).1
        rw [hb] at hw ⊢; exact .noChr hw
      · show ((k (t.push c).1).run (t.push c).2).2.vec.bytes = _
        rw [e, hb]; simp

theorem accepts_fails {d : Show} {w : Bytes} {ok : Bool} (h : Accepts d w ok) (hf : d.Fails) : ok = false := by
  induction h with
  | ret ok => exact hf
  | str _ ih => exact ih (hf true)
  | noStr _ ih => exact ih (hf false)
  | chr _ ih => exact ih (hf true)
  | noChr _ ih => exact ih (hf false)

theorem accepts_honest {d : Show} {w : Bytes} {ok : Bool} (h : Accepts d w ok) (hh : d.Honest)
    (ho : ok = true) : d.ok = true ∧ w = d.text := by
  induction h with
  | ret ok => exact ⟨ho, rfl⟩
  | str _ ih => obtain ⟨h1, h2⟩ := ih hh.2 ho; exact ⟨h1, by rw [h2]; rfl⟩
  | noStr h _ => have := accepts_fails h hh.1; rw [this] at ho; cases ho
  | chr _ ih => obtain ⟨h1, h2⟩ := ih hh.2 ho; exact ⟨h1, by rw [h2]; rfl⟩
  | noChr h _ => have := accepts_fails h hh.1; rw [this] at ho; cases ho

theorem run_granted (h : ∀ st n k, (A.resize st n k).1 = true) (d : Show) :
    ∀ t : Text A, (d.run t).1 = d.ok ∧ (d.run t).2.vec.bytes = t.vec.bytes ++ d.text := by
  induction d with
  | ret ok => exact fun t => ⟨rfl, (List.append_nil _).symm⟩
  | str s k ih =>
    intro t
    have hb : (t.pushStr s).1 = true := extend_granted _ _ h
    obtain ⟨h1, h2⟩ := ih (t.pushStr s).1 (t.pushStr s).2
    rw [pushStr_spec] at h2
    show ((k (t.pushStr s).1).run (t.pushStr s).2).1 = _ ∧
      ((k (t.pushStr s).1).run (t.pushStr s).2).2.vec.bytes = _
    rw [h1, h2, hb]
    exact ⟨rfl, by simp [Show.text]⟩
  | chr c k ih =>
    intro t
    have hb : (t.push c).1 = true := extend_granted _ _ h
    obtain ⟨h1, h2⟩ := ih (t.push c).1 (t.push c).2
    rw [push_spec] at h2
    show ((k (t.push c).1).run (t.push c).2).1 = _ ∧
      ((k (t.push c).1).run (t.push c).2).2.vec.bytes = _
    rw [h1, h2, hb]
    exact ⟨rfl, by simp [Show.text]⟩

theorem valid_accepts {d : Show} {w : Bytes} {ok : Bool} (h : Accepts d w ok) : Utf8.valid w = true := by
  induction h with
  | ret ok => rfl
  | @str s k w ok _ ih => rw [Utf8.valid_append s.valid]; exact ih
  | noStr _ ih => exact ih
  | @chr c k w ok _ ih => rw [Utf8.valid_encodeChar_append]; exact ih
  | noChr _ ih => exact ih

theorem valid_encodeChar (c : Char) : Utf8.valid (Utf8.encodeChar c) = true := by
  have := Utf8.valid_encodeChar_append c []
  rw [List.append_nil] at this
  rw [this]; rfl

theorem valid_wrote {op : Op} {ok : Bool} {w : Bytes} (h : Wrote op ok w) : Utf8.valid w = true := by
  cases h with
  | push c => exact valid_encodeChar c
  | noPush c => rfl
  | pushStr s => exact s.valid
  | noPushStr s => rfl
  | write h => exact valid_accepts h
  | roundtrip => rfl

theorem step_wrote (t : Text A) (ht : Utf8.valid t.vec.bytes = true) (op : Op) :
    ∃ w, Wrote op (step t op).1 w ∧ (step t op).2.vec.bytes = t.vec.bytes ++ w := by
  cases op with
  | push c =>
    have e := push_spec t c
    show ∃ w, Wrote _ (t.push c).1 w ∧ (t.push c).2.vec.bytes = _
    cases hb : (t.push c).1 with
    | true => rw [hb] at e; exact ⟨_, .push c, e⟩
    | false => rw [hb] at e; exact ⟨_, .noPush c, e⟩
  | pushStr s =>
    have e := pushStr_spec t s
    show ∃ w, Wrote _ (t.pushStr s).1 w ∧ (t.pushStr s).2.vec.bytes = _
    cases hb : (t.pushStr s).1 with
    | true => rw [hb] at e; exact ⟨_, .pushStr s, e⟩
    | false => rw [hb] at e; exact ⟨_, .noPushStr s, e⟩
  | write d =>
    obtain ⟨w, h1, h2⟩ := run_accepts d t
    exact ⟨w, .write h1, h2⟩
  | roundtrip =>
    have e : Text.fromUtf8 t.intoBytes = .inl t := by
      unfold Text.fromUtf8 Text.intoBytes
      rw [if_pos ht]
    refine ⟨[], ?_, ?_⟩
    · unfold step; dsimp only; rw [e]; exact .roundtrip
    · unfold step; dsimp only; rw [e]; exact (List.append_nil _).symm

theorem runOps_wrotes (ops : List Op) : ∀ (t : Text A) (_ : Utf8.valid t.vec.bytes = true),
    ∃ w, Wrotes ops (runOps t ops).1 w ∧ (runOps t ops).2.vec.bytes = t.vec.bytes ++ w ∧
      Utf8.valid (runOps t ops).2.vec.bytes = true := by
  induction ops with
  | nil => exact fun t ht => ⟨[], .nil, (List.append_nil _).symm, ht⟩
  | cons op ops ih =>
    intro t ht
    obtain ⟨w, hw, e⟩ := step_wrote t ht op
    have hv : Utf8.valid (step t op).2.vec.bytes = true := by
      rw [e, Utf8.valid_append ht]; exact valid_wrote hw
    obtain ⟨w', hw', e', hv'⟩ := ih _ hv
    exact ⟨w ++ w', .cons hw hw', by show (runOps (step t op).2 ops).2.vec.bytes = _
                                     rw [e', e, List.append_assoc], hv'⟩

theorem made_valid {t : Text A} (h : Made t) : Utf8.valid t.vec.bytes = true := by
  induction h with
  | new st => rfl
  | withCapacity st n t e =>
    unfold Text.withCapacity at e
    split at e
    · cases e
    · cases e; rfl
  | fromUtf8 v t e =>
    unfold Text.fromUtf8 at e
    split at e
    · rename_i hv; cases e; exact hv
    · cases e
  | ofStd st s => exact s.valid
  | collect st d t e =>
    unfold Text.collect at e
    obtain ⟨w, hw, ew⟩ := run_accepts d (Text.new st)
    split at e
    · rename_i t' h'
      cases e
      rw [h'] at ew
      have ew : t.vec.bytes = [] ++ w := ew
      rw [ew]
      exact valid_accepts hw
    · cases e
  | borrowed st s t e =>
    have e' := pushStr_spec (Text.new st) s
    unfold visit at e
    dsimp only at e
    split at e
    · rename_i h'; cases e; rw [h'] at e'
      have e' : t.vec.bytes = [] ++ s.bytes := e'
      rw [e']; exact s.valid
    · cases e
  | ref st s t e =>
    have e' := pushStr_spec (Text.new st) s
    unfold visit at e
    dsimp only at e
    split at e
    · rename_i h'; cases e; rw [h'] at e'
      have e' : t.vec.bytes = [] ++ s.bytes := e'
      rw [e']; exact s.valid
    · cases e
  | owned st u t _ e ih => cases e; exact ih
  | step t op _ ih =>
    obtain ⟨w, hw, e⟩ := step_wrote t ih op
    rw [e, Utf8.valid_append ih]
    exact valid_wrote hw

theorem asStr_valid {t : Text A} (h : Utf8.valid t.vec.bytes = true) : t.asStr = some ⟨t.vec.bytes, h⟩ := by
  unfold Text.asStr
  rw [dif_pos h]

/-! ## Order -/

theorem cmpBytes_append (a s t : Bytes) : cmpBytes (a ++ s) (a ++ t) = cmpBytes s t := by
  induction a with
  | nil => rfl
  | cons x a ih =>
    show (if x.toNat < x.toNat then _ else if x.toNat < x.toNat then _ else _) = _
    rw [if_neg (Nat.lt_irrefl _), if_neg (Nat.lt_irrefl _)]
    exact ih

theorem cmpBytes_lt {c d : Char} (h : c.toNat < d.toNat) (s t : Bytes) :
    cmpBytes (Utf8.encodeChar c ++ s) (Utf8.encodeChar d ++ t) = .lt := by
  have hc := Utf8.char_range c
  have hd := Utf8.char_range d
  generalize hn : c.toNat = n at *
  generalize hm : d.toNat = m at *
  unfold Utf8.encodeChar
  dsimp only
  rw [hn, hm]
  split <;> split <;> (try split) <;> (try split) <;> (try split) <;> (try split)
  all_goals
    simp only [List.cons_append, List.nil_append, cmpBytes, BitVec.toNat_ofNat, Nat.reducePow]
    repeat' split
    all_goals first
      | rfl
      | (exfalso; omega)

theorem cmpBytes_swap : ∀ s t : Bytes, cmpBytes s t = (cmpBytes t s).swap
  | [], [] => rfl
  | [], _ :: _ => rfl
  | _ :: _, [] => rfl
  | a :: s, b :: t => by
    unfold cmpBytes
    have ih := cmpBytes_swap s t
    split
    · rw [if_neg (by omega)]; rfl
    · split
      · rfl
      · exact ih

theorem cmp_encode : ∀ cs ds : List Char, cmpBytes (Utf8.encode cs) (Utf8.encode ds) = cmpChars cs ds
  | [], [] => rfl
  | [], d :: ds => by
    rw [Utf8.encode_cons]
    have := Utf8.encodeChar_ne_nil d
    cases h : Utf8.encodeChar d with
    | nil => exact absurd h this
    | cons x l => rfl
  | c :: cs, [] => by
    rw [Utf8.encode_cons]
    have := Utf8.encodeChar_ne_nil c
    cases h : Utf8.encodeChar c with
    | nil => exact absurd h this
    | cons x l => rfl
  | c :: cs, d :: ds => by
    rw [Utf8.encode_cons, Utf8.encode_cons]
    unfold cmpChars
    split
    · rename_i h; exact cmpBytes_lt h _ _
    · split
      · rename_i h; rw [cmpBytes_swap, cmpBytes_lt h]; rfl
      · have e : c = d := Char.toNat_inj.mp (by omega)
        subst e
        rw [cmpBytes_append]
        exact cmp_encode cs ds

theorem cmpChars_eq : ∀ {cs ds : List Char}, cmpChars cs ds = .eq → cs = ds
  | [], [], _ => rfl
  | [], _ :: _, h => nomatch h
  | _ :: _, [], h => nomatch h
  | c :: cs, d :: ds, h => by
    unfold cmpChars at h
    split at h
    · cases h
    · split at h
      · cases h
      · have e : c = d := Char.toNat_inj.mp (by omega)
        rw [e, cmpChars_eq h]

theorem cmpBytes_eq_iff : ∀ s t : Bytes, cmpBytes s t = .eq ↔ s = t
  | [], [] => by simp [cmpBytes]
  | [], _ :: _ => by simp [cmpBytes]
  | _ :: _, [] => by simp [cmpBytes]
  | a :: s, b :: t => by
    unfold cmpBytes
    have ih := cmpBytes_eq_iff s t
    split
    · rename_i h
      constructor
      · intro h'; cases h'
      · intro h'; cases h'; omega
    · split
      · rename_i h
        constructor
        · intro h'; cases h'
        · intro h'; cases h'; omega
      · have e : a = b := BitVec.eq_of_toNat_eq (by omega)
        rw [ih, e]
        simp

end Musli.Text
