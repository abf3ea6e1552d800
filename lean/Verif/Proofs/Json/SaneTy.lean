import Verif.Proofs.Json.Sane
import Verif.Proofs.Json.Floats
import Verif.Spec.Json.NoByteArray
/-!
# What holds of every run of the JSON decoder: types
-/
set_option linter.unusedSectionVars false
namespace Musli.Json
open Musli Spec

variable {pn : Bool} {α β : Type}

theorem good_parseInt (full : Bool) : ∀ p : Prim, Good pn true (parseInt full p)
  | .uint _ => good_parseUnsigned full
  | .sint _ => good_parseSigned full
  | .usize => good_parseUnsigned full
  | .isize => good_parseSigned full
  | .bool => good_fail errOk_unsupported
  | .char => good_fail errOk_unsupported
  | .f32 => good_fail errOk_unsupported
  | .f64 => good_fail errOk_unsupported

theorem good_decBool : Good pn true decBool := by
  unfold decBool
  intro s
  refine goodAt_lex ?_
  generalize dropWs s = t
  cases ht : tokenAt t with
  | tru => exact good_true.bindS (fun _ => good_pure _) t
  | fals => exact good_false.bindS (fun _ => good_pure _) t
  | _ => exact good_fail errOk_invalid t

theorem singleChar_err {b : Bytes} {e : Err} (h : singleChar b = .error e) : e = .invalid := by
  unfold singleChar at h
  split at h
  · split at h
    · cases h
    · cases h; rfl
  · cases h; rfl

theorem good_decChar : Good pn true decChar :=
  good_parseString.bindS fun _ => good_ofExcept fun e h => by
    rw [singleChar_err h]; exact errOk_invalid

/-- A parser which consumes ASCII or fails where it is. -/
theorem good_ascii {p : P α}
    (hok : ∀ {s r v}, p s = .ok (v, r) → ∃ x, s = x ++ r ∧ (∀ b ∈ x, b.toNat < 128) ∧ x ≠ [])
    (herr : ∀ {s r e}, p s = .error (e, r) → e = .invalid ∧ r = s) : Good pn true p := by
  intro s
  constructor
  · intro v r h
    obtain ⟨x, rfl, h1, h2⟩ := hok h
    rcases List.eq_nil_or_concat x with rfl | ⟨y, b, rfl⟩
    · exact absurd rfl h2
    · exact ⟨y, b, by simp, h1 b (by simp)⟩
  · intro e r h
    obtain ⟨rfl, rfl⟩ := herr h
    exact ⟨errOk_invalid, [], rfl⟩

theorem good_decF32 : Good pn true decF32 :=
  good_ascii (fun h => let ⟨x, _, h1, h2, h3⟩ := decF32_inv h; ⟨x, h1, h2, h3⟩) decF32_err

theorem good_decF64 : Good pn true decF64 :=
  good_ascii (fun h => let ⟨x, _, h1, h2, h3⟩ := decF64_inv h; ⟨x, h1, h2, h3⟩) decF64_err

theorem good_decPrim (full : Bool) : ∀ p : Prim, Good pn true (decPrim full p)
  | .bool => good_decBool
  | .char => good_decChar
  | .uint _ => good_parseInt full (.uint _)
  | .sint _ => good_parseInt full (.sint _)
  | .usize => good_parseInt full .usize
  | .isize => good_parseInt full .isize
  | .f32 => good_decF32
  | .f64 => good_decF64

theorem good_decPrimKey (full : Bool) (p : Prim) : Good pn true (decPrimKey full p) := by
  unfold decPrimKey
  split
  · exact good_fail errOk_unsupported
  · refine good_parseString.bindS (b := false) fun b => good_ofExcept fun e h => ?_
    unfold onBuffer at h
    split at h
    · cases h
    · rename_i e' s' he
      cases h
      exact ((good_parseInt full p b).err _ _ he).1

theorem toStr_err {b : Bytes} {e : Err} (h : toStr b = .error e) : ErrOk pn e := by
  unfold toStr at h
  split at h
  · cases h
  · cases h; exact errOk_utf8

theorem toArray_err {n : Nat} {l : List α} {e : Err} (h : toArray n l = .error e) : ErrOk pn e := by
  unfold toArray at h
  split at h
  · cases h
  · cases h; exact errOk_length

theorem toNonZero_err {w : IW} {v : BitVec w.bits} {e : Err} (h : toNonZero w v = .error e) :
    ErrOk pn e := by
  unfold toNonZero at h
  split at h
  · cases h
  · cases h; exact errOk_invalid

theorem finish_err (env : Env) : ∀ (fs : Fields) (p : fs.Partial) (e : Err),
    fs.finish env p = .error e → ErrOk pn e
  | .nil, _, _, h => by cases h
  | .cons _ d _ t fs, p, e, h => by
    unfold Fields.finish at h
    split at h
    · rename_i e' he
      cases h
      unfold fieldValue at he
      split at he
      · cases he
      · unfold fieldDefault at he
        repeat' split at he
        all_goals first
          | (cases he; done)
          | (cases he; exact errOk_missing)
    · split at h
      · rename_i e' he
        cases h
        exact finish_err env fs _ _ he
      · cases h

theorem good_decStr : Good pn true decStr :=
  good_parseString.bindS fun _ => good_ofExcept fun _ h => toStr_err h

theorem good_decNameV (full : Bool) : ∀ nt : NameTy, Good pn true (decNameV full nt)
  | .idx => (good_decPrim full .usize).bindS fun _ => good_pure _
  | .str => good_decStr.bindS fun _ => good_pure _

theorem good_decNameK (full : Bool) : ∀ nt : NameTy, Good pn true (decNameK full nt)
  | .idx => (good_decPrimKey full .usize).bindS fun _ => good_pure _
  | .str => good_decStr.bindS fun _ => good_pure _

theorem goodAt_arrayLoop (full : Bool) (n : Nat) : ∀ (fuel : Nat) (s : Bytes) (first : Bool) (acc : Bytes)
    (index : Nat), index ≤ n → s.length < fuel → GoodAt true false (arrayLoop full n fuel first acc index) s
  | 0, _, _, _, _, _, h => absurd h (by omega)
  | fuel + 1, s, first, acc, index, hi, hl => by
    unfold arrayLoop
    refine GoodAt.bind (a := false) (b := false) (good_nextValue first s) fun more t ht => ?_
    have h1 := ((good_nextValue (pn := true) first s).ok _ _ ht).length
    cases more with
    | false => exact good_pure _ t
    | true =>
      simp only [if_true, hi]
      refine GoodAt.weaken (a := true)
        (GoodAt.bind (a := true) (b := false) (good_parseUnsigned full t) fun b u hu => ?_)
      have h2 := Adv.length ((good_parseUnsigned (pn := true) full t).ok _ _ hu)
      split
      · exact goodAt_arrayLoop full n fuel u false _ _ (by omega) (by omega)
      · exact good_fail ⟨by decide, by simp⟩ u

theorem good_decArray (full : Bool) (n : Nat) : Good true true (decArray full n) := by
  unfold decArray
  refine (good_expect (b := 0x5B#8) rfl).bindS (b := false) fun _ => ?_
  refine Good.bindF (a := false) (b := false) (fun s => ?_) fun r => ?_
  · have h := goodAt_arrayLoop full n (s.length + 1) s true [] 0 (by omega) (by omega)
    exact ⟨h.ok, h.err⟩
  · refine Good.ite ?_ (good_fail errOk_length)
    exact (good_ofExcept fun _ h => toArray_err h).bindF (b := false) fun _ =>
      (good_endSeq false).bindF fun _ => good_pure _

theorem good_decKey (full : Bool) : ∀ t : Ty, Good pn true (decKey full t)
  | .prim p => by simp only [decKey]; exact good_decPrimKey full p
  | .nonZero s w => by
    simp only [decKey]
    exact (good_decPrimKey full _).bindS fun _ => good_ofExcept fun _ h => toNonZero_err h
  | .string => by simp only [decKey]; exact good_decStr
  | .boxed t => by simp only [decKey]; exact good_decKey full t
  | .wrapping t => by simp only [decKey]; exact good_decKey full t
  | .transparent t => by simp only [decKey]; exact good_decKey full t
  | .unitEnum nt names => by
    simp only [decKey]
    refine (good_decNameK full nt).bindS (b := false) fun n => ?_
    split
    · exact good_pure _
    · exact good_fail errOk_unknown
  | .unit => by simp only [decKey]; exact good_fail errOk_unsupported
  | .bytes => by simp only [decKey]; exact good_fail errOk_unsupported
  | .byteArray _ => by simp only [decKey]; exact good_fail errOk_unsupported
  | .option _ => by simp only [decKey]; exact good_fail errOk_unsupported
  | .array _ _ => by simp only [decKey]; exact good_fail errOk_unsupported
  | .vec _ => by simp only [decKey]; exact good_fail errOk_unsupported
  | .set _ => by simp only [decKey]; exact good_fail errOk_unsupported
  | .map _ _ => by simp only [decKey]; exact good_fail errOk_unsupported
  | .tuple _ => by simp only [decKey]; exact good_fail errOk_unsupported
  | .result _ _ _ => by simp only [decKey]; exact good_fail errOk_unsupported
  | .unitStruct => by simp only [decKey]; exact good_fail errOk_unsupported
  | .strct _ _ => by simp only [decKey]; exact good_fail errOk_unsupported
  | .packed _ _ => by simp only [decKey]; exact good_fail errOk_unsupported
  | .enm _ _ => by simp only [decKey]; exact good_fail errOk_unsupported

theorem good_needNext (first : Bool) : Good pn false (needNext first) :=
  Good.bindF (a := false) (b := false) (fun s => good_nextValue first s) fun _ =>
    Good.ite (good_pure _) (good_fail errOk_length)

section
variable (full : Bool) (env : Env)

mutual

theorem good_decJ : ∀ (t : Ty), (pn = true ∨ t.noByteArray = true) → Good pn true (decJ full env t)
  | .prim p, _ => by simp only [decJ]; exact good_decPrim full p
  | .nonZero s w, _ => by
    simp only [decJ]
    exact (good_decPrim full _).bindS fun _ => good_ofExcept fun _ h => toNonZero_err h
  | .unit, _ => by simp only [decJ]; exact good_skipJ
  | .bytes, _ => by simp only [decJ]; exact good_sequence (good_parseUnsigned full)
  | .string, _ => by simp only [decJ]; exact good_decStr
  | .byteArray n, h => by
    simp only [decJ]
    rcases h with rfl | h
    · exact good_decArray full n
    · simp [Ty.noByteArray] at h
  | .option t, h => by
    simp only [Ty.noByteArray] at h
    simp only [decJ]
    refine good_lex.bindR fun tok => Good.ite ?_ ?_
    · exact good_null.bindS fun _ => good_pure _
    · exact (good_decJ t h).bindS fun _ => good_pure _
  | .array n t, h => by
    simp only [Ty.noByteArray] at h
    simp only [decJ]
    exact (good_expect (b := 0x5B#8) rfl).bindS (b := false) fun _ =>
      (good_allElems (good_decJ t h)).bindF (b := false) fun _ =>
      (good_ofExcept fun _ h => toArray_err h).bindF (b := false) fun _ =>
      (good_endSeq false).bindF fun _ => good_pure _
  | .vec t, h => by
    simp only [Ty.noByteArray] at h
    simp only [decJ]; exact good_sequence (good_decJ t h)
  | .set t, h => by
    simp only [Ty.noByteArray] at h
    simp only [decJ]; exact good_sequence (good_decJ t h)
  | .map k t, h => by
    simp only [Ty.noByteArray, Bool.and_eq_true] at h
    have h2 : pn = true ∨ t.noByteArray = true := h.imp id And.right
    simp only [decJ]
    exact good_object (fun l => (good_decKey full k).bindS (b := false) fun _ =>
      (good_expect (b := 0x3A#8) rfl).bindF (b := false) fun _ =>
      (good_decJ t h2).bindF fun _ => good_pure _) []
  | .tuple ts, h => by
    simp only [Ty.noByteArray] at h
    simp only [decJ]
    exact (good_expect (b := 0x5B#8) rfl).bindS (b := false) fun _ =>
      (good_decTysJ ts h true).bindF (b := false) fun _ =>
      (good_endSeq _).bindF fun _ => good_pure _
  | .result nt t u, h => by
    simp only [Ty.noByteArray, Bool.and_eq_true] at h
    have h1 : pn = true ∨ t.noByteArray = true := h.imp id And.left
    have h2 : pn = true ∨ u.noByteArray = true := h.imp id And.right
    simp only [decJ]
    refine (good_expect (b := 0x7B#8) rfl).bindS (b := false) fun _ =>
      (good_decNameK full nt).bindF (b := false) fun n => Good.ite ?_ (Good.ite ?_ (good_fail errOk_unknown))
    · exact (good_expect (b := 0x3A#8) rfl).bindF (b := false) fun _ =>
        (good_decJ t h1).bindF (b := false) fun _ =>
        (good_expect (b := 0x7D#8) rfl).bindF fun _ => good_pure _
    · exact (good_expect (b := 0x3A#8) rfl).bindF (b := false) fun _ =>
        (good_decJ u h2).bindF (b := false) fun _ =>
        (good_expect (b := 0x7D#8) rfl).bindF fun _ => good_pure _
  | .boxed t, h => by simp only [Ty.noByteArray] at h; simp only [decJ]; exact good_decJ t h
  | .wrapping t, h => by simp only [Ty.noByteArray] at h; simp only [decJ]; exact good_decJ t h
  | .transparent t, h => by simp only [Ty.noByteArray] at h; simp only [decJ]; exact good_decJ t h
  | .unitStruct, _ => by
    simp only [decJ]
    exact (good_expect (b := 0x7B#8) rfl).bindS fun _ => good_endMap true
  | .strct nt fs, h => by
    simp only [Ty.noByteArray] at h
    simp only [decJ]
    refine Good.bindS (b := false) (good_object (fun p => ?_) fs.none) fun p => ?_
    · exact (good_decNameK full nt).bindS (b := false) fun n =>
        (good_expect (b := 0x3A#8) rfl).bindF fun _ => good_decEntryJ fs h n p
    · exact good_ofExcept fun e h => finish_err env fs p e h
  | .packed _ fs, h => by
    simp only [Ty.noByteArray] at h
    simp only [decJ]
    exact (good_expect (b := 0x5B#8) rfl).bindS (b := false) fun _ =>
      (good_decPackJ fs h true).bindF (b := false) fun _ =>
      (good_endSeq _).bindF fun _ => good_pure _
  | .unitEnum nt names, _ => by
    simp only [decJ]
    refine (good_decNameV full nt).bindS (b := false) fun n => ?_
    split
    · exact good_pure _
    · exact good_fail errOk_unknown
  | .enm nt vs, h => by
    simp only [Ty.noByteArray] at h
    simp only [decJ]
    exact (good_expect (b := 0x7B#8) rfl).bindS (b := false) fun _ =>
      (good_decNameK full nt).bindF (b := false) fun n =>
      (good_decVariantsJ vs h n).bindF (b := false) fun _ =>
      (good_expect (b := 0x7D#8) rfl).bindF fun _ => good_pure _

theorem good_decTysJ : ∀ (ts : Tys), (pn = true ∨ ts.noByteArray = true) → ∀ first,
    Good pn false (decTysJ full env ts first)
  | .nil, _, first => by simp only [decTysJ]; exact good_pure _
  | .cons t ts, h, first => by
    simp only [Tys.noByteArray, Bool.and_eq_true] at h
    simp only [decTysJ]
    exact (good_needNext first).bindF (b := false) fun _ =>
      (good_decJ t (h.imp id And.left)).bindF (b := false) fun _ =>
      (good_decTysJ ts (h.imp id And.right) false).bindF fun _ => good_pure _

theorem good_decEntryJ : ∀ (fs : Fields), (pn = true ∨ fs.noByteArray = true) → ∀ n p,
    Good pn true (decEntryJ full env fs n p)
  | .nil, _, n, p => by simp only [decEntryJ]; exact good_skipJ
  | .cons n _ _ t fs, h, name, p => by
    simp only [Fields.noByteArray, Bool.and_eq_true] at h
    simp only [decEntryJ]
    refine Good.ite ?_ ?_
    · exact (good_decJ t (h.imp id And.left)).bindS fun _ => good_pure _
    · exact (good_decEntryJ fs (h.imp id And.right) name p.2).bindS fun _ => good_pure _

theorem good_decPackJ : ∀ (fs : Fields), (pn = true ∨ fs.noByteArray = true) → ∀ first,
    Good pn false (decPackJ full env fs first)
  | .nil, _, first => by simp only [decPackJ]; exact good_pure _
  | .cons _ _ _ t ts, h, first => by
    simp only [Fields.noByteArray, Bool.and_eq_true] at h
    simp only [decPackJ]
    exact (good_needNext first).bindF (b := false) fun _ =>
      (good_decJ t (h.imp id And.left)).bindF (b := false) fun _ =>
      (good_decPackJ ts (h.imp id And.right) false).bindF fun _ => good_pure _

theorem good_decVariantsJ : ∀ (vs : Variants), (pn = true ∨ vs.noByteArray = true) → ∀ n,
    Good pn true (decVariantsJ full env vs n)
  | .nil, _, n => by simp only [decVariantsJ]; exact good_fail errOk_unknown
  | .cons n t vs, h, name => by
    simp only [Variants.noByteArray, Bool.and_eq_true] at h
    simp only [decVariantsJ]
    refine Good.ite ?_ ?_
    · exact (good_expect (b := 0x3A#8) rfl).bindS (b := false) fun _ =>
        (good_decJ t (h.imp id And.left)).bindF fun _ => good_pure _
    · exact (good_decVariantsJ vs (h.imp id And.right) name).bindS fun _ => good_pure _

end
end

end Musli.Json
