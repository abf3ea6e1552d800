import Verif.Spec.Front
import Verif.Proofs.Varint
/-!
# Decoders consume from the front
-/
set_option linter.unusedSectionVars false
namespace Musli

variable {b : Bool}

theorem Front.weaken {α} {d : Dec α} (h : Front true d) : Front b d := by
  intro s a s' hd
  obtain ⟨c, h1, h2⟩ := h s a s' hd
  exact ⟨c, h1, fun _ => h2 rfl⟩

theorem front_pure {α} (a : α) : Front b (pure a : Dec α) := by
  intro s a' s' h
  cases h
  exact ⟨[], rfl, fun _ r => rfl⟩

theorem front_fail {α} (e : Err) : Front b (Dec.fail e : Dec α) := by
  intro s a' s' h
  cases h

theorem front_bind {α β} {d : Dec α} {f : α → Dec β} (hd : Front b d) (hf : ∀ a, Front b (f a)) :
    Front b (d >>= f) := by
  intro s x s' h
  obtain ⟨a, s1, h1, h2⟩ := Dec.bind_eq_ok.mp h
  obtain ⟨c1, rfl, hc1⟩ := hd _ _ _ h1
  obtain ⟨c2, rfl, hc2⟩ := hf a _ _ _ h2
  refine ⟨c1 ++ c2, by simp, fun hb r => ?_⟩
  rw [List.append_assoc, Dec.bind_ok (hc1 hb _), hc2 hb]

theorem front_readByte : Front b Dec.readByte := by
  intro s a s' h
  cases s with
  | nil => cases h
  | cons x s =>
    have h : Except.ok (x, s) = Except.ok (a, s') := h
    cases h; exact ⟨[a], rfl, fun _ r => rfl⟩

theorem front_readBytes (n : Nat) : Front b (Dec.readBytes n) := by
  intro s a s' h
  unfold Dec.readBytes at h ⊢
  split at h
  · cases h
  · rename_i hn
    cases h
    refine ⟨s.take n, by simp, fun _ r => ?_⟩
    have : (s.take n).length = n := by simp; omega
    rw [if_neg (by simp; omega)]
    rw [List.take_append_of_le_length (by omega), List.drop_append_of_le_length (by omega),
      List.take_take, Nat.min_self, List.drop_eq_nil_of_le (by omega), List.nil_append]

theorem front_skip (n : Nat) : Front b (Dec.skip n) := by
  intro s a s' h
  unfold Dec.skip at h ⊢
  split at h
  · cases h
  · rename_i hn
    cases h
    refine ⟨s.take n, by simp, fun _ r => ?_⟩
    have : (s.take n).length = n := by simp; omega
    rw [if_neg (by simp; omega)]
    rw [List.drop_append_of_le_length (by omega)]
    simp [this]

theorem front_ofExcept {α} (x : Except Err α) : Front b (Dec.ofExcept x) := by
  intro s a s' h
  cases x with
  | ok v => cases h; exact ⟨[], rfl, fun _ r => rfl⟩
  | error e => cases h

theorem front_isEof : Front false Dec.isEof := by
  intro s a s' h
  cases h
  exact ⟨[], rfl, by simp⟩

theorem front_ite {α} {p : Prop} [Decidable p] {x y : Dec α} (hx : p → Front b x)
    (hy : ¬p → Front b y) : Front b (if p then x else y) := by
  split
  · exact hx ‹_›
  · exact hy ‹_›

theorem front_limited {α} (n : Nat) (d : Dec α) : Front b (limited n d) := by
  intro s a s' h
  unfold limited at h ⊢
  cases hd : d (s.take n) with
  | error e => rw [hd] at h; cases h
  | ok p =>
    obtain ⟨x, l⟩ := p
    rw [hd] at h
    simp only at h
    split at h
    · cases h
    · rename_i hn
      cases h
      refine ⟨s.take n, by simp, fun _ r => ?_⟩
      have : (s.take n).length = n := by simp; omega
      have h1 : (s.take n ++ r).take n = s.take n := by
        rw [List.take_append_of_le_length (by omega), List.take_take, Nat.min_self]
      simp only [h1, hd]
      rw [if_neg (by simp; omega), List.drop_append_of_le_length (by omega)]
      simp [this]

theorem front_decN {α} {d : Dec α} (hd : Front b d) (n : Nat) : Front b (decN d n) := by
  induction n with
  | zero => exact front_pure _
  | succ n ih => exact front_bind hd fun a => front_bind ih fun l => front_pure _

theorem front_loopN {σ} {d : σ → Dec σ} (hd : ∀ st, Front b (d st)) (n : Nat) :
    ∀ st, Front b (loopN d n st) := by
  induction n with
  | zero => intro st; exact front_pure _
  | succ n ih => intro st; exact front_bind (hd st) fun st => ih st

theorem front_decodeLoop {w : Nat} (s : Bytes) : ∀ (x : Byte) (v : BitVec w) (sh : Nat) a s',
    Varint.decodeLoop x v sh s = .ok (a, s') →
    ∃ c, s = c ++ s' ∧ ∀ r, Varint.decodeLoop x v sh (c ++ r) = .ok (a, r) := by
  induction s with
  | nil =>
    intro x v sh a s' h
    unfold Varint.decodeLoop at h
    split at h
    · split at h <;> cases h
    · rename_i hx
      cases h
      refine ⟨[], rfl, fun r => ?_⟩
      cases r <;> simp [Varint.decodeLoop, hx]
  | cons y s ih =>
    intro x v sh a s' h
    unfold Varint.decodeLoop at h
    split at h
    · rename_i hx
      split at h
      · cases h
      · rename_i hsh
        obtain ⟨c, rfl, hc⟩ := ih _ _ _ _ _ h
        refine ⟨y :: c, rfl, fun r => ?_⟩
        rw [List.cons_append, Varint.decodeLoop, if_pos hx, if_neg hsh]
        exact hc r
    · rename_i hx
      cases h
      refine ⟨[], rfl, fun r => ?_⟩
      cases r <;> simp [Varint.decodeLoop, hx]

theorem front_varint (w : Nat) : Front b (Varint.decode w) := by
  intro s a s' h
  cases s with
  | nil => cases h
  | cons x s =>
    have h : (if x &&& Varint.CONT = 0 then Except.ok (x.setWidth w, s)
      else Varint.decodeLoop x ((x &&& Varint.MASK).setWidth w) 0 s) = .ok (a, s') := h
    split at h
    · rename_i hx
      cases h
      exact ⟨[x], rfl, fun _ r => by simp [Varint.decode, hx]⟩
    · rename_i hx
      obtain ⟨c, rfl, hc⟩ := front_decodeLoop _ _ _ _ _ _ h
      exact ⟨x :: c, rfl, fun _ r => by
        rw [List.cons_append, Varint.decode, if_neg hx]; exact hc r⟩

/-- Close `Front` goals of code made of reads, binds and tests. -/
macro "front" : tactic => `(tactic|
  repeat' first
    | assumption
    | exact front_pure _
    | exact front_fail _
    | exact front_readByte
    | exact front_readBytes _
    | exact front_skip _
    | exact front_ofExcept _
    | exact front_varint _
    | exact front_limited _ _
    | (refine front_ite (fun _ => ?_) (fun _ => ?_))
    | (refine front_bind ?_ (fun _ => ?_))
    | split)

section
variable [Host] (o : Options)

theorem front_fixed (w : Nat) (bo : ByteOrder) : Front b (Fixed.readBytes w bo) := by
  unfold Fixed.readBytes; front

theorem front_decodeUnsigned (w : Nat) : Front b (Int'.decodeUnsigned o w) := by
  unfold Int'.decodeUnsigned; split
  · front
  · exact front_fixed _ _

theorem front_decodeSigned (w : Nat) : Front b (Int'.decodeSigned o w) := by
  unfold Int'.decodeSigned; split
  · front
  · exact front_fixed _ _

theorem front_decodeUsize : Front b (Int'.decodeUsize o) := by
  unfold Int'.decodeUsize; split
  · front
  · exact front_bind (front_fixed _ _) fun _ => front_pure _

theorem front_decLen : Front b (decLen o) :=
  front_bind (front_decodeUsize o) fun _ => front_pure _

/-! ## Skipping -/

/-- `SkipRel step n s r`: from `s`, `n` values are skipped and `r` is left. -/
inductive SkipRel (step : Dec Nat) : Nat → Bytes → Bytes → Prop
  | zero (s : Bytes) : SkipRel step 0 s s
  | succ {n k : Nat} {s s' r : Bytes} : step s = .ok (k, s') → SkipRel step (n + k) s' r →
      SkipRel step (n + 1) s r

omit [Host] in
theorem skipRel_of_loop {step : Dec Nat} : ∀ (fuel n : Nat) (s r : Bytes) (u : Unit),
    skipLoop step fuel n s = .ok (u, r) → SkipRel step n s r := by
  intro fuel
  induction fuel with
  | zero =>
    intro n s r u h
    cases n with
    | zero => cases h; exact .zero _
    | succ n => cases h
  | succ fuel ih =>
    intro n s r u h
    cases n with
    | zero => cases h; exact .zero _
    | succ n =>
      obtain ⟨k, s', h1, h2⟩ := Dec.bind_eq_ok.mp h
      exact .succ h1 (ih _ _ _ _ h2)

/-- Every round consumes input. -/
def Consumes (step : Dec Nat) : Prop := ∀ s k s', step s = .ok (k, s') → s'.length < s.length

omit [Host] in
theorem loop_of_skipRel {step : Dec Nat} (hc : Consumes step) {n : Nat} {s r : Bytes}
    (h : SkipRel step n s r) : ∀ fuel, s.length < fuel → skipLoop step fuel n s = .ok ((), r) := by
  induction h with
  | zero s => intro fuel _; unfold skipLoop; cases fuel <;> rfl
  | succ h1 _ ih =>
    intro fuel hf
    cases fuel with
    | zero => omega
    | succ fuel =>
      have := hc _ _ _ h1
      unfold skipLoop
      rw [Dec.bind_ok h1]
      exact ih fuel (by omega)

omit [Host] in
theorem skipMany_iff {step : Dec Nat} (hc : Consumes step) (n : Nat) (s r : Bytes) :
    skipMany step n s = .ok ((), r) ↔ SkipRel step n s r :=
  ⟨fun h => skipRel_of_loop _ _ _ _ _ h, fun h => loop_of_skipRel hc h _ (by omega)⟩

omit [Host] in
theorem front_skipRel {step : Dec Nat} (hs : Front b step) {n : Nat} {s r : Bytes}
    (h : SkipRel step n s r) :
    ∃ c, s = c ++ r ∧ (b = true → ∀ r', SkipRel step n (c ++ r') r') := by
  induction h with
  | zero s => exact ⟨[], rfl, fun _ r => .zero r⟩
  | succ h1 _ ih =>
    obtain ⟨c1, rfl, hc1⟩ := hs _ _ _ h1
    obtain ⟨c2, rfl, hc2⟩ := ih
    refine ⟨c1 ++ c2, by simp, fun hb r' => ?_⟩
    rw [List.append_assoc]
    exact .succ (hc1 hb _) (hc2 hb r')

omit [Host] in
theorem front_skipMany {step : Dec Nat} (hs : Front b step) (hc : Consumes step) (n : Nat) :
    Front b (skipMany step n) := by
  intro s a s' h
  obtain ⟨c, rfl, h2⟩ := front_skipRel hs ((skipMany_iff hc n s s').mp h)
  exact ⟨c, rfl, fun hb r => (skipMany_iff hc _ _ _).mpr (h2 hb r)⟩

omit [Host] in
/-- A step that reads a byte first consumes input. -/
theorem consumes_readByte {f : Byte → Dec Nat} (hf : ∀ x, Front false (f x)) :
    Consumes (Dec.readByte >>= f) := by
  intro s k s' h
  cases s with
  | nil => cases h
  | cons x s =>
    obtain ⟨c, rfl, _⟩ := hf x _ _ _ (show f x s = _ from h)
    simp
    omega

namespace Storage

theorem front_prim (p : Prim) : Front b (decPrim o p) := by
  cases p with
  | bool => show Front b decBool; unfold decBool; front
  | char => exact front_bind (front_decodeUnsigned o 32) fun _ => front_ofExcept _
  | uint w => cases w <;> first | exact front_readByte | exact front_decodeUnsigned o _
  | sint w => cases w <;> first | exact front_readByte | exact front_decodeSigned o _
  | usize => exact front_decodeUsize o
  | isize => exact front_decodeUsize o
  | f32 => exact front_decodeUnsigned o _
  | f64 => exact front_decodeUnsigned o _

end Storage

namespace Wire

theorem front_tagLen (t : Byte) : Front b (tagLen o t) := by
  unfold tagLen; split
  · front
  · exact front_decLen o

theorem front_decTagLen (k : Byte) : Front b (decTagLen o k) := by
  unfold decTagLen
  exact front_bind front_readByte fun _ =>
    front_ite (fun _ => front_tagLen o _) fun _ => front_fail _

theorem front_stepTail (t : Byte) : Front b (if kind t = PREFIX then do
      let n ← tagLen o t
      let _ ← Dec.skip n
      pure 0
    else if kind t = SEQUENCE then tagLen o t
    else if kind t = CONTINUATION then
      match data t with
      | some _ => pure 0
      | none => do
        let _ ← Varint.decode 128
        pure 0
    else Dec.fail .invalid : Dec Nat) := by
  have := front_tagLen (b := b) o t
  front

theorem front_step : Front b (step o) := front_bind front_readByte fun _ => front_stepTail o _
theorem consumes_step : Consumes (step o) := consumes_readByte fun _ => front_stepTail o _

theorem front_skip : Front b (skip o) := front_skipMany (front_step o) (consumes_step o) 1

theorem front_decUnsigned (w : Nat) : Front b (decUnsigned o w) := by
  unfold decUnsigned; have := front_fixed (b := b) w (Opt.byteorder o); front

theorem front_decUsize : Front b (decUsize o) := by
  unfold decUsize
  split
  · front
  · exact front_bind front_readByte fun _ => front_ite (fun _ =>
      front_bind (front_fixed _ _) fun _ => front_pure _) fun _ => front_fail _

theorem front_prim (p : Prim) : Front b (decPrim o p) := by
  have hs : ∀ w, Front b (decSigned o w) := fun w =>
    front_bind (front_decUnsigned o w) fun _ => front_pure _
  cases p with
  | bool => show Front b decBool; unfold decBool; front
  | char => exact front_bind (front_decUnsigned o 32) fun _ => front_ofExcept _
  | uint w => exact front_decUnsigned o _
  | sint w => cases w <;> first | exact front_decUnsigned o _ | exact hs _
  | usize => exact front_decUsize o
  | isize => exact front_decUsize o
  | f32 => exact front_decUnsigned o _
  | f64 => exact front_decUnsigned o _

theorem front_endSeq (n : Nat) : Front b (endSeq o n) := by
  induction n with
  | zero => exact front_pure _
  | succ n ih => exact front_bind (front_skip o) fun _ => ih

theorem front_endMap (n : Nat) : Front b (endMap o n) := by
  induction n with
  | zero => exact front_pure _
  | succ n ih => exact front_bind (front_skip o) fun _ => front_bind (front_skip o) fun _ => ih

end Wire

namespace Desc

theorem front_tagLen (t : Byte) : Front b (tagLen o t) := by
  unfold tagLen; split
  · front
  · exact front_decLen o

theorem front_decTagLen (k : Byte) : Front b (decTagLen o k) := by
  unfold decTagLen
  exact front_bind front_readByte fun _ =>
    front_ite (fun _ => front_tagLen o _) fun _ => front_fail _

theorem front_stepTail (t : Byte) : Front b (if kind t = NUMBER then do
      let _ ← Varint.decode 128
      pure 0
    else if kind t = MARK then
      if mark t = mVariant then pure 2
      else if mark t = mSome then pure 1
      else if mark t = mChar then do
        let _ ← Varint.decode 32
        pure 0
      else pure 0
    else if kind t = BYTES ∨ kind t = STRING then do
      let n ← tagLen o t
      let _ ← Dec.skip n
      pure 0
    else if kind t = SEQUENCE then tagLen o t
    else if kind t = MAP then do
      let n ← tagLen o t
      pure (n * 2)
    else Dec.fail .invalid : Dec Nat) := by
  have := front_tagLen (b := b) o t
  front

theorem front_step : Front b (step o) := front_bind front_readByte fun _ => front_stepTail o _
theorem consumes_step : Consumes (step o) := consumes_readByte fun _ => front_stepTail o _

theorem front_skip : Front b (skip o) := front_skipMany (front_step o) (consumes_step o) 1

theorem front_decTyped (w : Nat) : Front b (decTyped w) := by unfold decTyped; front

theorem front_unsigned (w : Nat) : Front b (decTypedUnsigned w) := by
  refine front_bind (front_decTyped w) fun x => ?_
  obtain ⟨v, k⟩ := x
  cases k <;> front

theorem front_signed (w : Nat) : Front b (decTypedSigned w) := by
  refine front_bind (front_decTyped w) fun x => ?_
  obtain ⟨v, k⟩ := x
  cases k <;> front

theorem front_prim (p : Prim) : Front b (decPrim p) := by
  cases p with
  | bool => show Front b decBool; unfold decBool; front
  | char => show Front b decChar; unfold decChar; front
  | uint w => exact front_unsigned _
  | sint w => exact front_signed _
  | usize => exact front_unsigned _
  | isize => exact front_signed _
  | f32 => exact front_unsigned _
  | f64 => exact front_unsigned _

theorem front_endSeq (n : Nat) : Front b (endSeq o n) := by
  cases n with
  | zero => exact front_pure _
  | succ n => exact front_skip o

theorem front_endMap (n : Nat) : Front b (endMap o n) := by
  induction n with
  | zero => exact front_pure _
  | succ n ih => exact front_bind (front_skip o) fun _ => front_bind (front_skip o) fun _ => ih

end Desc

/-- The methods of a format consume from the front. -/
structure Fmt.Fronts (F : Fmt) (b : Bool) : Prop where
  prim : ∀ p, Front b (F.decPrim p)
  unit : Front b F.decUnit
  bytes : Front b F.decBytes
  arr : ∀ n, Front b (F.decArr n)
  str : Front b F.decStr
  option : (b = true → F.pack = false) → Front b F.decOption
  seq : Front b F.decSeq
  endSeq : ∀ n, Front b (F.endSeq n)
  map : Front b F.decMap
  endMap : ∀ n, Front b (F.endMap n)
  variant : Front b F.decVariant
  pack : ∀ {α : Type} (d : Dec α), (F.delimited = false → Front b d) → Front b (F.decPack d)
  skip : Front b F.skip

theorem Storage.fronts (pack : Bool) : (fmt pack o).Fronts b where
  prim := front_prim o
  unit := by
    show Front b (decUnit o); unfold decUnit; have := front_decLen (b := b) o; front
  bytes := by
    show Front b (decBytes o); unfold decBytes; have := front_decLen (b := b) o; front
  arr := fun n => front_readBytes n
  str := by
    show Front b (decBytes o); unfold decBytes; have := front_decLen (b := b) o; front
  option := by
    intro h
    show Front b (decOption pack)
    unfold decOption
    cases pack with
    | true =>
      cases b with
      | true => exact absurd (h rfl) (by simp [fmt])
      | false => exact front_bind front_isEof fun _ => front_pure _
    | false =>
      simp only [Bool.false_eq_true, if_false]
      front
  seq := front_decLen o
  endSeq := fun n => front_ite (fun _ => front_pure _) fun _ => front_fail _
  map := front_decLen o
  endMap := fun n => front_ite (fun _ => front_pure _) fun _ => front_fail _
  variant := front_pure _
  pack := fun d h => h rfl
  skip := front_fail _

theorem Wire.fronts : (fmt o).Fronts b where
  prim := front_prim o
  unit := front_skip o
  bytes := front_bind (front_decTagLen o _) fun _ => front_readBytes _
  arr := fun n => front_bind (front_decTagLen o _) fun _ =>
    front_ite (fun _ => front_readBytes _) fun _ => front_fail _
  str := front_bind (front_decTagLen o _) fun _ => front_readBytes _
  option := by intro _; show Front b decOption; unfold decOption; front
  seq := front_decTagLen o _
  endSeq := front_endSeq o
  map := front_bind (front_decTagLen o _) fun _ => front_pure _
  endMap := front_endMap o
  variant := by show Front b decVariant; unfold decVariant; front
  pack := fun d _ => front_bind (front_decTagLen o _) fun _ => front_limited _ _
  skip := front_skip o

theorem Desc.fronts : (fmt o).Fronts b where
  prim := front_prim
  unit := front_skip o
  bytes := front_bind (front_decTagLen o _) fun _ => front_readBytes _
  arr := fun n => front_bind (front_decTagLen o _) fun _ =>
    front_ite (fun _ => front_readBytes _) fun _ => front_fail _
  str := front_bind (front_decTagLen o _) fun _ => front_readBytes _
  option := by intro _; show Front b decOption; unfold decOption; front
  seq := front_decTagLen o _
  endSeq := front_endSeq o
  map := front_decTagLen o _
  endMap := front_endMap o
  variant := by show Front b decVariant; unfold decVariant; front
  pack := fun d _ => front_bind (front_decTagLen o _) fun _ => front_limited _ _
  skip := front_skip o

theorem Mode.fronts (m : Mode) : (m.fmt o).Fronts b := by
  cases m
  · exact Storage.fronts o false
  · exact Storage.fronts o true
  · exact Wire.fronts o
  · exact Desc.fronts o

/-! ## Values -/

theorem front_unrawPrim (p : Prim) : Front b (unrawPrim p) := by
  have hs : ∀ w, Front b (unrawInt w) := fun w =>
    front_bind (front_readBytes _) fun _ => front_pure _
  cases p <;> first | exact front_fail _ | exact hs _

mutual
theorem front_rawD : ∀ t : Ty, Front b t.rawD
  | .prim p => front_unrawPrim p
  | .unit => front_pure _
  | .array n t => front_bind (front_decN (front_rawD t) n) fun _ => front_ofExcept _
  | .wrapping t => front_rawD t
  | .packed _ fs => front_rawDs fs
  | .nonZero _ _ => front_fail _
  | .bytes => front_fail _
  | .string => front_fail _
  | .byteArray _ => front_fail _
  | .option _ => front_fail _
  | .vec _ => front_fail _
  | .set _ => front_fail _
  | .map _ _ => front_fail _
  | .tuple _ => front_fail _
  | .result _ _ _ => front_fail _
  | .boxed _ => front_fail _
  | .transparent _ => front_fail _
  | .unitStruct => front_fail _
  | .strct _ _ => front_fail _
  | .unitEnum _ _ => front_fail _
  | .enm _ _ => front_fail _
theorem front_rawDs : ∀ fs : Fields, Front b fs.rawD
  | .nil => front_pure _
  | .cons _ _ _ t fs => front_bind (front_rawD t) fun _ => front_bind (front_rawDs fs) fun _ => front_pure _
end

theorem front_fastD {α} (f : Bool) {r d : Dec α} (hr : Front b r) (hd : Front b d) :
    Front b (fastD f r d) := by cases f <;> assumption

theorem front_decName {F : Fmt} (hF : F.Fronts b) (nt : NameTy) : Front b (decName F nt) := by
  cases nt
  · exact front_bind (hF.prim _) fun _ => front_pure _
  · exact front_bind hF.str fun _ => front_bind (front_ofExcept _) fun _ => front_pure _

variable (env : Env)

mutual
theorem front_decD : ∀ (t : Ty) (m : Mode), (b = true → t.noEof m = true) → Front b (decD o env t m)
  | .prim p, m, _ => by simp only [decD]; exact (m.fronts o).prim p
  | .nonZero s w, m, _ => by
    simp only [decD]
    exact front_bind (front_fastD _ (front_unrawPrim _) ((m.fronts o).prim _)) fun _ => front_ofExcept _
  | .unit, m, _ => by simp only [decD]; exact (m.fronts o).unit
  | .bytes, m, _ => by simp only [decD]; exact (m.fronts o).bytes
  | .string, m, _ => by
    simp only [decD]; exact front_bind (m.fronts o).str fun _ => front_ofExcept _
  | .byteArray n, m, _ => by
    simp only [decD]; exact front_bind ((m.fronts o).arr n) fun _ => front_ofExcept _
  | .option t, m, h => by
    simp only [Ty.noEof, Bool.and_eq_true, bne_iff_ne] at h
    have ht := front_fastD ((m.fmt o).native && t.bwD) (front_rawD t)
      (front_decD t m fun hb => (h hb).2)
    have ho : Front b (m.fmt o).decOption := (m.fronts o).option (by
      intro hb
      have := (h hb).1
      cases m <;> first | rfl | exact absurd rfl this)
    simp only [decD]
    front
  | .array n t, m, h => by
    simp only [Ty.noEof] at h
    have ht := front_decN (front_fastD ((m.fmt o).native && t.bwD) (front_rawD t) (front_decD t m h)) n
    have h1 := (m.fronts (b := b) o).seq
    have h2 := (m.fronts (b := b) o).endSeq 0
    simp only [decD]
    front
  | .vec t, m, h => by
    simp only [Ty.noEof] at h
    have h1 := (m.fronts (b := b) o).seq
    have h2 := (m.fronts (b := b) o).endSeq 0
    simp only [decD]
    split
    · refine front_bind ?_ fun c => front_decN (front_rawD t) c
      exact front_bind (front_bind (front_readBytes _) fun _ => front_pure _) fun _ => front_pure _
    · exact front_bind h1 fun c => front_bind (front_decN (front_decD t m h) c) fun l =>
        front_bind h2 fun _ => front_pure _
  | .set t, m, h => by
    simp only [Ty.noEof] at h
    have ht := front_fastD ((m.fmt o).native && t.bwD) (front_rawD t) (front_decD t m h)
    simp only [decD]
    exact front_bind (m.fronts o).seq fun c => front_bind (front_decN ht c) fun l =>
        front_bind ((m.fronts o).endSeq 0) fun _ => front_pure _
  | .map k t, m, h => by
    simp only [Ty.noEof, Bool.and_eq_true] at h
    have hk := front_fastD ((m.fmt o).native && k.bwD) (front_rawD k) (front_decD k m fun hb => (h hb).1)
    have ht := front_fastD ((m.fmt o).native && t.bwD) (front_rawD t) (front_decD t m fun hb => (h hb).2)
    simp only [decD]
    exact front_bind (m.fronts o).map fun c => front_bind (front_decN (front_bind hk fun _ =>
        front_bind ht fun _ => front_pure _) c) fun l =>
        front_bind ((m.fronts o).endMap 0) fun _ => front_pure _
  | .tuple ts, m, h => by
    simp only [Ty.noEof] at h
    simp only [decD]
    exact front_bind (m.fronts o).seq fun c => front_bind (front_decTys ts m h c) fun x =>
      front_bind ((m.fronts o).endSeq x.2) fun _ => front_pure _
  | .result nt t u, m, h => by
    simp only [Ty.noEof, Bool.and_eq_true] at h
    have ht := front_fastD ((m.fmt o).native && t.bwD) (front_rawD t) (front_decD t m fun hb => (h hb).1)
    have hu := front_fastD ((m.fmt o).native && u.bwD) (front_rawD u) (front_decD u m fun hb => (h hb).2)
    have h1 := (m.fronts (b := b) o).variant
    have h2 := front_decName (m.fronts (b := b) o) nt
    simp only [decD]
    front
  | .boxed t, m, h => by
    simp only [Ty.noEof] at h
    simp only [decD]
    exact front_fastD _ (front_rawD t) (front_decD t m h)
  | .wrapping t, m, h => by
    simp only [Ty.noEof] at h
    simp only [decD]
    exact front_fastD _ (front_rawD t) (front_decD t m h)
  | .transparent t, m, h => by
    simp only [Ty.noEof] at h
    simp only [decD]
    exact front_decD t m h
  | .unitStruct, m, _ => by
    simp only [decD]
    exact front_bind (m.fronts o).map fun c => (m.fronts o).endMap c
  | .strct nt fs, m, h => by
    simp only [Ty.noEof] at h
    simp only [decD]
    refine front_bind (m.fronts o).map fun c => front_bind (front_loopN ?_ c _) fun p =>
      front_bind (front_ofExcept _) fun v => front_bind ((m.fronts o).endMap 0) fun _ => front_pure _
    exact fun p => front_bind (front_decName (m.fronts o) nt) fun n => front_decEntry fs m h n p
  | .packed lay fs, m, h => by
    simp only [Ty.noEof, Bool.or_eq_true] at h
    simp only [decD]
    split
    · exact front_rawDs fs
    · refine (m.fronts o).pack _ fun hd => front_decPackFields fs .packed fun hb => ?_
      rcases h hb with (h | h) | h
      · cases m <;> first | exact Bool.noConfusion hd | exact Bool.noConfusion h
      · cases m <;> first | exact Bool.noConfusion hd | exact Bool.noConfusion h
      · exact h
  | .unitEnum nt names, m, _ => by
    have h2 := front_decName (m.fronts (b := b) o) nt
    simp only [decD]
    front
  | .enm nt vs, m, h => by
    simp only [Ty.noEof] at h
    simp only [decD]
    exact front_bind (m.fronts o).variant fun _ => front_bind (front_decName (m.fronts o) nt) fun n =>
      front_decVariants vs m h n
theorem front_decTys : ∀ (ts : Tys) (m : Mode), (b = true → ts.noEof m = true) → ∀ c,
    Front b (decTys o env ts m c)
  | .nil, m, _, c => by simp only [decTys]; exact front_pure _
  | .cons t ts, m, h, c => by
    simp only [Tys.noEof, Bool.and_eq_true] at h
    cases c with
    | zero => simp only [decTys]; exact front_fail _
    | succ c =>
      simp only [decTys]
      exact front_bind (front_fastD _ (front_rawD t) (front_decD t m fun hb => (h hb).1)) fun a =>
        front_bind (front_decTys ts m (fun hb => (h hb).2) c) fun _ => front_pure _
theorem front_decEntry : ∀ (fs : Fields) (m : Mode), (b = true → fs.noEof m = true) → ∀ n p,
    Front b (decEntry o env fs m n p)
  | .nil, m, _, n, p => by simp only [decEntry]; exact (m.fronts o).skip
  | .cons n' _ _ t fs, m, h, n, p => by
    simp only [Fields.noEof, Bool.and_eq_true] at h
    simp only [decEntry]
    exact front_ite (fun _ => front_bind (front_decD t m fun hb => (h hb).1) fun _ => front_pure _)
      fun _ => front_bind (front_decEntry fs m (fun hb => (h hb).2) n p.2) fun _ => front_pure _
theorem front_decPackFields : ∀ (fs : Fields) (m : Mode), (b = true → fs.noEof m = true) →
    Front b (decPackFields o env fs m)
  | .nil, m, _ => by simp only [decPackFields]; exact front_pure _
  | .cons n' _ _ t fs, m, h => by
    simp only [Fields.noEof, Bool.and_eq_true] at h
    simp only [decPackFields]
    exact front_bind (front_decD t m fun hb => (h hb).1) fun _ =>
      front_bind (front_decPackFields fs m fun hb => (h hb).2) fun _ => front_pure _
theorem front_decVariants : ∀ (vs : Variants) (m : Mode), (b = true → vs.noEof m = true) → ∀ n,
    Front b (decVariants o env vs m n)
  | .nil, m, _, n => by simp only [decVariants]; exact front_fail _
  | .cons n' t vs, m, h, n => by
    simp only [Variants.noEof, Bool.and_eq_true] at h
    simp only [decVariants]
    exact front_ite (fun _ => front_bind (front_decD t m fun hb => (h hb).1) fun _ => front_pure _)
      fun _ => front_bind (front_decVariants vs m (fun hb => (h hb).2) n) fun _ => front_pure _
end

end
end Musli
