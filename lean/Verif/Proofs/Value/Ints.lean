import Verif.Proofs.Value.Read
import Verif.Proofs.Json.Numbers
/-!
# Reading integers from a `Value`
-/
set_option linter.unusedSectionVars false
namespace Musli
open Json.Spec

/-- Sign and width. -/
def IntTy.kind (t : IntTy) : IntKind := ⟨t.signed, t.bits⟩

theorem IntTy.bits_pos (t : IntTy) : 0 < t.bits := by
  cases t <;> first | exact IW.bits_pos _ | decide

theorem tryFromInt_fits (t : IntTy) (i : Int) :
    (t.fits i → tryFromInt t.kind i = some i) ∧ (¬t.fits i → tryFromInt t.kind i = none) := by
  have h : t.fits i ↔ t.kind.min ≤ i ∧ i ≤ t.kind.max := by
    unfold IntTy.fits IntTy.kind IntKind.min IntKind.max IntTy.inRange
    cases t.signed <;> simp <;> omega
  unfold tryFromInt
  rw [h]
  exact ⟨fun h => if_pos h, fun h => if_neg h⟩

theorem toInt_ofInt (t : IntTy) (i : Int) (h : t.fits i) :
    ∃ u : t.prim.Val, t.toInt u = i ∧ ∀ r : Except Err Int, r = .ok i →
      (match t with
        | .uint w => intBits w.bits r = .ok u
        | .sint w => intBits w.bits r = .ok u
        | .usize => intBits 64 r = .ok u
        | .isize => intBits 64 r = .ok u) := by
  have pow2 : ∀ n : Nat, ((2 ^ n : Nat) : Int) = 2 ^ n := fun n => by simp
  cases t with
  | uint w =>
    refine ⟨BitVec.ofInt w.bits i, ?_, fun r hr => by subst hr; rfl⟩
    obtain ⟨h1, h2⟩ := h
    show ((BitVec.ofInt w.bits i).toNat : Int) = i
    rw [BitVec.toNat_ofInt, Int.toNat_of_nonneg (Int.emod_nonneg _ (by have := pow_pos2 w.bits; rw [pow2]; omega)),
      Int.emod_eq_of_lt h1 (by rw [pow2]; exact h2)]
  | usize =>
    refine ⟨BitVec.ofInt 64 i, ?_, fun r hr => by subst hr; rfl⟩
    obtain ⟨h1, h2⟩ := h
    show ((BitVec.ofInt 64 i).toNat : Int) = i
    rw [BitVec.toNat_ofInt, Int.toNat_of_nonneg (Int.emod_nonneg _ (by decide)),
      Int.emod_eq_of_lt h1 (by rw [pow2]; exact h2)]
  | sint w =>
    refine ⟨BitVec.ofInt w.bits i, ?_, fun r hr => by subst hr; rfl⟩
    obtain ⟨h1, h2⟩ := h
    show (BitVec.ofInt w.bits i).toInt = i
    exact BitVec.toInt_ofInt_eq_self (IW.bits_pos w) h1 h2
  | isize =>
    refine ⟨BitVec.ofInt 64 i, ?_, fun r hr => by subst hr; rfl⟩
    obtain ⟨h1, h2⟩ := h
    show (BitVec.ofInt 64 i).toInt = i
    exact BitVec.toInt_ofInt_eq_self (by decide) h1 h2

theorem readPrim_int (o : Options) (key : Bool) (t : IntTy) (x : Value) (i : Int) (e : Err)
    (h : readInt o key t.kind x = match tryFromInt t.kind i with
      | some i => .ok i
      | none => .error e) :
    (t.fits i → ∃ u, readPrim o key t.prim x = .ok u ∧ t.toInt u = i) ∧
    (¬t.fits i → readPrim o key t.prim x = .error e) := by
  constructor
  · intro hf
    rw [(tryFromInt_fits t i).1 hf] at h
    obtain ⟨u, h1, h2⟩ := toInt_ofInt t i hf
    refine ⟨u, ?_, h1⟩
    have := h2 _ h
    cases t <;> exact this
  · intro hf
    rw [(tryFromInt_fits t i).2 hf] at h
    cases t <;> (show intBits _ (readInt o key _ x) = _)
    all_goals
      rw [show (⟨_, _⟩ : IntKind) = _ from rfl] at *
      exact congrArg (intBits _) h

theorem readInt_prim (o : Options) (key : Bool) (k : IntKind) (s : IntTy) (v : s.prim.Val) :
    readInt o key k (primV s.prim v) = match tryFromInt k (s.toInt v) with
      | some i => .ok i
      | none => .error .overflow := by
  cases s <;> rfl

theorem parseDigits_ok : ∀ (l : Bytes) (acc : Nat), Digits l → parseDigits acc l = some (valueFrom acc l)
  | [], _, _ => rfl
  | b :: l, acc, h => by
    have hb : Digit b := h b (by simp)
    have e : (b - 0x30#8).toNat = b.toNat - 0x30 := by
      unfold Digit at hb
      rw [BitVec.toNat_sub]
      show (2 ^ 8 - 0x30 + b.toNat) % 2 ^ 8 = _
      have := b.isLt
      omega
    rw [parseDigits, if_pos, parseDigits_ok l _ (fun x hx => h x (by simp [hx])), e]
    · rfl
    · unfold Digit at hb
      constructor
      · rw [BitVec.le_def]; exact hb.1
      · rw [BitVec.le_def]; exact hb.2

theorem parseNat_ok {l : Bytes} (h : Digits l) (hl : l ≠ []) : parseNat l = some (value l) := by
  cases l with
  | nil => exact absurd rfl hl
  | cons b r => exact parseDigits_ok (b :: r) 0 h

theorem parseNumber_ok (t : IntTy) (neg : Bool) {l : Bytes} (h : Digits l) (hl : l ≠ [])
    (hz : neg = true → 0 < value l) :
    parseNumber t.kind (sign neg ++ l) = tryFromInt t.kind (signedValue neg (value l)) := by
  cases neg with
  | false =>
    cases l with
    | nil => exact absurd rfl hl
    | cons b r =>
      have hb : Digit b := h b (by simp)
      unfold Digit at hb
      show parseNumber t.kind (b :: r) = _
      unfold parseNumber
      dsimp only
      rw [if_neg (by intro h; subst h; revert hb; decide),
        if_neg (by rintro ⟨h, _⟩; subst h; revert hb; decide), parseNat_ok h hl]
      rfl
  | true =>
    show parseNumber t.kind (0x2D#8 :: l) = _
    unfold parseNumber
    dsimp only
    rw [if_neg (by decide)]
    by_cases hs : t.kind.signed = true
    · rw [if_pos ⟨rfl, hs⟩, parseNat_ok h hl]
      rfl
    · rw [if_neg (fun h => hs h.2)]
      have : parseNat (0x2D#8 :: l) = none := by
        show parseDigits 0 (0x2D#8 :: l) = none
        rw [parseDigits, if_neg (by decide)]
      rw [this]
      have hs' : t.signed = false := by
        cases h : t.signed with
        | false => rfl
        | true => exact absurd h hs
      refine ((tryFromInt_fits t _).2 ?_).symm
      have := hz rfl
      unfold IntTy.fits IntTy.inRange signedValue
      rw [hs']
      simp
      omega

theorem readInt_key (o : Options) (ho : Opt.isMapKeysAsNumbers o = true) (t : IntTy) (neg : Bool)
    {l : Bytes} (h : Digits l) (hl : l ≠ []) (hz : neg = true → 0 < value l) (s : Str)
    (hs : s.bytes = sign neg ++ l) :
    readInt o true t.kind (.string s) = match tryFromInt t.kind (signedValue neg (value l)) with
      | some i => .ok i
      | none => .error .invalid := by
  simp only [readInt, ho, Bool.and_self, if_true, hs, parseNumber_ok t neg h hl hz]
  cases tryFromInt t.kind (signedValue neg (value l)) <;> rfl

theorem parseDigits_inv : ∀ (l : Bytes) (acc n : Nat), parseDigits acc l = some n →
    Digits l ∧ n = valueFrom acc l
  | [], acc, n, h => by cases h; exact ⟨by simp [Digits], rfl⟩
  | b :: l, acc, n, h => by
    rw [parseDigits] at h
    split at h
    · rename_i hb
      obtain ⟨h1, h2⟩ := parseDigits_inv l _ n h
      have hd : Digit b := by
        rw [BitVec.le_def, BitVec.le_def] at hb
        exact hb
      have e : (b - 0x30#8).toNat = b.toNat - 0x30 := by
        unfold Digit at hd
        rw [BitVec.toNat_sub]
        show (2 ^ 8 - 0x30 + b.toNat) % 2 ^ 8 = _
        have := b.isLt
        omega
      rw [e] at h2
      refine ⟨?_, h2⟩
      intro c hc
      rcases List.mem_cons.1 hc with rfl | hc
      · exact hd
      · exact h1 c hc
    · cases h

theorem parseNat_inv {l : Bytes} {n : Nat} (h : parseNat l = some n) :
    Digits l ∧ l ≠ [] ∧ n = value l := by
  cases l with
  | nil => cases h
  | cons b r =>
    obtain ⟨h1, h2⟩ := parseDigits_inv (b :: r) 0 n h
    exact ⟨h1, by simp, h2⟩

theorem tryFromInt_eq {k : IntKind} {n i : Int} (h : tryFromInt k n = some i) : i = n := by
  unfold tryFromInt at h
  split at h
  · cases h; rfl
  · cases h

theorem parseNumber_inv {k : IntKind} {s : Bytes} {i : Int} (h : parseNumber k s = some i) :
    ∃ sg ds, s = sg ++ ds ∧ Digits ds ∧ ds ≠ [] ∧
      ((sg = [] ∨ sg = [0x2B#8]) ∧ i = value ds ∨ sg = [0x2D#8] ∧ i = -(value ds : Int)) := by
  unfold parseNumber at h
  split at h
  · cases h
  · rename_i b r
    split at h
    · rename_i hb
      subst hb
      split at h
      · rename_i n hn
        obtain ⟨h1, h2, rfl⟩ := parseNat_inv hn
        exact ⟨[0x2B#8], r, rfl, h1, h2, .inl ⟨.inr rfl, tryFromInt_eq h⟩⟩
      · cases h
    · split at h
      · rename_i hb
        obtain ⟨rfl, _⟩ := hb
        split at h
        · rename_i n hn
          obtain ⟨h1, h2, rfl⟩ := parseNat_inv hn
          exact ⟨[0x2D#8], r, rfl, h1, h2, .inr ⟨rfl, tryFromInt_eq h⟩⟩
        · cases h
      · split at h
        · rename_i n hn
          obtain ⟨h1, h2, rfl⟩ := parseNat_inv hn
          exact ⟨[], b :: r, rfl, h1, h2, .inl ⟨.inl rfl, tryFromInt_eq h⟩⟩
        · cases h

/-- A string is read as an integer only if it is the key of a map. -/
theorem readPrim_string (o : Options) (key : Bool) (t : IntTy) (s : Str)
    (h : (Opt.isMapKeysAsNumbers o && key) = false) :
    readPrim o key t.prim (.string s) = .error .invalid := by
  have : readInt o key t.kind (.string s) = .error .invalid := by
    simp only [readInt, h, Bool.false_eq_true, if_false]
  cases t <;> (show intBits _ (readInt o key _ _) = _) <;> (exact congrArg (intBits _) this)

theorem readPrim_string_inv (o : Options) (t : IntTy) (s : Str) (u : t.prim.Val)
    (h : readPrim o true t.prim (.string s) = .ok u) :
    ∃ sg ds, s.bytes = sg ++ ds ∧ Digits ds ∧ ds ≠ [] ∧
      ((sg = [] ∨ sg = [0x2B#8]) ∧ t.toInt u = value ds ∨
        sg = [0x2D#8] ∧ t.toInt u = -(value ds : Int)) := by
  cases ho : Opt.isMapKeysAsNumbers o with
  | false => rw [readPrim_string o true t s (by rw [ho]; rfl)] at h; cases h
  | true =>
    cases hp : parseNumber t.kind s.bytes with
    | none =>
      have : readInt o true t.kind (.string s) = .error .invalid := by
        simp only [readInt, ho, Bool.and_self, if_true, hp]
      have h2 : readPrim o true t.prim (.string s) = .error .invalid := by
        cases t <;> (show intBits _ (readInt o true _ _) = _) <;> (exact congrArg (intBits _) this)
      rw [h2] at h; cases h
    | some i =>
      obtain ⟨sg, ds, h1, h2, h3, h4⟩ := parseNumber_inv hp
      have hf : tryFromInt t.kind i = some i := by
        unfold parseNumber at hp
        repeat' split at hp
        all_goals first
          | (cases hp; done)
          | (have e := tryFromInt_eq hp; subst e; exact hp)
      have hr : readInt o true t.kind (.string s) = match tryFromInt t.kind i with
          | some i => .ok i
          | none => .error .invalid := by
        simp only [readInt, ho, Bool.and_self, if_true, hp, hf]
      have hfits : t.fits i := by
        by_cases hc : t.fits i
        · exact hc
        · rw [(tryFromInt_fits t i).2 hc] at hf; cases hf
      obtain ⟨u', e1, e2⟩ := (readPrim_int o true t (.string s) i .invalid hr).1 hfits
      rw [e1] at h
      cases h
      exact ⟨sg, ds, h1, h2, h3, by rw [e2]; exact h4⟩

end Musli
