import Verif.Model.Json.Std
import Verif.Spec.Json.Std
import Verif.Proofs.Json.DecodeTy
import Verif.Proofs.Json.Encode
import Verif.Proofs.Json.WellFormed
/-!
# Types of the standard library in JSON
-/
set_option linter.unusedSectionVars false
namespace Musli.Std
open Musli.Json

section
variable (T : NetText) (full : Bool) (env : Env)

/-! ### Encoding -/

theorem encArrJ_shape (n : Nat) (tf : TextForm (Arr n)) (f : Form) (v : Arr n) :
    encArrJ n tf f v = encJ env (addrShape n f) (toAddr n tf f v) := by
  cases f <;> simp only [encArrJ, addrShape, toAddr, encJ, encTextJ]

theorem seq_nil (e : Enc) : (e +> .ok []) = e := by
  cases e with
  | error e => rfl
  | ok b => show Except.ok (b ++ []) = _; rw [List.append_nil]

theorem nil_seq (e : Enc) : ((.ok [] : Enc) +> e) = e := by
  cases e <;> rfl

theorem encSockV4J_shape (f : Form) (v : SockV4) :
    encSockV4J T f v = encJ env (sockShape 4 restV4 f) (toSock4 T f v) := by
  cases f
  · simp only [encSockV4J, sockShape, toSock4, encJ, encTysJ, restV4, u16, encArrJ, if_true, nil_seq, seq_nil]
    rfl
  · simp only [encSockV4J, sockShape, toSock4, encJ, encTextJ]

theorem encSockV6J_shape (f : Form) (v : SockV6) :
    encSockV6J T f v = encJ env (sockShape 16 restV6 f) (toSock6 T f v) := by
  cases f
  · simp only [encSockV6J, sockShape, toSock6, encJ, encTysJ, restV6, u16, u32, encArrJ, if_true, nil_seq, seq_nil]
    rfl
  · simp only [encSockV6J, sockShape, toSock6, encJ, encTextJ]

theorem encStdJ_shape (s : StdTy) (v : s.Val) : encStdJ T env s v = encJ env s.shape (s.toShape T v) := by
  cases s with
  | ipv4 f => exact encArrJ_shape env 4 T.v4 f v
  | ipv6 f => exact encArrJ_shape env 16 T.v6 f v
  | ipAddr f =>
    cases v <;> simp only [encStdJ, encVariantJ, StdTy.shape, StdTy.toShape, eitherShape, encJ, encVariantsJ,
      encArrJ_shape env]
  | sockV4 f => exact encSockV4J_shape T env f v
  | sockV6 f => exact encSockV6J_shape T env f v
  | sockAddr f =>
    cases v <;> simp only [encStdJ, encVariantJ, StdTy.shape, StdTy.toShape, eitherShape, encJ, encVariantsJ,
      encSockV4J_shape T env, encSockV6J_shape T env]
  | range t =>
    simp only [encStdJ, StdTy.shape, StdTy.toShape, encJ, encTysJ, if_true, nil_seq, seq_nil]; rfl
  | rangeInclusive t =>
    simp only [encStdJ, StdTy.shape, StdTy.toShape, encJ, encTysJ, if_true, nil_seq, seq_nil]; rfl
  | rangeFrom t => simp only [encStdJ, StdTy.shape, StdTy.toShape, encJ, encTysJ, if_true, nil_seq, seq_nil]
  | rangeTo t => simp only [encStdJ, StdTy.shape, StdTy.toShape, encJ, encTysJ, if_true, nil_seq, seq_nil]
  | rangeToInclusive t => simp only [encStdJ, StdTy.shape, StdTy.toShape, encJ, encTysJ, if_true, nil_seq, seq_nil]
  | rangeFull => simp only [encStdJ, StdTy.shape, StdTy.toShape, encJ, encTysJ]
  | cstring => simp only [encStdJ, StdTy.shape, StdTy.toShape, encJ]
  | unixPath f => simp only [encStdJ, encVariantJ, StdTy.shape, StdTy.toShape, eitherShape, encJ, encVariantsJ]
  | windowsPath f => simp only [encStdJ, encVariantJ, StdTy.shape, StdTy.toShape, eitherShape, encJ, encVariantsJ]

/-! ### Decoding -/

theorem pure_eq_ok {α} {a b : α} {s r : Bytes} : (pure a : P α) s = .ok (b, r) ↔ a = b ∧ s = r := by
  constructor
  · intro h; cases h; exact ⟨rfl, rfl⟩
  · rintro ⟨rfl, rfl⟩; rfl

theorem fail_ne {α} {e : Err} {s : Bytes} {x : α × Bytes} : (P.fail e : P α) s = .ok x ↔ False :=
  ⟨fun h => (nomatch h), False.elim⟩

theorem decTextJ_iff {α : Type} (tf : TextForm α) (i r : Bytes) (v : α) :
    decTextJ tf i = .ok (v, r) ↔ ∃ w, decStr i = .ok (w, r) ∧ tf.parse w = some v := by
  unfold decTextJ
  rw [P.bind_eq_ok]
  constructor
  · rintro ⟨w, s, h1, h2⟩
    cases hp : tf.parse w with
    | none => rw [hp] at h2; cases h2
    | some x =>
      rw [hp] at h2
      obtain ⟨rfl, rfl⟩ := pure_eq_ok.mp h2
      exact ⟨w, h1, hp⟩
  · rintro ⟨w, h1, h2⟩
    refine ⟨w, r, h1, ?_⟩
    rw [h2]
    rfl

theorem decArrJ_shape (n : Nat) (tf : TextForm (Arr n)) (f : Form) (i r : Bytes) (v : Arr n) :
    decArrJ full n tf f i = .ok (v, r) ↔
      ∃ w, decJ full env (addrShape n f) i = .ok (w, r) ∧ ofAddr n tf f w = some v := by
  cases f
  · simp only [decArrJ, addrShape, ofAddr, decJ]
    constructor
    · intro h; exact ⟨v, h, rfl⟩
    · rintro ⟨w, h, e⟩; cases e; exact h
  · simp only [decArrJ, addrShape, ofAddr, decJ]
    exact decTextJ_iff tf i r v

theorem decSockV4J_shape (f : Form) (i r : Bytes) (v : SockV4) :
    decSockV4J T full f i = .ok (v, r) ↔
      ∃ w, decJ full env (sockShape 4 restV4 f) i = .ok (w, r) ∧ ofSock4 T f w = some v := by
  cases f
  · simp only [decSockV4J, sockShape, restV4, u16, decJ, decTysJ, decArrJ, P.bind_eq_ok, pure_eq_ok]
    constructor
    · rintro ⟨_, s1, h1, _, s2, h2, a, s3, h3, _, s4, h4, p, s5, h5, _, s6, h6, rfl, rfl⟩
      exact ⟨(a, p, ()), ⟨_, s1, h1, _, s5, ⟨_, s2, h2, a, s3, h3, _, s5, ⟨_, s4, h4, p, s5, h5, _, s5, ⟨rfl, rfl⟩,
        rfl, rfl⟩, rfl, rfl⟩, _, s6, h6, rfl, rfl⟩, rfl⟩
    · rintro ⟨w, ⟨_, s1, h1, x, s5, ⟨_, s2, h2, a, s3, h3, y, s6, ⟨_, s4, h4, p, s7, h5, z, s8, ⟨hz, e1⟩, hy, e2⟩,
        hx, e3⟩, _, s9, h6, e4, e5⟩, e⟩
      subst hz hy hx e1 e2 e3 e4 e5
      cases e
      exact ⟨_, _, h1, _, _, h2, _, _, h3, _, _, h4, _, _, h5, _, _, h6, rfl, rfl⟩
  · simp only [decSockV4J, sockShape, ofSock4, decJ]
    exact decTextJ_iff T.s4 i r v

theorem decSockV6J_shape (f : Form) (i r : Bytes) (v : SockV6) :
    decSockV6J T full f i = .ok (v, r) ↔
      ∃ w, decJ full env (sockShape 16 restV6 f) i = .ok (w, r) ∧ ofSock6 T f w = some v := by
  cases f
  · simp only [decSockV6J, sockShape, restV6, u16, u32, decJ, decTysJ, decArrJ, P.bind_eq_ok, pure_eq_ok]
    constructor
    · rintro ⟨_, s1, h1, _, s2, h2, a, s3, h3, _, s4, h4, p, s5, h5, _, s6, h6, w, s7, h7, _, s8, h8, s, s9, h9,
        _, s10, h10, rfl, rfl⟩
      exact ⟨(a, p, w, s, ()), ⟨_, s1, h1, _, _, ⟨_, s2, h2, a, s3, h3, _, _, ⟨_, s4, h4, p, s5, h5, _, _,
        ⟨_, s6, h6, w, s7, h7, _, _, ⟨_, s8, h8, s, s9, h9, _, _, ⟨rfl, rfl⟩, rfl, rfl⟩, rfl, rfl⟩, rfl, rfl⟩,
        rfl, rfl⟩, _, _, h10, rfl, rfl⟩, rfl⟩
    · rintro ⟨w, ⟨_, s1, h1, x, s5, ⟨_, s2, h2, a, s3, h3, y, s6, ⟨_, s4, h4, p, s7, h5, z, s8,
        ⟨_, s9, h6, q, s10, h7, z2, s11, ⟨_, s12, h8, q2, s13, h9, z3, s14, ⟨hz3, e9⟩, hz2, e8⟩, hz, e1⟩, hy, e2⟩,
        hx, e3⟩, _, s15, h10, e4, e5⟩, e⟩
      subst hz3 hz2 hz hy hx e9 e8 e1 e2 e3 e4 e5
      cases e
      exact ⟨_, _, h1, _, _, h2, _, _, h3, _, _, h4, _, _, h5, _, _, h6, _, _, h7, _, _, h8, _, _, h9, _, _, h10, rfl, rfl⟩
  · simp only [decSockV6J, sockShape, ofSock6, decJ]
    exact decTextJ_iff T.s6 i r v

/-- What a branch for a tag does, given the type of its data and what the data stand for. -/
def Branch {γ : Type} (A : Ty) (o : A.Val → Option γ) (k : P γ) : Prop :=
  ∀ i r v, k i = .ok (v, r) ↔ ∃ s w s', expect .colon i = .ok ((), s) ∧ decJ full env A s = .ok (w, s') ∧
    expect .closeBrace s' = .ok ((), r) ∧ o w = some v

theorem branch_of {α γ : Type} (A : Ty) (d : P α) (o : A.Val → Option α) (g : α → γ)
    (h : ∀ i r v, d i = .ok (v, r) ↔ ∃ w, decJ full env A i = .ok (w, r) ∧ o w = some v) :
    Branch full env A (fun w => (o w).map g) (do
      expect .colon
      let a ← d
      expect .closeBrace
      pure (g a)) := by
  intro i r v
  simp only [P.bind_eq_ok, pure_eq_ok]
  constructor
  · rintro ⟨_, s, h1, a, s', h2, _, s'', h3, rfl, rfl⟩
    obtain ⟨w, hw, ho⟩ := (h _ _ _).mp h2
    exact ⟨s, w, s', h1, hw, h3, by rw [ho]; rfl⟩
  · rintro ⟨s, w, s', h1, h2, h3, h4⟩
    obtain ⟨b, hb, rfl⟩ := Option.map_eq_some_iff.mp h4
    exact ⟨_, s, h1, b, s', (h _ _ _).mpr ⟨w, h2, hb⟩, _, _, h3, rfl, rfl⟩

theorem branch_fail {γ : Type} (A : Ty) (e : Err) : Branch (γ := γ) full env A (fun _ => none) (P.fail e) :=
  fun _ _ _ => ⟨fun h => (nomatch h), fun ⟨_, _, _, _, _, _, h⟩ => (nomatch h)⟩

/-- One of two variants. -/
theorem either_iff {γ : Type} (f : Form) (tag : Bool → Name) (A B : Ty) (ka kb : P γ)
    (oa : A.Val → Option γ) (ob : B.Val → Option γ)
    (ha : Branch full env A oa ka) (hb : Branch full env B ob kb) (i r : Bytes) (v : γ) :
    (do expect .openBrace
        let n ← decNameK full f.names
        if n = tag true then ka
        else if n = tag false then kb
        else P.fail .unknown : P γ) i = .ok (v, r) ↔
    ∃ w : (eitherShape f tag A B).Val, decJ full env (eitherShape f tag A B) i = .ok (w, r) ∧
      (match w with
        | .inl a => oa a
        | .inr (.inl b) => ob b) = some v := by
  simp only [eitherShape, decJ, P.bind_eq_ok]
  constructor
  · rintro ⟨_, s1, h1, n, s2, h2, h3⟩
    by_cases e1 : n = tag true
    · rw [if_pos e1] at h3
      obtain ⟨s, w, s', h4, h5, h6, ho⟩ := (ha _ _ _).mp h3
      refine ⟨.inl w, ⟨_, s1, h1, n, s2, h2, .inl w, s', ?_, _, _, h6, rfl⟩, ho⟩
      simp only [decVariantsJ, if_pos e1.symm, P.bind_eq_ok]
      exact ⟨_, _, h4, _, _, h5, rfl⟩
    · rw [if_neg e1] at h3
      by_cases e2 : n = tag false
      · rw [if_pos e2] at h3
        obtain ⟨s, w, s', h4, h5, h6, ho⟩ := (hb _ _ _).mp h3
        refine ⟨.inr (.inl w), ⟨_, s1, h1, n, s2, h2, .inr (.inl w), s', ?_, _, _, h6, rfl⟩, ho⟩
        simp only [decVariantsJ, if_neg (fun h => e1 (Eq.symm h)), if_pos e2.symm]
        rw [P.bind_eq_ok]
        refine ⟨_, _, ?_, rfl⟩
        simp only [P.bind_eq_ok]
        exact ⟨_, _, h4, _, _, h5, rfl⟩
      · rw [if_neg e2] at h3
        cases h3
  · rintro ⟨w, ⟨_, s1, h1, n, s2, h2, x, s3, h3, _, s4, h4, h5⟩, ho⟩
    obtain ⟨rfl, rfl⟩ := pure_eq_ok.mp h5
    refine ⟨_, s1, h1, n, s2, h2, ?_⟩
    by_cases e1 : n = tag true
    · rw [if_pos e1]
      simp only [decVariantsJ, if_pos e1.symm, P.bind_eq_ok] at h3
      obtain ⟨_, s5, h6, a, s6, h7, h8⟩ := h3
      obtain ⟨rfl, rfl⟩ := pure_eq_ok.mp h8
      exact (ha _ _ _).mpr ⟨_, _, _, h6, h7, h4, ho⟩
    · rw [if_neg e1]
      rw [decVariantsJ, if_neg (fun h => e1 (Eq.symm h)), P.bind_eq_ok] at h3
      obtain ⟨y, s8, h3, h9⟩ := h3
      obtain ⟨rfl, rfl⟩ := pure_eq_ok.mp h9
      by_cases e2 : n = tag false
      · rw [if_pos e2]
        simp only [decVariantsJ, if_pos e2.symm, P.bind_eq_ok] at h3
        obtain ⟨_, s5, h6, a, s6, h7, h8⟩ := h3
        obtain ⟨rfl, rfl⟩ := pure_eq_ok.mp h8
        exact (hb _ _ _).mpr ⟨_, _, _, h6, h7, h4, ho⟩
      · rw [decVariantsJ, if_neg (fun h => e2 (Eq.symm h)), P.bind_eq_ok] at h3
        obtain ⟨y, s8, h3, -⟩ := h3
        cases h3

theorem fromBytesWithNul_iff (b : Bytes) (v : { b : Bytes // 0#8 ∉ b }) :
    fromBytesWithNul b = .ok v ↔ StdTy.ofShape T .cstring b = some v := by
  show _ ↔ (if h : List.getLast? (α := Byte) b = some 0#8 ∧ 0#8 ∉ List.dropLast (α := Byte) b then
    some (⟨List.dropLast (α := Byte) b, h.2⟩ : { b : Bytes // 0#8 ∉ b }) else none) = some v
  unfold fromBytesWithNul
  by_cases h1 : 0#8 ∉ b.dropLast
  · by_cases h2 : b.getLast? = some 0#8
    · rw [dif_pos h1, if_pos h2, dif_pos ⟨h2, h1⟩]
      constructor
      · intro h; cases h; rfl
      · intro h; cases h; rfl
    · rw [dif_pos h1, if_neg h2, dif_neg (fun h => h2 h.1)]
      exact ⟨fun h => (nomatch h), fun h => (nomatch h)⟩
  · rw [dif_neg h1, dif_neg (fun h => h1 h.2)]
    exact ⟨fun h => (nomatch h), fun h => (nomatch h)⟩

/-- Decoding followed by a conversion which always succeeds. -/
theorem map_iff {α γ : Type} (d : P α) (g : α → γ) (i r : Bytes) (v : γ) :
    (do let a ← d; pure (g a) : P γ) i = .ok (v, r) ↔ ∃ w, d i = .ok (w, r) ∧ some (g w) = some v := by
  simp only [P.bind_eq_ok, pure_eq_ok]
  constructor
  · rintro ⟨a, s, h, rfl, rfl⟩; exact ⟨a, h, rfl⟩
  · rintro ⟨a, h, e⟩; cases e; exact ⟨a, _, h, rfl, rfl⟩

theorem decBytes_vec : decJ full env (.vec (.prim (.uint .w8))) = decBytes full := by
  simp only [decJ]; rfl

theorem decStdJ_shape (s : StdTy) (hs : s ≠ .rangeFull) (i r : Bytes) (v : s.Val) :
    decStdJ T full env s i = .ok (v, r) ↔
      ∃ w, decJ full env s.shape i = .ok (w, r) ∧ s.ofShape T w = some v := by
  cases s with
  | ipv4 f => exact decArrJ_shape full env 4 T.v4 f i r v
  | ipv6 f => exact decArrJ_shape full env 16 T.v6 f i r v
  | ipAddr f =>
    refine (either_iff full env f (ipTag f) _ _ _ _ _ _
      (branch_of full env _ _ _ Sum.inl (decArrJ_shape full env 4 T.v4 f))
      (branch_of full env _ _ _ Sum.inr (decArrJ_shape full env 16 T.v6 f)) i r v).trans (exists_congr fun w => and_congr Iff.rfl ?_)
    rcases w with a | b | b
    · exact Iff.rfl
    · exact Iff.rfl
    · exact nomatch b
  | sockV4 f => exact decSockV4J_shape T full env f i r v
  | sockV6 f => exact decSockV6J_shape T full env f i r v
  | sockAddr f =>
    refine (either_iff full env f (sockTag f) _ _ _ _ _ _
      (branch_of full env _ _ _ Sum.inl (decSockV4J_shape T full env f))
      (branch_of full env _ _ _ Sum.inr (decSockV6J_shape T full env f)) i r v).trans (exists_congr fun w => and_congr Iff.rfl ?_)
    rcases w with a | b | b
    · exact Iff.rfl
    · exact Iff.rfl
    · exact nomatch b
  | range t => exact map_iff _ (fun w : t.Val × t.Val × Unit => (w.1, w.2.1)) i r v
  | rangeInclusive t => exact map_iff _ (fun w : t.Val × t.Val × Unit => (w.1, w.2.1, false)) i r v
  | rangeFrom t => exact map_iff _ (fun w : t.Val × Unit => w.1) i r v
  | rangeTo t => exact map_iff _ (fun w : t.Val × Unit => w.1) i r v
  | rangeToInclusive t => exact map_iff _ (fun w : t.Val × Unit => w.1) i r v
  | rangeFull => exact absurd rfl hs
  | cstring =>
    simp only [decStdJ, StdTy.shape, decJ, P.bind_eq_ok]
    constructor
    · rintro ⟨b, s, h, h2⟩
      obtain ⟨h3, rfl⟩ := ofExcept_inv h2
      exact ⟨b, h, (fromBytesWithNul_iff T b v).mp h3⟩
    · rintro ⟨b, h, h2⟩
      refine ⟨b, r, h, ?_⟩
      rw [(fromBytesWithNul_iff T b v).mpr h2]
      rfl
  | unixPath f =>
    have h1 : Branch full env .bytes (fun w => (some w).map id) (do
        expect .colon
        let b ← decJ full env (.vec (.prim (.uint .w8)))
        expect .closeBrace
        pure (id b)) := by
      refine branch_of full env .bytes _ some id ?_
      intro i r v
      rw [decBytes_vec]
      simp only [decJ]
      exact ⟨fun h => ⟨v, h, rfl⟩, fun ⟨w, h, e⟩ => by cases e; exact h⟩
    refine (either_iff full env f (platformTag f) _ _ _ _ _ _ h1 (branch_fail full env .bytes .invalid) i r v).trans (exists_congr fun w => and_congr Iff.rfl ?_)
    rcases w with a | b | b
    · exact Iff.rfl
    · exact Iff.rfl
    · exact nomatch b
  | windowsPath f =>
    have h1 : Branch full env .bytes (fun w => (some w).map wideUnits) (do
        expect .colon
        let b ← decBytes full
        expect .closeBrace
        pure (wideUnits b)) := by
      refine branch_of full env .bytes _ some wideUnits ?_
      intro i r v
      simp only [decJ]
      exact ⟨fun h => ⟨v, h, rfl⟩, fun ⟨w, h, e⟩ => by cases e; exact h⟩
    refine (either_iff full env f (platformTag f) _ _ _ _ _ _ (branch_fail full env .bytes .invalid) h1 i r v).trans (exists_congr fun w => and_congr Iff.rfl ?_)
    rcases w with a | b | b
    · exact Iff.rfl
    · exact Iff.rfl
    · exact nomatch b

end
end Musli.Std
