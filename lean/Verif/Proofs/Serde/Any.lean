import Verif.Model.Serde.Any
import Verif.Proofs.Value.Any
/-!
# `deserialize_any` and `Decode for Value`

Both are `decode_any`, with different visitors.
-/
set_option linter.unusedSectionVars false
namespace Musli.Serde

/-! ## What was serialized, as a `Value` -/

mutual

/-- The `Value` with the same encoding. -/
def SData.content : SData → Value
  | .bool b => .bool b
  | .char c => .char c
  | .uint w v => .number (.uint w v)
  | .sint w v => .number (.sint w v)
  | .f32 v => .number (.f32 v)
  | .f64 v => .number (.f64 v)
  | .str s => .string s
  | .bytes b => .bytes b
  | .none => .none
  | .some d => .some d.content
  | .unit => .unit
  | .unitStruct => .unit
  | .unitVariant n => .variant (.string n) .unit
  | .newtypeStruct d => d.content
  | .newtypeVariant n d => .variant (.string n) d.content
  | .seq _ l => .seq (contents l)
  | .tuple l => .seq (contents l)
  | .tupleStruct l => .seq (contents l)
  | .tupleVariant n l => .variant (.string n) (.seq (contents l))
  | .map _ l => .map (contentPairs l)
  | .struct l => .map (contentMembers l)
  | .structVariant n l => .variant (.string n) (.map (contentMembers l))

@[inherit_doc SData.content]
def contents : List SData → List Value
  | [] => []
  | d :: l => d.content :: contents l

@[inherit_doc SData.content]
def contentPairs : List (SData × SData) → List (Value × Value)
  | [] => []
  | p :: l => contentPair p :: contentPairs l

@[inherit_doc SData.content]
def contentPair : SData × SData → Value × Value
  | (k, d) => (k.content, d.content)

@[inherit_doc SData.content]
def contentMembers : List (Str × SData) → List (Value × Value)
  | [] => []
  | p :: l => contentMember p :: contentMembers l

@[inherit_doc SData.content]
def contentMember : Str × SData → Value × Value
  | (n, d) => (.string n, d.content)

end

theorem contents_length : ∀ l : List SData, (contents l).length = l.length
  | [] => rfl
  | _ :: l => by rw [contents, List.length_cons, contents_length l, List.length_cons]

theorem contentPairs_length : ∀ l : List (SData × SData), (contentPairs l).length = l.length
  | [] => rfl
  | _ :: l => by rw [contentPairs, List.length_cons, contentPairs_length l, List.length_cons]

theorem contentMembers_length : ∀ l : List (Str × SData), (contentMembers l).length = l.length
  | [] => rfl
  | _ :: l => by rw [contentMembers, List.length_cons, contentMembers_length l, List.length_cons]

section
variable (F : Fmt)

mutual

/-- What `Serializer` writes is the encoding of that `Value`. -/
theorem serData_content : ∀ (d : SData) (bs : Bytes), serData F d = .ok bs →
    encValue F d.content = .ok bs
  | .bool b, bs, h => h
  | .char c, bs, h => h
  | .uint w v, bs, h => h
  | .sint w v, bs, h => h
  | .f32 v, bs, h => h
  | .f64 v, bs, h => h
  | .str s, bs, h => h
  | .bytes b, bs, h => h
  | .none, bs, h => h
  | .unit, bs, h => h
  | .unitStruct, bs, h => h
  | .some d, bs, h => by
    rw [serData] at h; rw [SData.content, encValue]
    obtain ⟨x, y, hx, hy, rfl⟩ := Enc.seq_eq_ok.mp h
    exact Enc.seq_eq_ok.mpr ⟨x, y, hx, serData_content d y hy, rfl⟩
  | .unitVariant n, bs, h => h
  | .newtypeStruct d, bs, h => by
    rw [serData] at h; rw [SData.content]; exact serData_content d bs h
  | .newtypeVariant n d, bs, h => by
    rw [serData] at h; rw [SData.content, encValue, encValue]
    obtain ⟨x, y, hx, hy, rfl⟩ := Enc.seq_eq_ok.mp h
    obtain ⟨z, w, hz, hw, rfl⟩ := Enc.seq_eq_ok.mp hy
    exact Enc.seq_eq_ok.mpr ⟨x, z ++ w, hx, Enc.seq_eq_ok.mpr ⟨z, w, hz, serData_content d w hw, rfl⟩, rfl⟩
  | .seq known l, bs, h => by
    rw [serData] at h
    cases known with
    | false => cases h
    | true => exact serSeq_content l bs h
  | .tuple l, bs, h => by
    rw [serData] at h; exact serSeq_content l bs h
  | .tupleStruct l, bs, h => by
    rw [serData] at h; exact serSeq_content l bs h
  | .tupleVariant n l, bs, h => by
    rw [serData] at h; rw [SData.content, encValue, encValue]
    obtain ⟨x, y, hx, hy, rfl⟩ := Enc.seq_eq_ok.mp h
    obtain ⟨z, w, hz, hw, rfl⟩ := Enc.seq_eq_ok.mp hy
    exact Enc.seq_eq_ok.mpr ⟨x, z ++ w, hx, Enc.seq_eq_ok.mpr ⟨z, w, hz, serSeq_content l w hw, rfl⟩, rfl⟩
  | .map known l, bs, h => by
    rw [serData] at h
    cases known with
    | false => cases h
    | true =>
      rw [SData.content, encValue, contentPairs_length]
      obtain ⟨x, y, hx, hy, rfl⟩ := Enc.seq_eq_ok.mp h
      exact Enc.seq_eq_ok.mpr ⟨x, y, hx, serPairs_content l y hy, rfl⟩
  | .struct l, bs, h => by
    rw [serData] at h; exact serMap_content l bs h
  | .structVariant n l, bs, h => by
    rw [serData] at h; rw [SData.content, encValue, encValue]
    obtain ⟨x, y, hx, hy, rfl⟩ := Enc.seq_eq_ok.mp h
    obtain ⟨z, w, hz, hw, rfl⟩ := Enc.seq_eq_ok.mp hy
    exact Enc.seq_eq_ok.mpr ⟨x, z ++ w, hx, Enc.seq_eq_ok.mpr ⟨z, w, hz, serMap_content l w hw, rfl⟩, rfl⟩

theorem serSeq_content : ∀ (l : List SData) (bs : Bytes),
    (F.encSeq l.length +> serDatas F l) = .ok bs → encValue F (.seq (contents l)) = .ok bs
  | l, bs, h => by
    rw [encValue, contents_length]
    obtain ⟨x, y, hx, hy, rfl⟩ := Enc.seq_eq_ok.mp h
    exact Enc.seq_eq_ok.mpr ⟨x, y, hx, serDatas_content l y hy, rfl⟩

theorem serMap_content : ∀ (l : List (Str × SData)) (bs : Bytes),
    (F.encMap l.length +> serMembers F l) = .ok bs → encValue F (.map (contentMembers l)) = .ok bs
  | l, bs, h => by
    rw [encValue, contentMembers_length]
    obtain ⟨x, y, hx, hy, rfl⟩ := Enc.seq_eq_ok.mp h
    exact Enc.seq_eq_ok.mpr ⟨x, y, hx, serMembers_content l y hy, rfl⟩

theorem serDatas_content : ∀ (l : List SData) (bs : Bytes), serDatas F l = .ok bs →
    encValues F (contents l) = .ok bs
  | [], bs, h => h
  | d :: l, bs, h => by
    rw [serDatas] at h; rw [contents, encValues]
    obtain ⟨x, y, hx, hy, rfl⟩ := Enc.seq_eq_ok.mp h
    exact Enc.seq_eq_ok.mpr ⟨x, y, serData_content d x hx, serDatas_content l y hy, rfl⟩

theorem serPairs_content : ∀ (l : List (SData × SData)) (bs : Bytes), serPairs F l = .ok bs →
    encPairs F (contentPairs l) = .ok bs
  | [], bs, h => h
  | p :: l, bs, h => by
    rw [serPairs] at h; rw [contentPairs, encPairs]
    obtain ⟨x, y, hx, hy, rfl⟩ := Enc.seq_eq_ok.mp h
    exact Enc.seq_eq_ok.mpr ⟨x, y, serPair_content p x hx, serPairs_content l y hy, rfl⟩

theorem serPair_content : ∀ (p : SData × SData) (bs : Bytes), serPair F p = .ok bs →
    encPair F (contentPair p) = .ok bs
  | (k, d), bs, h => by
    rw [serPair] at h; rw [contentPair, encPair]
    obtain ⟨x, y, hx, hy, rfl⟩ := Enc.seq_eq_ok.mp h
    exact Enc.seq_eq_ok.mpr ⟨x, y, serData_content k x hx, serData_content d y hy, rfl⟩

theorem serMembers_content : ∀ (l : List (Str × SData)) (bs : Bytes), serMembers F l = .ok bs →
    encPairs F (contentMembers l) = .ok bs
  | [], bs, h => h
  | p :: l, bs, h => by
    rw [serMembers] at h; rw [contentMembers, encPairs]
    obtain ⟨x, y, hx, hy, rfl⟩ := Enc.seq_eq_ok.mp h
    exact Enc.seq_eq_ok.mpr ⟨x, y, serMember_content p x hx, serMembers_content l y hy, rfl⟩

theorem serMember_content : ∀ (p : Str × SData) (bs : Bytes), serMember F p = .ok bs →
    encPair F (contentMember p) = .ok bs
  | (n, d), bs, h => by
    rw [serMember] at h; rw [contentMember, encPair, encValue]
    obtain ⟨x, y, hx, hy, rfl⟩ := Enc.seq_eq_ok.mp h
    exact Enc.seq_eq_ok.mpr ⟨x, y, hx, serData_content d y hy, rfl⟩

end
end

/-! ## What the visitor sees of a `Value` -/

/-- As `anyNum` does it. -/
def seenNumber : Number → Seen
  | .uint .w128 v => visitU128 v
  | .uint w v => .uint w v
  | .sint .w128 v => visitI128 v
  | .sint w v => .sint w v
  | .usize v => .uint .w64 v
  | .isize v => .sint .w64 v
  | .f32 v => .f32 v
  | .f64 v => .f64 v

mutual

/-- What the visitor is told about a `Value`; nothing if there is a variant in it. -/
def seenOf : Value → Option Seen
  | .unit => some .unit
  | .bool b => some (.bool b)
  | .char c => some (.char c)
  | .number n => some (seenNumber n)
  | .bytes b => some (.bytes b)
  | .string s => some (.str s)
  | .seq l => (seenList l).map .seq
  | .map l => (seenPairs l).map .map
  | .variant _ _ => Option.none
  | .none => some .none
  | .some v => (seenOf v).map .some

@[inherit_doc seenOf]
def seenList : List Value → Option (List Seen)
  | [] => some []
  | v :: l => (seenOf v).bind fun a => (seenList l).map (a :: ·)

@[inherit_doc seenOf]
def seenPairs : List (Value × Value) → Option (List (Seen × Seen))
  | [] => some []
  | p :: l => (seenPair p).bind fun a => (seenPairs l).map (a :: ·)

@[inherit_doc seenOf]
def seenPair : Value × Value → Option (Seen × Seen)
  | (k, v) => (seenOf k).bind fun a => (seenOf v).map (a, ·)

end

/-- The result of `deserialize_any`. -/
def outcome {α} (x : Option α) (r : Bytes) : Except Err (α × Bytes) :=
  match x with
  | some y => .ok (y, r)
  | Option.none => .error .unsupported

/-- `E` is `D` with the other visitor. -/
def Sim {α β} (f : α → Option β) (D : Dec α) (E : Dec β) : Prop :=
  ∀ s x r, D s = .ok (x, r) → E s = outcome (f x) r

theorem Sim.bind_pure {α β γ δ} {f : α → Option β} {D : Dec α} {E : Dec β} (h : Sim f D E)
    (g : α → γ) (g' : β → δ) {f' : γ → Option δ} (hf : ∀ a, f' (g a) = (f a).map g') :
    Sim f' (D >>= fun a => pure (g a)) (E >>= fun b => pure (g' b)) := by
  intro s x r hx
  obtain ⟨a, r1, h1, h2⟩ := Dec.bind_eq_ok.mp hx
  cases h2
  have := h s a _ h1
  cases hfa : f a with
  | none =>
    rw [hfa] at this
    rw [Dec.bind_error this, hf, hfa]; rfl
  | some b =>
    rw [hfa] at this
    rw [Dec.bind_ok this, hf, hfa]; rfl

theorem Sim.pair {α β} {f : α → Option β} {D : Dec α} {E : Dec β} (h : Sim f D E) :
    Sim (fun p : α × α => (f p.1).bind fun a => (f p.2).map (a, ·))
      (D >>= fun a => D >>= fun b => pure (a, b)) (E >>= fun a => E >>= fun b => pure (a, b)) := by
  intro s x r hx
  obtain ⟨a, r1, h1, h2⟩ := Dec.bind_eq_ok.mp hx
  obtain ⟨b, r2, h3, h4⟩ := Dec.bind_eq_ok.mp h2
  cases h4
  have e1 := h s a _ h1
  have e2 := h r1 b _ h3
  cases hfa : f a with
  | none =>
    rw [hfa] at e1
    rw [Dec.bind_error e1]; simp [hfa, outcome]
  | some a' =>
    rw [hfa] at e1
    rw [Dec.bind_ok e1]
    cases hfb : f b with
    | none =>
      rw [hfb] at e2
      rw [Dec.bind_error e2]; simp [hfa, hfb, outcome]
    | some b' =>
      rw [hfb] at e2
      rw [Dec.bind_ok e2]; simp [hfa, hfb, outcome]; rfl

theorem Sim.decN {α β} {f : α → Option β} {g : List α → Option (List β)} (h0 : g [] = some [])
    (h1 : ∀ a l, g (a :: l) = (f a).bind fun b => (g l).map (b :: ·))
    {D : Dec α} {E : Dec β} (h : Sim f D E) : ∀ n, Sim g (Musli.decN D n) (Musli.decN E n)
  | 0 => by
    intro s x r hx
    cases hx
    rw [h0]; rfl
  | n + 1 => by
    intro s x r hx
    obtain ⟨a, r1, h2, h3⟩ := Dec.bind_eq_ok.mp hx
    obtain ⟨l, r2, h4, h5⟩ := Dec.bind_eq_ok.mp h3
    cases h5
    have e1 := h s a _ h2
    have e2 := Sim.decN h0 h1 h n r1 l _ h4
    show (E >>= fun a => Musli.decN E n >>= fun l => pure (a :: l)) s = _
    cases hfa : f a with
    | none =>
      rw [hfa] at e1
      rw [Dec.bind_error e1]; simp [h1, hfa, outcome]
    | some a' =>
      rw [hfa] at e1
      rw [Dec.bind_ok e1]
      cases hfb : g l with
      | none =>
        rw [hfb] at e2
        rw [Dec.bind_error e2]; simp [h1, hfa, hfb, outcome]
      | some b' =>
        rw [hfb] at e2
        rw [Dec.bind_ok e2]; simp [h1, hfa, hfb, outcome]; rfl

theorem Sim.same {α β γ} (D : Dec α) (g : α → β) (g' : α → γ) {f : β → Option γ}
    (hf : ∀ a, f (g a) = some (g' a)) :
    Sim f (D >>= fun a => pure (g a)) (D >>= fun a => pure (g' a)) := by
  intro s x r hx
  obtain ⟨a, r1, h1, h2⟩ := Dec.bind_eq_ok.mp hx
  cases h2
  rw [Dec.bind_ok h1, hf]; rfl

theorem Sim.prefix {α β γ} {D : Dec α} {f : β → Option γ} {E : α → Dec β} {E' : α → Dec γ}
    (h : ∀ a, Sim f (E a) (E' a)) : Sim f (D >>= E) (D >>= E') := by
  intro s x r hx
  obtain ⟨a, r1, h1, h2⟩ := Dec.bind_eq_ok.mp hx
  rw [Dec.bind_ok h1]
  exact h a r1 x r h2

theorem Sim.ite {α β} {f : α → Option β} {c : Prop} [Decidable c] {D D' : Dec α} {E E' : Dec β}
    (h : Sim f D E) (h' : Sim f D' E') : Sim f (if c then D else D') (if c then E else E') := by
  split <;> assumption

theorem Sim.fail {α β} {f : α → Option β} {e : Err} {E : Dec β} : Sim f (Dec.fail e) E := by
  intro s x r hx; cases hx

namespace Desc
open Musli.Desc

theorem sim_number (d : Byte) : Sim seenOf (anyNumber d) (anyNum d) := by
  unfold anyNumber anyNum
  repeat' (first | apply Sim.ite | exact Sim.fail | exact Sim.same _ _ _ fun _ => rfl)

variable [Host] (o : Options)

/-- `deserialize_any` is `Decode for Value` with the other visitor. -/
theorem sim_any : ∀ fuel, Sim seenOf (anyV o fuel) (any o fuel)
  | 0 => Sim.fail
  | fuel + 1 => by
    have ih := sim_any fuel
    unfold anyV any
    apply Sim.prefix
    intro p
    cases p with
    | none => exact Sim.fail
    | some t =>
      dsimp only
      apply Sim.ite
      · cases data t with
        | none => exact Sim.fail
        | some d => exact sim_number d
      apply Sim.ite
      · apply Sim.prefix; intro n
        exact (ih.decN (g := seenList) rfl (fun a l => by rw [seenList]) n).bind_pure Value.seq Seen.seq
          fun a => by rw [seenOf]
      apply Sim.ite
      · apply Sim.prefix; intro n
        exact (ih.pair.decN (g := seenPairs) rfl (fun a l => by rw [seenPairs, seenPair]) n).bind_pure
          Value.map Seen.map fun a => by rw [seenOf]
      apply Sim.ite
      · exact Sim.same _ _ _ fun _ => rfl
      apply Sim.ite
      · apply Sim.prefix; intro b
        exact Sim.same _ _ _ fun _ => rfl
      apply Sim.ite
      · apply Sim.ite
        · exact Sim.same _ _ _ fun _ => rfl
        apply Sim.ite
        · apply Sim.prefix; intro _ s x r hx
          obtain ⟨a, r1, h1, h2⟩ := Dec.bind_eq_ok.mp hx
          obtain ⟨b, r2, h3, h4⟩ := Dec.bind_eq_ok.mp h2
          cases h4
          rfl
        apply Sim.ite
        · apply Sim.prefix; intro b
          apply Sim.ite
          · exact ih.bind_pure Value.some Seen.some fun a => by rw [seenOf]
          · intro s x r hx; cases hx; rfl
        apply Sim.ite
        · exact Sim.same _ _ _ fun _ => rfl
        apply Sim.ite
        · apply Sim.prefix; intro _ s x r hx; cases hx; rfl
        · exact Sim.fail
      · exact Sim.fail

end Desc

/-! ## It is the content -/

theorem visitU128_plain (v : BitVec 128) : (visitU128 v).plain = .int v.toNat := by
  unfold visitU128
  split
  · rename_i h
    show Plain.int ((v.setWidth 64).toNat : Int) = _
    rw [BitVec.toNat_setWidth, Nat.mod_eq_of_lt h]
  · rfl

theorem visitI128_plain (v : BitVec 128) : (visitI128 v).plain = .int v.toInt := by
  unfold visitI128
  split
  · rename_i h
    show Plain.int ((v.setWidth 64).toInt) = _
    congr 1
    rw [BitVec.toInt_setWidth]
    have e := BitVec.toInt_eq_toNat_bmod v
    rw [Int.bmod_eq_emod] at *
    have := v.isLt
    split at e <;> split <;> omega
  · rfl

/-- The outcome of `seenOf` for some data. -/
def Shows (d : SData) : Prop :=
  (d.noVariant = true → ∃ s, seenOf d.content.fixedWidth = some s ∧ s.plain = d.plain) ∧
    (d.noVariant = false → seenOf d.content.fixedWidth = Option.none)

theorem shows_leaf {d : SData} {s : Seen} (hn : d.noVariant = true)
    (h : seenOf d.content.fixedWidth = some s) (hp : s.plain = d.plain) : Shows d :=
  ⟨fun _ => ⟨s, h, hp⟩, fun h => by rw [hn] at h; cases h⟩

theorem shows_variant {d : SData} (hn : d.noVariant = false)
    (h : seenOf d.content.fixedWidth = Option.none) : Shows d :=
  ⟨fun h => (by rw [hn] at h; cases h), fun _ => h⟩

@[inherit_doc Shows]
def ShowsList (l : List SData) : Prop :=
  (SData.noVariants l = true →
      ∃ s, seenList (fixedWidths (contents l)) = some s ∧ Seen.plains s = SData.plains l) ∧
    (SData.noVariants l = false → seenList (fixedWidths (contents l)) = Option.none)

@[inherit_doc Shows]
def ShowsPairs (l : List (SData × SData)) : Prop :=
  (SData.noVariantPairs l = true →
      ∃ s, seenPairs (fixedPairs (contentPairs l)) = some s ∧ Seen.plainPairs s = SData.plainPairs l) ∧
    (SData.noVariantPairs l = false → seenPairs (fixedPairs (contentPairs l)) = Option.none)

@[inherit_doc Shows]
def ShowsMembers (l : List (Str × SData)) : Prop :=
  (SData.noVariantFields l = true →
      ∃ s, seenPairs (fixedPairs (contentMembers l)) = some s ∧
        Seen.plainPairs s = SData.plainFields l) ∧
    (SData.noVariantFields l = false → seenPairs (fixedPairs (contentMembers l)) = Option.none)

theorem shows_seq {l : List SData} (h : ShowsList l) :
    (SData.noVariants l = true →
      ∃ s, seenOf (Value.seq (contents l)).fixedWidth = some s ∧ s.plain = .seq (SData.plains l)) ∧
    (SData.noVariants l = false → seenOf (Value.seq (contents l)).fixedWidth = Option.none) := by
  rw [Value.fixedWidth, seenOf]
  refine ⟨fun hn => ?_, fun hn => ?_⟩
  · obtain ⟨s, h1, h2⟩ := h.1 hn
    exact ⟨.seq s, by rw [h1]; rfl, by rw [Seen.plain, h2]⟩
  · rw [h.2 hn]; rfl

mutual

/-- A visitor which is told everything is told the content. -/
theorem shows : ∀ d : SData, Shows d
  | .bool _ => shows_leaf rfl rfl rfl
  | .char _ => shows_leaf rfl rfl rfl
  | .uint .w8 _ => shows_leaf rfl rfl rfl
  | .uint .w16 _ => shows_leaf rfl rfl rfl
  | .uint .w32 _ => shows_leaf rfl rfl rfl
  | .uint .w64 _ => shows_leaf rfl rfl rfl
  | .uint .w128 v => shows_leaf rfl rfl (visitU128_plain v)
  | .sint .w8 _ => shows_leaf rfl rfl rfl
  | .sint .w16 _ => shows_leaf rfl rfl rfl
  | .sint .w32 _ => shows_leaf rfl rfl rfl
  | .sint .w64 _ => shows_leaf rfl rfl rfl
  | .sint .w128 v => shows_leaf rfl rfl (visitI128_plain v)
  | .f32 _ => shows_leaf rfl rfl rfl
  | .f64 _ => shows_leaf rfl rfl rfl
  | .str _ => shows_leaf rfl rfl rfl
  | .bytes _ => shows_leaf rfl rfl rfl
  | .none => shows_leaf rfl rfl rfl
  | .unit => shows_leaf rfl rfl rfl
  | .unitStruct => shows_leaf rfl rfl rfl
  | .some d => by
    have ih := shows d
    refine ⟨fun hn => ?_, fun hn => ?_⟩
    · rw [SData.noVariant] at hn
      obtain ⟨s, h1, h2⟩ := ih.1 hn
      exact ⟨.some s, by rw [SData.content, Value.fixedWidth, seenOf, h1]; rfl,
        by rw [Seen.plain, h2, SData.plain]⟩
    · rw [SData.noVariant] at hn
      rw [SData.content, Value.fixedWidth, seenOf, ih.2 hn]; rfl
  | .unitVariant _ => shows_variant rfl rfl
  | .newtypeStruct d => by
    have ih := shows d
    unfold Shows
    rw [SData.noVariant, SData.content, SData.plain]
    exact ih
  | .newtypeVariant _ d => shows_variant (by rw [SData.noVariant])
      (by rw [SData.content, Value.fixedWidth, seenOf])
  | .seq _ l => by
    have ih := shows_seq (showsList l)
    unfold Shows
    rw [SData.noVariant, SData.content, SData.plain]
    exact ih
  | .tuple l => by
    have ih := shows_seq (showsList l)
    unfold Shows
    rw [SData.noVariant, SData.content, SData.plain]
    exact ih
  | .tupleStruct l => by
    have ih := shows_seq (showsList l)
    unfold Shows
    rw [SData.noVariant, SData.content, SData.plain]
    exact ih
  | .tupleVariant _ l => shows_variant (by rw [SData.noVariant])
      (by rw [SData.content, Value.fixedWidth, seenOf])
  | .map _ l => by
    have ih := showsPairs l
    unfold Shows
    rw [SData.noVariant, SData.content, SData.plain, Value.fixedWidth, seenOf]
    refine ⟨fun hn => ?_, fun hn => ?_⟩
    · obtain ⟨s, h1, h2⟩ := ih.1 hn
      exact ⟨.map s, by rw [h1]; rfl, by rw [Seen.plain, h2]⟩
    · rw [ih.2 hn]; rfl
  | .struct l => by
    have ih := showsMembers l
    unfold Shows
    rw [SData.noVariant, SData.content, SData.plain, Value.fixedWidth, seenOf]
    refine ⟨fun hn => ?_, fun hn => ?_⟩
    · obtain ⟨s, h1, h2⟩ := ih.1 hn
      exact ⟨.map s, by rw [h1]; rfl, by rw [Seen.plain, h2]⟩
    · rw [ih.2 hn]; rfl
  | .structVariant _ l => shows_variant (by rw [SData.noVariant])
      (by rw [SData.content, Value.fixedWidth, seenOf])

@[inherit_doc shows]
theorem showsList : ∀ l : List SData, ShowsList l
  | [] => ⟨fun _ => ⟨[], rfl, rfl⟩, fun h => by rw [SData.noVariants] at h; cases h⟩
  | d :: l => by
    have ih := shows d
    have ih' := showsList l
    unfold ShowsList
    rw [SData.noVariants, SData.plains, contents, fixedWidths, seenList]
    refine ⟨fun hn => ?_, fun hn => ?_⟩
    · rw [Bool.and_eq_true] at hn
      obtain ⟨s, h1, h2⟩ := ih.1 hn.1
      obtain ⟨t, h3, h4⟩ := ih'.1 hn.2
      exact ⟨s :: t, by rw [h1, h3]; rfl, by rw [Seen.plains, h2, h4]⟩
    · cases hd : d.noVariant with
      | false => rw [ih.2 hd]; rfl
      | true =>
        rw [hd, Bool.true_and] at hn
        rw [ih'.2 hn]
        obtain ⟨s, h1, _⟩ := ih.1 hd
        rw [h1]; rfl

@[inherit_doc shows]
theorem showsPairs : ∀ l : List (SData × SData), ShowsPairs l
  | [] => ⟨fun _ => ⟨[], rfl, rfl⟩, fun h => by rw [SData.noVariantPairs] at h; cases h⟩
  | p :: l => by
    have ih := showsPair p
    have ih' := showsPairs l
    unfold ShowsPairs
    rw [SData.noVariantPairs, SData.plainPairs, contentPairs, fixedPairs, seenPairs]
    refine ⟨fun hn => ?_, fun hn => ?_⟩
    · rw [Bool.and_eq_true] at hn
      obtain ⟨s, h1, h2⟩ := ih.1 hn.1
      obtain ⟨t, h3, h4⟩ := ih'.1 hn.2
      exact ⟨s :: t, by rw [h1, h3]; rfl, by rw [Seen.plainPairs, h2, h4]⟩
    · cases hd : SData.noVariantPair p with
      | false => rw [ih.2 hd]; rfl
      | true =>
        rw [hd, Bool.true_and] at hn
        rw [ih'.2 hn]
        obtain ⟨s, h1, _⟩ := ih.1 hd
        rw [h1]; rfl

@[inherit_doc shows]
theorem showsPair : ∀ p : SData × SData,
    (SData.noVariantPair p = true →
      ∃ s, seenPair (fixedPair (contentPair p)) = some s ∧ Seen.plainPair s = SData.plainPair p) ∧
    (SData.noVariantPair p = false → seenPair (fixedPair (contentPair p)) = Option.none)
  | (k, d) => by
    have ih := shows k
    have ih' := shows d
    rw [SData.noVariantPair, SData.plainPair, contentPair, fixedPair, seenPair]
    refine ⟨fun hn => ?_, fun hn => ?_⟩
    · rw [Bool.and_eq_true] at hn
      obtain ⟨s, h1, h2⟩ := ih.1 hn.1
      obtain ⟨t, h3, h4⟩ := ih'.1 hn.2
      exact ⟨(s, t), by rw [h1, h3]; rfl, by rw [Seen.plainPair, h2, h4]⟩
    · cases hd : k.noVariant with
      | false => rw [ih.2 hd]; rfl
      | true =>
        rw [hd, Bool.true_and] at hn
        rw [ih'.2 hn]
        obtain ⟨s, h1, _⟩ := ih.1 hd
        rw [h1]; rfl

@[inherit_doc shows]
theorem showsMembers : ∀ l : List (Str × SData), ShowsMembers l
  | [] => ⟨fun _ => ⟨[], rfl, rfl⟩, fun h => by rw [SData.noVariantFields] at h; cases h⟩
  | p :: l => by
    have ih := showsMember p
    have ih' := showsMembers l
    unfold ShowsMembers
    rw [SData.noVariantFields, SData.plainFields, contentMembers, fixedPairs, seenPairs]
    refine ⟨fun hn => ?_, fun hn => ?_⟩
    · rw [Bool.and_eq_true] at hn
      obtain ⟨s, h1, h2⟩ := ih.1 hn.1
      obtain ⟨t, h3, h4⟩ := ih'.1 hn.2
      exact ⟨s :: t, by rw [h1, h3]; rfl, by rw [Seen.plainPairs, h2, h4]⟩
    · cases hd : SData.noVariantField p with
      | false => rw [ih.2 hd]; rfl
      | true =>
        rw [hd, Bool.true_and] at hn
        rw [ih'.2 hn]
        obtain ⟨s, h1, _⟩ := ih.1 hd
        rw [h1]; rfl

@[inherit_doc shows]
theorem showsMember : ∀ p : Str × SData,
    (SData.noVariantField p = true →
      ∃ s, seenPair (fixedPair (contentMember p)) = some s ∧ Seen.plainPair s = SData.plainField p) ∧
    (SData.noVariantField p = false → seenPair (fixedPair (contentMember p)) = Option.none)
  | (n, d) => by
    have ih := shows d
    rw [SData.noVariantField, SData.plainField, contentMember, fixedPair, seenPair,
      Value.fixedWidth, seenOf]
    refine ⟨fun hn => ?_, fun hn => ?_⟩
    · obtain ⟨s, h1, h2⟩ := ih.1 hn
      exact ⟨(.str n, s), by rw [h1]; rfl, by rw [Seen.plainPair, h2, Seen.plain]⟩
    · rw [ih.2 hn]; rfl

end

end Musli.Serde
