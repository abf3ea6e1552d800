import Verif.Model.Machine
import Verif.Spec.Machine
import Verif.Proofs.RoundTrip
/-!
# What one machine can write another one can write
-/
set_option linter.unusedSectionVars false
namespace Musli.Machine

/-- If `a` succeeds so does `b`, with the same bytes if `q`. -/
def Sim (q : Prop) (a b : Enc) : Prop := ∀ x, a = .ok x → ∃ y, b = .ok y ∧ (q → x = y)

theorem Sim.of {q : Prop} {a b : Enc} (h : ∀ x, a = .ok x → b = .ok x) : Sim q a b := fun x hx => ⟨x, h x hx, fun _ => rfl⟩

theorem Sim.refl {q : Prop} (a : Enc) : Sim q a a := Sim.of fun _ h => h

theorem Sim.seq {q : Prop} {a b c d : Enc} (h : Sim q a b) (k : Sim q c d) : Sim q (a +> c) (b +> d) := by
  intro x hx
  obtain ⟨y, z, hy, hz, rfl⟩ := Enc.seq_eq_ok.mp hx
  obtain ⟨y', hy', ey⟩ := h y hy
  obtain ⟨z', hz', ez⟩ := k z hz
  exact ⟨y' ++ z', Enc.seq_eq_ok.mpr ⟨y', z', hy', hz', rfl⟩, fun hq => by rw [ey hq, ez hq]⟩

theorem Sim.all {q : Prop} {α} {f g : α → Enc} (h : ∀ a, Sim q (f a) (g a)) (l : List α) :
    Sim q (Enc.all f l) (Enc.all g l) := by
  induction l with
  | nil => exact Sim.refl _
  | cons a l ih => exact Sim.seq (h a) ih

/-- What the numbers of two writers owe each other. -/
structure JointN (iz : Bool) (q : Prop) (E J : Nums) : Prop where
  bits : E.bits ≤ J.bits
  len : ∀ n bs, E.encLen n = .ok bs → J.encLen n = .ok bs
  prim : ∀ p v, (p = .isize → iz = true) → Sim q (E.encPrim p v) (J.encPrim p v)

/-- What the methods of two writers owe each other. -/
structure Joint (iz : Bool) (q : Prop) (E J : Fmt) : Prop where
  prim : ∀ p v, (p = .isize → iz = true) → Sim q (E.encPrim p v) (J.encPrim p v)
  unit : Sim q E.encUnit J.encUnit
  bytes : ∀ b, Sim q (E.encBytes b) (J.encBytes b)
  arr : ∀ b, Sim q (E.encArr b) (J.encArr b)
  str : ∀ b, Sim q (E.encStr b) (J.encStr b)
  none : Sim q E.encNone J.encNone
  some : Sim q E.encSome J.encSome
  seq : ∀ n, Sim q (E.encSeq n) (J.encSeq n)
  map : ∀ n, Sim q (E.encMap n) (J.encMap n)
  variant : Sim q E.encVariant J.encVariant
  pack : ∀ b, Sim q (E.encPack b) (J.encPack b)

section
variable {iz : Bool} {q : Prop} {E J : Nums} (h : JointN iz q E J)
include h

theorem sBytes_joint (b : Bytes) : Sim q (sEncBytes E b) (sEncBytes J b) :=
  Sim.seq (Sim.of (h.len _)) (Sim.refl _)

theorem storage_joint (n1 n2 pack : Bool) : Joint iz q (storage n1 pack E) (storage n2 pack J) where
  prim := h.prim
  unit := Sim.of (h.len 0)
  bytes := sBytes_joint h
  arr := fun _ => Sim.refl _
  str := sBytes_joint h
  none := Sim.refl _
  some := Sim.refl _
  seq := fun n => Sim.of (h.len n)
  map := fun n => Sim.of (h.len n)
  variant := Sim.refl _
  pack := fun _ => Sim.refl _

theorem wTagLen_joint (k : Byte) (n : Nat) : Sim q (wEncTagLen E k n) (wEncTagLen J k n) := by
  unfold wEncTagLen
  split
  · exact Sim.refl _
  · exact Sim.seq (Sim.refl _) (Sim.of (h.len n))

theorem wBytes_joint (b : Bytes) : Sim q (wEncBytes E b) (wEncBytes J b) :=
  Sim.seq (wTagLen_joint h _ _) (Sim.refl _)

theorem wire_joint : Joint iz q (wire E) (wire J) where
  prim := h.prim
  unit := Sim.refl _
  bytes := wBytes_joint h
  arr := wBytes_joint h
  str := wBytes_joint h
  none := Sim.refl _
  some := Sim.refl _
  seq := wTagLen_joint h _
  map := by
    intro n
    show Sim q (wEncMapLen E n) (wEncMapLen J n)
    unfold wEncMapLen
    have := Nat.pow_le_pow_right (n := 2) (by decide) h.bits
    split
    · rw [if_pos (by omega)]
      exact wTagLen_joint h _ _
    · intro x hx; cases hx
  variant := Sim.refl _
  pack := wBytes_joint h

theorem dTagLen_joint (k : Byte) (n : Nat) : Sim q (dEncTagLen E k n) (dEncTagLen J k n) := by
  unfold dEncTagLen
  split
  · exact Sim.refl _
  · exact Sim.seq (Sim.refl _) (Sim.of (h.len n))

theorem dBytes_joint (k : Byte) (b : Bytes) : Sim q (dEncBytes E k b) (dEncBytes J k b) :=
  Sim.seq (dTagLen_joint h _ _) (Sim.refl _)

theorem desc_joint : Joint iz q (desc E) (desc J) where
  prim := h.prim
  unit := Sim.refl _
  bytes := dBytes_joint h _
  arr := dBytes_joint h _
  str := dBytes_joint h _
  none := Sim.refl _
  some := Sim.refl _
  seq := dTagLen_joint h _
  map := dTagLen_joint h _
  variant := Sim.refl _
  pack := dBytes_joint h _

end

theorem ofNums_joint {iz n1 n2 : Bool} {q : Mode → Prop} {E J : Mode → Nums} (h : ∀ m, JointN iz (q m) (E m) (J m))
    (m : Mode) : Joint iz (q m) (ofNums n1 E m) (ofNums n2 J m) := by
  cases m
  · exact storage_joint (h .storage) n1 n2 false
  · exact storage_joint (h .packed) n1 n2 true
  · exact wire_joint (h .wire)
  · exact desc_joint (h .descriptive)

section
variable {iz : Bool} {q : Mode → Prop} {E J : Mode → Fmt} (env : Env)
  (hJ : ∀ m, Joint iz (q m) (E m) (J m)) (hq : q .packed)

theorem name_joint {iz : Bool} {q : Prop} {E J : Fmt} (h : Joint iz q E J) (n : Name) :
    Sim q (encName E n) (encName J n) := by
  cases n with
  | idx n => exact h.prim .usize n (fun h => nomatch h)
  | str s => exact h.str s.bytes

include hJ hq

mutual

theorem encG_joint : ∀ (t : Ty) (m : Mode) (v : t.Val), t.isizeOk iz = true →
    Sim (q m) (encG E env t m v) (encG J env t m v)
  | .prim p, m, v, hi => by
    simp only [encG]
    exact (hJ m).prim p v (by rintro rfl; simpa [Ty.isizeOk] using hi)
  | .nonZero s w, m, v, _ => by
    simp only [encG]
    exact (hJ m).prim _ _ (by cases s <;> intro h <;> cases h)
  | .unit, m, v, _ => by simp only [encG]; exact (hJ m).unit
  | .bytes, m, v, _ => by simp only [encG]; exact (hJ m).bytes v
  | .string, m, v, _ => by simp only [encG]; exact (hJ m).str v.bytes
  | .byteArray _, m, v, _ => by simp only [encG]; exact (hJ m).arr v.1
  | .option t, m, v, hi => by
    simp only [Ty.isizeOk] at hi
    cases v with
    | none => simp only [encG]; exact (hJ m).none
    | some x => simp only [encG]; exact Sim.seq (hJ m).some (encG_joint t m x hi)
  | .array _ t, m, v, hi => by
    simp only [Ty.isizeOk] at hi
    simp only [encG]
    exact Sim.seq ((hJ m).seq _) (Sim.all (fun x => encG_joint t m x hi) _)
  | .vec t, m, v, hi => by
    simp only [Ty.isizeOk] at hi
    simp only [encG]
    exact Sim.seq ((hJ m).seq _) (Sim.all (fun x => encG_joint t m x hi) _)
  | .set t, m, v, hi => by
    simp only [Ty.isizeOk] at hi
    simp only [encG]
    exact Sim.seq ((hJ m).seq _) (Sim.all (fun x => encG_joint t m x hi) _)
  | .map k t, m, v, hi => by
    simp only [Ty.isizeOk, Bool.and_eq_true] at hi
    simp only [encG]
    exact Sim.seq ((hJ m).map _)
      (Sim.all (fun x : k.Val × t.Val => Sim.seq (encG_joint k m x.1 hi.1) (encG_joint t m x.2 hi.2)) _)
  | .tuple ts, m, v, hi => by
    simp only [Ty.isizeOk] at hi
    simp only [encG]
    exact Sim.seq ((hJ m).seq _) (encTysG_joint ts m v hi)
  | .result nt t u, m, v, hi => by
    simp only [Ty.isizeOk, Bool.and_eq_true] at hi
    cases v with
    | inl x =>
      simp only [encG]
      exact Sim.seq (hJ m).variant (Sim.seq (name_joint (hJ m) _) (encG_joint t m x hi.1))
    | inr x =>
      simp only [encG]
      exact Sim.seq (hJ m).variant (Sim.seq (name_joint (hJ m) _) (encG_joint u m x hi.2))
  | .boxed t, m, v, hi => by
    simp only [Ty.isizeOk] at hi; simp only [encG]; exact encG_joint t m v hi
  | .wrapping t, m, v, hi => by
    simp only [Ty.isizeOk] at hi; simp only [encG]; exact encG_joint t m v hi
  | .transparent t, m, v, hi => by
    simp only [Ty.isizeOk] at hi; simp only [encG]; exact encG_joint t m v hi
  | .unitStruct, m, v, _ => by simp only [encG]; exact (hJ m).map 0
  | .strct _ fs, m, v, hi => by
    simp only [Ty.isizeOk] at hi
    simp only [encG]
    exact Sim.seq ((hJ m).map _) (encFieldsG_joint fs m v hi)
  | .packed lay fs, m, v, hi => by
    simp only [Ty.isizeOk] at hi
    simp only [encG]
    intro x hx
    split at hx
    · cases hx
    · rename_i b hb
      obtain ⟨b', hb', e⟩ := encPackFieldsG_joint fs .packed v hi b hb
      obtain rfl := e hq
      rw [hb']
      exact (hJ m).pack b x hx
  | .unitEnum _ names, m, v, _ => by simp only [encG]; exact name_joint (hJ m) _
  | .enm _ vs, m, v, hi => by
    simp only [Ty.isizeOk] at hi
    simp only [encG]
    exact Sim.seq (hJ m).variant (encVariantsG_joint vs m v hi)

theorem encTysG_joint : ∀ (ts : Tys) (m : Mode) (v : ts.Val), ts.isizeOk iz = true →
    Sim (q m) (encTysG E env ts m v) (encTysG J env ts m v)
  | .nil, m, v, _ => by simp only [encTysG]; exact Sim.refl _
  | .cons t ts, m, v, hi => by
    simp only [Tys.isizeOk, Bool.and_eq_true] at hi
    simp only [encTysG]
    exact Sim.seq (encG_joint t m v.1 hi.1) (encTysG_joint ts m v.2 hi.2)

theorem encFieldsG_joint : ∀ (fs : Fields) (m : Mode) (v : fs.Val), fs.isizeOk iz = true →
    Sim (q m) (encFieldsG E env fs m v) (encFieldsG J env fs m v)
  | .nil, m, v, _ => by simp only [encFieldsG]; exact Sim.refl _
  | .cons n _ skip t fs, m, v, hi => by
    simp only [Fields.isizeOk, Bool.and_eq_true] at hi
    simp only [encFieldsG]
    refine Sim.seq ?_ (encFieldsG_joint fs m v.2 hi.2)
    split
    · exact Sim.seq (name_joint (hJ m) _) (encG_joint t m v.1 hi.1)
    · exact Sim.refl _

theorem encPackFieldsG_joint : ∀ (fs : Fields) (m : Mode) (v : fs.Val), fs.isizeOk iz = true →
    Sim (q m) (encPackFieldsG E env fs m v) (encPackFieldsG J env fs m v)
  | .nil, m, v, _ => by simp only [encPackFieldsG]; exact Sim.refl _
  | .cons n _ skip t fs, m, v, hi => by
    simp only [Fields.isizeOk, Bool.and_eq_true] at hi
    simp only [encPackFieldsG]
    refine Sim.seq ?_ (encPackFieldsG_joint fs m v.2 hi.2)
    split
    · exact encG_joint t m v.1 hi.1
    · exact Sim.refl _

theorem encBodyFieldsG_joint : ∀ (t : Ty) (m : Mode) (v : t.Val), t.isizeOk iz = true →
    Sim (q m) (encBodyFieldsG E env t m v) (encBodyFieldsG J env t m v)
  | .strct _ fs, m, v, hi => by
    simp only [Ty.isizeOk] at hi
    simp only [encBodyFieldsG]
    exact encFieldsG_joint fs m v hi
  | .prim _, m, v, _ => by simp only [encBodyFieldsG]; exact Sim.refl _
  | .nonZero _ _, m, v, _ => by simp only [encBodyFieldsG]; exact Sim.refl _
  | .unit, m, v, _ => by simp only [encBodyFieldsG]; exact Sim.refl _
  | .bytes, m, v, _ => by simp only [encBodyFieldsG]; exact Sim.refl _
  | .string, m, v, _ => by simp only [encBodyFieldsG]; exact Sim.refl _
  | .byteArray _, m, v, _ => by simp only [encBodyFieldsG]; exact Sim.refl _
  | .option _, m, v, _ => by simp only [encBodyFieldsG]; exact Sim.refl _
  | .array _ _, m, v, _ => by simp only [encBodyFieldsG]; exact Sim.refl _
  | .vec _, m, v, _ => by simp only [encBodyFieldsG]; exact Sim.refl _
  | .set _, m, v, _ => by simp only [encBodyFieldsG]; exact Sim.refl _
  | .map _ _, m, v, _ => by simp only [encBodyFieldsG]; exact Sim.refl _
  | .tuple _, m, v, _ => by simp only [encBodyFieldsG]; exact Sim.refl _
  | .result _ _ _, m, v, _ => by simp only [encBodyFieldsG]; exact Sim.refl _
  | .boxed _, m, v, _ => by simp only [encBodyFieldsG]; exact Sim.refl _
  | .wrapping _, m, v, _ => by simp only [encBodyFieldsG]; exact Sim.refl _
  | .transparent _, m, v, _ => by simp only [encBodyFieldsG]; exact Sim.refl _
  | .unitStruct, m, v, _ => by simp only [encBodyFieldsG]; exact Sim.refl _
  | .packed _ _, m, v, _ => by simp only [encBodyFieldsG]; exact Sim.refl _
  | .unitEnum _ _, m, v, _ => by simp only [encBodyFieldsG]; exact Sim.refl _
  | .enm _ _, m, v, _ => by simp only [encBodyFieldsG]; exact Sim.refl _

theorem encVariantsG_joint : ∀ (vs : Variants) (m : Mode) (v : vs.Val), vs.isizeOk iz = true →
    Sim (q m) (encVariantsG E env vs m v) (encVariantsG J env vs m v)
  | .nil, m, v, _ => nomatch v
  | .cons n t vs, m, v, hi => by
    simp only [Variants.isizeOk, Bool.and_eq_true] at hi
    cases v with
    | inl x =>
      simp only [encVariantsG]
      refine Sim.seq (name_joint (hJ m) _) ?_
      split
      · exact Sim.seq ((hJ m).map _) (encBodyFieldsG_joint t m x hi.1)
      · exact encG_joint t m x hi.1
    | inr x =>
      simp only [encVariantsG]
      exact encVariantsG_joint vs m x hi.2

end

end
end Musli.Machine
