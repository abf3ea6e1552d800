import Verif.Proofs.Value.Any
import Verif.Proofs.Value.Read
/-!
# Widths of numbers do not matter for decoding; a `Value` as a `Value`
-/
set_option linter.unusedSectionVars false
namespace Musli

theorem fromNumber_fixed (k : IntKind) (n : Number) : fromNumber k n.fixedWidth = fromNumber k n := by
  cases n <;> rfl

section
variable [Host] (o : Options) (env : Env)

theorem readInt_fixed (key : Bool) (k : IntKind) (x : Value) :
    readInt o key k x.fixedWidth = readInt o key k x := by
  cases x <;> rw [Value.fixedWidth] <;> simp only [readInt, fromNumber_fixed]

theorem readPrim_fixed (key : Bool) (p : Prim) (x : Value) :
    readPrim o key p x.fixedWidth = readPrim o key p x := by
  cases p <;> simp only [readPrim, readInt_fixed]
  · cases x <;> rw [Value.fixedWidth] <;> rfl
  · cases x <;> rw [Value.fixedWidth] <;> rfl
  · cases x <;> rw [Value.fixedWidth]
    rename_i n; cases n <;> rfl
    all_goals rfl
  · cases x <;> rw [Value.fixedWidth]
    rename_i n; cases n <;> rfl
    all_goals rfl

theorem readStr_fixed (x : Value) : readStr x.fixedWidth = readStr x := by
  cases x <;> rw [Value.fixedWidth] <;> rfl

theorem readBytesV_fixed (x : Value) : readBytesV x.fixedWidth = readBytesV x := by
  cases x <;> rw [Value.fixedWidth] <;> rfl

theorem readUnit_fixed (x : Value) : readUnit x.fixedWidth = readUnit x := by
  cases x <;> rw [Value.fixedWidth] <;> rfl

theorem readName_fixed (key : Bool) (nt : NameTy) (x : Value) :
    readName o key nt x.fixedWidth = readName o key nt x := by
  cases nt
  · simp only [readName, readPrim_fixed]
  · simp only [readName, readStr_fixed]

theorem readAll_fixed {α : Type} (d : Value → Except Err α) (h : ∀ x, d x.fixedWidth = d x) :
    ∀ l, readAll d (fixedWidths l) = readAll d l
  | [] => by rw [fixedWidths]
  | x :: l => by rw [fixedWidths, readAll, readAll, h, readAll_fixed d h l]

theorem readPairs_fixed {α β : Type} (f : Value → Except Err α) (g : Value → Except Err β)
    (hf : ∀ x, f x.fixedWidth = f x) (hg : ∀ x, g x.fixedWidth = g x) :
    ∀ l, readPairs f g (fixedPairs l) = readPairs f g l
  | [] => by rw [fixedPairs]
  | (k, v) :: l => by
    rw [fixedPairs, readPairs, readPairs, fixedPair, hf, hg, readPairs_fixed f g hf hg l]

theorem foldPairs_fixed {σ : Type} (body : σ → Value × Value → Except Err σ)
    (h : ∀ s k v, body s (k.fixedWidth, v.fixedWidth) = body s (k, v)) :
    ∀ l s, foldPairs body (fixedPairs l) s = foldPairs body l s
  | [], s => by rw [fixedPairs]
  | (k, v) :: l, s => by
    rw [fixedPairs, foldPairs, foldPairs, fixedPair, h]
    cases body s (k, v) with
    | error e => rfl
    | ok s' => exact foldPairs_fixed body h l s'

mutual

/-- Whether a number is a `usize` or has 64 bits makes no difference to decoding. -/
theorem decV_fixed : ∀ (t : Ty) (key : Bool) (x : Value),
    decV o env t key x.fixedWidth = decV o env t key x
  | .prim p, key, x => by rw [decV, readPrim_fixed, decV]
  | .nonZero s w, key, x => by rw [decV, readPrim_fixed, decV]
  | .unit, key, x => by rw [decV, readUnit_fixed, decV]
  | .bytes, key, x => by rw [decV, readBytesV_fixed, decV]
  | .string, key, x => by rw [decV, readStr_fixed, decV]
  | .byteArray n, key, x => by rw [decV, readBytesV_fixed, decV]
  | .option t, key, x => by
    rw [decV, decV]
    cases x <;> rw [Value.fixedWidth] <;> try rfl
    rename_i y
    simp only [readOption]
    rw [ebind_ok rfl, ebind_ok rfl]
    simp only [decV_fixed t false y]
  | .array n t, key, x => by
    rw [decV, decV]
    cases x <;> rw [Value.fixedWidth] <;> try rfl
    rename_i l
    simp only [readSeq]
    rw [ebind_ok rfl, ebind_ok rfl, readAll_fixed _ (decV_fixed t false)]
  | .vec t, key, x => by
    rw [decV, decV]
    cases x <;> rw [Value.fixedWidth] <;> try rfl
    rename_i l
    simp only [readSeq]
    rw [ebind_ok rfl, ebind_ok rfl, readAll_fixed _ (decV_fixed t false)]
  | .set t, key, x => by
    rw [decV, decV]
    cases x <;> rw [Value.fixedWidth] <;> try rfl
    rename_i l
    simp only [readSeq]
    rw [ebind_ok rfl, ebind_ok rfl, readAll_fixed _ (decV_fixed t false)]
  | .map k t, key, x => by
    rw [decV, decV]
    cases x <;> rw [Value.fixedWidth] <;> try rfl
    rename_i l
    simp only [readMap]
    rw [ebind_ok rfl, ebind_ok rfl, readPairs_fixed _ _ (decV_fixed k true) (decV_fixed t false)]
  | .tuple ts, key, x => by
    rw [decV, decV]
    cases x <;> rw [Value.fixedWidth] <;> try rfl
    rename_i l
    simp only [readSeq]
    rw [ebind_ok rfl, ebind_ok rfl, decTysV_fixed ts l]
  | .result nt t u, key, x => by
    rw [decV, decV]
    cases x <;> rw [Value.fixedWidth] <;> try rfl
    rename_i a b
    simp only [readVariant]
    rw [ebind_ok rfl, ebind_ok rfl]
    simp only [readName_fixed, decV_fixed t false b, decV_fixed u false b]
  | .boxed t, key, x => by rw [decV, decV_fixed t key x, decV]
  | .wrapping t, key, x => by rw [decV, decV_fixed t key x, decV]
  | .transparent t, key, x => by rw [decV, decV_fixed t key x, decV]
  | .unitStruct, key, x => by
    rw [decV, decV]
    cases x <;> rw [Value.fixedWidth] <;> rfl
  | .strct nt fs, key, x => by
    rw [decV, decV]
    cases x <;> rw [Value.fixedWidth] <;> try rfl
    rename_i l
    simp only [readMap]
    rw [ebind_ok rfl, ebind_ok rfl, foldPairs_fixed]
    intro s k v
    simp only [readName_fixed, decEntryV_fixed fs]
  | .packed _ fs, key, x => by rw [decV, readBytesV_fixed, decV]
  | .unitEnum nt names, key, x => by
    rw [decV, readName_fixed, decV]
  | .enm nt vs, key, x => by
    rw [decV, decV]
    cases x <;> rw [Value.fixedWidth] <;> try rfl
    rename_i a b
    simp only [readVariant]
    rw [ebind_ok rfl, ebind_ok rfl]
    simp only [readName_fixed, decVariantsV_fixed vs]

theorem decTysV_fixed : ∀ (ts : Tys) (l : List Value),
    decTysV o env ts (fixedWidths l) = decTysV o env ts l
  | .nil, l => by rw [decTysV, decTysV]
  | .cons t ts, [] => by rw [fixedWidths]
  | .cons t ts, x :: l => by
    rw [fixedWidths, decTysV, decTysV, decV_fixed t false x, decTysV_fixed ts l]

theorem decEntryV_fixed : ∀ (fs : Fields) (n : Name) (x : Value) (p : fs.Partial),
    decEntryV o env fs n x.fixedWidth p = decEntryV o env fs n x p
  | .nil, n, x, p => by rw [decEntryV, decEntryV]
  | .cons m _ _ t fs, n, x, p => by
    rw [decEntryV, decEntryV, decV_fixed t false x, decEntryV_fixed fs n x p.2]

theorem decVariantsV_fixed : ∀ (vs : Variants) (n : Name) (x : Value),
    decVariantsV o env vs n x.fixedWidth = decVariantsV o env vs n x
  | .nil, n, x => by rw [decVariantsV, decVariantsV]
  | .cons m t vs, n, x => by
    rw [decVariantsV, decVariantsV, decV_fixed t false x, decVariantsV_fixed vs n x]

end
end

/-! ## A `Value` as a `Value` -/

mutual

theorem copyIn_eq : ∀ v : Value, copyIn v = v
  | .unit | .bool _ | .char _ | .number _ | .bytes _ | .string _ | .none => by rw [copyIn]
  | .seq l => by rw [copyIn, copyIns_eq l]
  | .map l => by rw [copyIn, copyInPairs_eq l]
  | .variant t d => by rw [copyIn, copyIn_eq t, copyIn_eq d]
  | .some v => by rw [copyIn, copyIn_eq v]

theorem copyIns_eq : ∀ l : List Value, copyIns l = l
  | [] => by rw [copyIns]
  | v :: l => by rw [copyIns, copyIn_eq v, copyIns_eq l]

theorem copyInPairs_eq : ∀ l : List (Value × Value), copyInPairs l = l
  | [] => by rw [copyInPairs]
  | p :: l => by rw [copyInPairs, copyInPair_eq p, copyInPairs_eq l]

theorem copyInPair_eq : ∀ p : Value × Value, copyInPair p = p
  | (k, v) => by rw [copyInPair, copyIn_eq k, copyIn_eq v]

end

mutual

theorem copyOut_eq : ∀ v : Value, v.unitFree = true →
    copyOut v = if v.notUnit then some v else Option.none
  | .unit, _ | .bool _, _ | .char _, _ | .number _, _ | .bytes _, _ | .string _, _ | .none, _ => by
    rw [copyOut]; rfl
  | .seq l, h => by
    rw [Value.unitFree] at h
    rw [copyOut, copyOuts_eq l h]; rfl
  | .map l, h => by
    rw [Value.unitFree] at h
    rw [copyOut, copyPairs_eq l h]; rfl
  | .variant t d, h => by
    rw [Value.unitFree, Bool.and_eq_true] at h
    rw [copyOut, copyOut_slot t h.1, copyOut_slot d h.2]; rfl
  | .some v, h => by
    rw [Value.unitFree, Bool.and_eq_true] at h
    rw [copyOut, copyOut_eq v h.2, if_pos h.1]; rfl

theorem copyOut_slot : ∀ v : Value, v.unitFree = true → (copyOut v).getD .unit = v
  | v, h => by
    rw [copyOut_eq v h]
    cases v <;> rfl

theorem copyOuts_eq : ∀ l : List Value, unitFreeList l = true → copyOuts l = l
  | [], _ => by rw [copyOuts]
  | v :: l, h => by
    rw [unitFreeList, Bool.and_eq_true, Bool.and_eq_true] at h
    rw [copyOuts, copyOut_eq v h.1.2, if_pos h.1.1, copyOuts_eq l h.2]; rfl

theorem copyPairs_eq : ∀ l : List (Value × Value), unitFreePairs l = true → copyPairs l = l
  | [], _ => by rw [copyPairs]
  | p :: l, h => by
    rw [unitFreePairs, Bool.and_eq_true] at h
    rw [copyPairs, copyPair_eq p h.1, copyPairs_eq l h.2]

theorem copyPair_eq : ∀ p : Value × Value, unitFreePair p = true → copyPair p = p
  | (k, v), h => by
    rw [unitFreePair, Bool.and_eq_true] at h
    rw [copyPair, copyOut_slot k h.1, copyOut_slot v h.2]

end

/-! ## Without packed structs the options do not matter -/

section
variable [Host] (o o' : Options) (env : Env)

mutual

theorem reprV_opt : ∀ (t : Ty) (v : t.Val), t.unpacked = true → reprV o env t v = reprV o' env t v
  | .prim p, v, _ => by rw [reprV, reprV]
  | .nonZero s w, v, _ => by rw [reprV, reprV]
  | .unit, v, _ => by rw [reprV, reprV]
  | .bytes, v, _ => by rw [reprV, reprV]
  | .string, v, _ => by rw [reprV, reprV]
  | .byteArray n, v, _ => by rw [reprV, reprV]
  | .option t, v, h => by
    rw [Ty.unpacked] at h
    cases v with
    | none => simp only [reprV]
    | some x => simp only [reprV, reprV_opt t x h]
  | .array n t, v, h => by
    rw [Ty.unpacked] at h
    simp only [reprV, show reprV o env t = reprV o' env t from funext fun x => reprV_opt t x h]
  | .vec t, v, h => by
    rw [Ty.unpacked] at h
    simp only [reprV, show reprV o env t = reprV o' env t from funext fun x => reprV_opt t x h]
  | .set t, v, h => by
    rw [Ty.unpacked] at h
    simp only [reprV, show reprV o env t = reprV o' env t from funext fun x => reprV_opt t x h]
  | .map k t, v, h => by
    rw [Ty.unpacked, Bool.and_eq_true] at h
    simp only [reprV, show reprV o env t = reprV o' env t from funext fun x => reprV_opt t x h.2,
      show reprV o env k = reprV o' env k from funext fun x => reprV_opt k x h.1]
  | .tuple ts, v, h => by
    rw [Ty.unpacked] at h
    simp only [reprV, reprTys_opt ts v h]
  | .result nt t u, v, h => by
    rw [Ty.unpacked, Bool.and_eq_true] at h
    cases v with
    | inl x => simp only [reprV, reprV_opt t x h.1]
    | inr x => simp only [reprV, reprV_opt u x h.2]
  | .boxed t, v, h => by
    rw [Ty.unpacked] at h
    rw [reprV, reprV]; exact reprV_opt t v h
  | .wrapping t, v, h => by
    rw [Ty.unpacked] at h
    rw [reprV, reprV]; exact reprV_opt t v h
  | .transparent t, v, h => by
    rw [Ty.unpacked] at h
    rw [reprV, reprV]; exact reprV_opt t v h
  | .unitStruct, v, _ => by rw [reprV, reprV]
  | .strct nt fs, v, h => by
    rw [Ty.unpacked] at h
    rw [reprV, reprV, reprFields_opt fs v h]
  | .packed nt fs, v, h => by
    rw [Ty.unpacked] at h; cases h
  | .unitEnum nt names, v, _ => by rw [reprV, reprV]
  | .enm nt vs, v, h => by
    rw [Ty.unpacked] at h
    rw [reprV, reprV, reprVariants_opt vs v h]

theorem reprTys_opt : ∀ (ts : Tys) (v : ts.Val), ts.unpacked = true →
    reprTys o env ts v = reprTys o' env ts v
  | .nil, v, _ => by rw [reprTys, reprTys]
  | .cons t ts, v, h => by
    rw [Tys.unpacked, Bool.and_eq_true] at h
    rw [reprTys, reprTys, reprV_opt t v.1 h.1, reprTys_opt ts v.2 h.2]

theorem reprFields_opt : ∀ (fs : Fields) (v : fs.Val), fs.unpacked = true →
    reprFields o env fs v = reprFields o' env fs v
  | .nil, v, _ => by rw [reprFields, reprFields]
  | .cons n d s t fs, v, h => by
    rw [Fields.unpacked, Bool.and_eq_true] at h
    rw [reprFields, reprFields, reprV_opt t v.1 h.1, reprFields_opt fs v.2 h.2]

theorem reprVariants_opt : ∀ (vs : Variants) (v : vs.Val), vs.unpacked = true →
    reprVariants o env vs v = reprVariants o' env vs v
  | .nil, v, _ => nomatch v
  | .cons n t vs, v, h => by
    rw [Variants.unpacked, Bool.and_eq_true] at h
    cases v with
    | inl x => simp only [reprVariants, reprV_opt t x h.1]
    | inr x => simp only [reprVariants, reprVariants_opt vs x h.2]

end
end

end Musli
