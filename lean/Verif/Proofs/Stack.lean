import Verif.Model.Stack
import Verif.Spec.Stack
/-!
# The depth of calls in the binary formats
-/
set_option linter.unusedSectionVars false
namespace Musli

section
variable [Host] (o : Options) (env : Env)

mutual

theorem decS_eq : ∀ (t : Ty) (k : Nat) (m : Mode), t.depth ≤ k → decS o env k t m = decD o env t m
  | t, 0, m, h => by cases t <;> simp [Ty.depth] at h
  | .prim p, k + 1, m, _ => by rw [decS, decD]
  | .nonZero s w, k + 1, m, _ => by rw [decS, decD]
  | .unit, k + 1, m, _ => by rw [decS, decD]
  | .bytes, k + 1, m, _ => by rw [decS, decD]
  | .string, k + 1, m, _ => by rw [decS, decD]
  | .byteArray n, k + 1, m, _ => by rw [decS, decD]
  | .option t, k + 1, m, h => by
    simp only [Ty.depth] at h
    rw [decS, decD, decS_eq t k m (by omega)]
  | .array n t, k + 1, m, h => by
    simp only [Ty.depth] at h
    rw [decS, decD, decS_eq t k m (by omega)]
  | .vec t, k + 1, m, h => by
    simp only [Ty.depth] at h
    rw [decS, decD, decS_eq t k m (by omega)]
  | .set t, k + 1, m, h => by
    simp only [Ty.depth] at h
    rw [decS, decD, decS_eq t k m (by omega)]
  | .map t u, k + 1, m, h => by
    simp only [Ty.depth] at h
    rw [decS, decD, decS_eq t k m (by omega), decS_eq u k m (by omega)]
  | .tuple ts, k + 1, m, h => by
    simp only [Ty.depth] at h
    rw [decS, decD]
    simp only [decTysS_eq ts k m (by omega)]
  | .result nt t u, k + 1, m, h => by
    simp only [Ty.depth] at h
    rw [decS, decD, decS_eq t k m (by omega), decS_eq u k m (by omega)]
  | .boxed t, k + 1, m, h => by
    simp only [Ty.depth] at h
    rw [decS, decD, decS_eq t k m (by omega)]
  | .wrapping t, k + 1, m, h => by
    simp only [Ty.depth] at h
    rw [decS, decD, decS_eq t k m (by omega)]
  | .transparent t, k + 1, m, h => by
    simp only [Ty.depth] at h
    rw [decS, decD, decS_eq t k m (by omega)]
  | .unitStruct, k + 1, m, _ => by rw [decS, decD]
  | .strct nt fs, k + 1, m, h => by
    simp only [Ty.depth] at h
    rw [decS, decD]
    simp only [decEntryS_eq fs k m (by omega)]
  | .packed lay fs, k + 1, m, h => by
    simp only [Ty.depth] at h
    rw [decS, decD, decPackFieldsS_eq fs k _ (by omega)]
  | .unitEnum nt names, k + 1, m, _ => by rw [decS, decD]; rfl
  | .enm nt vs, k + 1, m, h => by
    simp only [Ty.depth] at h
    rw [decS, decD]
    simp only [decVariantsS_eq vs k m (by omega)]

theorem decTysS_eq : ∀ (ts : Tys) (k : Nat) (m : Mode), ts.depth ≤ k →
    ∀ c, decTysS o env k ts m c = decTys o env ts m c
  | .nil, k, m, _, c => by rw [decTysS, decTys]
  | .cons t ts, k, m, h, c => by
    simp only [Tys.depth] at h
    cases c with
    | zero => rw [decTysS, decTys]
    | succ c =>
      rw [decTysS, decTys]
      simp only [decS_eq t k m (by omega), decTysS_eq ts k m (by omega)]

theorem decEntryS_eq : ∀ (fs : Fields) (k : Nat) (m : Mode), fs.depth ≤ k →
    ∀ n p, decEntryS o env k fs m n p = decEntry o env fs m n p
  | .nil, k, m, _, n, p => by rw [decEntryS, decEntry]
  | .cons nm d sk t fs, k, m, h, n, p => by
    simp only [Fields.depth] at h
    rw [decEntryS, decEntry, decS_eq t k m (by omega), decEntryS_eq fs k m (by omega)]

theorem decPackFieldsS_eq : ∀ (fs : Fields) (k : Nat) (m : Mode), fs.depth ≤ k →
    decPackFieldsS o env k fs m = decPackFields o env fs m
  | .nil, k, m, _ => by rw [decPackFieldsS, decPackFields]
  | .cons nm d sk t fs, k, m, h => by
    simp only [Fields.depth] at h
    rw [decPackFieldsS, decPackFields, decS_eq t k m (by omega), decPackFieldsS_eq fs k m (by omega)]

theorem decVariantsS_eq : ∀ (vs : Variants) (k : Nat) (m : Mode), vs.depth ≤ k →
    ∀ n, decVariantsS o env k vs m n = decVariants o env vs m n
  | .nil, k, m, _, n => by rw [decVariantsS, decVariants]
  | .cons nm t vs, k, m, h, n => by
    simp only [Variants.depth] at h
    rw [decVariantsS, decVariants, decS_eq t k m (by omega), decVariantsS_eq vs k m (by omega)]

end

/-- Nested boxes need as much room as there are boxes. -/
theorem decS_boxes (t : Ty) (ht : t.bwD = false) (m : Mode) (s : Bytes) : ∀ (n k : Nat), k ≤ n →
    decS o env k (boxes t n) m s = .error .panic
  | _, 0, _ => by rw [decS]; rfl
  | n + 1, k + 1, h => by
    have hb : (boxes t n).bwD = false := by
      cases n with
      | zero => exact ht
      | succ n => rfl
    rw [boxes, decS, hb, Bool.and_false]
    exact decS_boxes t ht m s n k (by omega)

end
end Musli
