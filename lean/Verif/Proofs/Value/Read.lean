import Verif.Proofs.Value.Repr
import Verif.Spec.IntTy
/-!
# Reading a `Value` back
-/
set_option linter.unusedSectionVars false
namespace Musli

theorem pow_pos2 (n : Nat) : (0 : Int) < 2 ^ n := Int.pow_pos (by decide)

theorem tryFromInt_nat {w : Nat} (v : BitVec w) : tryFromInt ⟨false, w⟩ v.toNat = some (v.toNat : Int) := by
  unfold tryFromInt
  rw [if_pos]
  simp only [IntKind.min, IntKind.max, Bool.false_eq_true, if_false]
  have := v.isLt
  have h2 : ((2 ^ w : Nat) : Int) = 2 ^ w := by simp
  omega

theorem tryFromInt_int {w : Nat} (_hw : 0 < w) (v : BitVec w) :
    tryFromInt ⟨true, w⟩ v.toInt = some v.toInt := by
  unfold tryFromInt
  rw [if_pos]
  simp only [IntKind.min, IntKind.max, if_true]
  have h1 := BitVec.le_toInt v
  have h2 := BitVec.toInt_lt (x := v)
  omega

theorem IW.bits_pos (w : IW) : 0 < w.bits := by cases w <;> decide

theorem readInt_nat (o : Options) (key : Bool) {w : Nat} (v : BitVec w) (n : Number)
    (hn : fromNumber ⟨false, w⟩ n = tryFromInt ⟨false, w⟩ v.toNat) :
    intBits w (readInt o key ⟨false, w⟩ (.number n)) = .ok v := by
  simp only [readInt, hn, tryFromInt_nat, intBits]
  simp

theorem readInt_int (o : Options) (key : Bool) {w : Nat} (hw : 0 < w) (v : BitVec w) (n : Number)
    (hn : fromNumber ⟨true, w⟩ n = tryFromInt ⟨true, w⟩ v.toInt) :
    intBits w (readInt o key ⟨true, w⟩ (.number n)) = .ok v := by
  simp only [readInt, hn, tryFromInt_int hw, intBits]
  simp

theorem readPrim_primV (o : Options) (key : Bool) : ∀ (p : Prim) (v : p.Val),
    readPrim o key p (primV p v) = .ok v
  | .bool, _ => rfl
  | .char, _ => rfl
  | .uint w, v => readInt_nat o key (w := w.bits) v _ rfl
  | .sint w, v => readInt_int o key w.bits_pos v _ rfl
  | .usize, v => readInt_nat o key (w := 64) v _ rfl
  | .isize, v => readInt_int o key (by decide) v _ rfl
  | .f32, _ => rfl
  | .f64, _ => rfl

theorem readName_nameV (o : Options) (key : Bool) (n : Name) :
    readName o key n.ty (nameV n) = .ok n := by
  cases n with
  | idx n =>
    show (readPrim o key .usize (primV .usize n) >>= fun n => pure (Name.idx n)) = _
    rw [readPrim_primV]; rfl
  | str s => rfl

theorem ebind_ok {α β} {x : Except Err α} {f : α → Except Err β} {a : α} (h : x = .ok a) :
    (x >>= f) = f a := by subst h; rfl

theorem readSeq_seq (l : List Value) : readSeq (.seq l) = .ok l := rfl
theorem readMap_map (l : List (Value × Value)) : readMap (.map l) = .ok l := rfl
theorem readBytesV_bytes (b : Bytes) : readBytesV (.bytes b) = .ok b := rfl
theorem readVariant_variant (t d : Value) : readVariant (.variant t d) = .ok (t, d) := rfl

theorem emap_ok {α β} {f : α → β} {x : Except Err α} {b : β} (h : emap f x = .ok b) :
    ∃ a, x = .ok a ∧ f a = b := by
  cases x with
  | error e => cases h
  | ok a => cases h; exact ⟨a, rfl, rfl⟩

theorem readAll_reprAll {α : Type} {f : α → Except Err Value} {d : Value → Except Err α}
    (h : ∀ a x, f a = .ok x → d x = .ok a) :
    ∀ l xs, reprAll f l = .ok xs → readAll d xs = .ok l
  | [], xs, he => by cases he; rfl
  | a :: l, xs, he => by
    simp only [reprAll] at he
    split at he
    · cases he
    rename_i w hw
    split at he
    · cases he
    rename_i vs hvs
    cases he
    simp only [readAll]
    rw [ebind_ok (h a w hw), ebind_ok (readAll_reprAll h l vs hvs)]
    rfl

theorem readPairs_reprPairs {α β : Type} {f g : α × β → Except Err Value}
    {d : Value → Except Err α} {e : Value → Except Err β}
    (hd : ∀ a x, f a = .ok x → d x = .ok a.1) (he : ∀ a x, g a = .ok x → e x = .ok a.2) :
    ∀ l xs, reprPairs f g l = .ok xs → readPairs d e xs = .ok l
  | [], xs, h => by cases h; rfl
  | a :: l, xs, h => by
    simp only [reprPairs] at h
    split at h
    · cases h
    rename_i k hk
    split at h
    · cases h
    rename_i w hw
    split at h
    · cases h
    rename_i vs hvs
    cases h
    simp only [readPairs]
    rw [ebind_ok (hd a k hk), ebind_ok (he a w hw), ebind_ok (readPairs_reprPairs hd he l vs hvs)]
    rfl

section
variable [Host] (o : Options) (env : Env)

/-- The value of an entry. -/
def reprKnown : (fs : Fields) → fs.Known → Except Err Value
  | .cons _ _ _ t _, .inl v => reprV o env t v
  | .cons _ _ _ _ fs, .inr k => reprKnown fs k

theorem reprPairs_append {α} (f g : α → Except Err Value) (a b : List α) (xs : List (Value × Value))
    (h : reprPairs f g (a ++ b) = .ok xs) :
    ∃ x y, reprPairs f g a = .ok x ∧ reprPairs f g b = .ok y ∧ xs = x ++ y := by
  induction a generalizing xs with
  | nil => exact ⟨[], xs, rfl, h, rfl⟩
  | cons c a ih =>
    simp only [List.cons_append, reprPairs] at h ⊢
    split at h
    · cases h
    split at h
    · cases h
    split at h
    · cases h
    rename_i vs hvs
    cases h
    obtain ⟨x, y, hx, hy, rfl⟩ := ih vs hvs
    exact ⟨_ :: x, y, by rw [hx], hy, rfl⟩

theorem reprPairs_map {α β} (f g : β → Except Err Value) (m : α → β) (l : List α) :
    reprPairs f g (l.map m) = reprPairs (fun a => f (m a)) (fun a => g (m a)) l := by
  induction l with
  | nil => rfl
  | cons a l ih => simp only [List.map_cons, reprPairs, ih]

theorem reprFields_eq : ∀ (fs : Fields) (v : fs.Val),
    reprFields o env fs v =
      reprPairs (fun k => .ok (nameV (fs.keyOf k))) (reprKnown o env fs) (fs.entries env v)
  | .nil, _ => by simp only [reprFields, Fields.entries, reprPairs]
  | .cons n d skip t fs, v => by
    simp only [reprFields, Fields.entries, reprFields_eq fs v.2]
    split
    · simp only [List.cons_append, List.nil_append, reprPairs, reprPairs_map]
      rfl
    · simp only [List.nil_append, reprPairs_map]
      rfl

/-- A loop over entries. -/
theorem foldPairs_entries {σ α : Type} (body : σ → Value × Value → Except Err σ)
    (f g : α → Except Err Value) (next : σ → α → σ) (es : List α)
    (h : ∀ e ∈ es, ∀ st x y, f e = .ok x → g e = .ok y → body st (x, y) = .ok (next st e)) :
    ∀ st xs, reprPairs f g es = .ok xs → foldPairs body xs st = .ok (es.foldl next st) := by
  induction es with
  | nil => intro st xs he; cases he; rfl
  | cons e es ih =>
    intro st xs he
    simp only [reprPairs] at he
    split at he
    · cases he
    rename_i k hk
    split at he
    · cases he
    rename_i w hw
    split at he
    · cases he
    rename_i vs hvs
    cases he
    simp only [foldPairs]
    rw [ebind_ok (h e (by simp) st k w hk hw), ih (fun e he => h e (by simp [he])) _ vs hvs]
    rfl

abbrev okV (t : Ty) : Prop := ∃ tail, t.ok (Opt.isNativeFixed o) (hostOrder o) .descriptive tail = true

theorem desc_fast (N : Bool) : Mode.fast N .descriptive = false := rfl

mutual

theorem decV_reprV : ∀ (t : Ty) (tail : Bool),
    t.ok (Opt.isNativeFixed o) (hostOrder o) .descriptive tail = true → t.envOk env →
    ∀ (key : Bool) (v : t.Val) (x : Value), reprV o env t v = .ok x → decV o env t key x = .ok v
  | .prim p, _, _, _, key, v, x, h => by
    simp only [reprV] at h; cases h
    simp only [decV]
    exact readPrim_primV o key p v
  | .nonZero s w, _, _, _, key, v, x, h => by
    simp only [reprV] at h; cases h
    simp only [decV]
    rw [ebind_ok (readPrim_primV o key _ _), nonZeroUnraw_raw, toNonZero_val]
  | .unit, _, _, _, key, v, x, h => by
    simp only [reprV] at h; cases h
    simp only [decV]; rfl
  | .bytes, _, _, _, key, v, x, h => by
    simp only [reprV] at h; cases h
    simp only [decV]; rfl
  | .string, _, _, _, key, v, x, h => by
    simp only [reprV] at h; cases h
    simp only [decV]; rfl
  | .byteArray n, _, _, _, key, v, x, h => by
    simp only [reprV] at h; cases h
    simp only [decV]
    rw [ebind_ok (readBytesV_bytes _), toArray_val]
  | .option t, tail, hok, henv, key, v, x, h => by
    simp only [Ty.ok, desc_fast, Bool.false_and, Bool.false_eq_true, if_false, Bool.and_eq_true] at hok
    simp only [Ty.envOk] at henv
    simp only [reprV] at h
    cases v with
    | none => cases h; simp only [decV]; rfl
    | some v =>
      obtain ⟨y, hy, rfl⟩ := emap_ok h
      simp only [decV]
      show (decV o env t false y >>= fun v => pure (some v)) = _
      rw [ebind_ok (decV_reprV t tail hok.2 henv false v y hy)]
      rfl
  | .array n t, tail, hok, henv, key, v, x, h => by
    simp only [Ty.ok, desc_fast, Bool.false_and, Bool.false_eq_true, if_false] at hok
    simp only [Ty.envOk] at henv
    simp only [reprV] at h
    obtain ⟨y, hy, rfl⟩ := emap_ok h
    simp only [decV]
    rw [ebind_ok (readSeq_seq _), ebind_ok (readAll_reprAll (decV_reprV t false hok henv false) v.1 y hy), toArray_val]
  | .vec t, tail, hok, henv, key, v, x, h => by
    simp only [Ty.ok, desc_fast, Bool.false_and, Bool.false_eq_true, if_false] at hok
    simp only [Ty.envOk] at henv
    simp only [reprV] at h
    obtain ⟨y, hy, rfl⟩ := emap_ok h
    simp only [decV]
    rw [ebind_ok (readSeq_seq _), readAll_reprAll (decV_reprV t false hok henv false) v y hy]
  | .set t, tail, hok, henv, key, v, x, h => by
    simp only [Ty.ok, desc_fast, Bool.false_and, Bool.false_eq_true, if_false] at hok
    simp only [Ty.envOk] at henv
    simp only [reprV] at h
    obtain ⟨y, hy, rfl⟩ := emap_ok h
    simp only [decV]
    rw [ebind_ok (readSeq_seq _), readAll_reprAll (decV_reprV t false hok henv false) v y hy]
  | .map k t, tail, hok, henv, key, v, x, h => by
    simp only [Ty.ok, desc_fast, Bool.false_and, Bool.false_eq_true, if_false, Bool.and_eq_true] at hok
    simp only [Ty.envOk] at henv
    simp only [reprV] at h
    obtain ⟨y, hy, rfl⟩ := emap_ok h
    simp only [decV]
    rw [ebind_ok (readMap_map _)]
    exact readPairs_reprPairs (fun a => decV_reprV k false hok.1 henv.1 true a.1)
      (fun a => decV_reprV t false hok.2 henv.2 false a.2) v y hy
  | .tuple ts, tail, hok, henv, key, v, x, h => by
    simp only [Ty.ok] at hok
    simp only [Ty.envOk] at henv
    simp only [reprV] at h
    obtain ⟨y, hy, rfl⟩ := emap_ok h
    simp only [decV]
    rw [ebind_ok (readSeq_seq _), decTysV_repr ts tail hok henv v y hy]
  | .result nt t u, tail, hok, henv, key, v, x, h => by
    simp only [Ty.ok, desc_fast, Bool.false_and, Bool.false_eq_true, if_false, Bool.and_eq_true] at hok
    simp only [Ty.envOk] at henv
    simp only [reprV] at h
    have hn (b : Bool) : readName o false nt (nameV (resultName nt b)) = .ok (resultName nt b) := by
      have := readName_nameV o false (resultName nt b)
      rwa [resultName_ty] at this
    cases v with
    | inl v =>
      obtain ⟨y, hy, rfl⟩ := emap_ok h
      simp only [decV]
      rw [ebind_ok (readVariant_variant _ _)]
      dsimp only
      rw [ebind_ok (hn true), if_pos rfl, ebind_ok (decV_reprV t tail hok.1 henv.1 false v y hy)]
      rfl
    | inr v =>
      obtain ⟨y, hy, rfl⟩ := emap_ok h
      simp only [decV]
      rw [ebind_ok (readVariant_variant _ _)]
      dsimp only
      rw [ebind_ok (hn false), if_neg (by cases nt <;> decide), if_pos rfl,
        ebind_ok (decV_reprV u tail hok.2 henv.2 false v y hy)]
      rfl
  | .boxed t, tail, hok, henv, key, v, x, h => by
    simp only [Ty.ok, desc_fast, Bool.false_and, Bool.false_eq_true, if_false] at hok
    simp only [Ty.envOk] at henv
    simp only [reprV] at h
    simp only [decV]
    exact decV_reprV t tail hok henv key v x h
  | .wrapping t, tail, hok, henv, key, v, x, h => by
    simp only [Ty.ok, desc_fast, Bool.false_and, Bool.false_eq_true, if_false] at hok
    simp only [Ty.envOk] at henv
    simp only [reprV] at h
    simp only [decV]
    exact decV_reprV t tail hok henv key v x h
  | .transparent t, tail, hok, henv, key, v, x, h => by
    simp only [Ty.ok] at hok
    simp only [Ty.envOk] at henv
    simp only [reprV] at h
    simp only [decV]
    exact decV_reprV t tail hok henv key v x h
  | .unitStruct, _, _, _, key, v, x, h => by
    simp only [reprV] at h; cases h
    simp only [decV]; rfl
  | .strct nt fs, tail, hok, henv, key, v, x, h => by
    simp only [Ty.ok, Bool.and_eq_true] at hok
    simp only [Ty.envOk] at henv
    simp only [reprV] at h
    obtain ⟨y, hy, rfl⟩ := emap_ok h
    have hnames := namesOk_iff hok.1
    simp only [decV]
    rw [ebind_ok (readMap_map _)]
    rw [reprFields_eq] at hy
    rw [ebind_ok (foldPairs_entries _ _ _ (fun p k => fs.set k p) (fs.entries env v) ?_ fs.none y hy)]
    · exact finish_entries env _ _ _ fs hok.2 henv v
    · intro k _ st x w hx hw
      cases hx
      have hk : (fs.keyOf k).ty = nt := hnames.2 _ (keyOf_mem fs k)
      have := readName_nameV o true (fs.keyOf k)
      rw [hk] at this
      show (readName o true nt (nameV (fs.keyOf k)) >>= fun n => decEntryV o env fs n w st) = _
      rw [ebind_ok this]
      exact decEntryV_repr fs hok.2 henv hnames.1 k st w hw
  | .packed lay fs, tail, hok, henv, key, v, x, h => by
    simp only [Ty.ok, desc_fast, Bool.false_and, Bool.false_eq_true, if_false] at hok
    simp only [Ty.envOk] at henv
    simp only [reprV] at h
    obtain ⟨b, hb, rfl⟩ := emap_ok h
    simp only [decV]
    have := rtPack o env fs _ hok henv v b [] hb (fun _ => rfl)
    rw [List.append_nil] at this
    rw [ebind_ok (readBytesV_bytes b)]
    unfold onPack
    rw [this]
  | .unitEnum nt names, tail, hok, _, key, v, x, h => by
    simp only [Ty.ok] at hok
    have hnames := namesOk_iff hok
    simp only [reprV] at h; cases h
    simp only [decV]
    have hk : (names[v]).ty = nt := hnames.2 _ (by simp)
    have := readName_nameV o key names[v]
    rw [hk] at this
    rw [ebind_ok this, findName_get names hnames.1 v]
    rfl
  | .enm nt vs, tail, hok, henv, key, v, x, h => by
    simp only [Ty.ok, Bool.and_eq_true] at hok
    simp only [Ty.envOk] at henv
    simp only [reprV] at h
    have hnames := namesOk_iff hok.1
    obtain ⟨n, y, hn, rfl, hd⟩ := decVariantsV_repr vs tail hok.2 henv hnames.1 v x h
    simp only [decV]
    have := readName_nameV o false n
    rw [hnames.2 n hn] at this
    rw [ebind_ok (readVariant_variant _ _)]
    dsimp only
    rw [ebind_ok this, hd]

theorem decTysV_repr : ∀ (ts : Tys) (tail : Bool),
    ts.ok (Opt.isNativeFixed o) (hostOrder o) .descriptive tail = true → ts.envOk env →
    ∀ v x, reprTys o env ts v = .ok x → decTysV o env ts x = .ok v
  | .nil, _, _, _, v, x, h => by simp only [decTysV]
  | .cons t ts, tail, hok, henv, v, x, h => by
    simp only [Tys.ok, desc_fast, Bool.false_and, Bool.false_eq_true, if_false, Bool.and_eq_true] at hok
    simp only [Tys.envOk] at henv
    simp only [reprTys] at h
    split at h
    · cases h
    rename_i w hw
    split at h
    · cases h
    rename_i ws hws
    cases h
    simp only [decTysV]
    rw [ebind_ok (decV_reprV t _ hok.1 henv.1 false v.1 w hw),
      ebind_ok (decTysV_repr ts tail hok.2 henv.2 v.2 ws hws)]
    rfl

theorem decEntryV_repr : ∀ (fs : Fields),
    fs.ok (Opt.isNativeFixed o) (hostOrder o) .descriptive = true → fs.envOk env → fs.names.Nodup →
    ∀ k p x, reprKnown o env fs k = .ok x →
      decEntryV o env fs (fs.keyOf k) x p = .ok (fs.set k p)
  | .nil, _, _, _ => fun k => nomatch k
  | .cons n d s t fs, hok, henv, hnd => by
    simp only [Fields.ok, Bool.and_eq_true] at hok
    simp only [Fields.envOk] at henv
    simp only [Fields.names, List.nodup_cons] at hnd
    intro k p x he
    cases k with
    | inl v =>
      simp only [reprKnown] at he
      show decEntryV o env (.cons n d s t fs) n x p = _
      rw [decEntryV, if_pos rfl, ebind_ok (decV_reprV t false hok.1.2 henv.2.1 false v x he)]
      rfl
    | inr k =>
      simp only [reprKnown] at he
      have hne : n ≠ fs.keyOf k := fun hc => hnd.1 (hc ▸ keyOf_mem fs k)
      show decEntryV o env (.cons n d s t fs) (fs.keyOf k) x p = _
      rw [decEntryV, if_neg hne, ebind_ok (decEntryV_repr fs hok.2 henv.2.2 hnd.2 k p.2 x he)]
      rfl

theorem decVariantsV_repr : ∀ (vs : Variants) (tail : Bool),
    vs.ok (Opt.isNativeFixed o) (hostOrder o) .descriptive tail = true → vs.envOk env →
    vs.names.Nodup →
    ∀ v x, reprVariants o env vs v = .ok x → ∃ n y, n ∈ vs.names ∧ x = .variant (nameV n) y ∧
      decVariantsV o env vs n y = .ok v
  | .nil, _, _, _, _ => fun v => nomatch v
  | .cons n t vs, tail, hok, henv, hnd => by
    simp only [Variants.ok, Bool.and_eq_true] at hok
    simp only [Variants.envOk] at henv
    simp only [Variants.names, List.nodup_cons] at hnd
    intro v x he
    cases v with
    | inl v =>
      simp only [reprVariants] at he
      obtain ⟨y, hy, rfl⟩ := emap_ok he
      refine ⟨n, y, by simp [Variants.names], rfl, ?_⟩
      rw [decVariantsV, if_pos rfl, ebind_ok (decV_reprV t tail hok.1.1 henv.1 false v y hy)]
      rfl
    | inr v =>
      simp only [reprVariants] at he
      obtain ⟨n', y, hn, rfl, hd⟩ := decVariantsV_repr vs tail hok.2 henv.2 hnd.2 v x he
      refine ⟨n', y, by simp [Variants.names, hn], rfl, ?_⟩
      have hne : n ≠ n' := fun hc => hnd.1 (hc ▸ hn)
      rw [decVariantsV, if_neg hne, ebind_ok hd]
      rfl

end

end
end Musli
