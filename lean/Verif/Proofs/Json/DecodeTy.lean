import Verif.Proofs.Json.Decode
/-!
# Decoding any text that denotes a value: all types
-/
set_option linter.unusedSectionVars false
namespace Musli.Json
open Musli Spec

/-- A value that starts like `null` is `null`. -/
theorem isValue_null {x : Bytes} (h : IsValue x) (s : Bytes) (ht : tokenAt (x ++ s) = .null) :
    x = strNull := by
  unfold IsValue at h
  cases h with
  | number hn =>
    obtain ⟨b, r, rfl, hb⟩ := number_cons hn
    simp [tokenAt, hb] at ht
  | null => rfl
  | tru => exact absurd ht (by simp only [List.cons_append, tokenAt]; decide)
  | fals => exact absurd ht (by simp only [List.cons_append, tokenAt]; decide)
  | string => exact absurd ht (by simp only [List.cons_append, tokenAt]; decide)
  | emptyArray => exact absurd ht (by simp only [List.cons_append, tokenAt]; decide)
  | array => exact absurd ht (by simp only [List.cons_append, tokenAt]; decide)
  | emptyObject => exact absurd ht (by simp only [List.cons_append, tokenAt]; decide)
  | object => exact absurd ht (by simp only [List.cons_append, tokenAt]; decide)

theorem ofExcept_ok {α} (a : α) (s : Bytes) : P.ofExcept (.ok a) s = .ok (a, s) := rfl

theorem arrayLoop_after (full : Bool) (n : Nat) (s : Bytes) :
    ∀ (l acc : Bytes), acc.length + l.length = n →
    ∀ (first : Bool) (e : Bytes), After first (l.map (fun b => NatText b.toNat)) e →
    ∀ fuel, l.length < fuel →
      arrayLoop full n fuel first acc acc.length (e ++ 0x5D#8 :: s) =
        .ok ((acc ++ l, n), 0x5D#8 :: s) := by
  intro l
  induction l with
  | nil =>
    intro acc hn first e he fuel hf
    obtain ⟨f, rfl⟩ : ∃ f, fuel = f + 1 := ⟨fuel - 1, by simp at hf; omega⟩
    unfold arrayLoop
    rw [P.bind_apply, nextValue_ws (after_nil he), nextValue_close]
    simp at hn
    subst hn
    show Except.ok _ = _
    simp
  | cons a l ih =>
    intro acc hn first e he fuel hf
    obtain ⟨f, rfl⟩ : ∃ f, fuel = f + 1 := ⟨fuel - 1, by simp at hf; omega⟩
    obtain ⟨x, r, hx, hr, h1, _⟩ := after_cons he
    unfold arrayLoop
    rw [P.bind_ok (h1 (natText_isValue hx) _)]
    simp only [List.length_cons] at hn hf
    rw [if_pos rfl, if_pos (by omega)]
    have h2 := parseUnsigned_text full (w := 8) a x hx [] ws_nil _ (more_noNumber hr noNumber_bracket s)
    rw [List.nil_append] at h2
    rw [P.bind_ok h2, if_pos (by omega)]
    have := ih (acc ++ [a]) (by simp; omega) false r hr f (by omega)
    simp only [List.length_append, List.length_cons, List.length_nil, List.append_assoc,
      List.cons_append, List.nil_append, Nat.zero_add] at this
    exact this

theorem decArray_text (full : Bool) (n : Nat) (v : { b : Bytes // b.length = n }) :
    Decodes (decArray full n) v (Arr (v.1.map (fun b => NatText b.toNat))) := by
  intro x hx ws hw s hs
  obtain ⟨e, he, h1⟩ := arr_ws hx hw (s := s)
  have hl := separated_length he (by
    intro q hq x hx
    obtain ⟨a, ha, rfl⟩ := List.mem_map.1 hq
    exact isValue_ne_nil (natText_isValue hx))
  have h2 : arrayElems full n (e ++ 0x5D#8 :: s) = .ok ((v.1, n), 0x5D#8 :: s) :=
    arrayLoop_after full n s v.1 [] (by simpa using v.2) true e he _ (by simp at hl ⊢; omega)
  unfold decArray
  rw [P.bind_ok h1, P.bind_ok h2]
  show (if n = n then _ else _ : P _) _ = _
  rw [if_pos rfl]
  have h3 : toArray n v.1 = .ok v := by unfold toArray; rw [dif_pos v.2]
  rw [h3, P.bind_ok (ofExcept_ok v _), P.bind_ok (endSeq_close false s)]
  rfl

theorem needNext_value {first : Bool} {s s' : Bytes} (h : nextValue first s = .ok (true, s')) :
    needNext first s = .ok ((), s') := by
  unfold needNext
  rw [P.bind_ok h]
  rfl

/-- The single member of an object. -/
theorem obj_single {p : Bytes → Prop} {α} {d : P α} {a : α}
    (hd : ∀ x, p x → ∀ ws, Ws ws → ∀ s, NoNumber s → d (ws ++ (x ++ s)) = .ok (a, s)) :
    Decodes (do expect .openBrace; let v ← d; expect .closeBrace; pure v) a (Obj [p]) := by
  intro x hx ws hw s hs
  obtain ⟨e, ⟨b, y, r, hb, hy, hr, rfl⟩, h1⟩ := obj_ws hx hw (s := s)
  have hr : Ws r := hr
  rw [P.bind_ok h1, List.append_assoc, List.append_assoc,
    P.bind_ok (hd y hy b hb _ (noNumber_ws_cons hr noNumber_brace s)),
    P.bind_ok (expect_ok (t := .closeBrace) rfl hr s)]
  rfl

theorem endMap_isValue {x : Bytes} (h : IsValue (0x7B#8 :: x)) (s : Bytes) :
    endMap true (x ++ s) = .ok ((), s) := by
  unfold IsValue at h
  generalize hy : 0x7B#8 :: x = y at h
  cases h with
  | number hn =>
    obtain ⟨b, r, rfl, hb⟩ := number_cons hn
    cases hy
    exact absurd hb (by decide)
  | @emptyObject w hws =>
    cases hy
    have e : List.append w [0x7D#8] ++ s = w ++ 0x7D#8 :: s := by
      show (w ++ [0x7D#8]) ++ s = _
      simp
    rw [e]
    exact skipEntries_close _ true hws s
  | @object w he =>
    cases hy
    have e : List.append w [0x7D#8] ++ s = w ++ 0x7D#8 :: s := by
      show (w ++ [0x7D#8]) ++ s = _
      simp
    rw [e]
    exact skips he _ (by simp [skipFuel]; omega) true s
  | null => cases hy
  | tru => cases hy
  | fals => cases hy
  | string => cases hy
  | emptyArray => cases hy
  | array => cases hy

theorem decEntryJ_unknown (full : Bool) (env : Env) : ∀ (fs : Fields) (n : Name), n ∉ fs.names →
    ∀ p, Decodes (decEntryJ full env fs n p) p IsValue
  | .nil, n, _, p => by
    intro x hx ws hw s hs
    simp only [decEntryJ]
    exact skip_isValue hw hx hs
  | .cons n' d sk t fs, n, h, p => by
    simp only [Fields.names, List.mem_cons, not_or] at h
    simp only [decEntryJ]
    rw [if_neg (fun hc => h.1 hc.symm)]
    exact Decodes.bind (decEntryJ_unknown full env fs n h.2 p.2) (fun s => rfl)

section
variable (full : Bool) (env : Env)

mutual

theorem decJ_denotes : ∀ (t : Ty), t.jsonNames = true → ∀ v : t.Val,
    DecodesL (Lead t) (decJ full env t) v (Denotes env t v)
  | .prim p, _, v => by
    simp only [decJ]
    intro x hx
    simp only [Denotes] at hx
    exact decPrim_text full p v x hx
  | .nonZero sg w, _, v => by
    simp only [decJ]
    intro x hx ws ⟨hw, _⟩ s hs
    simp only [Denotes] at hx
    refine (DecodesL.bind (decPrim_text full (nonZeroPrim sg w) (nonZeroRaw sg w v.1)) ?_ : DecodesL _ _ _ _) x hx ws (lead_of (by cases sg <;> rfl) hw) s hs
    intro s
    rw [unraw_raw, toNonZero_ok]
    rfl
  | .unit, _, v => by
    simp only [decJ]
    intro x hx ws ⟨hw, _⟩ s hs
    simp only [Denotes] at hx
    exact skip_isValue hw hx hs
  | .bytes, _, v => by
    simp only [decJ]
    intro x hx
    simp only [Denotes] at hx
    refine (Decodes.lead (sequence_text ?_ ?_) fun _ => lead_ws) x hx
    · intro a _ x hx; exact natText_isValue hx
    · intro a _; exact (parseUnsigned_text full (w := 8) a).tight ws_nil
  | .string, _, v => by
    simp only [decJ]
    intro x hx
    simp only [Denotes] at hx
    exact (decStr_text v).lead (fun _ => lead_ws) x hx
  | .byteArray n, _, v => by
    simp only [decJ]
    intro x hx
    simp only [Denotes] at hx
    exact (decArray_text full n v).lead (fun _ => lead_ws) x hx
  | .option t, h, none => by
    simp only [decJ]
    intro x hx ws ⟨hw, _⟩ s hs
    simp only [Denotes] at hx
    subst hx
    rw [lex_bind, dropWs_isValue hw Text.null]
    exact P.bind_ok (parseExact_ok strNull s)
  | .option t, h, some y => by
    simp only [decJ]
    intro x hx ws ⟨hw, _⟩ s hs
    simp only [Denotes] at hx
    have hv := denotes_isValue env t y x hx.1
    have h1 := decJ_denotes t (by simpa only [Ty.jsonNames] using h) y x hx.1 [] lead_nil s hs
    rw [List.nil_append] at h1
    rw [lex_bind, dropWs_isValue hw hv, if_neg (fun hc => hx.2 (isValue_null hv s hc))]
    exact P.bind_ok h1
  | .array n t, h, v => by
    simp only [decJ]
    intro x hx ws ⟨hw, _⟩ s hs
    simp only [Denotes] at hx
    simp only [Ty.jsonNames] at h
    obtain ⟨e, he, h1⟩ := arr_ws hx hw (s := s)
    have h2 := elems_arr (d := decJ full env t) (fun a _ x hx => denotes_isValue env t a x hx)
      (fun a _ => (decJ_denotes t h a).tight lead_nil) he s
    have h3 : toArray n v.1 = .ok v := by unfold toArray; rw [dif_pos v.2]
    rw [P.bind_ok h1, P.bind_ok h2, h3, P.bind_ok (ofExcept_ok v _),
      P.bind_ok (endSeq_close false s)]
    rfl
  | .vec t, h, v => by
    simp only [decJ]
    intro x hx
    simp only [Denotes] at hx
    simp only [Ty.jsonNames] at h
    exact (Decodes.lead (sequence_text (fun a _ x hx => denotes_isValue env t a x hx)
      (fun a _ => (decJ_denotes t h a).tight lead_nil)) fun _ => lead_ws) x hx
  | .set t, h, v => by
    simp only [decJ]
    intro x hx
    simp only [Denotes] at hx
    simp only [Ty.jsonNames] at h
    exact (Decodes.lead (sequence_text (fun a _ x hx => denotes_isValue env t a x hx)
      (fun a _ => (decJ_denotes t h a).tight lead_nil)) fun _ => lead_ws) x hx
  | .map k t, h, v => by
    simp only [decJ]
    intro x hx ws ⟨hw, _⟩ s hs
    simp only [Denotes] at hx
    simp only [Ty.jsonNames, Bool.and_eq_true] at h
    have := object_text (body := fun l => do
        let a ← decKey full k
        expect .colon
        let b ← decJ full env t
        pure (l ++ [(a, b)])) (fun l (x : k.Val × t.Val) => l ++ [x])
      (fun x => MemberL (KeyText k x.1) (Lead t) (Denotes env t x.2)) (es := v)
      (fun a _ x hx => memberL_quote (fun s => keyText_str k) hx)
      (fun a _ st x hx s hs => by
        have := member_textL (decKey_text full k h.1 a.1)
          (fun y => do let b ← decJ full env t; pure (st ++ [(y, b)])) (b := st ++ [a])
          (DecodesL.bind (decJ_denotes t h.2 a.2) (fun s => rfl)) x hx [] ws_nil s hs
        exact this) []
    have hfold : v.foldl (fun l x => l ++ [x]) [] = v := by
      have : ∀ (l acc : List (k.Val × t.Val)), l.foldl (fun l x => l ++ [x]) acc = acc ++ l := by
        intro l
        induction l with
        | nil => simp
        | cons a l ih => intro acc; simp [ih]
      simpa using this v []
    rw [hfold] at this
    exact this x hx ws hw s hs
  | .tuple ts, h, v => by
    simp only [decJ]
    intro x hx ws ⟨hw, _⟩ s hs
    simp only [Denotes] at hx
    simp only [Ty.jsonNames] at h
    obtain ⟨n, hx⟩ := hx
    obtain ⟨e, he, h1⟩ := arr_ws hx hw (s := s)
    obtain ⟨r, first', h2, h3⟩ := decTysJ_denotes ts h v true _ e s he
    rw [P.bind_ok h1, P.bind_ok h2]
    show (endSeq first' >>= _) _ = _
    rw [P.bind_ok (endSeq_after h3 s)]
    rfl
  | .result nt t u, h, .inl y => by
    simp only [decJ]
    intro x hx ws ⟨hw, _⟩ s hs
    simp only [Denotes] at hx
    simp only [Ty.jsonNames, Bool.and_eq_true] at h
    obtain ⟨e, ⟨b, m, r, hb, ⟨kx, c, f, z, hk, hc, hf, hz, rfl⟩, hr, rfl⟩, h1⟩ := obj_ws hx hw (s := s)
    have hr : Ws r := hr
    have hty : (resultName nt true).ty = nt := by cases nt <;> rfl
    have hkey := decNameK_text full (resultName nt true) kx hk b hb
      (c ++ 0x3A#8 :: (f ++ (z ++ (r ++ 0x7D#8 :: s)))) (noNumber_ws_cons hc (by
        intro b r h; cases h; unfold Digit; decide) _)
    rw [hty] at hkey
    have e1 : b ++ (kx ++ (c ++ 0x3A#8 :: (f ++ z)) ++ r) ++ 0x7D#8 :: s =
      b ++ (kx ++ (c ++ 0x3A#8 :: (f ++ (z ++ (r ++ 0x7D#8 :: s))))) := by simp
    rw [P.bind_ok h1, e1, P.bind_ok hkey, if_pos rfl,
      P.bind_ok (expect_ok (t := .colon) rfl hc _),
      P.bind_ok (decJ_denotes t h.1 y z hz f hf _ (noNumber_ws_cons hr noNumber_brace s)),
      P.bind_ok (expect_ok (t := .closeBrace) rfl hr s)]
    rfl
  | .result nt t u, h, .inr y => by
    simp only [decJ]
    intro x hx ws ⟨hw, _⟩ s hs
    simp only [Denotes] at hx
    simp only [Ty.jsonNames, Bool.and_eq_true] at h
    obtain ⟨e, ⟨b, m, r, hb, ⟨kx, c, f, z, hk, hc, hf, hz, rfl⟩, hr, rfl⟩, h1⟩ := obj_ws hx hw (s := s)
    have hr : Ws r := hr
    have hty : (resultName nt false).ty = nt := by cases nt <;> rfl
    have hkey := decNameK_text full (resultName nt false) kx hk b hb
      (c ++ 0x3A#8 :: (f ++ (z ++ (r ++ 0x7D#8 :: s)))) (noNumber_ws_cons hc (by
        intro b r h; cases h; unfold Digit; decide) _)
    rw [hty] at hkey
    have e1 : b ++ (kx ++ (c ++ 0x3A#8 :: (f ++ z)) ++ r) ++ 0x7D#8 :: s =
      b ++ (kx ++ (c ++ 0x3A#8 :: (f ++ (z ++ (r ++ 0x7D#8 :: s))))) := by simp
    rw [P.bind_ok h1, e1, P.bind_ok hkey, if_neg (by cases nt <;> decide), if_pos rfl,
      P.bind_ok (expect_ok (t := .colon) rfl hc _),
      P.bind_ok (decJ_denotes u h.2 y z hz f hf _ (noNumber_ws_cons hr noNumber_brace s)),
      P.bind_ok (expect_ok (t := .closeBrace) rfl hr s)]
    rfl
  | .boxed t, h, v => by
    simp only [decJ]
    intro x hx
    simp only [Denotes] at hx
    exact decJ_denotes t (by simpa only [Ty.jsonNames] using h) v x hx
  | .wrapping t, h, v => by
    simp only [decJ]
    intro x hx
    simp only [Denotes] at hx
    exact decJ_denotes t (by simpa only [Ty.jsonNames] using h) v x hx
  | .transparent t, h, v => by
    simp only [decJ]
    intro x hx
    simp only [Denotes] at hx
    exact decJ_denotes t (by simpa only [Ty.jsonNames] using h) v x hx
  | .unitStruct, _, v => by
    simp only [decJ]
    intro x hx ws ⟨hw, _⟩ s hs
    simp only [Denotes] at hx
    obtain ⟨hv, r, rfl⟩ := hx
    rw [List.cons_append, P.bind_ok (expect_ok (t := .openBrace) rfl hw _)]
    exact endMap_isValue hv s
  | .strct nt fs, h, v => by
    simp only [decJ]
    intro x hx ws ⟨hw, _⟩ s hs
    simp only [Denotes] at hx
    simp only [Ty.jsonNames, Bool.and_eq_true] at h
    obtain ⟨hnd, hty⟩ := namesOk_iff h.1
    obtain ⟨es, hu, ha, hx⟩ := hx
    have := object_text (body := fun p => do
        let n ← decNameK full nt
        expect .colon
        decEntryJ full env fs n p) (fs.setAny (β := Name)) (reprEntry fs (reprKnown env fs)) (es := es)
      (fun a _ x hx => by
        cases a with
        | inl k => exact memberL_quote (fun s => nameKey_str) hx
        | inr n => exact member_quote (fun s => nameKey_str) hx)
      (fun a hmem st x hx s hs => by
        cases a with
        | inl k =>
          have hk := decNameK_text full (fs.keyOf k)
          rw [hty _ (keyOf_mem fs k)] at hk
          exact member_textL hk (fun n => decEntryJ full env fs n st)
            (decEntryJ_denotes fs h.2 hnd k st) x hx [] ws_nil s hs
        | inr n =>
          have hk := decNameK_text full n
          rw [(hu n hmem).2] at hk
          exact member_text hk (fun n => decEntryJ full env fs n st)
            (decEntryJ_unknown full env fs n (hu n hmem).1 st) x hx [] ws_nil s hs) fs.none
    rw [P.bind_ok (this x hx ws hw s hs), foldl_known, finish_assemble, ha]
    rfl
  | .packed _ fs, h, v => by
    simp only [decJ]
    intro x hx ws ⟨hw, _⟩ s hs
    simp only [Denotes] at hx
    simp only [Ty.jsonNames] at h
    obtain ⟨n, hx⟩ := hx
    obtain ⟨e, he, h1⟩ := arr_ws hx hw (s := s)
    obtain ⟨r, first', h2, h3⟩ := decPackJ_denotes fs h v true _ e s he
    rw [P.bind_ok h1, P.bind_ok h2]
    show (endSeq first' >>= _) _ = _
    rw [P.bind_ok (endSeq_after h3 s)]
    rfl
  | .unitEnum nt names, h, v => by
    simp only [decJ]
    intro x hx
    simp only [Denotes] at hx
    simp only [Ty.jsonNames] at h
    obtain ⟨h1, h2⟩ := namesOk_iff h
    have h3 := h2 names[v] (List.getElem_mem _)
    have := decNameV_text full names[v]
    rw [h3] at this
    refine (Decodes.lead (Decodes.bind this ?_) fun _ => lead_ws) x hx
    intro s
    rw [findName_get names h1 v]
    rfl
  | .enm nt vs, h, v => by
    simp only [decJ]
    intro x hx ws ⟨hw, _⟩ s hs
    simp only [Denotes] at hx
    simp only [Ty.jsonNames, Bool.and_eq_true] at h
    obtain ⟨hnd, hty⟩ := namesOk_iff h.1
    obtain ⟨e, ⟨b, m, r, hb, hm, hr, rfl⟩, h1⟩ := obj_ws hx hw (s := s)
    have hr : Ws r := hr
    obtain ⟨n, z, k, hn, hk, hnn, hm2, hd⟩ := decVariantsJ_denotes vs h.2 hnd v m hm
    have hkey := decNameK_text full n z hk b hb (k ++ (r ++ 0x7D#8 :: s)) (by
      obtain ⟨y, q, rfl, hy⟩ := hnn
      rw [List.append_assoc, List.cons_append]
      exact noNumber_ws_cons hy (by intro b r h; cases h; unfold Digit; decide) _)
    rw [hty n hn] at hkey
    have e1 : b ++ (m ++ r) ++ 0x7D#8 :: s = b ++ (z ++ (k ++ (r ++ 0x7D#8 :: s))) := by simp [hm2]
    rw [P.bind_ok h1, e1, P.bind_ok hkey,
      P.bind_ok (hd _ (noNumber_ws_cons hr noNumber_brace s)),
      P.bind_ok (expect_ok (t := .closeBrace) rfl hr s)]
    rfl

theorem decTysJ_denotes : ∀ (ts : Tys), ts.jsonNames = true → ∀ (v : ts.Val) (first : Bool)
    (qs : List (Bytes → Prop)) (e s : Bytes), After first (reprTys env ts v ++ qs) e →
    ∃ r first', decTysJ full env ts first (e ++ 0x5D#8 :: s) =
      .ok ((v, first'), r ++ 0x5D#8 :: s) ∧ After first' qs r
  | .nil, _, v, first, qs, e, s, h => by
    simp only [reprTys, List.nil_append] at h
    exact ⟨e, first, by simp only [decTysJ]; rfl, h⟩
  | .cons t ts, hn, v, first, qs, e, s, h => by
    simp only [Tys.jsonNames, Bool.and_eq_true] at hn
    simp only [reprTys, List.cons_append] at h
    obtain ⟨x, r, hx, hr, h1, _⟩ := after_cons h
    have h2 := decJ_denotes t hn.1 v.1 x hx [] lead_nil _ (more_noNumber hr noNumber_bracket s)
    rw [List.nil_append] at h2
    obtain ⟨r', first', h3, h4⟩ := decTysJ_denotes ts hn.2 v.2 false qs r s hr
    refine ⟨r', first', ?_, h4⟩
    simp only [decTysJ]
    rw [P.bind_ok (needNext_value (h1 (denotes_isValue env t v.1 x hx) _)), P.bind_ok h2, P.bind_ok h3]
    rfl

theorem decEntryJ_denotes : ∀ (fs : Fields), fs.jsonNames = true → fs.names.Nodup →
    ∀ (k : fs.Known) (p : fs.Partial),
      DecodesL (leadKnown fs k) (decEntryJ full env fs (fs.keyOf k) p) (fs.set k p) (reprKnown env fs k)
  | .nil, _, _, k, _ => nomatch k
  | .cons n d sk t fs, h, hnd, .inl v, p => by
    simp only [Fields.jsonNames, Bool.and_eq_true] at h
    simp only [decEntryJ, Fields.keyOf, if_true]
    intro x hx
    simp only [reprKnown] at hx
    exact DecodesL.bind (decJ_denotes t h.1 v) (fun s => rfl) x hx
  | .cons n d sk t fs, h, hnd, .inr k, p => by
    simp only [Fields.jsonNames, Bool.and_eq_true] at h
    simp only [Fields.names, List.nodup_cons] at hnd
    have hne : ¬ n = fs.keyOf k := fun hc => hnd.1 (hc ▸ keyOf_mem fs k)
    show DecodesL _ (decEntryJ full env (.cons n d sk t fs) (fs.keyOf k) p) _ _
    simp only [decEntryJ]
    rw [if_neg hne]
    intro x hx
    simp only [reprKnown] at hx
    exact DecodesL.bind (decEntryJ_denotes fs h.2 hnd.2 k p.2) (fun s => rfl) x hx

theorem decPackJ_denotes : ∀ (fs : Fields), fs.jsonNames = true → ∀ (v : fs.Val) (first : Bool)
    (qs : List (Bytes → Prop)) (e s : Bytes), After first (reprFields env fs v ++ qs) e →
    ∃ r first', decPackJ full env fs first (e ++ 0x5D#8 :: s) =
      .ok ((v, first'), r ++ 0x5D#8 :: s) ∧ After first' qs r
  | .nil, _, v, first, qs, e, s, h => by
    simp only [reprFields, List.nil_append] at h
    exact ⟨e, first, by simp only [decPackJ]; rfl, h⟩
  | .cons _ _ _ t ts, hn, v, first, qs, e, s, h => by
    simp only [Fields.jsonNames, Bool.and_eq_true] at hn
    simp only [reprFields, List.cons_append] at h
    obtain ⟨x, r, hx, hr, h1, _⟩ := after_cons h
    have h2 := decJ_denotes t hn.1 v.1 x hx [] lead_nil _ (more_noNumber hr noNumber_bracket s)
    rw [List.nil_append] at h2
    obtain ⟨r', first', h3, h4⟩ := decPackJ_denotes ts hn.2 v.2 false qs r s hr
    refine ⟨r', first', ?_, h4⟩
    simp only [decPackJ]
    rw [P.bind_ok (needNext_value (h1 (denotes_isValue env t v.1 x hx) _)), P.bind_ok h2, P.bind_ok h3]
    rfl

theorem decVariantsJ_denotes : ∀ (vs : Variants), vs.jsonNames = true → vs.names.Nodup →
    ∀ (v : vs.Val) (m : Bytes), reprVariant env vs v m →
    ∃ n z k, n ∈ vs.names ∧ NameKey n z ∧ (∃ y q, k = y ++ 0x3A#8 :: q ∧ Ws y) ∧ m = z ++ k ∧
      ∀ s, NoNumber s → decVariantsJ full env vs n (k ++ s) = .ok (v, s)
  | .nil, _, _, v, _, _ => nomatch v
  | .cons n t vs, h, hnd, .inl x, m, hm => by
    simp only [Variants.jsonNames, Bool.and_eq_true] at h
    simp only [reprVariant] at hm
    obtain ⟨kx, c, f, z, hk, hc, hf, hz, rfl⟩ := hm
    refine ⟨n, kx, _, by simp [Variants.names], hk, ⟨c, f ++ z, rfl, hc⟩, rfl, ?_⟩
    intro s hs
    simp only [decVariantsJ, if_true]
    have e1 : c ++ 0x3A#8 :: (f ++ z) ++ s = c ++ 0x3A#8 :: (f ++ (z ++ s)) := by simp
    rw [e1, P.bind_ok (expect_ok (t := .colon) rfl hc _), P.bind_ok (decJ_denotes t h.1 x z hz f hf s hs)]
    rfl
  | .cons n t vs, h, hnd, .inr x, m, hm => by
    simp only [Variants.jsonNames, Bool.and_eq_true] at h
    simp only [Variants.names, List.nodup_cons] at hnd
    simp only [reprVariant] at hm
    obtain ⟨n', z, k, hn, hk, hnn, rfl, hd⟩ := decVariantsJ_denotes vs h.2 hnd.2 x m hm
    refine ⟨n', z, k, by simp [Variants.names, hn], hk, hnn, rfl, ?_⟩
    intro s hs
    simp only [decVariantsJ]
    have hne : ¬ n = n' := fun hc => hnd.1 (hc ▸ hn)
    rw [if_neg hne, P.bind_ok (hd s hs)]
    rfl

end
end

end Musli.Json
