import Verif.Model.PackedField
import Verif.Spec.PackedField
import Verif.Proofs.RoundTrip
import Verif.Proofs.Json.DecodeTy
import Verif.Proofs.Json.Encode
/-!
# Packed fields
-/
set_option linter.unusedSectionVars false
namespace Musli.PackedField
open Musli

theorem delimits_fmt [Host] (o : Options) (m : Mode) : (m.fmt o).delimited = delimits m := by
  cases m <;> rfl

section
variable [Host] (o : Options) (env : Env)

theorem native_packed : (Mode.packed.fmt o).native = Opt.isNativeFixed o := rfl

theorem rtElem {t : Ty} (h : Packable o t = true) (henv : t.envOk env) :
    RT false (viaE o env t .packed) (viaD o env t .packed) :=
  rtVia o env (m := .packed) (tail := false) h (fun ht => rtD o env t .packed false ht henv)

theorem pushAll_cons (t : Ty) (a : t.Val) (l : List t.Val) :
    pushAll o env t (a :: l) = viaE o env t .packed a +> pushAll o env t l := rfl

theorem all_append {α} (f : α → Enc) : ∀ (l l' : List α),
    Enc.all f (l ++ l') = Enc.all f l +> Enc.all f l'
  | [], l' => by simp [Enc.all, Enc.seq]; cases Enc.all f l' <;> rfl
  | a :: l, l' => by
    rw [List.cons_append, Enc.all, Enc.all, all_append f l l']
    cases f a <;> cases Enc.all f l <;> cases Enc.all f l' <;> simp [Enc.seq]

theorem pushAll_append (t : Ty) (l l' : List t.Val) :
    pushAll o env t (l ++ l') = pushAll o env t l +> pushAll o env t l' := all_append _ l l'

theorem inPack_eq_ok {F : Fmt} {e : Enc} {bs : Bytes} (h : inPack F e = .ok bs) :
    ∃ b, e = .ok b ∧ F.encPack b = .ok bs := by
  unfold inPack at h
  cases e with
  | error e => cases h
  | ok b => exact ⟨b, rfl, h⟩

/-- The first elements of a pack. -/
theorem dec_prefix {t : Ty} (h : Packable o t = true) (henv : t.envOk env) (l l' : List t.Val)
    {b : Bytes} (r : Bytes) (hb : pushAll o env t (l ++ l') = .ok b) :
    ∃ b', pushAll o env t l' = .ok b' ∧
      decN (viaD o env t .packed) l.length (b ++ r) = .ok (l, b' ++ r) := by
  rw [pushAll_append] at hb
  obtain ⟨x, y, hx, hy, rfl⟩ := Enc.seq_eq_ok.mp hb
  refine ⟨y, hy, ?_⟩
  rw [List.append_assoc]
  exact decN_all (rtElem o env h henv) l x (y ++ r) hx

theorem array_prefix {m : Mode} (hm : delimits m = true) {t : Ty} (h : Packable o t = true)
    (henv : t.envOk env) (l l' : List t.Val) {bs : Bytes} (r : Bytes)
    (hb : encArray o env m t (l ++ l') = .ok bs) :
    decArray o env m t l.length (bs ++ r) = .ok (l, r) := by
  obtain ⟨b, hb, hp⟩ := inPack_eq_ok hb
  obtain ⟨b', _, hd⟩ := dec_prefix o env h henv l l' [] hb
  rw [List.append_nil] at hd
  exact (m.lawful o).pack' (by rw [delimits_fmt]; exact hm) b bs r hp _ l _ hd

theorem array_plain {m : Mode} (hm : delimits m = false) {t : Ty} (h : Packable o t = true)
    (henv : t.envOk env) (l l' : List t.Val) {bs : Bytes} (r : Bytes)
    (hb : encArray o env m t (l ++ l') = .ok bs) :
    ∃ bs', encArray o env m t l' = .ok bs' ∧
      decArray o env m t l.length (bs ++ r) = .ok (l, bs' ++ r) := by
  obtain ⟨b, hb, hp⟩ := inPack_eq_ok hb
  have hdl : (m.fmt o).delimited = false := by rw [delimits_fmt]; exact hm
  rw [(m.lawful o).encPlain hdl] at hp
  cases hp
  obtain ⟨b', hb', hd⟩ := dec_prefix o env h henv l l' r hb
  refine ⟨b', ?_, ?_⟩
  · unfold encArray
    rw [hb']
    exact (m.lawful o).encPlain hdl b'
  · unfold decArray
    rw [(m.lawful o).decPlain hdl]
    exact hd

theorem array_rt (m : Mode) {t : Ty} (h : Packable o t = true)
    (henv : t.envOk env) (l : List t.Val) {bs : Bytes} (r : Bytes)
    (hb : encArray o env m t l = .ok bs) :
    decArray o env m t l.length (bs ++ r) = .ok (l, r) := by
  cases hm : delimits m with
  | true =>
    exact array_prefix o env hm h henv l [] r (by rw [List.append_nil]; exact hb)
  | false =>
    obtain ⟨bs', h1, h2⟩ := array_plain o env hm h henv l [] r (by rw [List.append_nil]; exact hb)
    have : encArray o env m t [] = .ok [] := (m.lawful o).encPlain (by rw [delimits_fmt]; exact hm) []
    rw [this] at h1
    cases h1
    exact h2

/-! ## Tuples -/

theorem decTys_nexts : ∀ (ts : Tys) (left : Nat) (s : Bytes),
    decTys o env ts .packed (left + ts.length) s =
      (nexts o env ts s).map (fun p => ((p.1, left), p.2))
  | .nil, left, s => by simp only [decTys, nexts]; rfl
  | .cons t ts, left, s => by
    have e : left + (Tys.cons t ts).length = (left + ts.length) + 1 := rfl
    rw [e]
    simp only [decTys, nexts]
    show (viaD o env t .packed >>= _) s = _
    rw [Dec.bind_apply, Dec.bind_apply]
    cases viaD o env t .packed s with
    | error e => rfl
    | ok p =>
      obtain ⟨a, r⟩ := p
      dsimp only
      rw [Dec.bind_apply, Dec.bind_apply, decTys_nexts ts left r]
      cases nexts o env ts r with
      | error e => rfl
      | ok p => rfl

theorem nexts_rt {ts : Tys} {tail : Bool}
    (h : ts.ok (Opt.isNativeFixed o) (hostOrder o) .packed tail = true) (henv : ts.envOk env) :
    RT tail (encTys o env ts .packed) (nexts o env ts) := by
  intro v bs r he hr
  have := rtTys o env ts .packed tail h henv v bs r he hr 0
  rw [decTys_nexts] at this
  cases hn : nexts o env ts (bs ++ r) with
  | error e => rw [hn] at this; cases this
  | ok p =>
    obtain ⟨v', r'⟩ := p
    rw [hn] at this
    cases this
    rfl

theorem tuple_rt (m : Mode) {ts : Tys} (h : PackableAll o m ts = true) (henv : ts.envOk env)
    (v : ts.Val) {bs : Bytes} (r : Bytes) (hb : encTuple o env m ts v = .ok bs) :
    decTuple o env m ts (bs ++ r) = .ok (v, r) := by
  obtain ⟨b, hb', hp⟩ := inPack_eq_ok hb
  unfold PackableAll at h
  cases hm : delimits m with
  | true =>
    rw [hm] at h
    have := nexts_rt o env h henv v b [] hb' (fun _ => rfl)
    rw [List.append_nil] at this
    exact (m.lawful o).pack' (by rw [delimits_fmt]; exact hm) b bs r hp _ v [] this
  | false =>
    rw [hm] at h
    have hdl : (m.fmt o).delimited = false := by rw [delimits_fmt]; exact hm
    rw [(m.lawful o).encPlain hdl] at hp
    obtain rfl : b = bs := Except.ok.inj hp
    unfold decTuple
    rw [(m.lawful o).decPlain hdl]
    exact nexts_rt o env h henv v b r hb' (fun h => nomatch h)

/-! ## Tuples and structs -/

variable {o} in
theorem viaE_slow (hn : Opt.isNativeFixed o = false) (t : Ty) (v : t.Val) :
    viaE o env t .packed v = encD o env t .packed v := by
  unfold viaE
  rw [native_packed, hn]; rfl

variable {o} in
theorem viaD_slow (hn : Opt.isNativeFixed o = false) (t : Ty) :
    viaD o env t .packed = decD o env t .packed := by
  unfold viaD
  rw [native_packed, hn]; rfl

variable {o} in
theorem encPackFields_tuple (hn : Opt.isNativeFixed o = false) : ∀ (ts : Tys) (names : List Name)
    (v : ts.Val), encPackFields o env (fieldsOf ts names) .packed (toFields ts names v) =
      encTys o env ts .packed v
  | .nil, _, _ => by simp only [fieldsOf, encPackFields, encTys]
  | .cons t ts, [], v => by
    have ih := encPackFields_tuple hn ts [] v.2
    simp only [fieldsOf, toFields, encPackFields, encTys, fieldPresent, ih, if_true]
    rw [show fastE ((Mode.packed.fmt o).native && t.bwE) (t.rawE v.1) (encD o env t .packed v.1) =
      viaE o env t .packed v.1 from rfl, viaE_slow env hn]
  | .cons t ts, _ :: names, v => by
    have ih := encPackFields_tuple hn ts names v.2
    simp only [fieldsOf, toFields, encPackFields, encTys, fieldPresent, ih, if_true]
    rw [show fastE ((Mode.packed.fmt o).native && t.bwE) (t.rawE v.1) (encD o env t .packed v.1) =
      viaE o env t .packed v.1 from rfl, viaE_slow env hn]

variable {o} in
theorem decPackFields_tuple (hn : Opt.isNativeFixed o = false) : ∀ (ts : Tys) (names : List Name)
    (s : Bytes), decPackFields o env (fieldsOf ts names) .packed s =
      (nexts o env ts s).map (fun p => (toFields ts names p.1, p.2))
  | .nil, _, _ => by simp only [fieldsOf, decPackFields, nexts]; rfl
  | .cons t ts, [], s => by
    have ih := decPackFields_tuple hn ts []
    simp only [fieldsOf, decPackFields, nexts]
    rw [viaD_slow env hn, Dec.bind_apply, Dec.bind_apply]
    cases decD o env t .packed s with
    | error e => rfl
    | ok p =>
      obtain ⟨a, r⟩ := p
      dsimp only
      rw [Dec.bind_apply, Dec.bind_apply, ih r]
      cases nexts o env ts r with
      | error e => rfl
      | ok p => rfl
  | .cons t ts, n :: names, s => by
    have ih := decPackFields_tuple hn ts names
    simp only [fieldsOf, decPackFields, nexts]
    rw [viaD_slow env hn, Dec.bind_apply, Dec.bind_apply]
    cases decD o env t .packed s with
    | error e => rfl
    | ok p =>
      obtain ⟨a, r⟩ := p
      dsimp only
      rw [Dec.bind_apply, Dec.bind_apply, ih r]
      cases nexts o env ts r with
      | error e => rfl
      | ok p => rfl

theorem native_slow {o : Options} (hn : Opt.isNativeFixed o = false) (m : Mode) :
    (m.fmt o).native = false := by
  cases m
  · exact hn
  · exact hn
  · rfl
  · rfl

variable {o} in
theorem struct_enc (hn : Opt.isNativeFixed o = false) (lay : Bool) (m : Mode) (ts : Tys)
    (names : List Name) (v : ts.Val) :
    encD o env (.packed lay (fieldsOf ts names)) m (toFields ts names v) = encTuple o env m ts v := by
  rw [encD, native_slow hn, Bool.false_and, if_neg (by decide), encPackFields_tuple env hn]
  unfold encTuple inPack
  cases encTys o env ts .packed v <;> rfl

theorem limited_map {α β} {d : Dec α} {e : Dec β} {f : β → α}
    (h : ∀ s, d s = (e s).map (fun p => (f p.1, p.2))) (n : Nat) (s : Bytes) :
    limited n d s = (limited n e s).map (fun p => (f p.1, p.2)) := by
  unfold limited
  rw [h]
  cases e (s.take n) with
  | error e => rfl
  | ok p =>
    show (if _ then _ else _) = Except.map _ (if _ then _ else _)
    split <;> rfl

theorem decPack_map (m : Mode) {α β} {d : Dec α} {e : Dec β} {f : β → α}
    (h : ∀ s, d s = (e s).map (fun p => (f p.1, p.2))) (s : Bytes) :
    (m.fmt o).decPack d s = ((m.fmt o).decPack e s).map (fun p => (f p.1, p.2)) := by
  cases m
  · exact h s
  · exact h s
  · show Wire.decPack o d s = (Wire.decPack o e s).map _
    unfold Wire.decPack
    rw [Dec.bind_apply, Dec.bind_apply]
    split
    · exact limited_map h _ _
    · rfl
  · show Desc.decPack o d s = (Desc.decPack o e s).map _
    unfold Desc.decPack
    rw [Dec.bind_apply, Dec.bind_apply]
    split
    · exact limited_map h _ _
    · rfl

variable {o} in
theorem struct_dec (hn : Opt.isNativeFixed o = false) (lay : Bool) (m : Mode) (ts : Tys)
    (names : List Name) (s : Bytes) :
    decD o env (.packed lay (fieldsOf ts names)) m s =
      (decTuple o env m ts s).map (fun p => (toFields ts names p.1, p.2)) := by
  rw [decD, native_slow hn, Bool.false_and, if_neg (by decide)]
  exact decPack_map o m (decPackFields_tuple env hn ts names) s

/-! ## Lists and deques -/

theorem encodeSlice_eq (m : Mode) (t : Ty) (l : List t.Val) :
    encodeSlice o env m t l = pushAll o env t l := by
  unfold encodeSlice
  split
  · rename_i h
    have hn : ((Mode.packed.fmt o).native && t.bwE) = true := by
      cases m
      · exact h
      · exact h
      · cases h
      · cases h
    have e : viaE o env t .packed = fun v => .ok (t.rawE v) := by
      funext v
      unfold viaE fastE
      rw [hn, if_pos rfl]
    unfold pushAll
    rw [e, all_ok]
  · rfl

theorem seq_nil (e : Enc) : e +> .ok [] = e := by cases e <;> simp [Enc.seq]

theorem encVec_eq (m : Mode) (t : Ty) (l : List t.Val) :
    encVec o env m t l = encArray o env m t l := by
  unfold encVec encArray; rw [encodeSlice_eq]

theorem encDeque_eq (m : Mode) (t : Ty) (a b : List t.Val) :
    encDeque o env m t a b = encArray o env m t (a ++ b) := by
  unfold encDeque encArray
  rw [pushAll_append, encodeSlices, encodeSlices, encodeSlices, encodeSlice_eq, encodeSlice_eq, seq_nil]

/-! ## Values -/

theorem value_prefix {t : Ty} (h : Packable o t = true) (henv : t.envOk env) (l l' : List t.Val)
    {x : Value} (hx : encArrayV o env t (l ++ l') = .ok (some x)) :
    decArrayV o env t l.length x = .ok l := by
  unfold encArrayV outBytes at hx
  cases hb : pushAll o env t (l ++ l') with
  | error e => rw [hb] at hx; cases hx
  | ok b =>
    rw [hb] at hx
    cases hx
    obtain ⟨b', _, hd⟩ := dec_prefix o env h henv l l' [] hb
    rw [List.append_nil] at hd
    show onPack _ b = _
    unfold onPack
    rw [hd]

theorem value_tuple {ts : Tys} (h : ts.ok (Opt.isNativeFixed o) (hostOrder o) .packed true = true)
    (henv : ts.envOk env) (v : ts.Val) {x : Value} (hx : encTupleV o env ts v = .ok (some x)) :
    decTupleV o env ts x = .ok v := by
  unfold encTupleV outBytes at hx
  cases hb : encTys o env ts .packed v with
  | error e => rw [hb] at hx; cases hx
  | ok b =>
    rw [hb] at hx
    cases hx
    have := nexts_rt o env h henv v b [] hb (fun _ => rfl)
    rw [List.append_nil] at this
    show onPack _ b = _
    unfold onPack
    rw [this]

end

/-! ## JSON -/

section
open Json Json.Spec
variable (full : Bool) (env : Env)

theorem nextsJ_after {t : Ty} (hn : t.jsonNames = true) : ∀ (l : List t.Val) (first : Bool)
    (qs : List (Bytes → Prop)) (e s : Bytes), After first (l.map (Denotes env t) ++ qs) e →
    ∃ r first', nextsJ full env t l.length first (e ++ 0x5D#8 :: s) =
      .ok ((l, first'), r ++ 0x5D#8 :: s) ∧ After first' qs r
  | [], first, qs, e, s, h => ⟨e, first, rfl, h⟩
  | a :: l, first, qs, e, s, h => by
    obtain ⟨x, r, hx, hr, h1, _⟩ := after_cons (by simpa using h)
    have h2 := decJ_denotes full env t hn a x hx [] lead_nil _ (more_noNumber hr noNumber_bracket s)
    rw [List.nil_append] at h2
    obtain ⟨r', first', h3, h4⟩ := nextsJ_after hn l false qs r s hr
    refine ⟨r', first', ?_, h4⟩
    show (needNext first >>= _) _ = _
    rw [P.bind_ok (needNext_value (h1 (denotes_isValue env t a x hx) _)), P.bind_ok h2, P.bind_ok h3]
    rfl

theorem json_array {t : Ty} (hn : t.jsonNames = true) (l : List t.Val) (k : Nat) (ws x s : Bytes)
    (hw : Ws ws) (hx : Arr (l.map (Denotes env t) ++ List.replicate k IsValue) x) :
    decArrayJ full env t l.length (ws ++ x ++ s) = .ok (l, s) := by
  obtain ⟨e, he, h1⟩ := arr_ws hx hw (s := s)
  obtain ⟨r, first', h2, h3⟩ := nextsJ_after full env hn l true _ e s he
  unfold decArrayJ
  rw [List.append_assoc, P.bind_ok h1, P.bind_ok h2]
  show (endSeq first' >>= _) _ = _
  rw [P.bind_ok (endSeq_after h3 s)]
  rfl

end
end Musli.PackedField
