import Verif.Proofs.MapAccess
/-!
# C99: reading a map by hand
-/
namespace Musli

section
variable [Host] (o : Options) (env : Env)

theorem endMap_skip {α} {F : Fmt} {enc : α → Enc} (rest : Bytes)
    (hz : ∀ s, F.endMap 0 s = .ok ((), s))
    (hs : ∀ n s, F.endMap (n + 1) s = (do let _ ← F.skip; let _ ← F.skip; F.endMap n : Dec Unit) s)
    (h : ∀ a y r, enc a = .ok y → (do let _ ← F.skip; F.skip : Dec Unit) (y ++ r) = .ok ((), r)) :
    ∀ l y, Enc.all enc l = .ok y → F.endMap l.length (y ++ rest) = .ok ((), rest)
  | [], y, hy => by cases hy; exact hz rest
  | a :: l, y, hy => by
    obtain ⟨y1, y2, hy1, hy2, rfl⟩ := Enc.seq_eq_ok.mp hy
    rw [List.length_cons, hs, List.append_assoc]
    have h1 := h a y1 (y2 ++ rest) hy1
    rw [Dec.bind_apply] at h1 ⊢
    revert h1
    cases F.skip (y1 ++ (y2 ++ rest)) with
    | error e => intro h1; cases h1
    | ok x =>
      intro h1
      have h1 : F.skip x.2 = .ok ((), y2 ++ rest) := h1
      show (F.skip >>= fun _ => F.endMap l.length) x.2 = _
      rw [Dec.bind_ok h1]
      exact endMap_skip rest hz hs h l y2 hy2

/-- **C99 (partial).** Wire: whatever a closure of `decode_map` calls, each entry comes once and in
order, and afterwards the decoder stands right behind the map. Missing: keys and values which cannot be skipped,
see C13; with variable lengths, the default, there are none. -/
theorem C99_wire_partial (k t : Ty) (ht : Supported o .wire (.map k t) = true)
    (henv : (Ty.map k t).envOk env) (hk : WireSkippable o k = true) (hv : WireSkippable o t = true)
    (ops : List MapOp) (v : List (k.Val × t.Val)) (bs rest : Bytes)
    (he : encode o env .wire (.map k t) v = .ok bs) :
    decodeMapWith o env .wire k t ops (bs ++ rest) = .ok (MapOp.sees ops v, rest) := by
  refine decodeMapWith_takes o env (m := .wire) rfl ht henv ops v bs rest ?_ he
  refine endMap_skip (F := Mode.wire.fmt o) rest (fun _ => rfl) (fun _ _ => rfl) ?_
  intro a y r hy
  obtain ⟨y1, y2, h1, h2, rfl⟩ := Enc.seq_eq_ok.mp hy
  have e1 : encode o env .wire k a.1 = .ok y1 := h1
  have e2 : encode o env .wire t a.2 = .ok y2 := h2
  show (Wire.skip o >>= fun _ => Wire.skip o) _ = _
  rw [List.append_assoc, Dec.bind_ok (C13_wire_skip_partial o env k hk a.1 y1 _ e1)]
  exact C13_wire_skip_partial o env t hv a.2 y2 r e2

/-- **C99.** Descriptive: the same, for all maps. -/
theorem C99_descriptive (k t : Ty) (ht : Supported o .descriptive (.map k t) = true)
    (henv : (Ty.map k t).envOk env) (ops : List MapOp) (v : List (k.Val × t.Val)) (bs rest : Bytes)
    (he : encode o env .descriptive (.map k t) v = .ok bs) :
    decodeMapWith o env .descriptive k t ops (bs ++ rest) = .ok (MapOp.sees ops v, rest) := by
  obtain ⟨hk, hv⟩ : k.ok _ _ .descriptive false = true ∧ t.ok _ _ .descriptive false = true := by
    simpa only [Supported, Ty.ok, Bool.and_eq_true, Mode.fast, Bool.false_eq_true, false_and, if_false] using ht
  refine decodeMapWith_takes o env (m := .descriptive) rfl ht henv ops v bs rest ?_ he
  refine endMap_skip (F := Mode.descriptive.fmt o) rest (fun _ => rfl) (fun _ _ => rfl) ?_
  intro a y r hy
  obtain ⟨y1, y2, h1, h2, rfl⟩ := Enc.seq_eq_ok.mp hy
  have e1 : encode o env .descriptive k a.1 = .ok y1 := h1
  have e2 : encode o env .descriptive t a.2 = .ok y2 := h2
  show (Desc.skip o >>= fun _ => Desc.skip o) _ = _
  rw [List.append_assoc, Dec.bind_ok (C17_descriptive_skip_partial o env k (k.counted_of_ok rfl _ hk) a.1 y1 _ e1)]
  exact C17_descriptive_skip_partial o env t (t.counted_of_ok rfl _ hv) a.2 y2 r e2

/-- **C99 (partial).** Storage: a closure that takes single entries gets each once and in order; if it
takes all (`n` calls, at least one for each entry) the decoder stands right behind the map, and if it
leaves some this is an error. Missing: asking for the remaining entries. -/
theorem C99_storage_partial (k t : Ty) (ht : Supported o .storage (.map k t) = true)
    (henv : (Ty.map k t).envOk env) (ops : List MapOp) (n : Nat) (hn : MapOp.singles ops = some n)
    (v : List (k.Val × t.Val)) (bs rest : Bytes)
    (he : encode o env .storage (.map k t) v = .ok bs) :
    (v.length ≤ n →
      decodeMapWith o env .storage k t ops (bs ++ rest) = .ok (MapOp.sees ops v, rest)) ∧
    (n < v.length → (decodeMapWith o env .storage k t ops (bs ++ rest)).isOk = false) := by
  obtain ⟨a, b, ha, hb, rfl⟩ := map_entries o env he
  obtain ⟨y', h1, h2⟩ := mapOps_singles (F := Mode.storage.fmt o) (map_pair o env ht henv) rest false ops n hn v b hb
  constructor
  · intro hl
    rw [List.drop_eq_nil_of_le hl] at h1 h2
    cases h1
    unfold decodeMapWith
    rw [List.append_assoc, Dec.bind_ok ((Mode.storage.lawful o).map _ a _ ha)]
    show (mapOps _ false _ _ _ >>= _) _ = _
    rw [Dec.bind_ok h2]
    rfl
  · intro hl
    obtain ⟨m, hm⟩ : ∃ m, (v.drop n).length = m + 1 := ⟨v.length - n - 1, by rw [List.length_drop]; omega⟩
    unfold decodeMapWith
    rw [List.append_assoc, Dec.bind_ok ((Mode.storage.lawful o).map _ a _ ha)]
    show ((mapOps _ false _ _ _ >>= _) _).isOk = false
    rw [Dec.bind_ok h2, hm]
    rfl

/-- **C99 (partial).** Values: from whatever value a map can be read, a closure sees each entry once and in
order, as long as nothing follows the call that asks for the remaining entries. -/
theorem C99_value_partial (k t : Ty) (ops : List MapOp) (h : Value.restLast ops = true) (x : Value)
    (v : List (k.Val × t.Val)) (hx : fromValue o env (.map k t) x = .ok v) :
    Value.decodeMapWith o env k t ops x = .ok (MapOp.sees ops v) :=
  Value.decodeMapWith_restLast o env k t ops h x v hx

end

/-- **C99 (partial).** JSON: the same from any JSON text of a map, whatever its whitespace, as long as the remaining entries are
asked for once; the second time is an error. -/
theorem C99_json_partial (full : Bool) (env : Env) (k t : Ty) (hn : (Ty.map k t).jsonNames = true)
    (ops : List MapOp) (hc : (ops.filter (fun op => op ≠ .entry)).length ≤ 1)
    (v : List (k.Val × t.Val)) (ws x rest : Bytes) (hw : Json.Spec.Ws ws)
    (hx : Json.Spec.Denotes env (.map k t) v x) (hr : Json.Spec.NoNumber rest) :
    Json.decodeMapWith full env k t ops (ws ++ (x ++ rest)) = .ok (MapOp.sees ops v, rest) :=
  Json.decodeMapWith_text full env k t hn v ops hc x hx ws hw rest hr

/-! ## Examples and violations -/
section
open Sample
attribute [local instance] Sample.host

/-- `{1: "é", 2: "", 3: "a"}` -/
def shelf : List (BitVec 8 × Str) :=
  [(1#8, ⟨utf8% "é", by decide⟩), (2#8, ⟨[], by decide⟩), (3#8, ⟨utf8% "a", by decide⟩)]

@[inherit_doc shelf]
def shelfTy : Ty := .map (.prim (.uint .w8)) .string

example : Supported varOpts .wire shelfTy = true ∧ Supported varOpts .descriptive shelfTy = true ∧
    Supported varOpts .storage shelfTy = true ∧ WireSkippable varOpts (.prim (.uint .w8)) = true ∧
    (encode varOpts env .wire shelfTy shelf).isOk = true ∧
    (encode varOpts env .descriptive shelfTy shelf).isOk = true ∧ shelfTy.envOk env :=
  ⟨by decide, by decide, by decide, by decide, by decide, by decide, by simp [shelfTy, Ty.envOk]⟩
example : MapOp.sees [.entry, .rest 1, .entry, .rest 7] [1, 2, 3] = [[1], [2], [], []] := rfl
example : encode varOpts env .storage shelfTy shelf =
    .ok [3, 1, 2, 0xC3, 0xA9, 2, 0, 3, 1, 0x61] := by decide
example : MapOp.singles [.entry, .entry, .entry] = some 3 := rfl
example : (fromValue Opt.new env shelfTy
    (.map [(.number (.uint .w8 1#8), .string ⟨utf8% "é", by decide⟩)])).isOk = true := by decide
example : shelfTy.jsonNames = true ∧ ([MapOp.entry, .rest 1, .entry].filter (fun op => op ≠ .entry)).length ≤ 1 :=
  ⟨by decide, by decide⟩

/-- **C99** is false of storage: a closure that asks for the remaining entries, reads all of them, and ends is
told that it did not. Only an empty map can be read that way. -/
theorem C99_violated_storage :
    ∃ bs, encode varOpts env .storage shelfTy shelf = .ok bs ∧
      (decodeMapWith varOpts env .storage (.prim (.uint .w8)) .string [.rest 3] bs).isOk = false ∧
      (decodeMapWith varOpts env .storage (.prim (.uint .w8)) .string [.rest 0] [0]) = .ok ([[]], []) :=
  ⟨_, rfl, by decide, by decide⟩

/-- **C99** is false of storage: single entries which are read afterwards are made from what follows the map. -/
theorem C99_violated_storage_beyond :
    let t : Ty := .map (.prim (.uint .w8)) (.prim (.uint .w8))
    ∃ bs, encode varOpts env .storage t [(1#8, 2#8)] = .ok bs ∧
      decodeMapWith varOpts env .storage (.prim (.uint .w8)) (.prim (.uint .w8)) [.rest 1, .entry]
        (bs ++ [8, 9, 10]) = .ok ([[(1#8, 2#8)], [(8#8, 9#8)]], [10]) :=
  ⟨_, rfl, by decide⟩

/-- **C99** is false of values: entries come again after the remaining entries were read. -/
theorem C99_violated_value :
    Value.decodeMapWith Opt.new env (.prim (.uint .w8)) (.prim (.uint .w8)) [.rest 1, .entry]
      (.map [(.number (.uint .w8 1#8), .number (.uint .w8 2#8))]) = .ok [[(1#8, 2#8)], [(1#8, 2#8)]] := by decide

/-- **C99**: the full statement for storage. -/
def C99StorageFull : Prop := ∀ (host : Host) (o : Options) (env : Env) (k t : Ty) (ops : List MapOp)
  (v : List (k.Val × t.Val)) (bs rest : Bytes), @Supported host o .storage (.map k t) = true →
  (Ty.map k t).envOk env → @encode host o env .storage (.map k t) v = .ok bs →
  ∀ ls r, @decodeMapWith host o env .storage k t ops (bs ++ rest) = .ok (ls, r) →
    ls = MapOp.sees ops v ∧ r = rest

@[inherit_doc C99StorageFull]
theorem C99_full_statement_false : ¬C99StorageFull := by
  intro h
  obtain ⟨bs, h1, h2⟩ := C99_violated_storage_beyond
  have := (h host varOpts env _ _ _ _ bs [8, 9, 10] (by decide) (by simp [Ty.envOk]) h1 _ _ h2).2
  revert this; decide

end

end Musli
