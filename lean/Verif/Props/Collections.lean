import Verif.Proofs.Collections
import Verif.Props.Json
import Verif.Props.Value
import Verif.Props.Samples
/-!
# C100: maps, sets, heaps and deques of the standard library
-/
namespace Musli

section
variable [Host] (o : Options) (env : Env)

/-! ## Maps -/

/-- **C100.** A `BTreeMap` or `HashMap` is read back as an equal map from storage, packed, wire and descriptive,
in whatever order it was iterated when it was written, and whatever the order is of the map
that is made. -/
theorem C100_map (m : Mode) (k t : Ty) [DecidableEq k.Val] (ht : Supported o m (.map k t) = true)
    (henv : (Ty.map k t).envOk env) (I J : MapImpl k.Val t.Val) (hI : I.Lawful) (hJ : J.Lawful)
    (x : I.Map) (bs rest : Bytes) (he : I.encode o env m k t x = .ok bs) :
    ∃ y : J.Map, J.decode o env m k t (bs ++ rest) = .ok (y, rest) ∧ ∀ key, J.get y key = I.get x key := by
  have h := rtD o env (.map k t) m false ht henv _ bs rest he (by simp)
  refine ⟨(I.iter x).foldl (fun out e => J.insert out e.1 e.2) J.new, ?_, ?_⟩
  · rw [decode_map_eq]; unfold decode; rw [Dec.bind_ok h]; rfl
  · intro key
    rw [MapImpl.get_foldl_new hJ]
    exact MapImpl.lastValue_iter hI x key

/-- **C100.** A map is read from any document of entries; if a key comes several times its last value counts. -/
theorem C100_map_document (m : Mode) (k t : Ty) [DecidableEq k.Val] (ht : Supported o m (.map k t) = true)
    (henv : (Ty.map k t).envOk env) (I : MapImpl k.Val t.Val) (hI : I.Lawful)
    (l : List (k.Val × t.Val)) (bs rest : Bytes) (he : encode o env m (.map k t) l = .ok bs) :
    ∃ y : I.Map, I.decode o env m k t (bs ++ rest) = .ok (y, rest) ∧ ∀ key, I.get y key = lastValue l key := by
  have h := rtD o env (.map k t) m false ht henv l bs rest he (by simp)
  refine ⟨l.foldl (fun out e => I.insert out e.1 e.2) I.new, ?_, MapImpl.get_foldl_new hI l⟩
  rw [decode_map_eq]; unfold decode; rw [Dec.bind_ok h]; rfl

/-- **C100.** Whatever a `Vec<(K, V)>` encoded as a map accepts, on any input, a map accepts and the other way round. -/
theorem C100_map_accepts (m : Mode) (k t : Ty) [DecidableEq k.Val] (I : MapImpl k.Val t.Val) (hI : I.Lawful)
    (input rest : Bytes) (y : I.Map) (hd : I.decode o env m k t input = .ok (y, rest)) :
    ∃ l, decode o env m (.map k t) input = .ok (l, rest) ∧ ∀ key, I.get y key = lastValue l key := by
  rw [decode_map_eq] at hd
  obtain ⟨l, s, h1, h2⟩ := Dec.bind_eq_ok.mp hd
  cases h2
  exact ⟨l, h1, MapImpl.get_foldl_new hI l⟩

/-- **C100.** From a `Value`: the last value of a key counts. -/
theorem C100_map_value (k t : Ty) [DecidableEq k.Val] (I : MapImpl k.Val t.Val) (hI : I.Lawful)
    (x : Value) (l : List (k.Val × t.Val)) (hx : fromValue o env (.map k t) x = .ok l) :
    ∃ y, I.fromValue o env k t x = .ok y ∧ ∀ key, I.get y key = lastValue l key := by
  refine ⟨l.foldl (fun out e => I.insert out e.1 e.2) I.new, ?_, MapImpl.get_foldl_new hI l⟩
  unfold MapImpl.fromValue
  rw [hx]

/-! ## Sets and heaps -/

/-- **C100.** A `BTreeSet` or `HashSet` is read back with the same elements, each of them once, from any
document that lists them in any order and however often. -/
theorem C100_set (m : Mode) (t : Ty) [DecidableEq t.Val] (ht : Supported o m (.set t) = true)
    (henv : (Ty.set t).envOk env) (I : SetImpl t.Val) (hI : I.Lawful)
    (l : List t.Val) (bs rest : Bytes) (he : encode o env m (.set t) l = .ok bs) :
    ∃ y : I.Set, I.decode o env m t (bs ++ rest) = .ok (y, rest) ∧ (I.iter y).Nodup ∧
      ∀ a, a ∈ I.iter y ↔ a ∈ l := by
  have h := rtD o env (.set t) m false ht henv l bs rest he (by simp)
  refine ⟨l.foldl I.insert I.new, ?_, hI.nodup _, ?_⟩
  · rw [decode_set_eq]; unfold decode; rw [Dec.bind_ok h]; rfl
  · intro a
    have h2 := SetImpl.mem_foldl hI l I.new a
    rw [hI.new] at h2
    simpa using h2

/-- **C100.** In particular from what a set wrote, whatever its order. -/
theorem C100_set_roundtrip (m : Mode) (t : Ty) [DecidableEq t.Val] (ht : Supported o m (.set t) = true)
    (henv : (Ty.set t).envOk env) (I J : SetImpl t.Val) (hI : I.Lawful) (hJ : J.Lawful)
    (x : I.Set) (bs rest : Bytes) (he : I.encode o env m t x = .ok bs) :
    ∃ y : J.Set, J.decode o env m t (bs ++ rest) = .ok (y, rest) ∧ (J.iter y).Perm (I.iter x) := by
  obtain ⟨y, h1, h2, h3⟩ := C100_set o env m t ht henv J hJ (I.iter x) bs rest he
  exact ⟨y, h1, (List.perm_ext_iff_of_nodup h2 (hI.nodup x)).mpr h3⟩

/-- **C100.** A `BinaryHeap` is read back with the same elements, each as often as before. -/
theorem C100_heap (m : Mode) (t : Ty) (ht : Supported o m (.set t) = true)
    (henv : (Ty.set t).envOk env) (I J : SetImpl t.Val) (hJ : J.LawfulHeap)
    (x : I.Set) (bs rest : Bytes) (he : I.encode o env m t x = .ok bs) :
    ∃ y : J.Set, J.decode o env m t (bs ++ rest) = .ok (y, rest) ∧ (J.iter y).Perm (I.iter x) := by
  have h := rtD o env (.set t) m false ht henv _ bs rest he (by simp)
  refine ⟨(I.iter x).foldl J.insert J.new, ?_, ?_⟩
  · rw [decode_set_eq]; unfold decode; rw [Dec.bind_ok h]; rfl
  · have h2 := SetImpl.perm_foldl hJ (I.iter x) J.new
    rwa [hJ.new, List.append_nil] at h2

/-! ## Deques -/

/-- **C100.** A `VecDeque` has the bytes of a `Vec` with the same elements, wherever its ring buffer wraps around,
in all formats and with all options. -/
theorem C100_deque_bytes (m : Mode) (t : Ty) (a b : List t.Val) :
    encodeDeque o env m t a b = encode o env m (.vec t) (a ++ b) := by
  have := encodeSlices_eq o env m t [a, b]
  simpa [encodeDeque] using this

/-- **C100.** So it is read back as a deque with the same elements, and as a `Vec`. -/
theorem C100_deque (m : Mode) (t : Ty) (ht : Supported o m (.vec t) = true)
    (henv : (Ty.vec t).envOk env) (a b : List t.Val) (bs rest : Bytes)
    (he : encodeDeque o env m t a b = .ok bs) :
    (∃ c d, decodeDeque o env m t (bs ++ rest) = .ok ((c, d), rest) ∧ c ++ d = a ++ b) ∧
    decode o env m (.vec t) (bs ++ rest) = .ok (a ++ b, rest) := by
  rw [C100_deque_bytes] at he
  have h := rtD o env (.vec t) m false ht henv _ bs rest he (by simp)
  refine ⟨⟨a ++ b, [], ?_, by simp⟩, h⟩
  unfold decodeDeque decode
  rw [Dec.bind_ok h]; rfl

end

/-! ## JSON -/

/-- **C100.** From any JSON text of a map, whatever its whitespace and the order of its entries: the last value of a
key counts. -/
theorem C100_map_json (full : Bool) (env : Env) (k t : Ty) [DecidableEq k.Val]
    (hn : (Ty.map k t).jsonNames = true) (I : MapImpl k.Val t.Val) (hI : I.Lawful)
    (l : List (k.Val × t.Val)) (ws x rest : Bytes) (hw : Json.Spec.Ws ws)
    (hx : Json.Spec.Denotes env (.map k t) l x) (hr : Json.Spec.NoNumber rest) :
    ∃ y : I.Map, I.decodeJson full env k t (ws ++ (x ++ rest)) = .ok (y, rest) ∧
      ∀ key, I.get y key = lastValue l key := by
  refine ⟨l.foldl (fun out e => I.insert out e.1 e.2) I.new, ?_, MapImpl.get_foldl_new hI l⟩
  unfold MapImpl.decodeJson
  have h : Json.decJ full env (.map k t) (ws ++ (x ++ rest)) = .ok (l, rest) :=
    Json.C38_decode_any_representation full env (.map k t) hn l ws x rest (Json.lead_of rfl hw) hx hr
  rw [Json.P.bind_ok h]; rfl

/-! ## Examples -/

/-- Maps whose iterator has any order, which may depend on the contents: `BTreeMap` sorts the keys,
`HashMap` has the order of its table. -/
def MapImpl.ordered {K V : Type} [DecidableEq K] (ord : List (K × V) → List (K × V)) : MapImpl K V where
  Map := { l : List (K × V) // (l.map Prod.fst).Nodup }
  new := ⟨[], .nil⟩
  insert m k v := ⟨(k, v) :: m.1.filter (fun e => e.1 ≠ k), by
    rw [List.map_cons, List.nodup_cons]
    refine ⟨?_, (List.filter_sublist.map _).nodup m.2⟩
    intro h
    obtain ⟨e, he, hk⟩ := List.mem_map.mp h
    have := (List.mem_filter.mp he).2
    simp [hk] at this⟩
  iter m := ord m.1

/-- Any order will do. -/
theorem MapImpl.ordered_lawful {K V : Type} [DecidableEq K] (ord : List (K × V) → List (K × V))
    (h : ∀ l, (ord l).Perm l) : (MapImpl.ordered ord).Lawful where
  new := List.perm_nil.mp (h [])
  insert m _ _ := (h _).trans (.cons _ ((h m.1).symm.filter _))
  nodup m := ((h m.1).map _).nodup_iff.mpr m.2

/-- Sets, likewise. -/
def SetImpl.ordered {K : Type} [DecidableEq K] (ord : List K → List K) : SetImpl K where
  Set := { l : List K // l.Nodup }
  new := ⟨[], .nil⟩
  insert m k := ⟨k :: m.1.filter (fun e => e ≠ k), by
    rw [List.nodup_cons]
    refine ⟨?_, List.filter_sublist.nodup m.2⟩
    intro h
    simpa using (List.mem_filter.mp h).2⟩
  iter m := ord m.1

@[inherit_doc MapImpl.ordered_lawful]
theorem SetImpl.ordered_lawful {K : Type} [DecidableEq K] (ord : List K → List K)
    (h : ∀ l, (ord l).Perm l) : (SetImpl.ordered ord).Lawful where
  new := List.perm_nil.mp (h [])
  insert m _ := (h _).trans (.cons _ ((h m.1).symm.filter _))
  nodup m := (h m.1).nodup_iff.mpr m.2

/-- Heaps. -/
def SetImpl.heap {K : Type} (ord : List K → List K) : SetImpl K where
  Set := List K
  new := []
  insert m k := k :: m
  iter m := ord m

@[inherit_doc MapImpl.ordered_lawful]
theorem SetImpl.heap_lawful {K : Type} (ord : List K → List K)
    (h : ∀ l, (ord l).Perm l) : (SetImpl.heap ord).LawfulHeap where
  new := List.perm_nil.mp (h [])
  insert m _ := (h _).trans (.cons _ (h m).symm)

section
open Sample
attribute [local instance] Sample.host

/-- A map whose iterator goes backwards. -/
abbrev backwards : MapImpl (BitVec 8) Str := MapImpl.ordered List.reverse

example : backwards.Lawful ∧ (MapImpl.ordered (K := BitVec 8) (V := Str) id).Lawful :=
  ⟨MapImpl.ordered_lawful _ (fun l => List.reverse_perm l), MapImpl.ordered_lawful _ fun _ => .refl _⟩
example : (SetImpl.ordered (K := BitVec 8) List.reverse).Lawful ∧
    (SetImpl.heap (K := BitVec 8) List.reverse).LawfulHeap :=
  ⟨SetImpl.ordered_lawful _ (fun l => List.reverse_perm l), SetImpl.heap_lawful _ fun l => List.reverse_perm l⟩

/-- `{1: "é", 2: ""}` -/
def twoEntries : backwards.Map :=
  backwards.insert (backwards.insert backwards.new 1#8 ⟨utf8% "é", by decide⟩) 2#8 ⟨[], by decide⟩

example : Supported varOpts .wire (.map (.prim (.uint .w8)) .string) = true ∧
    Supported fixedBig .storage (.map (.prim (.uint .w8)) .string) = true ∧
    Supported varOpts .storage (.set .string) = true ∧ Supported nativeOpts .storage (.vec (.prim (.uint .w32))) = true ∧
    (backwards.encode varOpts env .wire (.prim (.uint .w8)) .string twoEntries).isOk = true ∧
    backwards.encode varOpts env .storage (.prim (.uint .w8)) .string twoEntries =
      .ok [2, 1, 2, 0xC3, 0xA9, 2, 0] := by decide
-- a document in which a key comes twice
example : encode varOpts env .storage (.map (.prim (.uint .w8)) (.prim (.uint .w8)))
      [(1#8, 2#8), (3#8, 4#8), (1#8, 5#8)] = .ok [3, 1, 2, 3, 4, 1, 5] ∧
    lastValue [(1#8, 2#8), (3#8, 4#8), (1#8, 5#8)] 1#8 = some 5#8 := by decide
example : encode varOpts env .storage (.set (.prim (.uint .w8))) [1#8, 2#8, 1#8] = .ok [3, 1, 2, 1] := by
  decide
-- a ring buffer that has wrapped around, with the fast path
example : encodeDeque nativeOpts env .storage (.prim (.uint .w16)) [1#16] [2#16] =
    .ok [2, 0, 0, 0, 0, 0, 0, 0, 1, 0, 2, 0] := by decide

/-- Note that C100 does not say anything about reading a `Vec` as a set: with the fast path and big endian numbers on a little endian machine, a
`Vec<u16>` has a little endian length and a `BTreeSet<u16>` a big endian one, and the `Vec` cannot be read as a set. -/
theorem vec_is_not_read_as_set :
    ∃ bs, encode fixedBig env .storage (.vec (.prim (.uint .w16))) [1#16, 2#16] = .ok bs ∧
      (decode fixedBig env .storage (.set (.prim (.uint .w16))) bs).isOk = false :=
  ⟨[2, 0, 0, 0, 0, 0, 0, 0, 1, 0, 2, 0], by decide, by decide⟩

end

end Musli
