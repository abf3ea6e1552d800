import Verif.Proofs.PackedField
import Verif.Props.Samples
/-!
# C115: packed fields
-/
namespace Musli.PackedField
open Musli Sample

section
variable [Host] (o : Options) (env : Env)

/-- What C115 asks for: every packed array is read back and nothing else is consumed. -/
def C115Full : Prop :=
  ∀ (m : Mode) (t : Ty) (l : List t.Val) (bs rest : Bytes), WellFormedTy m t = true → t.envOk env →
    encArray o env m t l = .ok bs → decArray o env m t l.length (bs ++ rest) = .ok (l, rest)

/-- A packed array is read back, in storage, the packed format, wire and descriptive, if
its elements can be told apart without tags. -/
theorem C115_array_round_trip_partial (m : Mode) (t : Ty) (ht : Packable o t = true)
    (henv : t.envOk env) (l : List t.Val) (bs rest : Bytes)
    (h : encArray o env m t l = .ok bs) :
    decArray o env m t l.length (bs ++ rest) = .ok (l, rest) :=
  array_rt o env m ht henv l rest h

/-- A packed tuple is read back. -/
theorem C115_tuple_round_trip_partial (m : Mode) (ts : Tys) (ht : PackableAll o m ts = true)
    (henv : ts.envOk env) (v : ts.Val) (bs rest : Bytes)
    (h : encTuple o env m ts v = .ok bs) :
    decTuple o env m ts (bs ++ rest) = .ok (v, rest) :=
  tuple_rt o env m ht henv v rest h

/-- Wire and descriptive: a program whose array is shorter reads the first elements, and
what follows the pack is where it should be. -/
theorem C115_shorter_array (m : Mode) (hm : m = .wire ∨ m = .descriptive) (t : Ty)
    (ht : Packable o t = true) (henv : t.envOk env) (l more : List t.Val) (bs rest : Bytes)
    (h : encArray o env m t (l ++ more) = .ok bs) :
    decArray o env m t l.length (bs ++ rest) = .ok (l, rest) :=
  array_prefix o env (by rcases hm with rfl | rfl <;> rfl) ht henv l more rest h

/-- Storage and the packed format: what a shorter array leaves in place is the pack
of the other elements, which is then read as whatever comes next. -/
theorem C115_shorter_array_storage (m : Mode) (hm : m = .storage ∨ m = .packed) (t : Ty)
    (ht : Packable o t = true) (henv : t.envOk env) (l more : List t.Val) (bs rest : Bytes)
    (h : encArray o env m t (l ++ more) = .ok bs) :
    ∃ bs', encArray o env m t more = .ok bs' ∧
      decArray o env m t l.length (bs ++ rest) = .ok (l, bs' ++ rest) :=
  array_plain o env (by rcases hm with rfl | rfl <;> rfl) ht henv l more rest h

/-- A `Vec` is packed like the array of its elements, also where it is copied. -/
theorem C115_vec_like_array (m : Mode) (t : Ty) (l : List t.Val) :
    encVec o env m t l = encArray o env m t l := encVec_eq o env m t l

/-- A `VecDeque` is packed like the array of its elements, however its buffer is split. -/
theorem C115_deque_like_array (m : Mode) (t : Ty) (a b : List t.Val) :
    encDeque o env m t a b = encArray o env m t (a ++ b) := encDeque_eq o env m t a b

/-- `SequenceEncoder::encode_slice` "can be called multiple times and has the same effect
as calling `push` for each value". -/
theorem C115_encode_slice_is_push (m : Mode) (t : Ty) (l : List t.Val) :
    encodeSlice o env m t l = Enc.all (viaE o env t .packed) l := encodeSlice_eq o env m t l

/-- With options other than the native ones a packed tuple and a `#[musli(packed)]` struct
with the same types are written alike… -/
theorem C115_tuple_like_struct_partial (hn : Opt.isNativeFixed o = false) (lay : Bool) (m : Mode)
    (ts : Tys) (names : List Name) (v : ts.Val) :
    encode o env m (.packed lay (fieldsOf ts names)) (toFields ts names v) = encTuple o env m ts v :=
  struct_enc env hn lay m ts names v

/-- …and read alike: from every input. -/
theorem C115_tuple_like_struct_read_partial (hn : Opt.isNativeFixed o = false) (lay : Bool)
    (m : Mode) (ts : Tys) (names : List Name) (s : Bytes) :
    decode o env m (.packed lay (fieldsOf ts names)) s =
      (decTuple o env m ts s).map (fun p => (toFields ts names p.1, p.2)) :=
  struct_dec env hn lay m ts names s

/-- Through a `Value`: packed arrays, also shorter ones. -/
theorem C115_value_array_partial (t : Ty) (ht : Packable o t = true) (henv : t.envOk env)
    (l more : List t.Val) (x : Value) (h : encArrayV o env t (l ++ more) = .ok (some x)) :
    decArrayV o env t l.length x = .ok l := value_prefix o env ht henv l more h

/-- Through a `Value`: packed tuples. -/
theorem C115_value_tuple_partial (ts : Tys)
    (ht : ts.ok (Opt.isNativeFixed o) (hostOrder o) .packed true = true) (henv : ts.envOk env)
    (v : ts.Val) (x : Value) (h : encTupleV o env ts v = .ok (some x)) :
    decTupleV o env ts x = .ok v := value_tuple o env ht henv v h

end

section
open Json Json.Spec
variable (full : Bool) (env : Env)

/-- JSON: a packed array is an array. -/
theorem C115_json_is_array (n : Nat) (t : Ty) (v : (Ty.array n t).Val) :
    encArrayJ env t v.1 = Json.encode env (.array n t) v := by
  unfold encArrayJ Json.encode; rw [encJ]

/-- JSON: it is read from every array which starts with the elements, whatever the
spacing and whatever else is in the array, and exactly the array is consumed. -/
theorem C115_json_reads (t : Ty) (hn : t.jsonNames = true) (l : List t.Val) (more : Nat)
    (ws x rest : Bytes) (hw : Ws ws)
    (hx : Arr (l.map (Denotes env t) ++ List.replicate more IsValue) x) :
    decArrayJ full env t l.length (ws ++ x ++ rest) = .ok (l, rest) :=
  json_array full env hn l more ws x rest hw hx

/-- JSON: a packed array is read back. -/
theorem C115_json_round_trip_partial (t : Ty) (ho : t.jsonOk = true) (hn : t.jsonNames = true)
    (henv : t.envOk env) (l : List t.Val) (s rest : Bytes) (h : encArrayJ env t l = .ok s) :
    decArrayJ full env t l.length (s ++ rest) = .ok (l, rest) := by
  have h1 : encJ env (.vec t) l = .ok s := by rw [encJ]; exact h
  have h2 := encJ_denotes env (.vec t) (by rw [Ty.jsonOk]; exact ho) (by rw [Ty.jsonNames]; exact hn)
    (by rw [Ty.envOk]; exact henv) l s h1
  simp only [Denotes] at h2
  have := json_array full env hn l 0 [] s rest ws_nil (by simpa using h2)
  simpa using this

/-- JSON: packed tuples are tuples, in both directions. -/
theorem C115_json_tuple (ts : Tys) :
    (∀ v, encTupleJ env ts v = Json.encode env (.tuple ts) v) ∧
    (∀ s, decTupleJ full env ts s = decJ full env (.tuple ts) s) := by
  refine ⟨fun v => ?_, fun s => ?_⟩
  · unfold encTupleJ Json.encode; rw [encJ]
  · rw [decJ]; rfl

end

/-! ## Where the full statement fails -/

/-- `Packed([None, Some(5u8)])` is read back as `[Some(5), None]`: inside of a pack, an option
takes no space. In all four formats, without an error. -/
theorem C115_violated_options :
    letI := host
    ∀ m, ∃ bs, encArray varOpts Sample.env m (.option (.prim (.uint .w8))) [none, some 5#8] = .ok bs ∧
      decArray varOpts Sample.env m (.option (.prim (.uint .w8))) 2 bs = .ok ([some 5#8, none], []) := by
  intro m
  cases m
  · exact ⟨[5#8], rfl, rfl⟩
  · exact ⟨[5#8], rfl, rfl⟩
  · exact ⟨[0x41#8, 5#8], rfl, rfl⟩
  · exact ⟨[0xA1#8, 5#8], rfl, rfl⟩

/-- With native options `Packed((a, b))` and a packed struct `{ a: .., b: .. }` are written
differently in wire: the tuple copies the array, the struct writes its length. -/
theorem C115_violated_struct :
    letI := host
    let ts : Tys := .cons (.prim (.uint .w8)) (.cons (.array 2 (.prim (.uint .w8))) .nil)
    let v : ts.Val := (1#8, ⟨[2#8, 3#8], rfl⟩, ())
    encTuple nativeOpts Sample.env .wire ts v ≠
      encode nativeOpts Sample.env .wire (.packed true (fieldsOf ts [])) (toFields ts [] v) := by
  decide +kernel

theorem C115_full_statement_false : letI := host; ¬ C115Full varOpts Sample.env := by
  intro h
  obtain ⟨bs, he, hd⟩ := C115_violated_options .wire
  have := h .wire (.option (.prim (.uint .w8))) [none, some 5#8] bs [] (by decide) (by simp [Ty.envOk]) he
  rw [List.append_nil] at this
  have h2 := hd.symm.trans this
  have h3 : ([some 5#8, none] : List (Option Byte)) = [none, some 5#8] := by
    injection h2 with h2; injection h2
  exact absurd h3 (by decide)

/-! ## Examples -/

/-- `[(i16, bool); 2]` and `(u8, Option<u8>)`, in all formats. -/
example : letI := host
    Packable varOpts (.tuple (.cons (.prim (.sint .w16)) (.cons (.prim .bool) .nil))) = true ∧
    Packable nativeOpts (.prim (.uint .w32)) = true ∧
    PackableAll varOpts .wire (.cons (.prim (.uint .w8)) (.cons (.option (.prim (.uint .w8))) .nil)) = true := by
  decide

example : letI := host
    encArray varOpts Sample.env .wire (.prim (.uint .w32)) [1#32, 300#32, 70000#32] =
      .ok [0x46#8, 1#8, 0xAC#8, 2#8, 0xF0#8, 0xA2#8, 4#8] ∧
    decArray varOpts Sample.env .wire (.prim (.uint .w32)) 2
      [0x46#8, 1#8, 0xAC#8, 2#8, 0xF0#8, 0xA2#8, 4#8, 9#8] = .ok ([1#32, 300#32], [9#8]) := ⟨rfl, rfl⟩

example : letI := host
    encTuple varOpts Sample.env .storage (.cons (.prim (.uint .w8)) (.cons (.prim .bool) .nil))
      (7#8, true, ()) = .ok [7#8, 1#8] := rfl

example : encArrayJ Sample.env (.prim (.uint .w8)) [1#8, 20#8] = .ok (utf8% "[1,20]") ∧
    decArrayJ true Sample.env (.prim (.uint .w8)) 2 (utf8% " [1, 20,{\"a\": null}];") =
      .ok ([1#8, 20#8], utf8% ";") := ⟨by decide +kernel, by rfl⟩

end Musli.PackedField
