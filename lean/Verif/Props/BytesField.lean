import Verif.Proofs.BytesField
import Verif.Props.Borrow
import Verif.Props.Samples
/-!
# C118: fields which are `#[musli(bytes)]`
-/
namespace Musli

section
variable [Host] (o : Options) (env : Env)

/-- **C118 (partial).** Binary formats and `Value`: what is written depends on the bytes which are in the field and
not on its type, on whether a `Cow` borrows, or on how a `VecDeque` is split. Arrays are written
without a length in storage and packed. -/
theorem C118_written_partial (m : Mode) (j k : BytesTy) (v : j.Val) (w : k.Val)
    (hj : j.isArray = false ∨ m.delimited = true) (hk : k.isArray = false ∨ m.delimited = true)
    (h : j.contents v = k.contents w) :
    j.enc o env m v = k.enc o env m w ∧ j.encV v = k.encV w := by
  have e1 : (!j.isArray || m.delimited) = true := by rcases hj with h | h <;> simp [h]
  have e2 : (!k.isArray || m.delimited) = true := by rcases hk with h | h <;> simp [h]
  rw [bytes_enc_eq o env m j e1, bytes_enc_eq o env m k e2, bytes_encV, bytes_encV, h]
  exact ⟨rfl, rfl⟩

/-- **C118 (partial).** Binary formats: what was written as one type is read as any other which can hold it, with the
same bytes in it. Missing: JSON into `&[u8]`, where it is false. -/
theorem C118_read_partial (m : Mode) (j k : BytesTy) (v : j.Val) (bs rest : Bytes)
    (hj : j.isArray = false ∨ m.delimited = true) (hk : k.isArray = false ∨ m.delimited = true)
    (hh : k.Holds (j.contents v)) (h : j.enc o env m v = .ok bs) :
    ∃ w, k.dec o env m (bs ++ rest) = .ok (w, rest) ∧ k.contents w = j.contents v := by
  have e1 : (!j.isArray || m.delimited) = true := by rcases hj with h | h <;> simp [h]
  have e2 : (!k.isArray || m.delimited) = true := by rcases hk with h | h <;> simp [h]
  rw [bytes_enc_eq o env m j e1] at h
  exact bytes_dec o env m k e2 _ bs rest h hh

/-- **C118 (partial).** Arrays are read as arrays of the same length in every binary format. -/
theorem C118_arrays_partial (m : Mode) (n : Nat) (v : (BytesTy.array n).Val) (bs rest : Bytes)
    (h : (BytesTy.array n).enc o env m v = .ok bs) :
    (BytesTy.array n).dec o env m (bs ++ rest) = .ok (v, rest) :=
  bytes_array o env m n v bs rest h

/-- **C118 (partial).** Bytes of another length are not read as an array, in wire, descriptive and `Value`. -/
theorem C118_length_partial (m : Mode) (hm : m.delimited = true) (j : BytesTy) (n : Nat) (v : j.Val)
    (hn : (j.contents v).length ≠ n) :
    (∀ bs rest, j.enc o env m v = .ok bs →
      ∃ e, (BytesTy.array n).dec o env m (bs ++ rest) = .error e) ∧
    ∃ e, (BytesTy.array n).decV (j.encV v) = .error e := by
  constructor
  · intro bs rest h
    rw [bytes_enc_eq o env m j (by simp [hm])] at h
    exact bytes_dec_length o env m hm n _ bs rest h hn
  · rw [bytes_encV]
    exact bytes_decV_length n _ hn

end

/-- **C118 (partial).** Through a `Value`. -/
theorem C118_value_partial (j k : BytesTy) (v : j.Val) (hh : k.Holds (j.contents v)) :
    ∃ w, k.decV (j.encV v) = .ok w ∧ k.contents w = j.contents v := by
  rw [bytes_encV]
  exact bytes_decV k _ hh

namespace Json
open Musli.Json.Spec

/-- **C118 (partial).** JSON: what is written depends on the bytes only, and is what is written for a sequence
of `u8` which is not `#[musli(bytes)]`. -/
theorem C118_json_written_partial (env : Env) (k : BytesTy) (v : k.Val) :
    k.encJ env v = encode env (.vec (.prim (.uint .w8))) (k.contents v) :=
  (bytes_encJ env k v).trans (vec_bytes env _).symm

/-- **C118 (partial).** JSON: what was written as one type is read as any other which can hold it, except `&[u8]`. -/
theorem C118_json_read_partial (full : Bool) (env : Env) (j k : BytesTy) (hk : k ≠ .slice) (v : j.Val)
    (bs rest : Bytes) (hh : k.Holds (j.contents v)) (hr : NoNumber rest) (h : j.encJ env v = .ok bs) :
    ∃ w, k.decJ full (bs ++ rest) = .ok (w, rest) ∧ k.contents w = j.contents v := by
  rw [bytes_encJ] at h
  exact bytes_decJ full k hk _ bs [] rest (fun _ h => nomatch h) h hh hr

/-- **C118, violated.** JSON: nothing is read as `&[u8]`, not even what was written from one. -/
theorem C118_violated_json_slice (full : Bool) (s rest : Bytes) (w : BytesTy.slice.Val) :
    BytesTy.slice.decJ full s ≠ .ok (w, rest) := C107_violated_json_bytes full s rest w

end Json

/-- **C118**, the full statement for JSON. -/
def C118Full : Prop := ∀ (full : Bool) (env : Env) (j k : BytesTy) (v : j.Val) (bs rest : Bytes),
  k.Holds (j.contents v) → Json.Spec.NoNumber rest → j.encJ env v = .ok bs →
    ∃ w, k.decJ full (bs ++ rest) = .ok (w, rest) ∧ k.contents w = j.contents v

@[inherit_doc C118Full]
theorem C118_full_statement_false : ¬C118Full := by
  intro h
  obtain ⟨w, hw, _⟩ := h true Sample.env .vec .slice [1#8] (utf8% "[1]") [] trivial
    (fun _ _ h => nomatch h) (by decide +kernel)
  exact Json.C118_violated_json_slice _ _ _ _ hw

/-! ## Examples -/

section
attribute [local instance] Sample.host
open Sample (varOpts)

/-- A `VecDeque` which wraps around, read as an array, and as a `Cow` which borrows. -/
example : BytesTy.deque.enc varOpts Sample.env .wire ⟨[1#8, 2#8], [3#8]⟩ = .ok [0x43#8, 1#8, 2#8, 3#8] ∧
    (BytesTy.array 3).dec varOpts Sample.env .wire [0x43#8, 1#8, 2#8, 3#8, 9#8] =
      .ok (⟨[1#8, 2#8, 3#8], rfl⟩, [9#8]) ∧
    BytesTy.cow.dec varOpts Sample.env .wire [0x43#8, 1#8, 2#8, 3#8] =
      .ok (.borrowed [1#8, 2#8, 3#8], []) ∧
    (BytesTy.array 2).dec varOpts Sample.env .wire [0x43#8, 1#8, 2#8, 3#8] = .error .length ∧
    (BytesTy.array 3).enc varOpts Sample.env .storage ⟨[1#8, 2#8, 3#8], rfl⟩ = .ok [1#8, 2#8, 3#8] ∧
    BytesTy.vec.enc varOpts Sample.env .storage [1#8, 2#8, 3#8] = .ok [3#8, 1#8, 2#8, 3#8] := by
  decide +kernel

/-- As JSON. -/
example : BytesTy.deque.encJ Sample.env ⟨[1#8, 20#8], [255#8]⟩ = .ok (utf8% "[1,20,255]") ∧
    BytesTy.deque.decJ true (utf8% "[1,20,255],") = .ok (⟨[1#8, 20#8, 255#8], []⟩, utf8% ",") ∧
    (BytesTy.array 3).decJ true (utf8% "[1,20,255]") = .ok (⟨[1#8, 20#8, 255#8], rfl⟩, []) := by
  decide +kernel

/-- As a `Value`. -/
example : BytesTy.deque.encV ⟨[1#8, 20#8], [255#8]⟩ = .bytes [1#8, 20#8, 255#8] ∧
    (BytesTy.array 3).decV (.bytes [1#8, 20#8, 255#8]) = .ok ⟨[1#8, 20#8, 255#8], rfl⟩ := ⟨rfl, rfl⟩

end
end Musli
