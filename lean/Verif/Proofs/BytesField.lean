import Verif.Spec.BytesField
import Verif.Proofs.Borrow
import Verif.Proofs.Json.Calls
import Verif.Proofs.Json.Encode
import Verif.Proofs.Json.DecodeTy
/-!
# Fields of bytes
-/
set_option linter.unusedSectionVars false
namespace Musli

theorem toArray_ok {n : Nat} {b : Bytes} (h : b.length = n) : toArray n b = .ok ⟨b, h⟩ := by
  unfold toArray
  rw [dif_pos h]

theorem toArray_err {n : Nat} {b : Bytes} (h : b.length ≠ n) : ∃ e, toArray n b = .error e := by
  unfold toArray
  rw [dif_neg h]
  exact ⟨_, rfl⟩

section
variable [Host] (o : Options) (env : Env)

theorem vectored_eq (m : Mode) (a b : Bytes) :
    Call.run o env m (.vectored (a.length + b.length) [a, b]) = (m.fmt o).encBytes (a ++ b) := by
  rw [Call.run]
  have e : [a, b].flatten = a ++ b := by simp
  rw [e, ← List.length_append]
  cases m <;> rfl

theorem bytes_enc_eq (m : Mode) (k : BytesTy) (hk : (!k.isArray || m.delimited) = true)
    (v : k.Val) : k.enc o env m v = (m.fmt o).encBytes (k.contents v) := by
  cases k with
  | deque => exact vectored_eq o env m _ _
  | cow => cases v <;> rfl
  | array n => cases m <;> first | rfl | cases hk
  | _ => rfl

/-- Reading bytes as any of the types. -/
theorem bytes_dec (m : Mode) (k : BytesTy) (hk : (!k.isArray || m.delimited) = true) (b bs r : Bytes)
    (h : (m.fmt o).encBytes b = .ok bs) (hb : k.Holds b) :
    ∃ w, k.dec o env m (bs ++ r) = .ok (w, r) ∧ k.contents w = b := by
  have h1 := (Mode.lawful o m).bytes b bs r h
  have h2 : ∀ {β : Type} (v : Vis Bytes β), visitBytes o m v (bs ++ r) = Dec.ofExcept (v.borrowed b) r := by
    intro β v
    rw [visitBytes_eq, Dec.bind_ok h1]
  cases k with
  | vec => exact ⟨b, h2 _, rfl⟩
  | boxed => exact ⟨b, h2 _, rfl⟩
  | slice => exact ⟨b, h2 _, rfl⟩
  | cow => exact ⟨.borrowed b, h2 _, rfl⟩
  | deque =>
    refine ⟨⟨b, []⟩, Dec.bind_ok (h2 _), ?_⟩
    simp [BytesTy.contents]
  | array n =>
    have h3 : (m.fmt o).encArr b = .ok bs := by cases m <;> first | exact h | cases hk
    have h4 := (Mode.lawful o m).arr b bs r h3
    obtain rfl : b.length = n := hb
    refine ⟨⟨b, rfl⟩, ?_, rfl⟩
    show decD o env (.byteArray _) m _ = _
    rw [decD, Dec.bind_ok h4, toArray_ok rfl]
    rfl

/-- Bytes of another length are no array. -/
theorem bytes_dec_length (m : Mode) (hm : m.delimited = true) (n : Nat) (b bs r : Bytes)
    (h : (m.fmt o).encBytes b = .ok bs) (hb : b.length ≠ n) :
    ∃ e, (BytesTy.array n).dec o env m (bs ++ r) = .error e := by
  show ∃ e, decD o env (.byteArray n) m _ = _
  rw [decD]
  cases m with
  | storage => cases hm
  | packed => cases hm
  | wire =>
    change Wire.encBytes o b = .ok bs at h
    unfold Wire.encBytes at h
    obtain ⟨x, y, h1, h2, rfl⟩ := Enc.seq_eq_ok.1 h
    refine ⟨.length, Dec.bind_error ?_⟩
    show Wire.decArr o n _ = _
    unfold Wire.decArr
    rw [List.append_assoc, Dec.bind_ok (Wire.decTagLen_encTagLen o (by simp) h1 _), if_neg hb]
    rfl
  | descriptive =>
    change Desc.encBytes o Desc.BYTES b = .ok bs at h
    unfold Desc.encBytes at h
    obtain ⟨x, y, h1, h2, rfl⟩ := Enc.seq_eq_ok.1 h
    refine ⟨.length, Dec.bind_error ?_⟩
    show Desc.decArr o n _ = _
    unfold Desc.decArr
    rw [List.append_assoc, Dec.bind_ok (Desc.decTagLen_encTagLen o (by simp) h1 _), if_neg hb]
    rfl

/-- Arrays between arrays, also where their length is not written. -/
theorem bytes_array (m : Mode) (n : Nat) (v : (BytesTy.array n).Val) (bs r : Bytes)
    (h : (BytesTy.array n).enc o env m v = .ok bs) :
    (BytesTy.array n).dec o env m (bs ++ r) = .ok (v, r) := by
  obtain ⟨b, rfl⟩ := v
  show decD o env (.byteArray _) m _ = _
  rw [decD, Dec.bind_ok ((Mode.lawful o m).arr b bs r h), toArray_ok rfl]
  rfl

end

theorem bytes_encV (k : BytesTy) (v : k.Val) : k.encV v = .bytes (k.contents v) := by
  cases k with
  | cow => cases v <;> rfl
  | _ => rfl

theorem bytes_decV (k : BytesTy) (b : Bytes) (hb : k.Holds b) :
    ∃ w, k.decV (.bytes b) = .ok w ∧ k.contents w = b := by
  cases k with
  | vec => exact ⟨b, rfl, rfl⟩
  | boxed => exact ⟨b, rfl, rfl⟩
  | slice => exact ⟨b, rfl, rfl⟩
  | cow => exact ⟨.borrowed b, rfl, rfl⟩
  | deque => exact ⟨⟨b, []⟩, rfl, by simp [BytesTy.contents]⟩
  | array n => exact ⟨⟨b, hb⟩, toArray_ok hb, rfl⟩

theorem bytes_decV_length (n : Nat) (b : Bytes) (hb : b.length ≠ n) :
    ∃ e, (BytesTy.array n).decV (.bytes b) = .error e := toArray_err hb

namespace Json
open Musli.Json.Spec

theorem bytes_encJ (env : Env) (k : BytesTy) (v : k.Val) : k.encJ env v = encBytes (k.contents v) := by
  cases k with
  | deque =>
    show Json.run env _ = _
    rw [run, encBytes_sepAll]
    simp [BytesTy.contents]
  | cow => cases v <;> rfl
  | _ => rfl

theorem visitBytes_owned {β : Type} (full : Bool) (v : Vis Bytes β) {s x r : Bytes} {y : β}
    (h : decBytes full s = .ok (x, r)) (hv : v.owned x = .ok y) : visitBytes full v s = .ok (y, r) := by
  unfold decBytes sequence at h
  obtain ⟨u, s1, h1, h⟩ := P.bind_eq_ok.1 h
  obtain ⟨l, s2, h2, h⟩ := P.bind_eq_ok.1 h
  obtain ⟨u', s3, h3, h⟩ := P.bind_eq_ok.1 h
  cases h
  unfold visitBytes
  rw [P.bind_ok h1, P.bind_ok h2, hv]
  refine P.bind_ok (a := y) (s' := s2) rfl |>.trans ?_
  rw [P.bind_ok h3]
  rfl

theorem bytes_decJ (full : Bool) (k : BytesTy) (hk : k ≠ .slice) (b bs ws r : Bytes) (hw : Ws ws)
    (h : encBytes b = .ok bs) (hb : k.Holds b) (hr : NoNumber r) :
    ∃ w, k.decJ full (ws ++ (bs ++ r)) = .ok (w, r) ∧ k.contents w = b := by
  have env : Env := ⟨fun _ _ => none, fun _ _ _ => false⟩
  have h1 : decBytes full (ws ++ (bs ++ r)) = .ok (b, r) := by
    have e := decJ_denotes full env .bytes rfl b bs (by simp only [Denotes]; exact encBytes_arr h) ws (lead_of rfl hw) r hr
    simpa only [decJ] using e
  cases k with
  | vec => exact ⟨b, visitBytes_owned full _ h1 rfl, rfl⟩
  | boxed => exact ⟨b, visitBytes_owned full _ h1 rfl, rfl⟩
  | slice => exact absurd rfl hk
  | cow => exact ⟨.owned b, visitBytes_owned full _ h1 rfl, rfl⟩
  | deque =>
    refine ⟨⟨b, []⟩, P.bind_ok (visitBytes_owned full (Vis.copy Bytes) h1 rfl), ?_⟩
    simp [BytesTy.contents]
  | array n =>
    refine ⟨⟨b, hb⟩, ?_, rfl⟩
    exact decArray_text full n ⟨b, hb⟩ bs (encBytes_arr h) ws hw r hr

theorem vec_bytes (env : Env) (b : Bytes) :
    encJ env (.vec (.prim (.uint .w8))) b = encBytes b := by
  have e : encJ env (.vec (.prim (.uint .w8))) b =
      brackets (sepAll (encJ env (.prim (.uint .w8))) true b) := by simp only [encJ]
  have e' : encJ env (.prim (.uint .w8)) = fun b : Byte => encPrim (.uint .w8) b := by
    funext x; simp only [encJ]
  rw [e, e']
  exact encBytes_sepAll b

end Json
end Musli
