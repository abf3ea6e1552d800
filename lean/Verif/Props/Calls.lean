import Verif.Proofs.CallsSkip
import Verif.Proofs.Json.Calls
import Verif.Props.Binary
import Verif.Props.Documents
import Verif.Props.Json
/-!
# C105: implementing `Encode` by hand
-/
namespace Musli

section
variable [Host] (o : Options) (env : Env)

/-- **C105 (partial).** Binary formats: calls which describe a value write what its derived or built-in
implementation writes. Missing: options under which values are copied bitwise. -/
theorem C105_same_bytes_partial (ho : Opt.isNativeFixed o = false) (m : Mode) (t : Ty) (v : t.Val) (c : Call)
    (h : Says env t v c) : c.run o env m = encode o env m t v :=
  run_says o env ho h m

/-- **C105 (partial).** So the document is read as the value. -/
theorem C105_read_back_partial (ho : Opt.isNativeFixed o = false) (m : Mode) (t : Ty) (ht : Supported o m t = true)
    (henv : t.envOk env) (v : t.Val) (c : Call) (h : Says env t v c) (bs rest : Bytes)
    (he : c.run o env m = .ok bs) : decode o env m t (bs ++ rest) = .ok (v, rest) := by
  rw [run_says o env ho h m] at he
  exact rtD o env t m false ht henv v bs rest he (by simp)

/-- **C105.** JSON: calls which describe a value write what its derived or built-in implementation
writes, whatever numbers of elements they announce. -/
theorem C105_json (t : Ty) (v : t.Val) (c c' : Call) (h : Says env t v c') (hc : c.forget = c'.forget) :
    Json.run env c = Json.encode env t v := by
  rw [← Json.run_forget, hc, Json.run_forget]
  exact Json.run_says env h

/-- **C105.** JSON: whatever calls are made, the result is an error or JSON text. -/
theorem C105_json_text (c : Call) (bs : Bytes) (he : Json.run env c = .ok bs) :
    Json.Spec.IsValue bs ∧ Utf8.valid bs = true :=
  ⟨Json.run_isValue env c bs he, Json.valid_text (Json.run_isValue env c bs he)⟩

/-- **C105.** Descriptive: if the announced numbers are right (also in the values passed along, see C17), the document is one value to
a program which skips it, of whatever it consists. -/
theorem C105_descriptive_one_value (c : Call) (hc : c.honest) (hk : c.types Ty.counted = true) (bs rest : Bytes)
    (he : c.run o env .descriptive = .ok bs) : Desc.skip o (bs ++ rest) = .ok ((), rest) :=
  skipAny_of_skips (Desc.consumes_step o)
    (skips_call o env (m := .descriptive) (Desc.skippable o) c hc ⟨.inl rfl, hk⟩ bs he) rest

/-- **C105 (partial).** Wire: the same. Missing: values which cannot be skipped, see C13. -/
theorem C105_wire_one_value_partial (c : Call) (hc : c.honest) (hk : c.types Ty.counted = true)
    (ht : Opt.length o = .variable ∨ c.types Ty.noUsize = true) (bs rest : Bytes)
    (he : c.run o env .wire = .ok bs) : Wire.skip o (bs ++ rest) = .ok ((), rest) := by
  rcases ht with h | h
  · exact skipAny_of_skips (Wire.consumes_step o)
      (skips_call o env (m := .wire) (us := true) (Wire.skippable o true fun _ => h) c hc ⟨.inl rfl, hk⟩ bs he) rest
  · exact skipAny_of_skips (Wire.consumes_step o)
      (skips_call o env (m := .wire) (us := false) (Wire.skippable o false (by simp)) c hc ⟨.inr h, hk⟩ bs he) rest

/-- **C105.** `encode_slice` has the effect of calling `push` for each value, in all formats and with all
options. -/
theorem C105_slice (m : Mode) (t : Ty) (l : List t.Val) (rest : Items) :
    (Items.slice t l rest).run o env m = (Items.pushAll t l rest).run o env m := by
  rw [Items.run, sliceBody_push, run_pushAll]

/-- **C105.** The same for `encode_slices`. -/
theorem C105_slices (m : Mode) (t : Ty) (ls : List (List t.Val)) (rest : Items) :
    (Items.slices t ls rest).run o env m = (Items.pushAll t ls.flatten rest).run o env m := by
  rw [Items.run, sliceBody_push, run_pushAll]

/-- **C105.** Binary formats: a sequence or map of unknown length is an error. -/
theorem C105_unknown_length (m : Mode) (items : Items) (es : Calls) :
    ((Call.sequence .none items).run o env m).isOk = false ∧ ((Call.map .none es).run o env m).isOk = false ∧
    ((Call.entries .none es).run o env m).isOk = false := by
  refine ⟨?_, ?_, ?_⟩ <;> rw [Call.run] <;> rfl

end

/-! ## Examples -/
section
open Sample
attribute [local instance] Sample.host

/-- An implementation for `Person` by hand, which uses slices for the sequence and `encode_map_variant`
for the variant of the enum. -/
def Sample.bobByHand : Call :=
  .map (.some 3)
    (.entry (.value (.prim .usize) 0#64) (.direct .string ⟨[0xC3#8, 0xA9#8], by decide⟩)
    (.entry (.value (.prim .usize) 2#64)
      (.sequence (.some 1) (.slice (.tuple (.cons (.prim (.sint .w16)) (.cons (.prim .bool) .nil)))
        [((-2 : BitVec 16), true, ())] .done))
    (.entry (.value (.prim .usize) 3#64)
      (.entries (.some 2)
        (.entry (.value (.prim .char) 'x') (.mapVariant (.prim .usize) 0#64 (.some 0) .done)
        (.entry (.value (.prim .char) 'y')
          (.variant (.value (.prim .usize) 1#64)
            (.map (.some 1) (.entry (.value (.prim .usize) 0#64) (.value (.prim (.uint .w64)) 300#64) .done))) .done)))
      .done)))

theorem Sample.bobByHand_says : Says env person bob bobByHand := by
  refine .strct (.entry rfl .idx .direct (.skip rfl (.entry rfl .idx (.vec ?_ rfl) (.entry rfl .idx (.entries ?_ rfl) .done))))
  · exact .slice (t := .tuple (.cons (.prim (.sint .w16)) (.cons (.prim .bool) .nil)))
      (l := [((-2 : BitVec 16), true, ())]) (l' := []) .done
  · refine .entry .value (.enm (.map rfl .idx .unitStruct)) (.entry .value ?_ .done)
    exact .enm (.there (.here rfl .idx (.strct (.entry rfl .idx .value .done))))

/-- The hypotheses hold, and a document is written. -/
example : Opt.isNativeFixed varOpts = false ∧ Supported varOpts .wire person = true ∧
    (bobByHand.run varOpts env .wire).toOption.isSome ∧ (bobByHand.run varOpts env .storage).toOption.isSome := by
  decide +kernel

/-- So `bob` comes back. -/
example (bs rest : Bytes) (he : bobByHand.run varOpts env .wire = .ok bs) :
    decode varOpts env .wire person (bs ++ rest) = .ok (bob, rest) :=
  C105_read_back_partial varOpts env (by decide) .wire person (by decide +kernel) person_envOk bob _ bobByHand_says bs rest he

/-- Calls which describe no value of a type of the model: a sequence of a number, a text and a map. -/
def Sample.mixed : Call :=
  .sequence (.some 4) (.push (.value (.prim (.uint .w8)) 1#8)
    (.slices .string [[], [⟨utf8% "a", by decide⟩, ⟨utf8% "b", by decide⟩]]
    (.push (.map (.some 1) (.entry (.value .string ⟨utf8% "k", by decide⟩) (.some .none) .done)) .done)))

example : Json.run env mixed = .ok (utf8% "[1,\"a\",\"b\",{\"k\":null}]") := by decide +kernel

example : mixed.honest ∧ (mixed.run varOpts env .wire).toOption.isSome ∧
    (mixed.run fixedBig env .descriptive).toOption.isSome ∧ mixed.types Ty.noUsize = true ∧ mixed.types Ty.counted = true := by
  refine ⟨?_, by decide +kernel, by decide +kernel, by decide +kernel, by decide +kernel⟩
  simp [mixed, Call.honest, Items.honest, Calls.honest, Items.count, Calls.count]

/-- JSON does not care for the announced number. -/
example : Json.run env (.sequence (.some 7) (.push (.value (.prim (.uint .w8)) 1#8) .done)) =
    Json.encode env (.vec (.prim (.uint .w8))) [1#8] :=
  C105_json env (.vec (.prim (.uint .w8))) [1#8] _ (.sequence (.some 1) (.push (.value (.prim (.uint .w8)) 1#8) .done))
    (.vec (.push .value .done) rfl) (by simp [Call.forget])

/-! ## Violations -/

/-- The number of elements which is announced is never compared with the number of elements which
are written: with a wrong one a document is written without an error, and it is read as
something else. Here `encode_sequence(1)` is followed by two elements, as
the first element of a pair `(Vec<u8>, u8)` whose second is `9`. -/
theorem C105_violated_wrong_number :
    let t : Ty := .tuple (.cons (.vec (.prim (.uint .w8))) (.cons (.prim (.uint .w8)) .nil))
    let c : Call := .sequence (.some 2)
      (.push (.sequence (.some 1) (.push (.value (.prim (.uint .w8)) 5#8) (.push (.value (.prim (.uint .w8)) 6#8) .done)))
      (.push (.value (.prim (.uint .w8)) 9#8) .done))
    ∀ m ∈ [Mode.storage, .wire, .descriptive], ∃ bs rest,
      c.run varOpts env m = .ok bs ∧ decode varOpts env m t bs = .ok (([5#8], 6#8, ()), rest) := by
  intro t c m hm
  simp only [List.mem_cons, List.not_mem_nil, or_false] at hm
  rcases hm with rfl | rfl | rfl
  · exact ⟨[2, 1, 5, 6, 9], [9], by decide +kernel, by rfl⟩
  · exact ⟨_, _, rfl, by rfl⟩
  · exact ⟨_, _, rfl, by rfl⟩

/-- With options under which values are copied bitwise, `insert_entry(name, [5u32, 6])` writes the array
without its length, the derived implementation with it, and the derived decoder does not accept
what was written by hand. -/
theorem C105_violated_bitwise :
    let a : Ty := .array 2 (.prim (.uint .w32))
    let t : Ty := .strct .idx (.cons (.idx 0) none none a .nil)
    let v : t.Val := ((⟨[5#32, 6#32], rfl⟩ : a.Val), ())
    let c : Call := .map (.some 1) (.entry (.value (.prim .usize) 0#64) (.value a ⟨[5#32, 6#32], rfl⟩) .done)
    Supported nativeOpts .storage t = true ∧ Says env t v c ∧
    ∃ bs, c.run nativeOpts env .storage = .ok bs ∧ encode nativeOpts env .storage t v ≠ .ok bs ∧
      (decode nativeOpts env .storage t bs).isOk = false := by
  refine ⟨by decide +kernel, .strct (.entry rfl .idx .value .done), _, rfl, by decide +kernel, by decide +kernel⟩

/-- **C105**: the full statement. -/
def C105Full : Prop := ∀ (host : Host) (o : Options) (env : Env) (m : Mode) (t : Ty) (v : t.Val) (c : Call),
  Says env t v c → @Call.run host o env m c = @encode host o env m t v

/-- **C105**: the full statement is false. -/
theorem C105_full_statement_false : ¬C105Full := by
  intro h
  obtain ⟨_, hs, bs, h1, h2, _⟩ := C105_violated_bitwise
  exact h2 (by rw [← h Sample.host Sample.nativeOpts Sample.env .storage _ _ _ hs]; exact h1)

end
end Musli
