import Verif.Proofs.Zero.EndianInj
/-!
# C58: `Endian` and `swap_bytes`
-/
set_option linter.unusedSectionVars false
namespace Musli.Zero.EndianProps
open Musli Musli.Zero

/-- A type which the compiler accepts, which can be swapped and is laid out on every platform. In it, the variants
of an enum which are swapped for each other have their fields in the same order. -/
structure Swappable (t : STy) : Prop where
  layout : ∀ F, (t.zty F).WF
  accepted : t.SwapOk
  swaps : t.canSwap = true

/-- The same for a type which may have something in it that cannot be swapped, outside of any `Endian`. -/
structure Accepted (t : STy) : Prop where
  layout : ∀ F, (t.zty F).WF
  accepted : t.SwapOk

/-- **C58** (partial), `Endian::new(value)`, on a platform of any byte order `H`: what is stored is in memory the
value as a platform of byte order `E` has it, also if the value has an `Endian` of its own in it (`build`).

Missing are enums which `#[zero_copy(swap_bytes)]` swaps to a variant with its fields in another order, of which
it is false (`C58_violated_by_field_order`). -/
theorem C58_bytes_partial {t : STy} (h : Swappable t) (H E : ByteOrder) {a : Val} (ha : Typed t a) :
    repr H t (endianNew H E t (build H t a)) = repr E t (build E t a) :=
  repr_swap H E t a h.layout h.accepted h.swaps ha

/-- **C58** (partial): what is stored is a value of the type, so a number which is not zero is stored as one
which is not, a `bool` as a `bool` and a variant as a variant. -/
theorem C58_typed_partial {t : STy} (h : Swappable t) (H E : ByteOrder) {v : Val} (hv : Typed t v) :
    Typed t (endianNew H E t v) ∧ @Mem ⟨H⟩ (t.zty H) (repr H t (endianNew H E t v)) := by
  have := typed_swap H E t v h.accepted h.swaps hv
  exact ⟨this, repr_mem H t _ this⟩

/-- **C58** (partial), `Endian::to_ne` and `from_endian`: what has been stored is returned, and what is returned
for anything in memory would be stored as that. -/
theorem C58_round_trip_partial {t : STy} (h : Swappable t) (H E : ByteOrder) {v : Val} (hv : Typed t v) :
    endianToNe H E t (endianNew H E t v) = v ∧ fromEndian H E t (endianNew H E t v) = v ∧
    endianNew H E t (endianToNe H E t v) = v :=
  ⟨swap_swap H E t v h.accepted h.swaps hv,
    by rw [fromEndian, swapBytes_self]; exact swap_swap H E t v h.accepted h.swaps hv,
    swap_swap H E t v h.accepted h.swaps hv⟩

/-- **C58**, in the byte order of the platform nothing is done. -/
theorem C58_native (t : STy) (H : ByteOrder) (v : Val) : endianNew H H t v = v ∧ endianToNe H H t v = v :=
  ⟨swapBytes_self H t v, swapBytes_self H t v⟩

/-- **C58** (partial), portable types: if everything larger than a byte is in an `Endian`, a value has the same
memory on every platform. -/
theorem C58_portable_partial {t : STy} (h : Accepted t) (hp : t.portable = true) (H E : ByteOrder) {a : Val}
    (ha : Typed t a) : repr H t (build H t a) = repr E t (build E t a) :=
  repr_portable H E t a h.layout h.accepted hp ha

/-- **C58** (partial): so what is stored on one platform is valid on another one, and is there the value which a
program on that platform would have made: `Endian::to_ne` of its parts is what was meant. -/
theorem C58_transfer_partial {t : STy} (h : Accepted t) (hp : t.portable = true) (H E : ByteOrder) {a : Val}
    (ha : Typed t a) :
    @Mem ⟨E⟩ (t.zty E) (repr H t (build H t a)) ∧
    ∀ v, Typed t v → repr E t v = repr H t (build H t a) → v = build E t a := by
  have hr := repr_portable H E t a h.layout h.accepted hp ha
  have ht := typed_build E t a h.accepted ha
  refine ⟨by rw [hr]; exact repr_mem E t _ ht, fun v hv he => ?_⟩
  exact repr_inj E t v _ (h.layout E) hv ht (he.trans hr)

/-- **C58** (partial), an `Endian<T, E>` which one platform has stored, another one reads. -/
theorem C58_exchange_partial {t : STy} (h : Swappable t) (H H' E : ByteOrder) {a raw : Val} (ha : Typed t a)
    (hraw : Typed t raw) (hm : repr H' t raw = repr H t (endianNew H E t (build H t a))) :
    endianToNe H' E t raw = build H' t a := by
  have hb := typed_build H' t a h.accepted ha
  have h1 : raw = endianNew H' E t (build H' t a) := by
    refine repr_inj H' t raw _ (h.layout H') hraw (typed_swap H' E t _ h.accepted h.swaps hb) (hm.trans ?_)
    rw [endianNew, repr_swap H E t a h.layout h.accepted h.swaps ha, endianNew,
      repr_swap H' E t a h.layout h.accepted h.swaps ha]
  rw [h1]
  exact swap_swap H' E t _ h.accepted h.swaps hb

/-! ## Examples -/

/-- ```
#[repr(C)] struct Inner { a: Endian<u32, Big>, b: u16, ignored: () }
#[repr(u16)] #[zero_copy(swap_bytes)] enum E { #[zero_copy(swap = B)] A { x: u16, y: u8 } = 1, B { x: u16, y: u8 } = 256 }
#[repr(C)] struct S { e: Endian<E, Little>, i: Endian<[Inner; 2], Little> }
``` -/
def fieldsXY : SFields := .cons 0 false (.num 2 1) (.cons 1 false (.num 1 0) .nil)
def sampleEnum : STy := .enum 2 1 0 true (.cons 1 (some 1) fieldsXY (.cons 256 none fieldsXY .nil))
def inner : STy := .struct none 0
  (.cons 0 false (.endian .big (.num 4 2)) (.cons 1 false (.num 2 1) (.cons 2 true .zst .nil)))
def sample : STy := .struct none 0
  (.cons 0 false (.endian .little sampleEnum) (.cons 1 false (.endian .little (.array inner 2)) .nil))

theorem paired_sample : SVariants.Paired (.cons 1 (some 1) fieldsXY (.cons 256 none fieldsXY .nil)) 2 := by
  refine ⟨by decide, by decide, ?_, ?_⟩
  · intro i hi
    match i with
    | 0 => simp [SVariants.swaps] at hi
    | 1 => exact ⟨0, rfl⟩
    | i + 2 => simp [SVariants.swaps] at hi
  · intro i d fs h
    match i with
    | 0 => simp only [SVariants.get, Option.some.injEq, Prod.mk.injEq] at h; rw [← h.2]; exact ⟨256, rfl⟩
    | 1 => simp only [SVariants.get, Option.some.injEq, Prod.mk.injEq] at h; rw [← h.2]; exact ⟨1, rfl⟩
    | i + 2 => simp [SVariants.get] at h

theorem sampleEnum_ok : Swappable sampleEnum where
  layout F := by
    cases F <;>
    simp [sampleEnum, fieldsXY, STy.zty, SFields.zty, SVariants.zty, ZTy.WF, ZFields.WF, ZVariants.WF,
      numBytes_length] <;> decide
  accepted := by
    simp only [sampleEnum, STy.SwapOk, SVariants.SwapOk]
    refine ⟨⟨?_, by decide, ?_, by decide, trivial⟩, fun _ => paired_sample⟩ <;>
    simp [fieldsXY, SFields.SwapOk, STy.SwapOk]
  swaps := by decide

theorem sample_ok : Accepted sample where
  layout F := by
    have := sampleEnum_ok.layout F
    cases F <;>
    (simp only [sample, STy.zty, SFields.zty, ZTy.WF, ZFields.WF]
     refine ⟨⟨this, by simp, ?_⟩, by simp⟩
     simp [inner, STy.zty, SFields.zty, ZTy.WF, ZFields.WF, ZTy.zeroSized])
  accepted := by
    have := sampleEnum_ok
    simp only [sample, STy.SwapOk, SFields.SwapOk]
    refine ⟨⟨this.accepted, this.swaps⟩, ⟨?_, by decide⟩, trivial⟩
    simp [inner, STy.SwapOk, SFields.SwapOk, STy.canSwap]

theorem sample_portable : sample.portable = true := by decide

theorem typedFields_cons (n : Nat) (ig : Bool) (t : STy) (rest : SFields) (v : Val) (ws : List Val) :
    TypedFields (.cons n ig t rest) (v :: ws) ↔ Typed t v ∧ TypedFields rest ws := by
  simp only [TypedFields]
  constructor
  · rintro ⟨v', ws', h, h1, h2⟩; cases h; exact ⟨h1, h2⟩
  · rintro ⟨h1, h2⟩; exact ⟨v, ws, rfl, h1, h2⟩

theorem typedFields_nil : TypedFields .nil [] := by simp [TypedFields]

/-- `S { e: A { x: 0x0102, y: 3 }, i: [Inner { a: 0x01020304, b: 0x0506 }, Inner { a: 0, b: 1 }] }` -/
def sampleVal : Val := .list [.variant 0 [.num 0x0102, .num 3],
  .list [.list [.num 0x01020304, .num 0x0506, .list []], .list [.num 0, .num 1, .list []]]]

theorem sampleVal_typed : Typed sample sampleVal := by
  simp [sample, sampleVal, sampleEnum, fieldsXY, inner, Typed, typedFields_cons, typedFields_nil, TypedVariant]

example : repr .big sample (build .big sample sampleVal) =
    [some 0x01#8, some 0#8, some 2#8, some 1#8, some 3#8, none, none, none,
      some 1#8, some 2#8, some 3#8, some 4#8, some 6#8, some 5#8, none, none,
      some 0#8, some 0#8, some 0#8, some 0#8, some 1#8, some 0#8, none, none] := by decide +kernel

example : repr .little sample (build .little sample sampleVal) = repr .big sample (build .big sample sampleVal) :=
  C58_portable_partial sample_ok sample_portable .little .big sampleVal_typed

example : (∀ F : ByteOrder, repr F sampleEnum (endianNew F .big sampleEnum (.variant 0 [.num 0x0102, .num 3])) =
    [some 0#8, some 1#8, some 1#8, some 2#8, some 3#8, none]) := by
  intro F; cases F <;> decide +kernel

/-! ## Fields in another order -/

/-- `A { x: u16, y: u8 } = 1` and `B { y: u8, x: u16 } = 256`, swapped for each other. -/
def crossed : STy := .enum 2 1 0 true
  (.cons 1 (some 1) (.cons 0 false (.num 2 1) (.cons 1 false (.num 1 0) .nil))
    (.cons 256 none (.cons 1 false (.num 1 0) (.cons 0 false (.num 2 1) .nil)) .nil))

/-- **C58** is false of enums with variants which are swapped for each other and have their fields in different
orders. The derive macro gives the fields by name, which the compiler accepts, and `CAN_SWAP_BYTES` is true; but
they are then in the places of the other variant: what `Endian::<_, Big>::new` stores on a little-endian platform
is not the value as it is on a big-endian one, so reading it there gives another one. -/
theorem C58_violated_by_field_order :
    (∀ F, (crossed.zty F).WF) ∧ crossed.canSwap = true ∧
    Typed crossed (.variant 0 [.num 0x0102, .num 3]) ∧
    repr .big crossed (.variant 0 [.num 0x0102, .num 3]) =
      [some 0#8, some 1#8, some 1#8, some 2#8, some 3#8, none] ∧
    repr .little crossed (endianNew .little .big crossed (.variant 0 [.num 0x0102, .num 3])) =
      [some 0#8, some 1#8, some 3#8, none, some 1#8, some 2#8] := by
  refine ⟨fun F => ?_, by decide, ?_, by decide +kernel, by decide +kernel⟩
  · cases F <;>
    simp [crossed, STy.zty, SFields.zty, SVariants.zty, ZTy.WF, ZFields.WF, ZVariants.WF, numBytes_length] <;> decide
  · simp [crossed, Typed, typedFields_cons, typedFields_nil, TypedVariant]

end Musli.Zero.EndianProps
