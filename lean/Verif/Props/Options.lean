import Verif.Proofs.Options
/-!
# C09: encoding options are independent
-/
namespace Musli.Opt

/-- Specification: the observable content of an option word. -/
structure Config where
  integer : Integer
  float : Float'
  byteorder : ByteOrder
  length : Width
  mapKeysAsNumbers : Bool
deriving DecidableEq, Repr

/-- What the getters report. -/
def view (o : Options) : Config where
  integer := integer o
  float := float o
  byteorder := byteorder o
  length := length o
  mapKeysAsNumbers := isMapKeysAsNumbers o

/-- A call on the options builder. -/
inductive Call where
  | integer (i : Integer)
  | float (f : Float')
  | byteOrder (b : ByteOrder)
  | pointer (w : Width)
  | mapKeysAsNumbers
  | fixed
  | variable

/-- The model of a builder call. -/
def Call.run (o : Options) : Call → Options
  | .integer i => setInteger o i
  | .float f => setFloat o f
  | .byteOrder b => setByteOrder o b
  | .pointer w => setPointer o w
  | .mapKeysAsNumbers => setMapKeysAsNumbers o
  | .fixed => setFixed o
  | .variable => setVariable o

/-- Specification: a builder call updates exactly its own setting(s). -/
def Call.spec (c : Config) : Call → Config
  | .integer i => { c with integer := i }
  | .float f => { c with float := f }
  | .byteOrder b => { c with byteorder := b }
  | .pointer w => { c with length := w }
  | .mapKeysAsNumbers => { c with mapKeysAsNumbers := true }
  | .fixed => { c with integer := .fixed, float := .fixed, length := .native }
  | .variable => { c with integer := .variable, float := .variable, length := .variable }

private theorem view_integer (o : Options) (i : Integer) :
    view (setInteger o i) = { view o with integer := i } := by
  have hv : i.code &&& ones 1 = i.code := by cases i <;> rfl
  have e0 := get_set_same o i.code 1 INTEGER_BIT (by decide) hv
  have e1 := get_set_other o i.code 1 INTEGER_BIT 2 FLOAT_BIT hv (by decide) (by decide)
  have e2 := get_set_other o i.code 1 INTEGER_BIT 1 BYTEORDER_BIT hv (by decide) (by decide)
  have e3 := get_set_other o i.code 1 INTEGER_BIT 3 LENGTH_BIT hv (by decide) (by decide)
  have e4 := get_set_other o i.code 1 INTEGER_BIT 1 MAP_KEYS_AS_NUMBERS_BIT hv (by decide) (by decide)
  simp only [show ones 1 = 0b1 from rfl, show ones 2 = 0b11 from rfl, show ones 3 = 0b111 from rfl] at e0 e1 e2 e3 e4 hv
  simp only [view, integer, float, byteorder, length, isMapKeysAsNumbers, setInteger, Config.mk.injEq]
  simp only [e0, e1, e2, e3, e4, and_self, and_true]
  cases i <;> rfl

private theorem view_float (o : Options) (i : Float') :
    view (setFloat o i) = { view o with float := i } := by
  have hv : i.code &&& ones 2 = i.code := by cases i <;> rfl
  have e0 := get_set_same o i.code 2 FLOAT_BIT (by decide) hv
  have e1 := get_set_other o i.code 2 FLOAT_BIT 1 INTEGER_BIT hv (by decide) (by decide)
  have e2 := get_set_other o i.code 2 FLOAT_BIT 1 BYTEORDER_BIT hv (by decide) (by decide)
  have e3 := get_set_other o i.code 2 FLOAT_BIT 3 LENGTH_BIT hv (by decide) (by decide)
  have e4 := get_set_other o i.code 2 FLOAT_BIT 1 MAP_KEYS_AS_NUMBERS_BIT hv (by decide) (by decide)
  simp only [show ones 1 = 0b1 from rfl, show ones 2 = 0b11 from rfl, show ones 3 = 0b111 from rfl] at e0 e1 e2 e3 e4 hv
  simp only [view, integer, float, byteorder, length, isMapKeysAsNumbers, setFloat, Config.mk.injEq]
  simp only [e0, e1, e2, e3, e4, and_self, and_true, true_and]
  cases i <;> rfl

private theorem view_byteOrder (o : Options) (i : ByteOrder) :
    view (setByteOrder o i) = { view o with byteorder := i } := by
  have hv : i.code &&& ones 1 = i.code := by cases i <;> rfl
  have e0 := get_set_same o i.code 1 BYTEORDER_BIT (by decide) hv
  have e1 := get_set_other o i.code 1 BYTEORDER_BIT 1 INTEGER_BIT hv (by decide) (by decide)
  have e2 := get_set_other o i.code 1 BYTEORDER_BIT 2 FLOAT_BIT hv (by decide) (by decide)
  have e3 := get_set_other o i.code 1 BYTEORDER_BIT 3 LENGTH_BIT hv (by decide) (by decide)
  have e4 := get_set_other o i.code 1 BYTEORDER_BIT 1 MAP_KEYS_AS_NUMBERS_BIT hv (by decide) (by decide)
  simp only [show ones 1 = 0b1 from rfl, show ones 2 = 0b11 from rfl, show ones 3 = 0b111 from rfl] at e0 e1 e2 e3 e4 hv
  simp only [view, integer, float, byteorder, length, isMapKeysAsNumbers, setByteOrder, Config.mk.injEq]
  simp only [e0, e1, e2, e3, e4, and_self, and_true, true_and]
  cases i <;> rfl

private theorem view_pointer (o : Options) (i : Width) :
    view (setPointer o i) = { view o with length := i } := by
  have hv : i.code &&& ones 3 = i.code := by cases i <;> rfl
  have e0 := get_set_same o i.code 3 LENGTH_BIT (by decide) hv
  have e1 := get_set_other o i.code 3 LENGTH_BIT 1 INTEGER_BIT hv (by decide) (by decide)
  have e2 := get_set_other o i.code 3 LENGTH_BIT 2 FLOAT_BIT hv (by decide) (by decide)
  have e3 := get_set_other o i.code 3 LENGTH_BIT 1 BYTEORDER_BIT hv (by decide) (by decide)
  have e4 := get_set_other o i.code 3 LENGTH_BIT 1 MAP_KEYS_AS_NUMBERS_BIT hv (by decide) (by decide)
  simp only [show ones 1 = 0b1 from rfl, show ones 2 = 0b11 from rfl, show ones 3 = 0b111 from rfl] at e0 e1 e2 e3 e4 hv
  simp only [view, integer, float, byteorder, length, isMapKeysAsNumbers, setPointer, Config.mk.injEq]
  simp only [e0, e1, e2, e3, e4, and_self, and_true, true_and]
  cases i <;> rfl

private theorem view_mapKeys (o : Options) :
    view (setMapKeysAsNumbers o) = { view o with mapKeysAsNumbers := true } := by
  have hv : (1 : Options) &&& ones 1 = 1 := by rfl
  have e0 := get_set_same o 1 1 MAP_KEYS_AS_NUMBERS_BIT (by decide) hv
  have e1 := get_set_other o 1 1 MAP_KEYS_AS_NUMBERS_BIT 1 INTEGER_BIT hv (by decide) (by decide)
  have e2 := get_set_other o 1 1 MAP_KEYS_AS_NUMBERS_BIT 2 FLOAT_BIT hv (by decide) (by decide)
  have e3 := get_set_other o 1 1 MAP_KEYS_AS_NUMBERS_BIT 1 BYTEORDER_BIT hv (by decide) (by decide)
  have e4 := get_set_other o 1 1 MAP_KEYS_AS_NUMBERS_BIT 3 LENGTH_BIT hv (by decide) (by decide)
  simp only [show ones 1 = 0b1 from rfl, show ones 2 = 0b11 from rfl, show ones 3 = 0b111 from rfl] at e0 e1 e2 e3 e4 hv
  simp only [view, integer, float, byteorder, length, isMapKeysAsNumbers, setMapKeysAsNumbers,
    Config.mk.injEq]
  simp only [e0, e1, e2, e3, e4, and_self, true_and]
  rfl

theorem view_run (o : Options) (c : Call) : view (c.run o) = c.spec (view o) := by
  cases c <;>
  simp [Call.run, Call.spec, view_integer, view_float, view_byteOrder, view_pointer, view_mapKeys,
    setFixed, setVariable]

/-- **C09.** For every option word, valid or not, and every history of builder
calls, the getters report exactly the effect of the calls: each call changes its
own setting and no other, later calls win. -/
theorem C09_options_independent (o : Options) (history : List Call) :
    view (history.foldl Call.run o) = history.foldl Call.spec (view o) := by
  induction history generalizing o with
  | nil => rfl
  | cons c h ih => simp only [List.foldl_cons, ih, view_run]

/-- **C09.** Calls on different settings commute, as far as can be observed. -/
theorem C09_options_commute (o : Options) (i : Integer) (w : Width) (b : ByteOrder) (f : Float') :
    view (setInteger (setPointer o w) i) = view (setPointer (setInteger o i) w) ∧
    view (setInteger (setByteOrder o b) i) = view (setByteOrder (setInteger o i) b) ∧
    view (setInteger (setFloat o f) i) = view (setFloat (setInteger o i) f) ∧
    view (setByteOrder (setPointer o w) b) = view (setPointer (setByteOrder o b) w) ∧
    view (setByteOrder (setFloat o f) b) = view (setFloat (setByteOrder o b) f) ∧
    view (setPointer (setFloat o f) w) = view (setFloat (setPointer o w) f) := by
  simp [view_integer, view_float, view_byteOrder, view_pointer]

/-- **C09.** The defaults: variable integers and lengths, little endian. -/
theorem C09_defaults : view new = ⟨.variable, .integer, .little, .variable, false⟩ := by decide

example : view (setByteOrder (setPointer (setInteger new .fixed) .u16) .big)
    = ⟨.fixed, .integer, .big, .u16, false⟩ := by decide

end Musli.Opt
