import Verif.Model.Value.Value
import Verif.Spec.Float
import Verif.Spec.Text
/-!
# When values are equal, and which is less
-/
namespace Musli.Spec
open Musli

/-- A bit pattern with sign stands for this number (and infinities for numbers beyond all others, see
`Format.value`). -/
def Float.Format.signed (F : Float.Format) (bits : Nat) : ℚ :=
  if bits < F.sign then F.value bits else - F.value (bits - F.sign)

/-- The bit pattern is not a number. -/
def Float.Format.IsNaN (F : Float.Format) (bits : Nat) : Prop := F.inf < bits % F.sign

/-- Two numbers in the same type are equal. -/
inductive SameNumber : Number → Number → Prop
  | uint {w} (v : BitVec w.bits) : SameNumber (.uint w v) (.uint w v)
  | sint {w} (v : BitVec w.bits) : SameNumber (.sint w v) (.sint w v)
  | usize (v : BitVec 64) : SameNumber (.usize v) (.usize v)
  | isize (v : BitVec 64) : SameNumber (.isize v) (.isize v)
  | f32 {a b : BitVec 32} : ¬ Float.f32.IsNaN a.toNat → ¬ Float.f32.IsNaN b.toNat →
      Float.f32.signed a.toNat = Float.f32.signed b.toNat → SameNumber (.f32 a) (.f32 b)
  | f64 {a b : BitVec 64} : ¬ Float.f64.IsNaN a.toNat → ¬ Float.f64.IsNaN b.toNat →
      Float.f64.signed a.toNat = Float.f64.signed b.toNat → SameNumber (.f64 a) (.f64 b)

/-- The place of the type of a number in the declaration of `Number`. -/
def rank : Number → Nat
  | .uint w _ => match w with | .w8 => 0 | .w16 => 1 | .w32 => 2 | .w64 => 3 | .w128 => 4
  | .sint w _ => match w with | .w8 => 5 | .w16 => 6 | .w32 => 7 | .w64 => 8 | .w128 => 9
  | .usize _ => 10
  | .isize _ => 11
  | .f32 _ => 12
  | .f64 _ => 13

/-- A number is less than another: if they are in the same type, or if its type is declared earlier. -/
inductive LessNumber : Number → Number → Prop
  | uint {w} {a b : BitVec w.bits} : a.toNat < b.toNat → LessNumber (.uint w a) (.uint w b)
  | sint {w} {a b : BitVec w.bits} : a.toInt < b.toInt → LessNumber (.sint w a) (.sint w b)
  | usize {a b : BitVec 64} : a.toNat < b.toNat → LessNumber (.usize a) (.usize b)
  | isize {a b : BitVec 64} : a.toInt < b.toInt → LessNumber (.isize a) (.isize b)
  | f32 {a b : BitVec 32} : ¬ Float.f32.IsNaN a.toNat → ¬ Float.f32.IsNaN b.toNat →
      Float.f32.signed a.toNat < Float.f32.signed b.toNat → LessNumber (.f32 a) (.f32 b)
  | f64 {a b : BitVec 64} : ¬ Float.f64.IsNaN a.toNat → ¬ Float.f64.IsNaN b.toNat →
      Float.f64.signed a.toNat < Float.f64.signed b.toNat → LessNumber (.f64 a) (.f64 b)
  | rank {a b : Number} : rank a < rank b → LessNumber a b

/-- Bytes in lexicographic order. -/
inductive LessBytes : Bytes → Bytes → Prop
  | nil (b : Byte) (t : Bytes) : LessBytes [] (b :: t)
  | head {a b : Byte} (s t : Bytes) : a.toNat < b.toNat → LessBytes (a :: s) (b :: t)
  | tail (a : Byte) {s t : Bytes} : LessBytes s t → LessBytes (a :: s) (a :: t)

/-- Texts in lexicographic order. -/
inductive LessChars : List Char → List Char → Prop
  | nil (b : Char) (t : List Char) : LessChars [] (b :: t)
  | head {a b : Char} (s t : List Char) : a.toNat < b.toNat → LessChars (a :: s) (b :: t)
  | tail (a : Char) {s t : List Char} : LessChars s t → LessChars (a :: s) (a :: t)

mutual

/-- Equal values: the same, except that numbers are compared as numbers. -/
inductive Same : Value → Value → Prop
  | unit : Same .unit .unit
  | bool (b : Bool) : Same (.bool b) (.bool b)
  | char (c : Char) : Same (.char c) (.char c)
  | number {a b : Number} : SameNumber a b → Same (.number a) (.number b)
  | bytes (b : Bytes) : Same (.bytes b) (.bytes b)
  | string (s : Str) : Same (.string s) (.string s)
  | seq {a b : List Value} : SameAll a b → Same (.seq a) (.seq b)
  | map {a b : List (Value × Value)} : SamePairs a b → Same (.map a) (.map b)
  | variant {a b x y : Value} : Same a b → Same x y → Same (.variant a x) (.variant b y)
  | none : Same .none .none
  | some {a b : Value} : Same a b → Same (.some a) (.some b)

inductive SameAll : List Value → List Value → Prop
  | nil : SameAll [] []
  | cons {a b l r} : Same a b → SameAll l r → SameAll (a :: l) (b :: r)

inductive SamePairs : List (Value × Value) → List (Value × Value) → Prop
  | nil : SamePairs [] []
  | cons {a b x y l r} : Same a b → Same x y → SamePairs l r → SamePairs ((a, x) :: l) ((b, y) :: r)

end

mutual

/-- A value is less than another, of the same kind. -/
inductive Less : Value → Value → Prop
  | bool : Less (.bool false) (.bool true)
  | char {a b : Char} : a.toNat < b.toNat → Less (.char a) (.char b)
  | number {a b : Number} : LessNumber a b → Less (.number a) (.number b)
  | bytes {a b : Bytes} : LessBytes a b → Less (.bytes a) (.bytes b)
  | string {a b : Str} {cs ds : List Char} : a.bytes = Utf8.encode cs → b.bytes = Utf8.encode ds →
      LessChars cs ds → Less (.string a) (.string b)
  | seq {a b : List Value} : LessAll a b → Less (.seq a) (.seq b)
  | map {a b : List (Value × Value)} : LessPairs a b → Less (.map a) (.map b)
  | tag {a b : Value} (x y : Value) : Less a b → Less (.variant a x) (.variant b y)
  | data {a b x y : Value} : Same a b → Less x y → Less (.variant a x) (.variant b y)
  | none (v : Value) : Less .none (.some v)
  | some {a b : Value} : Less a b → Less (.some a) (.some b)

/-- Lexicographic order. -/
inductive LessAll : List Value → List Value → Prop
  | nil (b r) : LessAll [] (b :: r)
  | head {a b} (l r) : Less a b → LessAll (a :: l) (b :: r)
  | tail {a b l r} : Same a b → LessAll l r → LessAll (a :: l) (b :: r)

inductive LessPairs : List (Value × Value) → List (Value × Value) → Prop
  | nil (b r) : LessPairs [] (b :: r)
  | key {a b} (x y l r) : Less a b → LessPairs ((a, x) :: l) ((b, y) :: r)
  | value {a b x y} (l r) : Same a b → Less x y → LessPairs ((a, x) :: l) ((b, y) :: r)
  | tail {a b x y l r} : Same a b → Same x y → LessPairs l r → LessPairs ((a, x) :: l) ((b, y) :: r)

end

mutual

/-- There is no NaN anywhere in the value. -/
inductive NoNaN : Value → Prop
  | unit : NoNaN .unit
  | bool (b : Bool) : NoNaN (.bool b)
  | char (c : Char) : NoNaN (.char c)
  | number {n : Number} : (∀ v, n = .f32 v → ¬ Float.f32.IsNaN v.toNat) →
      (∀ v, n = .f64 v → ¬ Float.f64.IsNaN v.toNat) → NoNaN (.number n)
  | bytes (b : Bytes) : NoNaN (.bytes b)
  | string (s : Str) : NoNaN (.string s)
  | seq {l : List Value} : NoNaNs l → NoNaN (.seq l)
  | map {l : List (Value × Value)} : NoNaNPairs l → NoNaN (.map l)
  | variant {a x : Value} : NoNaN a → NoNaN x → NoNaN (.variant a x)
  | none : NoNaN .none
  | some {v : Value} : NoNaN v → NoNaN (.some v)

inductive NoNaNs : List Value → Prop
  | nil : NoNaNs []
  | cons {v l} : NoNaN v → NoNaNs l → NoNaNs (v :: l)

inductive NoNaNPairs : List (Value × Value) → Prop
  | nil : NoNaNPairs []
  | cons {a x l} : NoNaN a → NoNaN x → NoNaNPairs l → NoNaNPairs ((a, x) :: l)

end

end Musli.Spec
