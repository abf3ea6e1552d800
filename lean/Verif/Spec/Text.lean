import Verif.Model.Text
/-!
# What a string in allocated memory has to hold
-/
namespace Musli.Text
open Musli

/-- The text of a `Display` implementation whose writes all succeed: what `format!` returns. -/
def Show.text : Show → Bytes
  | .ret _ => []
  | .str s k => s.bytes ++ (k true).text
  | .chr c k => Utf8.encodeChar c ++ (k true).text

/-- Does the implementation return `Ok` if its writes all succeed? -/
def Show.ok : Show → Bool
  | .ret ok => ok
  | .str _ k => (k true).ok
  | .chr _ k => (k true).ok

/-- Whatever happens, the implementation returns `Err`. -/
def Show.Fails : Show → Prop
  | .ret ok => ok = false
  | .str _ k => ∀ b, (k b).Fails
  | .chr _ k => ∀ b, (k b).Fails

/-- An implementation as the documentation of `Display` requires it: it passes on the errors of its writes. -/
def Show.Honest : Show → Prop
  | .ret _ => True
  | .str _ k => (k false).Fails ∧ (k true).Honest
  | .chr _ k => (k false).Fails ∧ (k true).Honest

/-- The implementation, some of whose writes are accepted, and which wrote this and returned that. -/
inductive Accepts : Show → Bytes → Bool → Prop
  | ret (ok : Bool) : Accepts (.ret ok) [] ok
  | str {s k w ok} : Accepts (k true) w ok → Accepts (.str s k) (s.bytes ++ w) ok
  | noStr {s k w ok} : Accepts (k false) w ok → Accepts (.str s k) w ok
  | chr {c k w ok} : Accepts (k true) w ok → Accepts (.chr c k) (Utf8.encodeChar c ++ w) ok
  | noChr {c k w ok} : Accepts (k false) w ok → Accepts (.chr c k) w ok

/-- What an operation with this result adds to a string: everything or nothing, except if several things are
written by a `Display` implementation. -/
inductive Wrote : Op → Bool → Bytes → Prop
  | push (c : Char) : Wrote (.push c) true (Utf8.encodeChar c)
  | noPush (c : Char) : Wrote (.push c) false []
  | pushStr (s : Str) : Wrote (.pushStr s) true s.bytes
  | noPushStr (s : Str) : Wrote (.pushStr s) false []
  | write {d w ok} : Accepts d w ok → Wrote (.write d) ok w
  | roundtrip : Wrote .roundtrip true []

/-- What several operations add to a string. -/
inductive Wrotes : List Op → List Bool → Bytes → Prop
  | nil : Wrotes [] [] []
  | cons {op ok w ops oks ws} : Wrote op ok w → Wrotes ops oks ws → Wrotes (op :: ops) (ok :: oks) (w ++ ws)

/-- A string which a program can have without `unsafe`. -/
inductive Made {A : Memory} : Text A → Prop
  | new (st : A.State) : Made (.new st)
  | withCapacity (st : A.State) (n : Nat) (t : Text A) : Text.withCapacity st n = some t → Made t
  | fromUtf8 (v : ByteVec A) (t : Text A) : Text.fromUtf8 v = .inl t → Made t
  | ofStd (st : A.State) (s : Str) : Made (.ofStd st s)
  | collect (st : A.State) (d : Show) (t : Text A) : collect st d = .ok t → Made t
  | borrowed (st : A.State) (s : Str) (t : Text A) : visit st (.borrowed s) = .ok t → Made t
  | ref (st : A.State) (s : Str) (t : Text A) : visit st (.ref s) = .ok t → Made t
  | owned (st : A.State) (u t : Text A) : Made u → visit st (.owned u) = .ok t → Made t
  | step (t : Text A) (op : Op) : Made t → Made (step t op).2

/-- The order of texts: the first character which differs decides, and then the length. -/
def cmpChars : List Char → List Char → Ordering
  | [], [] => .eq
  | [], _ :: _ => .lt
  | _ :: _, [] => .gt
  | a :: s, b :: t => if a.toNat < b.toNat then .lt else if b.toNat < a.toNat then .gt else cmpChars s t

end Musli.Text
