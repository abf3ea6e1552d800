import Verif.Spec.Std
import Verif.Spec.Json.Denotes
/-!
# Specification: types of the standard library in JSON

Every one of them looks like a type made of strings, numbers, arrays and objects, its shape. A value has a text of the
shape, and some of the values of the shape stand for a value.
-/
namespace Musli.Std
open Musli.Json.Spec

/-- An address: a string in the text mode, an array of its bytes in the binary mode. -/
def addrShape (n : Nat) : Form → Ty
  | .binary => .byteArray n
  | .text => .string

/-- A socket address: a string in the text mode, an array of the address and numbers in the binary mode. -/
def sockShape (n : Nat) (rest : Tys) : Form → Ty
  | .binary => .tuple (.cons (.byteArray n) rest)
  | .text => .string

/-- An object with a single member, under one of two names. -/
def eitherShape (f : Form) (tag : Bool → Name) (a b : Ty) : Ty := .enm f.names (.cons (tag true) a (.cons (tag false) b .nil))

/-- Port. -/
def restV4 : Tys := .cons u16 .nil
/-- Port, flow information, scope. -/
def restV6 : Tys := .cons u16 (.cons u32 (.cons u32 .nil))

/-- The shape of a type. -/
def StdTy.shape : StdTy → Ty
  | .ipv4 f => addrShape 4 f
  | .ipv6 f => addrShape 16 f
  | .ipAddr f => eitherShape f (ipTag f) (addrShape 4 f) (addrShape 16 f)
  | .sockV4 f => sockShape 4 restV4 f
  | .sockV6 f => sockShape 16 restV6 f
  | .sockAddr f => eitherShape f (sockTag f) (sockShape 4 restV4 f) (sockShape 16 restV6 f)
  | .range t => .tuple (.cons t (.cons t .nil))
  | .rangeInclusive t => .tuple (.cons t (.cons t .nil))
  | .rangeFrom t => .tuple (.cons t .nil)
  | .rangeTo t => .tuple (.cons t .nil)
  | .rangeToInclusive t => .tuple (.cons t .nil)
  | .rangeFull => .tuple .nil
  | .cstring => .bytes
  | .unixPath f => eitherShape f (platformTag f) .bytes .bytes
  | .windowsPath f => eitherShape f (platformTag f) .bytes .bytes

section
variable (T : NetText)

/-- An address as a value of its shape. -/
def toAddr (n : Nat) (tf : TextForm (Arr n)) : (f : Form) → Arr n → (addrShape n f).Val
  | .binary, v => v
  | .text, v => tf.disp v

/-- The address, if there is one. -/
def ofAddr (n : Nat) (tf : TextForm (Arr n)) : (f : Form) → (addrShape n f).Val → Option (Arr n)
  | .binary, v => some v
  | .text, v => tf.parse v

/-- A socket address as a value of its shape. -/
def toSock4 : (f : Form) → SockV4 → (sockShape 4 restV4 f).Val
  | .binary, v => (v.1, v.2, ())
  | .text, v => T.s4.disp v

/-- The socket address, if there is one. -/
def ofSock4 : (f : Form) → (sockShape 4 restV4 f).Val → Option SockV4
  | .binary, (a, p, ()) => some (a, p)
  | .text, v => T.s4.parse v

/-- A socket address as a value of its shape. -/
def toSock6 : (f : Form) → SockV6 → (sockShape 16 restV6 f).Val
  | .binary, v => (v.1, v.2.1, v.2.2.1, v.2.2.2, ())
  | .text, v => T.s6.disp v

/-- The socket address, if there is one. -/
def ofSock6 : (f : Form) → (sockShape 16 restV6 f).Val → Option SockV6
  | .binary, (a, p, w, s, ()) => some (a, p, w, s)
  | .text, v => T.s6.parse v

/-- A value as a value of the shape. -/
def StdTy.toShape : (s : StdTy) → s.Val → s.shape.Val
  | .ipv4 f, v => toAddr 4 T.v4 f v
  | .ipv6 f, v => toAddr 16 T.v6 f v
  | .ipAddr f, v =>
    match v with
    | .inl a => .inl (toAddr 4 T.v4 f a)
    | .inr a => .inr (.inl (toAddr 16 T.v6 f a))
  | .sockV4 f, v => toSock4 T f v
  | .sockV6 f, v => toSock6 T f v
  | .sockAddr f, v =>
    match v with
    | .inl a => .inl (toSock4 T f a)
    | .inr a => .inr (.inl (toSock6 T f a))
  | .range _, v => (v.1, v.2, ())
  | .rangeInclusive _, v => (v.1, v.2.1, ())
  | .rangeFrom _, v => (v, ())
  | .rangeTo _, v => (v, ())
  | .rangeToInclusive _, v => (v, ())
  | .rangeFull, _ => ()
  | .cstring, v => v.1 ++ [0#8]
  | .unixPath _, v => .inl v
  | .windowsPath _, v => .inr (.inl (wideBytes v))

/-- What a value of the shape stands for. A C string ends with a zero byte and has no other; paths are those of the
platform; units of paths have two bytes. -/
def StdTy.ofShape : (s : StdTy) → s.shape.Val → Option s.Val
  | .ipv4 f, v => ofAddr 4 T.v4 f v
  | .ipv6 f, v => ofAddr 16 T.v6 f v
  | .ipAddr f, v =>
    match v with
    | .inl a => (ofAddr 4 T.v4 f a).map .inl
    | .inr (.inl a) => (ofAddr 16 T.v6 f a).map .inr
  | .sockV4 f, v => ofSock4 T f v
  | .sockV6 f, v => ofSock6 T f v
  | .sockAddr f, v =>
    match v with
    | .inl a => (ofSock4 T f a).map .inl
    | .inr (.inl a) => (ofSock6 T f a).map .inr
  | .range _, (a, b, ()) => some (a, b)
  | .rangeInclusive _, (a, b, ()) => some (a, b, false)
  | .rangeFrom _, (a, ()) => some a
  | .rangeTo _, (a, ()) => some a
  | .rangeToInclusive _, (a, ()) => some a
  | .rangeFull, () => some ()
  | .cstring, v => if h : v.getLast? = some 0#8 ∧ 0#8 ∉ v.dropLast then some ⟨v.dropLast, h.2⟩ else none
  | .unixPath _, v =>
    match v with
    | .inl b => some b
    | .inr _ => none
  | .windowsPath _, v =>
    match v with
    | .inl _ => none
    | .inr (.inl b) => some (wideUnits b)

end

end Musli.Std
