import Verif.Model.Int
/-!
# `SipHasher13`, `crates/musli-zerocopy/src/sip.rs`

Reads which are not in bounds are undefined behaviour, and are the error `panic`. The counter `length` wraps, as
it does in release builds. `bits` is the width of `usize`, `H` the byte order of the machine.
-/
namespace Musli.Zero.Sip
open Musli

/-- `State`, `sip.rs:42-52`. -/
structure State where
  v0 : BitVec 64
  v2 : BitVec 64
  v1 : BitVec 64
  v3 : BitVec 64
deriving DecidableEq, Repr

/-- `compress!`, `sip.rs:54-74`, statement by statement. -/
def compress (s : State) : State :=
  let s := { s with v0 := s.v0 + s.v1 }
  let s := { s with v1 := s.v1.rotateLeft 13 }
  let s := { s with v1 := s.v1 ^^^ s.v0 }
  let s := { s with v0 := s.v0.rotateLeft 32 }
  let s := { s with v2 := s.v2 + s.v3 }
  let s := { s with v3 := s.v3.rotateLeft 16 }
  let s := { s with v3 := s.v3 ^^^ s.v2 }
  let s := { s with v0 := s.v0 + s.v3 }
  let s := { s with v3 := s.v3.rotateLeft 21 }
  let s := { s with v3 := s.v3 ^^^ s.v0 }
  let s := { s with v2 := s.v2 + s.v1 }
  let s := { s with v1 := s.v1.rotateLeft 17 }
  let s := { s with v1 := s.v1 ^^^ s.v2 }
  { s with v2 := s.v2.rotateLeft 32 }

/-- `Sip13Rounds::c_rounds`, `sip.rs:377-379`. -/
def cRounds (s : State) : State := compress s

/-- `Sip13Rounds::d_rounds`, `sip.rs:382-386`. -/
def dRounds (s : State) : State := compress (compress (compress s))

/-- `load_int_le!`, `sip.rs:81-92`: `n` bytes are copied into an integer, whose value is
`from_ne_bytes`, and `to_le` is applied to it. -/
def load (H : ByteOrder) (buf : Bytes) (i n : Nat) : Except Err (BitVec (8 * n)) :=
  if i + n ≤ buf.length then
    let data := (buf.drop i).take n
    match H with
    | .little => .ok (Fixed.ofLeBytes (8 * n) data)
    | .big => .ok (Fixed.swap (Fixed.ofLeBytes (8 * n) data.reverse))
  else .error .panic

/-- `*buf.get_unchecked(i)`. -/
def byteAt (buf : Bytes) (i : Nat) : Except Err Byte :=
  match buf[i]? with
  | some b => .ok b
  | none => .error .panic

/-- `u8to64_le`, `sip.rs:99-118`. -/
def u8to64le (H : ByteOrder) (buf : Bytes) (start len : Nat) : Except Err (BitVec 64) := do
  let mut i := 0
  let mut out : BitVec 64 := 0
  if i + 3 < len then
    let x ← load H buf (start + i) 4
    out := x.setWidth 64
    i := i + 4
  if i + 1 < len then
    let x ← load H buf (start + i) 2
    out := out ||| x.setWidth 64 <<< (i * 8)
    i := i + 2
  if i < len then
    let x ← byteAt buf (start + i)
    out := out ||| x.setWidth 64 <<< (i * 8)
  return out

/-- `Hasher`, `sip.rs:24-40`. -/
structure Hasher where
  k0 : BitVec 64
  k1 : BitVec 64
  length : Nat
  state : State
  tail : BitVec 64
  ntail : Nat
deriving DecidableEq, Repr

/-- `reset`, `sip.rs:168-175`. The tail is not reset. -/
def Hasher.reset (h : Hasher) : Hasher :=
  { h with
    length := 0
    state := {
      v0 := h.k0 ^^^ 0x736f6d6570736575
      v1 := h.k1 ^^^ 0x646f72616e646f83
      v2 := h.k0 ^^^ 0x6c7967656e657261
      v3 := h.k1 ^^^ 0x7465646279746573 }
    ntail := 0 }

/-- `new_with_keys`, `sip.rs:128-132, 148-165`. -/
def new (k0 k1 : BitVec 64) : Hasher :=
  Hasher.reset { k0, k1, length := 0, state := ⟨0, 0, 0xee, 0⟩, tail := 0, ntail := 0 }

/-- The three statements which process a word, `sip.rs:206-208, 316-318, 331-333`. -/
def State.process (s : State) (m : BitVec 64) : State :=
  let s := cRounds { s with v3 := s.v3 ^^^ m }
  { s with v0 := s.v0 ^^^ m }

/-- `short_write`, `sip.rs:189-212`. -/
def Hasher.shortWrite (bits : Nat) (h : Hasher) (size : Nat) (x : BitVec 64) : Hasher :=
  let h := { h with length := (h.length + size) % 2 ^ bits }
  let needed := 8 - h.ntail
  let h := { h with tail := h.tail ||| x <<< (8 * h.ntail) }
  if size < needed then { h with ntail := h.ntail + size }
  else
    let h := { h with state := h.state.process h.tail }
    let h := { h with ntail := size - needed }
    { h with tail := if needed < 8 then x >>> (8 * needed) else 0 }

/-- The loop of `write`, `sip.rs:328-336`; `stop` is `len - left`. -/
def loop (H : ByteOrder) (msg : Bytes) (stop : Nat) : (fuel i : Nat) → State → Except Err (Nat × State)
  | 0, _, _ => .error .fuel
  | fuel + 1, i, s =>
    if i < stop then
      match load H msg i 8 with
      | .error e => .error e
      | .ok mi => loop H msg stop fuel (i + 8) (s.process mi)
    else .ok (i, s)

/-- The second half of `write`, `sip.rs:324-339`. -/
def Hasher.writeRest (H : ByteOrder) (h : Hasher) (msg : Bytes) (needed : Nat) : Except Err Hasher :=
  let len := msg.length - needed
  let left := len &&& 0x7
  match loop H msg (len - left) (msg.length + 1) needed h.state with
  | .error e => .error e
  | .ok (i, s) =>
    match u8to64le H msg i left with
    | .error e => .error e
    | .ok t => .ok { h with state := s, tail := t, ntail := left }

/-- `write`, `sip.rs:303-340`. -/
def Hasher.write (H : ByteOrder) (bits : Nat) (h : Hasher) (msg : Bytes) : Except Err Hasher :=
  let h := { h with length := (h.length + msg.length) % 2 ^ bits }
  if h.ntail ≠ 0 then
    let needed := 8 - h.ntail
    match u8to64le H msg 0 (min msg.length needed) with
    | .error e => .error e
    | .ok x =>
      let h := { h with tail := h.tail ||| x <<< (8 * h.ntail) }
      if msg.length < needed then .ok { h with ntail := h.ntail + msg.length }
      else Hasher.writeRest H { h with state := h.state.process h.tail, ntail := 0 } msg needed
  else Hasher.writeRest H h msg 0

/-- `i.to_le()` for an integer. -/
def toLe (H : ByteOrder) {w : Nat} (x : BitVec w) : BitVec w :=
  match H with
  | .little => x
  | .big => Fixed.swap x

/-- `i.to_ne_bytes()`. -/
def neBytes (H : ByteOrder) {w : Nat} (x : BitVec w) : Bytes :=
  match H with
  | .little => Fixed.leBytes (w / 8) x
  | .big => (Fixed.leBytes (w / 8) x).reverse

/-- A call of a method of `core::hash::Hasher`. -/
inductive Call where
  | write (msg : Bytes)
  | u8 (x : BitVec 8)
  | u16 (x : BitVec 16)
  | u32 (x : BitVec 32)
  | u64 (x : BitVec 64)
  | u128 (x : BitVec 128)
  /-- a `usize`, or an `isize`, of the width which is given by the machine -/
  | usize (x : Nat)

/-- The methods of `hash::Hasher`, `sip.rs:241-346`. `write_u16` and `write_u128` are those of the trait in `core`,
`self.write(&i.to_ne_bytes())`. -/
def Hasher.call (H : ByteOrder) (bits : Nat) (h : Hasher) : Call → Except Err Hasher
  | .write msg => h.write H bits msg
  | .u8 x => .ok (h.shortWrite bits 1 (x.setWidth 64))
  | .u16 x => h.write H bits (neBytes H x)
  | .u32 x => .ok (h.shortWrite bits 4 ((toLe H x).setWidth 64))
  | .u64 x => .ok (h.shortWrite bits 8 (toLe H x))
  | .u128 x => h.write H bits (neBytes H x)
  | .usize x => .ok (h.shortWrite bits (bits / 8) ((toLe H (BitVec.ofNat bits x)).setWidth 64))

/-- Several calls. -/
def Hasher.calls (H : ByteOrder) (bits : Nat) (h : Hasher) : List Call → Except Err Hasher
  | [] => .ok h
  | c :: cs =>
    match h.call H bits c with
    | .error e => .error e
    | .ok h => h.calls H bits cs

/-- `finish128`, `sip.rs:220-238`. -/
def Hasher.finish128 (h : Hasher) : BitVec 64 × BitVec 64 :=
  let b := (BitVec.ofNat 64 h.length &&& 0xff) <<< 56 ||| h.tail
  let s := h.state
  let s := { s with v3 := s.v3 ^^^ b }
  let s := cRounds s
  let s := { s with v0 := s.v0 ^^^ b }
  let s := { s with v2 := s.v2 ^^^ 0xee }
  let s := dRounds s
  let h1 := s.v0 ^^^ s.v1 ^^^ s.v2 ^^^ s.v3
  let s := { s with v1 := s.v1 ^^^ 0xdd }
  let s := dRounds s
  let h2 := s.v0 ^^^ s.v1 ^^^ s.v2 ^^^ s.v3
  (h1, h2)

/-- `finish`, `sip.rs:343-345`. -/
def Hasher.finish (h : Hasher) : BitVec 64 := h.finish128.2

end Musli.Zero.Sip
