import Verif.Basic
/-!
# `Vec` and `Box` with the system allocator

`crates/musli-core/src/alloc/{system,vec,boxed}.rs`. Values of the element type are
tokens, so that one can follow what happens to each of them. The memory which the global
allocator hands out is a block of slots for values; pointers are the numbers of blocks.

`.error .ub` is undefined behaviour: wrong layouts in calls of the global allocator,
access out of bounds, or to a slot that has not been written. An allocation may fail at any
time: this is an argument (`fail`) of the operations.

The `Bool` called `fix` selects the code as it is (`false`), or with two defects corrected
(`true`): `clear` sets the length to zero before it runs destructors, and values of
size zero are not dropped after they have been moved into a vector or a box.
-/
namespace Musli.Sys

/-- A value of the element type. -/
abbrev Tok := Nat

/-- The element type: size, alignment, and whether it is `Copy`, i.e. has no destructor. -/
structure Elem where
  size : Nat
  align : Nat
  copy : Bool
deriving DecidableEq, Repr

/-- Undefined behaviour. -/
inductive Fault where | ub
deriving DecidableEq, Repr

/-- A block of memory: its layout, and what has been written to it. -/
structure Block where
  bytes : Nat
  align : Nat
  slots : List (Option Tok)
deriving DecidableEq, Repr

/-- The global allocator. -/
structure Heap where
  next : Nat
  blocks : Nat → Option Block

/-- Replace what belongs to a key. -/
def upd {α : Type} (f : Nat → Option α) (k : Nat) (v : Option α) : Nat → Option α :=
  fun i => if i = k then v else f i

/-- The largest size of a layout: `Layout::array` fails beyond it, and `alloc` must not
be called with more. -/
def maxBytes (align : Nat) : Nat := 2 ^ 63 - 1 - (align - 1)

namespace Heap

/-- `alloc::alloc`. The size of the layout must not be zero. -/
def alloc (H : Heap) (fail : Bool) (bytes align slots : Nat) : Except Fault (Option Nat × Heap) :=
  if bytes = 0 ∨ maxBytes align < bytes then .error .ub
  else if fail then .ok (none, H)
  else .ok (some H.next, ⟨H.next + 1, upd H.blocks H.next (some ⟨bytes, align, List.replicate slots none⟩)⟩)

/-- `alloc::realloc`. The block must have been allocated with the given layout. It may be
moved; the contents are copied. -/
def realloc (H : Heap) (fail : Bool) (p oldBytes align bytes slots : Nat) :
    Except Fault (Option Nat × Heap) :=
  match H.blocks p with
  | none => .error .ub
  | some b =>
    if b.bytes ≠ oldBytes ∨ b.align ≠ align ∨ bytes = 0 ∨ maxBytes align < bytes then .error .ub
    else if fail then .ok (none, H)
    else .ok (some H.next, ⟨H.next + 1, upd (upd H.blocks p none) H.next
      (some ⟨bytes, align, b.slots.take slots ++ List.replicate (slots - b.slots.length) none⟩)⟩)

/-- `alloc::dealloc`. -/
def dealloc (H : Heap) (p bytes align : Nat) : Except Fault Heap :=
  match H.blocks p with
  | none => .error .ub
  | some b =>
    if b.bytes ≠ bytes ∨ b.align ≠ align then .error .ub
    else .ok { H with blocks := upd H.blocks p none }

/-- Write values to a block, from an index on: `ptr.add(i).write(item)` and
`ptr.add(i).copy_from_nonoverlapping(..)`. `none` is a dangling pointer, to which only
nothing can be written. -/
def write (H : Heap) (p : Option Nat) (i : Nat) (vs : List Tok) : Except Fault Heap :=
  if vs = [] then .ok H else
  match p with
  | none => .error .ub
  | some p => match H.blocks p with
    | none => .error .ub
    | some b =>
      if i + vs.length ≤ b.slots.length then
        let slots := b.slots.take i ++ vs.map some ++ b.slots.drop (i + vs.length)
        .ok { H with blocks := upd H.blocks p (some { b with slots := slots }) }
      else .error .ub

/-- Read values: all of them must have been written. -/
def read (H : Heap) (p : Option Nat) (i n : Nat) : Except Fault (List Tok) :=
  if n = 0 then .ok [] else
  match p with
  | none => .error .ub
  | some p => match H.blocks p with
    | none => .error .ub
    | some b =>
      if i + n ≤ b.slots.length then
        match ((b.slots.drop i).take n).mapM id with
        | some vs => .ok vs
        | none => .error .ub
      else .error .ub

end Heap

/-- `SystemAlloc`, `system.rs:92-97`: `data` is `none` if it is dangling. -/
structure SystemAlloc where
  data : Option Nat
  size : Nat
deriving DecidableEq, Repr

namespace SystemAlloc
variable (E : Elem)

/-- `SystemAlloc::DANGLING`, `system.rs:187-190`. -/
def dangling : SystemAlloc := ⟨none, 0⟩

/-- `MIN_NON_ZERO_CAP`, `system.rs:179-185`. -/
def minNonZeroCap : Nat := if E.size = 1 then 8 else if E.size ≤ 1024 then 4 else 1

/-- `SystemAlloc::realloc`, `system.rs:198-221`. -/
def realloc (H : Heap) (a : SystemAlloc) (fail : Bool) (cap : Nat) :
    Except Fault (Option (Option Nat) × Heap) :=
  if a.size > 0 then
    match a.data with
    | none => .error .ub
    | some p => do
      let (r, H) ← H.realloc fail p (a.size * E.size % 2 ^ 64) E.align (cap * E.size) cap
      .ok (r.map some, H)
  else do
    let (r, H) ← H.alloc fail (cap * E.size) E.align cap
    .ok (r.map some, H)

/-- `SystemAlloc::reserve`, `system.rs:224-248`: whether it succeeded. `self.size * 2` would
panic or wrap if it did not fit; it is `.ub` here, and proved to fit. -/
def reserve (H : Heap) (a : SystemAlloc) (fail : Bool) (len additional : Nat) :
    Except Fault (Bool × SystemAlloc × Heap) :=
  if len + additional ≥ 2 ^ 64 then .ok (false, a, H) else
  if a.size ≥ len + additional then .ok (true, a, H) else
  if a.size * 2 ≥ 2 ^ 64 then .error .ub else
  let cap := max (minNonZeroCap E) (max (a.size * 2) (len + additional))
  if maxBytes E.align < cap * E.size then .ok (false, a, H) else do
    match ← a.realloc E H fail cap with
    | (none, H) => .ok (false, a, H)
    | (some p, H) => .ok (true, ⟨p, cap⟩, H)

/-- `Alloc::resize`, `system.rs:153-163`: whether it succeeded. -/
def resize (H : Heap) (a : SystemAlloc) (fail : Bool) (len additional : Nat) :
    Except Fault (Bool × SystemAlloc × Heap) :=
  if E.size = 0 then .ok (true, a, H) else a.reserve E H fail len additional

/-- `SystemAlloc::free`, `system.rs:250-264`. -/
def free (H : Heap) (a : SystemAlloc) : Except Fault Heap :=
  if E.size = 0 ∨ a.size = 0 then .ok H else
  match a.data with
  | none => .error .ub
  | some p => H.dealloc p (a.size * E.size % 2 ^ 64) E.align

/-- `SystemAlloc::alloc`, `system.rs:106-126`. -/
def alloc (H : Heap) (fail : Bool) : Except Fault (Option SystemAlloc × Heap) :=
  if E.size = 0 then .ok (some ⟨none, 1⟩, H) else do
    match ← H.alloc fail E.size E.align 1 with
    | (none, H) => .ok (none, H)
    | (some p, H) => .ok (some ⟨some p, 1⟩, H)

end SystemAlloc

/-- A `Vec` (`vec.rs:30-36`), or a `Box` (`boxed.rs:18-23`), whose `len` is 1. -/
structure Obj where
  buf : SystemAlloc
  len : Nat
  boxed : Bool
deriving DecidableEq, Repr

/-- The memory, the vectors and boxes of the program by number, and the values whose
destructor has run, most recent first. -/
structure State where
  heap : Heap
  objs : Nat → Option Obj
  dropped : List Tok

/-- The calls of the program. -/
inductive Op where
  /-- `Vec::new_in` -/
  | new (h : Nat)
  /-- `Vec::with_capacity_in` -/
  | withCapacity (h n : Nat) (fail : Bool)
  /-- `Vec::reserve` -/
  | reserve (h n : Nat) (fail : Bool)
  /-- `Vec::push` -/
  | push (h : Nat) (v : Tok) (fail : Bool)
  /-- `Vec::pop` -/
  | pop (h : Nat)
  /-- `Vec::clear` -/
  | clear (h : Nat)
  /-- `Vec::as_slice` and `Box::deref` -/
  | read (h : Nat)
  /-- `Vec::extend_from_slice` -/
  | extendFromSlice (h : Nat) (vs : List Tok) (fail : Bool)
  /-- `Vec::extend` -/
  | extend (h other : Nat) (fail : Bool)
  /-- `Vec::into_std` -/
  | intoStd (h : Nat)
  /-- `Vec::from` a `std` vector with the given elements and capacity -/
  | fromStd (h : Nat) (vs : List Tok) (cap : Nat)
  /-- `Box::new_in` -/
  | box (h : Nat) (v : Tok) (fail : Bool)
  /-- drop a vector or box -/
  | drop (h : Nat)

/-- What the program sees. -/
inductive Out where
  | ok
  /-- `Err(AllocError)` -/
  | err
  | item (v : Option Tok)
  | items (vs : List Tok)
  /-- a destructor panicked -/
  | panic
  /-- a destructor panicked while a panic was unwinding: the process ends -/
  | abort
deriving DecidableEq, Repr

section
variable (fix : Bool) (E : Elem) (bomb : Tok → Bool)

/-- Run the destructors of values which are dropped together, `ptr::drop_in_place` of a
slice: if one panics the others still run. -/
def runDrops (s : State) (vs : List Tok) : Out × State :=
  if E.copy then (.ok, s) else
  ((match (vs.filter bomb).length with
    | 0 => .ok
    | 1 => .panic
    | _ => .abort), { s with dropped := vs.reverse ++ s.dropped })

/-- The values in a vector or box: `slice::from_raw_parts(self.buf.as_ptr(), self.len)`.
Values of size zero are not in memory. -/
def values (H : Heap) (x : Obj) : Except Fault (List Tok) :=
  if E.size = 0 then .ok (List.replicate x.len 0) else H.read x.buf.data 0 x.len

/-- `Vec::clear`, `vec.rs:313-317`: run the destructors, then set the length. -/
def clear (s : State) (h : Nat) (x : Obj) : Except Fault (Out × State) := do
  let vs ← values E s.heap x
  if fix then
    .ok (runDrops E bomb { s with objs := upd s.objs h (some { x with len := 0 }) } vs)
  else
    match runDrops E bomb s vs with
    | (.ok, s) => .ok (.ok, { s with objs := upd s.objs h (some { x with len := 0 }) })
    | (out, s) => .ok (out, s)

/-- Drop a vector (`vec.rs:464-471`) or box (`boxed.rs:113-127`), and then its memory
(`system.rs:250-264`), also if a destructor panics. -/
def dropObj (s : State) (h : Nat) (x : Obj) : Except Fault (Out × State) := do
  let vs ← values E s.heap x
  let (out, s) := runDrops E bomb s vs
  if out = .abort then .ok (out, s) else do
  let H ← x.buf.free E s.heap
  .ok (out, { s with heap := H, objs := upd s.objs h none })

/-- `Vec::extend_from_slice`, `vec.rs:478-493`: whether it succeeded. -/
def extendFromSlice (H : Heap) (x : Obj) (vs : List Tok) (fail : Bool) :
    Except Fault (Bool × Obj × Heap) :=
  if E.size = 0 then .ok (true, { x with len := x.len + vs.length }, H) else do
  let (done, buf, H) ← x.buf.resize E H fail x.len vs.length
  if !done then .ok (false, { x with buf := buf }, H) else do
  let H ← H.write buf.data x.len vs
  .ok (true, { x with buf := buf, len := x.len + vs.length }, H)

/-- One call. What the type system of Rust rules out (a vector which does not exist) has no
effect. -/
def step (s : State) : Op → Except Fault (Out × State)
  -- `vec.rs:52-58`
  | .new h => .ok (.ok, { s with objs := upd s.objs h (some ⟨.dangling, 0, false⟩) })
  -- `vec.rs:113-118`
  | .withCapacity h n fail => do
    let (done, buf, H) ← SystemAlloc.dangling.resize E s.heap fail 0 n
    if done then .ok (.ok, { s with heap := H, objs := upd s.objs h (some ⟨buf, 0, false⟩) })
    else do
      let H ← buf.free E H
      .ok (.err, { s with heap := H })
  -- `vec.rs:190-197`
  | .reserve h n fail =>
    match s.objs h with
    | none => .ok (.ok, s)
    | some x =>
      if E.size = 0 then .ok (.ok, s) else do
      let (done, buf, H) ← x.buf.resize E s.heap fail x.len n
      .ok (if done then .ok else .err,
        { s with heap := H, objs := upd s.objs h (some { x with buf := buf }) })
  -- `vec.rs:231-245`
  | .push h v fail =>
    match s.objs h with
    | none => .ok (.ok, s)
    | some x =>
      if E.size = 0 then
        let s := { s with objs := upd s.objs h (some { x with len := x.len + 1 }) }
        -- the item has not been written anywhere: it is dropped at the end
        if fix then .ok (.ok, s) else .ok (runDrops E bomb s [v])
      else do
        let (done, buf, H) ← x.buf.resize E s.heap fail x.len 1
        let s := { s with heap := H, objs := upd s.objs h (some { x with buf := buf }) }
        if !done then
          match runDrops E bomb s [v] with
          | (.ok, s) => .ok (.err, s)
          | (out, s) => .ok (out, s)
        else do
          let H ← s.heap.write buf.data x.len [v]
          .ok (.ok, { s with heap := H, objs := upd s.objs h (some { x with buf := buf, len := x.len + 1 }) })
  -- `vec.rs:264-273`
  | .pop h =>
    match s.objs h with
    | none => .ok (.ok, s)
    | some x =>
      match x.len with
      | 0 => .ok (.item none, s)
      | n + 1 =>
        let s := { s with objs := upd s.objs h (some { x with len := n }) }
        if E.size = 0 then .ok (.item (some 0), s) else do
        match ← s.heap.read x.buf.data n 1 with
        | [v] => .ok (.item (some v), s)
        | _ => .error .ub
  | .clear h =>
    match s.objs h with
    | none => .ok (.ok, s)
    | some x => clear fix E bomb s h x
  -- `vec.rs:316-320`, `boxed.rs:66-74`
  | .read h =>
    match s.objs h with
    | none => .ok (.ok, s)
    | some x => do
      let vs ← values E s.heap x
      .ok (.items vs, s)
  | .extendFromSlice h vs fail =>
    match s.objs h with
    | none => .ok (.ok, s)
    | some x => do
      let (done, x, H) ← extendFromSlice E s.heap x vs fail
      .ok (if done then .ok else .err, { s with heap := H, objs := upd s.objs h (some x) })
  -- `vec.rs:415-428`; `try_merge`, `system.rs:148-157`, succeeds for size zero only
  | .extend h o fail =>
    match s.objs h, s.objs o with
    | some x, some y =>
      if E.size = 0 then
        .ok (.ok, { s with objs := upd (upd s.objs h (some { x with len := x.len + y.len })) o none })
      else do
        let vs ← values E s.heap y
        let (done, x, H) ← extendFromSlice E s.heap x vs fail
        let H ← y.buf.free E H
        .ok (if done then .ok else .err,
          { s with heap := H, objs := upd (upd s.objs h (some x)) o none })
    | _, _ => .ok (.ok, s)
  -- `vec.rs:79-98`: the block must have the layout which `std` expects
  | .intoStd h =>
    match s.objs h with
    | none => .ok (.ok, s)
    | some x => do
      let vs ← values E s.heap x
      let H ← x.buf.free E s.heap
      .ok (.items vs, { s with heap := H, objs := upd s.objs h none })
  -- `vec.rs:660-679`
  | .fromStd h vs cap =>
    if E.size = 0 then
      .ok (.ok, { s with objs := upd s.objs h (some ⟨⟨none, 2 ^ 64 - 1⟩, vs.length, false⟩) })
    else if cap = 0 then .ok (.ok, { s with objs := upd s.objs h (some ⟨.dangling, vs.length, false⟩) })
    else do
      match ← s.heap.alloc false (cap * E.size) E.align cap with
      | (none, H) => .ok (.err, { s with heap := H })
      | (some p, H) => do
        let H ← H.write (some p) 0 vs
        .ok (.ok, { s with heap := H, objs := upd s.objs h (some ⟨⟨some p, cap⟩, vs.length, false⟩) })
  -- `boxed.rs:44-52`, `system.rs:56-67`
  | .box h v fail => do
    match ← SystemAlloc.alloc E s.heap fail with
    | (none, H) =>
      match runDrops E bomb { s with heap := H } [v] with
      | (.ok, s) => .ok (.err, s)
      | (out, s) => .ok (out, s)
    | (some buf, H) =>
      let s := { s with heap := H, objs := upd s.objs h (some ⟨buf, 1, true⟩) }
      if E.size = 0 then
        -- the value has not been written anywhere: it is dropped at the end
        if fix then .ok (.ok, s)
        else match runDrops E bomb { s with objs := upd s.objs h none } [v] with
          | (.ok, s') => .ok (.ok, { s' with objs := s.objs })
          | (out, s') => .ok (out, s')
      else do
        let H ← s.heap.write buf.data 0 [v]
        .ok (.ok, { s with heap := H })
  | .drop h =>
    match s.objs h with
    | none => .ok (.ok, s)
    | some x => dropObj E bomb s h x

end

/-- At the start. -/
def State.init : State := ⟨⟨0, fun _ => none⟩, fun _ => none, []⟩

end Musli.Sys
