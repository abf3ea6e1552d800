import Verif.Model.Codec
import Verif.Model.Json.Codec
import Verif.Model.Value.Value
/-!
# Model of reading a map by hand

The closure that is passed to `decode_map` gets a `MapDecoder`
(`crates/musli-core/src/de/map_decoder.rs`), from which it may take single
entries (`decode_entry`, or `entry`) and all remaining entries
(`decode_remaining_entries`, an `EntriesDecoder` with `decode_entry_key`,
`decode_entry_value` and `end_entries`). What the closure does is a list of `MapOp`.
-/
namespace Musli

/-- A call in the closure of `decode_map`. -/
inductive MapOp where
  /-- `map.entry()`, `map_decoder.rs:55-67`. -/
  | entry
  /-- `let mut e = map.decode_remaining_entries()?`, then at most `k` times
  `e.decode_entry_key()` and `e.decode_entry_value()`, then `e.end_entries()?`. -/
  | rest (k : Nat)
deriving DecidableEq

/-! ## Binary formats -/

/-- `decode_remaining_entries` leaves nothing for the decoder it was called on:
`wire/de.rs:685-694` and `descriptive/de.rs:863-872` take the count, `storage/de.rs:576-584`
copies it. -/
def takesRemaining : Mode → Bool
  | .storage => false
  | .packed => false
  | .wire => true
  | .descriptive => true

/-- One call, with `c` entries remaining: what it returns, and how many remain. `e` reads a key
and a value. `wire/de.rs:675-693, 753-771`, `descriptive/de.rs:853-871, 899-917`,
`storage/de.rs:566-584, 646-669`. -/
def mapOp {α} (F : Fmt) (takes : Bool) (e : Dec α) : MapOp → Nat → Dec (List α × Nat)
  | .entry, 0 => pure ([], 0)
  | .entry, c + 1 => do
    let a ← e
    pure ([a], c)
  | .rest k, c => do
    let l ← decN e (min k c)
    let _ ← F.endMap (c - min k c)
    pure (l, if takes then 0 else c)

/-- The calls, one after another. -/
def mapOps {α} (F : Fmt) (takes : Bool) (e : Dec α) : List MapOp → Nat → Dec (List (List α) × Nat)
  | [], c => pure ([], c)
  | op :: ops, c => do
    let (l, c) ← mapOp F takes e op c
    let (ls, c) ← mapOps F takes e ops c
    pure (l :: ls, c)

/-- `decode_map` with a closure that makes these calls, `wire/de.rs:486-495`,
`descriptive/de.rs:583-591`, `storage/de.rs:394-408`. -/
def decodeMapWith [Host] (o : Options) (env : Env) (m : Mode) (k t : Ty) (ops : List MapOp) :
    Dec (List (List (k.Val × t.Val))) := do
  let c ← (m.fmt o).decMap
  let (ls, c) ← mapOps (m.fmt o) (takesRemaining m) (do
    let a ← viaD o env k m
    let b ← viaD o env t m
    pure (a, b)) ops c
  let _ ← (m.fmt o).endMap c
  pure ls

/-! ## JSON -/

namespace Json

/-- The state of a `JsonObjectDecoder`, `object_decoder.rs:11-18`. -/
structure ObjState where
  first : Bool
  finalized : Bool

/-- Read at most `k` entries; returns `first`. `object_decoder.rs:57-84, 143-152, 198-218`. -/
def takeEntries {α} (e : P α) : (k : Nat) → (first : Bool) → P (List α × Bool)
  | 0, first => pure ([], first)
  | k + 1, first => do
    let more ← nextKey first
    if more then do
      let a ← e
      let (l, first) ← takeEntries e k false
      pure (a :: l, first)
    else pure ([], false)

/-- One call, `object_decoder.rs:143-170, 198-223`. -/
def mapOp {α} (e : P α) : MapOp → ObjState → P (List α × ObjState)
  | .entry, st => if st.finalized then pure ([], st) else do
    let (l, first) ← takeEntries e 1 st.first
    pure (l, { st with first := first })
  | .rest k, st => if st.finalized then P.fail .invalid else do
    let (l, first) ← takeEntries e k st.first
    endMap first
    pure (l, { st with finalized := true })

/-- The calls, one after another. -/
def mapOps {α} (e : P α) : List MapOp → ObjState → P (List (List α) × ObjState)
  | [], st => pure ([], st)
  | op :: ops, st => do
    let (l, st) ← mapOp e op st
    let (ls, st) ← mapOps e ops st
    pure (l :: ls, st)

/-- `decode_map` with a closure that makes these calls, `json/de/mod.rs:382-390`. -/
def decodeMapWith (full : Bool) (env : Env) (k t : Ty) (ops : List MapOp) :
    P (List (List (k.Val × t.Val))) := do
  expect .openBrace
  let (ls, st) ← mapOps (do
    let a ← decKey full k
    expect .colon
    let b ← decJ full env t
    pure (a, b)) ops ⟨true, false⟩
  if st.finalized then pure ls else do
    endMap st.first
    pure ls

end Json

/-! ## Values -/

namespace Value

/-- One call on the entries that are left, `value/de.rs:524-538, 563-586`:
`decode_remaining_entries` copies the iterator, and `end_entries` does nothing. -/
def mapOp {α} (e : Value × Value → Except Err α) :
    MapOp → List (Value × Value) → Except Err (List α × List (Value × Value))
  | .entry, [] => .ok ([], [])
  | .entry, x :: l => match e x with
    | .ok a => .ok ([a], l)
    | .error e => .error e
  | .rest k, l => match (l.take k).mapM e with
    | .ok as => .ok (as, l)
    | .error e => .error e

/-- The calls, one after another. -/
def mapOps {α} (e : Value × Value → Except Err α) :
    List MapOp → List (Value × Value) → Except Err (List (List α))
  | [], _ => .ok []
  | op :: ops, l => match mapOp e op l with
    | .ok (as, l) => match mapOps e ops l with
      | .ok ls => .ok (as :: ls)
      | .error e => .error e
    | .error e => .error e

/-- Key and value of an entry, `value/de.rs:562-587, 606-614`. -/
def readPair {α β} (f : Value → Except Err α) (g : Value → Except Err β) (x : Value × Value) :
    Except Err (α × β) :=
  match f x.1 with
  | .ok a => match g x.2 with
    | .ok b => .ok (a, b)
    | .error e => .error e
  | .error e => .error e

/-- `decode_map` with a closure that makes these calls. -/
def decodeMapWith [Host] (o : Options) (env : Env) (k t : Ty) (ops : List MapOp) (v : Value) :
    Except Err (List (List (k.Val × t.Val))) :=
  match readMap v with
  | .ok l => mapOps (readPair (decV o env k true) (decV o env t false)) ops l
  | .error e => .error e

end Value

end Musli
