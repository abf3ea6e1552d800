import Verif.Basic
/-!
# Contexts which trace, `crates/musli/src/context/trace.rs` and `capture.rs`

Names of fields, types and keys are bytes. Allocation fails or succeeds as the events say: `room` tells whether a step or an error can
be pushed, `fmt` whether a message or a key can be formatted into a string. The
guards of the state are in `Model/Access.lean`.
-/
namespace Musli.Trace
open Musli

/-- `Step`, `trace.rs:699-710`. -/
inductive Step where
  | struct (name : Bytes)
  | enum (name : Bytes)
  | variant (name : Bytes)
  | named (name : Bytes)
  | unnamed (index : Nat)
  | index (index : Nat)
  | key (key : Bytes)
deriving DecidableEq, Repr

/-- `WithTraceImpl`, `trace.rs:148-159`, and the error of `Capture`, `capture.rs:134-136`. -/
structure State where
  mark : BitVec 64
  errors : List (BitVec 64 × BitVec 64 × Bytes)
  path : List Step
  cap : Nat
  captured : Option Bytes
deriving DecidableEq

/-- `new_in`, `trace.rs:167-179`, `Capture::new`. -/
def init : State := ⟨0, [], [], 0, none⟩

/-- `push_path`, `trace.rs:208-219`. -/
def State.pushPath (s : State) (step : Step) (room : Bool) : State :=
  if room then { s with path := s.path ++ [step] } else { s with cap := s.cap + 1 }

/-- `pop_path`, `trace.rs:221-237`. -/
def State.popPath (s : State) : State :=
  if s.cap > 0 then { s with cap := s.cap - 1 } else { s with path := s.path.dropLast }

/-- `message`, `message_at`, `custom` and `custom_at`, `trace.rs:251-258, 295-332`, `default_context.rs:305-338`, which
also capture the error, `capture.rs:189-214`. -/
def State.message (s : State) (start : Option (BitVec 64)) (m : Bytes) (fmt room : Bool) : State :=
  let s := if fmt && room then { s with errors := s.errors ++ [(start.getD s.mark, s.mark, m)] } else s
  { s with captured := some m }

/-- `clear`, `trace.rs:268-277`, `capture.rs:180-186`. -/
def State.clear (s : State) : State := { s with mark := 0, errors := [], path := [], captured := none }

/-- What encoders and decoders tell the context. -/
inductive Ev where
  /-- `enter_named_field`, `enter_unnamed_field`, `enter_variant`, `enter_sequence_index` -/
  | enter (s : Step) (room : Bool)
  /-- `enter_struct`, `enter_enum` -/
  | enterType (s : Step) (room : Bool)
  /-- `enter_map_key` -/
  | enterKey (key : Bytes) (fmt room : Bool)
  /-- `leave_field`, `leave_variant`, `leave_sequence_index`, `leave_map_key` -/
  | leave
  /-- `leave_struct`, `leave_enum` -/
  | leaveType
  | advance (n : BitVec 64)
  | restore (mark : BitVec 64)
  | message (start : Option (BitVec 64)) (m : Bytes) (fmt room : Bool)
  | clear

/-- The methods of `TraceImpl for WithTraceImpl`, `trace.rs:261-417`. -/
def State.event (includeType : Bool) (s : State) : Ev → State
  | .enter step room => s.pushPath step room
  | .enterType step room => if includeType then s.pushPath step room else s
  | .enterKey key fmt room => if fmt then s.pushPath (.key key) room else s
  | .leave => s.popPath
  | .leaveType => if includeType then s.popPath else s
  | .advance n => { s with mark := s.mark + n }
  | .restore m => { s with mark := m }
  | .message start m fmt room => s.message start m fmt room
  | .clear => s.clear

/-- The state after a history. -/
def State.run (includeType : Bool) (s : State) (es : List Ev) : State := es.foldl (State.event includeType) s

/-- An error as `errors` and `report` give it, `trace.rs:607-695`: the message, its range, the path and the number
of steps which are missing. -/
structure Reported where
  path : List Step
  cap : Nat
  start : BitVec 64
  stop : BitVec 64
  message : Bytes
deriving DecidableEq

/-- `errors`, `trace.rs:195-204`, `Errors::next`. -/
def State.reported (s : State) : List Reported := s.errors.map fun e => ⟨s.path, s.cap, e.1, e.2.1, e.2.2⟩

/-- `result`, `capture.rs:161-170`; that it also takes the error out is not modelled. -/
def State.result (s : State) : Except Bytes Unit :=
  match s.captured with
  | some e => .error e
  | none => .ok ()

/-- The events of a decoder, and whether it succeeds. -/
structure Run where
  events : List Ev
  ok : Bool

/-- `decode_untagged_enum` as the context sees it, `musli-macros/src/de.rs:316-357`: before every variant but the last
the mark is restored, the variants are tried until one succeeds, and if none does there is one more
error. A variant which fails stops where it is. -/
def untagged (name : Bytes) (mark : BitVec 64) (mismatch : Bytes) (vs : List Run) : Run :=
  let rec go : List Run → Run
    | [] => ⟨[.message none mismatch true true], false⟩
    | [last] => if last.ok then ⟨last.events ++ [.leaveType], true⟩
      else ⟨last.events ++ [.message none mismatch true true], false⟩
    | v :: rest =>
      if v.ok then ⟨.restore mark :: v.events ++ [.leaveType], true⟩
      else ⟨.restore mark :: v.events ++ (go rest).events, (go rest).ok⟩
  ⟨.enterType (.enum name) true :: (go vs).events, (go vs).ok⟩

/-- The field of a derived decoder, `musli-macros/src/de.rs:1137-1162`. -/
def field (name : Bytes) (r : Run) : Run :=
  if r.ok then ⟨.enter (.named name) true :: r.events ++ [.leave], true⟩
  else ⟨.enter (.named name) true :: r.events, false⟩

end Musli.Trace
