import Verif.Basic
/-!
# `#[musli::encoder]`, `decoder`, `visitor` and `unsized_visitor`, `crates/musli-macros/src/types.rs`

Implementations written by hand are completed. Types are those of `TyExpr`; what is written by hand is a number.
-/
namespace Musli.Types
open Musli

/-- `Extra`, `types.rs:19-37`. -/
inductive Extra where
  | none | cxFn | cx | error | mode | tryCloneFn | allocator | visitorStr | visitorBytes
deriving DecidableEq

/-- `Kind`, `types.rs:80-84`. -/
inductive Kind where
  | selfCx | genericCx
deriving DecidableEq

/-- The conditions of `#[cfg(…)]`. -/
inductive Cfg where
  | flag (n : Nat)
  | not (c : Cfg)
  | all (a b : Cfg)
  | any (a b : Cfg)
deriving DecidableEq

def Cfg.holds (env : Nat → Bool) : Cfg → Bool
  | .flag n => env n
  | .not c => !c.holds env
  | .all a b => a.holds env && b.holds env
  | .any a b => a.holds env || b.holds env

/-- `Self::Cx` or a type parameter. -/
inductive CxPath where
  | selfCx
  | param (name : Bytes)
deriving DecidableEq

/-- A type, or the body of a function. -/
inductive TyExpr where
  | written (n : Nat)
  | param (name : Bytes)
  /-- `<… as Context>::Error`. -/
  | error (cx : CxPath)
  /-- `<… as Context>::Allocator`. -/
  | allocator (cx : CxPath)
  /-- `Never`, without arguments. -/
  | never
  /-- `Never<(Self::Cx, Self::Mode)>`. -/
  | neverCoder
  /-- `Never<(Self::Ok, str)>` and `[u8]`. -/
  | neverStr
  | neverBytes
  | unit
  /-- `self.cx` -/
  | cxBody
  /-- `None` -/
  | noneBody
deriving DecidableEq

/-- An item of an implementation with its `cfg` attributes; other attributes are left out. `other` are constants and macros. -/
inductive Item where
  | fn (name : Bytes) (cfgs : List Cfg) (body : TyExpr)
  | type (name : Bytes) (cfgs : List Cfg) (ty : TyExpr)
  | other (n : Nat)
deriving DecidableEq

abbrev str (s : String) : Bytes := s.toUTF8.toList.map fun b => BitVec.ofNat 8 b.toNat

/-- `types.rs:39-52`. -/
def encoderTypes : List (Bytes × Extra) :=
  [(str "Cx", .cx), (str "cx", .cxFn), (str "Error", .error), (str "Mode", .mode), (str "EncodeSome", .none), (str "EncodePack", .none),
    (str "EncodeSequence", .none), (str "EncodeMap", .none), (str "EncodeMapEntries", .none), (str "EncodeVariant", .none),
    (str "EncodeSequenceVariant", .none), (str "EncodeMapVariant", .none)]

/-- `types.rs:54-69`. -/
def decoderTypes : List (Bytes × Extra) :=
  [(str "Cx", .cx), (str "cx", .cxFn), (str "Error", .error), (str "Mode", .mode), (str "TryClone", .none), (str "try_clone", .tryCloneFn),
    (str "Allocator", .allocator), (str "DecodeBuffer", .none), (str "DecodeSome", .none), (str "DecodePack", .none),
    (str "DecodeSequence", .none), (str "DecodeMap", .none), (str "DecodeMapEntries", .none), (str "DecodeVariant", .none)]

/-- `types.rs:71-76`. -/
def visitorTypes : List (Bytes × Extra) :=
  [(str "Error", .error), (str "Allocator", .allocator), (str "String", .visitorStr), (str "Bytes", .visitorBytes)]

/-- `types.rs:78-79`. -/
def unsizedVisitorTypes : List (Bytes × Extra) := [(str "Error", .error), (str "Allocator", .allocator)]

/-- `never_type`, `types.rs:339-389`. -/
def neverType (kind : Kind) : Extra → TyExpr
  | .visitorStr => .neverStr
  | .visitorBytes => .neverBytes
  | .none => match kind with
    | .selfCx => .neverCoder
    | .genericCx => .never
  | _ => .never

/-- What is not there yet, without a name. -/
def remove (missing : List (Bytes × Extra)) (name : Bytes) : List (Bytes × Extra) := missing.filter fun p => p.1 != name

/-- The loop over the items, `types.rs:185-224`: what is missing, and the types which are there under a condition. -/
def scan : List Item → List (Bytes × Extra) → List (Bytes × Cfg × Extra) →
    Except Unit (List (Bytes × Extra) × List (Bytes × Cfg × Extra))
  | [], missing, acc => .ok (missing, acc)
  | .fn name _ _ :: rest, missing, acc => scan rest (remove missing name) acc
  | .type name cfgs _ :: rest, missing, acc =>
    match missing.lookup name with
    | none => scan rest missing acc
    | some extra =>
      match cfgs with
      | [] => scan rest (remove missing name) acc
      | [c] => scan rest (remove missing name) (acc ++ [(name, c, extra)])
      | _ :: _ :: _ => .error ()
  | .other _ :: rest, missing, acc => scan rest missing acc

/-- The first type parameter with a letter, `types.rs:171-179`. -/
def firstParam (letter : Byte) (default : Bytes) (params : List Bytes) : Bytes :=
  (params.find? fun p => p.head? == some letter).getD default

/-- What is put in for a missing name, `types.rs:261-311`. -/
def missingItem (kind : Kind) (params : List Bytes) (p : Bytes × Extra) : Item :=
  let cx := firstParam 0x43 (str "__C") params
  let path : CxPath := match kind with
    | .selfCx => .selfCx
    | .genericCx => .param cx
  match p.2 with
  | .cxFn => .fn p.1 [] .cxBody
  | .tryCloneFn => .fn p.1 [] .noneBody
  | .cx => .type p.1 [] (.param cx)
  | .mode => .type p.1 [] (.param (firstParam 0x4D (str "__M") params))
  | .allocator => .type p.1 [] (.allocator path)
  | .error => .type p.1 [] (.error path)
  | e => .type p.1 [] (neverType kind e)

/-- `Types::expand`, `types.rs:144-337`. The missing names are put in sorted by name there. -/
def expand (types : List (Bytes × Extra)) (hint : Bytes) (kind : Kind) (params : List Bytes) (items : List Item) : Except Unit (List Item) :=
  match scan items types [] with
  | .error e => .error e
  | .ok (missing, conditional) =>
    .ok (items ++ conditional.map (fun p => .type p.1 [.not p.2.1] (neverType kind p.2.2)) ++
      missing.map (missingItem kind params) ++ [.type hint [] .unit])

end Musli.Types
