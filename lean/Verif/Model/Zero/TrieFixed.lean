import Verif.Model.Zero.Trie
import Verif.Spec.Trie
/-!
# Tries with corrections

This is not the code: it is `Model/Zero/Trie.lean` with corrections, to tell that nothing else is wrong with it. Inserting looks at both
neighbours of the place where a string is missing, and not only at the one before; and looking up goes below a node only if the whole of
its string is a prefix of what is looked up.
-/
namespace Musli.Zero.Trie
open Musli Musli.Zero

section
variable {α : Type}

/-- The place of a neighbour with a common prefix: the one before `n`, or else the one at `n`. -/
def neighbourAt (buf : Bytes) (string : Bytes) (children : List (Node α)) (n : Nat) : Except ZErr (Option (Nat × Nat)) :=
  let after : Except ZErr (Option (Nat × Nat)) :=
    match children[n]? with
    | none => .ok none
    | some child =>
      match load buf child.string with
      | .error e => .error e
      | .ok text => let p := prefixLen text string; if p = 0 then .ok none else .ok (some (n, p))
  match n with
  | 0 => after
  | pre + 1 =>
    match children[pre]? with
    | none => after
    | some child =>
      match load buf child.string with
      | .error e => .error e
      | .ok text => let p := prefixLen text string; if p = 0 then after else .ok (some (pre, p))

/-- The loop of `Builder::insert`, `trie/factory.rs:144-223`, with the first correction. If the string is a prefix of that of the neighbour,
which is now possible, the value is one of the node which is split off. -/
def insertLoopC (buf : Bytes) (value : α) : (fuel : Nat) → (string : SRef) → (current : Bytes) →
    List (Node α) → Except ZErr (List (Node α))
  | 0, _, _, _ => .error .fuel
  | fuel + 1, string, current, children =>
    match search buf children current with
    | .error e => .error e
    | .ok (.found n) => .ok (children.modify n (Node.push value))
    | .ok (.missing n) =>
      match neighbourAt buf current children n with
      | .error e => .error e
      | .ok none => .ok (children.insertIdx n (leaf string value))
      | .ok (some (i, p)) =>
        match children[i]? with
        | none => .error .panic
        | some child =>
          match child.split p with
          | .error e => .error e
          | .ok (.mk s v c) =>
            match string.splitAt p with
            | .error e => .error e
            | .ok (_, string') =>
              if p = current.length then .ok (children.set i (.mk s (v ++ [value]) c))
              else
                match insertLoopC buf value fuel string' (current.drop p) c with
                | .error e => .error e
                | .ok c' => .ok (children.set i (.mk s v c'))

/-- `Builder::insert`, `trie/factory.rs:144-223`. -/
def insertC (buf : Bytes) (links : Links α) (string : SRef) (value : α) : Except ZErr (Links α) :=
  match load buf string with
  | .error e => .error e
  | .ok current =>
    match insertLoopC buf value (current.length + 1) string current links.children with
    | .error e => .error e
    | .ok children => .ok ⟨links.values, children⟩

/-- The loop of `TrieRef::get`, `trie/mod.rs:279-309`, with the second correction. -/
def getLoopC (buf : Bytes) : (fuel : Nat) → List (Node α) → Bytes → Except ZErr (Option (List α))
  | 0, _, _ => .error .fuel
  | fuel + 1, children, string =>
    match search buf children string with
    | .error e => .error e
    | .ok (.found n) => match children[n]? with
      | none => .error .bounds
      | some child => .ok (some child.links.values)
    | .ok (.missing 0) => .ok none
    | .ok (.missing (pre + 1)) => match children[pre]? with
      | none => .error .bounds
      | some child =>
        match load buf child.string with
        | .error e => .error e
        | .ok text =>
          let p := prefixLen text string
          if p = 0 ∨ p ≠ text.length then .ok none else getLoopC buf fuel child.links.children (string.drop p)

/-- `TrieRef::get`, `trie/mod.rs:230-267`. -/
def getC (buf : Bytes) (trie : Links α) (string : Bytes) : Except ZErr (Option (List α)) :=
  getLoopC buf (string.length + 1) trie.children string

/-- The loop `'node`, `trie/walk.rs:57-113`, with the second correction. -/
def findNodeC (buf : Bytes) : (fuel : Nat) → List (Node α) → Bytes → Nat → Except ZErr (Option (Node α × Nat))
  | 0, _, _, _ => .error .fuel
  | fuel + 1, children, string, len =>
    match search buf children string with
    | .error e => .error e
    | .ok (.found n) => match children[n]? with
      | none => .error .bounds
      | some child => .ok (some (child, len))
    | .ok (.missing n) =>
      match neighbour buf string (neighbours children n) with
      | .error e => .error e
      | .ok none => .ok none
      | .ok (some (child, p)) =>
        if p = string.length then .ok (some (child, len))
        else if p = child.string.len then findNodeC buf fuel child.links.children (string.drop p) (len + p)
        else .ok none

/-- The iteration after the first turn of the loop in `Walk::poll`, `trie/walk.rs:57-113`; what follows is not changed. -/
def iterInC (buf : Bytes) (cap : Option Nat) (trie : Links α) (string : Bytes) : Except ZErr (Walk α) :=
  if string = [] then .ok (iterIn trie [])
  else
    match findNodeC buf (string.length + 1) trie.children string 0 with
    | .error e => .error e
    | .ok none => .ok ⟨.stack, []⟩
    | .ok (some (node, len)) =>
      match prefixString node.string len with
      | .error e => .error e
      | .ok s => match load buf s with
        | .error e => .error e
        | .ok key => match tryPush cap (node.links, 0, key) [] with
          | .error e => .error e
          | .ok stack => .ok ⟨.values key node.links.values, stack⟩

/-- The buffer and the builder after the calls. -/
def runC : Bytes → Links α → List (Op α) → Except ZErr (Bytes × Links α)
  | buf, trie, [] => .ok (buf, trie)
  | buf, trie, .store bytes :: ops => runC (buf ++ bytes) trie ops
  | buf, trie, .insert string value :: ops =>
    match insertC buf trie string value with
    | .ok trie => runC buf trie ops
    | .error e => .error e

end

end Musli.Zero.Trie
