import Verif.Model.Zero.Search
/-!
# Tries, `crates/musli-zerocopy/src/trie`

Paths are relative to `crates/musli-zerocopy/src`. Strings are references into a buffer, as in the code. Nodes are
trees here, before and after `build`: that what `build` stores with `store_slice` is what `load` returns is C51 and
C52. So `Builder::build` and `Node::into_ref`, `Links::into_ref` (`trie/factory.rs:253-334`) are the identity; that
an offset or length may not fit the types of the `Flavor` is left out.
-/
namespace Musli.Zero.Trie
open Musli Musli.Zero

/-- `Ref<[u8], Native, usize>`, `trie/factory.rs:309`. -/
structure SRef where
  off : Nat
  len : Nat
deriving DecidableEq, Repr

/-- `Node` and its `Links`, `trie/factory.rs:265-269, 307-311`; `NodeRef` and `LinksRef`, `trie/mod.rs:1083-1127`. -/
inductive Node (α : Type) where
  | mk (string : SRef) (values : List α) (children : List (Node α))

/-- `Links`. -/
structure Links (α : Type) where
  values : List α
  children : List (Node α)

section
variable {α : Type}

def Node.string : Node α → SRef
  | .mk s _ _ => s

def Node.links : Node α → Links α
  | .mk _ v c => ⟨v, c⟩

/-- `buf.load` of a slice of bytes: out of bounds is an error, `buf/buf.rs` (see C52). -/
def load (buf : Bytes) (s : SRef) : Except ZErr Bytes :=
  if s.off + s.len ≤ buf.length then .ok ((buf.drop s.off).take s.len) else .error .bounds

/-- `Ref::split_at`, `pointer/ref.rs:405-412`. -/
def SRef.splitAt (s : SRef) (at_ : Nat) : Except ZErr (SRef × SRef) :=
  if at_ ≤ s.len then .ok (⟨s.off, at_⟩, ⟨s.off + at_, s.len - at_⟩) else .error .panic

/-- `prefix`, `trie/mod.rs:1130-1132`. -/
def prefixLen : Bytes → Bytes → Nat
  | a :: as, b :: bs => if a = b then prefixLen as bs + 1 else 0
  | _, _ => 0

/-- `<[u8] as Ord>::cmp`: the order of the first bytes which differ, or that of the lengths. -/
def cmpBytes : Bytes → Bytes → Ordering
  | [], [] => .eq
  | [], _ :: _ => .lt
  | _ :: _, [] => .gt
  | a :: as, b :: bs => if a.toNat < b.toNat then .lt else if b.toNat < a.toNat then .gt else cmpBytes as bs

/-- `binary_search_by(buf, this.children, |c| Ok(buf.load(c.string)?.cmp(string)))`, `trie/mod.rs:238-239`,
`trie/walk.rs:61-63`; `try_binary_search_by`, `trie/factory.rs:160-161`. -/
def search (buf : Bytes) (children : List (Node α)) (string : Bytes) : Except ZErr BinarySearch :=
  binarySearchBy children.length (loadFrom children) fun c =>
    match load buf c.string with
    | .ok s => .ok (cmpBytes s string)
    | .error e => .error e

/-! ## Building -/

/-- `Node { string, links: Links::new(value) }`, `trie/factory.rs:174-177, 198-201`. -/
def leaf (string : SRef) (value : α) : Node α := .mk string [value] []

/-- `self.links.values.push(value)`, `trie/factory.rs:165`. -/
def Node.push (value : α) : Node α → Node α
  | .mk s v c => .mk s (v ++ [value]) c

/-- Splitting a node, `trie/factory.rs:209-215`. -/
def Node.split (p : Nat) : Node α → Except ZErr (Node α)
  | .mk s v c =>
    if p ≠ s.len then
      match s.splitAt p with
      | .ok (a, b) => .ok (.mk a [] [.mk b v c])
      | .error e => .error e
    else .ok (.mk s v c)

/-- The loop of `Builder::insert`, `trie/factory.rs:144-223`, on the children of a node. -/
def insertLoop (buf : Bytes) (value : α) : (fuel : Nat) → (string : SRef) → (current : Bytes) →
    List (Node α) → Except ZErr (List (Node α))
  | 0, _, _, _ => .error .fuel
  | fuel + 1, string, current, children =>
    match search buf children current with
    | .error e => .error e
    | .ok (.found n) => .ok (children.modify n (Node.push value))
    | .ok (.missing 0) => .ok (children.insertIdx 0 (leaf string value))
    | .ok (.missing (pre + 1)) =>
      match children[pre]? with
      | none => .error .panic
      | some child =>
        match load buf child.string with
        | .error e => .error e
        | .ok text =>
          let p := prefixLen text current
          if p = 0 then .ok (children.insertIdx (pre + 1) (leaf string value))
          else
            match child.split p with
            | .error e => .error e
            | .ok (.mk s v c) =>
              match string.splitAt p with
              | .error e => .error e
              | .ok (_, string') =>
                match insertLoop buf value fuel string' (current.drop p) c with
                | .error e => .error e
                | .ok c' => .ok (children.set pre (.mk s v c'))

/-- `Builder::insert`, `trie/factory.rs:144-223`. -/
def insert (buf : Bytes) (links : Links α) (string : SRef) (value : α) : Except ZErr (Links α) :=
  match load buf string with
  | .error e => .error e
  | .ok current =>
    match insertLoop buf value (current.length + 1) string current links.children with
    | .error e => .error e
    | .ok children => .ok ⟨links.values, children⟩

/-- `Builder::new`, `trie/factory.rs:87-89, 280-285`. -/
def empty : Links α := ⟨[], []⟩

/-! ## Looking up -/

/-- The loop of `TrieRef::get`, `trie/mod.rs:279-309`. -/
def getLoop (buf : Bytes) : (fuel : Nat) → List (Node α) → Bytes → Except ZErr (Option (List α))
  | 0, _, _ => .error .fuel
  | fuel + 1, children, string =>
    match search buf children string with
    | .error e => .error e
    | .ok (.found n) => match children[n]? with
      | none => .error .bounds
      | some child => .ok (some child.links.values)
    | .ok (.missing 0) => .ok none
    | .ok (.missing (pre + 1)) => match children[pre]? with
      | none => .error .bounds
      | some child =>
        match load buf child.string with
        | .error e => .error e
        | .ok text =>
          let p := prefixLen text string
          if p = 0 then .ok none else getLoop buf fuel child.links.children (string.drop p)

/-- `TrieRef::get`, `trie/mod.rs:230-267`. -/
def get (buf : Bytes) (trie : Links α) (string : Bytes) : Except ZErr (Option (List α)) :=
  getLoop buf (string.length + 1) trie.children string

/-! ## Iterating -/

/-- The `for n in iter` of `trie/walk.rs:86-104`: the first of the neighbours with a common prefix. -/
def neighbour (buf : Bytes) (string : Bytes) : List (Node α) → Except ZErr (Option (Node α × Nat))
  | [] => .ok none
  | child :: rest =>
    match load buf child.string with
    | .error e => .error e
    | .ok text =>
      let p := prefixLen text string
      if p = 0 then neighbour buf string rest else .ok (some (child, p))

/-- `n.checked_sub(1).into_iter().chain((n < len).then_some(n))`, `trie/walk.rs:77-80`, and the children there. -/
def neighbours (children : List (Node α)) (n : Nat) : List (Node α) :=
  (if n = 0 then [] else (children[n - 1]?).toList) ++ (children[n]?).toList

/-- The loop `'node`, `trie/walk.rs:57-113`: the node and the length of the prefix before it. -/
def findNode (buf : Bytes) : (fuel : Nat) → List (Node α) → Bytes → Nat → Except ZErr (Option (Node α × Nat))
  | 0, _, _, _ => .error .fuel
  | fuel + 1, children, string, len =>
    match search buf children string with
    | .error e => .error e
    | .ok (.found n) => match children[n]? with
      | none => .error .bounds
      | some child => .ok (some (child, len))
    | .ok (.missing n) =>
      match neighbour buf string (neighbours children n) with
      | .error e => .error e
      | .ok none => .ok none
      | .ok (some (child, p)) =>
        if p ≠ string.length then findNode buf fuel child.links.children (string.drop p) (len + p)
        else .ok (some (child, len))

/-- `prefix_string`, `trie/walk.rs:175-200`. -/
def prefixString (string : SRef) (prefixLen : Nat) : Except ZErr SRef :=
  if prefixLen ≤ string.off then
    .ok ⟨string.off - prefixLen, string.off + string.len - (string.off - prefixLen)⟩
  else .error .overflow

/-- `WalkState`, `trie/walk.rs:203-213`. -/
inductive WalkState (α : Type) where
  | find (links : Links α) (string : Bytes)
  | values (key : Bytes) (rest : List α)
  | stack

/-- `Walk`, `trie/walk.rs:11-24`. -/
structure Walk (α : Type) where
  state : WalkState α
  stack : List (Links α × Nat × Bytes)

/-- `Stack::try_push`, `stack/array_stack.rs:28-39`, `stack/mod.rs:28-31`; `StackOverflow` if it fails. `cap` is
`N` of the methods which are called `_fixed`. -/
def tryPush (cap : Option Nat) (entry : Links α × Nat × Bytes) (stack : List (Links α × Nat × Bytes)) :
    Except ZErr (List (Links α × Nat × Bytes)) :=
  match cap with
  | none => .ok (entry :: stack)
  | some n => if stack.length = n then .error .capacity else .ok (entry :: stack)

/-- What one turn of the loop in `Walk::poll` does. -/
inductive Step (α : Type) where
  | yield (item : Bytes × α) (walk : Walk α)
  | next (walk : Walk α)
  | done

/-- One turn of the loop in `Walk::poll`, `trie/walk.rs:40-167`. -/
def step (buf : Bytes) (cap : Option Nat) (w : Walk α) : Except ZErr (Step α) :=
  match w.state with
  | .find links [] =>
    match tryPush cap (links, 0, []) w.stack with
    | .error e => .error e
    | .ok stack => .ok (.next ⟨.values [] links.values, stack⟩)
  | .find links (b :: bs) =>
    match findNode buf ((b :: bs).length + 1) links.children (b :: bs) 0 with
    | .error e => .error e
    | .ok none => .ok (.next ⟨.stack, w.stack⟩)
    | .ok (some (node, len)) =>
      match prefixString node.string len with
      | .error e => .error e
      | .ok s => match load buf s with
        | .error e => .error e
        | .ok key => match tryPush cap (node.links, 0, key) w.stack with
          | .error e => .error e
          | .ok stack => .ok (.next ⟨.values key node.links.values, stack⟩)
  | .values key (v :: vs) => .ok (.yield (key, v) ⟨.values key vs, w.stack⟩)
  | .values _ [] => .ok (.next ⟨.stack, w.stack⟩)
  | .stack => match w.stack with
    | [] => .ok .done
    | (links, index, key) :: stack => match links.children[index]? with
      | none => .ok (.next ⟨.stack, stack⟩)
      | some node =>
        match prefixString node.string key.length with
        | .error e => .error e
        | .ok s => match load buf s with
          | .error e => .error e
          | .ok key' => match tryPush cap (links, index + 1, key) stack with
            | .error e => .error e
            | .ok stack => match tryPush cap (node.links, 0, key') stack with
              | .error e => .error e
              | .ok stack => .ok (.next ⟨.values key' node.links.values, stack⟩)

/-- Calling `next` until it returns `None` or an error. -/
def collect (buf : Bytes) (cap : Option Nat) : (fuel : Nat) → Walk α → Except ZErr (List (Bytes × α))
  | 0, _ => .error .fuel
  | fuel + 1, w =>
    match step buf cap w with
    | .error e => .error e
    | .ok .done => .ok []
    | .ok (.next w) => collect buf cap fuel w
    | .ok (.yield item w) => match collect buf cap fuel w with
      | .ok items => .ok (item :: items)
      | .error e => .error e

/-- `TrieRef::iter_in` and `iter_in_fixed`, `trie/mod.rs:662-669, 763-774`, and without the keys `values_in` and
`values_in_fixed`, 391-398, 443-454; `iter`, `iter_fixed`, `values` and `values_fixed` are those of the empty
string, 310-341, 522-526, 585-589. -/
def iterIn (trie : Links α) (string : Bytes) : Walk α := ⟨.find trie string, []⟩

end

end Musli.Zero.Trie
