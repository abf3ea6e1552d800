import Verif.Model.Reader
/-!
# What a sequence of reads may return

Stated in terms of a position in the bytes that are available.
-/
namespace Musli.Rd

/-- How many bytes an operation consumes when it succeeds. -/
def Op.size : Op → Nat
  | .skip n => n.toNat
  | .read n => n.toNat
  | .readBytes n => n.toNat
  | .readUninit n => n.toNat
  | .readByte => 1
  | .readArray n => n.toNat
  | .peek => 0
  | .isEof => 0

/-- `op` returned `out` with the position at `p`, and moved it to `q`, when only `avail` may be
seen. Failing is always allowed, and must not move the position. -/
def Allowed (avail : Bytes) (p : Nat) (op : Op) (out : Out) (q : Nat) : Prop :=
  match out with
  | .err => q = p
  | .peeked b => q = p ∧ (b = none ∨ b = avail[p]?)
  | .eof b => q = p ∧ (b = false → p < avail.length)
  | .done => q = p + op.size ∧ q ≤ avail.length
  | .byte b => op.size = 1 ∧ q = p + 1 ∧ avail[p]? = some b
  | .bytes b => q = p + op.size ∧ q ≤ avail.length ∧ b = (avail.drop p).take op.size

/-- A sequence of operations and results, each allowed, from position `p` to position `q`. -/
inductive Reads (avail : Bytes) : Nat → List Op → List Out → Nat → Prop
  | nil (p) : Reads avail p [] [] p
  | cons {p q r op out ops outs} : Allowed avail p op out q → Reads avail q ops outs r →
      Reads avail p (op :: ops) (out :: outs) r

end Musli.Rd
