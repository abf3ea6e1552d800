import Verif.Model.Writer
/-!
# What writing to a buffer of bounded size means
-/
namespace Musli.Wr

/-- The bytes of a write. -/
def Op.payload : Op → Bytes
  | .bytes b => b
  | .byte b => [b]

/-- The bytes of all writes. -/
def payload (ops : List Op) : Bytes := ops.flatMap Op.payload

/-- A buffer of at most `cap` bytes: a write is either appended entirely or refused without effect;
it is refused exactly if it does not fit. The results and the contents at the end. -/
def bounded (cap : Nat) : List Op → Bytes → List Bool × Bytes
  | [], buf => ([], buf)
  | op :: ops, buf =>
    if buf.length + op.payload.length ≤ cap then
      let r := bounded cap ops (buf ++ op.payload)
      (true :: r.1, r.2)
    else
      let r := bounded cap ops buf
      (false :: r.1, r.2)

/-- Every write is of a slice that exists: its length fits in a `usize`. -/
def Fit (ops : List Op) : Prop := ∀ op ∈ ops, op.payload.length < 2 ^ 64

end Musli.Wr
