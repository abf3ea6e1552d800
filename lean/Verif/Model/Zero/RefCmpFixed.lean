import Verif.Model.Zero.RefCmp
/-!
# Comparing references, with a correction

This is not the code: it is `cmp` of `Model/Zero/RefCmp.lean` with a correction, to tell that nothing else is wrong with it. Offsets and
lengths are read before they are compared.
-/
namespace Musli.Zero
open Musli

/-- `Ord for Ref` and `PartialOrd for Ref`, `pointer/ref.rs:891-923`, with the correction. -/
def ZRef.cmpC (P : Platform) (O : SizeTy) (E : ByteOrder) (r s : ZRef) : Ordering :=
  match compare (r.offsetOf P O E) (s.offsetOf P O E) with
  | .eq => metaCmp (r.lenOf P O E) (s.lenOf P O E)
  | o => o

end Musli.Zero
