import Verif.Model.IoWrite
import Verif.Spec.Writes
/-!
# When a device fails
-/
namespace Musli.Io

/-- The reply is a failure: an error other than `Interrupted`, or nothing accepted. -/
def Reply.Fails : Reply → Prop
  | .accept n => n = 0
  | .interrupted => False
  | .error => True

instance : DecidablePred Reply.Fails := fun r => by
  cases r <;> unfold Reply.Fails <;> infer_instance

end Musli.Io
