import Verif.Spec.Supported
/-!
# Where `usize` and `isize` occur

The wire format cannot skip a `usize` when a fixed length width is configured
(see C13). Indexes of fields and variants are written as `usize`.
-/
namespace Musli

mutual

/-- No `usize`, `isize` or index is written, packed structs aside (they are skipped as
a whole). -/
def Ty.noUsize : Ty → Bool
  | .prim p => p != .usize && p != .isize
  | .option t => t.noUsize
  | .array _ t => t.noUsize
  | .vec t => t.noUsize
  | .set t => t.noUsize
  | .map k t => k.noUsize && t.noUsize
  | .tuple ts => ts.noUsize
  | .result nt t u => nt != .idx && t.noUsize && u.noUsize
  | .boxed t => t.noUsize
  | .wrapping t => t.noUsize
  | .transparent t => t.noUsize
  | .strct _ fs => fs.noUsize
  | .unitEnum _ names => names.all (fun n => n.ty != .idx)
  | .enm _ vs => vs.noUsize
  | _ => true

/-- As above. -/
def Tys.noUsize : Tys → Bool
  | .nil => true
  | .cons t ts => t.noUsize && ts.noUsize

/-- As above. -/
def Fields.noUsize : Fields → Bool
  | .nil => true
  | .cons n _ _ t fs => n.ty != .idx && t.noUsize && fs.noUsize

/-- As above. -/
def Variants.noUsize : Variants → Bool
  | .nil => true
  | .cons n t vs => n.ty != .idx && t.noUsize && vs.noUsize

end

/-- The wire format can skip values of the type. -/
def WireSkippable (o : Options) (t : Ty) : Bool := t.counted && (Opt.length o = .variable || t.noUsize)

end Musli
