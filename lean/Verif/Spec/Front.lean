import Verif.Model.Codec
/-!
# Decoders that consume from the front

`Front false d`: on success what is left is a suffix of the input. `Front true
d`: moreover the result is determined by the consumed prefix alone, whatever
follows it.
-/
namespace Musli

/-- See above. -/
def Front {α} (strict : Bool) (d : Dec α) : Prop :=
  ∀ s a s', d s = .ok (a, s') →
    ∃ c, s = c ++ s' ∧ (strict = true → ∀ r, d (c ++ r) = .ok (a, r))

mutual

/-- No option is positional: an option of the packed mode is present if the input
has not ended, so it looks at what follows. -/
def Ty.noEof : Ty → Mode → Bool
  | .option t, m => m != .packed && t.noEof m
  | .array _ t, m => t.noEof m
  | .vec t, m => t.noEof m
  | .set t, m => t.noEof m
  | .map k t, m => k.noEof m && t.noEof m
  | .tuple ts, m => ts.noEof m
  | .result _ t u, m => t.noEof m && u.noEof m
  | .boxed t, m => t.noEof m
  | .wrapping t, m => t.noEof m
  | .transparent t, m => t.noEof m
  | .strct _ fs, m => fs.noEof m
  | .packed _ fs, m => m == .wire || m == .descriptive || fs.noEof .packed
  | .enm _ vs, m => vs.noEof m
  | _, _ => true

/-- As above. -/
def Tys.noEof : Tys → Mode → Bool
  | .nil, _ => true
  | .cons t ts, m => t.noEof m && ts.noEof m

/-- As above. -/
def Fields.noEof : Fields → Mode → Bool
  | .nil, _ => true
  | .cons _ _ _ t fs, m => t.noEof m && fs.noEof m

/-- As above. -/
def Variants.noEof : Variants → Mode → Bool
  | .nil, _ => true
  | .cons _ t vs, m => t.noEof m && vs.noEof m

end

end Musli
