import Verif.Model.Dec2Flt.Parse
import Verif.Model.Dec2Flt.Lemire
import Verif.Model.Dec2Flt.Slow
/-!
# From text to floats

`crates/musli/src/dec2flt/{mod,number}.rs`.
-/
namespace Musli.Dec2Flt

/-- `INT_POW10`, `number.rs:7-24`. -/
def intPow10 : List Nat := [1, 10, 100, 1000, 10000, 100000, 1000000, 10000000, 100000000,
  1000000000, 10000000000, 100000000000, 1000000000000, 10000000000000, 100000000000000,
  1000000000000000]

/-- `Number::is_fast_path`, `number.rs:37-42`. -/
def Number.isFastPath (R : RawFloat) (n : Number) : Bool :=
  R.minFast ≤ n.exponent ∧ n.exponent ≤ R.maxDisguised ∧ n.mantissa ≤ R.maxMantissaFast ∧
    ¬ n.manyDigits

/-- `Number::try_fast_path`, `number.rs:53-87`. The outer `Option` is a panic. -/
def Number.tryFastPath (R : RawFloat) (n : Number) : Option (Option Nat) :=
  let sign (v : Nat) := if n.negative then R.neg v else v
  if n.isFastPath R then
    if n.exponent ≤ R.maxFast then
      let value := R.fromU64 n.mantissa
      if n.exponent < 0 then
        some (some (sign (R.div value (R.pow10FastPath (-n.exponent).toNat))))
      else
        some (some (sign (R.mul value (R.pow10FastPath n.exponent.toNat))))
    else do
      let shift := (n.exponent - R.maxFast).toNat
      let p ← intPow10[shift]?
      if n.mantissa * p ≥ 2 ^ 64 then some none else
      let mantissa := n.mantissa * p
      if mantissa > R.maxMantissaFast then some none else
      some (some (sign (R.mul (R.fromU64 mantissa) (R.pow10FastPath R.maxFast.toNat))))
  else some none

/-- `biased_fp_to_float`, `mod.rs:100-104`. -/
def biasedFpToFloat (R : RawFloat) (x : BiasedFp) : Nat :=
  (x.f ||| (x.e.toNat <<< R.mantBits))

/-- The algorithms after the fast path, `mod.rs:130-145`. -/
def slowPaths (R : RawFloat) (s : Bytes) (num : Number) : Option BiasedFp := do
  let fp ← computeFloat R num.exponent num.mantissa
  let fp ←
    if num.manyDigits ∧ fp.e ≥ 0 then do
      let m ← u64 (num.mantissa + 1)
      let fp' ← computeFloat R num.exponent m
      some (if fp ≠ fp' then { fp with e := -1 } else fp)
    else some fp
  if fp.e < 0 then parseLongMantissa R s else some fp

/-- `dec2flt`, `mod.rs:108-152`: the bit pattern and the number of bytes consumed. The
outer `Option` is a panic. -/
def dec2flt (R : RawFloat) (s : Bytes) : Option (Option (Nat × Nat)) :=
  match s with
  | [] => some none
  | c :: t =>
    let negative : Bool := c == 0x2D#8
    let signed : Bool := c == 0x2D#8 || c == 0x2B#8
    let s := if signed then t else s
    let count := if signed then 1 else 0
    let sign (v : Nat) := if negative then R.neg v else v
    if s = [] then some none else do
      match ← parsePartialNumber s with
      | none =>
        match parseInfNan s with
        | none => some none
        | some (sp, rest) =>
          let f := match sp with
            | .inf => R.fmt.inf
            | .nan => R.fmt.nan
          some (some (sign f, count + rest))
      | some (num, rest) =>
        let num := { num with negative := negative }
        match ← num.tryFastPath R with
        | some value => some (some (value, count + rest))
        | none => do
          let fp ← slowPaths R s num
          some (some (sign (biasedFpToFloat R fp), count + rest))

end Musli.Dec2Flt
