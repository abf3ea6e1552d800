import Verif.Props.Samples
import Verif.Props.Float
/-!
# The float parser agrees with the tests of the repository

The literals of `crates/musli/tests/dec2flt.rs` and of `tests/dec2flt/{lemire,parse}.rs`, evaluated with the
model; the expected bits of the former are those of the correctly rounded value, those of the latter are the
tests' own. These are tests of the model, not theorems.
-/
namespace Musli.Dec2Flt

set_option maxRecDepth 20000

/-- The text is read to its end, as these bits. -/
def reads (text : Bytes) (f64 f32 : Nat) : Bool :=
  decide (dec2flt rawF64 text = some (some (f64, text.length))) &&
    decide (dec2flt rawF32 text = some (some (f32, text.length)))

example : reads (utf8% "1.0") 0x3ff0000000000000 0x3f800000 = true := by decide +kernel
example : reads (utf8% "3e-5") 0x3eff75104d551d69 0x37fba882 = true := by decide +kernel
example : reads (utf8% "0.1") 0x3fb999999999999a 0x3dcccccd = true := by decide +kernel
example : reads (utf8% "12345.") 0x40c81c8000000000 0x4640e400 = true := by decide +kernel
example : reads (utf8% "0.9999999") 0x3fefffffca501acb 0x3f7ffffe = true := by decide +kernel
example : reads (utf8% "2.2250738585072014e-308") 0x10000000000000 0x0 = true := by decide +kernel
example : reads (utf8% "36893488147419103229.0") 0x4400000000000000 0x60000000 = true := by decide +kernel
example : reads (utf8% "101e-33") 0x398063603878dcbe 0xc031b02 = true := by decide +kernel
example : reads (utf8% "1e23") 0x44b52d02c7e14af6 0x65a96816 = true := by decide +kernel
example : reads (utf8% "2075e23") 0x4565747ab143e353 0x6b2ba3d6 = true := by decide +kernel
example : reads (utf8% "8713e-23") 0x3bf9b75b4e7de2b9 0x1fcdbada = true := by decide +kernel
example : reads (utf8% "1e300") 0x7e37e43c8800759c 0x7f800000 = true := by decide +kernel
example : reads (utf8% "123456789.34567e250") 0x75848e3735333cb6 0x7f800000 = true := by decide +kernel
example : reads (utf8% "943794359898089732078308743689303290943794359843568973207830874368930329.") 0x4ee117e8e90a0ff7 0x7f800000 = true := by decide +kernel
example : reads (utf8% "5e-324") 0x1 0x0 = true := by decide +kernel
example : reads (utf8% "91e-324") 0x12 0x0 = true := by decide +kernel
example : reads (utf8% "1e-322") 0x14 0x0 = true := by decide +kernel
example : reads (utf8% "13245643e-320") 0x63df832d9 0x0 = true := by decide +kernel
example : reads (utf8% "2.22507385851e-308") 0x10000000001620 0x0 = true := by decide +kernel
example : reads (utf8% "2.1e-308") 0xf19c2629ccf53 0x0 = true := by decide +kernel
example : reads (utf8% "4.9406564584124654e-324") 0x1 0x0 = true := by decide +kernel
example : reads (utf8% "1e400") 0x7ff0000000000000 0x7f800000 = true := by decide +kernel
example : reads (utf8% "1e309") 0x7ff0000000000000 0x7f800000 = true := by decide +kernel
example : reads (utf8% "2e308") 0x7ff0000000000000 0x7f800000 = true := by decide +kernel
example : reads (utf8% "1.7976931348624e308") 0x7ff0000000000000 0x7f800000 = true := by decide +kernel
example : reads (utf8% "0.0") 0x0 0x0 = true := by decide +kernel
example : reads (utf8% "1e-325") 0x0 0x0 = true := by decide +kernel
example : reads (utf8% "1e-326") 0x0 0x0 = true := by decide +kernel
example : reads (utf8% "1e-500") 0x0 0x0 = true := by decide +kernel
example : reads (utf8% "1.448997445238699") 0x3ff72f17f1f49aad 0x3fb978c0 = true := by decide +kernel

/-- Negative ones. -/
example : reads (utf8% "-5e-324") 0x8000000000000001 0x80000000 = true := by decide +kernel
/-- `lonely_dot`, `exponentiated_dot`, `lonely_sign`, lines 100-116. -/
example : dec2flt rawF64 (utf8% ".") = some none ∧ dec2flt rawF64 (utf8% ".e0") = some none ∧
    dec2flt rawF64 (utf8% "+") = some none ∧ dec2flt rawF64 (utf8% "-") = some none := by decide +kernel

/-- `tests/dec2flt/lemire.rs`: `compute_float` on near-halfway cases. -/
def computes (R : RawFloat) (q : Int) (w : Nat) (e : Int) (f : Nat) : Bool :=
  decide (computeFloat R q w = some ⟨f, e⟩)

example : computes rawF32 (0) 16777216 151 0 = true := by decide +kernel
example : computes rawF32 (0) 16777217 151 0 = true := by decide +kernel
example : computes rawF32 (0) 16777218 151 1 = true := by decide +kernel
example : computes rawF32 (0) 16777219 151 2 = true := by decide +kernel
example : computes rawF32 (0) 16777220 151 2 = true := by decide +kernel
example : computes rawF32 (-10) 167772160000000000 151 0 = true := by decide +kernel
example : computes rawF32 (-10) 167772170000000000 151 0 = true := by decide +kernel
example : computes rawF32 (-10) 167772180000000000 151 1 = true := by decide +kernel
example : computes rawF32 (-10) 167772190000000000 151 2 = true := by decide +kernel
example : computes rawF32 (-10) 167772200000000000 151 2 = true := by decide +kernel
example : computes rawF64 (0) 9007199254740992 1076 0 = true := by decide +kernel
example : computes rawF64 (0) 9007199254740993 1076 0 = true := by decide +kernel
example : computes rawF64 (0) 9007199254740994 1076 1 = true := by decide +kernel
example : computes rawF64 (0) 9007199254740995 1076 2 = true := by decide +kernel
example : computes rawF64 (0) 9007199254740996 1076 2 = true := by decide +kernel
example : computes rawF64 (0) 18014398509481984 1077 0 = true := by decide +kernel
example : computes rawF64 (0) 18014398509481986 1077 0 = true := by decide +kernel
example : computes rawF64 (0) 18014398509481988 1077 1 = true := by decide +kernel
example : computes rawF64 (0) 18014398509481990 1077 2 = true := by decide +kernel
example : computes rawF64 (0) 18014398509481992 1077 2 = true := by decide +kernel
example : computes rawF64 (-3) 9007199254740992000 1076 0 = true := by decide +kernel
example : computes rawF64 (-3) 9007199254740993000 1076 0 = true := by decide +kernel
example : computes rawF64 (-3) 9007199254740994000 1076 1 = true := by decide +kernel
example : computes rawF64 (-3) 9007199254740995000 1076 2 = true := by decide +kernel
example : computes rawF64 (-3) 9007199254740996000 1076 2 = true := by decide +kernel

/-- `tests/dec2flt.rs:9-17`: the whole text is read. -/
def whole (R : RawFloat) (s : Bytes) : Option Nat :=
  match dec2flt R s with
  | some (some (bits, n)) => if n = s.length then some bits else none
  | _ => none

/-- `missing_pieces`. -/
example : [utf8% ".e", utf8% "1e", utf8% "e4", utf8% "e", utf8% ".12e", utf8% "321.e", utf8% "32.12e+", utf8% "12.32e-"].all
      (fun s => whole rawF64 s == none) = true := by decide +kernel

/-- `invalid_chars`: each of `r,?<j` put before each character of each literal. -/
example : ([utf8% "123", utf8% "666.", utf8% ".1", utf8% "5e1", utf8% "7e-3", utf8% "0.0e+1"].all fun s =>
    (utf8% "r,?<j").all fun c => (List.range s.length).all fun i =>
      whole rawF64 (s.take i ++ c :: s.drop i) == none) = true := by decide +kernel

/-- `valid`. -/
def parses (s : Bytes) (e : Int) (m : Nat) : Bool :=
  decide ((parsePartialNumber s).map (·.map (·.1)) = some (some ⟨e, m, false, false⟩))

example : parses (utf8% "123.456e789") (786) 123456 = true := by decide +kernel
example : parses (utf8% "123.456e+789") (786) 123456 = true := by decide +kernel
example : parses (utf8% "123.456e-789") (-792) 123456 = true := by decide +kernel
example : parses (utf8% ".050") (-3) 50 = true := by decide +kernel
example : parses (utf8% "999") (0) 999 = true := by decide +kernel
example : parses (utf8% "1.e300") (300) 1 = true := by decide +kernel
example : parses (utf8% ".1e300") (299) 1 = true := by decide +kernel
example : parses (utf8% "101e-33") (-33) 101 = true := by decide +kernel
example : parses (utf8% "1.5e0000000000000000000000000") (-1) 15 = true := by decide +kernel

/-! `issue31109`, `issue31407`, `many_digits`: the quick ones. The others were evaluated once in the same way (they
agree), but take the kernel up to a minute each and are left out. -/

example : whole rawF64 (utf8% "0.3333333333333333333333333333333333333333333333333333333333333333333333333333333333333333333333333333333333333333333333333333333333333333333333333333333333333333333333333333333333333333333333333333333333333333333333333333333333333333333333333333333333333333333333333333333333333333333333333333333333333333333333333333333333333333333333333333333333333333333333333333333333") = some 0x3fd5555555555555 := by decide +kernel
example : whole rawF64 (utf8% "2.47032822920623272e-324") = some 0x0 := by decide +kernel
example : whole rawF64 (utf8% "94393431193180696942841837085033647913224148539854e-358") = some 0x6c9a143590c14 := by decide +kernel
example : whole rawF32 (utf8% "1.175494140627517859246175898662808184331245864732796240031385942718174675986064769972472277004271745681762695312500000000000000000000000000000000000000000000000000000000000000000000000000000000000000000000000000000000000000000000000000000000000000000000000000000000000000000000000000000000000000000000000000000000000000000000000000000000000000000000000000000000000000000000000000000000000000000000000000000000000000000000000000000000000000000000000000000000000000000000000000000000000000000000000000000000000000000000000000000000000000000000000000000000000000000000000000000000000000000000000000000000000000000000000000000000000000000000000000000000000000000000000000000000000000000000000000000000000000000000000000000000000000000000000000000000000000000000000000000000e-38") = some 0x7ffffe := by decide +kernel

end Musli.Dec2Flt
