import Verif.Proofs.Zero.Sip
import Verif.Model.Zero.Portable
import Verif.Props.ZeroSwiss
/-!
# C77, C78: hashes
-/
namespace Musli.Zero.Sip
open Musli

/-- The widths of `usize`. -/
def UsizeBits (bits : Nat) : Prop := bits = 16 ∨ bits = 32 ∨ bits = 64

/-- **C77**: whatever is written to the hasher and in whatever pieces, no byte outside of the pieces is read, and
the hash is that of SipHash-1-3 with 128 bits of all the bytes which were written; the bytes of numbers are in
the order of the machine. -/
theorem C77_siphash (H : ByteOrder) {bits : Nat} (hb : UsizeBits bits) (k0 k1 : BitVec 64) (cs : List Call) :
    ∃ h, (new k0 k1).calls H bits cs = .ok h ∧
      h.finish128 = Spec.Sip.hash 1 3 k0 k1 (cs.flatMap (Call.bytes H bits)) ∧
      h.finish = (Spec.Sip.hash 1 3 k0 k1 (cs.flatMap (Call.bytes H bits))).2 := by
  obtain ⟨h, h1, h2⟩ := calls_inv (bits := bits) (by unfold UsizeBits at hb; omega)
    (by unfold UsizeBits at hb; omega) H cs (new_inv bits k0 k1)
  rw [List.nil_append] at h2
  have h3 := finish_inv (by unfold UsizeBits at hb; omega) h2
  exact ⟨h, h1, h3, by rw [Hasher.finish, h3]⟩

/-- **C77**: two histories which write the same bytes end in the same hash. -/
theorem C77_chunks (H : ByteOrder) {bits : Nat} (hb : UsizeBits bits) (k0 k1 : BitVec 64) (cs ds : List Call)
    (h : cs.flatMap (Call.bytes H bits) = ds.flatMap (Call.bytes H bits)) :
    ∃ a b, (new k0 k1).calls H bits cs = .ok a ∧ (new k0 k1).calls H bits ds = .ok b ∧
      a.finish128 = b.finish128 := by
  obtain ⟨a, h1, h2, -⟩ := C77_siphash H hb k0 k1 cs
  obtain ⟨b, h3, h4, -⟩ := C77_siphash H hb k0 k1 ds
  exact ⟨a, b, h1, h3, by rw [h2, h4, h]⟩

/-- A message of 20 bytes in three pieces which cross the words, and in one. -/
example : ((new 1 2).calls .little 64 [.write [1, 2, 3], .u32 0x07060504, .u8 8,
      .write [9, 10, 11, 12, 13, 14, 15, 16, 17, 18], .u16 0x1413]).toOption.map Hasher.finish128 =
    some (Spec.Sip.hash 1 3 1 2 ((List.range 20).map fun i => BitVec.ofNat 8 (i + 1))) := by decide +kernel

end Musli.Zero.Sip

namespace Musli.Zero.Portable
open Musli Musli.Zero.Sip Musli.Zero.Swiss

/-- The calls which write bytes only. -/
def Call.bytewise : Call → Bool
  | .write _ => true
  | .u8 _ => true
  | _ => false

theorem bytewise_bytes {cs : List Call} (h : cs.all Call.bytewise = true) (m n : Machine) :
    cs.flatMap (Call.bytes m.order m.bits) = cs.flatMap (Call.bytes n.order n.bits) := by
  induction cs with
  | nil => rfl
  | cons c cs ih =>
    rw [List.all_cons, Bool.and_eq_true] at h
    rw [List.flatMap_cons, List.flatMap_cons, ih h.2]
    cases c <;> first | rfl | cases h.1

theorem ofBytesIn_bytesIn (E : ByteOrder) (x : BitVec 64) : ofBytesIn E (bytesIn E x) = x := by
  cases E with
  | little => exact Fixed.ofLeBytes_leBytes (by omega) x
  | big =>
    show Fixed.ofLeBytes 64 (Fixed.leBytes 8 x).reverse.reverse = x
    rw [List.reverse_reverse]
    exact Fixed.ofLeBytes_leBytes (by omega) x

/-- **C78**, what holds of hashes: keys which are hashed as bytes have the same hash on all machines. -/
theorem C78_hash_partial (m n : Machine) (hm : UsizeBits m.bits) (hn : UsizeBits n.bits) (key : BitVec 64)
    (cs : List Call) (h : cs.all Call.bytewise = true) :
    ∃ x, hash128 m key cs = .ok x ∧ hash128 n key cs = .ok x ∧ hash m key cs = .ok x.2 ∧ hash n key cs = .ok x.2 := by
  obtain ⟨a, h1, h2, h3⟩ := C77_siphash m.order hm 0 key cs
  obtain ⟨b, h4, h5, h6⟩ := C77_siphash n.order hn 0 key cs
  refine ⟨a.finish128, ?_, ?_, ?_, ?_⟩
  · unfold hash128; rw [h1]
  · unfold hash128; rw [h4]; dsimp only; rw [h2, h5, bytewise_bytes h m n]
  · unfold hash; rw [h1]; rfl
  · unfold hash; rw [h4]; dsimp only; rw [h2, h6, bytewise_bytes h m n]

/-- The machine of a platform. -/
def machine : Platform → Machine
  | .sse2 => ⟨.little, 64⟩
  | .neon => ⟨.little, 64⟩
  | .little => ⟨.little, 64⟩
  | .big => ⟨.big, 64⟩

theorem machine_bits (p : Platform) : UsizeBits (machine p).bits := by cases p <;> exact .inr (.inr rfl)

theorem hash'_eq (p q : Platform) (key : BitVec 64) (cs : List Call) (h : cs.all Call.bytewise = true) :
    hash' (machine p) key cs = hash' (machine q) key cs := by
  obtain ⟨x, -, -, h1, h2⟩ := C78_hash_partial (machine p) (machine q) (machine_bits p) (machine_bits q) key cs h
  unfold hash'
  rw [h1, h2]

section
variable {K V : Type} [DecidableEq K]

/-- **C78**, what holds of maps: a `MapRef` which is written on one platform, in whichever byte order, and is read on
another one with the same size of groups, finds the entries whose keys are hashed as bytes, and no others. -/
theorem C78_map_partial (p q : Platform) (hpq : SameWidth p q) (E : ByteOrder) (calls : K → List Call)
    (hc : ∀ k, (calls k).all Call.bytewise = true) (zero : K × V) (es : List (K × V)) (hl : es.length * 8 < 2 ^ 64) :
    ∃ m, storeMap p.group (fun k => hash' (machine p) seed (calls k)) zero es = .ok m ∧ ∀ k,
      ((∃ v, getMap q.group (fun k => hash' (machine q) (mapKey E (machine p) (machine q) seed) (calls k)) m k =
          .ok (some v) ∧ (k, v) ∈ es) ∨
       (getMap q.group (fun k => hash' (machine q) (mapKey E (machine p) (machine q) seed) (calls k)) m k = .ok none ∧
          ∀ v, (k, v) ∉ es)) := by
  have he : (fun k => hash' (machine q) (mapKey E (machine p) (machine q) seed) (calls k)) =
      fun k => hash' (machine p) seed (calls k) := by
    funext k
    rw [mapKey, ofBytesIn_bytesIn]
    exact hash'_eq q p seed _ (hc k)
  rw [he]
  obtain ⟨m, h1, h2⟩ := C44_map (fun k => hash' (machine p) seed (calls k)) p q hpq zero es hl
  refine ⟨m, h1, fun k => ?_⟩
  rcases h2 k with ⟨v, h3, h4, -⟩ | ⟨h3, h4, -⟩
  · exact .inl ⟨v, h3, h4⟩
  · exact .inr ⟨h3, h4⟩

end

/-- `Hash for str`: the bytes, and `0xff`. -/
def strCalls (s : Bytes) : List Call := [.write s, .u8 0xff]

/-- **C78** is violated by sets: the key of a `SetRef` is not in the byte order of the archive. The set of the strings
`a` and `b`, written on a little endian machine, does not contain `a` on a big endian machine. -/
theorem C78_violated_set :
    (storeSet Platform.little.group (fun s => hash' (machine .little) seed (strCalls s)) [] [[0x61#8], [0x62#8]]).toOption.map
      (fun m => (
        containsSet Platform.little.group
          (fun s => hash' (machine .little) (setKey (machine .little) (machine .little) seed) (strCalls s)) m [0x61#8],
        containsSet Platform.big.group
          (fun s => hash' (machine .big) (setKey (machine .little) (machine .big) seed) (strCalls s)) m [0x61#8])) =
    some (.ok true, .ok false) := by decide +kernel

/-- **C78** is violated by the hashes of numbers: they are those of the bytes in the order of the machine. The map
with the keys 1 and 2 of type `u32`, written on a little endian machine, does not contain 1 on a big endian machine. -/
theorem C78_violated_numbers (E : ByteOrder) :
    (storeMap Platform.little.group (fun (k : BitVec 32) => hash' (machine .little) seed [.u32 k]) (0, 0)
        [(1, 10), (2, 20)]).toOption.map
      (fun m => (
        getMap Platform.little.group
          (fun k => hash' (machine .little) (mapKey E (machine .little) (machine .little) seed) [.u32 k]) m 1,
        getMap Platform.big.group
          (fun k => hash' (machine .big) (mapKey E (machine .little) (machine .big) seed) [.u32 k]) m 1)) =
    some (.ok (some 10), .ok none) := by
  cases E <;> decide +kernel

/-- A case of C78_map_partial: strings, and platforms of different byte orders. -/
example : SameWidth .little .big ∧ (strCalls [0x61#8]).all Call.bytewise = true := ⟨rfl, rfl⟩

end Musli.Zero.Portable
