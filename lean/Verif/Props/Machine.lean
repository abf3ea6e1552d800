import Verif.Proofs.Machine
import Verif.Proofs.Machine64
/-!
# C114: documents between machines with pointers of 32 and 64 bits

`P` is the machine which writes, `Q` the one which reads; `h1` and `h2` are their byte orders. A value exists on a
machine with 32 bits if such a machine can write it. `Machine.encode` and `Machine.decode` are the code only if
`is_native_fixed` is false; `Machine.encVecCopy` is what happens otherwise.
-/
namespace Musli

variable {h0 h1 h2 : Host} {o : Options} {env : Env} {m : Mode} {t : Ty}

/-- **C114.** With pointers of 64 bits this is the model all the other theorems are about. -/
theorem C114_model_w64 [Host] (hn : Opt.isNativeFixed o = false) :
    Machine.encode .w64 o env m t = encode o env m t ∧ Machine.decode .w64 o env m t = decode o env m t := by
  unfold Machine.encode Machine.decode encode decode
  rw [Machine.fmt_w64]
  exact ⟨funext (Machine.encG_eq o env hn t m), Machine.decG_eq o env hn t m⟩

/-- **C114.** On machines with 32 bits, too, everything that can be written is read back as the same value, and
nothing else is consumed: C01 for these machines. -/
theorem C114_round_trip (P : Ptr) (ht : WellFormedTy m t = true) (he : t.envOk env) (v : t.Val) {bs : Bytes}
    (h : @Machine.encode h1 P o env m t v = .ok bs) (rest : Bytes) :
    @Machine.decode h2 P o env m t (bs ++ rest) = .ok (v, rest) :=
  Machine.rt_below (iz := true) P P (Nat.le_refl _) (Nat.le_refl _) (fun _ => rfl) env t m false ht he
    (Machine.isizeOk_true t) v bs rest h (fun h => nomatch h)

/-- **C114.** What machines with 32 bits can write machines with 64 bits can write. In storage and wire they write
the same bytes. -/
theorem C114_same_bytes (hi : t.noIsize = true) (v : t.Val) {bs : Bytes}
    (h : @Machine.encode h1 .w32 o env m t v = .ok bs) :
    ∃ bs', @Machine.encode h2 .w64 o env m t v = .ok bs' ∧ (m ≠ .descriptive → bs' = bs) := by
  obtain ⟨bs', h', e⟩ := Machine.widen (h2 := h2) env t m v hi bs h
  exact ⟨bs', Machine.mono .w64 env t m v (by decide) h' (Machine.isizeOk_true t), fun hm => (e hm).symm⟩

/-- **C114 (partial).** A document whose value exists on machines of 32 bits is read as the same value, in every
format, by every machine, whichever machine wrote it, and nothing else is consumed. Missing: types with `isize`,
values which do not exist on machines of 32 bits, and options with which bits are copied:
`C114_violated_isize`, `C114_violated_length` and `C114_violated_copy`. -/
theorem C114_documents_partial (P Q : Ptr) (ht : WellFormedTy m t = true) (he : t.envOk env) (hi : t.noIsize = true)
    (v : t.Val) {bs0 bs : Bytes} (h32 : @Machine.encode h0 .w32 o env m t v = .ok bs0)
    (h : @Machine.encode h1 P o env m t v = .ok bs) (rest : Bytes) :
    @Machine.decode h2 Q o env m t (bs ++ rest) = .ok (v, rest) := by
  have hQ : 32 ≤ Q.bits := by cases Q <;> decide
  have hbelow : Machine.encG (@Machine.fmtBelow h1 P 32 o) env t m v = .ok bs := by
    cases P with
    | w32 => exact h
    | w64 =>
      obtain ⟨bs', h', -⟩ := Machine.widen (h2 := h1) env t m v hi bs0 h32
      have := Machine.mono .w64 env t m v (by decide) h' (Machine.isizeOk_true t)
      rw [this] at h
      cases h
      exact h'
  exact Machine.rt_below (iz := false) P Q (by cases P <;> decide) hQ (fun h => nomatch h) env t m false ht he
    hi v bs rest hbelow (fun h => nomatch h)

/-! ## What goes wrong -/

/-- **C114 (violated).** The `isize` −1, written with 32 bits, has another value with 64
bits; written with 64 bits it cannot be read with 32 bits. -/
theorem C114_violated_isize :
    @Machine.encode ⟨.little⟩ .w32 Sample.varOpts Sample.env .storage (.prim .isize) (BitVec.allOnes 64) =
      .ok [0xFF, 0xFF, 0xFF, 0xFF, 0x0F] ∧
    @Machine.decode ⟨.little⟩ .w64 Sample.varOpts Sample.env .storage (.prim .isize) [0xFF, 0xFF, 0xFF, 0xFF, 0x0F] =
      .ok (BitVec.ofNat 64 4294967295, []) ∧
    @Machine.encode ⟨.little⟩ .w64 Sample.varOpts Sample.env .storage (.prim .isize) (BitVec.allOnes 64) =
      .ok [0xFF, 0xFF, 0xFF, 0xFF, 0xFF, 0xFF, 0xFF, 0xFF, 0xFF, 0x01] ∧
    @Machine.decode ⟨.little⟩ .w32 Sample.varOpts Sample.env .storage (.prim .isize)
      [0xFF, 0xFF, 0xFF, 0xFF, 0xFF, 0xFF, 0xFF, 0xFF, 0xFF, 0x01] = .error .overflow := by
  refine ⟨?_, ?_, ?_, ?_⟩ <;> rfl

/-- **C114 (violated).** With variable-length lengths a list of `2^32` to `2^35` bytes is not an error on machines
of 32 bits: only the first bytes are read, as many as the length has in its lower 32 bits. -/
theorem C114_violated_length (ho : Opt.length o = .variable) (v : List (BitVec 8)) {bs : Bytes}
    (h : @Machine.encode h1 .w64 o env .storage (.vec (.prim (.uint .w8))) v = .ok bs) (hv : v.length < 2 ^ 35) :
    ∃ rest, @Machine.decode h2 .w32 o env .storage (.vec (.prim (.uint .w8))) bs =
      .ok (v.take (v.length % 2 ^ 32), rest) := by
  unfold Machine.encode at h
  simp only [Machine.encG] at h
  obtain ⟨a, b, ha, hb, rfl⟩ := Enc.seq_eq_ok.mp h
  have hall : ∀ l : List (BitVec 8), Enc.all (fun x => (@Machine.fmt h1 .w64 o .storage).encPrim (.uint .w8) x) l = .ok l := by
    intro l
    induction l with
    | nil => rfl
    | cons x l ih => exact Enc.seq_eq_ok.mpr ⟨[x], l, rfl, ih, rfl⟩
  have hb' : b = v := by
    have := hall v
    have hb : Enc.all (fun x => (@Machine.fmt h1 .w64 o .storage).encPrim (.uint .w8) x) v = .ok b := by
      rw [← hb]
    rw [hb] at this
    exact Except.ok.inj this
  subst hb'
  have hn : ∀ (n : Nat) (l r : List (BitVec 8)), l.length = n →
      decN (Machine.decG (@Machine.fmt h2 .w32 o) env (.prim (.uint .w8)) .storage) n (l ++ r) = .ok (l, r) := by
    intro n l r hl
    subst hl
    induction l with
    | nil => rfl
    | cons x l ih =>
      show (Machine.decG (@Machine.fmt h2 .w32 o) env (.prim (.uint .w8)) .storage >>= fun a =>
        decN _ l.length >>= fun l => pure (a :: l)) _ = _
      have : Machine.decG (@Machine.fmt h2 .w32 o) env (.prim (.uint .w8)) .storage (x :: (l ++ r)) =
          .ok (x, l ++ r) := by simp only [Machine.decG]; rfl
      rw [List.cons_append, Dec.bind_ok this, Dec.bind_ok ih]
      rfl
  have hlen : @Machine.encLen h1 .w64 64 o b.length = .ok a := ha
  unfold Machine.encLen at hlen
  rw [if_pos (Nat.lt_trans hv (by decide))] at hlen
  have e : (BitVec.ofNat Ptr.w64.bits b.length).toNat = b.length := by
    rw [BitVec.toNat_ofNat, Nat.mod_eq_of_lt (Nat.lt_trans hv (by decide))]
  have hd := (Ptr.storage_outcome (h2 := h2) .w64 .w32 _ hlen b).1 (.inr ⟨by rw [ho]; rfl, by rw [e]; exact hv⟩)
  rw [e] at hd
  refine ⟨b.drop (b.length % 2 ^ 32), ?_⟩
  unfold Machine.decode
  simp only [Machine.decG]
  have hd' : (@Machine.fmt h2 .w32 o .storage).decSeq (a ++ b) = .ok (b.length % 2 ^ 32, b) := by
    show @Machine.decLen h2 .w32 o _ = _
    unfold Machine.decLen
    rw [Dec.bind_ok hd, Dec.pure_apply, BitVec.toNat_ofNat]
    rfl
  have hk : b.length % 2 ^ 32 ≤ b.length := Nat.mod_le _ _
  have := hn (b.length % 2 ^ 32) (b.take (b.length % 2 ^ 32)) (b.drop (b.length % 2 ^ 32))
    (by rw [List.length_take]; omega)
  rw [List.take_append_drop] at this
  simp only [Machine.decG] at this
  rw [Dec.bind_ok hd', Dec.bind_ok this]
  rfl

/-- **C114 (violated).** If bits are copied, even an empty list has a length of four bytes on one machine and eight
on the other. -/
theorem C114_violated_copy (h : Host) (t : Ty) :
    @Machine.encVecCopy h .w32 t [] = .ok [0, 0, 0, 0] ∧
    @Machine.encVecCopy h .w64 t [] = .ok [0, 0, 0, 0, 0, 0, 0, 0] := by
  unfold Machine.encVecCopy Machine.neLen
  simp only [List.length_nil, List.flatMap_nil]
  rw [if_pos (by decide), if_pos (by decide)]
  obtain ⟨b⟩ := h
  cases b <;> decide

/-- **C114 (violated).** In general: the bytes written by one machine are never those written by the other. -/
theorem C114_violated_copy_all (t : Ty) (v : List t.Val) {a b : Bytes}
    (ha : @Machine.encVecCopy h1 .w32 t v = .ok a) (hb : @Machine.encVecCopy h1 .w64 t v = .ok b) :
    b.length = a.length + 4 := by
  obtain ⟨x, y, hx, hy, rfl⟩ := Enc.seq_eq_ok.mp ha
  obtain ⟨z, w, hz, hw, rfl⟩ := Enc.seq_eq_ok.mp hb
  cases hy
  cases hw
  unfold Machine.neLen at hx hz
  split at hx
  · split at hz
    · cases hx
      cases hz
      rw [List.length_append, List.length_append, @Fixed.length_toNe h1, @Fixed.length_toNe h1]
      simp only [Ptr.bits]
      omega
    · cases hz
  · cases hx

/-- **C114.** The copies of 64 bits are those of `Model/Codec.lean`. -/
theorem C114_copy_w64 [Host] (t : Ty) (hn : (m.fmt o).native = true) (hb : t.bwE = true) (v : List t.Val) :
    encode o env m (.vec t) v = Machine.encVecCopy .w64 t v := by
  unfold encode
  simp only [encD, hn, hb, Bool.and_self, if_true]
  rfl

/-! ## The full statement -/

/-- **C114.** The full statement: a document is read as the same value by every machine on which the value
exists. -/
def C114Full : Prop := ∀ (h1 h2 : Host) (P Q : Ptr) (o : Options) (env : Env) (m : Mode) (t : Ty) (v : t.Val)
  (bs bs' rest : Bytes), WellFormedTy m t = true → t.envOk env →
  @Machine.encode h1 P o env m t v = .ok bs → @Machine.encode h2 Q o env m t v = .ok bs' →
  @Machine.decode h2 Q o env m t (bs ++ rest) = .ok (v, rest)

@[inherit_doc C114Full]
theorem C114_full_statement_false : ¬C114Full := by
  intro h
  obtain ⟨h1, h2, h3, h4⟩ := C114_violated_isize
  have := h ⟨.little⟩ ⟨.little⟩ .w64 .w32 Sample.varOpts Sample.env .storage (.prim .isize) (BitVec.allOnes 64) _ _ []
    rfl trivial h3 h1
  rw [List.append_nil, h4] at this
  cases this

/-! ## Examples -/

namespace Sample

/-- `(usize, String, Vec<usize>)`. -/
def sizes : Ty := .tuple (.cons (.prim .usize) (.cons .string (.cons (.vec (.prim .usize)) .nil)))

/-- `(4_000_000_000, "ab", [300])`. -/
def someSizes : sizes.Val := (4000000000#64, ⟨utf8% "ab", by decide⟩, [300#64], ())

/-- The same document in storage on both machines. -/
example (P : Ptr) : @Machine.encode ⟨.big⟩ P varOpts Sample.env .storage sizes someSizes =
    .ok [3, 128, 208, 172, 243, 14, 2, 97, 98, 1, 172, 2] := by cases P <;> rfl

/-- In descriptive the width is in the tags. -/
example : @Machine.encode ⟨.big⟩ .w32 varOpts Sample.env .descriptive sizes someSizes =
      .ok [0x63, 0x55, 128, 208, 172, 243, 14, 0xC2, 97, 98, 0x61, 0x55, 172, 2] ∧
    @Machine.encode ⟨.big⟩ .w64 varOpts Sample.env .descriptive sizes someSizes =
      .ok [0x63, 0x59, 128, 208, 172, 243, 14, 0xC2, 97, 98, 0x61, 0x59, 172, 2] := by
  constructor <;> rfl

/-- The hypotheses are met. -/
example : WellFormedTy .descriptive sizes = true ∧ sizes.noIsize = true ∧ Opt.isNativeFixed varOpts = false ∧
    person.noIsize = true ∧ (Ty.prim .isize).noIsize = false := by decide

/-- A struct with everything. -/
example : ∃ bs, @Machine.encode ⟨.little⟩ .w32 varOpts Sample.env .wire person bob = .ok bs ∧
    @Machine.decode ⟨.big⟩ .w64 varOpts Sample.env .wire person (bs ++ [7]) = .ok (bob, [7]) :=
  ⟨_, rfl, C114_documents_partial (h0 := ⟨.little⟩) (h1 := ⟨.little⟩) (o := varOpts) (m := .wire) .w32 .w64 (by decide) person_envOk (by decide) bob rfl rfl [7]⟩

/-- 2^32 does not exist with 32 bits. -/
example : @Machine.encode ⟨.little⟩ .w32 varOpts Sample.env .storage (.prim .usize) (BitVec.ofNat 64 (2 ^ 32)) =
    .error .overflow := by rfl

end Sample
end Musli
