import Verif.Proofs.Evolution
import Verif.Model.Partial
import Verif.Props.Samples
/-!
# C13–C15, C17, C18, C20, C22, C34: skipping, evolution, truncation
-/
namespace Musli

section
variable [Host] (o : Options) (env : Env)

/-! ## C13, C17: skipping -/

/-- **C13 (partial).** Wire: skipping consumes exactly one encoded value. Missing: values
that contain `usize`, `isize` or indexes when a fixed length width is
configured, and values of enums with a variant that has a `skip_encoding_if` field (`Ty.counted`); there it
is false. -/
theorem C13_wire_skip_partial (t : Ty) (ht : WireSkippable o t = true) (v : t.Val)
    (bs rest : Bytes) (he : encode o env .wire t v = .ok bs) :
    Wire.skip o (bs ++ rest) = .ok ((), rest) := by
  simp only [WireSkippable, Bool.and_eq_true, Bool.or_eq_true, decide_eq_true_eq] at ht
  obtain ⟨hc, h | h⟩ := ht
  · exact skipAny_of_skips (Wire.consumes_step o)
      (skipsD o env (m := .wire) (us := true) (Wire.skippable o true fun _ => h) t (.inl rfl) hc v bs he) rest
  · exact skipAny_of_skips (Wire.consumes_step o)
      (skipsD o env (m := .wire) (us := false) (Wire.skippable o false (by simp)) t (.inr h) hc v bs he) rest

/-- **C17 (partial).** Descriptive: skipping consumes exactly one encoded value. Missing: values of enums
with a variant that has a `skip_encoding_if` field; there it is false. -/
theorem C17_descriptive_skip_partial (t : Ty) (hc : t.counted = true) (v : t.Val) (bs rest : Bytes)
    (he : encode o env .descriptive t v = .ok bs) :
    Desc.skip o (bs ++ rest) = .ok ((), rest) :=
  skipAny_of_skips (Desc.consumes_step o)
    (skipsD o env (m := .descriptive) (Desc.skippable o) t (.inl rfl) hc v bs he) rest

/-- **C17**: the full statement. -/
def C17Full : Prop := ∀ (host : Host) (o : Options) (env : Env) (t : Ty) (v : t.Val) (bs rest : Bytes),
  @encode host o env .descriptive t v = .ok bs → @Desc.skip host o (bs ++ rest) = .ok ((), rest)

/-- **C13**: the full statement. -/
def C13Full : Prop := ∀ (host : Host) (o : Options) (env : Env) (t : Ty) (v : t.Val) (bs rest : Bytes),
  @encode host o env .wire t v = .ok bs → @Wire.skip host o (bs ++ rest) = .ok ((), rest)

end

section
open Sample
attribute [local instance] Sample.host

example : WireSkippable varOpts person = true ∧ (encode varOpts env .wire person bob).isOk = true := by
  decide
example : WireSkippable fixedBig (.vec .string) = true := by decide
example : (encode fixedBig env .descriptive person bob).isOk = true := by decide

/-- **C13** is false: with a 32 bit length width, a `usize` is tagged as having eight
bytes but has four. Skipping it swallows what follows. -/
theorem C13_violated_fixed_usize :
    let o := Opt.setPointer Opt.new .u32
    encode o env .wire (.prim .usize) 7#64 = .ok [0x48, 7, 0, 0, 0] ∧
    Wire.skip o ([0x48, 7, 0, 0, 0] ++ [1, 2, 3, 4, 5]) = .ok ((), [5]) := by decide

/-- **C14** is false without the condition on unknown values: for the same reason, an unknown `usize`
swallows the field behind it. -/
theorem C14_violated_fixed_usize :
    let o := Opt.setPointer Opt.new .u32
    let fs : Fields := .cons (.idx 0) none none (.prim (.uint .w8)) .nil
    let es : List fs.Entry := [.inr ⟨.idx 1, .prim .usize, 7#64⟩, .inl (.inl 5#8)]
    ∃ bs, fs.encDoc o env .wire es = .ok bs ∧
      (decode o env .wire (.strct .idx fs) bs).isOk = false :=
  ⟨_, rfl, by decide⟩

/-- An enum with a struct variant whose second field is skipped if the predicate 0 says so. -/
abbrev skippingEnum : Ty :=
  .enm .idx (.cons (.idx 0) (.strct .idx (.cons (.idx 0) none none (.prim (.uint .w8))
    (.cons (.idx 1) (some 0) (some 0) (.prim (.uint .w8)) .nil))) .nil)

/-- An environment whose predicates never say so. -/
def neverSkip : Env := { env with skipIf := fun _ _ _ => false }

/-- **C17** is false: a variant with a `skip_encoding_if` field announces one entry and writes two, the second of
which is left over. -/
theorem C17_violated_variant :
    let bs : Bytes := [0xE4, 0x59, 0x00, 0x81, 0x59, 0x00, 0x4D, 0x05, 0x59, 0x01, 0x4D, 0x06]
    encode varOpts neverSkip .descriptive skippingEnum (.inl (5#8, 6#8, ())) = .ok bs ∧
    Desc.skip varOpts bs = .ok ((), [0x59, 0x01, 0x4D, 0x06]) := by decide

@[inherit_doc C17Full]
theorem C17_full_statement_false : ¬C17Full := by
  intro h
  have := h host varOpts neverSkip skippingEnum _ _ [] C17_violated_variant.1
  rw [List.append_nil, C17_violated_variant.2] at this
  revert this; decide

/-- **C13** is false for the same reason. -/
theorem C13_violated_variant :
    let bs : Bytes := [0x82, 0xC0, 0x82, 0xC0, 0xC5, 0xC1, 0xC6]
    encode varOpts neverSkip .wire skippingEnum (.inl (5#8, 6#8, ())) = .ok bs ∧
    Wire.skip varOpts bs = .ok ((), [0xC1, 0xC6]) := by decide

/-- **C34** is false for such an unknown value: what is left of it is taken for the entry of a field. -/
theorem C34_violated_variant :
    let fs : Fields := .cons (.idx 1) none none (.prim (.uint .w8)) .nil
    let es : List fs.Entry := [.inr ⟨.idx 2, skippingEnum, .inl (5#8, 6#8, ())⟩, .inl (.inl 9#8)]
    ∃ bs, fs.encDoc varOpts neverSkip .descriptive es = .ok bs ∧
      decode varOpts neverSkip .descriptive (.strct .idx fs) bs = .ok ((6#8, ()), [0x59, 0x01, 0x4D, 0x09]) :=
  ⟨_, rfl, by rfl⟩

@[inherit_doc C13Full]
theorem C13_full_statement_false : ¬C13Full := by
  intro h
  have := h host (Opt.setPointer Opt.new .u32) env (.prim .usize) 7#64 _ [1, 2, 3, 4, 5]
    C13_violated_fixed_usize.1
  rw [C13_violated_fixed_usize.2] at this
  revert this; decide
end

section
variable [Host] (o : Options) (env : Env)

/-! ## C14, C34: evolution -/

/-- **C14 (partial).** Wire: a struct is decoded from a document with any entries, in any
order, repeated or missing, known or unknown: each field gets the value that arrived last, or
its default, or the result is an error (`Fields.assemble`). Missing: unknown values which
cannot be skipped, see C13. With variable lengths, the default, there are none. -/
theorem C14_wire_any_entries_partial (nt : NameTy) (fs : Fields)
    (hok : Supported o .wire (.strct nt fs) = true) (henv : fs.envOk env) (es : List fs.Entry)
    (hu : ∀ u, .inr u ∈ es → u.name ∉ fs.names ∧ u.name.ty = nt ∧ WireSkippable o u.ty = true)
    (bs rest : Bytes) (he : fs.encDoc o env .wire es = .ok bs) :
    decode o env .wire (.strct nt fs) (bs ++ rest) =
      match fs.assemble env (es.filterMap Sum.getLeft?) with
      | .ok v => .ok (v, rest)
      | .error e => .error e := by
  by_cases hl : Opt.length o = .variable
  · exact decode_doc o env (m := .wire) (us := true) (Wire.skippable o true fun _ => hl) rfl
      (Wire.consumes_step o) nt fs hok henv es
      (fun u h => ⟨(hu u h).1, (hu u h).2.1, ((Bool.and_eq_true _ _).mp (hu u h).2.2).1, .inl rfl⟩) bs rest he
  · refine decode_doc o env (m := .wire) (us := false) (Wire.skippable o false (by simp)) rfl
      (Wire.consumes_step o) nt fs hok henv es (fun u h => ?_) bs rest he
    obtain ⟨h1, h2, h3⟩ := hu u h
    simp only [WireSkippable, hl, decide_false, Bool.false_or, Bool.and_eq_true] at h3
    exact ⟨h1, h2, h3.1, .inr h3.2⟩

/-- **C14 (partial).** In particular: any reordering of the entries of a value, with any unknown entries
in between, gives the value. -/
theorem C14_wire_reordered_partial (nt : NameTy) (fs : Fields)
    (hok : Supported o .wire (.strct nt fs) = true) (henv : fs.envOk env) (v : fs.Val)
    (es : List fs.Entry) (hp : (es.filterMap Sum.getLeft?).Perm (fs.entries env v))
    (hu : ∀ u, .inr u ∈ es → u.name ∉ fs.names ∧ u.name.ty = nt ∧ WireSkippable o u.ty = true)
    (bs rest : Bytes) (he : fs.encDoc o env .wire es = .ok bs) :
    decode o env .wire (.strct nt fs) (bs ++ rest) = .ok (v, rest) := by
  rw [C14_wire_any_entries_partial o env nt fs hok henv es hu bs rest he]
  simp only [Supported, Ty.ok, Bool.and_eq_true] at hok
  rw [assemble_perm env fs (skipOk_of_ok _ _ _ fs hok.2) henv v _ hp]

/-- **C34 (partial).** Descriptive: as C14, for unknown values of every type that can be skipped, see
C17. -/
theorem C34_descriptive_any_entries_partial (nt : NameTy) (fs : Fields)
    (hok : Supported o .descriptive (.strct nt fs) = true) (henv : fs.envOk env)
    (es : List fs.Entry) (hu : ∀ u, .inr u ∈ es → u.name ∉ fs.names ∧ u.name.ty = nt ∧ u.ty.counted = true)
    (bs rest : Bytes) (he : fs.encDoc o env .descriptive es = .ok bs) :
    decode o env .descriptive (.strct nt fs) (bs ++ rest) =
      match fs.assemble env (es.filterMap Sum.getLeft?) with
      | .ok v => .ok (v, rest)
      | .error e => .error e :=
  decode_doc o env (m := .descriptive) (us := true) (Desc.skippable o) rfl
    (Desc.consumes_step o) nt fs hok henv es
    (fun u h => ⟨(hu u h).1, (hu u h).2.1, (hu u h).2.2, .inl rfl⟩) bs rest he

@[inherit_doc C34_descriptive_any_entries_partial]
theorem C34_descriptive_reordered_partial (nt : NameTy) (fs : Fields)
    (hok : Supported o .descriptive (.strct nt fs) = true) (henv : fs.envOk env) (v : fs.Val)
    (es : List fs.Entry) (hp : (es.filterMap Sum.getLeft?).Perm (fs.entries env v))
    (hu : ∀ u, .inr u ∈ es → u.name ∉ fs.names ∧ u.name.ty = nt ∧ u.ty.counted = true)
    (bs rest : Bytes) (he : fs.encDoc o env .descriptive es = .ok bs) :
    decode o env .descriptive (.strct nt fs) (bs ++ rest) = .ok (v, rest) := by
  rw [C34_descriptive_any_entries_partial o env nt fs hok henv es hu bs rest he]
  simp only [Supported, Ty.ok, Bool.and_eq_true] at hok
  rw [assemble_perm env fs (skipOk_of_ok _ _ _ fs hok.2) henv v _ hp]

/-! ## C15: storage rejects unknown fields -/

/-- **C15.** Storage: after any number of valid entries, an entry with an unknown name makes
decoding fail, whatever the bytes of its value and of the rest are. -/
theorem C15_storage_unknown_field (nt : NameTy) (fs : Fields)
    (hok : Supported o .storage (.strct nt fs) = true) (henv : fs.envOk env)
    (ks : List fs.Known) (n : Nat) (name : Name) (hname : name ∉ fs.names) (hnt : name.ty = nt)
    (a b c rest : Bytes)
    (ha : (Mode.storage.fmt o).encMap (ks.length + 1 + n) = .ok a)
    (hb : Enc.all (fs.encEntry o env .storage) ks = .ok b)
    (hc : encName (Mode.storage.fmt o) name = .ok c) :
    decode o env .storage (.strct nt fs) (a ++ (b ++ (c ++ rest))) = .error .unsupported := by
  have hL := Mode.storage.lawful o
  simp only [Supported, Ty.ok, Bool.and_eq_true] at hok
  obtain ⟨hnd, hty⟩ := namesOk_iff hok.1
  have hloop : ∀ (p : fs.Partial), loopN (fun p => do
      let n ← decName (Mode.storage.fmt o) nt
      decEntry o env fs .storage n p) (ks.length + 1 + n) p (b ++ (c ++ rest)) =
      .error .unsupported := by
    clear ha
    induction ks generalizing b with
    | nil =>
      intro p
      cases hb
      have hn := decName_encName hL _ c rest hc
      rw [hnt] at hn
      show loopN _ ([].length + 1 + n) p (c ++ rest) = _
      rw [List.length_nil, Nat.zero_add, Nat.add_comm, loopN, Dec.bind_error]
      rw [Dec.bind_ok hn, decEntry_unknown o env .storage fs name hname]
      rfl
    | cons k ks ih =>
      intro p
      obtain ⟨x, y, hx, hy, rfl⟩ := Enc.seq_eq_ok.mp hb
      obtain ⟨x1, x2, hx1, hx2, rfl⟩ := Enc.seq_eq_ok.mp hx
      have hn := decName_encName hL _ x1 (x2 ++ (y ++ (c ++ rest))) hx1
      rw [hty _ (keyOf_mem fs k)] at hn
      have hl : (k :: ks).length + 1 + n = (ks.length + 1 + n) + 1 := by simp; omega
      rw [hl, loopN]
      have h1 : (do
          let n ← decName (Mode.storage.fmt o) nt
          decEntry o env fs .storage n p : Dec fs.Partial) ((x1 ++ x2 ++ y) ++ (c ++ rest)) =
          .ok (fs.set k p, y ++ (c ++ rest)) := by
        rw [List.append_assoc, List.append_assoc, Dec.bind_ok hn]
        exact rtEntry o env fs .storage hok.2 henv hnd k p x2 _ hx2
      rw [Dec.bind_ok h1]
      exact ih y hy _
  unfold decode
  simp only [decD]
  rw [Dec.bind_ok (hL.map _ a _ ha), Dec.bind_error (hloop _)]

/-! ## C18: closures which stop early -/

/-- **C18 (partial).** Wire: a closure that reads only the first `k` elements of a sequence
leaves the reader after the sequence. -/
theorem C18_wire_sequence_partial (t : Ty) (ht : Supported o .wire t = true) (henv : t.envOk env)
    (hs : WireSkippable o t = true) (k : Nat) (l : List t.Val) (bs rest : Bytes)
    (he : encode o env .wire (.vec t) l = .ok bs) :
    seqPrefix (Wire.fmt o) (decode o env .wire t) k (bs ++ rest) = .ok (l.take k, rest) := by
  have hL : (Wire.fmt o).Lawful := Mode.wire.lawful o
  unfold encode at he
  simp only [encD, native_fmt, Mode.fast, Bool.false_and, Bool.false_eq_true, if_false] at he
  obtain ⟨a, b, ha, hb, rfl⟩ := Enc.seq_eq_ok.mp he
  rw [← List.take_append_drop k l, all_append] at hb
  obtain ⟨x, y, hx, hy, rfl⟩ := Enc.seq_eq_ok.mp hb
  have hd : decN (decode o env .wire t) _ _ = _ :=
    decN_all (rtD o env t .wire false ht henv) _ x (y ++ rest) hx
  have hend : ∀ (l : List t.Val) y, Enc.all (encD o env t .wire) l = .ok y →
      Wire.endSeq o l.length (y ++ rest) = .ok ((), rest) := by
    intro l
    induction l with
    | nil => intro y hy; cases hy; rfl
    | cons v l ih =>
      intro y hy
      obtain ⟨y1, y2, hy1, hy2, rfl⟩ := Enc.seq_eq_ok.mp hy
      rw [List.length_cons, Wire.endSeq, List.append_assoc,
        Dec.bind_ok (C13_wire_skip_partial o env t hs v y1 _ hy1)]
      exact ih y2 hy2
  have h1 : min k l.length = (l.take k).length := by rw [List.length_take]
  have h2 : l.length - min k l.length = (l.drop k).length := by rw [List.length_drop]; omega
  unfold seqPrefix
  rw [List.append_assoc, Dec.bind_ok (hL.seq _ a _ ha), h2, h1, List.append_assoc, Dec.bind_ok hd]
  show (Wire.endSeq o _ >>= fun _ => pure (l.take k)) _ = _
  rw [Dec.bind_ok (hend _ y hy)]
  rfl

/-- **C18 (partial).** Descriptive: the same, if at most one element is left over. -/
theorem C18_descriptive_sequence_partial (t : Ty) (ht : Supported o .descriptive t = true)
    (henv : t.envOk env) (k : Nat) (l : List t.Val) (hk : l.length ≤ k + 1) (bs rest : Bytes)
    (he : encode o env .descriptive (.vec t) l = .ok bs) :
    seqPrefix (Desc.fmt o) (decode o env .descriptive t) k (bs ++ rest) = .ok (l.take k, rest) := by
  have hL : (Desc.fmt o).Lawful := Mode.descriptive.lawful o
  unfold encode at he
  simp only [encD, native_fmt, Mode.fast, Bool.false_and, Bool.false_eq_true, if_false] at he
  obtain ⟨a, b, ha, hb, rfl⟩ := Enc.seq_eq_ok.mp he
  rw [← List.take_append_drop k l, all_append] at hb
  obtain ⟨x, y, hx, hy, rfl⟩ := Enc.seq_eq_ok.mp hb
  have hd : decN (decode o env .descriptive t) _ _ = _ :=
    decN_all (rtD o env t .descriptive false ht henv) _ x (y ++ rest) hx
  have h1 : min k l.length = (l.take k).length := by rw [List.length_take]
  have h2 : l.length - min k l.length = (l.drop k).length := by rw [List.length_drop]; omega
  have hend : Desc.endSeq o (l.drop k).length (y ++ rest) = .ok ((), rest) := by
    have hlen : (l.drop k).length ≤ 1 := by rw [List.length_drop]; omega
    generalize l.drop k = d at hy hlen
    match d, hlen with
    | [], _ => cases hy; rfl
    | [v], _ =>
      obtain ⟨y1, y2, hy1, hy2, rfl⟩ := Enc.seq_eq_ok.mp hy
      cases hy2
      rw [List.append_nil]
      exact C17_descriptive_skip_partial o env t (t.counted_of_ok rfl _ ht) v y1 rest hy1
  unfold seqPrefix
  rw [List.append_assoc, Dec.bind_ok (hL.seq _ a _ ha), h2, h1, List.append_assoc, Dec.bind_ok hd]
  show (Desc.endSeq o _ >>= fun _ => pure (l.take k)) _ = _
  rw [Dec.bind_ok hend]
  rfl

/-- What a closure of `decode_map` reads for one entry: a key and a value. -/
def readEntry (m : Mode) (k t : Ty) : Dec (k.Val × t.Val) := do
  let a ← decode o env m k
  let b ← decode o env m t
  pure (a, b)

/-- Splitting the encoding of a map with `Enc.all_append`, for the formats without the
native fast path. -/
theorem mapPrefix_of_end {m : Mode} (hm : (m.fmt o).native = false) (kt t : Ty)
    (hk : Supported o m kt = true) (henvk : kt.envOk env)
    (ht : Supported o m t = true) (henv : t.envOk env)
    (hend : ∀ (l : List (kt.Val × t.Val)) y rest,
      Enc.all (fun x => encD o env kt m x.1 +> encD o env t m x.2) l = .ok y →
      (m.fmt o).endMap l.length (y ++ rest) = .ok ((), rest))
    (k : Nat) (l : List (kt.Val × t.Val)) (bs rest : Bytes)
    (he : encode o env m (.map kt t) l = .ok bs) :
    mapPrefix (m.fmt o) (readEntry o env m kt t) k (bs ++ rest) = .ok (l.take k, rest) := by
  have hL : (m.fmt o).Lawful := m.lawful o
  unfold encode at he
  simp only [encD, hm, Bool.false_and, fastE, Bool.false_eq_true, if_false] at he
  obtain ⟨a, b, ha, hb, rfl⟩ := Enc.seq_eq_ok.mp he
  rw [← List.take_append_drop k l, all_append] at hb
  obtain ⟨x, y, hx, hy, rfl⟩ := Enc.seq_eq_ok.mp hb
  have hrt : RT false (fun x : kt.Val × t.Val => encD o env kt m x.1 +> encD o env t m x.2)
      (readEntry o env m kt t) := by
    intro v bs r he _
    obtain ⟨p, q, hp, hq, rfl⟩ := Enc.seq_eq_ok.mp he
    unfold readEntry
    rw [List.append_assoc]
    have h1 : decode o env m kt (p ++ (q ++ r)) = .ok (v.1, q ++ r) :=
      rtD o env kt m false hk henvk v.1 p (q ++ r) hp (by simp)
    have h2 : decode o env m t (q ++ r) = .ok (v.2, r) :=
      rtD o env t m false ht henv v.2 q r hq (by simp)
    rw [Dec.bind_ok h1, Dec.bind_ok h2]
    rfl
  have hd := decN_all hrt _ x (y ++ rest) hx
  have h1 : min k l.length = (l.take k).length := by rw [List.length_take]
  have h2 : l.length - min k l.length = (l.drop k).length := by rw [List.length_drop]; omega
  unfold mapPrefix
  rw [List.append_assoc, Dec.bind_ok (hL.map _ a _ ha), h2, h1, List.append_assoc, Dec.bind_ok hd,
    Dec.bind_ok (hend _ y rest hy)]
  rfl

/-- **C18 (partial).** Wire: a closure that reads only the first `k` entries of a map leaves the
reader after the map. -/
theorem C18_wire_map_partial (kt t : Ty)
    (hk : Supported o .wire kt = true) (henvk : kt.envOk env) (hsk : WireSkippable o kt = true)
    (ht : Supported o .wire t = true) (henv : t.envOk env) (hst : WireSkippable o t = true)
    (k : Nat) (l : List (kt.Val × t.Val)) (bs rest : Bytes)
    (he : encode o env .wire (.map kt t) l = .ok bs) :
    mapPrefix (Wire.fmt o) (readEntry o env .wire kt t) k (bs ++ rest) = .ok (l.take k, rest) := by
  refine mapPrefix_of_end o env (m := .wire) rfl kt t hk henvk ht henv ?_ k l bs rest he
  intro l
  show ∀ y rest, _ → Wire.endMap o l.length (y ++ rest) = _
  induction l with
  | nil => intro y rest hy; cases hy; rfl
  | cons v l ih =>
    intro y rest hy
    obtain ⟨y1, y2, hy1, hy2, rfl⟩ := Enc.seq_eq_ok.mp hy
    obtain ⟨p, q, hp, hq, rfl⟩ := Enc.seq_eq_ok.mp hy1
    rw [List.length_cons, Wire.endMap, List.append_assoc, List.append_assoc,
      Dec.bind_ok (C13_wire_skip_partial o env kt hsk v.1 p _ hp),
      Dec.bind_ok (C13_wire_skip_partial o env t hst v.2 q _ hq)]
    exact ih y2 rest hy2

/-- **C18 (partial).** Descriptive: the same for maps, however many entries are left over. -/
theorem C18_descriptive_map_partial (kt t : Ty)
    (hk : Supported o .descriptive kt = true) (henvk : kt.envOk env)
    (ht : Supported o .descriptive t = true) (henv : t.envOk env)
    (k : Nat) (l : List (kt.Val × t.Val)) (bs rest : Bytes)
    (he : encode o env .descriptive (.map kt t) l = .ok bs) :
    mapPrefix (Desc.fmt o) (readEntry o env .descriptive kt t) k (bs ++ rest) =
      .ok (l.take k, rest) := by
  refine mapPrefix_of_end o env (m := .descriptive) rfl kt t hk henvk ht henv ?_ k l bs rest he
  intro l
  show ∀ y rest, _ → Desc.endMap o l.length (y ++ rest) = _
  induction l with
  | nil => intro y rest hy; cases hy; rfl
  | cons v l ih =>
    intro y rest hy
    obtain ⟨y1, y2, hy1, hy2, rfl⟩ := Enc.seq_eq_ok.mp hy
    obtain ⟨p, q, hp, hq, rfl⟩ := Enc.seq_eq_ok.mp hy1
    rw [List.length_cons, Desc.endMap, List.append_assoc, List.append_assoc,
      Dec.bind_ok (C17_descriptive_skip_partial o env kt (kt.counted_of_ok rfl _ hk) v.1 p _ hp),
      Dec.bind_ok (C17_descriptive_skip_partial o env t (t.counted_of_ok rfl _ ht) v.2 q _ hq)]
    exact ih y2 rest hy2

/-- **C18.** Storage: nothing can be skipped, and a closure which leaves an entry is an error, never a
wrong position. -/
theorem C18_storage_map (d : Dec α) (k c : Nat) (bs rest : Bytes) (l : List α) (rest' : Bytes)
    (he : encLen o c = .ok bs) (hk : k < c) (hd : decN d k rest = .ok (l, rest')) :
    mapPrefix (Storage.fmt false o) d k (bs ++ rest) = .error .length := by
  have hL : (Storage.fmt false o).Lawful := Mode.storage.lawful o
  have h1 : min k c = k := by omega
  unfold mapPrefix
  rw [Dec.bind_ok (hL.map c bs _ he), h1, Dec.bind_ok hd]
  show (Storage.endSeq (c - k) >>= fun _ => pure l) _ = _
  unfold Storage.endSeq
  rw [if_neg (by omega)]
  rfl

@[inherit_doc C18_storage_map]
theorem C18_storage_sequence (d : Dec α) (k c : Nat) (bs rest : Bytes) (l : List α) (rest' : Bytes)
    (he : encLen o c = .ok bs) (hk : k < c) (hd : decN d k rest = .ok (l, rest')) :
    seqPrefix (Storage.fmt false o) d k (bs ++ rest) = .error .length := by
  have hL : (Storage.fmt false o).Lawful := Mode.storage.lawful o
  have h1 : min k c = k := by omega
  unfold seqPrefix
  rw [Dec.bind_ok (hL.seq c bs _ he), h1, Dec.bind_ok hd]
  show (Storage.endSeq (c - k) >>= fun _ => pure l) _ = _
  unfold Storage.endSeq
  rw [if_neg (by omega)]
  rfl

/-- **C18**: the full statement for the descriptive format. -/
def C18Full : Prop := ∀ (host : Host) (o : Options) (env : Env) (t : Ty),
  @Supported host o .descriptive t = true → t.envOk env → ∀ (k : Nat) (l : List t.Val) (bs rest : Bytes),
  @encode host o env .descriptive (.vec t) l = .ok bs →
  seqPrefix (@Desc.fmt host o) (@decode host o env .descriptive t) k (bs ++ rest) = .ok (l.take k, rest)

/-! ## C22: decoders consume from the front -/

/-- **C22.** Whatever the input, what a successful decode leaves is a suffix of it. For
every format and type. -/
theorem C22_suffix (m : Mode) (t : Ty) (s rest : Bytes) (v : t.Val)
    (h : decode o env m t s = .ok (v, rest)) : ∃ consumed, s = consumed ++ rest := by
  obtain ⟨c, hc, _⟩ := front_decD (b := false) o env t m (by simp) s v rest h
  exact ⟨c, hc⟩

/-- **C22.** The result is determined by the consumed prefix: with anything else
behind it the same value is read. (Options of the packed mode are positional and excluded.) -/
theorem C22_local (m : Mode) (t : Ty) (ht : t.noEof m = true) (s rest : Bytes) (v : t.Val)
    (h : decode o env m t s = .ok (v, rest)) :
    ∃ consumed, s = consumed ++ rest ∧
      ∀ other, decode o env m t (consumed ++ other) = .ok (v, other) := by
  obtain ⟨c, hc, h2⟩ := front_decD (b := true) o env t m (fun _ => ht) s v rest h
  exact ⟨c, hc, h2 rfl⟩

/-- **C22.** Skipping, too. -/
theorem C22_skip (s rest : Bytes) (h : Wire.skip o s = .ok ((), rest) ∨ Desc.skip o s = .ok ((), rest)) :
    ∃ consumed, s = consumed ++ rest := by
  rcases h with h | h
  · obtain ⟨c, hc, _⟩ := Wire.front_skip (b := false) o s () rest h; exact ⟨c, hc⟩
  · obtain ⟨c, hc, _⟩ := Desc.front_skip (b := false) o s () rest h; exact ⟨c, hc⟩

/-! ## C20: truncated documents -/

/-- **C20.** No proper prefix of an encoding can be decoded. -/
theorem C20_truncated (m : Mode) (t : Ty) (ht : Supported o m t = true) (hn : t.noEof m = true)
    (henv : t.envOk env) (v : t.Val) (bs pre cut : Bytes) (he : encode o env m t v = .ok bs)
    (hp : bs = pre ++ cut) (hcut : cut ≠ []) : ∃ e, decode o env m t pre = .error e := by
  cases hd : decode o env m t pre with
  | error e => exact ⟨e, rfl⟩
  | ok r =>
    obtain ⟨w, s⟩ := r
    obtain ⟨c, rfl, h2⟩ := C22_local o env m t hn pre s w hd
    have h3 := rtD o env t m false ht henv v bs [] he (by simp)
    have h4 := h2 (s ++ cut)
    rw [List.append_nil, hp, List.append_assoc] at h3
    rw [show decode o env m t = decD o env t m from rfl, h3] at h4
    simp only [Except.ok.injEq, Prod.mk.injEq] at h4
    exact absurd (List.append_eq_nil_iff.mp h4.2.symm).2 hcut

end

section
open Sample
attribute [local instance] Sample.host

/-- The fields of `person`. -/
def personFields : Fields := match person with
  | .strct _ fs => fs
  | _ => .nil

/-- A document for `person`: reordered, one field twice, one missing, an unknown field. -/
def personDoc : List personFields.Entry :=
  [.inl (.inr (.inr (.inl []))), .inr ⟨.idx 77, .vec .string, [⟨[0x61#8], by decide⟩]⟩,
   .inl (.inl ⟨[], by decide⟩), .inl (.inr (.inr (.inr (.inl [])))), .inl (.inl ⟨[0x62#8], by decide⟩)]

example : Supported varOpts .wire (.strct .idx personFields) = true ∧
    Supported fixedBig .descriptive (.strct .idx personFields) = true := by decide
example : personFields.envOk env := person_envOk
example : ∀ u, .inr u ∈ personDoc → u.name ∉ personFields.names ∧ u.name.ty = .idx ∧
    WireSkippable varOpts u.ty = true := by
  intro u hu
  simp [personDoc] at hu
  subst hu
  decide
example : (personFields.encDoc varOpts env .wire personDoc).isOk = true ∧
    (personFields.encDoc fixedBig env .descriptive personDoc).isOk = true := by decide
example : ∃ v, personFields.assemble env (personDoc.filterMap Sum.getLeft?) = .ok v :=
  ⟨(⟨[0x62#8], by decide⟩, none, [], [], ()), by rfl⟩
example : ∃ a b c, (Mode.storage.fmt varOpts).encMap 3 = .ok a ∧
    Enc.all (personFields.encEntry varOpts env .storage) [.inl ⟨[0x62#8], by decide⟩] = .ok b ∧
    encName (Mode.storage.fmt varOpts) (.idx 77) = .ok c ∧
    decode varOpts env .storage person (a ++ (b ++ (c ++ [1, 2, 3]))) = .error .unsupported :=
  ⟨_, _, _, rfl, rfl, rfl, by rfl⟩

example : person.noEof .storage = true ∧ person.noEof .wire = true := by decide
example : ∃ v rest, decode varOpts env .storage (.vec (.prim .bool)) [2, 1, 0, 9] = .ok (v, rest) :=
  ⟨[true, false], [9], by decide⟩

example : Supported varOpts .wire .string = true ∧ WireSkippable varOpts .string = true ∧
    Supported varOpts .wire (.vec (.prim .bool)) = true ∧
    WireSkippable varOpts (.vec (.prim .bool)) = true ∧
    (encode varOpts env .wire (.map .string (.vec (.prim .bool)))
      [(⟨utf8% "a", by decide⟩, [true]), (⟨utf8% "b", by decide⟩, [true, false]),
        (⟨utf8% "c", by decide⟩, [])]).isOk = true := by decide
example : ∃ bs l rest', encLen varOpts 3 = .ok bs ∧
    decN (decode varOpts env .storage (.prim .bool)) 1 [1, 0, 1] = .ok (l, rest') :=
  ⟨_, [true], [0, 1], rfl, by decide⟩

/-- **C18** is false for the descriptive format: of three elements one is read, one is
skipped, and the third is taken for what follows. -/
theorem C18_violated_descriptive :
    ∃ bs, encode varOpts env .descriptive (.vec (.prim .bool)) [true, true, false] = .ok bs ∧
      seqPrefix (Desc.fmt varOpts) (decode varOpts env .descriptive (.prim .bool)) 1 bs =
        .ok ([true], [0xE3]) := ⟨_, rfl, by decide⟩

@[inherit_doc C18Full]
theorem C18_full_statement_false : ¬C18Full := by
  intro h
  obtain ⟨bs, h1, h2⟩ := C18_violated_descriptive
  have := h host varOpts env (.prim .bool) rfl trivial 1 _ bs [] h1
  rw [List.append_nil, h2] at this
  revert this; decide
end

end Musli
