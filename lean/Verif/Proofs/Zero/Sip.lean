import Verif.Model.Zero.Sip
import Verif.Spec.SipHash
import Verif.Proofs.IntEnc
/-!
# The hasher computes SipHash of the bytes which were written
-/
namespace Musli.Zero.Sip
open Musli.Spec.Sip (le St rounds round init block words)

/-! ## Numbers of bytes -/

theorem le_eq (bs : Bytes) : le bs = Fixed.ofLeBytes 64 bs := by
  induction bs with
  | nil => rfl
  | cons b bs ih => rw [le, Fixed.ofLeBytes, ih]

theorem le_toNat (bs : Bytes) (h : bs.length ≤ 8) : (le bs).toNat = Fixed.leNat bs := by
  rw [le_eq, Fixed.toNat_ofLeBytes _ _ (by omega)]

theorem le_append (a b : Bytes) : le (a ++ b) = le a ||| le b <<< (8 * a.length) := by
  induction a with
  | nil => simp [le]
  | cons x a ih =>
    rw [List.cons_append, le, le, ih, BitVec.shiftLeft_or_distrib, BitVec.or_assoc, List.length_cons,
      show 8 * (a.length + 1) = 8 * a.length + 8 by omega, BitVec.shiftLeft_add]

theorem leNat_append (a b : Bytes) : Fixed.leNat (a ++ b) = Fixed.leNat a + 256 ^ a.length * Fixed.leNat b := by
  induction a with
  | nil => simp [Fixed.leNat]
  | cons x a ih =>
    simp only [List.cons_append, Fixed.leNat, List.length_cons, Nat.pow_succ, ih, Nat.mul_add]
    rw [Nat.mul_comm (256 ^ a.length) 256, Nat.mul_assoc]
    omega

theorem le_shift (a b : Bytes) (h : (a ++ b).length ≤ 8) : le (a ++ b) >>> (8 * a.length) = le b := by
  apply BitVec.eq_of_toNat_eq
  have hl : a.length + b.length ≤ 8 := by simpa using h
  rw [BitVec.toNat_ushiftRight, le_toNat _ h, le_toNat _ (by omega), leNat_append, Nat.shiftRight_eq_div_pow,
    Nat.pow_mul, show (2 : Nat) ^ 8 = 256 from rfl, Nat.add_mul_div_left _ _ (Nat.pow_pos (by omega)),
    Nat.div_eq_of_lt (Fixed.leNat_lt a)]
  omega

theorem le_of_width {n : Nat} (d : Bytes) (hd : d.length = n) (hn : n ≤ 8) :
    (Fixed.ofLeBytes (8 * n) d).setWidth 64 = le d := by
  apply BitVec.eq_of_toNat_eq
  rw [BitVec.toNat_setWidth, Fixed.toNat_ofLeBytes _ _ (by omega), le_toNat _ (by omega), Nat.mod_eq_of_lt]
  have := Fixed.leNat_lt d
  refine Nat.lt_of_lt_of_le this ?_
  rw [show (2 : Nat) ^ 64 = 256 ^ 8 from rfl]
  exact Nat.pow_le_pow_right (by omega) (by omega)

theorem load_ok (H : ByteOrder) (buf : Bytes) (i n : Nat) (h : i + n ≤ buf.length) (hn : n ≤ 8) :
    ∃ x, load H buf i n = .ok x ∧ x.setWidth 64 = le ((buf.drop i).take n) := by
  have hl : ((buf.drop i).take n).length = n := by simp; omega
  unfold load
  rw [if_pos h]
  cases H with
  | little => exact ⟨_, rfl, le_of_width _ hl hn⟩
  | big =>
    refine ⟨_, rfl, ?_⟩
    unfold Fixed.swap
    rw [Fixed.leBytes_ofLeBytes (by omega) _ (by rw [List.length_reverse, hl]; omega), List.reverse_reverse]
    exact le_of_width _ hl hn

theorem byteAt_ok (buf : Bytes) (i : Nat) (h : i < buf.length) :
    ∃ b, byteAt buf i = .ok b ∧ (buf.drop i).take 1 = [b] := by
  unfold byteAt
  rw [List.getElem?_eq_getElem h]
  refine ⟨_, rfl, ?_⟩
  rw [List.drop_eq_getElem_cons h, List.take_succ_cons, List.take_zero]

theorem take_split (l : Bytes) (a b : Nat) : l.take (a + b) = l.take a ++ (l.drop a).take b := by
  rw [List.take_add]

theorem le_single (b : Byte) : le [b] = b.setWidth 64 := by simp [le]

theorem u8to64le_ok (H : ByteOrder) (buf : Bytes) (start len : Nat) (h : start + len ≤ buf.length) (hl : len < 8) :
    u8to64le H buf start len = .ok (le ((buf.drop start).take len)) := by
  have four (h4 : start + 4 ≤ buf.length) := load_ok H buf start 4 h4 (by omega)
  have two (i : Nat) (hi : start + i + 2 ≤ buf.length) := load_ok H buf (start + i) 2 hi (by omega)
  have one (i : Nat) (hi : start + i < buf.length) := byteAt_ok buf (start + i) hi
  have d (k : Nat) : buf.drop (start + k) = (buf.drop start).drop k := by rw [List.drop_drop]
  have lt (k : Nat) (hk : start + k ≤ buf.length) : ((buf.drop start).take k).length = k := by simp; omega
  have lt2 (j k : Nat) (hk : start + j + k ≤ buf.length) : (((buf.drop start).drop j).take k).length = k := by simp; omega
  have cases8 : len = 0 ∨ len = 1 ∨ len = 2 ∨ len = 3 ∨ len = 4 ∨ len = 5 ∨ len = 6 ∨ len = 7 := by omega
  unfold u8to64le
  rcases cases8 with rfl | rfl | rfl | rfl | rfl | rfl | rfl | rfl
  · simp [le]; rfl
  · obtain ⟨b, h1, h2⟩ := one 0 (by omega)
    simp only [Nat.add_zero] at h1 h2
    simp [h1, h2, bind, Except.bind, pure, Except.pure, le_single]
  · obtain ⟨x, h1, h2⟩ := two 0 (by omega)
    simp only [Nat.add_zero] at h1 h2
    simp [h1, h2, bind, Except.bind, pure, Except.pure]
  · obtain ⟨x, h1, h2⟩ := two 0 (by omega)
    obtain ⟨b, h3, h4⟩ := one 2 (by omega)
    simp only [Nat.add_zero] at h1 h2
    rw [take_split _ 2 1, le_append, lt 2 (by omega), ← d, h4, le_single]
    simp [h1, h2, h3, bind, Except.bind, pure, Except.pure]
  · obtain ⟨x, h1, h2⟩ := four (by omega)
    simp [h1, h2, bind, Except.bind, pure, Except.pure]
  · obtain ⟨x, h1, h2⟩ := four (by omega)
    obtain ⟨b, h3, h4⟩ := one 4 (by omega)
    rw [take_split _ 4 1, le_append, lt 4 (by omega), ← d, h4, le_single]
    simp [h1, h2, h3, bind, Except.bind, pure, Except.pure]
  · obtain ⟨x, h1, h2⟩ := four (by omega)
    obtain ⟨y, h3, h4⟩ := two 4 (by omega)
    rw [take_split _ 4 2, le_append, lt 4 (by omega), ← d, ← h4]
    simp [h1, h2, h3, bind, Except.bind, pure, Except.pure]
  · obtain ⟨x, h1, h2⟩ := four (by omega)
    obtain ⟨y, h3, h4⟩ := two 4 (by omega)
    obtain ⟨b, h5, h6⟩ := one 6 (by omega)
    rw [take_split _ 6 1, le_append, lt 6 (by omega), take_split _ 4 2, le_append, lt 4 (by omega), ← d, ← d, ← h4,
      h6, le_single]
    simp [h1, h2, h3, h5, bind, Except.bind, pure, Except.pure]

theorem length_neBytes (H : ByteOrder) {w : Nat} (x : BitVec w) : (neBytes H x).length = w / 8 := by
  cases H <;> simp [neBytes, Fixed.length_leBytes]

theorem toLe_le (H : ByteOrder) {w : Nat} (h8 : w % 8 = 0) (hw : w ≤ 64) (x : BitVec w) :
    (toLe H x).setWidth 64 = le (neBytes H x) := by
  have key (bs : Bytes) (hb : bs.length = w / 8) : (Fixed.ofLeBytes w bs).setWidth 64 = le bs := by
    have : w = 8 * bs.length := by omega
    subst this
    exact le_of_width bs rfl (by omega)
  cases H with
  | little =>
    show x.setWidth 64 = le (Fixed.leBytes (w / 8) x)
    rw [← key _ (Fixed.length_leBytes _ _), Fixed.ofLeBytes_leBytes h8]
  | big =>
    show (Fixed.swap x).setWidth 64 = le (Fixed.leBytes (w / 8) x).reverse
    exact key _ (by rw [List.length_reverse, Fixed.length_leBytes])

/-! ## Complete words -/

/-- The words of a message, and what remains. -/
def absorb (s : St) : Bytes → St × Bytes
  | a :: b :: c :: d :: e :: f :: g :: h :: rest => absorb (block 1 s (le [a, b, c, d, e, f, g, h])) rest
  | rest => (s, rest)

theorem eight (x : Bytes) (h : x.length = 8) : ∃ a b c d e f g k : Byte, x = [a, b, c, d, e, f, g, k] := by
  match x, h with
  | [a, b, c, d, e, f, g, k], _ => exact ⟨a, b, c, d, e, f, g, k, rfl⟩

theorem absorb_word (s : St) (x y : Bytes) (h : x.length = 8) : absorb s (x ++ y) = absorb (block 1 s (le x)) y := by
  obtain ⟨a, b, c, d, e, f, g, k, rfl⟩ := eight x h
  rw [List.cons_append, List.cons_append, List.cons_append, List.cons_append, List.cons_append, List.cons_append,
    List.cons_append, List.cons_append, List.nil_append, absorb]

theorem absorb_short (s : St) (x : Bytes) (h : x.length < 8) : absorb s x = (s, x) := by
  unfold absorb
  split
  · simp only [List.length_cons] at h; omega
  · rfl

theorem absorb_spec (s : St) (x : Bytes) (n : Nat) :
    (words n x).foldl (block 1) s =
      block 1 (absorb s x).1 (le (absorb s x).2 ||| BitVec.ofNat 64 n <<< 56) := by
  induction hn : x.length using Nat.strongRecOn generalizing x s with
  | _ k ih =>
    by_cases h : x.length < 8
    · rw [absorb_short s x h]
      unfold words
      split
      · simp only [List.length_cons] at h; omega
      · rfl
    · have hx : x = x.take 8 ++ x.drop 8 := (List.take_append_drop 8 x).symm
      have h8 : (x.take 8).length = 8 := by simp; omega
      rw [hx, absorb_word _ _ _ h8]
      obtain ⟨a, b, c, d, e, f, g, q, hq⟩ := eight _ h8
      rw [hq]
      show List.foldl (block 1) s (words n (a :: b :: c :: d :: e :: f :: g :: q :: x.drop 8)) = _
      rw [words, List.foldl_cons]
      exact ih (x.drop 8).length (by simp; omega) _ _ rfl

theorem absorb_append (s : St) (x y : Bytes) :
    absorb s (x ++ y) = absorb (absorb s x).1 ((absorb s x).2 ++ y) := by
  induction hn : x.length using Nat.strongRecOn generalizing x s with
  | _ k ih =>
    by_cases h : x.length < 8
    · rw [absorb_short s x h]
    · have hx : x = x.take 8 ++ x.drop 8 := (List.take_append_drop 8 x).symm
      have h8 : (x.take 8).length = 8 := by simp; omega
      rw [hx, List.append_assoc, absorb_word _ _ _ h8, absorb_word _ _ _ h8]
      exact ih (x.drop 8).length (by simp; omega) _ _ rfl

theorem absorb_rest (s : St) (x : Bytes) : (absorb s x).2.length < 8 := by
  induction hn : x.length using Nat.strongRecOn generalizing x s with
  | _ k ih =>
    by_cases h : x.length < 8
    · rw [absorb_short s x h]; exact h
    · have hx : x = x.take 8 ++ x.drop 8 := (List.take_append_drop 8 x).symm
      have h8 : (x.take 8).length = 8 := by simp; omega
      rw [hx, absorb_word _ _ _ h8]
      exact ih (x.drop 8).length (by simp; omega) _ _ rfl

/-! ## The hasher -/

/-- The state in the order of the specification. -/
def State.st (s : State) : St := ⟨s.v0, s.v1, s.v2, s.v3⟩

theorem compress_st (s : State) : (compress s).st = round s.st := rfl

theorem process_st (s : State) (m : BitVec 64) : (s.process m).st = block 1 s.st m := rfl

/-- The hasher after some bytes. -/
structure Inv (bits : Nat) (k0 k1 : BitVec 64) (h : Hasher) (m : Bytes) : Prop where
  length : h.length = m.length % 2 ^ bits
  state : h.state.st = (absorb (init k0 k1) m).1
  tail : h.tail = le (absorb (init k0 k1) m).2
  ntail : h.ntail = (absorb (init k0 k1) m).2.length

theorem new_inv (bits : Nat) (k0 k1 : BitVec 64) : Inv bits k0 k1 (new k0 k1) [] := by
  refine ⟨by simp [new, Hasher.reset], ?_, rfl, rfl⟩
  show (⟨_, _, _, _⟩ : St) = init k0 k1
  unfold init
  rw [BitVec.xor_assoc k1]
  rfl

theorem dRounds_st (s : State) : (dRounds s).st = rounds 3 s.st := by
  rw [rounds, rounds, rounds, rounds, ← compress_st, ← compress_st, ← compress_st]
  rfl

section
attribute [local irreducible] dRounds rounds cRounds compress round

theorem final (s : State) (b : BitVec 64) (r : St) (hr : r = block 1 s.st b) :
    (let s := { s with v3 := s.v3 ^^^ b }
     let s := cRounds s
     let s := { s with v0 := s.v0 ^^^ b }
     let s := { s with v2 := s.v2 ^^^ 0xee }
     let s := dRounds s
     let h1 := s.v0 ^^^ s.v1 ^^^ s.v2 ^^^ s.v3
     let s := { s with v1 := s.v1 ^^^ 0xdd }
     let s := dRounds s
     let h2 := s.v0 ^^^ s.v1 ^^^ s.v2 ^^^ s.v3
     (h1, h2)) =
    (let s := rounds 3 { r with v2 := r.v2 ^^^ 0xee }
     let h1 := s.v0 ^^^ s.v1 ^^^ s.v2 ^^^ s.v3
     let s := rounds 3 { s with v1 := s.v1 ^^^ 0xdd }
     (h1, s.v0 ^^^ s.v1 ^^^ s.v2 ^^^ s.v3)) := by
  have hp : r = (s.process b).st := by rw [hr, process_st]
  subst hp
  show (let s := s.process b
        let s := { s with v2 := s.v2 ^^^ 0xee }
        let s := dRounds s
        let h1 := s.v0 ^^^ s.v1 ^^^ s.v2 ^^^ s.v3
        let s := { s with v1 := s.v1 ^^^ 0xdd }
        let s := dRounds s
        let h2 := s.v0 ^^^ s.v1 ^^^ s.v2 ^^^ s.v3
        (h1, h2)) = _
  generalize s.process b = t
  have e1 : rounds 3 { t.st with v2 := t.st.v2 ^^^ 0xee } = (dRounds { t with v2 := t.v2 ^^^ 0xee }).st :=
    (dRounds_st { t with v2 := t.v2 ^^^ 0xee }).symm
  simp only [e1]
  generalize dRounds { t with v2 := t.v2 ^^^ 0xee } = t
  have e2 : rounds 3 { t.st with v1 := t.st.v1 ^^^ 0xdd } = (dRounds { t with v1 := t.v1 ^^^ 0xdd }).st :=
    (dRounds_st { t with v1 := t.v1 ^^^ 0xdd }).symm
  simp only [e2]
  rfl

end

theorem finish_inv {bits : Nat} (hb : 8 ≤ bits) {k0 k1 : BitVec 64} {h : Hasher} {m : Bytes} (hi : Inv bits k0 k1 h m) :
    h.finish128 = Spec.Sip.hash 1 3 k0 k1 m := by
  have hlen : (BitVec.ofNat 64 h.length &&& 0xff) <<< 56 = BitVec.ofNat 64 m.length <<< 56 := by
    apply BitVec.eq_of_toNat_eq
    have h1 : (0xff#64).toNat = 2 ^ 8 - 1 := rfl
    have h2 : m.length % 2 ^ bits % 256 = m.length % 256 := by
      obtain ⟨k, rfl⟩ : ∃ k, bits = 8 + k := ⟨bits - 8, by omega⟩
      rw [Nat.pow_add, Nat.mod_mul_right_mod]
    simp only [BitVec.toNat_shiftLeft, BitVec.toNat_and, BitVec.toNat_ofNat, Nat.shiftLeft_eq, hi.length]
    rw [show BitVec.toNat 255 = 2 ^ 8 - 1 from h1, Nat.and_two_pow_sub_one_eq_mod]
    omega
  unfold Hasher.finish128 Spec.Sip.hash
  exact final h.state _ _ (by rw [absorb_spec, hlen, BitVec.or_comm, hi.tail, ← hi.state])

theorem short_inv {bits : Nat} {k0 k1 : BitVec 64} {h : Hasher} {m : Bytes} (hi : Inv bits k0 k1 h m) (x : Bytes)
    (hx : x.length ≤ 8) : Inv bits k0 k1 (h.shortWrite bits x.length (le x)) (m ++ x) := by
  have hr := absorb_rest (init k0 k1) m
  have ha := absorb_append (init k0 k1) m x
  generalize hs : (absorb (init k0 k1) m).1 = s at *
  generalize hrr : (absorb (init k0 k1) m).2 = r at *
  have i1 := hi.state
  have i2 := hi.tail
  have i3 := hi.ntail
  rw [hs] at i1
  rw [hrr] at i2 i3
  have hl : (h.length + x.length) % 2 ^ bits = (m ++ x).length % 2 ^ bits := by
    rw [hi.length, List.length_append, Nat.mod_add_mod]
  unfold Hasher.shortWrite
  simp only [i2, i3]
  by_cases hc : x.length < 8 - r.length
  · rw [if_pos hc]
    rw [absorb_short s (r ++ x) (by simp; omega)] at ha
    refine ⟨hl, ?_, ?_, ?_⟩
    · rw [ha]; exact i1
    · rw [ha]; exact (le_append r x).symm
    · rw [ha]; simp
  · rw [if_neg hc]
    have hx' : x = x.take (8 - r.length) ++ x.drop (8 - r.length) := (List.take_append_drop _ x).symm
    have h8 : (r ++ x.take (8 - r.length)).length = 8 := by simp; omega
    have hd : x.length - (8 - r.length) < 8 := by omega
    have he : absorb s (r ++ x) = (block 1 s (le (r ++ x.take (8 - r.length))), x.drop (8 - r.length)) := by
      conv => lhs; rw [hx', ← List.append_assoc]
      rw [absorb_word _ _ _ h8, absorb_short _ _ (by simp; omega)]
    have ht : le (r ++ x.take (8 - r.length)) = le r ||| le x <<< (8 * r.length) := by
      conv => rhs; rw [hx', le_append, BitVec.shiftLeft_or_distrib, ← BitVec.shiftLeft_add]
      rw [le_append, BitVec.shiftLeft_eq_zero (n := 8 * _ + _), BitVec.or_zero]
      simp; omega
    rw [he] at ha
    refine ⟨hl, ?_, ?_, ?_⟩
    · rw [ha, process_st, i1, ht]
    · rw [ha]
      by_cases h0 : 8 - r.length < 8
      · rw [if_pos h0]
        have hk : (x.take (8 - r.length)).length = 8 - r.length := by simp; omega
        have := le_shift (x.take (8 - r.length)) (x.drop (8 - r.length)) (by rw [List.take_append_drop]; exact hx)
        rw [List.take_append_drop, hk] at this
        exact this
      · rw [if_neg h0]
        have : x.drop (8 - r.length) = [] := List.drop_eq_nil_of_le (by omega)
        rw [this]; rfl
    · rw [ha]; simp

theorem loop_ok (H : ByteOrder) (msg : Bytes) (stop : Nat) : ∀ (k fuel i : Nat) (s : State), k < fuel →
    (∀ j, j < k → i + 8 * j < stop) → stop ≤ i + 8 * k → i + 8 * k ≤ msg.length →
    ∃ s', loop H msg stop fuel i s = .ok (i + 8 * k, s') ∧
      ∀ rest, rest.length < 8 → absorb s.st ((msg.drop i).take (8 * k) ++ rest) = (s'.st, rest) := by
  intro k
  induction k with
  | zero =>
    intro fuel i s hf _ h2 _
    obtain ⟨fuel, rfl⟩ : ∃ f, fuel = f + 1 := ⟨fuel - 1, by omega⟩
    refine ⟨s, ?_, fun rest hr => ?_⟩
    · unfold loop; rw [if_neg (by omega)]; rfl
    · simpa using absorb_short s.st rest hr
  | succ k ih =>
    intro fuel i s hf h1 h2 h3
    obtain ⟨fuel, rfl⟩ : ∃ f, fuel = f + 1 := ⟨fuel - 1, by omega⟩
    obtain ⟨x, hx1, hx2⟩ := load_ok H msg i 8 (by omega) (by omega)
    have hx3 : x = le ((msg.drop i).take 8) := by
      rw [← hx2]; exact (BitVec.setWidth_eq x).symm
    obtain ⟨s', hs1, hs2⟩ := ih fuel (i + 8) (s.process x) (by omega)
      (fun j hj => by have := h1 (j + 1) (by omega); omega) (by omega) (by omega)
    refine ⟨s', ?_, fun rest hr => ?_⟩
    · unfold loop
      have h0 := h1 0 (by omega)
      rw [if_pos (by omega), hx1]
      dsimp only
      rw [hs1, show i + 8 + 8 * k = i + 8 * (k + 1) by omega]
    · rw [show 8 * (k + 1) = 8 + 8 * k by omega, List.take_add, List.append_assoc, absorb_word _ _ _ (by simp; omega),
        List.drop_drop, ← hs2 rest hr, process_st, hx3]

theorem writeRest_ok (H : ByteOrder) (h : Hasher) (msg : Bytes) (needed : Nat) (h8 : needed < 8) (hn : needed ≤ msg.length) :
    ∃ h', h.writeRest H msg needed = .ok h' ∧ h'.length = h.length ∧
      absorb h.state.st (msg.drop needed) = (h'.state.st, (absorb h.state.st (msg.drop needed)).2) ∧
      h'.tail = le (absorb h.state.st (msg.drop needed)).2 ∧ h'.ntail = (absorb h.state.st (msg.drop needed)).2.length := by
  have hleft : (msg.length - needed) &&& 0x7 = (msg.length - needed) % 8 := Nat.and_two_pow_sub_one_eq_mod _ 3
  unfold Hasher.writeRest
  simp only [hleft]
  generalize hq : (msg.length - needed) / 8 = q
  have hlen : msg.length - needed = 8 * q + (msg.length - needed) % 8 := by omega
  generalize hleft' : (msg.length - needed) % 8 = left at *
  obtain ⟨s', h1, h2⟩ := loop_ok H msg (msg.length - needed - left) q (msg.length + 1) needed h.state (by omega)
    (fun j hj => by omega) (by omega) (by omega)
  rw [h1]
  dsimp only
  rw [u8to64le_ok H msg _ left (by omega) (by omega)]
  have hd : msg.drop needed = (msg.drop needed).take (8 * q) ++ (msg.drop (needed + 8 * q)).take left := by
    rw [show (msg.drop (needed + 8 * q)).take left = msg.drop (needed + 8 * q) from
      List.take_of_length_le (by simp; omega), ← List.drop_drop, List.take_append_drop]
  have h3 := h2 ((msg.drop (needed + 8 * q)).take left) (by simp; omega)
  rw [← hd] at h3
  refine ⟨_, rfl, rfl, ?_, ?_, ?_⟩
  · rw [h3]
  · rw [h3]
  · rw [h3]; simp; omega

theorem write_inv {bits : Nat} (H : ByteOrder) {k0 k1 : BitVec 64} {h : Hasher} {m : Bytes} (hi : Inv bits k0 k1 h m)
    (x : Bytes) : ∃ h', h.write H bits x = .ok h' ∧ Inv bits k0 k1 h' (m ++ x) := by
  have hr := absorb_rest (init k0 k1) m
  have ha := absorb_append (init k0 k1) m x
  generalize hs : (absorb (init k0 k1) m).1 = s at *
  generalize hrr : (absorb (init k0 k1) m).2 = r at *
  have i1 := hi.state
  have i2 := hi.tail
  have i3 := hi.ntail
  rw [hs] at i1
  rw [hrr] at i2 i3
  have hl : (h.length + x.length) % 2 ^ bits = (m ++ x).length % 2 ^ bits := by
    rw [hi.length, List.length_append, Nat.mod_add_mod]
  unfold Hasher.write
  dsimp only
  by_cases h0 : h.ntail ≠ 0
  · rw [if_pos h0, u8to64le_ok H x 0 _ (by omega) (by omega)]
    dsimp only
    simp only [i2, i3, List.drop_zero]
    by_cases hc : x.length < 8 - r.length
    · rw [if_pos hc, Nat.min_eq_left (by omega), List.take_length]
      rw [absorb_short s (r ++ x) (by simp; omega)] at ha
      refine ⟨_, rfl, hl, ?_, ?_, ?_⟩
      · rw [ha]; exact i1
      · rw [ha]; exact (le_append r x).symm
      · rw [ha]; simp
    · rw [if_neg hc, Nat.min_eq_right (by omega), ← le_append]
      obtain ⟨h', h1, h2, h3, h4, h5⟩ := writeRest_ok H
        { h with length := (h.length + x.length) % 2 ^ bits, tail := le (r ++ x.take (8 - r.length)),
                 state := h.state.process (le (r ++ x.take (8 - r.length))), ntail := 0 } x (8 - r.length) (by omega)
        (by omega)
      have h8 : (r ++ x.take (8 - r.length)).length = 8 := by simp; omega
      have he : absorb s (r ++ x) = absorb (h.state.process (le (r ++ x.take (8 - r.length)))).st (x.drop (8 - r.length)) := by
        conv => lhs; rw [← List.take_append_drop (8 - r.length) x, ← List.append_assoc]
        rw [absorb_word _ _ _ h8, process_st, i1]
      rw [he] at ha
      dsimp only at h2 h3 h4 h5
      rw [← ha] at h3 h4 h5
      refine ⟨h', h1, by rw [h2]; exact hl, ?_, h4, h5⟩
      rw [h3]
  · rw [if_neg h0]
    have hr0 : r = [] := List.eq_nil_of_length_eq_zero (by omega)
    obtain ⟨h', h1, h2, h3, h4, h5⟩ := writeRest_ok H
      { h with length := (h.length + x.length) % 2 ^ bits } x 0 (by omega) (by omega)
    dsimp only at h2 h3 h4 h5
    rw [hr0, List.nil_append, ← i1] at ha
    rw [List.drop_zero, ← ha] at h3 h4 h5
    refine ⟨h', h1, by rw [h2]; exact hl, ?_, h4, h5⟩
    rw [h3]

/-- The bytes of a call: those of a number in the order of the machine. -/
def Call.bytes (H : ByteOrder) (bits : Nat) : Call → Bytes
  | .write msg => msg
  | .u8 x => [x]
  | .u16 x => neBytes H x
  | .u32 x => neBytes H x
  | .u64 x => neBytes H x
  | .u128 x => neBytes H x
  | .usize x => neBytes H (BitVec.ofNat bits x)

theorem call_inv {bits : Nat} (h8 : bits % 8 = 0) (h64 : bits ≤ 64) (H : ByteOrder) {k0 k1 : BitVec 64} {h : Hasher}
    {m : Bytes} (hi : Inv bits k0 k1 h m) (c : Call) :
    ∃ h', h.call H bits c = .ok h' ∧ Inv bits k0 k1 h' (m ++ c.bytes H bits) := by
  have short {w : Nat} (hw8 : w % 8 = 0) (hw : w ≤ 64) (x : BitVec w) :
      Inv bits k0 k1 (h.shortWrite bits (w / 8) ((toLe H x).setWidth 64)) (m ++ neBytes H x) := by
    have := short_inv hi (neBytes H x) (by rw [length_neBytes]; omega)
    rw [length_neBytes, ← toLe_le H hw8 hw] at this
    exact this
  cases c with
  | write msg => exact write_inv H hi msg
  | u8 x =>
    refine ⟨_, rfl, ?_⟩
    have := short_inv hi [x] (by simp)
    rw [le_single] at this
    exact this
  | u16 x => exact write_inv H hi _
  | u32 x => exact ⟨_, rfl, short (by omega) (by omega) x⟩
  | u64 x =>
    refine ⟨_, rfl, ?_⟩
    have := short (by omega) (by omega) x
    rw [BitVec.setWidth_eq] at this
    exact this
  | u128 x => exact write_inv H hi _
  | usize x => exact ⟨_, rfl, short h8 h64 _⟩

theorem calls_inv {bits : Nat} (h8 : bits % 8 = 0) (h64 : bits ≤ 64) (H : ByteOrder) {k0 k1 : BitVec 64} :
    ∀ (cs : List Call) {h : Hasher} {m : Bytes}, Inv bits k0 k1 h m →
    ∃ h', h.calls H bits cs = .ok h' ∧ Inv bits k0 k1 h' (m ++ cs.flatMap (Call.bytes H bits))
  | [], h, m, hi => ⟨h, rfl, by simpa using hi⟩
  | c :: cs, h, m, hi => by
    obtain ⟨h1, he, hi1⟩ := call_inv h8 h64 H hi c
    obtain ⟨h2, he2, hi2⟩ := calls_inv h8 h64 H cs hi1
    refine ⟨h2, ?_, ?_⟩
    · unfold Hasher.calls
      rw [he]
      exact he2
    · rw [List.flatMap_cons, ← List.append_assoc]
      exact hi2

end Musli.Zero.Sip
