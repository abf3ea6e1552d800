import Verif.Spec.Bitwise
import Verif.Model.Codec
import Verif.Proofs.Raw
/-!
# Proofs about copying values as bytes
-/
set_option linter.unusedSectionVars false
namespace Musli.Mem

section
variable [Host]

theorem none_map_some (b : Bytes) : (none : MByte) ∉ b.map some := by simp

theorem slice_map (b : Bytes) (i n : Nat) :
    ((b.map some).drop i).take n = (((b.drop i).take n).map some : List MByte) := by
  rw [← List.map_drop, ← List.map_take]

theorem slice_length {α : Type} (l : List α) {i n : Nat} (h : i + n ≤ l.length) :
    ((l.drop i).take n).length = n := by
  rw [List.length_take, List.length_drop]; omega

/-! ### Decoding -/

mutual

theorem valid_all : ∀ (t : MTy), t.legal → t.bwD = true → t.hasAtomicBool = false →
    ∀ b : Bytes, b.length = t.size → t.valid (b.map some)
  | .num n, _, _, _ => by
    intro b hb
    exact ⟨by simpa [MTy.size] using hb, none_map_some b⟩
  | .atomicNum n, _, _, _ => by
    intro b hb
    exact ⟨by simpa [MTy.size] using hb, none_map_some b⟩
  | .empty, _, _, _ => by
    intro b hb
    have : b = [] := List.length_eq_zero_iff.mp hb
    subst this
    simp [MTy.valid]
  | .array n t, hl, hb, ha => by
    intro b hlen
    simp only [MTy.size] at hlen
    simp only [MTy.valid]
    refine ⟨by simpa using hlen, ?_⟩
    intro i hi
    have ha' : t.hasAtomicBool = false := by
      simp only [MTy.hasAtomicBool, Bool.and_eq_false_iff, bne_eq_false_iff_eq] at ha
      rcases ha with h | h
      · omega
      · exact h
    rw [slice_map]
    refine valid_all t hl hb ha' _ (slice_length b ?_)
    rw [hlen]
    calc i * t.size + t.size = (i + 1) * t.size := by rw [Nat.add_mul, Nat.one_mul]
      _ ≤ n * t.size := Nat.mul_le_mul_right _ hi
  | .wrapping t, hl, hb, ha => by
    intro b hlen
    exact valid_all t hl hb ha b hlen
  | .strct p d size fs, hl, hb, ha => by
    intro b hlen
    simp only [MTy.bwD, Bool.and_eq_true] at hb
    refine ⟨by simpa [MTy.size] using hlen, ?_⟩
    exact valids_all fs size hl hb.2.2 ha b hlen
  | .bool, _, hb, _ => by cases hb
  | .char, _, hb, _ => by cases hb
  | .nonZero _, _, hb, _ => by cases hb
  | .atomicBool, _, _, ha => by cases ha
  | .other _ _, _, hb, _ => by cases hb

theorem valids_all : ∀ (fs : MFields) (size : Nat), fs.legal size → fs.bwD = true →
    fs.hasAtomicBool = false → ∀ b : Bytes, b.length = size → fs.valid (b.map some)
  | .nil, _, _, _, _ => by intro b _; trivial
  | .cons off t _ _ _ fs, size, hl, hb, ha => by
    intro b hlen
    simp only [MFields.bwD, Bool.and_eq_true] at hb
    simp only [MFields.hasAtomicBool, Bool.or_eq_false_iff] at ha
    obtain ⟨h1, h2, h3⟩ := hl
    refine ⟨?_, valids_all fs size h3 hb.2 ha.2 b hlen⟩
    rw [slice_map]
    exact valid_all t h2 hb.1 ha.1 _ (slice_length b (by omega))

end

/-- Memory full of twos. -/
abbrev twos (n : Nat) : Bytes := List.replicate n 2#8

theorem slice_twos (n i k : Nat) (h : i + k ≤ n) : ((twos n).drop i).take k = twos k := by
  rw [List.drop_replicate, List.take_replicate]
  congr 1
  omega

mutual

theorem invalid_twos : ∀ (t : MTy), t.legal → t.hasAtomicBool = true →
    ¬t.valid ((twos t.size).map some)
  | .atomicBool, _, _ => by
    simp [MTy.valid, MTy.size]
  | .array n t, hl, ha => by
    simp only [MTy.hasAtomicBool, Bool.and_eq_true, bne_iff_ne, ne_eq] at ha
    intro hv
    have := hv.2 0 (by omega)
    rw [slice_map, slice_twos] at this
    · exact invalid_twos t hl ha.2 this
    · simp only [MTy.size, Nat.zero_mul, Nat.zero_add]
      exact Nat.le_mul_of_pos_left _ (by omega)
  | .wrapping t, hl, ha => invalid_twos t hl ha
  | .strct _ _ size fs, hl, ha => fun hv => invalids_twos fs size hl ha hv.2
  | .num _, _, ha => by cases ha
  | .bool, _, ha => by cases ha
  | .char, _, ha => by cases ha
  | .nonZero _, _, ha => by cases ha
  | .atomicNum _, _, ha => by cases ha
  | .empty, _, ha => by cases ha
  | .other _ _, _, ha => by cases ha

theorem invalids_twos : ∀ (fs : MFields) (size : Nat), fs.legal size → fs.hasAtomicBool = true →
    ¬fs.valid ((twos size).map some)
  | .nil, _, _, ha => by cases ha
  | .cons off t _ _ _ fs, size, hl, ha => by
    intro hv
    simp only [MFields.hasAtomicBool, Bool.or_eq_true] at ha
    obtain ⟨h1, h2, h3⟩ := hl
    rcases ha with ha | ha
    · have := hv.1
      rw [slice_map, slice_twos _ _ _ h1] at this
      exact invalid_twos t h2 ha this
    · exact invalids_twos fs size h3 ha hv.2

end

end

/-! ### Layout -/

theorem parts_chain : ∀ (fs : MFields) (a : Nat) (t : MTy) (p q s : Bool) (size : Nat) (m : List MByte),
    (MFields.cons a t p q s fs).offsets = true → (MFields.cons a t p q s fs).legal size →
    (MFields.cons a t p q s fs).parts m = (m.drop a).take (MFields.cons a t p q s fs).sizes ∧
    a + (MFields.cons a t p q s fs).sizes ≤ size
  | .nil, a, t, p, q, s, size, m, _, hl => by
    simp only [MFields.parts, MFields.sizes, List.append_nil, Nat.add_zero, true_and]
    exact hl.1
  | .cons b u p' q' s' fs, a, t, p, q, s, size, m, ho, hl => by
    simp only [MFields.offsets, Bool.and_eq_true, beq_iff_eq] at ho
    obtain ⟨ho1, ho2⟩ := ho
    obtain ⟨i1, i2⟩ := parts_chain fs b u p' q' s' size m ho2 hl.2.2
    constructor
    · rw [MFields.parts, i1, MFields.sizes, ← ho1]
      generalize (MFields.cons (a + t.size) u p' q' s' fs).sizes = k
      rw [← List.drop_drop, ← List.take_add]
      rfl
    · have e : (MFields.cons a t p q s (.cons b u p' q' s' fs)).sizes =
        t.size + (MFields.cons b u p' q' s' fs).sizes := rfl
      rw [e]
      omega

/-- A struct which is copied bitwise is its fields one after the other. -/
theorem parts_all (fs : MFields) (size : Nat) (hs : size = fs.sizes) (ho : fs.offsets = true)
    (hl : fs.legal size) (m : List MByte) (hm : m.length = size) : fs.parts m = m := by
  cases fs with
  | nil =>
    have : m = [] := List.length_eq_zero_iff.mp (by rw [hm, hs]; rfl)
    subst this; rfl
  | cons a t p q s fs =>
    obtain ⟨h1, h2⟩ := parts_chain fs a t p q s size m ho hl
    rw [← hs] at h1 h2
    have : a = 0 := by omega
    subst this
    rw [h1, List.drop_zero, List.take_of_length_le (by omega)]

section
variable [Host]

/-! ### Encoding -/

mutual

theorem init_all : ∀ (t : MTy), t.legal → t.bwE = true → ∀ m, t.valid m → none ∉ m
  | .num _, _, _, _, hv => hv.2
  | .bool, _, _, m, hv => by
    rcases hv with rfl | rfl <;> simp
  | .char, _, _, m, hv => by
    obtain ⟨b, rfl, _⟩ := hv
    exact none_map_some b
  | .nonZero _, _, _, _, hv => hv.2.1
  | .empty, _, _, m, hv => by
    cases hv; simp
  | .array n t, hl, hb, m, hv => by
    intro hm
    obtain ⟨h1, h2⟩ := hv
    obtain ⟨p, hp, he⟩ := List.mem_iff_getElem.mp hm
    have hs : 0 < t.size := by
      rcases Nat.eq_zero_or_pos t.size with h | h
      · rw [h, Nat.mul_zero] at h1; omega
      · exact h
    have hi : p / t.size < n := by
      rw [Nat.div_lt_iff_lt_mul hs]; omega
    refine init_all t hl hb _ (h2 _ hi) ?_
    rw [List.mem_iff_getElem]
    have hmod := Nat.mod_lt p hs
    have hdm := Nat.div_add_mod p t.size
    rw [Nat.mul_comm] at hdm
    refine ⟨p % t.size, ?_, ?_⟩
    · rw [List.length_take, List.length_drop]; omega
    · rw [List.getElem_take, List.getElem_drop]
      rw [← he]
      congr 1
  | .wrapping t, hl, hb, m, hv => init_all t hl hb m hv
  | .strct _ _ size fs, hl, hb, m, hv => by
    simp only [MTy.bwE, Bool.and_eq_true, beq_iff_eq] at hb
    obtain ⟨_, ⟨⟨⟨_, h1⟩, h2⟩, h3⟩⟩ := hb
    rw [← parts_all fs size h1 h2 hl m hv.1]
    exact inits_all fs size hl h3 m hv.2
  | .atomicNum _, _, hb, _, _ => by cases hb
  | .atomicBool, _, hb, _, _ => by cases hb
  | .other _ _, _, hb, _, _ => by cases hb

theorem inits_all : ∀ (fs : MFields) (size : Nat), fs.legal size → fs.bwE = true →
    ∀ m, fs.valid m → none ∉ fs.parts m
  | .nil, _, _, _, _, _ => by simp [MFields.parts]
  | .cons off t _ _ _ fs, size, hl, hb, m, hv => by
    simp only [MFields.bwE, Bool.and_eq_true] at hb
    rw [MFields.parts, List.mem_append]
    rintro (h | h)
    · exact init_all t hl.2.1 hb.1 _ hv.1 h
    · exact inits_all fs size hl.2.2 hb.2 m hv.2 h

end

end

/-! ### Slices -/

theorem maxChunk_bytes (size : Nat) (hs : 0 < size) : maxChunk size * size ≤ 2 ^ 16 + size := by
  unfold maxChunk
  dsimp only
  rw [if_neg (by omega)]
  split
  · have : (2 ^ 16 + 2 ^ 16 - 1) / 2 ^ 16 = 1 := by decide
    rw [this]; omega
  · have := Nat.div_mul_le_self (2 ^ 16 + size - 1) size
    omega

theorem minNonZeroCap_bytes (size : Nat) : minNonZeroCap size * size ≤ 2 ^ 12 + size := by
  unfold minNonZeroCap
  split
  · omega
  · split <;> omega

theorem growTo_le (size cap len add : Nat) :
    growTo size cap len add ≤ cap ∨
    growTo size cap len add ≤ max (minNonZeroCap size) (2 * (len + add)) := by
  unfold growTo
  split
  · left; exact Nat.le_refl _
  · split
    · left; exact Nat.le_refl _
    · right
      simp only [Nat.max_def]
      split <;> split <;> (try split) <;> omega

theorem growTo_ge (size cap len add : Nat) (hs : 0 < size) : len + add ≤ growTo size cap len add := by
  unfold growTo
  rw [if_neg (by omega)]
  split
  · assumption
  · simp only [Nat.max_def]
    split <;> split <;> omega

/-- The bound on the memory which is allocated for elements. -/
theorem growTo_bytes {size cap at_ chunk B : Nat} (hc : chunk * size ≤ B) (hB : 2 ^ 12 + size ≤ 2 * B)
    (h : cap * size ≤ 2 * (at_ * size + B)) :
    growTo size cap at_ chunk * size ≤ 2 * (at_ * size + B) := by
  rcases growTo_le size cap at_ chunk with h1 | h1
  · exact Nat.le_trans (Nat.mul_le_mul_right _ h1) h
  · refine Nat.le_trans (Nat.mul_le_mul_right _ h1) ?_
    have := minNonZeroCap_bytes size
    rcases Nat.le_total (minNonZeroCap size) (2 * (at_ + chunk)) with h2 | h2
    · rw [Nat.max_eq_right h2, Nat.mul_assoc, Nat.add_mul]
      omega
    · rw [Nat.max_eq_left h2]
      omega

theorem chunks_alloc (mem : Nat → Bool) (size len : Nat) (hs : 0 < size) (at_ cap : Nat)
    (data input : Bytes) (hcap : cap * size ≤ 2 * (at_ * size + (2 ^ 16 + size))) :
    let out := chunks mem size len at_ cap data input
    out.cap * size ≤ 2 * (out.len * size + (2 ^ 16 + size)) ∧
    out.len * size ≤ at_ * size + input.length ∧ out.len ≤ max len at_ := by
  fun_induction chunks mem size len at_ cap data input with
  | case1 at_ cap data input h chunk cap' hm =>
    exact ⟨hcap, Nat.le_add_right _ _, Nat.le_max_right _ _⟩
  | case2 at_ cap data input h chunk cap' hm hlen =>
    refine ⟨growTo_bytes ?_ (by omega) hcap, Nat.le_add_right _ _, Nat.le_max_right _ _⟩
    exact Nat.le_trans (Nat.mul_le_mul_right _ (Nat.min_le_right _ _)) (maxChunk_bytes size hs)
  | case3 at_ cap data input h chunk cap' hm hlen ih =>
    have hc : chunk * size ≤ 2 ^ 16 + size :=
      Nat.le_trans (Nat.mul_le_mul_right _ (Nat.min_le_right _ _)) (maxChunk_bytes size hs)
    have h1 : cap' * size ≤ 2 * (at_ * size + (2 ^ 16 + size)) := growTo_bytes hc (by omega) hcap
    have hmul : (at_ + chunk) * size = at_ * size + chunk * size := Nat.add_mul _ _ _
    obtain ⟨i1, i2, i3⟩ := ih (by rw [hmul]; omega)
    refine ⟨i1, ?_, ?_⟩
    · rw [hmul, List.length_drop] at i2
      omega
    · refine Nat.le_trans i3 ?_
      have : chunk ≤ len - at_ := Nat.min_le_left _ _
      omega
  | case4 at_ cap data input h =>
    exact ⟨hcap, Nat.le_add_right _ _, Nat.le_max_right _ _⟩

/-- The result, when there is memory. -/
theorem chunks_res (size len : Nat) (at_ cap : Nat) (data input : Bytes) (hat : at_ ≤ len) :
    (chunks (fun _ => true) size len at_ cap data input).res =
      if (len - at_) * size ≤ input.length then
        .ok (data ++ input.take ((len - at_) * size), input.drop ((len - at_) * size))
      else .error .eof := by
  fun_induction chunks (fun _ => true) size len at_ cap data input with
  | case1 at_ cap data input h chunk cap' hm => simp at hm
  | case2 at_ cap data input h chunk cap' hm hlen =>
    have : chunk * size ≤ (len - at_) * size := Nat.mul_le_mul_right _ (Nat.min_le_left _ _)
    rw [if_neg (by omega)]
  | case3 at_ cap data input h chunk cap' hm hlen ih =>
    have hc : chunk ≤ len - at_ := Nat.min_le_left _ _
    have e : (len - at_) * size = chunk * size + (len - (at_ + chunk)) * size := by
      rw [← Nat.add_mul]
      congr 1
      omega
    rw [ih (by omega), List.length_drop]
    generalize (len - (at_ + chunk)) * size = k at *
    rw [e]
    by_cases hk : k ≤ input.length - chunk * size
    · rw [if_pos hk, if_pos (by omega), List.drop_drop, List.append_assoc, ← List.take_add]
    · rw [if_neg hk, if_neg (by omega)]
  | case4 at_ cap data input h =>
    have : len - at_ = 0 := by omega
    simp [this]

/-- Whatever memory there is, a result is what was read. -/
theorem chunks_ok (mem : Nat → Bool) (size len : Nat) (at_ cap : Nat) (data input : Bytes)
    (hat : at_ ≤ len) {d r : Bytes} (h : (chunks mem size len at_ cap data input).res = .ok (d, r)) :
    d ++ r = data ++ input ∧ d.length = data.length + (len - at_) * size ∧
    (chunks mem size len at_ cap data input).len = len ∧
    (0 < size → cap = 0 ∧ at_ = 0 ∨ at_ ≤ cap → len ≤ (chunks mem size len at_ cap data input).cap) := by
  fun_induction chunks mem size len at_ cap data input with
  | case1 => cases h
  | case2 => cases h
  | case3 at_ cap data input hlt chunk cap' hm hlen ih =>
    have hc : chunk ≤ len - at_ := Nat.min_le_left _ _
    obtain ⟨i1, i2, i3, i4⟩ := ih (by omega) h
    refine ⟨?_, ?_, i3, fun hs _ => i4 hs (.inr (growTo_ge _ _ _ _ hs))⟩
    · rw [i1, List.append_assoc, List.take_append_drop]
    · have e : (len - at_) * size = chunk * size + (len - (at_ + chunk)) * size := by
        rw [← Nat.add_mul]
        congr 1
        omega
      rw [i2, e, List.length_append, List.length_take]
      omega
  | case4 at_ cap data input hlt =>
    cases h
    have : len - at_ = 0 := by omega
    refine ⟨rfl, by simp [this], by dsimp only; omega, fun _ h => ?_⟩
    dsimp only
    omega

/-! ### Collections -/

theorem collect_res {α : Type} (size : Nat) (d : Dec α) (n cap : Nat) (out : List α) (s : Bytes) :
    (collect (fun _ => true) size d n cap out s).res =
      match decN d n s with
      | .ok (l, s') => .ok (out ++ l, s')
      | .error e => .error e := by
  induction n generalizing cap out s with
  | zero =>
    show Except.ok (out, s) = Except.ok (out ++ [], s)
    rw [List.append_nil]
  | succ n ih =>
    simp only [collect, decN]
    cases hd : d s with
    | error e =>
      rw [Dec.bind_error hd]
    | ok x =>
      obtain ⟨v, s'⟩ := x
      rw [Dec.bind_ok hd]
      simp only [Bool.not_true, Bool.false_eq_true, if_false]
      rw [ih]
      cases h2 : decN d n s' with
      | error e => rw [Dec.bind_error h2]
      | ok y =>
        obtain ⟨l, s''⟩ := y
        rw [Dec.bind_ok h2]
        simp [pure, Dec.pure]

theorem collect_alloc {α : Type} (mem : Nat → Bool) (size B : Nat) (hB : 2 ^ 12 + size ≤ 2 * B) (hsB : size ≤ B)
    (d : Dec α) (hd : ∀ s v s', d s = .ok (v, s') → s'.length < s.length) (n cap : Nat) (out : List α)
    (s : Bytes) (hcap : cap * size ≤ 2 * (out.length * size + B)) :
    let c := collect mem size d n cap out s
    c.cap * size ≤ 2 * (c.len * size + B) ∧ c.len ≤ out.length + s.length ∧ c.len ≤ out.length + n := by
  induction n generalizing cap out s with
  | zero => exact ⟨hcap, Nat.le_add_right _ _, Nat.le_add_right _ _⟩
  | succ n ih =>
    simp only [collect]
    cases hds : d s with
    | error e => exact ⟨hcap, Nat.le_add_right _ _, Nat.le_add_right _ _⟩
    | ok x =>
      obtain ⟨v, s'⟩ := x
      dsimp only
      split
      · exact ⟨hcap, Nat.le_add_right _ _, Nat.le_add_right _ _⟩
      · have := hd s v s' hds
        have h1 : growTo size cap out.length 1 * size ≤ 2 * (out.length * size + B) :=
          growTo_bytes (by omega) hB hcap
        have hl : (out ++ [v]).length = out.length + 1 := by simp
        obtain ⟨i1, i2, i3⟩ := ih (growTo size cap out.length 1) (out ++ [v]) s' (by
          rw [hl, Nat.add_mul]; omega)
        rw [hl] at i2 i3
        refine ⟨i1, by omega, by omega⟩

theorem cautious_bytes (size n : Nat) : cautious size n * size ≤ 2 ^ 20 := by
  unfold cautious
  split
  · simp
  · refine Nat.le_trans (Nat.mul_le_mul_right _ (Nat.min_le_right _ _)) ?_
    exact Nat.div_mul_le_self _ _

end Musli.Mem
