import Verif.Spec.SwapAttr
import Verif.Proofs.Zero.Endian
/-!
# How variants are paired
-/
namespace Musli.Zero
open Musli

set_option linter.unusedSectionVars false

abbrev isUnderscore (b : Byte) : Bool := b == 0x5F#8

theorem dropWhile_spec (s : Bytes) : ∃ k, s = List.replicate k 0x5F#8 ++ s.dropWhile isUnderscore ∧
    (s.dropWhile isUnderscore).head? ≠ some 0x5F#8 := by
  induction s with
  | nil => exact ⟨0, rfl, by simp⟩
  | cons b s ih =>
    by_cases h : b = 0x5F#8
    · obtain ⟨k, h1, h2⟩ := ih
      have e : (b :: s).dropWhile isUnderscore = s.dropWhile isUnderscore := by simp [List.dropWhile_cons, h]
      rw [e]
      exact ⟨k + 1, by rw [List.replicate_succ, List.cons_append, ← h1, h], h2⟩
    · have e : (b :: s).dropWhile isUnderscore = b :: s := by simp [List.dropWhile_cons, h]
      rw [e]
      exact ⟨0, rfl, by simpa using h⟩

theorem dropWhile_underscores (k : Nat) (n : Bytes) (h : n.head? ≠ some 0x5F#8) :
    (List.replicate k 0x5F#8 ++ n).dropWhile isUnderscore = n := by
  induction k with
  | zero =>
    cases n with
    | nil => rfl
    | cons b n => simp at h; simp [List.dropWhile_cons, h]
  | succ k ih => simpa [List.replicate_succ, List.dropWhile_cons] using ih

theorem trim_spec (s : Bytes) : ∃ k l, s = List.replicate k 0x5F#8 ++ trimUnderscores s ++ List.replicate l 0x5F#8 ∧
    (trimUnderscores s).head? ≠ some 0x5F#8 ∧ (trimUnderscores s).getLast? ≠ some 0x5F#8 := by
  obtain ⟨k, h1, h2⟩ := dropWhile_spec s
  obtain ⟨l, h3, h4⟩ := dropWhile_spec (s.dropWhile isUnderscore).reverse
  have e : s.dropWhile isUnderscore = trimUnderscores s ++ List.replicate l 0x5F#8 := by
    have := congrArg List.reverse h3
    rw [List.reverse_reverse, List.reverse_append, List.reverse_replicate] at this
    exact this
  refine ⟨k, l, ?_, ?_, ?_⟩
  · rw [List.append_assoc, ← e]; exact h1
  · intro h
    cases ht : trimUnderscores s with
    | nil => rw [ht] at h; simp at h
    | cons b r =>
      rw [ht] at h e
      rw [e] at h2
      simp at h h2
      exact h2 h
  · show (((s.dropWhile isUnderscore).reverse.dropWhile isUnderscore).reverse).getLast? ≠ _
    rw [List.getLast?_reverse]; exact h4

theorem trim_unique {s n : Bytes} {k l : Nat} (h : s = List.replicate k 0x5F#8 ++ n ++ List.replicate l 0x5F#8)
    (h1 : n.head? ≠ some 0x5F#8) (h2 : n.getLast? ≠ some 0x5F#8) : trimUnderscores s = n := by
  cases n with
  | nil =>
    have e : s = List.replicate (k + l) 0x5F#8 ++ [] := by
      rw [h, List.append_nil, List.append_nil, List.replicate_append_replicate]
    have := dropWhile_underscores (k + l) [] (by simp)
    rw [← e] at this
    show ((s.dropWhile isUnderscore).reverse.dropWhile isUnderscore).reverse = []
    rw [this]; rfl
  | cons b r =>
    have e1 : s.dropWhile isUnderscore = b :: r ++ List.replicate l 0x5F#8 := by
      rw [h, List.append_assoc]
      exact dropWhile_underscores k _ (by simpa using h1)
    show ((s.dropWhile isUnderscore).reverse.dropWhile isUnderscore).reverse = b :: r
    rw [e1, List.reverse_append, List.reverse_replicate,
      dropWhile_underscores l _ (by rw [List.head?_reverse]; exact h2), List.reverse_reverse]

/-- The name of one variant. -/
theorem swapName_iff (legal : Bytes → Bool) (v : VarDecl) (hv : v.ident ≠ []) (n : Option Bytes) :
    swapName legal true v = .ok n ↔ Spec.Named v n ∧ (v.attrs = [] → ∀ m, n = some m → legal m = true) := by
  unfold swapName
  obtain ⟨k, l, h1, h2, h3⟩ := trim_spec v.ident
  match ha : v.attrs with
  | [] =>
    simp only [if_true, unpadVariant]
    by_cases ht : trimUnderscores v.ident = v.ident
    · rw [if_pos (by rw [ht]; simp [hv])]
      constructor
      · intro h
        cases h
        exact ⟨⟨ha, by rw [← ht]; exact h2, by rw [← ht]; exact h3⟩, fun _ m h => by cases h⟩
      · intro ⟨h, _⟩
        cases n with
        | none => rfl
        | some n =>
          rcases h with h | ⟨_, h4, k', l', h5, h6, h7⟩
          · rw [ha] at h; cases h
          · exact absurd ((trim_unique h5 h6 h7).symm.trans ht) h4
    · rw [if_neg (by simp [ht])]
      constructor
      · intro h
        split at h
        · next hl =>
          cases h
          exact ⟨.inr ⟨ha, ht, k, l, h1, h2, h3⟩, fun _ m h => by cases h; exact hl⟩
        · cases h
      · intro ⟨h, hl⟩
        cases n with
        | none =>
          exact absurd (trim_unique (s := v.ident) (k := 0) (l := 0) (by simp) h.2.1 h.2.2) ht
        | some n =>
          rcases h with h | ⟨_, h4, k', l', h5, h6, h7⟩
          · rw [ha] at h; cases h
          · rw [trim_unique h5 h6 h7, if_pos (hl trivial n rfl)]
  | [x] =>
    constructor
    · intro h
      cases h
      exact ⟨.inl ha, fun h => by cases h⟩
    · intro ⟨h, _⟩
      cases n with
      | none => have := h.1; rw [ha] at this; cases this
      | some n =>
        rcases h with h | ⟨h, _⟩
        · rw [ha] at h; cases h; rfl
        · rw [ha] at h; cases h
  | x :: y :: r =>
    constructor
    · intro h; cases h
    · intro ⟨h, _⟩
      cases n with
      | none => have := h.1; rw [ha] at this; cases this
      | some n =>
        rcases h with h | ⟨h, _⟩ <;> rw [ha] at h <;> cases h

theorem swapNames_iff (legal : Bytes → Bool) : ∀ (vs : List VarDecl) (ns : List (Option Bytes)),
    swapNames legal true vs = .ok ns ↔
      ns.length = vs.length ∧ ∀ (i : Nat) (v : VarDecl) (n : Option Bytes), vs[i]? = some v → ns[i]? = some n → swapName legal true v = .ok n
  | [], ns => by
    constructor
    · intro h; cases h; exact ⟨rfl, fun i v n h => by simp at h⟩
    · intro ⟨h, _⟩; rw [List.length_eq_zero_iff.1 h]; rfl
  | v :: vs, ns => by
    unfold swapNames
    constructor
    · intro h
      split at h
      · cases h
      · next n hn =>
        split at h
        · cases h
        · next ns' hns =>
          cases h
          obtain ⟨h1, h2⟩ := (swapNames_iff legal vs ns').1 hns
          refine ⟨by simp [h1], fun i w m => ?_⟩
          cases i with
          | zero => intro hw hm; simp at hw hm; subst hw hm; exact hn
          | succ i => intro hw hm; simp at hw hm; exact h2 i w m hw hm
    · intro ⟨h1, h2⟩
      match ns with
      | [] => simp at h1
      | n :: ns =>
        rw [h2 0 v n rfl rfl, (swapNames_iff legal vs ns).2 ⟨by simpa using h1, fun i w m hw hm =>
          h2 (i + 1) w m (by simpa using hw) (by simpa using hm)⟩]

theorem namedTwice_iff : ∀ ns : List (Option Bytes), namedTwice ns = false ↔
    ∀ (i j : Nat) (m : Bytes), ns[i]? = some (some m) → ns[j]? = some (some m) → i = j
  | [] => by simp [namedTwice]
  | none :: ns => by
    rw [namedTwice, namedTwice_iff ns]
    constructor
    · intro h i j m hi hj
      cases i with
      | zero => simp at hi
      | succ i =>
        cases j with
        | zero => simp at hj
        | succ j => rw [h i j m (by simpa using hi) (by simpa using hj)]
    · intro h i j m hi hj
      have := h (i + 1) (j + 1) m (by simpa using hi) (by simpa using hj)
      omega
  | some n :: ns => by
    rw [namedTwice, Bool.or_eq_false_iff, namedTwice_iff ns]
    have hc : ns.contains (some n) = false ↔ ∀ j : Nat, ns[j]? ≠ some (some n) := by
      rw [Bool.eq_false_iff, Ne, List.contains_iff_mem, List.mem_iff_getElem?, not_exists]
    rw [hc]
    constructor
    · intro ⟨h1, h2⟩ i j m hi hj
      cases i with
      | zero =>
        cases j with
        | zero => rfl
        | succ j =>
          simp at hi hj; subst hi
          exact absurd hj (h1 j)
      | succ i =>
        cases j with
        | zero =>
          simp at hi hj; subst hj
          exact absurd hi (h1 i)
        | succ j => rw [h2 i j m (by simpa using hi) (by simpa using hj)]
    · intro h
      refine ⟨fun j hj => ?_, fun i j m hi hj => ?_⟩
      · have := h 0 (j + 1) n rfl (by simpa using hj)
        omega
      · have := h (i + 1) (j + 1) m (by simpa using hi) (by simpa using hj)
        omega

/-- A name is found where it is, if it is there once. -/
theorem findIdx?_iff {α : Type} [BEq α] [LawfulBEq α] {l : List α} {x : α}
    (hu : ∀ i j : Nat, l[i]? = some x → l[j]? = some x → i = j) (p : Nat) :
    l.findIdx? (· == x) = some p ↔ l[p]? = some x := by
  rw [List.findIdx?_eq_some_iff_getElem]
  constructor
  · intro ⟨h, h1, _⟩
    rw [List.getElem?_eq_getElem h]; simpa using h1
  · intro h
    obtain ⟨hp, h1⟩ := List.getElem?_eq_some_iff.1 h
    refine ⟨hp, by simpa using h1, fun j hj => ?_⟩
    intro e
    have := hu j p (by rw [List.getElem?_eq_getElem (by omega)]; simpa using e) h
    omega

theorem partners_iff (idents : List Bytes) (names : List (Option Bytes)) :
    ∀ (l : List (Bytes × Option Bytes)) (ps : List Nat), partners idents names l = .ok ps ↔
      ps.length = l.length ∧ ∀ (i : Nat) (x : Bytes × Option Bytes) (p : Nat), l[i]? = some x → ps[i]? = some p → partner idents names x.1 x.2 = some p
  | [], ps => by
    constructor
    · intro h; cases h; exact ⟨rfl, fun i v n h => by simp at h⟩
    · intro ⟨h, _⟩; rw [List.length_eq_zero_iff.1 h]; rfl
  | (f, n) :: l, ps => by
    unfold partners
    constructor
    · intro h
      split at h
      · cases h
      · next p hp =>
        split at h
        · cases h
        · next ps' hps =>
          cases h
          obtain ⟨h1, h2⟩ := (partners_iff idents names l ps').1 hps
          refine ⟨by simp [h1], fun i w m => ?_⟩
          cases i with
          | zero => intro hw hm; simp at hw hm; subst hw hm; exact hp
          | succ i => intro hw hm; simp at hw hm; exact h2 i w m hw hm
    · intro ⟨h1, h2⟩
      match ps with
      | [] => simp at h1
      | p :: ps =>
        have h0 := h2 0 (f, n) p rfl rfl
        simp only at h0
        rw [h0, (partners_iff idents names l ps).2 ⟨by simpa using h1, fun i w m hw hm =>
          h2 (i + 1) w m (by simpa using hw) (by simpa using hm)⟩]

theorem idents_once {vs : List VarDecl} (hnd : (vs.map (·.ident)).Nodup) (m : Bytes) :
    ∀ i j : Nat, (vs.map (·.ident))[i]? = some m → (vs.map (·.ident))[j]? = some m → i = j := by
  intro i j h1 h2
  obtain ⟨hi, h1⟩ := List.getElem?_eq_some_iff.1 h1
  obtain ⟨hj, h2⟩ := List.getElem?_eq_some_iff.1 h2
  exact (List.getElem_inj hnd).1 (h1.trans h2.symm)

theorem partner_iff {vs : List VarDecl} {names : List (Option Bytes)} (hnd : (vs.map (·.ident)).Nodup)
    (ho : ∀ (i j : Nat) (m : Bytes), names[i]? = some (some m) → names[j]? = some (some m) → i = j)
    (f : Bytes) (n : Option Bytes) (p : Nat) :
    partner (vs.map (·.ident)) names f n = some p ↔
      (∀ m, n = some m → ∃ w, vs[p]? = some w ∧ w.ident = m) ∧ (n = none → names[p]? = some (some f)) := by
  cases n with
  | some m =>
    simp only [partner]
    rw [findIdx?_iff (idents_once hnd m)]
    simp
  | none =>
    simp only [partner]
    rw [findIdx?_iff (fun i j h1 h2 => ho i j f h1 h2)]
    simp

theorem pairVariants_iff (legal : Bytes → Bool) (vs : List VarDecl) (ps : List Nat) (hne : ∀ v ∈ vs, v.ident ≠ [])
    (hnd : (vs.map (·.ident)).Nodup) :
    pairVariants legal true vs = .ok ps ↔ ∃ names, swapNames legal true vs = .ok names ∧ Spec.Accepted legal vs names ps := by
  have hlist : ∀ names, swapNames legal true vs = .ok names ↔ names.length = vs.length ∧
      ∀ (i : Nat) (v : VarDecl) (n : Option Bytes), vs[i]? = some v → names[i]? = some n →
        Spec.Named v n ∧ (v.attrs = [] → ∀ m, n = some m → legal m = true) := by
    intro names
    rw [swapNames_iff]
    constructor
    · intro ⟨h1, h2⟩
      exact ⟨h1, fun i v n hv hn => (swapName_iff legal v (hne v (List.mem_of_getElem? hv)) n).1 (h2 i v n hv hn)⟩
    · intro ⟨h1, h2⟩
      exact ⟨h1, fun i v n hv hn => (swapName_iff legal v (hne v (List.mem_of_getElem? hv)) n).2 (h2 i v n hv hn)⟩
  constructor
  · intro h
    unfold pairVariants at h
    split at h
    · cases h
    · next heven =>
      split at h
      · cases h
      · next names hnames =>
        split at h
        · cases h
        · next hdup =>
          simp only [if_true] at h
          have honce := (namedTwice_iff names).1 (by simpa using hdup)
          obtain ⟨hl, hn⟩ := (hlist names).1 hnames
          obtain ⟨h1, h2⟩ := (partners_iff _ _ _ ps).1 h
          have hget : ∀ (i : Nat) (v : VarDecl) (n : Option Bytes) (p : Nat), vs[i]? = some v → names[i]? = some n → ps[i]? = some p →
              (∀ m, n = some m → ∃ w, vs[p]? = some w ∧ w.ident = m) ∧ (n = none → names[p]? = some (some v.ident)) := by
            intro i v n p hv hn hp
            refine (partner_iff hnd honce v.ident n p).1 (h2 i (v.ident, n) p ?_ hp)
            rw [List.getElem?_zip_eq_some]
            exact ⟨by rw [List.getElem?_map, hv]; rfl, hn⟩
          refine ⟨names, hnames, ⟨?_, by rw [h1, List.length_zip, List.length_map, hl, Nat.min_self], hl, hn, honce, ?_, ?_⟩⟩
          · simp at heven; omega
          · intro i p m hm hp
            have hi : i < vs.length := by rw [← hl]; exact (List.getElem?_eq_some_iff.1 hm).1
            exact (hget i vs[i] (some m) p (List.getElem?_eq_getElem hi) hm hp).1 m rfl
          · intro i p v hv hm hp
            exact (hget i v none p hv hm hp).2 rfl
  · intro ⟨names, hnames, h⟩
    unfold pairVariants
    have he := h.even
    rw [if_neg (by simp; omega), hnames]
    simp only
    rw [if_neg (by rw [(namedTwice_iff names).2 h.once]; simp)]
    simp only [if_true]
    rw [partners_iff]
    refine ⟨by rw [List.length_zip, List.length_map, h.names_length, Nat.min_self, h.length], ?_⟩
    intro i ⟨f, n⟩ p hx hp
    rw [List.getElem?_zip_eq_some] at hx
    obtain ⟨hf, hn⟩ := hx
    simp only at hf hn
    rw [List.getElem?_map] at hf
    cases hv : vs[i]? with
    | none => rw [hv] at hf; cases hf
    | some v =>
      rw [hv] at hf; cases hf
      simp only
      rw [partner_iff hnd h.once]
      exact ⟨fun m hm => h.names_it i p m (by rw [hn, hm]) hp, fun hm => h.is_named i p v hv (by rw [hn, hm]) hp⟩

/-- In the terms of the model of `swap_bytes`. -/
theorem accepted_target {legal : Bytes → Bool} {vs : List VarDecl} {names : List (Option Bytes)} {ps : List Nat}
    (hnd : (vs.map (·.ident)).Nodup) (h : Spec.Accepted legal vs names ps) (i : Nat) (hi : i < vs.length) :
    ps[i]? = some (target (swapIndices (vs.map (·.ident)) names) i) ∧
    ((swapIndices (vs.map (·.ident)) names)[i]? = some none →
      ∃ k : Nat, (swapIndices (vs.map (·.ident)) names)[k]? = some (some i)) := by
  have hp : ps[i]? = some (ps[i]'(by rw [h.length]; exact hi)) := List.getElem?_eq_getElem _
  generalize ps[i]'(by rw [h.length]; exact hi) = p at hp
  have hv := List.getElem?_eq_getElem hi
  have hn : names[i]? = some (names[i]'(by rw [h.names_length]; exact hi)) := List.getElem?_eq_getElem _
  generalize names[i]'(by rw [h.names_length]; exact hi) = n at hn
  have hsw : ∀ (j : Nat) (m : Option Bytes), names[j]? = some m → (swapIndices (vs.map (·.ident)) names)[j]? =
      some (m.bind fun to_ => (vs.map (·.ident)).findIdx? (· == to_)) := by
    intro j m hm
    rw [swapIndices, List.getElem?_map, hm]; rfl
  have hidx : ∀ (q : Nat) (w : VarDecl), vs[q]? = some w → (vs.map (·.ident)).findIdx? (· == w.ident) = some q := by
    intro q w hw
    rw [findIdx?_iff (idents_once hnd w.ident), List.getElem?_map, hw]; rfl
  cases n with
  | some m =>
    obtain ⟨w, hw, hm⟩ := h.names_it i p m hn hp
    have e : (swapIndices (vs.map (·.ident)) names)[i]? = some (some p) := by
      rw [hsw i (some m) hn, ← hm]; exact congrArg some (hidx p w hw)
    refine ⟨?_, ?_⟩
    · rw [hp]; simp only [target, e]
    · intro h'; rw [e] at h'; cases h'
  | none =>
    have e : (swapIndices (vs.map (·.ident)) names)[i]? = some none := by rw [hsw i none hn]; rfl
    have h1 := h.is_named i p vs[i] hv hn hp
    have h2 : (swapIndices (vs.map (·.ident)) names)[p]? = some (some i) := by
      rw [hsw p _ h1]; exact congrArg some (hidx i vs[i] hv)
    refine ⟨?_, fun _ => ⟨p, h2⟩⟩
    rw [hp]
    simp only [target, e]
    have hf : (swapIndices (vs.map (·.ident)) names).findIdx? (· == some i) = some p := by
      rw [findIdx?_iff]
      · exact h2
      · intro a b ha hb
        have conv : ∀ a : Nat, (swapIndices (vs.map (·.ident)) names)[a]? = some (some i) → names[a]? = some (some vs[i].ident) := by
          intro a ha
          cases hna : names[a]? with
          | none => rw [swapIndices, List.getElem?_map, hna] at ha; cases ha
          | some m =>
            rw [hsw a m hna] at ha
            cases m with
            | none => simp at ha
            | some m =>
              have ha : (vs.map (·.ident)).findIdx? (· == m) = some i := by simpa using ha
              rw [findIdx?_iff (idents_once hnd m), List.getElem?_map, hv] at ha
              simp only [Option.map_some, Option.some.injEq] at ha
              rw [ha]
        exact h.once a b _ (conv a ha) (conv b hb)
    rw [hf]; rfl

/-- Variants without fields. -/
def bare : List (Nat × Option Nat) → SVariants
  | [] => .nil
  | (d, s) :: rest => .cons d s .nil (bare rest)

theorem bare_lists : ∀ l, (bare l).discs = l.map (·.1) ∧ (bare l).swaps = l.map (·.2)
  | [] => ⟨rfl, rfl⟩
  | (d, s) :: rest => by
    obtain ⟨h1, h2⟩ := bare_lists rest
    exact ⟨by simp [bare, SVariants.discs, h1], by simp [bare, SVariants.swaps, h2]⟩

theorem bare_get : ∀ l (i : Nat), (bare l).get i = (l[i]?).map fun p => (p.1, SFields.nil)
  | [], i => by cases i <;> rfl
  | (d, s) :: rest, i => by
    cases i with
    | zero => rfl
    | succ i => simpa [bare, SVariants.get] using bare_get rest i

end Musli.Zero
