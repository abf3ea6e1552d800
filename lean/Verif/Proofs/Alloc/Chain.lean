import Verif.Spec.Alloc
/-!
# Chains of headers
-/
namespace Musli.Slice
open Musli

/-- The first of a list, or else `n`. -/
def hd (l : List Nat) (n : Option Nat) : Option Nat :=
  match l with
  | [] => n
  | a :: _ => some a

/-- The last of a list, or else `p`. -/
def lst (p : Option Nat) : List Nat → Option Nat
  | [] => p
  | a :: l => lst (some a) l

/-- The headers `l` are linked with each other, and with `p` in front and `n` behind. -/
def Seg (f : Nat → Header) : Option Nat → List Nat → Option Nat → Prop
  | _, [], _ => True
  | p, a :: l, n => (f a).prev = p ∧ (f a).next = hd l n ∧ Seg f (some a) l n

/-- The regions `l` follow each other without gaps, from `s` to `e`. -/
def Tile (f : Nat → Header) : Nat → List Nat → Nat → Prop
  | s, [], e => s = e
  | s, a :: l, e => (f a).start = s ∧ s ≤ (f a).stop ∧ Tile f (f a).stop l e

/-- The free list. -/
def Free (f : Nat → Header) : Option Nat → List Nat → Prop
  | p, [] => p = none
  | p, a :: l => p = some a ∧ (f a).prev = none ∧ Free f (f a).next l

theorem lst_append (p : Option Nat) (l m : List Nat) : lst p (l ++ m) = lst (lst p l) m := by
  induction l generalizing p with
  | nil => rfl
  | cons a l ih => exact ih (some a)

theorem hd_append (l m : List Nat) (n : Option Nat) : hd (l ++ m) n = hd l (hd m n) := by
  cases l <;> rfl

theorem lst_mem {p : Option Nat} {l : List Nat} {a : Nat} (h : lst p l = some a) :
    p = some a ∧ l = [] ∨ a ∈ l := by
  induction l generalizing p with
  | nil => exact .inl ⟨h, rfl⟩
  | cons b l ih =>
    rcases ih h with ⟨h, _⟩ | h
    · cases h; exact .inr (by simp)
    · exact .inr (by simp [h])

theorem lst_snoc {l : List Nat} {a : Nat} (h : lst none l = some a) : ∃ m, l = m ++ [a] := by
  rcases List.eq_nil_or_concat l with rfl | ⟨m, b, rfl⟩
  · cases h
  · rw [List.concat_eq_append] at *
    rw [lst_append] at h
    cases h
    exact ⟨m, rfl⟩

theorem lst_none {l : List Nat} (h : lst none l = none) : l = [] := by
  rcases List.eq_nil_or_concat l with rfl | ⟨m, b, rfl⟩
  · rfl
  · rw [List.concat_eq_append, lst_append] at h
    cases h

theorem seg_append {f : Nat → Header} {l m : List Nat} {p n : Option Nat} :
    Seg f p (l ++ m) n ↔ Seg f p l (hd m n) ∧ Seg f (lst p l) m n := by
  induction l generalizing p with
  | nil => simp [Seg, lst]
  | cons a l ih => simp only [List.cons_append, Seg, lst, ih, hd_append, and_assoc]

theorem seg_congr {f g : Nat → Header} {l : List Nat} {p n : Option Nat}
    (h : ∀ a ∈ l, (g a).prev = (f a).prev ∧ (g a).next = (f a).next) (hs : Seg f p l n) :
    Seg g p l n := by
  induction l generalizing p with
  | nil => trivial
  | cons a l ih =>
    obtain ⟨h1, h2, h3⟩ := hs
    obtain ⟨h4, h5⟩ := h a (by simp)
    exact ⟨h4.trans h1, h5.trans h2, ih (fun b hb => h b (by simp [hb])) h3⟩

theorem tile_congr {f g : Nat → Header} {l : List Nat} {s e : Nat}
    (h : ∀ a ∈ l, (g a).start = (f a).start ∧ (g a).stop = (f a).stop) (hs : Tile f s l e) :
    Tile g s l e := by
  induction l generalizing s with
  | nil => exact hs
  | cons a l ih =>
    obtain ⟨h1, h2, h3⟩ := hs
    obtain ⟨h4, h5⟩ := h a (by simp)
    exact ⟨h4.trans h1, h5 ▸ h2, by rw [h5]; exact ih (fun b hb => h b (by simp [hb])) h3⟩

theorem free_congr {f g : Nat → Header} {l : List Nat} {p : Option Nat}
    (h : ∀ a ∈ l, (g a).prev = (f a).prev ∧ (g a).next = (f a).next) (hs : Free f p l) : Free g p l := by
  induction l generalizing p with
  | nil => exact hs
  | cons a l ih =>
    obtain ⟨h1, h2, h3⟩ := hs
    obtain ⟨h4, h5⟩ := h a (by simp)
    exact ⟨h1, h4.trans h2, by rw [h5]; exact ih (fun b hb => h b (by simp [hb])) h3⟩

theorem tile_append {f : Nat → Header} {l m : List Nat} {s e : Nat} :
    Tile f s (l ++ m) e ↔ ∃ k, Tile f s l k ∧ Tile f k m e := by
  induction l generalizing s with
  | nil => simp [Tile]
  | cons a l ih => simp only [List.cons_append, Tile, ih]; grind

theorem tile_le {f : Nat → Header} {l : List Nat} {s e : Nat} (h : Tile f s l e) : s ≤ e := by
  induction l generalizing s with
  | nil => exact Nat.le_of_eq h
  | cons a l ih => exact Nat.le_trans h.2.1 (ih h.2.2)

theorem tile_mem {f : Nat → Header} {l : List Nat} {s e a : Nat} (h : Tile f s l e) (ha : a ∈ l) :
    s ≤ (f a).start ∧ (f a).start ≤ (f a).stop ∧ (f a).stop ≤ e := by
  obtain ⟨l1, l2, rfl⟩ := List.append_of_mem ha
  obtain ⟨k, h1, h2, h3, h4⟩ := tile_append.1 h
  have := tile_le h1
  have := tile_le h4
  omega

/-- Different regions of a chain do not overlap. -/
theorem tile_disjoint {f : Nat → Header} {l : List Nat} {s e a b : Nat} (h : Tile f s l e)
    (ha : a ∈ l) (hb : b ∈ l) (hab : a ≠ b) :
    (f a).stop ≤ (f b).start ∨ (f b).stop ≤ (f a).start := by
  obtain ⟨l1, l2, rfl⟩ := List.append_of_mem ha
  obtain ⟨k, h1, h2, h3, h4⟩ := tile_append.1 h
  simp only [List.mem_append, List.mem_cons] at hb
  rcases hb with hb | rfl | hb
  · have := tile_mem h1 hb
    omega
  · exact absurd rfl hab
  · have := tile_mem h4 hb
    omega

/-- The links between headers are in order: `l` are the regions, `fl` the free headers. -/
structure Links (s : Internal) (l fl : List Nat) : Prop where
  seg : Seg s.hdr none l none
  tail : s.tail = lst none l
  free : Free s.hdr s.freeHead fl
  nodup : (l ++ fl).Nodup
  count : ∃ n, s.fullEnd = s.freeEnd + headerSize * n ∧ ∀ a ∈ l ++ fl, 1 ≤ a ∧ a ≤ n

/-- The data structure is in order. -/
structure Inv (s : Internal) (l fl : List Nat) : Prop extends Links s l fl where
  tile : Tile s.hdr s.fullStart l s.freeStart
  bound : s.freeStart ≤ s.freeEnd
  occ : ∀ o, s.occupied = some o → hd l none = some o

theorem Links.nodupL {s : Internal} {l fl : List Nat} (h : Links s l fl) : l.Nodup :=
  (List.nodup_append.1 h.nodup).1
theorem Links.nodupF {s : Internal} {l fl : List Nat} (h : Links s l fl) : fl.Nodup :=
  (List.nodup_append.1 h.nodup).2.1
theorem Links.disj {s : Internal} {l fl : List Nat} (h : Links s l fl) {a : Nat} (ha : a ∈ l) : a ∉ fl :=
  fun hb => (List.nodup_append.1 h.nodup).2.2 a ha a hb rfl

theorem modify_hdr (s : Internal) (id : Nat) (f : Header → Header) (k : Nat) :
    (s.modify id f).hdr k = if k = id then f (s.hdr k) else s.hdr k := rfl

theorem inv_new (base size : Nat) (mem : Nat → Byte) : Inv (.new base size mem) [] [] := by
  refine ⟨⟨trivial, rfl, rfl, List.nodup_nil, ⟨0, ?_, by simp⟩⟩, rfl, ?_, fun _ h => nomatch h⟩
  · simp [Internal.new]
  · simp only [Internal.new]
    by_cases h : alignOffset (base + size) headerAlign ≠ 0
    · rw [if_pos h]
      by_cases h2 : headerAlign - alignOffset (base + size) headerAlign ≤ size
      · rw [if_pos h2]; omega
      · rw [if_neg h2]; omega
    · rw [if_neg h]; omega

/-! ## Changing links -/

theorem seg_set_last {f g : Nat → Header} {p n n' : Option Nat} {l : List Nat} (hn : l.Nodup)
    (hs : Seg f p l n) (h1 : ∀ k ∈ l, (g k).prev = (f k).prev)
    (h2 : ∀ k ∈ l, (g k).next = if lst none l = some k then n' else (f k).next) : Seg g p l n' := by
  rcases List.eq_nil_or_concat l with rfl | ⟨m, b, rfl⟩
  · trivial
  · rw [List.concat_eq_append] at *
    rw [lst_append] at h2
    rw [seg_append] at hs ⊢
    obtain ⟨hs1, hs2, hs3, _⟩ := hs
    have hb : b ∉ m := fun hb => (List.nodup_append.1 hn).2.2 b hb b (by simp) rfl
    refine ⟨seg_congr (fun k hk => ⟨h1 k (by simp [hk]), ?_⟩) hs1, ?_, ?_, trivial⟩
    · rw [h2 k (by simp [hk])]
      rw [if_neg]
      intro h
      have : b = k := by simpa [lst] using h
      exact hb (this ▸ hk)
    · rw [h1 b (by simp)]; exact hs2
    · rw [h2 b (by simp), if_pos (by simp [lst])]; rfl

theorem seg_set_head {f g : Nat → Header} {p p' n : Option Nat} {l : List Nat} (hn : l.Nodup)
    (hs : Seg f p l n) (h1 : ∀ k ∈ l, (g k).next = (f k).next)
    (h2 : ∀ k ∈ l, (g k).prev = if hd l none = some k then p' else (f k).prev) : Seg g p' l n := by
  cases l with
  | nil => trivial
  | cons a l =>
    obtain ⟨hs1, hs2, hs3⟩ := hs
    refine ⟨by rw [h2 a (by simp)]; simp [hd], (h1 a (by simp)).trans hs2,
      seg_congr (fun k hk => ⟨?_, h1 k (by simp [hk])⟩) hs3⟩
    rw [h2 k (by simp [hk]), if_neg]
    intro h
    have : a = k := by simpa [hd] using h
    exact (List.nodup_cons.1 hn).1 (this ▸ hk)

theorem hd_mem {l : List Nat} {a : Nat} (h : hd l none = some a) : a ∈ l := by
  cases l with
  | nil => cases h
  | cons b l => cases h; simp

theorem lst_mem' {l : List Nat} {a : Nat} (h : lst none l = some a) : a ∈ l := by
  rcases lst_mem h with ⟨h, _⟩ | h
  · cases h
  · exact h

/-- Taking a header out of a chain. -/
theorem seg_remove {f g : Nat → Header} {l1 l2 : List Nat} {a : Nat} (hn : (l1 ++ a :: l2).Nodup)
    (hs : Seg f none (l1 ++ a :: l2) none)
    (h1 : ∀ k ∈ l1 ++ l2, (g k).prev = if hd l2 none = some k then lst none l1 else (f k).prev)
    (h2 : ∀ k ∈ l1 ++ l2, (g k).next = if lst none l1 = some k then hd l2 none else (f k).next) :
    Seg g none (l1 ++ l2) none := by
  obtain ⟨n1, n2, n3⟩ := List.nodup_append.1 hn
  obtain ⟨n4, n5⟩ := List.nodup_cons.1 n2
  rw [seg_append] at hs ⊢
  obtain ⟨s1, s2, s3, s4⟩ := hs
  constructor
  · refine seg_set_last n1 s1 (fun k hk => ?_) (fun k hk => h2 k (by simp [hk]))
    rw [h1 k (by simp [hk]), if_neg]
    intro h
    exact n3 k hk k (by simp [hd_mem h]) rfl
  · refine seg_set_head n5 s4 (fun k hk => ?_) (fun k hk => h1 k (by simp [hk]))
    rw [h2 k (by simp [hk]), if_neg]
    intro h
    exact n3 k (lst_mem' h) k (by simp [hk]) rfl

theorem unlink_hdr (s : Internal) (h : Header) (k : Nat) :
    (s.unlink h).hdr k = { s.hdr k with
      prev := if h.next = some k then h.prev else (s.hdr k).prev
      next := if h.prev = some k then h.next else (s.hdr k).next } := by
  unfold Internal.unlink
  cases hn : h.next <;> cases hp : h.prev <;> simp only [modify_hdr] <;>
    generalize s.hdr k = x <;> cases x <;> simp [eq_comm (b := k)] <;> (repeat' split) <;> simp_all

theorem unlink_rest (s : Internal) (h : Header) :
    (s.unlink h).freeHead = s.freeHead ∧ (s.unlink h).occupied = s.occupied ∧
    (s.unlink h).fullStart = s.fullStart ∧ (s.unlink h).fullEnd = s.fullEnd ∧
    (s.unlink h).freeStart = s.freeStart ∧ (s.unlink h).freeEnd = s.freeEnd ∧
    (s.unlink h).mem = s.mem ∧
    (s.unlink h).tail = if h.next = none then h.prev else s.tail := by
  unfold Internal.unlink
  cases hn : h.next <;> cases hp : h.prev <;> simp [Internal.modify]

theorem pushBack_hdr (s : Internal) (id k : Nat) (h : s.tail ≠ some id) :
    (s.pushBack id).hdr k = { s.hdr k with
      prev := if k = id ∧ s.tail ≠ none then s.tail else (s.hdr k).prev
      next := if s.tail = some k then some id else (s.hdr k).next } := by
  unfold Internal.pushBack
  cases ht : s.tail <;> simp only [modify_hdr] <;>
    generalize s.hdr k = x <;> cases x <;> simp [eq_comm (b := k)] <;> (repeat' split) <;> simp_all

theorem pushBack_rest (s : Internal) (id : Nat) :
    (s.pushBack id).freeHead = s.freeHead ∧ (s.pushBack id).occupied = s.occupied ∧
    (s.pushBack id).fullStart = s.fullStart ∧ (s.pushBack id).fullEnd = s.fullEnd ∧
    (s.pushBack id).freeStart = s.freeStart ∧ (s.pushBack id).freeEnd = s.freeEnd ∧
    (s.pushBack id).mem = s.mem ∧ (s.pushBack id).tail = some id := by
  unfold Internal.pushBack
  cases ht : s.tail <;> simp [Internal.modify]

/-- What is between two headers. -/
theorem seg_at {f : Nat → Header} {l1 l2 : List Nat} {a : Nat} {p n : Option Nat}
    (h : Seg f p (l1 ++ a :: l2) n) : (f a).prev = lst p l1 ∧ (f a).next = hd l2 n := by
  rw [seg_append] at h
  exact ⟨h.2.1, h.2.2.1⟩

/-- Freeing a header. -/
theorem freeRegion_links {s : Internal} {l1 l2 fl : List Nat} {a : Nat}
    (h : Links s (l1 ++ a :: l2) fl) :
    Links (s.freeRegion a).2 (l1 ++ l2) (a :: fl) ∧
    (s.freeRegion a).1 = s.hdr a ∧
    (∀ k, k ≠ a → ((s.freeRegion a).2.hdr k).start = (s.hdr k).start ∧
      ((s.freeRegion a).2.hdr k).stop = (s.hdr k).stop) ∧
    (s.freeRegion a).2.occupied = s.occupied ∧ (s.freeRegion a).2.fullStart = s.fullStart ∧
    (s.freeRegion a).2.fullEnd = s.fullEnd ∧ (s.freeRegion a).2.freeStart = s.freeStart ∧
    (s.freeRegion a).2.freeEnd = s.freeEnd ∧ (s.freeRegion a).2.mem = s.mem := by
  obtain ⟨hp, hn⟩ := seg_at h.seg
  obtain ⟨r1, r2, r3, r4, r5, r6, r7, r8⟩ := unlink_rest s (s.hdr a)
  have nd := h.nodupL
  have na1 : a ∉ l1 := fun hm => (List.nodup_append.1 nd).2.2 a hm a (by simp) rfl
  have na2 : a ∉ l2 := (List.nodup_cons.1 (List.nodup_append.1 nd).2.1).1
  have naf : a ∉ fl := h.disj (by simp)
  have e : (s.unlink (s.hdr a)).hdr a = s.hdr a := by
    rw [unlink_hdr, hp, hn, if_neg, if_neg, ← hp, ← hn]
    · intro h; exact na1 (lst_mem' h)
    · intro h; exact na2 (hd_mem h)
  have hne : ∀ k, k ≠ a → (s.freeRegion a).2.hdr k = (s.unlink (s.hdr a)).hdr k := by
    intro k hk
    simp only [Internal.freeRegion, modify_hdr, if_neg hk]
  have heq : (s.freeRegion a).2.hdr a = ⟨s.fullStart, s.fullStart, none, s.freeHead⟩ := by
    simp only [Internal.freeRegion, modify_hdr, if_true]
    rw [r1, r3]
  refine ⟨⟨?_, ?_, ?_, ?_, ?_⟩, e, ?_, r2, r3, r4, r5, r6, r7⟩
  · refine seg_remove nd h.seg (fun k hk => ?_) (fun k hk => ?_)
    · rw [hne k (by rintro rfl; simp [na1, na2] at hk), unlink_hdr, hp, hn]
    · rw [hne k (by rintro rfl; simp [na1, na2] at hk), unlink_hdr, hp, hn]
  · show (s.unlink (s.hdr a)).tail = _
    rw [r8, hn, hp, h.tail, lst_append, lst_append]
    cases l2 with
    | nil => rfl
    | cons b l2 => rfl
  · refine ⟨rfl, by rw [heq], ?_⟩
    rw [heq]
    refine free_congr (fun k hk => ?_) h.free
    have hka : k ≠ a := by rintro rfl; exact naf hk
    have hk1 : k ∉ l1 := fun hm => h.disj (a := k) (by simp [hm]) hk
    have hk2 : k ∉ l2 := fun hm => h.disj (a := k) (by simp [hm]) hk
    rw [hne k hka, unlink_hdr, hp, hn, if_neg, if_neg]
    · exact ⟨rfl, rfl⟩
    · intro h; exact hk1 (lst_mem' h)
    · intro h; exact hk2 (hd_mem h)
  · have := h.nodup
    have p : (l1 ++ l2 ++ a :: fl).Perm (l1 ++ a :: l2 ++ fl) := by
      simp only [List.append_assoc, List.cons_append]
      exact List.Perm.append_left l1 List.perm_middle
    exact p.nodup_iff.2 this
  · obtain ⟨n, hn1, hn2⟩ := h.count
    refine ⟨n, by rw [show (s.freeRegion a).2.fullEnd = _ from r4,
      show (s.freeRegion a).2.freeEnd = _ from r6]; exact hn1, fun k hk => hn2 k ?_⟩
    simp only [List.mem_append, List.mem_cons] at hk ⊢
    grind
  · intro k hk
    rw [hne k hk, unlink_hdr]
    exact ⟨rfl, rfl⟩

/-- Adding a header to the end of the chain. -/
theorem pushBack_links {s : Internal} {l fl : List Nat} {id : Nat} (h : Links s l fl)
    (hp : (s.hdr id).prev = none) (hn : (s.hdr id).next = none) (h1 : id ∉ l) (h2 : id ∉ fl)
    (hc : ∃ n, s.fullEnd = s.freeEnd + headerSize * n ∧ 1 ≤ id ∧ id ≤ n) :
    Links (s.pushBack id) (l ++ [id]) fl := by
  obtain ⟨r1, r2, r3, r4, r5, r6, r7, r8⟩ := pushBack_rest s id
  have ht : s.tail ≠ some id := by rw [h.tail]; intro h; exact h1 (lst_mem' h)
  have hh := fun k => pushBack_hdr s id k ht
  refine ⟨?_, by rw [r8, lst_append]; rfl, ?_, ?_, ?_⟩
  · rw [seg_append]
    refine ⟨seg_set_last h.nodupL h.seg (fun k hk => ?_) (fun k hk => ?_), ?_, ?_, trivial⟩
    · rw [hh, if_neg]; rintro ⟨rfl, _⟩; exact h1 hk
    · rw [hh, h.tail]; rfl
    · rw [hh, h.tail]
      simp only [true_and]
      split
      · rfl
      · rename_i hx
        rw [hp]
        simpa [eq_comm] using hx
    · rw [hh]
      simp only [if_neg ht]
      exact hn
  · rw [r1]
    refine free_congr (fun k hk => ?_) h.free
    rw [hh]
    simp only
    rw [if_neg (by rintro ⟨rfl, _⟩; exact h2 hk), if_neg]
    · exact ⟨rfl, rfl⟩
    · rw [h.tail]; intro hx; exact h.disj (lst_mem' hx) hk
  · have p : (l ++ [id] ++ fl).Perm (id :: (l ++ fl)) := by
      rw [List.append_assoc]; exact List.perm_middle
    rw [p.nodup_iff, List.nodup_cons]
    exact ⟨by simp [h1, h2], h.nodup⟩
  · obtain ⟨n, hn1, hn2⟩ := h.count
    obtain ⟨m, hm1, hm2, hm3⟩ := hc
    have : n = m := by unfold headerSize at hn1 hm1; omega
    subst this
    refine ⟨n, by rw [r4, r6]; exact hn1, fun k hk => ?_⟩
    simp only [List.mem_append, List.mem_singleton] at hk
    rcases hk with (hk | rfl) | hk
    · exact hn2 k (by simp [hk])
    · exact ⟨hm2, hm3⟩
    · exact hn2 k (by simp [hk])

end Musli.Slice
