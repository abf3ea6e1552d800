import Verif.Model.Zero.Trie
import Verif.Proofs.Zero.Search
/-! Tries: strings, searching and building in any order. -/
set_option linter.unusedSectionVars false
namespace Musli.Zero.Trie
open Musli Musli.Zero

/-! ## Strings -/

/-- The bytes of a string. -/
def text (buf : Bytes) (s : SRef) : Bytes := (buf.drop s.off).take s.len

theorem load_ok {buf : Bytes} {s : SRef} (h : s.off + s.len ≤ buf.length) : load buf s = .ok (text buf s) := by
  rw [load, if_pos h, text]

theorem text_length {buf : Bytes} {s : SRef} (h : s.off + s.len ≤ buf.length) : (text buf s).length = s.len := by
  rw [text, List.length_take, List.length_drop]; omega

theorem text_split (buf : Bytes) (off a b : Nat) :
    text buf ⟨off, a + b⟩ = text buf ⟨off, a⟩ ++ text buf ⟨off + a, b⟩ := by
  simp only [text, List.take_add, List.drop_drop]

theorem text_take {buf : Bytes} {s : SRef} {p : Nat} (h : p ≤ s.len) :
    text buf ⟨s.off, p⟩ = (text buf s).take p := by
  rw [text, text, List.take_take, Nat.min_eq_left h]

theorem text_drop {buf : Bytes} {s : SRef} (p : Nat) :
    text buf ⟨s.off + p, s.len - p⟩ = (text buf s).drop p := by
  rw [text, text, List.drop_take, List.drop_drop]

theorem prefixLen_le : ∀ (a b : Bytes), prefixLen a b ≤ a.length ∧ prefixLen a b ≤ b.length
  | [], _ => by simp [prefixLen]
  | _ :: _, [] => by simp [prefixLen]
  | a :: as, b :: bs => by
    have := prefixLen_le as bs
    rw [prefixLen]
    split
    · simp only [List.length_cons]; omega
    · simp

theorem prefixLen_take : ∀ (a b : Bytes), a.take (prefixLen a b) = b.take (prefixLen a b)
  | [], b => by simp [prefixLen]
  | _ :: _, [] => by simp [prefixLen]
  | a :: as, b :: bs => by
    rw [prefixLen]
    split
    · next h => simp only [List.take_succ_cons, h, prefixLen_take as bs]
    · simp

theorem cmpBytes_eq : ∀ (a b : Bytes), cmpBytes a b = .eq ↔ a = b
  | [], [] => by simp [cmpBytes]
  | [], _ :: _ => by simp [cmpBytes]
  | _ :: _, [] => by simp [cmpBytes]
  | a :: as, b :: bs => by
    have ih := cmpBytes_eq as bs
    rw [cmpBytes]
    constructor
    · intro h
      split at h
      · cases h
      · split at h
        · cases h
        · have : a = b := BitVec.eq_of_toNat_eq (by omega)
          rw [this, ih.1 h]
    · rintro h
      cases h
      simp [ih.2 rfl]

theorem cmpBytes_self (a : Bytes) : cmpBytes a a = .eq := (cmpBytes_eq a a).2 rfl

theorem cmpBytes_swap : ∀ (a b : Bytes), cmpBytes b a = (cmpBytes a b).swap
  | [], [] => rfl
  | [], _ :: _ => rfl
  | _ :: _, [] => rfl
  | a :: as, b :: bs => by
    have ih := cmpBytes_swap as bs
    rw [cmpBytes, cmpBytes]
    by_cases h1 : a.toNat < b.toNat
    · rw [if_neg (by omega), if_pos h1, if_pos h1]; rfl
    · by_cases h2 : b.toNat < a.toNat
      · rw [if_pos h2, if_neg h1, if_pos h2]; rfl
      · rw [if_neg h2, if_neg h1, if_neg h1, if_neg h2]; exact ih

theorem cmpBytes_append (p : Bytes) : ∀ (a b : Bytes), cmpBytes (p ++ a) (p ++ b) = cmpBytes a b := by
  induction p with
  | nil => intro a b; rfl
  | cons x p ih => intro a b; rw [List.cons_append, List.cons_append, cmpBytes]; simp [ih]

theorem cmpBytes_lt_trans : ∀ {a b c : Bytes}, cmpBytes a b = .lt → cmpBytes b c = .lt → cmpBytes a c = .lt
  | [], [], c, h, _ => by simp [cmpBytes] at h
  | [], _ :: _, [], _, h => by simp [cmpBytes] at h
  | [], _ :: _, _ :: _, _, _ => rfl
  | _ :: _, [], _, h, _ => by simp [cmpBytes] at h
  | _ :: _, _ :: _, [], _, h => by simp [cmpBytes] at h
  | a :: as, b :: bs, c :: cs, h1, h2 => by
    rw [cmpBytes] at h1 h2 ⊢
    by_cases hab : a.toNat < b.toNat
    · by_cases hbc : b.toNat < c.toNat
      · rw [if_pos (by omega)]
      · rw [if_neg hbc] at h2
        split at h2
        · cases h2
        · rw [if_pos (by omega)]
    · rw [if_neg hab] at h1
      split at h1
      · cases h1
      · by_cases hbc : b.toNat < c.toNat
        · rw [if_pos (by omega)]
        · rw [if_neg hbc] at h2
          split at h2
          · cases h2
          · rw [if_neg (by omega), if_neg (by omega)]
            exact cmpBytes_lt_trans h1 h2

theorem prefixLen_lt : ∀ {a b : Bytes}, cmpBytes a b = .lt → prefixLen a b < b.length
  | [], [], h => by simp [cmpBytes] at h
  | [], _ :: _, _ => by simp [prefixLen]
  | _ :: _, [], h => by simp [cmpBytes] at h
  | a :: as, b :: bs, h => by
    rw [prefixLen]
    split
    · next hab =>
      subst hab
      have := prefixLen_lt (a := as) (b := bs) (by simpa [cmpBytes] using h)
      simpa using this
    · simp

/-! ## Searching -/

section
variable {α : Type}

theorem cmpAt_search {buf : Bytes} {children : List (Node α)} {string : Bytes} {i : Nat} (hi : i < children.length)
    (hb : (children[i]).string.off + (children[i]).string.len ≤ buf.length) :
    cmpAt (loadFrom children) (fun c => match load buf c.string with
      | .ok s => .ok (cmpBytes s string)
      | .error e => .error e) i = .ok (cmpBytes (text buf (children[i]).string) string) := by
  unfold cmpAt loadFrom
  rw [List.getElem?_eq_getElem hi]
  simp only [bind, Except.bind, load_ok hb]

/-- What a search in any list of children returns, also if they are not sorted. -/
theorem search_any {buf : Bytes} {children : List (Node α)} (string : Bytes)
    (hb : ∀ c ∈ children, c.string.off + c.string.len ≤ buf.length) :
    (∃ a c b, children = a ++ c :: b ∧ search buf children string = .ok (.found a.length) ∧
      text buf c.string = string) ∨
    (∃ a b, children = a ++ b ∧ search buf children string = .ok (.missing a.length) ∧
      ∀ a' c, a = a' ++ [c] → cmpBytes (text buf c.string) string = .lt) := by
  have h := searchLoop_bounds (load := loadFrom children) (f := fun c => match load buf c.string with
      | .ok s => .ok (cmpBytes s string)
      | .error e => .error e) (n := children.length) (children.length + 1) 0 children.length (by omega) (by omega) (by omega)
  have hs : search buf children string = searchLoop (loadFrom children) (fun c => match load buf c.string with
      | .ok s => .ok (cmpBytes s string)
      | .error e => .error e) (children.length + 1) (children.length - 0) 0 children.length := rfl
  rw [← hs] at h
  cases hr : search buf children string with
  | error e =>
    rw [hr] at h
    obtain ⟨i, hi, hc⟩ := h
    rw [cmpAt_search hi (hb _ (List.getElem_mem _))] at hc
    cases hc
  | ok r =>
    rw [hr] at h
    cases r with
    | found i =>
      obtain ⟨hi, hc⟩ := h
      rw [cmpAt_search hi (hb _ (List.getElem_mem _))] at hc
      have hc := (cmpBytes_eq _ _).1 (Except.ok.inj hc)
      refine .inl ⟨children.take i, children[i], children.drop (i + 1), ?_, ?_, hc⟩
      · rw [List.getElem_cons_drop, List.take_append_drop]
      · rw [List.length_take, Nat.min_eq_left (by omega)]
    | missing i =>
      refine .inr ⟨children.take i, children.drop i, (List.take_append_drop _ _).symm, ?_, ?_⟩
      · rw [List.length_take, Nat.min_eq_left h]
      · intro a' c hc
        have hl : i = a'.length + 1 := by
          have := congrArg List.length hc
          rw [List.length_take, Nat.min_eq_left h] at this
          simpa using this
        have hlt := searchLoop_pred (children.length + 1) (children.length - 0) 0 children.length (by omega) i (hs ▸ hr)
          (by omega)
        rw [show i - 1 = a'.length by omega] at hlt
        have hget : children[a'.length]? = some c := by
          have := congrArg (fun l => l[a'.length]?) hc
          simp only [List.getElem?_append_right (Nat.le_refl _), Nat.sub_self] at this
          rw [List.getElem?_take, if_pos (by omega)] at this
          simpa using this
        obtain ⟨hi, hg⟩ := List.getElem?_eq_some_iff.1 hget
        rw [cmpAt_search hi (hb _ (List.getElem_mem _)), hg] at hlt
        exact Except.ok.inj hlt

/-- In a sorted list. -/
theorem search_sorted {buf : Bytes} {children : List (Node α)} (string : Bytes)
    (hb : ∀ c ∈ children, c.string.off + c.string.len ≤ buf.length)
    (hs : children.Pairwise fun c d => cmpBytes (text buf c.string) (text buf d.string) = .lt) :
    (∃ a c b, children = a ++ c :: b ∧ search buf children string = .ok (.found a.length) ∧
      text buf c.string = string) ∨
    (∃ a b, children = a ++ b ∧ search buf children string = .ok (.missing a.length) ∧
      (∀ c ∈ a, cmpBytes (text buf c.string) string = .lt) ∧
      (∀ c ∈ b, cmpBytes (text buf c.string) string = .gt)) := by
  have hp := List.pairwise_iff_getElem.1 hs
  have h := searchLoop_spec (load := loadFrom children) (f := fun c => match load buf c.string with
      | .ok s => .ok (cmpBytes s string)
      | .error e => .error e) (n := children.length)
    (ord := fun i => if hi : i < children.length then cmpBytes (text buf (children[i]).string) string else .gt)
    (children.length + 1) 0 children.length (by omega) (by omega) (by omega)
    (fun i _ hi => by rw [cmpAt_search hi (hb _ (List.getElem_mem _)), dif_pos hi])
    (fun i hi => by omega) (fun i h1 h2 => by omega)
    (fun i j hij hj => by
      rw [dif_pos hj, dif_pos (by omega)]
      by_cases he : i = j
      · subst he; exact ⟨id, id⟩
      · have hlt := hp i j (by omega) hj (by omega)
        refine ⟨fun h => cmpBytes_lt_trans hlt h, fun h => ?_⟩
        have h' : cmpBytes string (text buf (children[i]).string) = .lt := by rw [cmpBytes_swap, h]; rfl
        have := cmpBytes_lt_trans h' hlt
        rw [cmpBytes_swap, this]; rfl)
  obtain ⟨r, hr, h⟩ := h
  have hse : search buf children string = .ok r := hr
  cases r with
  | found i =>
    obtain ⟨hi, hc⟩ := h
    rw [dif_pos hi] at hc
    refine .inl ⟨children.take i, children[i], children.drop (i + 1), ?_, ?_, (cmpBytes_eq _ _).1 hc⟩
    · rw [List.getElem_cons_drop, List.take_append_drop]
    · rw [List.length_take, Nat.min_eq_left (by omega), hse]
  | missing i =>
    obtain ⟨hi, hl, hg⟩ := h
    refine .inr ⟨children.take i, children.drop i, (List.take_append_drop _ _).symm, ?_, ?_, ?_⟩
    · rw [List.length_take, Nat.min_eq_left hi, hse]
    · intro c hc
      obtain ⟨j, hj, rfl⟩ := List.mem_iff_getElem.1 hc
      rw [List.length_take] at hj
      have := hl j (by omega)
      rw [dif_pos (by omega)] at this
      rw [List.getElem_take]; exact this
    · intro c hc
      obtain ⟨j, hj, rfl⟩ := List.mem_iff_getElem.1 hc
      rw [List.length_drop] at hj
      have := hg (i + j) (by omega) (by omega)
      rw [dif_pos (by omega)] at this
      rw [List.getElem_drop]; exact this

/-! ## Nodes in a buffer -/

/-- The string is in the buffer, and before it is the key of the node above. -/
def At (buf : Bytes) (P : Bytes) (s : SRef) : Prop :=
  s.off + s.len ≤ buf.length ∧ P.length ≤ s.off ∧ text buf ⟨s.off - P.length, P.length⟩ = P

/-- A tree below a key: strings are in the buffer, behind the key of the node above; every node has a value in it;
and only below the root there is a node with an empty string, without children. -/
inductive Fits (buf : Bytes) : Bytes → Node α → Prop
  | mk {P : Bytes} {s : SRef} {v : List α} {c : List (Node α)} (h : At buf P s) (hv : v ≠ [] ∨ c ≠ [])
      (ht : text buf s = [] → P = [] ∧ c = []) (hc : ∀ n ∈ c, Fits buf (P ++ text buf s) n) : Fits buf P (.mk s v c)

mutual
/-- The keys and values in a tree. -/
def pairs (buf : Bytes) : Bytes → Node α → List (Bytes × α)
  | P, .mk s v c => v.map (fun x => (P ++ text buf s, x)) ++ pairsList buf (P ++ text buf s) c

def pairsList (buf : Bytes) : Bytes → List (Node α) → List (Bytes × α)
  | _, [] => []
  | P, n :: ns => pairs buf P n ++ pairsList buf P ns
end

theorem pairsList_append (buf P : Bytes) : ∀ (a b : List (Node α)),
    pairsList buf P (a ++ b) = pairsList buf P a ++ pairsList buf P b
  | [], b => by simp [pairsList]
  | n :: a, b => by simp [pairsList, pairsList_append buf P a b]

theorem text_take_append {a b : Bytes} {n : Nat} {off : Nat} (h : off + n ≤ a.length) :
    text (a ++ b) ⟨off, n⟩ = text a ⟨off, n⟩ := by
  simp only [text]
  rw [List.drop_append_of_le_length (by omega), List.take_append_of_le_length (by rw [List.length_drop]; omega)]

theorem at_append {a b P : Bytes} {s : SRef} (h : At a P s) : At (a ++ b) P s := by
  obtain ⟨h1, h2, h3⟩ := h
  refine ⟨by rw [List.length_append]; omega, h2, ?_⟩
  rw [text_take_append (by omega), h3]

theorem text_append {a b P : Bytes} {s : SRef} (h : At a P s) : text (a ++ b) s = text a s :=
  text_take_append (n := s.len) (off := s.off) h.1

theorem fits_append {a b P : Bytes} {n : Node α} (h : Fits a P n) : Fits (a ++ b) P n := by
  induction h with
  | mk h hv ht hc ih =>
    refine .mk (at_append h) hv ?_ ?_
    · rw [text_append h]; exact ht
    · rw [text_append h]; exact ih

theorem pairsList_congr {a b : Bytes} {P : Bytes} : ∀ {c : List (Node α)}, (∀ n ∈ c, pairs a P n = pairs b P n) →
    pairsList a P c = pairsList b P c
  | [], _ => by simp [pairsList]
  | n :: c, h => by
    simp only [pairsList]
    rw [h n (by simp), pairsList_congr fun m hm => h m (by simp [hm])]

theorem pairs_append {a b P : Bytes} {n : Node α} (h : Fits a P n) : pairs (a ++ b) P n = pairs a P n := by
  induction h with
  | mk h hv ht hc ih =>
    simp only [pairs]
    rw [text_append h, pairsList_congr ih]

theorem fits_at {buf P : Bytes} {n : Node α} (h : Fits buf P n) : At buf P n.string := by
  cases h; assumption

theorem fits_bounds {buf P : Bytes} {children : List (Node α)} (h : ∀ c ∈ children, Fits buf P c) :
    ∀ c ∈ children, c.string.off + c.string.len ≤ buf.length := fun c hc => (fits_at (h c hc)).1

theorem at_key {buf P : Bytes} {s : SRef} (h : At buf P s) :
    text buf ⟨s.off - P.length, P.length + s.len⟩ = P ++ text buf s := by
  obtain ⟨h1, h2, h3⟩ := h
  rw [text_split, h3, Nat.sub_add_cancel h2]

theorem at_take {buf P : Bytes} {s : SRef} {p : Nat} (h : At buf P s) (hp : p ≤ s.len) : At buf P ⟨s.off, p⟩ := by
  obtain ⟨h1, h2, h3⟩ := h
  exact ⟨by simp only; omega, h2, h3⟩

theorem at_drop {buf P : Bytes} {s : SRef} {p : Nat} (h : At buf P s) (hp : p ≤ s.len) :
    At buf (P ++ (text buf s).take p) ⟨s.off + p, s.len - p⟩ := by
  have hl : ((text buf s).take p).length = p := by rw [List.length_take, text_length h.1]; omega
  obtain ⟨h1, h2, h3⟩ := h
  refine ⟨by simp only; omega, by simp only [List.length_append, hl]; omega, ?_⟩
  simp only [List.length_append, hl]
  have : s.off + p - (P.length + p) = s.off - P.length := by omega
  rw [this, text_split, h3, Nat.sub_add_cancel h2, text_take hp]

theorem insertIdx_append (a b : List (Node α)) (x : Node α) : (a ++ b).insertIdx a.length x = a ++ x :: b := by
  induction a with
  | nil => rfl
  | cons y a ih => rw [List.cons_append, List.length_cons, List.insertIdx_succ_cons, ih]; rfl

/-- What one turn of the loop does. -/
theorem insertLoop_step {buf P : Bytes} {children : List (Node α)} (value : α) (fuel : Nat) {string : SRef}
    (hf : ∀ c ∈ children, Fits buf P c) (hs : At buf P string) :
    (∃ a c b, children = a ++ c :: b ∧ text buf c.string = text buf string ∧
      search buf children (text buf string) = .ok (.found a.length) ∧
      insertLoop buf value (fuel + 1) string (text buf string) children = .ok (a ++ c.push value :: b)) ∨
    (∃ a b, children = a ++ b ∧ (∀ a' c, a = a' ++ [c] → prefixLen (text buf c.string) (text buf string) = 0) ∧
      search buf children (text buf string) = .ok (.missing a.length) ∧
      insertLoop buf value (fuel + 1) string (text buf string) children = .ok (a ++ leaf string value :: b)) ∨
    (∃ a s v c b s' v' c' string' p, children = a ++ .mk s v c :: b ∧ search buf children (text buf string) = .ok (.missing (a.length + 1)) ∧
      p = prefixLen (text buf s) (text buf string) ∧ p ≠ 0 ∧ p < string.len ∧
      text buf s' = (text buf s).take p ∧ text buf s' = (text buf string).take p ∧ text buf s' ≠ [] ∧
      text buf string' = (text buf string).drop p ∧ At buf P s' ∧ At buf (P ++ text buf s') string' ∧
      (∀ n ∈ c', Fits buf (P ++ text buf s') n) ∧
      pairs buf P (.mk s v c) = pairs buf P (.mk s' v' c') ∧
      ((p = s.len ∧ s' = s ∧ v' = v ∧ c' = c) ∨
        (p < s.len ∧ v' = [] ∧ ∃ s'', text buf s'' = (text buf s).drop p ∧ c' = [.mk s'' v c])) ∧
      insertLoop buf value (fuel + 1) string (text buf string) children =
        match insertLoop buf value fuel string' ((text buf string).drop p) c' with
        | .error e => .error e
        | .ok c'' => .ok (a ++ .mk s' v' c'' :: b)) := by
  rcases search_any (text buf string) (fits_bounds hf) with ⟨a, c, b, rfl, hr, ht⟩ | ⟨a, b, rfl, hr, hlt⟩
  · refine .inl ⟨a, c, b, rfl, ht, hr, ?_⟩
    simp only [insertLoop, hr]
    congr 1
    rw [List.modify_eq_take_cons_drop (by simp)]
    simp
  · refine .inr ?_
    rcases List.eq_nil_or_concat a with rfl | ⟨a, child, rfl⟩
    · refine .inl ⟨[], b, rfl, by simp, hr, ?_⟩
      simp only [List.nil_append, List.length_nil] at hr
      simp only [insertLoop, hr, List.nil_append]
      rfl
    · rw [List.concat_eq_append] at hf hr hlt ⊢
      have hlt := hlt _ _ rfl
      have hchild : Fits buf P child := hf child (by simp)
      have hat := fits_at hchild
      have hget : (a ++ [child] ++ b)[a.length]? = some child := by simp
      have hlen : (a ++ [child]).length = a.length + 1 := by simp
      by_cases hp : prefixLen (text buf child.string) (text buf string) = 0
      · refine .inl ⟨a ++ [child], b, rfl, ?_, hr, ?_⟩
        · intro a' c h
          have := (List.append_inj' h rfl).2
          cases this; exact hp
        · rw [hlen] at hr
          simp only [insertLoop, hr, hget, load_ok hat.1, hp, if_true]
          rw [← hlen, insertIdx_append]
      · refine .inr ?_
        obtain ⟨s, v, c⟩ := child
        cases hchild with
        | mk hs' hv ht hc =>
        have hle := prefixLen_le (text buf s) (text buf string)
        have htk := prefixLen_take (text buf s) (text buf string)
        rw [text_length hs'.1, text_length hs.1] at hle
        have hne : (text buf s).take (prefixLen (text buf s) (text buf string)) ≠ [] := by
          intro h
          have := congrArg List.length h
          rw [List.length_take, text_length hs'.1] at this
          simp only [Node.string] at hp
          simp at this
          omega
        rw [hlen] at hr
        have hlook : insertLoop buf value (fuel + 1) string (text buf string) (a ++ [.mk s v c] ++ b) =
            match Node.split (prefixLen (text buf s) (text buf string)) (.mk s v c) with
            | .error e => .error e
            | .ok (.mk s' v' c') =>
              match string.splitAt (prefixLen (text buf s) (text buf string)) with
              | .error e => .error e
              | .ok (_, string') =>
                match insertLoop buf value fuel string' ((text buf string).drop (prefixLen (text buf s) (text buf string))) c' with
                | .error e => .error e
                | .ok c'' => .ok ((a ++ [Node.mk s v c] ++ b).set a.length (.mk s' v' c'')) := by
          simp only [insertLoop, hr, hget, load_ok hat.1]
          exact if_neg hp
        have hset : ∀ x, (a ++ [Node.mk s v c] ++ b).set a.length x = a ++ x :: b := by
          intro x; simp
        simp only [hset, Node.split, SRef.splitAt, if_pos hle.1, if_pos hle.2] at hlook
        simp only [Node.string] at hp
        have hpl : prefixLen (text buf s) (text buf string) < string.len := by
          rw [← text_length hs.1]; exact prefixLen_lt hlt
        by_cases hq : prefixLen (text buf s) (text buf string) = s.len
        · rw [if_neg (by simp [hq])] at hlook
          have htake : (text buf s).take (prefixLen (text buf s) (text buf string)) = text buf s := by
            rw [hq, ← text_length hs'.1, List.take_length]
          refine ⟨a, s, v, c, b, s, v, c, _, _, by simp, hr, rfl, hp, hpl, htake.symm, by rw [← htk, htake], by rw [← htake]; exact hne,
            text_drop _, hs', ?_, hc, rfl, .inl ⟨hq, rfl, rfl, rfl⟩, hlook⟩
          have := at_drop hs hle.2
          rwa [← htk, htake] at this
        · rw [if_pos hq] at hlook
          have htake := text_take (buf := buf) hle.1
          refine ⟨a, s, v, c, b, ⟨s.off, prefixLen (text buf s) (text buf string)⟩, [],
            [.mk ⟨s.off + prefixLen (text buf s) (text buf string), s.len - prefixLen (text buf s) (text buf string)⟩ v c],
            _, _, by simp, hr, rfl, hp, hpl, htake, by rw [htake, htk], by rw [htake]; exact hne,
            text_drop _, at_take hs' hle.1, ?_, ?_, ?_, .inr ⟨by omega, rfl, _, text_drop _, rfl⟩, hlook⟩
          · rw [htake, htk]; exact at_drop hs hle.2
          · intro n hn
            simp only [List.mem_singleton] at hn
            subst hn
            rw [htake]
            refine .mk (at_drop hs' hle.1) hv ?_ ?_
            · intro h
              rw [text_drop] at h
              have := congrArg List.length h
              rw [List.length_drop, text_length hs'.1] at this
              simp at this
              omega
            · rw [text_drop, List.append_assoc, List.take_append_drop]; exact hc
          · simp only [pairs, pairsList, List.map_nil, List.nil_append, List.append_nil]
            rw [htake, text_drop, List.append_assoc, List.take_append_drop]

theorem pairs_push (buf P : Bytes) (value : α) (n : Node α) :
    (pairs buf P (n.push value)).Perm ((P ++ text buf n.string, value) :: pairs buf P n) := by
  obtain ⟨s, v, c⟩ := n
  simp only [Node.push, pairs, Node.string, List.map_append, List.map_cons, List.map_nil, List.append_assoc,
    List.singleton_append]
  exact List.perm_middle

theorem fits_push {buf P : Bytes} {value : α} {n : Node α} (h : Fits buf P n) : Fits buf P (n.push value) := by
  cases h with
  | mk h hv ht hc => exact .mk h (.inl (by simp)) ht hc

theorem pairs_leaf (buf P : Bytes) (s : SRef) (value : α) :
    pairs buf P (leaf s value) = [(P ++ text buf s, value)] := by
  simp [leaf, pairs, pairsList]

/-- Inserting succeeds, and adds the pair. -/
theorem insertLoop_any {buf : Bytes} (value : α) : ∀ (fuel : Nat) {P : Bytes} {string : SRef} {children : List (Node α)},
    (∀ c ∈ children, Fits buf P c) → At buf P string → (text buf string = [] → P = []) → string.len < fuel →
    ∃ children', insertLoop buf value fuel string (text buf string) children = .ok children' ∧
      (∀ c ∈ children', Fits buf P c) ∧ children' ≠ [] ∧
      (pairsList buf P children').Perm ((P ++ text buf string, value) :: pairsList buf P children) := by
  intro fuel
  induction fuel with
  | zero => intro _ _ _ _ _ _ h; omega
  | succ fuel ih =>
    intro P string children hf hs hP hfuel
    rcases insertLoop_step value fuel hf hs with ⟨a, c, b, rfl, ht, _, hr⟩ | ⟨a, b, rfl, _, _, hr⟩ |
      ⟨a, s, v, c, b, s', v', c', string', p, rfl, _, rfl, hp, hpl, ht1, ht2, hne, ht3, hat, hat', hc', hpairs, _, hr⟩
    · refine ⟨_, hr, ?_, by simp, ?_⟩
      · intro n hn
        rcases List.mem_append.1 hn with hn | hn
        · exact hf n (by simp [hn])
        · rcases List.mem_cons.1 hn with rfl | hn
          · exact fits_push (hf c (by simp))
          · exact hf n (by simp [hn])
      · simp only [pairsList_append, pairsList]
        rw [← ht]
        refine (((pairs_push buf P value c).append_right _).append_left _).trans ?_
        exact List.perm_middle
    · refine ⟨_, hr, ?_, by simp, ?_⟩
      · intro n hn
        rcases List.mem_append.1 hn with hn | hn
        · exact hf n (by simp [hn])
        · rcases List.mem_cons.1 hn with rfl | hn
          · exact .mk hs (.inl (by simp)) (fun h => ⟨hP h, rfl⟩) (by simp)
          · exact hf n (by simp [hn])
      · simp only [pairsList_append, pairsList, pairs_leaf]
        exact List.perm_middle
    · have hlen : string'.len = string.len - prefixLen (text buf s) (text buf string) := by
        rw [← text_length hat'.1, ht3, List.length_drop, text_length hs.1]
      have hle := prefixLen_le (text buf s) (text buf string)
      rw [text_length hs.1] at hle
      have hrest : text buf string' = [] → P ++ text buf s' = [] := by
        intro h
        have := text_length hat'.1
        rw [h, hlen] at this
        simp at this
        omega
      obtain ⟨c'', h1, h2, h3, h4⟩ := ih hc' hat' hrest (by omega)
      rw [ht3] at h1
      rw [h1] at hr
      refine ⟨_, hr, ?_, by simp, ?_⟩
      · intro n hn
        rcases List.mem_append.1 hn with hn | hn
        · exact hf n (by simp [hn])
        · rcases List.mem_cons.1 hn with rfl | hn
          · exact .mk hat (.inr h3) (fun h => absurd h hne) h2
          · exact hf n (by simp [hn])
      · simp only [pairsList_append, pairsList]
        rw [hpairs]
        have hk : P ++ text buf string = P ++ text buf s' ++ text buf string' := by
          rw [ht3, ht2, List.append_assoc, List.take_append_drop]
        rw [hk]
        have : (pairs buf P (.mk s' v' c'')).Perm
            ((P ++ text buf s' ++ text buf string', value) :: pairs buf P (.mk s' v' c')) := by
          simp only [pairs]
          refine (h4.append_left _).trans ?_
          exact List.perm_middle
        refine ((this.append_right _).append_left _).trans ?_
        exact List.perm_middle
end

end Musli.Zero.Trie
