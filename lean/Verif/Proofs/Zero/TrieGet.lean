import Verif.Proofs.Zero.TrieSorted
/-! Tries whose strings were inserted in their order: looking up. -/
set_option linter.unusedSectionVars false
namespace Musli.Zero.Trie
open Musli Musli.Zero

section
variable {α : Type} {buf : Bytes}

/-- Only one of the brothers has keys with a given first byte. -/
theorem filter_level {P : Bytes} {a b : List (Node α)} {c : Node α} {q : Bytes × α → Bool}
    (hf : ∀ n ∈ a ++ c :: b, Fits buf P n) (hl : Level buf (a ++ c :: b))
    (hq : ∀ e, q e = true → ∀ u, e.1 = P ++ u → u.head? = (text buf c.string).head?) :
    (pairsList buf P (a ++ c :: b)).filter q = (pairs buf P c).filter q := by
  have key : ∀ n ∈ a ++ c :: b, (text buf n.string).head? ≠ (text buf c.string).head? →
      ∀ e ∈ pairs buf P n, ¬ q e = true := by
    intro n hn hne e he hqe
    obtain ⟨t, h1, _⟩ := pairs_key (hf n hn) e he
    rw [List.append_assoc] at h1
    exact hne ((pairs_head (hf n hn) he h1).symm.trans (hq e hqe _ h1))
  have hpa := List.pairwise_append.1 hl
  have hpc := List.pairwise_cons.1 hpa.2.1
  rw [pairsList_append, pairsList, List.filter_append, List.filter_append]
  have h1 : (pairsList buf P a).filter q = [] := by
    rw [List.filter_eq_nil_iff]
    intro e he
    obtain ⟨n, hn, he⟩ := pairsList_mem.1 he
    exact key n (by simp [hn]) (hpa.2.2 n hn c (by simp)).ne e he
  have h2 : (pairsList buf P b).filter q = [] := by
    rw [List.filter_eq_nil_iff]
    intro e he
    obtain ⟨n, hn, he⟩ := pairsList_mem.1 he
    exact key n (by simp [hn]) (hpc.1 n hn).ne.symm e he
  rw [h1, h2, List.nil_append, List.append_nil]

/-- A node in a sorted list of which the string, but no more, is a proper beginning, is the one before. -/
theorem level_before {a b : List (Node α)} {c : Node α} {string : Bytes} (hl : Level buf (a ++ b)) (hc : c ∈ a ++ b)
    (hlt : ∀ n ∈ a, cmpBytes (text buf n.string) string = .lt)
    (hgt : ∀ n ∈ b, cmpBytes (text buf n.string) string = .gt)
    (hcl : cmpBytes (text buf c.string) string ≠ .gt) (hh : (text buf c.string).head? = string.head?) :
    ∃ a', a = a' ++ [c] := by
  have hca : c ∈ a := by
    rcases List.mem_append.1 hc with h | h
    · exact h
    · exact absurd (hgt c h) hcl
  obtain ⟨a1, a2, rfl⟩ := List.append_of_mem hca
  cases a2 with
  | nil => exact ⟨a1, rfl⟩
  | cons d a2 =>
    exfalso
    have := (List.pairwise_append.1 (List.pairwise_append.1 hl).1).2.1
    have hcd := (List.pairwise_cons.1 this).1 d (by simp)
    have hd := hlt d (by simp)
    have : HeadLt string (text buf d.string) := hcd.congr hh.symm rfl
    have := this.cmp
    rw [cmpBytes_swap, hd] at this
    cases this

theorem level_after {a b : List (Node α)} {c : Node α} {string : Bytes} (hl : Level buf (a ++ b)) (hc : c ∈ a ++ b)
    (hlt : ∀ n ∈ a, cmpBytes (text buf n.string) string = .lt)
    (hgt : ∀ n ∈ b, cmpBytes (text buf n.string) string = .gt)
    (hcl : cmpBytes (text buf c.string) string ≠ .lt) (hh : (text buf c.string).head? = string.head?) :
    ∃ b', b = c :: b' := by
  have hcb : c ∈ b := by
    rcases List.mem_append.1 hc with h | h
    · exact absurd (hlt c h) hcl
    · exact h
  obtain ⟨b1, b2, rfl⟩ := List.append_of_mem hcb
  cases b1 with
  | nil => exact ⟨b2, rfl⟩
  | cons d b1 =>
    exfalso
    have := (List.pairwise_append.1 hl).2.1
    have hdc := (List.pairwise_cons.1 this).1 c (by simp)
    have hd := hgt d (by simp)
    have : HeadLt (text buf d.string) string := hdc.congr rfl hh.symm
    have := this.cmp
    rw [hd] at this
    cases this

/-- Looking up a key. -/
theorem getLoop_sorted : ∀ (fuel : Nat) {P : Bytes} {children : List (Node α)} {string : Bytes},
    (∀ c ∈ children, Fits buf P c) → (∀ c ∈ children, Good buf c) → Level buf children → string.length < fuel →
    (∃ e ∈ pairsList buf P children, e.1 = P ++ string) →
    getLoop buf fuel children string =
      .ok (some (((pairsList buf P children).filter fun e => e.1 == P ++ string).map (·.2))) := by
  intro fuel
  induction fuel with
  | zero => intro _ _ _ _ _ _ h; omega
  | succ fuel ih =>
    intro P children string hf hgood hlevel hfuel ⟨e, he, hkey⟩
    obtain ⟨c, hc, hec⟩ := pairsList_mem.1 he
    have hhead := pairs_head (hf c hc) hec hkey
    have hflt : ∀ a b, children = a ++ c :: b →
        (pairsList buf P children).filter (fun e => e.1 == P ++ string) =
          (pairs buf P c).filter fun e => e.1 == P ++ string := by
      intro a b he
      subst he
      refine filter_level hf hlevel fun e hq u hu => ?_
      rw [hu] at hq
      simp only [beq_iff_eq, List.append_cancel_left_eq] at hq
      rw [hq, hhead]
    obtain ⟨t, ht, htn⟩ := pairs_key (hf c hc) e hec
    rw [hkey, List.append_assoc] at ht
    have ht := List.append_cancel_left ht
    rcases search_sorted string (fits_bounds hf) hlevel.sorted with ⟨a, d, b, rfl, hr, hd⟩ | ⟨a, b, rfl, hr, hlt, hgt⟩
    · -- the node with the string is the one with the key
      have hcd : c = d := by
        have hh : (text buf c.string).head? = (text buf d.string).head? := by rw [hd, hhead]
        rcases List.mem_append.1 hc with h | h
        · exact absurd hh ((List.pairwise_append.1 hlevel).2.2 c h d (by simp)).ne
        · rcases List.mem_cons.1 h with h | h
          · exact h
          · exact absurd hh.symm ((List.pairwise_cons.1 (List.pairwise_append.1 hlevel).2.1).1 c h).ne
      subst hcd
      rw [hflt a b rfl]
      simp only [getLoop, hr]
      have : (a ++ c :: b)[a.length]? = some c := by simp
      rw [this]
      dsimp only
      have hfc := hf c hc
      obtain ⟨s, v, k⟩ := c
      cases hfc with
      | mk h1 hv hx hck =>
        rw [pairs, List.filter_append]
        simp only [Node.string] at hd
        have hnone : (pairsList buf (P ++ text buf s) k).filter (fun e => e.1 == P ++ string) = [] := by
          rw [List.filter_eq_nil_iff]
          intro e he
          obtain ⟨n, hn, he⟩ := pairsList_mem.1 he
          obtain ⟨t, h1, h2⟩ := pairs_key (hck n hn) e he
          rw [h1, hd]
          simp
          intro hnt
          cases hck n hn with
          | mk _ _ hnx _ =>
            have := hnx hnt
            simp at this
            have hk := (hx this.1.2).2
            rw [hk] at hn
            cases hn
        rw [hnone, List.append_nil, hd]
        simp only [Node.links]
        rw [List.filter_eq_self.2 (by simp)]
        simp [Function.comp_def]
    · -- the key is below a node
      have hne : text buf c.string ≠ string := by
        intro h
        rcases List.mem_append.1 hc with h' | h'
        · have := hlt c h'
          rw [h, cmpBytes_self] at this
          cases this
        · have := hgt c h'
          rw [h, cmpBytes_self] at this
          cases this
      have htne : t ≠ [] := by
        intro h
        rw [h, List.append_nil] at ht
        exact hne ht.symm
      have hxne : text buf c.string ≠ [] := fun h => htne (htn h)
      have hcl : cmpBytes (text buf c.string) string = .lt := by
        rw [cmpBytes_swap, ht, cmpBytes_longer _ htne]; rfl
      obtain ⟨a', rfl⟩ := level_before hlevel hc hlt hgt (by rw [hcl]; simp) hhead.symm
      rw [hflt a' b (by simp)]
      have hlen : (a' ++ [c]).length = a'.length + 1 := by simp
      have hget : (a' ++ [c] ++ b)[a'.length]? = some c := by simp
      have hfc := hf c hc
      have hgc := hgood c hc
      have hp : prefixLen (text buf c.string) string = (text buf c.string).length := by
        rw [ht]; exact (prefixLen_append _ _).1
      have hp0 : prefixLen (text buf c.string) string ≠ 0 := by
        rw [hp]; exact fun h => hxne (List.length_eq_zero_iff.1 h)
      rw [hlen] at hr
      have heq : getLoop buf (fuel + 1) (a' ++ [c] ++ b) string =
          getLoop buf fuel c.links.children (string.drop (prefixLen (text buf c.string) string)) := by
        simp only [getLoop, hr, hget, load_ok (fits_at hfc).1]
        exact if_neg hp0
      rw [heq, hp]
      have hdrop : string.drop (text buf c.string).length = t := by rw [ht]; simp
      rw [hdrop]
      obtain ⟨s, v, k⟩ := c
      simp only [Node.string] at ht hxne
      cases hfc with
      | mk h1 hv hx hck =>
        cases hgc with
        | mk hgl hgk =>
          have hstr : P ++ string = P ++ text buf s ++ t := by rw [ht, List.append_assoc]
          have hown : (v.map fun x => (P ++ text buf s, x)).filter (fun e => e.1 == P ++ string) = [] := by
            rw [List.filter_eq_nil_iff]
            intro e he
            obtain ⟨x, _, rfl⟩ := List.mem_map.1 he
            rw [hstr]
            simp [htne]
          rw [pairs, List.filter_append, hown, List.nil_append, hstr]
          refine ih hck hgk hgl ?_ ?_
          · have := congrArg List.length ht
            rw [List.length_append] at this
            have : 0 < (text buf s).length := List.length_pos_iff.2 hxne
            omega
          · rw [pairs] at hec
            rcases List.mem_append.1 hec with h | h
            · exfalso
              obtain ⟨x, _, rfl⟩ := List.mem_map.1 h
              rw [hstr] at hkey
              simp at hkey
              exact htne hkey
            · exact ⟨e, h, by rw [hkey, hstr]⟩

/-- Looking for the node of a prefix. -/
theorem findNode_sorted : ∀ (fuel : Nat) {P : Bytes} {children : List (Node α)} {string : Bytes},
    (∀ c ∈ children, Fits buf P c) → (∀ c ∈ children, Good buf c) → Level buf children → string.length < fuel →
    string ≠ [] → (∃ e ∈ pairsList buf P children, P ++ string <+: e.1) →
    ∃ n Q, findNode buf fuel children string P.length = .ok (some (n, Q.length)) ∧ Fits buf Q n ∧
      pairs buf Q n = (pairsList buf P children).filter (fun e => (P ++ string).isPrefixOf e.1) := by
  intro fuel
  induction fuel with
  | zero => intro _ _ _ _ _ _ h; omega
  | succ fuel ih =>
    intro P children string hf hgood hlevel hfuel hsne ⟨e, he, u, hkey⟩
    obtain ⟨c, hc, hec⟩ := pairsList_mem.1 he
    rw [List.append_assoc] at hkey
    have hhu : (string ++ u).head? = string.head? := by
      obtain ⟨x, xs, rfl⟩ := List.exists_cons_of_ne_nil hsne; rfl
    have hhead : string.head? = (text buf c.string).head? := by
      rw [← hhu]; exact pairs_head (hf c hc) hec hkey.symm
    have hflt : ∀ a b, children = a ++ c :: b →
        (pairsList buf P children).filter (fun e => (P ++ string).isPrefixOf e.1) =
          (pairs buf P c).filter fun e => (P ++ string).isPrefixOf e.1 := by
      intro a b he
      subst he
      refine filter_level hf hlevel fun e hq w hw => ?_
      rw [hw, List.isPrefixOf_iff_prefix] at hq
      obtain ⟨z, hz⟩ := hq
      rw [List.append_assoc] at hz
      have hz := List.append_cancel_left hz
      rw [← hz, ← hhead]
      obtain ⟨x, xs, rfl⟩ := List.exists_cons_of_ne_nil hsne; rfl
    obtain ⟨t, ht, htn⟩ := pairs_key (hf c hc) e hec
    rw [← hkey, List.append_assoc] at ht
    have ht := List.append_cancel_left ht
    have hxne : text buf c.string ≠ [] := by
      intro h
      rw [h] at hhead
      cases string with
      | nil => exact hsne rfl
      | cons x xs => cases hhead
    -- all keys below a node whose string begins with what is searched
    have hall : string <+: text buf c.string →
        (pairs buf P c).filter (fun e => (P ++ string).isPrefixOf e.1) = pairs buf P c := by
      intro ⟨w, hw⟩
      rw [List.filter_eq_self]
      intro e he
      obtain ⟨t, h1, _⟩ := pairs_key (hf c hc) e he
      rw [List.isPrefixOf_iff_prefix, h1, ← hw]
      exact ⟨w ++ t, by simp⟩
    rcases search_sorted string (fits_bounds hf) hlevel.sorted with ⟨a, d, b, rfl, hr, hd⟩ | ⟨a, b, rfl, hr, hlt, hgt⟩
    · have hcd : c = d := by
        have hh : (text buf c.string).head? = (text buf d.string).head? := by rw [hd, hhead]
        rcases List.mem_append.1 hc with h | h
        · exact absurd hh ((List.pairwise_append.1 hlevel).2.2 c h d (by simp)).ne
        · rcases List.mem_cons.1 h with h | h
          · exact h
          · exact absurd hh.symm ((List.pairwise_cons.1 (List.pairwise_append.1 hlevel).2.1).1 c h).ne
      subst hcd
      refine ⟨c, P, ?_, hf c hc, ?_⟩
      · simp only [findNode, hr]
        simp
      · rw [hflt a b rfl, hall (by rw [hd]; exact List.prefix_refl _)]
    · have hne : text buf c.string ≠ string := by
        intro h
        rcases List.mem_append.1 hc with h' | h'
        · have := hlt c h'
          rw [h, cmpBytes_self] at this
          cases this
        · have := hgt c h'
          rw [h, cmpBytes_self] at this
          cases this
      have hb := fits_bounds hf
      have hfc := hf c hc
      have hgc := hgood c hc
      rcases List.append_eq_append_iff.1 ht with ⟨w, hw, _⟩ | ⟨w, hw, hw2⟩
      · -- the string ends inside of that of the node
        have hwne : w ≠ [] := by
          intro h
          rw [h, List.append_nil] at hw
          exact hne hw
        have hcl : cmpBytes (text buf c.string) string = .gt := by rw [hw]; exact cmpBytes_longer _ hwne
        obtain ⟨b', rfl⟩ := level_after hlevel hc hlt hgt (by rw [hcl]; simp) hhead.symm
        have hp : prefixLen (text buf c.string) string = string.length := by
          rw [hw]; exact (prefixLen_append _ _).2
        have hs0 : string.length ≠ 0 := fun h => hsne (List.length_eq_zero_iff.1 h)
        have hnb : neighbour buf string (neighbours (a ++ c :: b') a.length) = .ok (some (c, string.length)) := by
          have hthis : neighbour buf string [c] = .ok (some (c, string.length)) := by
            rw [neighbour, load_ok (hb c hc)]
            dsimp only
            rw [hp, if_neg hs0]
          have hgetc : ((a ++ c :: b')[a.length]?).toList = [c] := by simp
          rw [neighbours, hgetc]
          rcases List.eq_nil_or_concat a with rfl | ⟨a', d, rfl⟩
          · simpa using hthis
          · rw [List.concat_eq_append] at hlevel hb ⊢
            have hd : (a' ++ [d] ++ c :: b')[(a' ++ [d]).length - 1]? = some d := by simp
            rw [if_neg (by simp), hd]
            have hdc := (List.pairwise_append.1 hlevel).2.2 d (by simp) c (by simp)
            have hzero : prefixLen (text buf d.string) string = 0 :=
              prefixLen_head (by rw [hhead]; exact hdc.ne)
            simp only [Option.toList_some, List.singleton_append]
            rw [neighbour, load_ok (hb d (by simp))]
            dsimp only
            rw [if_pos hzero, hthis]
        refine ⟨c, P, ?_, hfc, ?_⟩
        · simp only [findNode, hr, hnb]
          rw [if_neg (by simp)]
        · rw [hflt a b' rfl, hall ⟨w, hw.symm⟩]
      · -- the string goes on below the node
        have hwne : w ≠ [] := by
          intro h
          rw [h, List.append_nil] at hw
          exact hne hw.symm
        have hcl : cmpBytes (text buf c.string) string = .lt := by
          rw [cmpBytes_swap, hw, cmpBytes_longer _ hwne]; rfl
        obtain ⟨a', rfl⟩ := level_before hlevel hc hlt hgt (by rw [hcl]; simp) hhead.symm
        have hp : prefixLen (text buf c.string) string = (text buf c.string).length := by
          rw [hw]; exact (prefixLen_append _ _).1
        have hp0 : (text buf c.string).length ≠ 0 := fun h => hxne (List.length_eq_zero_iff.1 h)
        have hnb : neighbour buf string (neighbours (a' ++ [c] ++ b) (a' ++ [c]).length) =
            .ok (some (c, (text buf c.string).length)) := by
          have hd : (a' ++ [c] ++ b)[(a' ++ [c]).length - 1]? = some c := by simp
          rw [neighbours, if_neg (by simp), hd]
          simp only [Option.toList_some, List.singleton_append]
          rw [neighbour, load_ok (hb c hc)]
          dsimp only
          rw [hp, if_neg hp0]
        have hplen : (text buf c.string).length ≠ string.length := by
          rw [hw, List.length_append]
          have : 0 < w.length := List.length_pos_iff.2 hwne
          omega
        have heq : findNode buf (fuel + 1) (a' ++ [c] ++ b) string P.length =
            findNode buf fuel c.links.children (string.drop (text buf c.string).length)
              (P.length + (text buf c.string).length) := by
          simp only [findNode, hr, hnb]
          rw [if_pos hplen]
        have hdrop : string.drop (text buf c.string).length = w := by rw [hw]; simp
        rw [heq, hdrop, hflt a' b (by simp)]
        obtain ⟨s, v, k⟩ := c
        simp only [Node.string] at hw hxne ht hw2 hplen
        simp only [Node.string, Node.links]
        cases hfc with
        | mk h1 hv hx hck =>
          cases hgc with
          | mk hgl hgk =>
            have hstr : P ++ string = P ++ text buf s ++ w := by rw [hw, List.append_assoc]
            have hown : (v.map fun x => (P ++ text buf s, x)).filter (fun e => (P ++ string).isPrefixOf e.1) = [] := by
              rw [List.filter_eq_nil_iff]
              intro e he
              obtain ⟨x, _, rfl⟩ := List.mem_map.1 he
              rw [hstr, List.isPrefixOf_iff_prefix]
              intro hpre
              have := hpre.length_le
              simp only [List.length_append] at this
              have : 0 < w.length := List.length_pos_iff.2 hwne
              omega
            have hrec := ih (P := P ++ text buf s) (children := k) (string := w) hck hgk hgl ?_ hwne ?_
            · rw [pairs, List.filter_append, hown, List.nil_append, hstr]
              rw [List.length_append] at hrec
              exact hrec
            · have := congrArg List.length hw
              rw [List.length_append] at this
              have : 0 < (text buf s).length := List.length_pos_iff.2 hxne
              omega
            · rw [pairs] at hec
              rcases List.mem_append.1 hec with h | h
              · exfalso
                obtain ⟨x, _, rfl⟩ := List.mem_map.1 h
                have := congrArg List.length hkey
                rw [hw] at this
                simp only [List.length_append] at this
                have : 0 < w.length := List.length_pos_iff.2 hwne
                omega
              · refine ⟨e, h, u, ?_⟩
                rw [← hkey, hw]
                simp

end
end Musli.Zero.Trie
