import Verif.Proofs.Zero.Trie
/-! Tries: iterating. -/
set_option linter.unusedSectionVars false
namespace Musli.Zero.Trie
open Musli Musli.Zero

section
variable {α : Type} {buf : Bytes} {cap : Option Nat}

/-- With enough turns, the walk yields the items and then ends. -/
def Runs (buf : Bytes) (cap : Option Nat) (w : Walk α) (items : List (Bytes × α)) : Prop :=
  ∃ n, ∀ m, n ≤ m → collect buf cap m w = .ok items

theorem runs_done {w : Walk α} (h : step buf cap w = .ok .done) : Runs buf cap w [] := by
  refine ⟨1, fun m hm => ?_⟩
  obtain ⟨m, rfl⟩ : ∃ k, m = k + 1 := ⟨m - 1, by omega⟩
  rw [collect, h]

theorem runs_next {w w' : Walk α} {items : List (Bytes × α)} (h : step buf cap w = .ok (.next w'))
    (hr : Runs buf cap w' items) : Runs buf cap w items := by
  obtain ⟨n, hr⟩ := hr
  refine ⟨n + 1, fun m hm => ?_⟩
  obtain ⟨m, rfl⟩ : ∃ k, m = k + 1 := ⟨m - 1, by omega⟩
  rw [collect, h]
  exact hr m (by omega)

theorem runs_yield {w w' : Walk α} {item : Bytes × α} {items : List (Bytes × α)}
    (h : step buf cap w = .ok (.yield item w')) (hr : Runs buf cap w' items) : Runs buf cap w (item :: items) := by
  obtain ⟨n, hr⟩ := hr
  refine ⟨n + 1, fun m hm => ?_⟩
  obtain ⟨m, rfl⟩ : ∃ k, m = k + 1 := ⟨m - 1, by omega⟩
  rw [collect, h]
  dsimp only
  rw [hr m (by omega)]

theorem runs_values {key : Bytes} {stack : List (Links α × Nat × Bytes)} {items : List (Bytes × α)}
    (hr : Runs buf cap ⟨.stack, stack⟩ items) : ∀ (vs : List α),
    Runs buf cap ⟨.values key vs, stack⟩ (vs.map (fun x => (key, x)) ++ items)
  | [] => runs_next rfl hr
  | _ :: vs => runs_yield rfl (runs_values hr vs)

mutual
/-- How many nodes are above one another. -/
def height : Node α → Nat
  | .mk _ _ c => 1 + heightList c

def heightList : List (Node α) → Nat
  | [] => 0
  | n :: ns => max (height n) (heightList ns)
end

/-- There is room for so many more entries on the stack. -/
def Room (cap : Option Nat) (used more : Nat) : Prop := ∀ n, cap = some n → used + more ≤ n

theorem tryPush_ok {entry : Links α × Nat × Bytes} {stack : List (Links α × Nat × Bytes)} {k : Nat}
    (h : Room cap stack.length k) (hk : 0 < k) : tryPush cap entry stack = .ok (entry :: stack) := by
  unfold tryPush
  cases cap with
  | none => rfl
  | some n =>
    have := h n rfl
    dsimp only
    rw [if_neg (by omega)]

theorem prefixString_ok {P : Bytes} {s : SRef} (h : At buf P s) :
    ∃ k, prefixString s P.length = .ok k ∧ load buf k = .ok (P ++ text buf s) := by
  refine ⟨_, if_pos h.2.1, ?_⟩
  have := at_key h
  rw [load_ok]
  · rw [← this]
    have : s.off + s.len - (s.off - P.length) = P.length + s.len := by have := h.2.1; omega
    rw [this]
  · have := h.1; have := h.2.1; simp only; omega

mutual
theorem runs_node : ∀ (n : Node α) (P : Bytes) (stack : List (Links α × Nat × Bytes)) (items : List (Bytes × α)),
    Fits buf P n → Room cap stack.length (height n) → Runs buf cap ⟨.stack, stack⟩ items →
    Runs buf cap ⟨.values (P ++ text buf n.string) n.links.values, (n.links, 0, P ++ text buf n.string) :: stack⟩
      (pairs buf P n ++ items)
  | .mk s v c, P, stack, items, hf, hroom, hr => by
    cases hf with
    | mk h hv ht hc =>
      rw [pairs, List.append_assoc]
      refine runs_values ?_ v
      exact runs_list c ⟨v, c⟩ 0 (P ++ text buf s) stack items rfl hc
        (fun n hn => by have := hroom n hn; rw [height] at this; omega) hr

theorem runs_list : ∀ (c : List (Node α)) (links : Links α) (index : Nat) (P : Bytes)
    (stack : List (Links α × Nat × Bytes)) (items : List (Bytes × α)),
    links.children.drop index = c → (∀ n ∈ c, Fits buf P n) → Room cap stack.length (1 + heightList c) →
    Runs buf cap ⟨.stack, stack⟩ items →
    Runs buf cap ⟨.stack, (links, index, P) :: stack⟩ (pairsList buf P c ++ items)
  | [], links, index, P, stack, items, hd, _, _, hr => by
    refine runs_next ?_ hr
    have : links.children[index]? = none := by
      rw [List.getElem?_eq_none]; exact List.drop_eq_nil_iff.1 hd
    simp only [step, this]
  | n :: ns, links, index, P, stack, items, hd, hf, hroom, hr => by
    have hget : links.children[index]? = some n := by
      have := congrArg List.head? hd
      rwa [List.head?_drop] at this
    have hd' : links.children.drop (index + 1) = ns := by
      have := congrArg List.tail hd
      rwa [List.tail_drop] at this
    obtain ⟨k, hk, hl⟩ := prefixString_ok (fits_at (hf n (by simp)))
    have hnext := runs_list ns links (index + 1) P stack items hd' (fun m hm => hf m (by simp [hm]))
      (fun x hx => by have := hroom x hx; rw [heightList] at this; omega) hr
    have hrun := runs_node n P ((links, index + 1, P) :: stack) _ (hf n (by simp))
      (fun x hx => by have := hroom x hx; rw [heightList] at this; simp only [List.length_cons]; omega) hnext
    rw [pairsList, List.append_assoc]
    refine runs_next ?_ hrun
    have hpos : 0 < height n := by cases n; rw [height]; omega
    have hp1 := tryPush_ok (entry := (links, index + 1, P)) hroom (by omega)
    have hp2 := tryPush_ok (cap := cap) (entry := (n.links, 0, P ++ text buf n.string))
      (stack := (links, index + 1, P) :: stack) (k := height n)
      (fun x hx => by have := hroom x hx; rw [heightList] at this; simp only [List.length_cons]; omega) hpos
    simp only [step, hget, hk, hl, hp1, hp2]
end

theorem pairsList_mem {P : Bytes} {e : Bytes × α} : ∀ {c : List (Node α)},
    e ∈ pairsList buf P c ↔ ∃ n ∈ c, e ∈ pairs buf P n
  | [] => by simp [pairsList]
  | n :: c => by simp [pairsList, pairsList_mem (c := c)]

theorem pairsList_sublist {P : Bytes} {n : Node α} {c : List (Node α)} (h : n ∈ c) :
    (pairs buf P n).Sublist (pairsList buf P c) := by
  induction c with
  | nil => cases h
  | cons m c ih =>
    rw [pairsList]
    rcases List.mem_cons.1 h with rfl | h
    · exact List.sublist_append_left _ _
    · exact (ih h).trans (List.sublist_append_right _ _)

/-- There is a value in every tree. -/
theorem pairs_ne_nil {P : Bytes} {n : Node α} (h : Fits buf P n) : pairs buf P n ≠ [] := by
  induction h with
  | @mk P s v c h hv ht hc ih =>
    rw [pairs]
    rcases hv with hv | hv
    · simp [hv]
    · cases c with
      | nil => exact absurd rfl hv
      | cons n c =>
        rw [pairsList]
        have := ih n (by simp)
        simp [this]

/-- The keys in a tree begin with the string of its root. -/
theorem pairs_key {P : Bytes} {n : Node α} (h : Fits buf P n) : ∀ e ∈ pairs buf P n,
    ∃ t, e.1 = P ++ text buf n.string ++ t ∧ (text buf n.string = [] → t = []) := by
  induction h with
  | @mk P s v c h hv ht hc ih =>
    intro e he
    rw [pairs] at he
    rcases List.mem_append.1 he with he | he
    · obtain ⟨x, _, rfl⟩ := List.mem_map.1 he
      exact ⟨[], by simp [Node.string], fun _ => rfl⟩
    · obtain ⟨n, hn, he⟩ := pairsList_mem.1 he
      obtain ⟨t, h1, h2⟩ := ih n hn e he
      refine ⟨text buf n.string ++ t, by rw [h1]; simp [Node.string], fun h => ?_⟩
      rw [(ht h).2] at hn
      cases hn

mutual
theorem height_le {L : Nat} : ∀ (n : Node α) (P : Bytes), Fits buf P n → (∀ e ∈ pairs buf P n, e.1.length ≤ L) →
    P.length + height n ≤ max 1 L
  | .mk s v c, P, hf, hl => by
    cases hf with
    | mk h hv ht hc =>
      rw [height]
      by_cases he : text buf s = []
      · obtain ⟨rfl, rfl⟩ := ht he
        simp only [heightList, List.length_nil]
        omega
      · have hpos : 0 < (text buf s).length := List.length_pos_iff.2 he
        by_cases hcn : c = []
        · subst hcn
          rcases hv with hv | hv
          · obtain ⟨x, v, rfl⟩ := List.exists_cons_of_ne_nil hv
            have := hl (P ++ text buf s, x) (by simp [pairs])
            simp only [List.length_append] at this
            simp only [heightList]
            omega
          · exact absurd rfl hv
        · have := heightList_le c (P ++ text buf s) hcn hc (fun e he => hl e (by simp [pairs, he]))
          simp only [List.length_append] at this
          omega

theorem heightList_le {L : Nat} : ∀ (c : List (Node α)) (P : Bytes), c ≠ [] → (∀ n ∈ c, Fits buf P n) →
    (∀ e ∈ pairsList buf P c, e.1.length ≤ L) → P.length + heightList c ≤ max 1 L
  | [], _, h, _, _ => absurd rfl h
  | n :: c, P, _, hf, hl => by
    rw [heightList]
    have h1 := height_le n P (hf n (by simp)) (fun e he => hl e (by simp [pairsList, he]))
    by_cases hc : c = []
    · subst hc
      simp only [heightList]
      omega
    · have h2 := heightList_le c P hc (fun m hm => hf m (by simp [hm])) (fun e he => hl e (by simp [pairsList, he]))
      omega
end

/-- Iterating over the whole trie. -/
theorem runs_all {links : Links α} (hv : links.values = []) (hf : ∀ n ∈ links.children, Fits buf [] n)
    (hroom : Room cap 0 (1 + heightList links.children)) :
    Runs buf cap (iterIn links []) (pairsList buf [] links.children) := by
  have hnil : Runs buf cap (α := α) ⟨.stack, []⟩ [] := runs_done rfl
  have h := runs_list links.children links 0 [] [] [] rfl hf hroom hnil
  rw [List.append_nil] at h
  have h1 : step buf cap (iterIn links []) = .ok (.next ⟨.values [] [], [(links, 0, [])]⟩) := by
    simp only [step, iterIn, tryPush_ok (cap := cap) (entry := (links, 0, ([] : Bytes))) (stack := []) hroom (by omega), hv]
  exact runs_next h1 (runs_next rfl h)

/-! ## Anywhere in a trie -/

theorem neighbour_any {string : Bytes} : ∀ {l : List (Node α)}, (∀ c ∈ l, c.string.off + c.string.len ≤ buf.length) →
    neighbour buf string l = .ok none ∨
    ∃ c ∈ l, neighbour buf string l = .ok (some (c, prefixLen (text buf c.string) string)) ∧
      prefixLen (text buf c.string) string ≠ 0
  | [], _ => .inl rfl
  | c :: l, h => by
    rw [neighbour, load_ok (h c (by simp))]
    dsimp only
    by_cases hp : prefixLen (text buf c.string) string = 0
    · rw [if_pos hp]
      rcases neighbour_any (string := string) (l := l) (fun c hc => h c (by simp [hc])) with h | ⟨d, hd, h⟩
      · exact .inl h
      · exact .inr ⟨d, by simp [hd], h⟩
    · rw [if_neg hp]
      exact .inr ⟨c, by simp, rfl, hp⟩

theorem neighbours_mem {children : List (Node α)} {n : Nat} : ∀ c ∈ neighbours children n, c ∈ children := by
  intro c hc
  rw [neighbours] at hc
  rcases List.mem_append.1 hc with hc | hc
  · split at hc
    · cases hc
    · rw [Option.mem_toList] at hc
      exact List.mem_of_getElem? hc
  · rw [Option.mem_toList] at hc
    exact List.mem_of_getElem? hc

/-- Some node is found, or none. -/
theorem findNode_any : ∀ (fuel : Nat) {P : Bytes} {children : List (Node α)} {string : Bytes} {len : Nat},
    (∀ c ∈ children, Fits buf P c) → len ≤ P.length → string.length < fuel →
    findNode buf fuel children string len = .ok none ∨
    ∃ n len' Q, findNode buf fuel children string len = .ok (some (n, len')) ∧ Fits buf Q n ∧ len' ≤ Q.length ∧
      (pairs buf Q n).Sublist (pairsList buf P children) := by
  intro fuel
  induction fuel with
  | zero => intro _ _ _ _ _ _ h; omega
  | succ fuel ih =>
    intro P children string len hf hlen hfuel
    rcases search_any string (fits_bounds hf) with ⟨a, c, b, rfl, hr, ht⟩ | ⟨a, b, rfl, hr, hlt⟩
    · refine .inr ⟨c, len, P, ?_, hf c (by simp), hlen, pairsList_sublist (by simp)⟩
      simp only [findNode, hr]
      simp
    · have hb := fits_bounds hf
      rcases neighbour_any (buf := buf) (string := string) (l := neighbours (a ++ b) a.length)
          (fun c hc => hb c (neighbours_mem c hc)) with h | ⟨c, hc, h, hp⟩
      · refine .inl ?_
        simp only [findNode, hr, h]
      · have hc := neighbours_mem c hc
        have hfc := hf c hc
        have hle := prefixLen_le (text buf c.string) string
        by_cases hs : prefixLen (text buf c.string) string ≠ string.length
        · have heq : findNode buf (fuel + 1) (a ++ b) string len =
              findNode buf fuel c.links.children (string.drop (prefixLen (text buf c.string) string))
                (len + prefixLen (text buf c.string) string) := by
            rw [findNode]; simp only [hr, h]; rw [if_pos hs]
          rw [heq]
          obtain ⟨s, v, c'⟩ := c
          cases hfc with
          | mk h1 hv ht hc' =>
            rcases ih (P := P ++ text buf s) (children := c') (len := len + prefixLen (text buf s) string)
              (string := string.drop (prefixLen (text buf s) string)) hc'
              (by simp only [List.length_append]; simp only [Node.string] at hle; omega)
              (by rw [List.length_drop]; simp only [Node.string] at hp; omega) with h | ⟨n, len', Q, h1, h2, h3, h4⟩
            · exact .inl h
            · refine .inr ⟨n, len', Q, h1, h2, h3, h4.trans (.trans ?_ (pairsList_sublist hc))⟩
              rw [pairs]
              exact List.sublist_append_right _ _
        · refine .inr ⟨c, len, P, ?_, hfc, hlen, pairsList_sublist hc⟩
          rw [findNode]; simp only [hr, h]; rw [if_neg hs]

theorem at_suffix {X P : Bytes} {s : SRef} (h : At buf (X ++ P) s) : At buf P s := by
  obtain ⟨h1, h2, h3⟩ := h
  rw [List.length_append] at h2 h3
  refine ⟨h1, by omega, ?_⟩
  rw [text_split] at h3
  have hl : (text buf ⟨s.off - (X.length + P.length), X.length⟩).length = X.length := by
    rw [text_length]; simp only; omega
  have := (List.append_inj h3 hl).2
  have he : s.off - (X.length + P.length) + X.length = s.off - P.length := by omega
  rwa [he] at this

theorem fits_suffix {Q : Bytes} {n : Node α} (h : Fits buf Q n) : ∀ {X P : Bytes}, Q = X ++ P → Fits buf P n := by
  induction h with
  | mk h hv ht hc ih =>
    intro X P he
    subst he
    refine .mk (at_suffix h) hv (fun h => ?_) (fun n hn => ih n hn (X := X) (by simp))
    obtain ⟨h1, h2⟩ := ht h
    simp at h1
    exact ⟨h1.2, h2⟩

theorem pairsList_snd {P Q : Bytes} : ∀ {c : List (Node α)},
    (∀ n ∈ c, (pairs buf P n).map (·.2) = (pairs buf Q n).map (·.2)) →
    (pairsList buf P c).map (·.2) = (pairsList buf Q c).map (·.2)
  | [], _ => by simp [pairsList]
  | n :: c, h => by
    simp only [pairsList, List.map_append]
    rw [h n (by simp), pairsList_snd fun m hm => h m (by simp [hm])]

theorem pairs_snd {P : Bytes} {n : Node α} (h : Fits buf P n) : ∀ (Q : Bytes),
    (pairs buf Q n).map (·.2) = (pairs buf P n).map (·.2) := by
  induction h with
  | mk h hv ht hc ih =>
    intro Q
    simp only [pairs, List.map_append, List.map_map]
    congr 1
    exact pairsList_snd fun n hn => ih n hn _

/-- Iterating over the node which was found. -/
theorem runs_found {links : Links α} {string : Bytes} {n : Node α} {Q : Bytes} (hs : string ≠ [])
    (h : findNode buf (string.length + 1) links.children string 0 = .ok (some (n, Q.length))) (hf : Fits buf Q n)
    (hroom : Room cap 0 (height n)) : Runs buf cap (iterIn links string) (pairs buf Q n) := by
  obtain ⟨b, bs, rfl⟩ := List.exists_cons_of_ne_nil hs
  have hnil : Runs buf cap (α := α) ⟨.stack, []⟩ [] := runs_done rfl
  have hr := runs_node n Q [] [] hf hroom hnil
  rw [List.append_nil] at hr
  obtain ⟨k, hk, hl⟩ := prefixString_ok (fits_at hf)
  have hpos : 0 < height n := by cases n; rw [height]; omega
  refine runs_next ?_ hr
  simp only [step, iterIn, h, hk, hl,
    tryPush_ok (cap := cap) (entry := (n.links, 0, Q ++ text buf n.string)) (stack := []) hroom hpos]

theorem runs_none {links : Links α} {string : Bytes} (hs : string ≠ [])
    (h : findNode buf (string.length + 1) links.children string 0 = .ok none) :
    Runs buf cap (iterIn links string) [] := by
  obtain ⟨b, bs, rfl⟩ := List.exists_cons_of_ne_nil hs
  refine runs_next (w' := ⟨.stack, []⟩) ?_ (runs_done rfl)
  simp only [step, iterIn, h]

/-- Iterating from anywhere ends, without an error, and what it yields are values of the trie. -/
theorem runs_any {links : Links α} {string : Bytes} {L : Nat} (hs : string ≠ [])
    (hf : ∀ n ∈ links.children, Fits buf [] n) (hl : ∀ e ∈ pairsList buf [] links.children, e.1.length ≤ L)
    (hroom : Room cap 0 (max 1 L)) : ∃ items, Runs buf cap (iterIn links string) items ∧
      (items.map (·.2)).Sublist ((pairsList buf [] links.children).map (·.2)) := by
  rcases findNode_any (string.length + 1) (string := string) (len := 0) hf (by simp) (by omega) with
    h | ⟨n, len, Q, h, hq, hlen, hsub⟩
  · exact ⟨[], runs_none hs h, by simp⟩
  · have hsuf := fits_suffix hq (X := Q.take (Q.length - len)) (P := Q.drop (Q.length - len))
      (List.take_append_drop _ _).symm
    have hlen' : (Q.drop (Q.length - len)).length = len := by rw [List.length_drop]; omega
    refine ⟨_, runs_found hs (by rw [hlen']; exact h) hsuf ?_, ?_⟩
    · have := height_le n Q hq fun e he => hl e (hsub.subset he)
      intro m hm
      have := hroom m hm
      omega
    · rw [pairs_snd hq]
      exact hsub.map _

/-- Looking up ends without an error, and what is returned are all values of a node. -/
theorem getLoop_any : ∀ (fuel : Nat) {P : Bytes} {children : List (Node α)} {string : Bytes},
    (∀ c ∈ children, Fits buf P c) → string.length < fuel →
    getLoop buf fuel children string = .ok none ∨
    ∃ vs, getLoop buf fuel children string = .ok (some vs) ∧
      vs.Sublist ((pairsList buf P children).map (·.2)) := by
  intro fuel
  induction fuel with
  | zero => intro _ _ _ _ h; omega
  | succ fuel ih =>
    intro P children string hf hfuel
    rcases search_any string (fits_bounds hf) with ⟨a, c, b, rfl, hr, ht⟩ | ⟨a, b, rfl, hr, hlt⟩
    · refine .inr ⟨c.links.values, ?_, ?_⟩
      · simp only [getLoop, hr]; simp
      · refine List.Sublist.trans ?_ ((pairsList_sublist (n := c) (by simp)).map _)
        obtain ⟨s, v, c⟩ := c
        rw [pairs, List.map_append, List.map_map]
        simp only [Node.links, Function.comp_def, List.map_id']
        exact List.sublist_append_left _ _
    · rcases List.eq_nil_or_concat a with rfl | ⟨a, child, rfl⟩
      · refine .inl ?_
        simp only [List.nil_append, List.length_nil] at hr
        simp only [getLoop, List.nil_append, hr]
      · rw [List.concat_eq_append] at hf hr ⊢
        have hfc := hf child (by simp)
        have hget : (a ++ [child] ++ b)[a.length]? = some child := by simp
        have hlen : (a ++ [child]).length = a.length + 1 := by simp
        rw [hlen] at hr
        have hmem : child ∈ a ++ [child] ++ b := by simp
        by_cases hp : prefixLen (text buf child.string) string = 0
        · refine .inl ?_
          simp only [getLoop, hr, hget, load_ok (fits_at hfc).1, hp, if_true]
        · have heq : getLoop buf (fuel + 1) (a ++ [child] ++ b) string =
              getLoop buf fuel child.links.children (string.drop (prefixLen (text buf child.string) string)) := by
            simp only [getLoop, hr, hget, load_ok (fits_at hfc).1]
            exact if_neg hp
          have hle := prefixLen_le (text buf child.string) string
          rw [heq]
          obtain ⟨s, v, c'⟩ := child
          cases hfc with
          | mk h1 hv ht hc' =>
            rcases ih (P := P ++ text buf s) (children := c') (string := string.drop (prefixLen (text buf s) string)) hc'
              (by rw [List.length_drop]; simp only [Node.string] at hp hle; omega) with h | ⟨vs, h1, h2⟩
            · exact .inl h
            · refine .inr ⟨vs, h1, h2.trans (.trans ?_ ((pairsList_sublist hmem).map _))⟩
              rw [pairs, List.map_append]
              exact List.sublist_append_right _ _

end
end Musli.Zero.Trie
