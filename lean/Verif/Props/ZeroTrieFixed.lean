import Verif.Proofs.Zero.TrieFixed
import Verif.Props.ZeroTrie
/-!
# C60, C61, C62: tries with corrections

`Props/ZeroTrie.lean` proves C61 and C62 for keys which were inserted in order, and refutes them for others. Here are two corrections
with which they hold for keys in any order, and for keys and prefixes which were not inserted.
-/
set_option linter.unusedSectionVars false
namespace Musli.Zero.Trie
open Musli Musli.Zero

section
variable {α : Type}

theorem insertC_spec {buf : Bytes} {trie : Links α} {string : SRef} {value : α} (h : string.off + string.len ≤ buf.length)
    (hv : trie.values = []) (hf : ∀ n ∈ trie.children, Fits buf [] n) (hg : ∀ n ∈ trie.children, Good buf n)
    (hl : Level buf trie.children) :
    ∃ trie', insertC buf trie string value = .ok trie' ∧ trie'.values = [] ∧ (∀ n ∈ trie'.children, Fits buf [] n) ∧
      (∀ n ∈ trie'.children, Good buf n) ∧ Level buf trie'.children ∧
      (pairsList buf [] trie'.children).Perm ((text buf string, value) :: pairsList buf [] trie.children) ∧
      ∀ key, at_ key (pairsList buf [] trie'.children) =
        at_ key (pairsList buf [] trie.children) ++ at_ key [(text buf string, value)] := by
  have hat : At buf [] string := ⟨h, by simp, by simp [text]⟩
  obtain ⟨c, h1, _, h2, h3, h4, h5, h6⟩ := insertLoopC_spec value (string.len + 1) hf hg hl hat (fun _ => rfl) (by omega)
  refine ⟨⟨trie.values, c⟩, ?_, hv, h2, h3, h4, h5, h6⟩
  rw [insertC, load_ok h]
  dsimp only
  rw [text_length h, h1]

theorem runC_spec {ops : List (Op α)} : ∀ {buf : Bytes} {trie : Links α} {es0 : List (Bytes × α)},
    trie.values = [] → (∀ n ∈ trie.children, Fits buf [] n) → (∀ n ∈ trie.children, Good buf n) →
    Level buf trie.children → (pairsList buf [] trie.children).Perm es0 →
    (∀ key, at_ key (pairsList buf [] trie.children) = at_ key es0) →
    (entries buf ops = none ∧ runC buf trie ops = .error .bounds) ∨
    ∃ es buf' trie', entries buf ops = some es ∧ runC buf trie ops = .ok (buf', trie') ∧
      (∀ n ∈ trie'.children, Fits buf' [] n) ∧ (∀ n ∈ trie'.children, Good buf' n) ∧
      Level buf' trie'.children ∧ trie'.values = [] ∧ (pairsList buf' [] trie'.children).Perm (es0 ++ es) ∧
      (∀ key, at_ key (pairsList buf' [] trie'.children) = at_ key (es0 ++ es)) := by
  induction ops with
  | nil =>
    intro buf trie es0 hv hf hg hl hp ha
    exact .inr ⟨[], buf, trie, rfl, rfl, hf, hg, hl, hv, by simpa using hp, by simpa using ha⟩
  | cons op ops ih =>
    intro buf trie es0 hv hf hg hl hp ha
    cases op with
    | store bytes =>
      have hpl : pairsList (buf ++ bytes) [] trie.children = pairsList buf [] trie.children :=
        pairsList_congr fun n hn => pairs_append (hf n hn)
      exact ih hv (fun n hn => fits_append (hf n hn)) (fun n hn => good_append (hf n hn) (hg n hn))
        (level_append (fun n hn => hf n hn) hl) (by rw [hpl]; exact hp) (by rw [hpl]; exact ha)
    | insert string value =>
      by_cases h : string.off + string.len ≤ buf.length
      · obtain ⟨trie1, h1, h2, h3, h4, h5, h6, h7⟩ := insertC_spec (value := value) h hv hf hg hl
        simp only [entries, if_pos h, runC, h1]
        rcases ih (es0 := es0 ++ [(text buf string, value)]) h2 h3 h4 h5
          (h6.trans ((hp.cons _).trans (List.perm_append_singleton _ _).symm))
          (fun key => by rw [h7 key, ha key]; simp [at_]) with ⟨e1, e2⟩ | ⟨es, buf', trie', e1, e2, e3, e4, e5, e6, e7, e8⟩
        · left
          exact ⟨by rw [e1]; rfl, e2⟩
        · right
          refine ⟨(text buf string, value) :: es, buf', trie', by rw [e1]; rfl, e2, e3, e4, e5, e6, ?_, ?_⟩
          · simpa using e7
          · simpa using e8
      · left
        simp only [entries, if_neg h, runC, insertC, load]
        exact ⟨trivial, trivial⟩

theorem runC_empty {ops : List (Op α)} {es : List (Bytes × α)} (he : entries [] ops = some es) :
    ∃ buf trie, runC [] empty ops = .ok (buf, trie) ∧
      (∀ n ∈ trie.children, Fits buf [] n) ∧ (∀ n ∈ trie.children, Good buf n) ∧
      Level buf trie.children ∧ trie.values = [] ∧ (pairsList buf [] trie.children).Perm es ∧
      (∀ key, at_ key (pairsList buf [] trie.children) = at_ key es) := by
  rcases runC_spec (ops := ops) (es0 := []) (trie := empty) (buf := []) rfl (by simp [empty]) (by simp [empty])
    (by simp [empty, Level]) (by simp [empty, pairsList]) (by simp [empty, pairsList]) with
    ⟨h1, _⟩ | ⟨es', buf, trie, h1, h2, h3, h4, h5, h6, h7, h8⟩
  · rw [h1] at he; cases he
  · rw [h1] at he; cases he
    exact ⟨buf, trie, h2, h3, h4, h5, h6, by simpa using h7, by simpa using h8⟩

/-- **C60.** With the corrections, inserting still succeeds whatever the order, and fails if and only if the string is not in the
buffer. -/
theorem C60_corrected_insert (ops : List (Op α)) :
    (∃ buf trie, runC [] empty ops = .ok (buf, trie)) ↔ (∃ es, entries [] ops = some es) := by
  rcases runC_spec (ops := ops) (es0 := []) (trie := empty) (buf := []) rfl (by simp [empty]) (by simp [empty])
    (by simp [empty, Level]) (by simp [empty, pairsList]) (by simp [empty, pairsList]) with
    ⟨h1, h2⟩ | ⟨es', buf, trie, h1, h2, _⟩
  · simp [h1, h2]
  · simp [h1, h2]

/-- **C61.** With the corrections, looking up any key returns the values which were inserted for it, in the order in which they were
inserted, whatever the order of the keys; for one which was not inserted there are none. -/
theorem C61_corrected {ops : List (Op α)} {es : List (Bytes × α)} {buf : Bytes} {trie : Links α}
    (he : entries [] ops = some es) (hr : runC [] empty ops = .ok (buf, trie)) (key : Bytes) :
    ∃ o, getC buf trie key = .ok o ∧ o.getD [] = (es.filter fun e => e.1 == key).map (·.2) := by
  obtain ⟨buf', trie', h1, hf, hg, hl, _, _, ha⟩ := runC_empty he
  rw [h1] at hr
  cases hr
  have := getLoopC_spec (key.length + 1) (P := []) (string := key) hf hg hl (by omega)
  have ha := ha key
  simp only [at_] at ha
  rw [List.nil_append, ha] at this
  exact this

/-- **C61.** In particular one which was inserted is found. -/
theorem C61_corrected_found {ops : List (Op α)} {es : List (Bytes × α)} {buf : Bytes} {trie : Links α}
    (he : entries [] ops = some es) (hr : runC [] empty ops = .ok (buf, trie)) {key : Bytes} (hk : ∃ e ∈ es, e.1 = key) :
    getC buf trie key = .ok (some ((es.filter fun e => e.1 == key).map (·.2))) := by
  obtain ⟨o, h1, h2⟩ := C61_corrected he hr key
  rw [h1]
  cases o with
  | some v => rw [← h2]; rfl
  | none =>
    exfalso
    obtain ⟨e, hm, hx⟩ := hk
    have : e.2 ∈ (es.filter fun e => e.1 == key).map (·.2) :=
      List.mem_map.2 ⟨e, List.mem_filter.2 ⟨hm, by simpa using hx⟩, rfl⟩
    rw [← h2] at this
    cases this

theorem runs_foundC {buf : Bytes} {cap : Option Nat} {links : Links α} {string : Bytes} {n : Node α} {Q : Bytes}
    (hs : string ≠ []) (h : findNodeC buf (string.length + 1) links.children string 0 = .ok (some (n, Q.length)))
    (hf : Fits buf Q n) (hroom : Room cap 0 (height n)) :
    ∃ w, iterInC buf cap links string = .ok w ∧ Yields buf cap w (pairs buf Q n) := by
  have hnil : Runs buf cap (α := α) ⟨.stack, []⟩ [] := runs_done rfl
  have hr := runs_node n Q [] [] hf hroom hnil
  rw [List.append_nil] at hr
  obtain ⟨k, hk, hl⟩ := prefixString_ok (fits_at hf)
  have hpos : 0 < height n := by cases n; rw [height]; omega
  refine ⟨_, ?_, hr⟩
  simp only [iterInC, if_neg hs, h, hk, hl,
    tryPush_ok (cap := cap) (entry := (n.links, 0, Q ++ text buf n.string)) (stack := []) hroom hpos]

/-- **C62.** With the corrections, iterating from any prefix yields what has this prefix, each as often as it was inserted, and nothing
else, whatever the order of the keys; also if it is the prefix of none. -/
theorem C62_corrected {ops : List (Op α)} {es : List (Bytes × α)} {buf : Bytes} {trie : Links α}
    (he : entries [] ops = some es) (hr : runC [] empty ops = .ok (buf, trie)) (p : Bytes) {cap : Option Nat}
    (hcap : ∀ n, cap = some n → 2 ≤ n ∧ ∀ e ∈ es, e.1.length < n) :
    ∃ w items, iterInC buf cap trie p = .ok w ∧ Yields buf cap w items ∧
      items.Perm (es.filter fun e => p.isPrefixOf e.1) := by
  obtain ⟨buf', trie', h1, hf, hg, hl, hv, hp, _⟩ := runC_empty he
  rw [h1] at hr
  cases hr
  by_cases hpn : p = []
  · subst hpn
    refine ⟨iterIn trie [], _, by rw [iterInC, if_pos rfl], runs_all hv hf ?_, ?_⟩
    · intro n hn
      obtain ⟨hn2, hnl⟩ := hcap n hn
      by_cases hc : trie.children = []
      · rw [hc]; simp only [heightList]; omega
      · have := heightList_le (L := n - 1) trie.children [] hc hf (fun e he => by
          have := hnl e (hp.mem_iff.1 he); omega)
        simp only [List.length_nil] at this
        omega
    · rw [List.filter_eq_self.2 (by simp)]
      exact hp
  rcases findNodeC_spec (p.length + 1) (P := []) (string := p) hf hg hl (by omega) hpn with
    ⟨n, Q, h2, h3, h4⟩ | ⟨h2, h3⟩
  · obtain ⟨w, h5, h6⟩ := runs_foundC (cap := cap) hpn h2 h3 (by
      intro m hm
      obtain ⟨hn2, hnl⟩ := hcap m hm
      have := height_le (L := m - 1) n Q h3 (fun e he => by
        rw [h4] at he
        have := hnl e (hp.mem_iff.1 (List.mem_filter.1 he).1); omega)
      omega)
    refine ⟨w, _, h5, h6, ?_⟩
    rw [h4]
    exact hp.filter _
  · refine ⟨⟨.stack, []⟩, [], ?_, runs_done rfl, ?_⟩
    · rw [List.length_nil] at h2
      simp only [iterInC, if_neg hpn, h2]
    · have := hp.filter (fun e => ([] ++ p).isPrefixOf e.1)
      rw [h3] at this
      simpa using this

end

/-! ## The counterexamples -/

/-- What is returned for the key, and what is yielded for the prefix. -/
def sampleRunC (keys : List Bytes) (key p : Bytes) (cap : Option Nat) : Option (Option (List Nat) × List (Bytes × Nat)) :=
  match runC [] empty (sampleOps 0 0 keys) with
  | .ok (buf, trie) =>
    match getC buf trie key, iterInC buf cap trie p with
    | .ok vs, .ok w => (collect buf cap 100 w).toOption.map fun items => (vs, items)
    | _, _ => none
  | .error _ => none

-- of those of `Props/ZeroTrie.lean`, the first was lost and the second was not yielded
example : sampleRunC [utf8% "abd", utf8% "abc", utf8% "abe"] (utf8% "abc") (utf8% "ab") none =
    some (some [1], [(utf8% "abc", 1), (utf8% "abd", 0), (utf8% "abe", 2)]) := by decide +kernel

example : sampleRunC [utf8% "working", utf8% "work"] (utf8% "working") (utf8% "workin") (some 8) =
    some (some [0], [(utf8% "working", 0)]) := by decide +kernel

-- and these are absent
example : sampleRunC [utf8% "ab", utf8% "abc"] (utf8% "ac") (utf8% "ac") none = some (none, []) := by decide +kernel

-- a value for a node which had been split off before
example : sampleRunC [utf8% "abd", utf8% "abc", utf8% "ab", utf8% "ab"] (utf8% "ab") (utf8% "abd") none =
    some (some [2, 3], [(utf8% "abd", 0)]) := by decide +kernel

end Musli.Zero.Trie
