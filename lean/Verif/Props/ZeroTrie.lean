import Verif.Spec.Trie
import Verif.Proofs.Zero.TrieGet
import Verif.Props.Samples
/-!
# C60, C61, C62: tries
-/
set_option linter.unusedSectionVars false
namespace Musli.Zero.Trie
open Musli Musli.Zero

section
variable {α : Type}

theorem insert_error {buf : Bytes} {trie : Links α} {string : SRef} {value : α}
    (h : ¬ string.off + string.len ≤ buf.length) : insert buf trie string value = .error .bounds := by
  rw [insert, load, if_neg h]

theorem insert_any {buf : Bytes} {trie : Links α} {string : SRef} {value : α}
    (h : string.off + string.len ≤ buf.length) (hv : trie.values = []) (hf : ∀ n ∈ trie.children, Fits buf [] n) :
    ∃ trie', insert buf trie string value = .ok trie' ∧ trie'.values = [] ∧ (∀ n ∈ trie'.children, Fits buf [] n) ∧
      (pairsList buf [] trie'.children).Perm ((text buf string, value) :: pairsList buf [] trie.children) := by
  have hat : At buf [] string := ⟨h, by simp, by simp [text]⟩
  obtain ⟨c, h1, h2, _, h3⟩ := insertLoop_any value (string.len + 1) hf hat (fun _ => rfl) (by omega)
  refine ⟨⟨trie.values, c⟩, ?_, hv, h2, h3⟩
  rw [insert, load_ok h]
  dsimp only
  rw [text_length h, h1]

/-- What holds of a builder after any calls. -/
theorem run_any {ops : List (Op α)} : ∀ {buf : Bytes} {trie : Links α}, trie.values = [] →
    (∀ n ∈ trie.children, Fits buf [] n) →
    (entries buf ops = none ∧ run buf trie ops = .error .bounds) ∨
    ∃ es buf' trie', entries buf ops = some es ∧ run buf trie ops = .ok (buf', trie') ∧ trie'.values = [] ∧
      (∀ n ∈ trie'.children, Fits buf' [] n) ∧
      (pairsList buf' [] trie'.children).Perm (pairsList buf [] trie.children ++ es) := by
  induction ops with
  | nil => intro buf trie hv hf; exact .inr ⟨[], buf, trie, rfl, rfl, hv, hf, by simp⟩
  | cons op ops ih =>
    intro buf trie hv hf
    cases op with
    | store bytes =>
      have hp : pairsList (buf ++ bytes) [] trie.children = pairsList buf [] trie.children :=
        pairsList_congr fun n hn => pairs_append (hf n hn)
      have := ih (buf := buf ++ bytes) (trie := trie) hv (fun n hn => fits_append (hf n hn))
      rw [hp] at this
      exact this
    | insert string value =>
      by_cases h : string.off + string.len ≤ buf.length
      · obtain ⟨trie1, h1, h2, h3, h4⟩ := insert_any (value := value) h hv hf
        simp only [entries, run, h1, if_pos h]
        rcases ih h2 h3 with ⟨ha, hb⟩ | ⟨es, buf', trie', ha, hb, hc, hd, he⟩
        · exact .inl ⟨by rw [ha]; rfl, hb⟩
        · refine .inr ⟨(text buf string, value) :: es, buf', trie', by rw [ha]; rfl, hb, hc, hd, ?_⟩
          exact (he.trans (h4.append_right es)).trans List.perm_middle.symm
      · simp only [entries, run, insert_error h, if_neg h]
        exact .inl ⟨trivial, trivial⟩

/-- **C60.** Inserting succeeds whatever the order, and fails if and only if the string is not in the buffer. -/
theorem C60_insert (ops : List (Op α)) :
    (∃ buf trie, run [] empty ops = .ok (buf, trie)) ↔ (∃ es, entries [] ops = some es) := by
  rcases run_any (ops := ops) (buf := []) (trie := empty) rfl (by simp [empty]) with
    ⟨h1, h2⟩ | ⟨es, buf, trie, h1, h2, _⟩
  · simp [h1, h2]
  · simp [h1, h2]

/-- **C60.** Iterating yields everything which was inserted, each as often as it was, and nothing else. With `Vec`, or
in the variants with a stack of a fixed size if it is greater than two and than the longest key. -/
theorem C60_iter {ops : List (Op α)} {es : List (Bytes × α)} {buf : Bytes} {trie : Links α}
    (he : entries [] ops = some es) (hr : run [] empty ops = .ok (buf, trie)) {cap : Option Nat}
    (hcap : ∀ n, cap = some n → 2 ≤ n ∧ ∀ e ∈ es, e.1.length < n) :
    ∃ items, Yields buf cap (iterIn trie []) items ∧ items.Perm es := by
  rcases run_any (ops := ops) (buf := []) (trie := empty) rfl (by simp [empty]) with
    ⟨h1, h2⟩ | ⟨es', buf', trie', h1, h2, h3, h4, h5⟩
  · rw [h1] at he; cases he
  rw [h1] at he; cases he
  rw [h2] at hr; cases hr
  simp only [empty, pairsList, List.nil_append] at h5
  refine ⟨_, runs_all h3 h4 ?_, h5⟩
  intro n hn
  obtain ⟨hn2, hnl⟩ := hcap n hn
  by_cases hc : trie.children = []
  · rw [hc]; simp only [heightList]; omega
  · have := heightList_le (L := n - 1) trie.children [] hc h4 (fun e he => by
      have := hnl e (h5.mem_iff.1 he); omega)
    simp only [List.length_nil] at this
    omega

/-- **C60.** Iterating from any prefix and looking up any string end without an error, and yield or return values
which were inserted, each at most as often. -/
theorem C60_total {ops : List (Op α)} {es : List (Bytes × α)} {buf : Bytes} {trie : Links α}
    (he : entries [] ops = some es) (hr : run [] empty ops = .ok (buf, trie)) (p : Bytes) {cap : Option Nat}
    (hcap : ∀ n, cap = some n → 2 ≤ n ∧ ∀ e ∈ es, e.1.length < n) :
    (∃ items, Yields buf cap (iterIn trie p) items ∧
      ∃ l : List (Bytes × α), l.Perm es ∧ (items.map (·.2)).Sublist (l.map (·.2))) ∧
    ∃ o, get buf trie p = .ok o ∧ ∀ vs, o = some vs → ∃ l : List (Bytes × α), l.Perm es ∧ vs.Sublist (l.map (·.2)) := by
  have he0 := he
  have hr0 := hr
  rcases run_any (ops := ops) (buf := []) (trie := empty) rfl (by simp [empty]) with
    ⟨h1, h2⟩ | ⟨es', buf', trie', h1, h2, h3, h4, h5⟩
  · rw [h1] at he; cases he
  rw [h1] at he; cases he
  rw [h2] at hr; cases hr
  simp only [empty, pairsList, List.nil_append] at h5
  constructor
  · by_cases hp : p = []
    · subst hp
      obtain ⟨items, hi, hperm⟩ := C60_iter he0 hr0 hcap
      exact ⟨items, hi, items, hperm, List.Sublist.refl _⟩
    · cases cap with
      | none =>
        obtain ⟨L, hL⟩ : ∃ L, ∀ e ∈ pairsList buf [] trie.children, e.1.length ≤ L := by
          generalize pairsList buf [] trie.children = l
          induction l with
          | nil => exact ⟨0, by simp⟩
          | cons x l ih =>
            obtain ⟨L, hL⟩ := ih
            refine ⟨max L x.1.length, fun e he => ?_⟩
            rcases List.mem_cons.1 he with rfl | he
            · omega
            · have := hL e he; omega
        obtain ⟨items, hi, hs⟩ := runs_any (cap := none) hp h4 hL (fun n hn => by cases hn)
        exact ⟨items, hi, _, h5, hs⟩
      | some n =>
        obtain ⟨hn2, hnl⟩ := hcap n rfl
        obtain ⟨items, hi, hs⟩ := runs_any (cap := some n) (L := n - 1) hp h4
          (fun e he => by have := hnl e (h5.mem_iff.1 he); omega) (fun m hm => by cases hm; omega)
        exact ⟨items, hi, _, h5, hs⟩
  · rcases getLoop_any (p.length + 1) (string := p) h4 (by omega) with h | ⟨vs, h, hs⟩
    · exact ⟨none, h, (fun _ h => by cases h)⟩
    · exact ⟨some vs, h, (fun _ h => by cases h; exact ⟨_, h5, hs⟩)⟩

/-! ## In order -/

theorem ordered_of {keys : Bytes → Prop} {es : List (Bytes × α)} (hk : ∀ k, keys k ↔ ∃ e ∈ es, e.1 = k) {string : Bytes}
    (h : ∀ p, p ≠ [] → p <+: string → (∃ k ∈ es, string < k.1 ∧ p <+: k.1) → ∃ k ∈ es, k.1 ≤ string ∧ p <+: k.1) :
    Ordered keys [] string := by
  intro p hp hpre ⟨k, hkk, hgt, hkp⟩
  obtain ⟨e, he, rfl⟩ := (hk k).1 hkk
  obtain ⟨e', he', hle, hpre'⟩ := h p hp hpre ⟨e, he, by
    rw [← cmpBytes_lt_iff, cmpBytes_swap, show cmpBytes e.1 string = .gt from hgt]; rfl, hkp⟩
  exact ⟨e'.1, (hk _).2 ⟨e', he', rfl⟩, cmpBytes_le hle, hpre'⟩

theorem run_ordered {ops : List (Op α)} : ∀ {buf : Bytes} {trie : Links α} {es0 es : List (Bytes × α)} {buf' : Bytes} {trie' : Links α},
    trie.values = [] → (∀ n ∈ trie.children, Fits buf [] n) → (∀ n ∈ trie.children, Good buf n) →
    Level buf trie.children → (pairsList buf [] trie.children).Perm es0 →
    (∀ key, at_ key (pairsList buf [] trie.children) = at_ key es0) →
    entries buf ops = some es → run buf trie ops = .ok (buf', trie') → InOrder (es0 ++ es) →
    trie'.values = [] ∧ (∀ n ∈ trie'.children, Fits buf' [] n) ∧ (∀ n ∈ trie'.children, Good buf' n) ∧
    Level buf' trie'.children ∧ (pairsList buf' [] trie'.children).Perm (es0 ++ es) ∧
    (∀ key, at_ key (pairsList buf' [] trie'.children) = at_ key (es0 ++ es)) := by
  induction ops with
  | nil =>
    intro buf trie es0 es buf' trie' hv hf hg hl hp ha he hr ho
    cases he; cases hr
    rw [List.append_nil]
    exact ⟨hv, hf, hg, hl, hp, ha⟩
  | cons op ops ih =>
    intro buf trie es0 es buf' trie' hv hf hg hl hp ha he hr ho
    cases op with
    | store bytes =>
      have hpl : pairsList (buf ++ bytes) [] trie.children = pairsList buf [] trie.children :=
        pairsList_congr fun n hn => pairs_append (hf n hn)
      refine ih hv (fun n hn => fits_append (hf n hn)) (fun n hn => good_append (hf n hn) (hg n hn))
        (level_append (fun n hn => hf n hn) hl) (by rw [hpl]; exact hp) (by rw [hpl]; exact ha) he hr ho
    | insert string value =>
      by_cases h : string.off + string.len ≤ buf.length
      · obtain ⟨trie1, h1, h2, h3, h4⟩ := insert_any (value := value) h hv hf
        simp only [entries, if_pos h] at he
        simp only [run, h1] at hr
        cases hes : entries buf ops with
        | none => rw [hes] at he; cases he
        | some es1 =>
          rw [hes] at he
          cases he
          have hat : At buf [] string := ⟨h, by simp, by simp [text]⟩
          have hord : Ordered (Key buf [] trie.children) [] (text buf string) := by
            refine ordered_of (es := es0) (fun k => ?_) (ho es0 (text buf string, value) es1 rfl)
            simp only [Key, hp.mem_iff]
          obtain ⟨c, hc1, hc2, hc3, hc4⟩ := insertLoop_ordered value (string.len + 1) hf hg hl hat (fun _ => rfl) (by omega) hord
          have heq : trie1 = ⟨trie.values, c⟩ := by
            rw [insert, load_ok h] at h1
            dsimp only at h1
            rw [text_length h, hc1] at h1
            cases h1; rfl
          subst heq
          have hre : ∀ l : List (Bytes × α), es0 ++ (text buf string, value) :: l = es0 ++ [(text buf string, value)] ++ l := by simp
          change InOrder (es0 ++ (text buf string, value) :: es1) at ho
          show _ ∧ _ ∧ _ ∧ _ ∧ List.Perm _ (es0 ++ (text buf string, value) :: es1) ∧
            ∀ key, _ = at_ key (es0 ++ (text buf string, value) :: es1)
          rw [hre] at ho ⊢
          refine ih h2 h3 hc2 hc3 ?_ ?_ hes hr ho
          · exact h4.trans ((hp.cons _).trans (List.perm_append_singleton _ _).symm)
          · intro key
            rw [hc4 key, ha key]
            simp [at_]
      · simp only [entries, if_neg h] at he
        cases he

/-- **C61.** Looking up a key which was inserted returns its values, in the order in which they were inserted, if
keys were inserted in order. -/
theorem C61_get_partial {ops : List (Op α)} {es : List (Bytes × α)} {buf : Bytes} {trie : Links α}
    (he : entries [] ops = some es) (hr : run [] empty ops = .ok (buf, trie)) (ho : InOrder es)
    {key : Bytes} (hk : ∃ e ∈ es, e.1 = key) :
    get buf trie key = .ok (some ((es.filter fun e => e.1 == key).map (·.2))) := by
  obtain ⟨_, hf, hg, hl, hp, ha⟩ := run_ordered (es0 := []) (trie := empty) rfl (by simp [empty]) (by simp [empty])
    (by simp [empty, Level]) (by simp [empty, pairsList]) (by simp [empty, pairsList]) he hr ho
  have := getLoop_sorted (key.length + 1) (P := []) (string := key) hf hg hl (by omega)
    (by obtain ⟨e, hm, hx⟩ := hk; exact ⟨e, hp.mem_iff.2 hm, hx⟩)
  have ha := ha key
  simp only [at_, List.nil_append] at ha
  rw [get, this, List.nil_append, ha]

/-- **C62.** Iterating from a prefix of a key yields what has this prefix, as often as it was inserted, if keys were
inserted in order. -/
theorem C62_iter_in_partial {ops : List (Op α)} {es : List (Bytes × α)} {buf : Bytes} {trie : Links α}
    (he : entries [] ops = some es) (hr : run [] empty ops = .ok (buf, trie)) (ho : InOrder es)
    {p : Bytes} (hk : ∃ e ∈ es, p <+: e.1) {cap : Option Nat}
    (hcap : ∀ n, cap = some n → 2 ≤ n ∧ ∀ e ∈ es, e.1.length < n) :
    ∃ items, Yields buf cap (iterIn trie p) items ∧ items.Perm (es.filter fun e => p.isPrefixOf e.1) := by
  by_cases hpn : p = []
  · subst hpn
    obtain ⟨items, hi, hperm⟩ := C60_iter he hr hcap
    refine ⟨items, hi, ?_⟩
    rw [List.filter_eq_self.2 (by simp)]
    exact hperm
  obtain ⟨_, hf, hg, hl, hp, ha⟩ := run_ordered (es0 := []) (trie := empty) rfl (by simp [empty]) (by simp [empty])
    (by simp [empty, Level]) (by simp [empty, pairsList]) (by simp [empty, pairsList]) he hr ho
  rw [List.nil_append] at hp
  obtain ⟨n, Q, h1, h2, h3⟩ := findNode_sorted (p.length + 1) (P := []) (string := p) hf hg hl (by omega) hpn
    (by obtain ⟨e, hm, hx⟩ := hk; exact ⟨e, hp.mem_iff.2 hm, by simpa using hx⟩)
  refine ⟨_, runs_found hpn h1 h2 ?_, ?_⟩
  · intro m hm
    obtain ⟨hn2, hnl⟩ := hcap m hm
    have := height_le (L := m - 1) n Q h2 (fun e he => by
      rw [h3] at he
      have := hnl e (hp.mem_iff.1 (List.mem_filter.1 he).1); omega)
    omega
  · rw [h3]
    exact hp.filter _

/-- Keys which are inserted in their order are. -/
theorem inOrder_of_sorted {es : List (Bytes × α)} (h : es.Pairwise fun a b => a.1 ≤ b.1) : InOrder es := by
  intro before e after he p _ _ ⟨k, hk, hlt, _⟩
  subst he
  exact absurd hlt (List.not_lt.2 ((List.pairwise_append.1 h).2.2 k hk e (by simp)))

/-- So are keys of which no earlier and greater one has the same first byte. -/
theorem inOrder_of_heads {es : List (Bytes × α)} (h : es.Pairwise fun a b => b.1 < a.1 → b.1.head? ≠ a.1.head?) :
    InOrder es := by
  intro before e after he p hp hpre ⟨k, hk, hlt, hkp⟩
  subst he
  refine absurd ?_ ((List.pairwise_append.1 h).2.2 k hk e (by simp) hlt)
  obtain ⟨w, hw⟩ := hpre
  obtain ⟨z, hz⟩ := hkp
  rw [← hw, ← hz, head_append hp, head_append hp]

/-- **C61.** In particular if they were inserted in the order of their bytes. -/
theorem C61_get_sorted_partial {ops : List (Op α)} {es : List (Bytes × α)} {buf : Bytes} {trie : Links α}
    (he : entries [] ops = some es) (hr : run [] empty ops = .ok (buf, trie)) (hs : es.Pairwise fun a b => a.1 ≤ b.1)
    {key : Bytes} (hk : ∃ e ∈ es, e.1 = key) :
    get buf trie key = .ok (some ((es.filter fun e => e.1 == key).map (·.2))) :=
  C61_get_partial he hr (inOrder_of_sorted hs) hk

/-- **C62.** In particular if they were inserted in the order of their bytes. -/
theorem C62_iter_in_sorted_partial {ops : List (Op α)} {es : List (Bytes × α)} {buf : Bytes} {trie : Links α}
    (he : entries [] ops = some es) (hr : run [] empty ops = .ok (buf, trie)) (hs : es.Pairwise fun a b => a.1 ≤ b.1)
    {p : Bytes} (hk : ∃ e ∈ es, p <+: e.1) {cap : Option Nat}
    (hcap : ∀ n, cap = some n → 2 ≤ n ∧ ∀ e ∈ es, e.1.length < n) :
    ∃ items, Yields buf cap (iterIn trie p) items ∧ items.Perm (es.filter fun e => p.isPrefixOf e.1) :=
  C62_iter_in_partial he hr (inOrder_of_sorted hs) hk hcap

end

/-! ## Samples -/

/-- Each string is stored and inserted, with its number as the value. -/
def sampleOps : Nat → Nat → List Bytes → List (Op Nat)
  | _, _, [] => []
  | off, i, s :: ss => .store s :: .insert ⟨off, s.length⟩ i :: sampleOps (off + s.length) (i + 1) ss

/-- What was inserted, what `get` returns for the one string, and what `iter_in` yields for the other. -/
def sampleRun (keys : List Bytes) (key p : Bytes) (cap : Option Nat) :
    Option (Option (List (Bytes × Nat)) × Option (List Nat) × List (Bytes × Nat)) :=
  match run [] empty (sampleOps 0 0 keys) with
  | .ok (buf, trie) =>
    match get buf trie key, collect buf cap 100 (iterIn trie p) with
    | .ok vs, .ok items => some (entries [] (sampleOps 0 0 keys), vs, items)
    | _, _ => none
  | .error _ => none

-- the example of `TrieRef::iter_in`, which is not sorted
def sampleWork : List Bytes := [utf8% "work", utf8% "worker", utf8% "workers", utf8% "working", utf8% "working",
  utf8% "working man", utf8% "run", utf8% "running"]

example : entries [] (sampleOps 0 0 sampleWork) =
    some [(utf8% "work", 0), (utf8% "worker", 1), (utf8% "workers", 2), (utf8% "working", 3),
      (utf8% "working", 4), (utf8% "working man", 5), (utf8% "run", 6), (utf8% "running", 7)] := by decide +kernel

example : (sampleRun sampleWork (utf8% "working") (utf8% "wor") (some 16)).map (·.2.1) = some (some [3, 4]) := by
  decide +kernel

example : (sampleRun sampleWork (utf8% "working") (utf8% "wor") (some 16)).map (·.2.2) =
    some [(utf8% "work", 0), (utf8% "worker", 1), (utf8% "workers", 2), (utf8% "working", 3), (utf8% "working", 4),
        (utf8% "working man", 5)] := by decide +kernel

-- that of `Builder::insert`
example : (sampleRun [utf8% "working", utf8% "working man", utf8% "work", utf8% "worker", utf8% "workers",
    utf8% "working"] (utf8% "working") [] none).map (·.2.1) = some (some [0, 5]) := by decide +kernel

/-- The example is in order although it is not sorted: what begins with an `r` comes last. -/
theorem sampleWork_inOrder {es : List (Bytes × Nat)} (h : entries [] (sampleOps 0 0 sampleWork) = some es) :
    InOrder es := by
  refine inOrder_of_heads ?_
  have : ((entries [] (sampleOps 0 0 sampleWork)).getD []).Pairwise fun a b =>
      cmpBytes b.1 a.1 = .lt → b.1.head? ≠ a.1.head? := by decide +kernel
  rw [h] at this
  exact this.imp fun h hlt => h (cmpBytes_lt_iff.2 hlt)

/-- **C61** fails if keys are inserted in another order: `abd`, then `abc`, then `abe`. The second is lost. -/
theorem C61_violated_by_order : ∃ (ops : List (Op Nat)) (es : List (Bytes × Nat)) (buf : Bytes) (trie : Links Nat),
    entries [] ops = some es ∧ run [] empty ops = .ok (buf, trie) ∧
    ∃ e ∈ es, get buf trie e.1 = .ok none := by
  cases hr : run [] empty (sampleOps 0 0 [utf8% "abd", utf8% "abc", utf8% "abe"]) with
  | error e =>
    have : (run [] empty (sampleOps 0 0 [utf8% "abd", utf8% "abc", utf8% "abe"])).toOption.isSome = true := by
      decide +kernel
    rw [hr] at this; cases this
  | ok r =>
    refine ⟨sampleOps 0 0 [utf8% "abd", utf8% "abc", utf8% "abe"],
      [(utf8% "abd", 0), (utf8% "abc", 1), (utf8% "abe", 2)], r.1, r.2, by decide +kernel, hr, (utf8% "abc", 1),
      by simp, ?_⟩
    have h : (run [] empty (sampleOps 0 0 [utf8% "abd", utf8% "abc", utf8% "abe"])).toOption.map
        (fun r => (get r.1 r.2 (utf8% "abc")).toOption) = some (some none) := by decide +kernel
    rw [hr] at h
    simp only [Except.toOption, Option.map_some, Option.some.injEq] at h
    cases hg : get r.1 r.2 (utf8% "abc") with
    | error e => rw [hg] at h; cases h
    | ok o => rw [hg] at h; cases h; rfl

/-- **C61** fails for keys which were not inserted: after `ab` and `abc`, looking up `ac` returns the values of
`abc`. -/
theorem C61_violated_by_absent_key : ∃ (ops : List (Op Nat)) (es : List (Bytes × Nat)) (buf : Bytes) (trie : Links Nat),
    entries [] ops = some es ∧ run [] empty ops = .ok (buf, trie) ∧ es.Pairwise (fun a b => a.1 ≤ b.1) ∧
    ∃ key, (∀ e ∈ es, e.1 ≠ key) ∧ get buf trie key = .ok (some [1]) := by
  cases hr : run [] empty (sampleOps 0 0 [utf8% "ab", utf8% "abc"]) with
  | error e =>
    have : (run [] empty (sampleOps 0 0 [utf8% "ab", utf8% "abc"])).toOption.isSome = true := by decide +kernel
    rw [hr] at this; cases this
  | ok r =>
    refine ⟨sampleOps 0 0 [utf8% "ab", utf8% "abc"], [(utf8% "ab", 0), (utf8% "abc", 1)], r.1, r.2, by decide +kernel,
      hr, ?_, utf8% "ac", by decide, ?_⟩
    · simp only [List.pairwise_cons, List.mem_singleton, forall_eq, List.not_mem_nil, false_implies, implies_true,
        List.Pairwise.nil, and_true]
      exact List.not_lt.1 fun h => by rw [← cmpBytes_lt_iff] at h; revert h; decide
    have h : (run [] empty (sampleOps 0 0 [utf8% "ab", utf8% "abc"])).toOption.map
        (fun r => (get r.1 r.2 (utf8% "ac")).toOption) = some (some (some [1])) := by decide +kernel
    rw [hr] at h
    simp only [Except.toOption, Option.map_some, Option.some.injEq] at h
    cases hg : get r.1 r.2 (utf8% "ac") with
    | error e => rw [hg] at h; cases h
    | ok o => rw [hg] at h; cases h; rfl

theorem collect_mono {α : Type} {buf : Bytes} {cap : Option Nat} : ∀ {n m : Nat} {w : Walk α} {items : List (Bytes × α)},
    n ≤ m → collect buf cap n w = .ok items → collect buf cap m w = .ok items
  | 0, _, _, _, _, h => by simp [collect] at h
  | n + 1, 0, _, _, hm, _ => by omega
  | n + 1, m + 1, w, items, hm, h => by
    rw [collect] at h ⊢
    cases hs : step buf cap w with
    | error e => rw [hs] at h; cases h
    | ok s =>
      rw [hs] at h
      cases s with
      | done => exact h
      | next w' => exact collect_mono (n := n) (by omega) h
      | yield item w' =>
        dsimp only at h ⊢
        cases hc : collect buf cap n w' with
        | error e => rw [hc] at h; cases h
        | ok items' => rw [hc] at h; rw [collect_mono (n := n) (by omega) hc]; exact h

/-- **C62** fails if keys are inserted in another order: after `working` and `work`, iterating from `workin` yields
nothing. -/
theorem C62_violated_by_order : ∃ (ops : List (Op Nat)) (es : List (Bytes × Nat)) (buf : Bytes) (trie : Links Nat),
    entries [] ops = some es ∧ run [] empty ops = .ok (buf, trie) ∧
    ∃ p, (∃ e ∈ es, p <+: e.1) ∧ Yields buf none (iterIn trie p) [] := by
  cases hr : run [] empty (sampleOps 0 0 [utf8% "working", utf8% "work"]) with
  | error e =>
    have : (run [] empty (sampleOps 0 0 [utf8% "working", utf8% "work"])).toOption.isSome = true := by decide +kernel
    rw [hr] at this; cases this
  | ok r =>
    refine ⟨sampleOps 0 0 [utf8% "working", utf8% "work"], [(utf8% "working", 0), (utf8% "work", 1)], r.1, r.2,
      by decide +kernel, hr, utf8% "workin", ⟨(utf8% "working", 0), by simp, by decide⟩, 100, fun m hm => ?_⟩
    refine collect_mono hm ?_
    have h : (run [] empty (sampleOps 0 0 [utf8% "working", utf8% "work"])).toOption.map
        (fun r => (collect r.1 none 100 (iterIn r.2 (utf8% "workin"))).toOption) = some (some []) := by decide +kernel
    rw [hr] at h
    simp only [Except.toOption, Option.map_some, Option.some.injEq] at h
    cases hg : collect r.1 none 100 (iterIn r.2 (utf8% "workin")) with
    | error e => rw [hg] at h; cases h
    | ok o => rw [hg] at h; cases h; rfl

/-- **C62** fails if no key has the prefix: after `ab` and `abc`, iterating from `ac` yields the value of `abc`, with
a key which was not inserted at all. -/
theorem C62_violated_by_absent_prefix : ∃ (ops : List (Op Nat)) (es : List (Bytes × Nat)) (buf : Bytes)
    (trie : Links Nat), entries [] ops = some es ∧ run [] empty ops = .ok (buf, trie) ∧
    ∃ p, (∀ e ∈ es, ¬ p <+: e.1) ∧ (∀ e ∈ es, e.1 ≠ utf8% "bc") ∧
      Yields buf none (iterIn trie p) [(utf8% "bc", 1)] := by
  cases hr : run [] empty (sampleOps 0 0 [utf8% "ab", utf8% "abc"]) with
  | error e =>
    have : (run [] empty (sampleOps 0 0 [utf8% "ab", utf8% "abc"])).toOption.isSome = true := by decide +kernel
    rw [hr] at this; cases this
  | ok r =>
    refine ⟨sampleOps 0 0 [utf8% "ab", utf8% "abc"], [(utf8% "ab", 0), (utf8% "abc", 1)], r.1, r.2, by decide +kernel,
      hr, utf8% "ac", by decide, by decide, 100, fun m hm => ?_⟩
    refine collect_mono hm ?_
    have h : (run [] empty (sampleOps 0 0 [utf8% "ab", utf8% "abc"])).toOption.map
        (fun r => (collect r.1 none 100 (iterIn r.2 (utf8% "ac"))).toOption) = some (some [(utf8% "bc", 1)]) := by
      decide +kernel
    rw [hr] at h
    simp only [Except.toOption, Option.map_some, Option.some.injEq] at h
    cases hg : collect r.1 none 100 (iterIn r.2 (utf8% "ac")) with
    | error e => rw [hg] at h; cases h
    | ok o => rw [hg] at h; cases h; rfl

end Musli.Zero.Trie
