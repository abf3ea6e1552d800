import Verif.Model.Zero.TrieFixed
import Verif.Proofs.Zero.TrieGet
/-! Tries with corrections: building and looking up, in any order. -/
set_option linter.unusedSectionVars false
namespace Musli.Zero.Trie
open Musli Musli.Zero

section
variable {α : Type} {buf : Bytes}

theorem Fits.good_split {P : Bytes} {s : SRef} {v : List α} {c : List (Node α)} {p : Nat}
    (hf : Fits buf P (.mk s v c)) (hg : Good buf (.mk s v c)) (hp : p ≤ s.len) (hp0 : p ≠ 0) :
    ∃ s' v' c', Node.split p (.mk s v c) = .ok (.mk s' v' c') ∧ text buf s' = (text buf s).take p ∧
      Fits buf P (.mk s' v' c') ∧ Good buf (.mk s' v' c') ∧ text buf s' ≠ [] ∧
      pairs buf P (.mk s v c) = pairs buf P (.mk s' v' c') := by
  cases hf with
  | mk hs hv ht hc =>
  cases hg with
  | mk hl hgc =>
  have hlen := text_length hs.1
  have hne : (text buf s).take p ≠ [] := by
    intro h
    have := congrArg List.length h
    rw [List.length_take, hlen] at this
    simp at this
    omega
  by_cases hq : p = s.len
  · have htake : (text buf s).take p = text buf s := by rw [hq, ← hlen, List.take_length]
    refine ⟨s, v, c, ?_, htake.symm, .mk hs hv ht hc, .mk hl hgc, by rw [← htake]; exact hne, rfl⟩
    rw [Node.split, if_neg (by simp [hq])]
  · have htake := text_take (buf := buf) hp
    have hfit : Fits buf (P ++ (text buf s).take p) (.mk ⟨s.off + p, s.len - p⟩ v c) := by
      refine .mk (at_drop hs hp) hv ?_ ?_
      · intro h
        rw [text_drop] at h
        have := congrArg List.length h
        rw [List.length_drop, hlen] at this
        simp at this
        omega
      · rw [text_drop, List.append_assoc, List.take_append_drop]; exact hc
    refine ⟨⟨s.off, p⟩, [], [.mk ⟨s.off + p, s.len - p⟩ v c], ?_, htake, ?_, ?_, by rw [htake]; exact hne, ?_⟩
    · rw [Node.split, if_pos hq, SRef.splitAt, if_pos hp]
    · refine .mk (at_take hs hp) (.inr (by simp)) (fun h => absurd (htake ▸ h) hne) ?_
      intro n hn
      rw [List.mem_singleton] at hn
      subst hn
      rw [htake]
      exact hfit
    · refine .mk (by simp [Level]) ?_
      intro n hn
      rw [List.mem_singleton] at hn
      subst hn
      exact .mk hl hgc
    · simp only [pairs, pairsList, List.map_nil, List.nil_append, List.append_nil]
      rw [htake, text_drop, List.append_assoc, List.take_append_drop]

theorem good_push {value : α} {n : Node α} (h : Good buf n) : Good buf (n.push value) := by
  cases h with
  | mk hl hc => exact .mk hl hc

theorem at_new_ne {K key : Bytes} {value : α} (h : key ≠ K) : at_ key [(K, value)] = [] := by
  rw [List.filter_eq_nil_iff]
  intro e he
  rw [List.mem_singleton] at he
  subst he
  simpa using fun h' => h h'.symm

theorem at_push {P : Bytes} {n : Node α} {value : α} (hf : Fits buf P n) (key : Bytes) :
    at_ key (pairs buf P (n.push value)) = at_ key (pairs buf P n) ++ at_ key [(P ++ text buf n.string, value)] := by
  cases hf with
  | @mk _ s v c hs hv ht hc =>
  simp only [at_, Node.push, pairs, Node.string, List.filter_append, List.map_append, List.map_cons, List.map_nil]
  by_cases hkey : key = P ++ text buf s
  · have hz : (pairsList buf (P ++ text buf s) c).filter (fun e => e.1 == key) = [] := by
      rw [hkey]; exact filter_below ht hc
    rw [hz]
    simp
  · have := at_new_ne (value := value) hkey
    simp only [at_] at this
    rw [this, List.append_nil, List.append_nil]

/-- One of the nodes has been changed. -/
theorem replace_spec {P string : Bytes} {a b : List (Node α)} {n n' : Node α} {value : α}
    (hf : ∀ c ∈ a ++ n :: b, Fits buf P c) (hg : ∀ c ∈ a ++ n :: b, Good buf c) (hl : Level buf (a ++ n :: b))
    (hf' : Fits buf P n') (hg' : Good buf n') (hh : (text buf n'.string).head? = (text buf n.string).head?)
    (hs : string.head? = (text buf n.string).head?)
    (hperm : (pairs buf P n').Perm ((P ++ string, value) :: pairs buf P n))
    (hat : ∀ key, at_ key (pairs buf P n') = at_ key (pairs buf P n) ++ at_ key [(P ++ string, value)]) :
    (∀ c ∈ a ++ n' :: b, Fits buf P c) ∧ (∀ c ∈ a ++ n' :: b, Good buf c) ∧ Level buf (a ++ n' :: b) ∧
      (pairsList buf P (a ++ n' :: b)).Perm ((P ++ string, value) :: pairsList buf P (a ++ n :: b)) ∧
      ∀ key, at_ key (pairsList buf P (a ++ n' :: b)) =
        at_ key (pairsList buf P (a ++ n :: b)) ++ at_ key [(P ++ string, value)] := by
  have hpa := List.pairwise_append.1 hl
  have hpc := List.pairwise_cons.1 hpa.2.1
  refine ⟨?_, ?_, ?_, ?_, ?_⟩
  · intro c hc
    rcases List.mem_append.1 hc with h | h
    · exact hf c (by simp [h])
    · rcases List.mem_cons.1 h with h | h
      · rw [h]; exact hf'
      · exact hf c (by simp [h])
  · intro c hc
    rcases List.mem_append.1 hc with h | h
    · exact hg c (by simp [h])
    · rcases List.mem_cons.1 h with h | h
      · rw [h]; exact hg'
      · exact hg c (by simp [h])
  · refine List.pairwise_append.2 ⟨hpa.1, List.pairwise_cons.2 ⟨fun m hm => (hpc.1 m hm).congr hh rfl, hpc.2⟩, fun m hm d hd => ?_⟩
    rcases List.mem_cons.1 hd with h | h
    · rw [h]; exact (hpa.2.2 m hm n (by simp)).congr rfl hh
    · exact hpa.2.2 m hm d (by simp [h])
  · simp only [pairsList_append, pairsList]
    refine ((hperm.append_right _).append_left _).trans ?_
    exact List.perm_middle
  · intro key
    have h4 := hat key
    simp only [at_] at h4
    simp only [at_, pairsList_append, pairsList, List.filter_append, h4]
    by_cases hkey : key = P ++ string
    · have hz : (pairsList buf P b).filter (fun e => e.1 == key) = [] := by
        refine filter_brothers (h := (text buf n.string).head?) (fun n hn => hf n (by simp [hn]))
          (fun m hm => (hpc.1 m hm).ne.symm) (fun u hu => ?_)
        rw [hkey] at hu
        rw [← List.append_cancel_left hu, hs]
      rw [hz]
      simp
    · have := at_new_ne (value := value) hkey
      simp only [at_] at this
      rw [this]
      simp

theorem prefixLen_pos_head {a b : Bytes} (h : prefixLen a b ≠ 0) : a.head? = b.head? := by
  rcases Classical.em (a.head? = b.head?) with he | hne
  · exact he
  · exact absurd (prefixLen_head hne) h

/-- What the neighbours are. -/
theorem neighbourAt_spec {P : Bytes} {children : List (Node α)} (hf : ∀ c ∈ children, Fits buf P c) (string : Bytes)
    {a b : List (Node α)} (he : children = a ++ b) :
    (neighbourAt buf string children a.length = .ok none ∧
      (∀ a' c, a = a' ++ [c] → prefixLen (text buf c.string) string = 0) ∧
      (∀ c b', b = c :: b' → prefixLen (text buf c.string) string = 0)) ∨
    (∃ a' c b', children = a' ++ c :: b' ∧ prefixLen (text buf c.string) string ≠ 0 ∧
      neighbourAt buf string children a.length = .ok (some (a'.length, prefixLen (text buf c.string) string))) := by
  subst he
  have hb := fits_bounds hf
  have hafter : ∀ x : Except ZErr (Option (Nat × Nat)), x = (match (a ++ b)[a.length]? with
      | none => .ok none
      | some child =>
        match load buf child.string with
        | .error e => .error e
        | .ok text => let p := prefixLen text string; if p = 0 then .ok none else .ok (some (a.length, p))) →
      (x = .ok none ∧ (∀ c b', b = c :: b' → prefixLen (text buf c.string) string = 0)) ∨
      (∃ c b', b = c :: b' ∧ prefixLen (text buf c.string) string ≠ 0 ∧
        x = .ok (some (a.length, prefixLen (text buf c.string) string))) := by
    intro x hx
    subst hx
    cases b with
    | nil => left; simp
    | cons c b =>
      have hg : (a ++ c :: b)[a.length]? = some c := by simp
      rw [hg]
      dsimp only
      rw [load_ok (hb c (by simp))]
      dsimp only
      by_cases hp : prefixLen (text buf c.string) string = 0
      · left
        rw [if_pos hp]
        refine ⟨rfl, fun c' b' h => ?_⟩
        cases h
        exact hp
      · right
        rw [if_neg hp]
        exact ⟨c, b, rfl, hp, rfl⟩
  rcases List.eq_nil_or_concat a with ha | ⟨a', d, ha⟩
  · subst ha
    rcases hafter _ rfl with ⟨h1, h2⟩ | ⟨c, b', rfl, h1, h2⟩
    · left
      refine ⟨?_, by simp, h2⟩
      rw [← h1]; rfl
    · right
      refine ⟨[], c, b', rfl, h1, ?_⟩
      rw [← h2]; rfl
  · rw [List.concat_eq_append] at ha
    have hlen : a.length = a'.length + 1 := by rw [ha]; simp
    have hd : (a ++ b)[a'.length]? = some d := by rw [ha]; simp
    have hdb : load buf d.string = .ok (text buf d.string) := load_ok (hb d (by rw [ha]; simp))
    by_cases hp : prefixLen (text buf d.string) string = 0
    · have hstep : neighbourAt buf string (a ++ b) a.length = (match (a ++ b)[a.length]? with
          | none => .ok none
          | some child =>
            match load buf child.string with
            | .error e => .error e
            | .ok text => let p := prefixLen text string; if p = 0 then .ok none else .ok (some (a.length, p))) := by
        rw [hlen]
        simp only [neighbourAt, hd, hdb]
        exact if_pos hp
      rcases hafter _ hstep with ⟨h1, h2⟩ | ⟨c, b', rfl, h1, h2⟩
      · left
        refine ⟨h1, ?_, h2⟩
        intro a2 c h
        rw [ha] at h
        have := (List.append_inj' h rfl).2
        cases this
        exact hp
      · right
        exact ⟨a, c, b', rfl, h1, h2⟩
    · right
      refine ⟨a', d, b, by rw [ha]; simp, hp, ?_⟩
      rw [hlen]
      simp only [neighbourAt, hd, hdb]
      exact if_neg hp

/-- Inserting keeps brothers apart, and the value is the last one of its key. -/
theorem insertLoopC_spec (value : α) : ∀ (fuel : Nat) {P : Bytes} {string : SRef} {children : List (Node α)},
    (∀ c ∈ children, Fits buf P c) → (∀ c ∈ children, Good buf c) → Level buf children → At buf P string →
    (text buf string = [] → P = []) → string.len < fuel →
    ∃ children', insertLoopC buf value fuel string (text buf string) children = .ok children' ∧ children' ≠ [] ∧
      (∀ c ∈ children', Fits buf P c) ∧ (∀ c ∈ children', Good buf c) ∧ Level buf children' ∧
      (pairsList buf P children').Perm ((P ++ text buf string, value) :: pairsList buf P children) ∧
      ∀ key, at_ key (pairsList buf P children') =
        at_ key (pairsList buf P children) ++ at_ key [(P ++ text buf string, value)] := by
  intro fuel
  induction fuel with
  | zero => intro _ _ _ _ _ _ _ _ h; omega
  | succ fuel ih =>
    intro P string children hf hgood hlevel hs hP hfuel
    rcases search_sorted (text buf string) (fits_bounds hf) hlevel.sorted with ⟨a, c, b, rfl, hr, ht⟩ | ⟨a, b, he, hr, hlt, hgt⟩
    · -- found
      have hfc := hf c (by simp)
      refine ⟨a ++ c.push value :: b, ?_, by simp, ?_⟩
      · simp only [insertLoopC, hr]
        congr 1
        rw [List.modify_eq_take_cons_drop (by simp)]
        simp
      · refine replace_spec hf hgood hlevel (fits_push hfc) (good_push (hgood c (by simp))) ?_ (by rw [ht]) ?_ ?_
        · cases c; rfl
        · rw [← ht]; exact pairs_push buf P value c
        · rw [← ht]; exact at_push hfc
    · rcases neighbourAt_spec hf (text buf string) he with ⟨hn, hp1, hp2⟩ | ⟨a', c, b', hc, hp, hn⟩
      · -- a new node
        subst he
        have hpa := List.pairwise_append.1 hlevel
        have hbefore : ∀ m ∈ a, HeadLt (text buf m.string) (text buf string) := by
          intro m hm
          rcases List.eq_nil_or_concat a with rfl | ⟨a', last, rfl⟩
          · cases hm
          · rw [List.concat_eq_append] at hm hlt hp1 hpa
            have hlast : HeadLt (text buf last.string) (text buf string) :=
              headLt_of_lt (hlt last (by simp)) (hp1 a' last rfl)
            rcases List.mem_append.1 hm with hm | hm
            · exact ((List.pairwise_append.1 hpa.1).2.2 m hm last (by simp)).trans hlast
            · rw [List.mem_singleton] at hm
              subst hm
              exact hlast
        have hcomm : ∀ x y : Bytes, prefixLen x y = 0 → prefixLen y x = 0 := by
          intro x y h
          rcases Nat.decEq (prefixLen y x) 0 with h' | h'
          · have hh := prefixLen_pos_head h'
            cases y with
            | nil => simp [prefixLen] at h'
            | cons y ys =>
              cases x with
              | nil => simp [prefixLen] at h'
              | cons x xs =>
                have : y = x := by simpa using hh
                subst this
                simp [prefixLen] at h
          · exact h'
        have hafter : ∀ n ∈ b, HeadLt (text buf string) (text buf n.string) := by
          intro n hn
          cases b with
          | nil => cases hn
          | cons d b =>
            have hd : HeadLt (text buf string) (text buf d.string) := by
              refine headLt_of_lt ?_ (hcomm _ _ (hp2 d b rfl))
              rw [cmpBytes_swap, hgt d (by simp)]; rfl
            rcases List.mem_cons.1 hn with h | h
            · rw [h]; exact hd
            · exact hd.trans ((List.pairwise_cons.1 hpa.2.1).1 n h)
        refine ⟨a ++ leaf string value :: b, ?_, by simp, ?_, ?_, ?_, ?_, ?_⟩
        · simp only [insertLoopC, hr, hn]
          rw [insertIdx_append]
        · intro n hn
          rcases List.mem_append.1 hn with h | h
          · exact hf n (by simp [h])
          · rcases List.mem_cons.1 h with h | h
            · rw [h]; exact .mk hs (.inl (by simp)) (fun h => ⟨hP h, rfl⟩) (by simp)
            · exact hf n (by simp [h])
        · intro n hn
          rcases List.mem_append.1 hn with h | h
          · exact hgood n (by simp [h])
          · rcases List.mem_cons.1 h with h | h
            · rw [h]; exact .mk (by simp [Level]) (by simp)
            · exact hgood n (by simp [h])
        · refine List.pairwise_append.2 ⟨hpa.1, List.pairwise_cons.2 ⟨fun n hn => hafter n hn, hpa.2.1⟩, fun m hm n hn => ?_⟩
          rcases List.mem_cons.1 hn with h | h
          · rw [h]; exact hbefore m hm
          · exact hpa.2.2 m hm n h
        · simp only [pairsList_append, pairsList, pairs_leaf]
          exact List.perm_middle
        · intro key
          simp only [at_, pairsList_append, pairsList, pairs_leaf, List.filter_append]
          by_cases hkey : key = P ++ text buf string
          · have hb : (pairsList buf P b).filter (fun e => e.1 == key) = [] := by
              refine filter_brothers (h := (text buf string).head?) (fun n hn => hf n (by simp [hn]))
                (fun n hn => (hafter n hn).ne.symm) (fun u hu => ?_)
              rw [hkey] at hu
              rw [← List.append_cancel_left hu]
            rw [hb]
            simp
          · have := at_new_ne (value := value) hkey
            simp only [at_] at this
            rw [this]
            simp
      · -- below a node
        subst hc
        have hfc := hf c (by simp)
        have hgc := hgood c (by simp)
        obtain ⟨s, v, k⟩ := c
        simp only [Node.string] at hp hn
        have hle := prefixLen_le (text buf s) (text buf string)
        have htk := prefixLen_take (text buf s) (text buf string)
        have hsl := text_length (fits_at hfc).1
        simp only [Node.string] at hsl
        rw [hsl, text_length hs.1] at hle
        obtain ⟨s', v', k', hsplit, ht', hf', hg', hne', hpairs⟩ := Fits.good_split hfc hgc hle.1 hp
        have hhs : (text buf string).head? = (text buf s).head? := (prefixLen_pos_head hp).symm
        have hh' : (text buf s').head? = (text buf s).head? := by
          rw [ht']
          cases htx : text buf s with
          | nil => rfl
          | cons x xs =>
            rw [htx] at hp
            obtain ⟨m, hm⟩ : ∃ m, prefixLen (x :: xs) (text buf string) = m + 1 := ⟨_, (Nat.succ_pred_eq_of_ne_zero hp).symm⟩
            rw [hm]
            rfl
        have hget : (a' ++ Node.mk s v k :: b')[a'.length]? = some (.mk s v k) := by simp
        have hset : ∀ x, (a' ++ Node.mk s v k :: b').set a'.length x = a' ++ x :: b' := by intro x; simp
        have hlook : insertLoopC buf value (fuel + 1) string (text buf string) (a' ++ .mk s v k :: b') =
            if prefixLen (text buf s) (text buf string) = (text buf string).length then .ok (a' ++ .mk s' (v' ++ [value]) k' :: b')
            else match insertLoopC buf value fuel ⟨string.off + prefixLen (text buf s) (text buf string),
                string.len - prefixLen (text buf s) (text buf string)⟩
                ((text buf string).drop (prefixLen (text buf s) (text buf string))) k' with
              | .error e => .error e
              | .ok c' => .ok (a' ++ .mk s' v' c' :: b') := by
          simp only [insertLoopC, hr, hn, hget, hsplit, SRef.splitAt, if_pos hle.2, hset]
          rfl
        by_cases hq : prefixLen (text buf s) (text buf string) = (text buf string).length
        · rw [if_pos hq] at hlook
          have hts : text buf s' = text buf string := by
            rw [ht', htk, hq, List.take_length]
          refine ⟨_, hlook, by simp, ?_⟩
          refine replace_spec (n' := .mk s' (v' ++ [value]) k') hf hgood hlevel (fits_push hf') (good_push hg') hh' hhs ?_ ?_
          · rw [hpairs, ← hts]
            exact pairs_push buf P value (.mk s' v' k')
          · intro key
            rw [hpairs, ← hts]
            exact at_push hf' key
        · rw [if_neg hq] at hlook
          have htd := text_drop (buf := buf) (s := string) (prefixLen (text buf s) (text buf string))
          have hdrop := at_drop hs hle.2
          rw [← htk, ← ht'] at hdrop
          rw [← htd] at hlook
          have hkey : P ++ text buf string = P ++ text buf s' ++ text buf ⟨string.off + prefixLen (text buf s) (text buf string),
              string.len - prefixLen (text buf s) (text buf string)⟩ := by
            rw [htd, ht', htk, List.append_assoc, List.take_append_drop]
          have hrest : ∀ {x : Bytes}, text buf ⟨string.off + prefixLen (text buf s) (text buf string),
              string.len - prefixLen (text buf s) (text buf string)⟩ = [] → x = [] := by
            intro x h
            exfalso
            rw [htd] at h
            have := congrArg List.length h
            rw [List.length_drop] at this
            have := (prefixLen_le (text buf s) (text buf string)).2
            simp at *
            omega
          cases hf' with
          | mk hs' hv' hx' hk' =>
          cases hg' with
          | mk hl' hgk' =>
          obtain ⟨c'', h1, h0, h2, h3, h4, h5, h6⟩ := ih hk' hgk' hl' hdrop hrest (by simp only; omega)
          rw [h1] at hlook
          refine ⟨_, hlook, by simp, ?_⟩
          refine replace_spec (n' := .mk s' v' c'') hf hgood hlevel (.mk hs' (.inr h0) (fun h => absurd h hne') h2) (.mk h4 h3) hh' hhs ?_ ?_
          · rw [hpairs, hkey]
            simp only [pairs]
            refine (h5.append_left _).trans ?_
            exact List.perm_middle
          · intro key
            have h6 := h6 key
            simp only [at_] at h6
            rw [hpairs, hkey]
            simp only [at_, pairs, List.filter_append, h6, List.append_assoc]

/-! ## Looking up -/

theorem missing_ne {a b : List (Node α)} {string : Bytes}
    (hlt : ∀ n ∈ a, cmpBytes (text buf n.string) string = .lt)
    (hgt : ∀ n ∈ b, cmpBytes (text buf n.string) string = .gt) {n : Node α} (hn : n ∈ a ++ b) :
    text buf n.string ≠ string := by
  intro h
  rcases List.mem_append.1 hn with h' | h'
  · have := hlt n h'
    rw [h, cmpBytes_self] at this
    cases this
  · have := hgt n h'
    rw [h, cmpBytes_self] at this
    cases this

/-- A key, or none, is found. -/
theorem getLoopC_spec : ∀ (fuel : Nat) {P : Bytes} {children : List (Node α)} {string : Bytes},
    (∀ c ∈ children, Fits buf P c) → (∀ c ∈ children, Good buf c) → Level buf children → string.length < fuel →
    ∃ o, getLoopC buf fuel children string = .ok o ∧
      o.getD [] = ((pairsList buf P children).filter fun e => e.1 == P ++ string).map (·.2) := by
  intro fuel
  induction fuel with
  | zero => intro _ _ _ _ _ _ h; omega
  | succ fuel ih =>
    intro P children string hf hgood hlevel hfuel
    rcases search_sorted string (fits_bounds hf) hlevel.sorted with ⟨a, c, b, rfl, hr, hd⟩ | ⟨a, b, rfl, hr, hlt, hgt⟩
    · have hget : (a ++ c :: b)[a.length]? = some c := by simp
      refine ⟨some c.links.values, by simp only [getLoopC, hr, hget], ?_⟩
      rw [filter_level hf hlevel fun e hq u hu => by
        rw [hu] at hq
        simp only [beq_iff_eq, List.append_cancel_left_eq] at hq
        rw [hq, hd]]
      have hfc := hf c (by simp)
      cases hfc with
      | @mk _ s v k h1 hv hx hck =>
        simp only [Node.string] at hd
        rw [pairs, List.filter_append, ← hd, filter_below hx hck, List.append_nil]
        simp only [Node.links, Option.getD_some]
        rw [List.filter_eq_self.2 (by simp)]
        simp [Function.comp_def]
    · -- keys are below the node before
      have hchild : ∀ n ∈ a ++ b, ∀ e ∈ pairs buf P n, e.1 = P ++ string →
          (∃ a', a = a' ++ [n]) ∧ text buf n.string ≠ [] ∧ text buf n.string <+: string := by
        intro n hn e he hkey
        have hhead := pairs_head (hf n hn) he hkey
        obtain ⟨t, ht, htn⟩ := pairs_key (hf n hn) e he
        rw [hkey, List.append_assoc] at ht
        have ht := List.append_cancel_left ht
        have hne := missing_ne hlt hgt hn
        have htne : t ≠ [] := by
          intro h
          rw [h, List.append_nil] at ht
          exact hne ht.symm
        have hcl : cmpBytes (text buf n.string) string = .lt := by
          rw [cmpBytes_swap, ht, cmpBytes_longer _ htne]; rfl
        exact ⟨level_before hlevel hn hlt hgt (by rw [hcl]; simp) hhead.symm, fun h => htne (htn h), t, ht.symm⟩
      rcases List.eq_nil_or_concat a with ha | ⟨a', c, ha⟩
      · subst ha
        refine ⟨none, by simp only [getLoopC, hr, List.length_nil], ?_⟩
        rw [List.filter_eq_nil_iff.2]
        · rfl
        · intro e he hq
          obtain ⟨n, hn, he⟩ := pairsList_mem.1 he
          obtain ⟨⟨a', h⟩, _⟩ := hchild n hn e he (by simpa using hq)
          simp at h
      · rw [List.concat_eq_append] at ha
        subst ha
        have hlen : (a' ++ [c]).length = a'.length + 1 := by simp
        have hget : (a' ++ [c] ++ b)[a'.length]? = some c := by simp
        have hc : c ∈ a' ++ [c] ++ b := by simp
        have hfc := hf c hc
        have hgc := hgood c hc
        rw [hlen] at hr
        have heq : getLoopC buf (fuel + 1) (a' ++ [c] ++ b) string =
            if prefixLen (text buf c.string) string = 0 ∨
              prefixLen (text buf c.string) string ≠ (text buf c.string).length then .ok none
            else getLoopC buf fuel c.links.children (string.drop (prefixLen (text buf c.string) string)) := by
          simp only [getLoopC, hr, hget, load_ok (fits_at hfc).1]
        by_cases hp : prefixLen (text buf c.string) string = 0 ∨
            prefixLen (text buf c.string) string ≠ (text buf c.string).length
        · rw [if_pos hp] at heq
          refine ⟨none, heq, ?_⟩
          rw [List.filter_eq_nil_iff.2]
          · rfl
          · intro e he hq
            obtain ⟨n, hn, he⟩ := pairsList_mem.1 he
            obtain ⟨⟨a2, h⟩, hne, w, hw⟩ := hchild n hn e he (by simpa using hq)
            have := (List.append_inj' h rfl).2
            cases this
            rw [← hw, (prefixLen_append _ _).1] at hp
            rcases hp with hp | hp
            · exact hne (List.length_eq_zero_iff.1 hp)
            · exact hp rfl
        · rw [if_neg hp] at heq
          obtain ⟨hp0, hp1⟩ := not_or.1 hp
          have hp1 : prefixLen (text buf c.string) string = (text buf c.string).length := Classical.not_not.1 hp1
          have htk := prefixLen_take (text buf c.string) string
          rw [hp1, List.take_length] at htk
          obtain ⟨w, hw⟩ : ∃ w, string = text buf c.string ++ w :=
            ⟨string.drop (text buf c.string).length, by
              conv => lhs; rw [← List.take_append_drop (text buf c.string).length string, ← htk]⟩
          have hdrop : string.drop (text buf c.string).length = w := by rw [hw]; simp
          rw [hp1, hdrop] at heq
          have hwne : w ≠ [] := by
            intro h
            rw [h, List.append_nil] at hw
            exact missing_ne hlt hgt hc hw.symm
          have hhead := prefixLen_pos_head hp0
          have hflt := filter_level (P := P) (a := a') (b := b) (c := c) (q := fun e => e.1 == P ++ string)
            (by simpa using hf) (by simpa using hlevel) fun e hq u hu => by
              rw [hu] at hq
              simp only [beq_iff_eq, List.append_cancel_left_eq] at hq
              rw [hq, hhead]
          have hre : a' ++ c :: b = a' ++ [c] ++ b := by simp
          rw [hre] at hflt
          rw [heq, hflt]
          rw [hp1] at hp0
          cases hfc with
          | @mk _ s v k h1 hv hx hck =>
            cases hgc with
            | mk hgl hgk =>
              simp only [Node.string] at hw hp0
              have hstr : P ++ string = P ++ text buf s ++ w := by rw [hw, List.append_assoc]
              have hown : (v.map fun x => (P ++ text buf s, x)).filter (fun e => e.1 == P ++ string) = [] := by
                rw [List.filter_eq_nil_iff]
                intro e he
                obtain ⟨x, _, rfl⟩ := List.mem_map.1 he
                rw [hstr]
                simp [hwne]
              rw [pairs, List.filter_append, hown, List.nil_append, hstr]
              refine ih hck hgk hgl ?_
              have := congrArg List.length hw
              rw [List.length_append] at this
              omega

theorem neighbour_none {string : Bytes} : ∀ {l : List (Node α)}, (∀ c ∈ l, c.string.off + c.string.len ≤ buf.length) →
    neighbour buf string l = .ok none → ∀ c ∈ l, prefixLen (text buf c.string) string = 0
  | [], _, _ => by simp
  | c :: l, h, hn => by
    rw [neighbour, load_ok (h c (by simp))] at hn
    dsimp only at hn
    by_cases hp : prefixLen (text buf c.string) string = 0
    · rw [if_pos hp] at hn
      intro d hd
      rcases List.mem_cons.1 hd with hd | hd
      · rw [hd]; exact hp
      · exact neighbour_none (fun c hc => h c (by simp [hc])) hn d hd
    · rw [if_neg hp] at hn
      cases hn

/-- The node below which all keys with a prefix are, or none. -/
theorem findNodeC_spec : ∀ (fuel : Nat) {P : Bytes} {children : List (Node α)} {string : Bytes},
    (∀ c ∈ children, Fits buf P c) → (∀ c ∈ children, Good buf c) → Level buf children → string.length < fuel →
    string ≠ [] →
    (∃ n Q, findNodeC buf fuel children string P.length = .ok (some (n, Q.length)) ∧ Fits buf Q n ∧
      pairs buf Q n = (pairsList buf P children).filter (fun e => (P ++ string).isPrefixOf e.1)) ∨
    (findNodeC buf fuel children string P.length = .ok none ∧
      (pairsList buf P children).filter (fun e => (P ++ string).isPrefixOf e.1) = []) := by
  intro fuel
  induction fuel with
  | zero => intro _ _ _ _ _ _ h; omega
  | succ fuel ih =>
    intro P children string hf hgood hlevel hfuel hsne
    have hb := fits_bounds hf
    -- the first byte of a key with the prefix
    have hpre : ∀ e : Bytes × α, (P ++ string).isPrefixOf e.1 = true → ∀ u, e.1 = P ++ u → u.head? = string.head? := by
      intro e hq u hu
      rw [hu, List.isPrefixOf_iff_prefix, append_prefix] at hq
      obtain ⟨z, hz⟩ := hq
      rw [← hz, head_append hsne]
    have hall : ∀ c ∈ children, string <+: text buf c.string →
        (pairs buf P c).filter (fun e => (P ++ string).isPrefixOf e.1) = pairs buf P c := by
      intro c hc ⟨w, hw⟩
      rw [List.filter_eq_self]
      intro e he
      obtain ⟨t, h1, _⟩ := pairs_key (hf c hc) e he
      rw [List.isPrefixOf_iff_prefix, h1, ← hw]
      exact ⟨w ++ t, by simp⟩
    have hflt : ∀ c ∈ children, (text buf c.string).head? = string.head? →
        (pairsList buf P children).filter (fun e => (P ++ string).isPrefixOf e.1) =
          (pairs buf P c).filter fun e => (P ++ string).isPrefixOf e.1 := by
      intro c hc hh
      obtain ⟨a, b, rfl⟩ := List.append_of_mem hc
      exact filter_level hf hlevel fun e hq u hu => by rw [hh]; exact hpre e hq u hu
    rcases search_sorted string hb hlevel.sorted with ⟨a, c, b, rfl, hr, hd⟩ | ⟨a, b, rfl, hr, hlt, hgt⟩
    · left
      have hc : c ∈ a ++ c :: b := by simp
      refine ⟨c, P, ?_, hf c hc, ?_⟩
      · simp only [findNodeC, hr]
        simp
      · rw [hflt c hc (by rw [hd]), hall c hc (by rw [hd]; exact List.prefix_refl _)]
    · have hnb : ∀ c ∈ neighbours (a ++ b) a.length, c.string.off + c.string.len ≤ buf.length :=
        fun c hc => hb c (neighbours_mem c hc)
      rcases neighbour_any (string := string) hnb with hn | ⟨c, hcn, hn, hp⟩
      · right
        refine ⟨by simp only [findNodeC, hr, hn], ?_⟩
        rw [List.filter_eq_nil_iff]
        intro e he hq
        obtain ⟨n, hn', he⟩ := pairsList_mem.1 he
        obtain ⟨t, h1, _⟩ := pairs_key (hf n hn') e he
        rw [List.append_assoc] at h1
        have hh : (text buf n.string).head? = string.head? :=
          (pairs_head (hf n hn') he h1).symm.trans (hpre e hq _ h1)
        have hmem : n ∈ neighbours (a ++ b) a.length := by
          rw [neighbours]
          rcases List.mem_append.1 hn' with h | h
          · obtain ⟨a', rfl⟩ := level_before hlevel hn' hlt hgt (by rw [hlt n h]; simp) hh
            simp
          · obtain ⟨b', rfl⟩ := level_after hlevel hn' hlt hgt (by rw [hgt n h]; simp) hh
            simp
        have hz := neighbour_none hnb hn n hmem
        obtain ⟨x, xs, rfl⟩ := List.exists_cons_of_ne_nil hsne
        cases htx : text buf n.string with
        | nil => rw [htx] at hh; cases hh
        | cons y ys =>
          rw [htx] at hh hz
          cases hh
          simp [prefixLen] at hz
      · have hc := neighbours_mem c hcn
        have hfc := hf c hc
        have hgc := hgood c hc
        have hh := prefixLen_pos_head hp
        have hle := prefixLen_le (text buf c.string) string
        have htk := prefixLen_take (text buf c.string) string
        have hcl := text_length (hb c hc)
        have heq : findNodeC buf (fuel + 1) (a ++ b) string P.length =
            if prefixLen (text buf c.string) string = string.length then .ok (some (c, P.length))
            else if prefixLen (text buf c.string) string = c.string.len then
              findNodeC buf fuel c.links.children (string.drop (prefixLen (text buf c.string) string))
                (P.length + prefixLen (text buf c.string) string)
            else .ok none := by
          simp only [findNodeC, hr, hn]
        rw [hflt c hc hh, heq]
        by_cases h1 : prefixLen (text buf c.string) string = string.length
        · left
          refine ⟨c, P, if_pos h1, hfc, ?_⟩
          rw [hall c hc]
          rw [h1, List.take_length] at htk
          rw [← htk]
          exact List.take_prefix _ _
        · rw [if_neg h1]
          by_cases h2 : prefixLen (text buf c.string) string = c.string.len
          · rw [if_pos h2]
            rw [h2, ← hcl, List.take_length] at htk
            obtain ⟨w, hw⟩ : ∃ w, string = text buf c.string ++ w :=
              ⟨string.drop (text buf c.string).length, by
                conv => lhs; rw [← List.take_append_drop (text buf c.string).length string, ← htk]⟩
            have hdrop : string.drop (prefixLen (text buf c.string) string) = w := by
              rw [h2, ← hcl, hw]; simp
            have hwne : w ≠ [] := by
              intro h
              rw [h, List.append_nil] at hw
              exact missing_ne hlt hgt hc hw.symm
            have hstr : P ++ string = P ++ text buf c.string ++ w := by rw [hw, List.append_assoc]
            rw [hdrop, h2, hstr]
            rw [h2] at hp
            cases hfc with
            | @mk _ s v k hs hv hx hck =>
              cases hgc with
              | mk hgl hgk =>
                simp only [Node.string] at hw hp hcl
                simp only [Node.string, Node.links]
                have hown : (v.map fun x => (P ++ text buf s, x)).filter
                    (fun e => (P ++ text buf s ++ w).isPrefixOf e.1) = [] := by
                  rw [List.filter_eq_nil_iff]
                  intro e he
                  obtain ⟨x, _, rfl⟩ := List.mem_map.1 he
                  rw [List.isPrefixOf_iff_prefix]
                  intro hpre
                  have := hpre.length_le
                  simp only [List.length_append] at this
                  have : 0 < w.length := List.length_pos_iff.2 hwne
                  omega
                rw [pairs, List.filter_append, hown, List.nil_append]
                have hrec := ih (P := P ++ text buf s) hck hgk hgl (string := w) (by
                  have := congrArg List.length hw
                  rw [List.length_append] at this
                  omega) hwne
                rw [List.length_append, hcl] at hrec
                exact hrec
          · right
            refine ⟨if_neg h2, ?_⟩
            rw [List.filter_eq_nil_iff]
            intro e he hq
            obtain ⟨t, h3, _⟩ := pairs_key hfc e he
            rw [h3, List.isPrefixOf_iff_prefix, List.append_assoc, append_prefix] at hq
            rcases Nat.le_total string.length (text buf c.string).length with hl | hl
            · obtain ⟨w, hw⟩ := List.prefix_of_prefix_length_le hq (List.prefix_append _ t) hl
              rw [← hw, (prefixLen_append _ _).2] at h1
              exact h1 rfl
            · obtain ⟨w, hw⟩ := List.prefix_of_prefix_length_le (List.prefix_append _ t) hq hl
              rw [← hw, (prefixLen_append _ _).1] at h2
              exact h2 hcl

end
end Musli.Zero.Trie
