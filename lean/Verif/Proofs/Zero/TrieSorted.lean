import Verif.Proofs.Zero.TrieWalk
/-! Tries whose strings were inserted in an order in which no brothers have a common prefix. -/
set_option linter.unusedSectionVars false
namespace Musli.Zero.Trie
open Musli Musli.Zero

/-! ## First bytes -/

/-- The first byte of one string is smaller, or there is none. -/
def HeadLt (a b : Bytes) : Prop := ∃ y, b.head? = some y ∧ ∀ x, a.head? = some x → x.toNat < y.toNat

theorem HeadLt.trans {a b c : Bytes} (h1 : HeadLt a b) (h2 : HeadLt b c) : HeadLt a c := by
  obtain ⟨y, hy, h1⟩ := h1
  obtain ⟨z, hz, h2⟩ := h2
  refine ⟨z, hz, fun x hx => ?_⟩
  have := h1 x hx
  have := h2 y hy
  omega

theorem HeadLt.cmp {a b : Bytes} (h : HeadLt a b) : cmpBytes a b = .lt := by
  obtain ⟨y, hy, h⟩ := h
  cases b with
  | nil => cases hy
  | cons b bs =>
    cases hy
    cases a with
    | nil => rfl
    | cons a as => rw [cmpBytes, if_pos (h a rfl)]

theorem HeadLt.congr {a b a' b' : Bytes} (h : HeadLt a b) (ha : a'.head? = a.head?) (hb : b'.head? = b.head?) :
    HeadLt a' b' := by
  obtain ⟨y, hy, h⟩ := h
  exact ⟨y, by rw [hb, hy], fun x hx => h x (by rw [← ha, hx])⟩

theorem HeadLt.ne {a b : Bytes} (h : HeadLt a b) : a.head? ≠ b.head? := by
  obtain ⟨y, hy, h⟩ := h
  intro he
  have := h y (by rw [he, hy])
  omega

theorem headLt_of_lt {a b : Bytes} (h : cmpBytes a b = .lt) (hp : prefixLen a b = 0) : HeadLt a b := by
  cases b with
  | nil => cases a <;> simp [cmpBytes] at h
  | cons b bs =>
    refine ⟨b, rfl, fun x hx => ?_⟩
    cases a with
    | nil => cases hx
    | cons a as =>
      have hx : a = x := by simpa using hx
      subst hx
      rw [prefixLen] at hp
      rw [cmpBytes] at h
      by_cases hab : a.toNat < b.toNat
      · exact hab
      · rw [if_neg hab] at h
        split at h
        · cases h
        · have : a = b := BitVec.eq_of_toNat_eq (by omega)
          rw [if_pos this] at hp
          omega

theorem prefixLen_head {a b : Bytes} (h : a.head? ≠ b.head?) : prefixLen a b = 0 := by
  cases a with
  | nil => rfl
  | cons a as =>
    cases b with
    | nil => rfl
    | cons b bs =>
      rw [prefixLen, if_neg]
      intro hab
      exact h (by rw [hab]; rfl)

theorem prefixLen_append : ∀ (a t : Bytes), prefixLen a (a ++ t) = a.length ∧ prefixLen (a ++ t) a = a.length
  | [], t => by cases t <;> simp [prefixLen]
  | x :: a, t => by
    have := prefixLen_append a t
    simp [prefixLen, this]

theorem cmpBytes_gt_append {a b : Bytes} (t : Bytes) (h : cmpBytes a b = .gt) : cmpBytes (a ++ t) b = .gt := by
  induction a generalizing b with
  | nil => cases b <;> simp [cmpBytes] at h
  | cons x a ih =>
    cases b with
    | nil => rfl
    | cons y b =>
      rw [cmpBytes] at h
      rw [List.cons_append, cmpBytes]
      by_cases h1 : x.toNat < y.toNat
      · rw [if_pos h1] at h; cases h
      · rw [if_neg h1] at h ⊢
        by_cases h2 : y.toNat < x.toNat
        · rw [if_pos h2]
        · rw [if_neg h2] at h ⊢; exact ih h

theorem cmpBytes_longer (a : Bytes) {t : Bytes} (h : t ≠ []) : cmpBytes (a ++ t) a = .gt := by
  obtain ⟨x, t, rfl⟩ := List.exists_cons_of_ne_nil h
  have := cmpBytes_append a (x :: t) []
  rw [List.append_nil] at this
  rw [this]; rfl

/-- The order of the model is that of lists. -/
theorem cmpBytes_lt_iff : ∀ {a b : Bytes}, cmpBytes a b = .lt ↔ a < b
  | [], [] => by simp [cmpBytes]
  | [], _ :: _ => by simp [cmpBytes]
  | _ :: _, [] => by simp [cmpBytes]
  | a :: as, b :: bs => by
    have ih := cmpBytes_lt_iff (a := as) (b := bs)
    rw [cmpBytes, List.cons_lt_cons_iff, ← ih, BitVec.lt_def]
    by_cases h1 : a.toNat < b.toNat
    · simp [h1]
    · by_cases h2 : b.toNat < a.toNat
      · have : a ≠ b := by intro h; rw [h] at h2; omega
        simp [h1, h2, this]
      · have : a = b := BitVec.eq_of_toNat_eq (by omega)
        simp [this]

theorem cmpBytes_le {a b : Bytes} (h : a ≤ b) : cmpBytes a b ≠ .gt := by
  intro hc
  have : cmpBytes b a = .lt := by rw [cmpBytes_swap, hc]; rfl
  exact List.not_lt.2 h (cmpBytes_lt_iff.1 this)

section
variable {α : Type} {buf : Bytes}

/-- Brothers have strings with distinct and increasing first bytes. -/
def Level (buf : Bytes) (c : List (Node α)) : Prop :=
  c.Pairwise fun m n => HeadLt (text buf m.string) (text buf n.string)

inductive Good (buf : Bytes) : Node α → Prop
  | mk {s : SRef} {v : List α} {c : List (Node α)} (hl : Level buf c) (hc : ∀ n ∈ c, Good buf n) :
      Good buf (.mk s v c)

theorem Level.sorted {c : List (Node α)} (h : Level buf c) :
    c.Pairwise fun m n => cmpBytes (text buf m.string) (text buf n.string) = .lt := h.imp fun h => h.cmp

theorem level_append {a b P : Bytes} {c : List (Node α)} (hf : ∀ n ∈ c, Fits a P n) (h : Level a c) :
    Level (a ++ b) c := by
  refine List.Pairwise.imp_of_mem (fun {m n} hm hn h => ?_) h
  rw [text_append (fits_at (hf m hm)), text_append (fits_at (hf n hn))]
  exact h

theorem good_append {a b P : Bytes} {n : Node α} (hf : Fits a P n) : Good a n → Good (a ++ b) n := by
  induction hf with
  | mk h hv ht hc ih =>
    intro hg
    cases hg with
    | mk hl hgc => exact .mk (level_append hc hl) fun n hn => ih n hn (hgc n hn)

/-- A key in a tree has its root's first byte. -/
theorem pairs_head {P : Bytes} {n : Node α} (h : Fits buf P n) {e : Bytes × α} (he : e ∈ pairs buf P n) {u : Bytes}
    (hu : e.1 = P ++ u) : u.head? = (text buf n.string).head? := by
  obtain ⟨t, h1, h2⟩ := pairs_key h e he
  rw [hu, List.append_assoc] at h1
  have := List.append_cancel_left h1
  rw [this]
  cases htx : text buf n.string with
  | nil => rw [h2 htx]; rfl
  | cons x xs => rfl

theorem append_prefix {P p k : Bytes} : P ++ p <+: P ++ k ↔ p <+: k := List.prefix_append_right_inj P

/-- For what a key and a greater one have in common, there is a key which is not greater. -/
def Ordered (keys : Bytes → Prop) (P string : Bytes) : Prop :=
  ∀ p, p ≠ [] → p <+: string → (∃ k, keys k ∧ cmpBytes k (P ++ string) = .gt ∧ P ++ p <+: k) →
    ∃ k, keys k ∧ cmpBytes k (P ++ string) ≠ .gt ∧ P ++ p <+: k

/-- The keys in some trees. -/
def Key (buf P : Bytes) (c : List (Node α)) (k : Bytes) : Prop := ∃ e ∈ pairsList buf P c, e.1 = k

theorem key_exists {P : Bytes} {n : Node α} (h : Fits buf P n) :
    ∃ e ∈ pairs buf P n, ∃ t, e.1 = P ++ (text buf n.string ++ t) := by
  obtain ⟨e, l, he⟩ := List.exists_cons_of_ne_nil (pairs_ne_nil h)
  have hmem : e ∈ pairs buf P n := by rw [he]; simp
  obtain ⟨t, h1, _⟩ := pairs_key h e hmem
  exact ⟨e, hmem, t, by rw [h1, List.append_assoc]⟩

/-- Brothers have no keys with the same first byte. -/
theorem brother_key {children : List (Node α)} (hl : Level buf children)
    {m n : Node α} (hm : m ∈ children) (hn : n ∈ children)
    (h : (text buf m.string).head? = (text buf n.string).head?) : m = n := by
  obtain ⟨i, hi, rfl⟩ := List.mem_iff_getElem.1 hm
  obtain ⟨j, hj, rfl⟩ := List.mem_iff_getElem.1 hn
  have hp := List.pairwise_iff_getElem.1 hl
  rcases Nat.lt_trichotomy i j with hij | rfl | hij
  · exact absurd h (hp i j hi hj hij).ne
  · rfl
  · exact absurd h.symm (hp j i hj hi hij).ne

theorem filter_brothers {P key : Bytes} {b : List (Node α)} {h : Option (BitVec 8)} (hf : ∀ c ∈ b, Fits buf P c)
    (hne : ∀ c ∈ b, (text buf c.string).head? ≠ h) (hk : ∀ u, key = P ++ u → u.head? = h) :
    (pairsList buf P b).filter (fun e => e.1 == key) = [] := by
  rw [List.filter_eq_nil_iff]
  intro e he
  obtain ⟨n, hn, he⟩ := pairsList_mem.1 he
  obtain ⟨t, h1, _⟩ := pairs_key (hf n hn) e he
  rw [List.append_assoc] at h1
  simp only [beq_iff_eq]
  intro heq
  exact hne n hn ((pairs_head (hf n hn) he h1).symm.trans (hk _ (by rw [← heq, h1])))

/-- Below a node there are only longer keys. -/
theorem filter_below {P : Bytes} {s : SRef} {c : List (Node α)} (ht : text buf s = [] → P = [] ∧ c = [])
    (hc : ∀ n ∈ c, Fits buf (P ++ text buf s) n) :
    (pairsList buf (P ++ text buf s) c).filter (fun e => e.1 == P ++ text buf s) = [] := by
  rw [List.filter_eq_nil_iff]
  intro e he
  obtain ⟨n, hn, he⟩ := pairsList_mem.1 he
  obtain ⟨t, h1, h2⟩ := pairs_key (hc n hn) e he
  rw [h1]
  simp
  intro hnt
  cases hc n hn with
  | mk _ _ hnx _ =>
    have := hnx hnt
    simp at this
    have hk := (ht this.1.2).2
    rw [hk] at hn
    cases hn

/-- Values of one key. -/
abbrev at_ (key : Bytes) (l : List (Bytes × α)) : List (Bytes × α) := l.filter fun e => e.1 == key

theorem head_append {a t : Bytes} (h : a ≠ []) : (a ++ t).head? = a.head? := by
  obtain ⟨x, xs, rfl⟩ := List.exists_cons_of_ne_nil h; rfl

/-- Inserting keeps brothers apart, and the value is the last one of its key. -/
theorem insertLoop_ordered (value : α) : ∀ (fuel : Nat) {P : Bytes} {string : SRef} {children : List (Node α)},
    (∀ c ∈ children, Fits buf P c) → (∀ c ∈ children, Good buf c) → Level buf children → At buf P string →
    (text buf string = [] → P = []) → string.len < fuel → Ordered (Key buf P children) P (text buf string) →
    ∃ children', insertLoop buf value fuel string (text buf string) children = .ok children' ∧
      (∀ c ∈ children', Good buf c) ∧ Level buf children' ∧
      ∀ key, at_ key (pairsList buf P children') =
        at_ key (pairsList buf P children) ++ at_ key [(P ++ text buf string, value)] := by
  intro fuel
  induction fuel with
  | zero => intro _ _ _ _ _ _ _ _ h; omega
  | succ fuel ih =>
    intro P string children hf hgood hlevel hs hP hfuel hord
    have hsorted := search_sorted (text buf string) (fits_bounds hf) hlevel.sorted
    rcases insertLoop_step value fuel hf hs with ⟨a, c, b, rfl, ht, hse, hr⟩ | ⟨a, b, rfl, hp0, hse, hr⟩ |
      ⟨a, s, v, c, b, s', v', c', string', p, rfl, hse, rfl, hp, hpl, ht1, ht2, hne, ht3, hat, hat', hc', hpairs, hsplit, hr⟩
    · -- found
      have hfc := hf c (by simp)
      have hgc := hgood c (by simp)
      have hpa := List.pairwise_append.1 hlevel
      have hpc := List.pairwise_cons.1 hpa.2.1
      obtain ⟨s, v, c⟩ := c
      refine ⟨_, hr, ?_, ?_, ?_⟩
      · intro n hn
        rcases List.mem_append.1 hn with hn | hn
        · exact hgood n (by simp [hn])
        · rcases List.mem_cons.1 hn with rfl | hn
          · cases hgc with
            | mk hl hc => exact .mk hl hc
          · exact hgood n (by simp [hn])
      · refine List.pairwise_append.2 ⟨hpa.1, List.pairwise_cons.2 ⟨fun n hn => hpc.1 n hn, hpc.2⟩, fun m hm n hn => ?_⟩
        rcases List.mem_cons.1 hn with rfl | hn
        · exact hpa.2.2 m hm (.mk s v c) (by simp)
        · exact hpa.2.2 m hm n (by simp [hn])
      · intro key
        simp only [Node.string] at ht
        simp only [at_, pairsList_append, pairsList, Node.push, pairs, List.filter_append, List.map_append]
        by_cases hkey : key = P ++ text buf string
        · have hb : (pairsList buf P b).filter (fun e => e.1 == key) = [] := by
            refine filter_brothers (h := (text buf s).head?) (fun n hn => hf n (by simp [hn]))
              (fun n hn => (hpc.1 n hn).ne.symm) (fun u hu => ?_)
            rw [hkey] at hu
            rw [← List.append_cancel_left hu, ht]
          have hc : (pairsList buf (P ++ text buf s) c).filter (fun e => e.1 == key) = [] := by
            cases hfc with
            | mk _ _ hx hc => rw [hkey, ← ht]; exact filter_below hx hc
          rw [hb, hc, ← ht]
          simp
        · have hnew : ([(P ++ text buf string, value)] : List (Bytes × α)).filter (fun e => e.1 == key) = [] := by
            rw [List.filter_eq_nil_iff]
            intro e he
            rw [List.mem_singleton] at he
            subst he
            simpa using fun h => hkey h.symm
          rw [ht]
          simp only [List.map_cons, List.map_nil]
          rw [hnew, List.append_nil, List.append_nil]
    · -- a new node
      rcases hsorted with ⟨a2, _, _, _, hse2, _⟩ | ⟨a2, b2, he, hse2, hlt, hgt⟩
      · rw [hse] at hse2; cases hse2
      rw [hse] at hse2
      have hlen : a.length = a2.length := by injection hse2 with h; injection h
      obtain ⟨rfl, rfl⟩ := List.append_inj he hlen
      have hpa := List.pairwise_append.1 hlevel
      have hbefore : ∀ m ∈ a, HeadLt (text buf m.string) (text buf string) := by
        intro m hm
        rcases List.eq_nil_or_concat a with rfl | ⟨a', last, rfl⟩
        · cases hm
        · rw [List.concat_eq_append] at hm hlt hp0 hpa
          have hlast : HeadLt (text buf last.string) (text buf string) :=
            headLt_of_lt (hlt last (by simp)) (hp0 a' last rfl)
          rcases List.mem_append.1 hm with hm | hm
          · exact ((List.pairwise_append.1 hpa.1).2.2 m hm last (by simp)).trans hlast
          · rw [List.mem_singleton] at hm
            subst hm
            exact hlast
      have hafter : ∀ n ∈ b, HeadLt (text buf string) (text buf n.string) := by
        intro n hn
        have hg := hgt n hn
        have hlt' : cmpBytes (text buf string) (text buf n.string) = .lt := by rw [cmpBytes_swap, hg]; rfl
        refine headLt_of_lt hlt' ?_
        -- a common prefix would be one with an earlier key, too
        rcases Nat.eq_zero_or_pos (prefixLen (text buf string) (text buf n.string)) with h | h
        · exact h
        · exfalso
          cases hx : text buf string with
          | nil => rw [hx] at h; simp [prefixLen] at h
          | cons x xs =>
            have hnh : (text buf n.string).head? = some x := by
              cases hy : text buf n.string with
              | nil => rw [hy, hx] at h; simp [prefixLen] at h
              | cons y ys =>
                rw [hx, hy, prefixLen] at h
                split at h
                · next hxy => rw [hxy]; rfl
                · omega
            obtain ⟨e, he, t, hkey⟩ := key_exists (hf n (by simp [hn]))
            obtain ⟨k, ⟨e', he', rfl⟩, hle, hpre⟩ := hord [x] (by simp) (by rw [hx]; simp)
              ⟨e.1, ⟨e, pairsList_mem.2 ⟨n, by simp [hn], he⟩, rfl⟩, by
                rw [hkey, cmpBytes_append]; exact cmpBytes_gt_append t hg, by
                rw [hkey, append_prefix]
                cases hy : text buf n.string with
                | nil => rw [hy] at hnh; cases hnh
                | cons y ys => rw [hy] at hnh; cases hnh; simp⟩
            obtain ⟨m, hm, he'⟩ := pairsList_mem.1 he'
            obtain ⟨w, hw⟩ := hpre
            have hmh : (text buf m.string).head? = some x := by
              have := pairs_head (hf m hm) he' (u := [x] ++ w) (by rw [← hw]; simp)
              rw [← this]; rfl
            -- it is before the string, or after
            have hmn : m = n := brother_key hlevel hm (by simp [hn]) (by rw [hmh, hnh])
            subst hmn
            obtain ⟨t', h1, _⟩ := pairs_key (hf m hm) e' he'
            refine hle ?_
            rw [h1, List.append_assoc, cmpBytes_append]
            exact cmpBytes_gt_append t' hg
      refine ⟨_, hr, ?_, ?_, ?_⟩
      · intro n hn
        rcases List.mem_append.1 hn with hn | hn
        · exact hgood n (by simp [hn])
        · rcases List.mem_cons.1 hn with rfl | hn
          · exact .mk (by simp [Level]) (by simp)
          · exact hgood n (by simp [hn])
      · refine List.pairwise_append.2 ⟨hpa.1, List.pairwise_cons.2 ⟨fun n hn => hafter n hn, hpa.2.1⟩, fun m hm n hn => ?_⟩
        rcases List.mem_cons.1 hn with rfl | hn
        · exact hbefore m hm
        · exact hpa.2.2 m hm n hn
      · intro key
        simp only [at_, pairsList_append, pairsList, pairs_leaf, List.filter_append]
        by_cases hkey : key = P ++ text buf string
        · have hb : (pairsList buf P b).filter (fun e => e.1 == key) = [] := by
            refine filter_brothers (h := (text buf string).head?) (fun n hn => hf n (by simp [hn]))
              (fun n hn => (hafter n hn).ne.symm) (fun u hu => ?_)
            rw [hkey] at hu
            rw [← List.append_cancel_left hu]
          rw [hb]
          simp
        · have hnew : ([(P ++ text buf string, value)] : List (Bytes × α)).filter (fun e => e.1 == key) = [] := by
            rw [List.filter_eq_nil_iff]
            intro e he
            rw [List.mem_singleton] at he
            subst he
            simpa using fun h => hkey h.symm
          rw [hnew]
          simp
    · -- below a node
      have hgc := hgood (.mk s v c) (by simp)
      have hfc := hf (.mk s v c) (by simp)
      have hpa := List.pairwise_append.1 hlevel
      have hpc := List.pairwise_cons.1 hpa.2.1
      have hkeys : P ++ text buf string = P ++ text buf s' ++ text buf string' := by
        rw [ht3, ht2, List.append_assoc, List.take_append_drop]
      have hstr : text buf string = text buf s' ++ text buf string' := by
        rw [ht3, ht2, List.take_append_drop]
      have hheads : (text buf s').head? = (text buf s).head? := by
        rw [ht1]
        cases htx : text buf s with
        | nil => rfl
        | cons x xs =>
          rw [htx] at hp
          obtain ⟨k, hk⟩ : ∃ k, prefixLen (x :: xs) (text buf string) = k + 1 :=
            ⟨_, (Nat.succ_pred_eq_of_ne_zero hp).symm⟩
          rw [hk]
          rfl
      have hrest : text buf string' = [] → P ++ text buf s' = [] := by
        intro h
        have hl := congrArg List.length ht3
        rw [h, List.length_drop, text_length hs.1] at hl
        simp at hl
        omega
      have hgood' : (∀ n ∈ c', Good buf n) ∧ Level buf c' := by
        rcases hsplit with ⟨_, rfl, rfl, rfl⟩ | ⟨_, rfl, s'', _, rfl⟩
        · cases hgc with
          | mk hl hc => exact ⟨hc, hl⟩
        · refine ⟨fun n hn => ?_, by simp [Level]⟩
          rw [List.mem_singleton] at hn
          subst hn
          cases hgc with
          | mk hl hc => exact .mk hl hc
      have hfuel' : string'.len < fuel := by
        rw [← text_length hat'.1, ht3, List.length_drop, text_length hs.1]; omega
      have hord' : Ordered (Key buf (P ++ text buf s') c') (P ++ text buf s') (text buf string') := by
        intro p hpne hpre ⟨k, ⟨e, he, hek⟩, hkgt, hkpre⟩
        subst hek
        obtain ⟨k', ⟨e', he', rfl⟩, hle, hpre'⟩ := hord (text buf s' ++ p) (by simp [hpne])
          (by rw [hstr, append_prefix]; exact hpre)
          ⟨e.1, ⟨e, by rw [pairsList_append, pairsList, hpairs, pairs]; simp [he], rfl⟩, by rw [hkeys]; exact hkgt, by
            rw [← List.append_assoc]; exact hkpre⟩
        refine ⟨e'.1, ⟨e', ?_, rfl⟩, by rw [← hkeys]; exact hle, by rw [List.append_assoc]; exact hpre'⟩
        obtain ⟨m, hm, he'⟩ := pairsList_mem.1 he'
        obtain ⟨w, hw⟩ := hpre'
        have hmh : (text buf m.string).head? = (text buf s).head? := by
          have := pairs_head (hf m hm) he' (u := text buf s' ++ p ++ w) (by rw [← hw]; simp)
          rw [← this, List.append_assoc, head_append hne, hheads]
        have hmn : m = .mk s v c := brother_key hlevel hm (by simp) hmh
        subst hmn
        rw [hpairs, pairs] at he'
        rcases List.mem_append.1 he' with h | h
        · exfalso
          obtain ⟨x, _, rfl⟩ := List.mem_map.1 h
          have hl := congrArg List.length hw
          simp only [List.length_append] at hl
          have : 0 < p.length := List.length_pos_iff.2 hpne
          omega
        · exact h
      obtain ⟨c'', h1, h2, h3, h4⟩ := ih hc' hgood'.1 hgood'.2 hat' hrest hfuel' hord'
      rw [ht3] at h1
      rw [h1] at hr
      refine ⟨_, hr, ?_, ?_, ?_⟩
      · intro n hn
        rcases List.mem_append.1 hn with hn | hn
        · exact hgood n (by simp [hn])
        · rcases List.mem_cons.1 hn with rfl | hn
          · exact .mk h3 h2
          · exact hgood n (by simp [hn])
      · refine List.pairwise_append.2 ⟨hpa.1, List.pairwise_cons.2 ⟨fun n hn => ?_, hpc.2⟩, fun m hm n hn => ?_⟩
        · exact (hpc.1 n hn).congr hheads rfl
        · rcases List.mem_cons.1 hn with rfl | hn
          · exact (hpa.2.2 m hm (.mk s v c) (by simp)).congr rfl hheads
          · exact hpa.2.2 m hm n (by simp [hn])
      · intro key
        have h4 := h4 key
        simp only [at_] at h4
        simp only [at_, pairsList_append, pairsList, hpairs]
        simp only [pairs, List.filter_append, h4, hkeys]
        by_cases hkey : key = P ++ text buf s' ++ text buf string'
        · have hb : (pairsList buf P b).filter (fun e => e.1 == key) = [] := by
            refine filter_brothers (h := (text buf s').head?) (fun n hn => hf n (by simp [hn]))
              (fun n hn => by rw [hheads]; exact (hpc.1 n hn).ne.symm) (fun u hu => ?_)
            rw [hkey, List.append_assoc] at hu
            rw [← List.append_cancel_left hu, head_append hne]
          rw [hb]
          simp
        · have hnew : ([(P ++ text buf s' ++ text buf string', value)] : List (Bytes × α)).filter (fun e => e.1 == key) = [] := by
            rw [List.filter_eq_nil_iff]
            intro e he
            rw [List.mem_singleton] at he
            subst he
            simpa using fun h => hkey (by rw [← h, List.append_assoc])
          rw [hnew]
          simp

end
end Musli.Zero.Trie
