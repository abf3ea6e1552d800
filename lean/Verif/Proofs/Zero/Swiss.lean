import Verif.Proofs.Zero.Table
/-!
# Insertion and lookup
-/
namespace Musli.Zero.Swiss
open Musli

/-- All buckets of the group are full. -/
def NoEmpty (W B : Nat) (c : Nat → Byte) (p : Nat) : Prop := W ≤ B ∧ ∀ r, r < W → c ((p + r) % B) ≠ empty

/-- The position of the `J`th group for this hash. -/
def hpos (W B : Nat) (h : BitVec 64) (J : Nat) : Nat := posAt W B (h.toNat % B) J

theorem hpos_lt {W B : Nat} (hB : 0 < B) (h : BitVec 64) (J : Nat) : hpos W B h J < B :=
  posAt_lt W B _ (Nat.mod_lt _ hB) J

theorem probe_start (b : Nat) (W : Nat) (h : BitVec 64) : probeSeq (2 ^ b - 1) h = ⟨hpos W (2 ^ b) h 0, W * 0⟩ := by
  unfold probeSeq h1 hpos posAt
  rw [and_mask]
  rfl

theorem probe_next (g : Group) (b : Nat) (h : BitVec 64) (J : Nat) (hJ : g.width * J < 2 ^ b) :
    ProbeSeq.next g (2 ^ b - 1) ⟨hpos g.width (2 ^ b) h J, g.width * J⟩ =
      .ok ⟨hpos g.width (2 ^ b) h (J + 1), g.width * (J + 1)⟩ := by
  unfold ProbeSeq.next
  rw [if_neg (by show ¬ g.width * J > 2 ^ b - 1; omega), and_mask]
  rw [Nat.mul_add, Nat.mul_one]
  rfl

theorem cover {g : Group} {a : Nat} (hw : g.width = 2 ^ a) (b : Nat) (h : BitVec 64) (idx : Nat) (hi : idx < 2 ^ b) :
    ∃ J, (J = 0 ∨ g.width * J < 2 ^ b) ∧ InGrp g.width (2 ^ b) (hpos g.width (2 ^ b) h J) idx := by
  by_cases hsm : 2 ^ b < g.width
  · exact ⟨0, .inl rfl, .inl hsm⟩
  · have hab : a ≤ b := by
      rcases Nat.lt_or_ge b a with h1 | h1
      · have := Nat.pow_lt_pow_right (a := 2) (by decide) h1
        omega
      · exact h1
    obtain ⟨J, r, hJ, hr, he⟩ := posAt_cover a b (h.toNat % 2 ^ b) idx hab (Nat.mod_lt _ (Nat.two_pow_pos b)) hi
    refine ⟨J, .inr ?_, .inr ⟨r, by rw [hw]; exact hr, by rw [hw]; exact he⟩⟩
    have hB : 2 ^ b = 2 ^ a * 2 ^ (b - a) := by rw [← Nat.pow_add]; congr 1; omega
    rw [hw, hB]
    exact Nat.mul_lt_mul_of_pos_left hJ (Nat.two_pow_pos a)

theorem step_ok {W B J j : Nat} (hJ : J = 0 ∨ W * J < B) (hj : j < J) : W * j < B := by
  rcases hJ with h | h
  · omega
  · have := Nat.mul_le_mul_left W (Nat.le_of_lt hj)
    omega

theorem J_lt {W B J : Nat} (hW : 0 < W) (hB : 0 < B) (hJ : J = 0 ∨ W * J < B) : J < B := by
  rcases hJ with h | h
  · omega
  · have := Nat.mul_le_mul_right J hW
    omega

theorem h2_full (h : BitVec 64) : isFull (h2 h) = true := by
  apply full_of_bit7
  unfold h2
  rw [BitVec.getLsbD_setWidth, BitVec.getLsbD_and]
  have : (0x7F#64).getLsbD 7 = false := by decide
  rw [this]
  simp

theorem h2_ne_empty (h : BitVec 64) : h2 h ≠ empty := by
  intro he
  have := h2_full h
  rw [he] at this
  cases this

theorem find_slot {g : Group} (hg : Lawful g) {b : Nat} {c : Nat → Byte} {ctrl : Bytes}
    (hv : View g.width (2 ^ b) c ctrl) (hc : ∀ i, i < 2 ^ b → IsCtrl (c i)) (h : BitVec 64) (e : Nat) (he : e < 2 ^ b)
    (hee : c e = empty) (J : Nat) (hJ : J = 0 ∨ g.width * J < 2 ^ b)
    (hin : InGrp g.width (2 ^ b) (hpos g.width (2 ^ b) h J) e) :
    ∀ (d j fuel : Nat), J = j + d → d < fuel → (∀ j', j' < j → NoEmpty g.width (2 ^ b) c (hpos g.width (2 ^ b) h j')) →
    ∃ slot K, findSlot g ctrl (2 ^ b - 1) fuel ⟨hpos g.width (2 ^ b) h j, g.width * j⟩ = .ok slot ∧ slot < 2 ^ b ∧
      c slot = empty ∧ (K = 0 ∨ g.width * K < 2 ^ b) ∧ InGrp g.width (2 ^ b) (hpos g.width (2 ^ b) h K) slot ∧
      ∀ j', j' < K → NoEmpty g.width (2 ^ b) c (hpos g.width (2 ^ b) h j') := by
  intro d
  obtain ⟨a, hw⟩ := hg.width_pow
  have hB : 0 < 2 ^ b := Nat.two_pow_pos b
  have hW : 0 < g.width := by rw [hw]; exact Nat.two_pow_pos a
  induction d with
  | zero =>
    intro j fuel hj hf hno
    subst hj
    obtain ⟨fuel, rfl⟩ : ∃ f, fuel = f + 1 := ⟨fuel - 1, by omega⟩
    obtain ⟨s, h1, h2, h3, h4, h5, h6, h7, h8⟩ := group_bytes hw hv hc (hpos g.width (2 ^ b) h J) (hpos_lt hB h J)
    obtain ⟨r0, hr0, -⟩ := h5 e he hin
    unfold findSlot
    dsimp only
    rw [h1]
    dsimp only [slotInGroup]
    cases hl : g.lowestSpecial s with
    | none =>
      exact absurd (List.mem_iff_getElem?.2 ⟨r0, by rw [hr0, hee]⟩) (hg.lowest_none s h2 h3 hl)
    | some r =>
      dsimp only
      obtain ⟨h9, h10⟩ := hg.lowest_some s r h2 h3 hl
      have hr := (h4 r _ h9).1
      rw [and_mask]
      have hilt : (hpos g.width (2 ^ b) h J + r) % 2 ^ b < 2 ^ b := Nat.mod_lt _ hB
      unfold fixSlot
      rw [hv.at_lt hilt]
      dsimp only
      by_cases hfull : isFull (c ((hpos g.width (2 ^ b) h J + r) % 2 ^ b)) = true
      · rw [if_pos hfull]
        have hsm : 2 ^ b < g.width := by
          rcases Nat.lt_or_ge (2 ^ b) g.width with h11 | h11
          · exact h11
          · exfalso
            rw [h8 r hr, hv.at_ _ (by have := hpos_lt (W := g.width) hB h J; omega), if_neg (by omega)] at h9
            rw [Option.some.inj h9] at hfull
            cases hfull
        have hj0 : J = 0 := by
          rcases hJ with h11 | h11
          · exact h11
          · have : g.width * J ≥ g.width ∨ J = 0 := by
              rcases Nat.eq_zero_or_pos J with h12 | h12
              · exact .inr h12
              · exact .inl (Nat.le_mul_of_pos_right _ h12)
            omega
        obtain ⟨s', g1, g2, g3, g4, g5, g6, g7, g8⟩ := group_bytes hw hv hc 0 hB
        rw [g1]
        dsimp only
        have hse : s'[e]? = some empty := by
          rw [g8 e (by omega), Nat.zero_add, hv.at_lt he, hee]
        cases hl' : g.lowestSpecial s' with
        | none => exact absurd (List.mem_iff_getElem?.2 ⟨e, hse⟩) (hg.lowest_none s' g2 g3 hl')
        | some i =>
          obtain ⟨k1, k2⟩ := hg.lowest_some s' i g2 g3 hl'
          have hie := k2 e hse
          refine ⟨i, J, rfl, by omega, ?_, hJ, .inl hsm, hno⟩
          rw [g8 i (by omega), Nat.zero_add, hv.at_lt (by omega)] at k1
          exact Option.some.inj k1
      · rw [if_neg hfull]
        refine ⟨_, J, rfl, hilt, ?_, hJ, .inr ⟨r, hr, rfl⟩, hno⟩
        rcases hc _ hilt with h11 | h11
        · exact absurd h11 hfull
        · exact h11
  | succ d ih =>
    intro j fuel hj hf hno
    obtain ⟨fuel, rfl⟩ : ∃ f, fuel = f + 1 := ⟨fuel - 1, by omega⟩
    have hJ0 : ¬ J = 0 := by omega
    have hWj : g.width * j < 2 ^ b := step_ok hJ (by omega)
    have hbig : g.width ≤ 2 ^ b := by
      rcases hJ with h11 | h11
      · omega
      · exact Nat.le_of_lt (Nat.lt_of_le_of_lt (Nat.le_mul_of_pos_right _ (by omega)) h11)
    obtain ⟨s, h1, h2, h3, h4, h5, h6, h7, h8⟩ := group_bytes hw hv hc (hpos g.width (2 ^ b) h j) (hpos_lt hB h j)
    unfold findSlot
    dsimp only
    rw [h1]
    dsimp only [slotInGroup]
    cases hl : g.lowestSpecial s with
    | none =>
      dsimp only
      rw [probe_next g b h j hWj]
      dsimp only
      refine ih (j + 1) fuel (by omega) (by omega) ?_
      intro j' hj'
      rcases Nat.lt_or_ge j' j with h11 | h11
      · exact hno j' h11
      · obtain rfl : j' = j := by omega
        refine ⟨hbig, fun r hr hce => ?_⟩
        apply hg.lowest_none s h2 h3 hl
        rw [List.mem_iff_getElem?]
        refine ⟨r, ?_⟩
        rw [h8 r hr, hv.at_ _ (by have := hpos_lt (W := g.width) hB h j'; omega), if_neg (by omega), hce]
    | some r =>
      dsimp only
      obtain ⟨h9, h10⟩ := hg.lowest_some s r h2 h3 hl
      have hr := (h4 r _ h9).1
      rw [and_mask]
      have hilt : (hpos g.width (2 ^ b) h j + r) % 2 ^ b < 2 ^ b := Nat.mod_lt _ hB
      unfold fixSlot
      rw [hv.at_lt hilt]
      dsimp only
      rw [h8 r hr, hv.at_ _ (by have := hpos_lt (W := g.width) hB h j; omega), if_neg (by omega)] at h9
      have h9 := Option.some.inj h9
      rw [h9, isFull_empty, if_neg (by decide)]
      exact ⟨_, j, rfl, hilt, h9, .inr hWj, .inr ⟨r, hr, rfl⟩, hno⟩

/-- Where an element is found. -/
def Placed {V : Type} (W B : Nat) (c : Nat → Byte) (entries : List V) (h : BitVec 64) (v : V) : Prop :=
  ∃ i J, i < B ∧ c i = h2 h ∧ entries[i]? = some v ∧ (J = 0 ∨ W * J < B) ∧ InGrp W B (hpos W B h J) i ∧
    ∀ j', j' < J → NoEmpty W B c (hpos W B h j')

/-- The state of a table after these insertions. -/
structure Good {V : Type} (g : Group) (b : Nat) (hash : V → BitVec 64) (ins : List V) (ctrl : Bytes)
    (entries : List V) (c : Nat → Byte) : Prop where
  view : View g.width (2 ^ b) c ctrl
  ctrl_ok : ∀ i, i < 2 ^ b → IsCtrl (c i)
  length : entries.length = 2 ^ b
  held : ∀ i, i < 2 ^ b → c i ≠ empty → ∃ v ∈ ins, entries[i]? = some v
  placed : ∀ v ∈ ins, Placed g.width (2 ^ b) c entries (hash v) v
  count : ∃ l : List Nat, l.length = ins.length ∧ ∀ i, i < 2 ^ b → c i ≠ empty → i ∈ l

theorem Good.exists_empty {V : Type} {g : Group} {b : Nat} {hash : V → BitVec 64} {ins : List V} {ctrl : Bytes}
    {entries : List V} {c : Nat → Byte} (h : Good g b hash ins ctrl entries c) (hl : ins.length < 2 ^ b) :
    ∃ e, e < 2 ^ b ∧ c e = empty := by
  obtain ⟨l, hll, hm⟩ := h.count
  by_cases hex : ∃ e, e < 2 ^ b ∧ c e = empty
  · exact hex
  · exfalso
    have hsub : List.range (2 ^ b) ⊆ l := by
      intro i hi
      rw [List.mem_range] at hi
      exact hm i hi (fun he => hex ⟨i, hi, he⟩)
    have := List.nodup_range.length_le_of_subset hsub
    rw [List.length_range] at this
    omega

theorem new_good {V : Type} (g : Group) (b : Nat) (hash : V → BitVec 64) (zero : V) :
    Good g b hash [] (newTable g (2 ^ b) zero).ctrl (newTable g (2 ^ b) zero).entries (fun _ => empty) where
  view := new_view g (2 ^ b) zero
  ctrl_ok _ _ := .inr rfl
  length := by simp [newTable]
  held _ _ h := absurd rfl h
  placed _ h := by cases h
  count := ⟨[], rfl, fun _ _ h => absurd rfl h⟩

theorem upd_ne_empty {c : Nat → Byte} {s i : Nat} {h : BitVec 64} (hi : c i ≠ empty) : upd c s (h2 h) i ≠ empty := by
  unfold upd
  split
  · exact h2_ne_empty h
  · exact hi

theorem insert_good {V : Type} {g : Group} (hg : Lawful g) {b : Nat} (hb : b ≤ 64) {hash : V → BitVec 64} {ins : List V}
    {t : Table V} {c : Nat → Byte} (hgood : Good g b hash ins t.ctrl t.entries c) (hm : t.mask = 2 ^ b - 1)
    (hl : ins.length < 2 ^ b) (hgl : 0 < t.growthLeft) (v : V) :
    ∃ t' c', t.insert g (hash v) v = .ok t' ∧ Good g b hash (ins ++ [v]) t'.ctrl t'.entries c' ∧
      t'.mask = t.mask ∧ t'.growthLeft + 1 = t.growthLeft := by
  obtain ⟨a, hw⟩ := hg.width_pow
  have hB : 0 < 2 ^ b := Nat.two_pow_pos b
  have hW : 0 < g.width := by rw [hw]; exact Nat.two_pow_pos a
  obtain ⟨e, he, hee⟩ := hgood.exists_empty hl
  obtain ⟨J, hJ, hin⟩ := cover hw b (hash v) e he
  obtain ⟨slot, K, h1, h2', h3, h4, h5, h6⟩ := find_slot hg hgood.view hgood.ctrl_ok (hash v) e he hee J hJ hin J 0
    (2 ^ b - 1 + 2) (by omega) (by have := J_lt hW hB hJ; omega) (by intro j' hj'; omega)
  rw [Nat.mul_zero] at h1
  unfold Table.insert
  rw [hm, probe_start b g.width (hash v), Nat.mul_zero, h1]
  dsimp only
  rw [hgood.view.at_lt h2', h3]
  dsimp only
  rw [if_neg (by omega)]
  obtain ⟨ctrl', k1, k2, k3⟩ := setCtrl_view hw hg.width_le hgood.view hb slot h2' (h2 (hash v))
  rw [k1]
  dsimp only
  rw [if_pos (by rw [hgood.length]; exact h2')]
  refine ⟨_, upd c slot (h2 (hash v)), rfl, ?_, hm.symm ▸ rfl, ?_⟩
  · refine ⟨k2, ?_, ?_, ?_, ?_, ?_⟩
    · intro i hi
      unfold upd
      split
      · exact .inl (h2_full _)
      · exact hgood.ctrl_ok i hi
    · show (t.entries.set slot v).length = 2 ^ b
      rw [List.length_set, hgood.length]
    · intro i hi hne
      show ∃ w ∈ ins ++ [v], (t.entries.set slot v)[i]? = some w
      by_cases his : slot = i
      · refine ⟨v, by simp, ?_⟩
        rw [his, List.getElem?_set_self (by rw [hgood.length]; exact hi)]
      · rw [List.getElem?_set_ne his]
        have : c i ≠ empty := by
          unfold upd at hne
          rw [if_neg (by omega)] at hne
          exact hne
        obtain ⟨w, hw1, hw2⟩ := hgood.held i hi this
        exact ⟨w, by simp [hw1], hw2⟩
    · intro w hwmem
      show Placed g.width (2 ^ b) _ (t.entries.set slot v) (hash w) w
      rw [List.mem_append, List.mem_singleton] at hwmem
      have hmono : ∀ p, NoEmpty g.width (2 ^ b) c p → NoEmpty g.width (2 ^ b) (upd c slot (h2 (hash v))) p :=
        fun p hp => ⟨hp.1, fun r hr => upd_ne_empty (hp.2 r hr)⟩
      rcases hwmem with hwmem | rfl
      · obtain ⟨i, J, q1, q2, q3, q4, q5, q6⟩ := hgood.placed w hwmem
        have his : slot ≠ i := by
          rintro rfl
          rw [h3] at q2
          exact h2_ne_empty _ q2.symm
        refine ⟨i, J, q1, ?_, ?_, q4, q5, fun j' hj' => hmono _ (q6 j' hj')⟩
        · unfold upd
          rw [if_neg (by omega)]
          exact q2
        · rw [List.getElem?_set_ne his]
          exact q3
      · refine ⟨slot, K, h2', ?_, ?_, h4, h5, fun j' hj' => hmono _ (h6 j' hj')⟩
        · unfold upd
          rw [if_pos rfl]
        · rw [List.getElem?_set_self (by rw [hgood.length]; exact h2')]
    · obtain ⟨l, hll, hlm⟩ := hgood.count
      refine ⟨slot :: l, by simp [hll], ?_⟩
      intro i hi hne
      by_cases his : i = slot
      · simp [his]
      · right
        apply hlm i hi
        unfold upd at hne
        rw [if_neg his] at hne
        exact hne
  · show t.growthLeft - (if specialIsEmpty empty = true then 1 else 0) + 1 = t.growthLeft
    rw [if_pos (by decide)]
    omega

theorem insertAll_good {V : Type} {g : Group} (hg : Lawful g) {b : Nat} (hb : b ≤ 64) {hash : V → BitVec 64} :
    ∀ (vs ins : List V) (t : Table V) (c : Nat → Byte), Good g b hash ins t.ctrl t.entries c → t.mask = 2 ^ b - 1 →
    ins.length + vs.length < 2 ^ b → vs.length ≤ t.growthLeft →
    ∃ t' c', insertAll g hash vs t = .ok t' ∧ Good g b hash (ins ++ vs) t'.ctrl t'.entries c' ∧
      t'.mask = t.mask ∧ t'.growthLeft + vs.length = t.growthLeft
  | [], ins, t, c, h, hm, hl, hgl => ⟨t, c, rfl, by rw [List.append_nil]; exact h, rfl, rfl⟩
  | v :: vs, ins, t, c, h, hm, hl, hgl => by
    rw [List.length_cons] at hl hgl
    obtain ⟨t1, c1, h1, h2, h3, h4⟩ := insert_good hg hb h hm (by omega) (by omega) v
    obtain ⟨t2, c2, k1, k2, k3, k4⟩ := insertAll_good hg hb vs (ins ++ [v]) t1 c1 h2 (by rw [h3, hm])
      (by rw [List.length_append]; simp; omega) (by omega)
    refine ⟨t2, c2, ?_, ?_, by rw [k3, h3], by rw [List.length_cons]; omega⟩
    · unfold insertAll
      rw [h1]
      exact k1
    · rw [List.append_assoc] at k2
      exact k2

/-! ## Capacities -/

theorem nextPow2_pow (n : Nat) : ∃ b, nextPow2 n = 2 ^ b := by
  unfold nextPow2
  split
  · exact ⟨0, rfl⟩
  · exact ⟨_, rfl⟩

theorem nextPow2_ge (n : Nat) : n ≤ nextPow2 n := by
  unfold nextPow2
  split
  · omega
  · have := Nat.lt_log2_self (n := n - 1)
    omega

theorem nextPow2_le (n k : Nat) (h : n ≤ 2 ^ k) : nextPow2 n ≤ 2 ^ k := by
  unfold nextPow2
  split
  · exact Nat.two_pow_pos k
  · apply Nat.pow_le_pow_right (by decide)
    have : 2 ^ (n - 1).log2 ≤ n - 1 := Nat.log2_self_le (by omega)
    rcases Nat.lt_or_ge (n - 1).log2 k with h1 | h1
    · exact h1
    · have := Nat.pow_le_pow_right (n := 2) (by decide) h1
      omega

/-- There are enough buckets, and always an empty one. -/
theorem buckets_spec (n B : Nat) (h : capacityToBuckets n = some B) :
    ∃ b, B = 2 ^ b ∧ b ≤ 64 ∧ n ≤ maskToCapacity (B - 1) ∧ n < B := by
  unfold capacityToBuckets at h
  split at h
  · cases h
    split
    · exact ⟨2, rfl, by decide, by show n ≤ 3; omega, by omega⟩
    · exact ⟨3, rfl, by decide, by show n ≤ 7; omega, by omega⟩
  · rename_i h8
    split at h
    · rename_i hov
      cases h
      obtain ⟨b, hb⟩ := nextPow2_pow (n * 8 / 7)
      have hge := nextPow2_ge (n * 8 / 7)
      have hle := nextPow2_le (n * 8 / 7) 64 (by omega)
      rw [hb] at hge hle ⊢
      have hb64 : b ≤ 64 := (Nat.pow_le_pow_iff_right (by decide)).1 hle
      have hb4 : 4 ≤ b := by
        rcases Nat.lt_or_ge b 4 with h1 | h1
        · have := Nat.pow_le_pow_right (n := 2) (by decide) (show b ≤ 3 by omega)
          omega
        · exact h1
      have hdiv : 2 ^ b = 8 * 2 ^ (b - 3) := by
        rw [show (8 : Nat) = 2 ^ 3 from rfl, ← Nat.pow_add]; congr 1; omega
      have h16 := Nat.pow_le_pow_right (n := 2) (by decide) hb4
      refine ⟨b, rfl, hb64, ?_, ?_⟩
      · unfold maskToCapacity
        rw [if_neg (by omega), show 2 ^ b - 1 + 1 = 2 ^ b by omega]
        omega
      · omega
    · cases h

/-- Building a table does not fail. -/
theorem store_ok {V : Type} {g : Group} (hg : Lawful g) (hash : V → BitVec 64) (zero : V) (vs : List V)
    (hl : vs.length * 8 < 2 ^ 64) :
    ∃ b t c, store g hash zero vs = .ok t ∧ Good g b hash vs t.ctrl t.entries c ∧ t.mask = 2 ^ b - 1 ∧
      vs.length < 2 ^ b ∧ capacityToBuckets vs.length = some (2 ^ b) ∧
      t.len + maskToCapacity (2 ^ b - 1) = 2 ^ b - 1 + vs.length := by
  obtain ⟨B, hB⟩ : ∃ B, capacityToBuckets vs.length = some B := by
    unfold capacityToBuckets
    split
    · exact ⟨_, rfl⟩
    · exact ⟨_, rfl⟩
  obtain ⟨b, rfl, hb, hcap, hlt⟩ := buckets_spec _ _ hB
  obtain ⟨t, c, h1, h2, h3, h4⟩ := insertAll_good hg hb (hash := hash) vs [] (newTable g (2 ^ b) zero) _
    (new_good g b hash zero) rfl (by simpa using hlt) hcap
  refine ⟨b, ⟨t.ctrl.take (2 ^ b + g.width), t.entries, t.mask, t.mask - t.growthLeft⟩, c, ?_, ?_, ?_, hlt, hB, ?_⟩
  · unfold store
    rw [hB]
    dsimp only
    rw [h1]
  · have := h2
    exact ⟨take_view this.view, this.ctrl_ok, this.length, this.held, this.placed, this.count⟩
  · rw [h3]; rfl
  · have hm : t.mask = 2 ^ b - 1 := by rw [h3]; rfl
    have hgl : t.growthLeft + vs.length = maskToCapacity (2 ^ b - 1) := h4
    have hcm : maskToCapacity (2 ^ b - 1) ≤ 2 ^ b - 1 := by
      unfold maskToCapacity
      split <;> omega
    show t.mask - t.growthLeft + maskToCapacity (2 ^ b - 1) = _
    rw [hm]
    omega

/-! ## Lookup -/

theorem tryMatches_spec {V : Type} (entries : List V) (b pos : Nat) (eq : V → Bool) (hlen : entries.length = 2 ^ b) :
    ∀ (l : List Nat), match tryMatches entries (2 ^ b - 1) pos eq l with
      | .error _ => False
      | .ok (some i) => ∃ r ∈ l, i = (pos + r) % 2 ^ b ∧ ∃ v, entries[i]? = some v ∧ eq v = true
      | .ok none => ∀ r ∈ l, ∀ v, entries[(pos + r) % 2 ^ b]? = some v → eq v = false
  | [] => by
    unfold tryMatches
    intro r hr
    cases hr
  | r :: l => by
    have hlt : (pos + r) % 2 ^ b < entries.length := by rw [hlen]; exact Nat.mod_lt _ (Nat.two_pow_pos b)
    unfold tryMatches
    dsimp only
    rw [and_mask, List.getElem?_eq_getElem hlt]
    dsimp only
    by_cases he : eq entries[(pos + r) % 2 ^ b] = true
    · rw [if_pos he]
      exact ⟨r, by simp, rfl, _, List.getElem?_eq_getElem hlt, he⟩
    · rw [if_neg he]
      have ih := tryMatches_spec entries b pos eq hlen l
      revert ih
      cases tryMatches entries (2 ^ b - 1) pos eq l with
      | error e => exact id
      | ok o =>
        cases o with
        | some i =>
          rintro ⟨r', h1, h2⟩
          exact ⟨r', by simp [h1], h2⟩
        | none =>
          intro h r' hr'
          rcases List.mem_cons.1 hr' with rfl | hr'
          · intro v hv
            rw [List.getElem?_eq_getElem hlt] at hv
            cases hv
            simpa using he
          · exact h r' hr'

theorem find_spec {V : Type} {g : Group} (hg : Lawful g) {b : Nat} {hash : V → BitVec 64} {ins : List V} {t : Raw V}
    {c : Nat → Byte} (hgood : Good g b hash ins t.ctrl t.entries c) (hm : t.mask = 2 ^ b - 1) (eq : V → Bool)
    (h : BitVec 64) (e : Nat) (he : e < 2 ^ b) (hee : c e = empty) (J : Nat) (hJ : J = 0 ∨ g.width * J < 2 ^ b)
    (hin : InGrp g.width (2 ^ b) (hpos g.width (2 ^ b) h J) e) :
    ∀ (d j fuel : Nat), J = j + d → d < fuel → 
      (∀ j', j' < j → ∀ i, i < 2 ^ b → InGrp g.width (2 ^ b) (hpos g.width (2 ^ b) h j') i → c i = h2 h →
        ∀ v, t.entries[i]? = some v → eq v = false) →
    match findLoop g t (h2 h) eq fuel ⟨hpos g.width (2 ^ b) h j, g.width * j⟩ with
    | .error _ => False
    | .ok (some i) => ∃ v ∈ ins, t.entries[i]? = some v ∧ eq v = true
    | .ok none => ∀ v ∈ ins, hash v = h → eq v = false := by
  intro d
  obtain ⟨a, hw⟩ := hg.width_pow
  have hB : 0 < 2 ^ b := Nat.two_pow_pos b
  have hW : 0 < g.width := by rw [hw]; exact Nat.two_pow_pos a
  induction d with
  | zero =>
    intro j fuel hj hf hno
    subst hj
    obtain ⟨fuel, rfl⟩ : ∃ f, fuel = f + 1 := ⟨fuel - 1, by omega⟩
    obtain ⟨s, h1, h2', h3, h4, h5, h6, h7, h8⟩ := group_bytes hw hgood.view hgood.ctrl_ok
      (hpos g.width (2 ^ b) h J) (hpos_lt hB h J)
    obtain ⟨r0, hr0, -⟩ := h5 e he hin
    unfold findLoop
    dsimp only
    rw [h1]
    dsimp only
    rw [hm]
    have ht := tryMatches_spec t.entries b (hpos g.width (2 ^ b) h J) eq hgood.length (g.matchByte s (h2 h))
    revert ht
    cases tryMatches t.entries (2 ^ b - 1) (hpos g.width (2 ^ b) h J) eq (g.matchByte s (h2 h)) with
    | error e => exact id
    | ok o =>
      cases o with
      | some i =>
        rintro ⟨r, hr, rfl, v, hv, hev⟩
        obtain ⟨x, hx, hxf⟩ := hg.sound s _ r h2' h3 (h2_full h) hr
        have hne : c ((hpos g.width (2 ^ b) h J + r) % 2 ^ b) ≠ empty := by
          rcases (h4 r x hx).2 with rfl | rfl
          · intro h'
            rw [h'] at hxf
            cases hxf
          · cases hxf
        obtain ⟨w, hw1, hw2⟩ := hgood.held _ (Nat.mod_lt _ hB) hne
        rw [hv] at hw2
        cases hw2
        exact ⟨v, hw1, hv, hev⟩
      | none =>
        intro ht
        dsimp only at ht ⊢
        rw [(hg.any_empty s h2' h3).2 (List.mem_iff_getElem?.2 ⟨r0, by rw [hr0, hee]⟩), if_pos rfl]
        intro v hv hh
        obtain ⟨i, K, q1, q2, q3, q4, q5, q6⟩ := hgood.placed v hv
        rw [hh] at q2 q5 q6
        rcases Nat.lt_trichotomy K J with hK | rfl | hK
        · exact hno K hK i q1 q5 q2 v q3
        · obtain ⟨r, hr, hri⟩ := h5 i q1 q5
          have hm := hg.complete s (h2 h) r h2' h3 (h2_full h) (by rw [hr, q2])
          exact ht r hm v (by rw [hri]; exact q3)
        · exfalso
          obtain ⟨hbig, hne⟩ := q6 J hK
          rcases hin with hin | ⟨r, hr, hri⟩
          · omega
          · exact hne r hr (by rw [hri, hee])
  | succ d ih =>
    intro j fuel hj hf hno
    obtain ⟨fuel, rfl⟩ : ∃ f, fuel = f + 1 := ⟨fuel - 1, by omega⟩
    have hWj : g.width * j < 2 ^ b := step_ok hJ (by omega)
    have hbig : g.width ≤ 2 ^ b := by
      rcases hJ with h11 | h11
      · omega
      · exact Nat.le_of_lt (Nat.lt_of_le_of_lt (Nat.le_mul_of_pos_right _ (by omega)) h11)
    obtain ⟨s, h1, h2', h3, h4, h5, h6, h7, h8⟩ := group_bytes hw hgood.view hgood.ctrl_ok
      (hpos g.width (2 ^ b) h j) (hpos_lt hB h j)
    unfold findLoop
    dsimp only
    rw [h1]
    dsimp only
    rw [hm]
    have ht := tryMatches_spec t.entries b (hpos g.width (2 ^ b) h j) eq hgood.length (g.matchByte s (h2 h))
    revert ht
    cases tryMatches t.entries (2 ^ b - 1) (hpos g.width (2 ^ b) h j) eq (g.matchByte s (h2 h)) with
    | error e => exact id
    | ok o =>
      cases o with
      | some i =>
        rintro ⟨r, hr, rfl, v, hv, hev⟩
        obtain ⟨x, hx, hxf⟩ := hg.sound s _ r h2' h3 (h2_full h) hr
        have hne : c ((hpos g.width (2 ^ b) h j + r) % 2 ^ b) ≠ empty := by
          rcases (h4 r x hx).2 with rfl | rfl
          · intro h'
            rw [h'] at hxf
            cases hxf
          · cases hxf
        obtain ⟨w, hw1, hw2⟩ := hgood.held _ (Nat.mod_lt _ hB) hne
        rw [hv] at hw2
        cases hw2
        exact ⟨v, hw1, hv, hev⟩
      | none =>
        intro ht
        dsimp only at ht ⊢
        have hcur : ∀ i, i < 2 ^ b → InGrp g.width (2 ^ b) (hpos g.width (2 ^ b) h j) i → c i = h2 h →
            ∀ v, t.entries[i]? = some v → eq v = false := by
          intro i hi hin' hci v hv
          obtain ⟨r, hr, hri⟩ := h5 i hi hin'
          have hm := hg.complete s (h2 h) r h2' h3 (h2_full h) (by rw [hr, hci])
          exact ht r hm v (by rw [hri]; exact hv)
        by_cases hany : g.anyEmpty s = true
        · rw [if_pos hany]
          obtain ⟨r1, hr1, hce⟩ := h7 hbig ((hg.any_empty s h2' h3).1 hany)
          intro v hv hh
          obtain ⟨i, K, q1, q2, q3, q4, q5, q6⟩ := hgood.placed v hv
          rw [hh] at q2 q5 q6
          rcases Nat.lt_trichotomy K j with hK | rfl | hK
          · exact hno K hK i q1 q5 q2 v q3
          · exact hcur i q1 q5 q2 v q3
          · exact absurd hce ((q6 j hK).2 r1 hr1)
        · rw [if_neg hany, probe_next g b h j hWj]
          dsimp only
          refine ih (j + 1) fuel (by omega) (by omega) ?_
          intro j' hj'
          rcases Nat.lt_or_ge j' j with h11 | h11
          · exact hno j' h11
          · obtain rfl : j' = j := by omega
            exact hcur

/-- Lookup in a table which has been built. -/
theorem find_ok {V : Type} {g : Group} (hg : Lawful g) {b : Nat} {hash : V → BitVec 64} {ins : List V} {t : Raw V}
    {c : Nat → Byte} (hgood : Good g b hash ins t.ctrl t.entries c) (hm : t.mask = 2 ^ b - 1) (hl : ins.length < 2 ^ b)
    (eq : V → Bool) (h : BitVec 64) :
    (∃ v ∈ ins, t.find g h eq = .ok (some v) ∧ eq v = true) ∨
    (t.find g h eq = .ok none ∧ ∀ v ∈ ins, hash v = h → eq v = false) := by
  obtain ⟨a, hw⟩ := hg.width_pow
  have hB : 0 < 2 ^ b := Nat.two_pow_pos b
  have hW : 0 < g.width := by rw [hw]; exact Nat.two_pow_pos a
  obtain ⟨e, he, hee⟩ := hgood.exists_empty hl
  obtain ⟨J, hJ, hin⟩ := cover hw b h e he
  have := find_spec hg hgood hm eq h e he hee J hJ hin J 0 (t.mask + 2) (by omega)
    (by have := J_lt hW hB hJ; omega) (by intro j' hj'; omega)
  unfold Raw.find
  rw [show probeSeq t.mask h = _ from (by rw [hm, probe_start b g.width h] : _ = ProbeSeq.mk (hpos g.width (2 ^ b) h 0) (g.width * 0))]
  revert this
  cases findLoop g t (h2 h) eq (t.mask + 2) ⟨hpos g.width (2 ^ b) h 0, g.width * 0⟩ with
  | error e => exact False.elim
  | ok o =>
    cases o with
    | none => exact fun h => .inr ⟨rfl, h⟩
    | some i =>
      rintro ⟨v, hv, h1, h2⟩
      dsimp only
      rw [h1]
      exact .inl ⟨v, hv, rfl, h2⟩

end Musli.Zero.Swiss
