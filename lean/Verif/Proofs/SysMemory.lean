import Verif.Proofs.SysStep
/-!
# Memory, whatever destructors do

The account of the program and what is in the vectors differ once a destructor has panicked in `clear`, or one of a
value of size zero has in `push`. The memory does not depend on it: there is an account with which it fits.
-/
namespace Musli.Sys

set_option linter.unusedSectionVars false

/-- Same vectors and boxes; the first account has at least as many elements in each. -/
def Covers (C D : Contents) : Prop := ∀ h,
  (C.get h = none ∧ D.get h = none) ∨
    ∃ b l l', C.get h = some (b, l) ∧ D.get h = some (b, l') ∧ l'.length ≤ l.length

namespace Covers
variable {C D : Contents}

theorem refl (C : Contents) : Covers C C := fun h => by
  cases e : C.get h with
  | none => exact .inl ⟨rfl, rfl⟩
  | some x => exact .inr ⟨x.1, x.2, x.2, rfl, rfl, Nat.le_refl _⟩

theorem put (hc : Covers C D) (h : Nat) (b : Bool) {l l' : List Tok} (hl : l'.length ≤ l.length) :
    Covers (C.put h (b, l)) (D.put h (b, l')) := fun k => by
  by_cases e : k = h
  · subst e
    exact .inr ⟨b, l, l', Contents.get_put_same _ _ _, Contents.get_put_same _ _ _, hl⟩
  · rw [Contents.get_put_other _ e, Contents.get_put_other _ e]
    exact hc k

/-- A vector which has got more elements than the program knows of. -/
theorem put_left (hc : Covers C D) {h : Nat} {b : Bool} {l l' : List Tok} (hg : D.get h = some (b, l'))
    (hl : l'.length ≤ l.length) : Covers (C.put h (b, l)) D := fun k => by
  by_cases e : k = h
  · subst e
    exact .inr ⟨b, l, l', Contents.get_put_same _ _ _, hg, hl⟩
  · rw [Contents.get_put_other _ e]
    exact hc k

theorem put_right (hc : Covers C D) {h : Nat} {b : Bool} {l l' : List Tok} (hg : C.get h = some (b, l))
    (hl : l'.length ≤ l.length) : Covers C (D.put h (b, l')) := fun k => by
  by_cases e : k = h
  · subst e
    exact .inr ⟨b, l, l', hg, Contents.get_put_same _ _ _, hl⟩
  · rw [Contents.get_put_other _ e]
    exact hc k

theorem del (hc : Covers C D) (h : Nat) : Covers (C.del h) (D.del h) := fun k => by
  by_cases e : k = h
  · subst e
    exact .inl ⟨Contents.get_del_same _ _, Contents.get_del_same _ _⟩
  · rw [Contents.get_del_other _ e, Contents.get_del_other _ e]
    exact hc k

theorem list (hc : Covers C D) (h : Nat) : (D.list h).length ≤ (C.list h).length := by
  rcases hc h with ⟨h1, h2⟩ | ⟨b, l, l', h1, h2, h3⟩
  · rw [Contents.list_of_none h1, Contents.list_of_none h2]
    exact Nat.le_refl _
  · rw [Contents.list_of_get h1, Contents.list_of_get h2]
    exact h3

theorem getNone (hc : Covers C D) {h : Nat} (hn : D.get h = none) : C.get h = none := by
  rcases hc h with ⟨h1, -⟩ | ⟨b, l, l', -, h2, -⟩
  · exact h1
  · rw [hn] at h2
    cases h2

theorem getSome (hc : Covers C D) {h : Nat} {b : Bool} (hn : ∃ l, D.get h = some (b, l)) :
    ∃ l, C.get h = some (b, l) := by
  obtain ⟨l, hn⟩ := hn
  rcases hc h with ⟨-, h1⟩ | ⟨b', l', l'', h1, h2, -⟩
  · rw [hn] at h1
    cases h1
  · rw [hn] at h2
    cases h2
    exact ⟨_, h1⟩

theorem getAny (hc : Covers C D) {h : Nat} (hn : ∃ b l, D.get h = some (b, l)) : ∃ b l, C.get h = some (b, l) := by
  obtain ⟨b, l, hn⟩ := hn
  obtain ⟨l, h1⟩ := hc.getSome ⟨l, hn⟩
  exact ⟨b, l, h1⟩

end Covers

variable {E : Elem} {bomb : Tok → Bool} {s : State} {w v : World}

/-- The same calls type check. -/
theorem possible_covers (hc : Covers v.objs w.objs) {op : Op} (hp : op.Possible E w) : op.Possible E v := by
  cases op with
  | new h => exact hc.getNone hp
  | withCapacity h n fail => exact ⟨hc.getNone hp.1, hp.2⟩
  | reserve h n fail => exact ⟨hc.getSome hp.1, hp.2⟩
  | push h v fail => exact ⟨hc.getSome hp.1, hp.2⟩
  | pop h => exact hc.getSome hp
  | clear h => exact hc.getSome hp
  | read h => exact hc.getAny hp
  | extendFromSlice h vs fail => exact ⟨hc.getSome hp.1, hp.2⟩
  | extend h o fail => exact ⟨hc.getSome hp.1, hc.getSome hp.2.1, hp.2.2⟩
  | intoStd h => exact hc.getSome hp
  | fromStd h vs cap => exact ⟨hc.getNone hp.1, hp.2⟩
  | box h v fail => exact ⟨hc.getNone hp.1, hp.2⟩
  | drop h => exact hc.getAny hp

theorem next_covers (hc : Covers v.objs w.objs) (op : Op) (out : Out) :
    Covers (v.next op out).objs (w.next op out).objs := by
  cases op with
  | new h => exact hc.put _ _ (Nat.le_refl _)
  | withCapacity h n fail => cases out <;> first | exact hc | exact hc.put _ _ (Nat.le_refl _)
  | reserve h n fail => exact hc
  | push h x fail =>
    cases out <;> first | exact hc | exact hc.put _ _ (by simpa using hc.list h)
  | pop h =>
    cases out with
    | item x =>
      cases x with
      | none => exact hc
      | some x => exact hc.put _ _ (by simpa using Nat.sub_le_sub_right (hc.list h) 1)
    | _ => exact hc
  | clear h => exact hc.put _ _ (Nat.le_refl _)
  | read h => exact hc
  | extendFromSlice h vs fail => cases out <;> first | exact hc | exact hc.put _ _ (by simpa using hc.list h)
  | extend h o fail =>
    cases out <;> first
      | exact hc.del _
      | exact (hc.put _ _ (by simpa using Nat.add_le_add (hc.list h) (hc.list o))).del _
  | intoStd h => cases out <;> first | exact hc | exact hc.del _
  | fromStd h vs cap => exact hc.put _ _ (Nat.le_refl _)
  | box h x fail => cases out <;> first | exact hc | exact hc.put _ _ (Nat.le_refl _)
  | drop h => exact hc.del _

/-- There is an account with which memory fits. -/
def Fits (E : Elem) (s : State) (w : World) : Prop := ∃ C, Inv E s.heap s.objs C ∧ Covers C w.objs

theorem Good.fits (hg : Good E s v) (hc : Covers v.objs w.objs) : Fits E s w := ⟨v.objs, hg.1, hc⟩

/-- The corrected code, with an account of memory only. -/
theorem fits_true (hE : E.Valid) {C : Contents} (hI : Inv E s.heap s.objs C) (hc : Covers C w.objs) {op : Op}
    (hp : op.Possible E w) : ∃ out s' v, v.objs = C ∧ step true E bomb s op = .ok (out, s') ∧
      op.Expected E bomb v out ∧ (out ≠ .abort → Inv E s'.heap s'.objs (v.next op out).objs) := by
  have hg : Good E s ⟨C, C.live ++ s.dropped, []⟩ :=
    ⟨hI, fun _ t => by simp only [List.count_append, List.count_nil, Nat.add_zero]⟩
  obtain ⟨out, s', h1, h2, h3⟩ := after (bomb := bomb) hE hg (possible_covers (v := ⟨C, _, _⟩) hc hp)
  exact ⟨out, s', _, rfl, h1, h2, fun h => (h3 h).1⟩

/-- A call of the code as it is. -/
theorem fits_step (hE : E.Valid) (hf : Fits E s w) {op : Op} (hp : op.Possible E w) :
    ∃ out s', step false E bomb s op = .ok (out, s') ∧ (out ≠ .abort → Fits E s' (w.next op out)) := by
  obtain ⟨C, hI, hc⟩ := hf
  obtain ⟨out, s', v, rfl, h1, h2, h3⟩ := fits_true (bomb := bomb) hE hI hc hp
  have same : step false E bomb s op = step true E bomb s op →
      ∃ out s', step false E bomb s op = .ok (out, s') ∧ (out ≠ .abort → Fits E s' (w.next op out)) := fun e =>
    ⟨out, s', e.trans h1, fun h => ⟨_, h3 h, next_covers hc op out⟩⟩
  cases op with
  | push h x fail =>
    by_cases h0 : E.size = 0
    · obtain ⟨l', hw⟩ := hp.1
      obtain ⟨l, hv⟩ := hc.getSome hp.1
      obtain ⟨y, hy, -⟩ := hI.find hv
      simp only [step, hy, h0, if_true] at h1 ⊢
      cases h1
      rw [if_neg (by decide), runDrops_eq]
      refine ⟨_, _, rfl, fun _ => ?_⟩
      have h3 := h3 (by simp)
      refine ⟨_, h3, ?_⟩
      rcases dropping_one (E := E) (bomb := bomb) x with e | e <;> rw [e]
      · exact next_covers hc (.push h x fail) .ok
      · have hl := hc.list h
        rw [Contents.list_of_get hw] at hl
        exact hc.put_left hw (by simp; omega)
    · exact same (by simp only [step, if_neg h0])
  | box h x fail =>
    by_cases h0 : E.size = 0
    · have hn := (hI.absent h).mpr (hc.getNone hp.1)
      simp only [step, SystemAlloc.alloc, h0, if_true, bind, Except.bind] at h1 ⊢
      cases h1
      have h3 := h3 (by simp)
      rw [if_neg (by decide), runDrops_eq]
      rcases dropping_one (E := E) (bomb := bomb) x with e | e <;> rw [e]
      · exact ⟨_, _, rfl, fun _ => ⟨_, h3, next_covers hc (.box h x fail) .ok⟩⟩
      · refine ⟨_, _, rfl, fun _ => ⟨v.objs, ?_, hc⟩⟩
        have e1 : upd (upd s.objs h (some ⟨⟨none, 1⟩, 1, true⟩)) h none = s.objs := by
          rw [upd_upd]
          funext k
          unfold upd
          split
          · rename_i e
            subst e
            exact hn.symm
          · rfl
        show Inv E s.heap (upd (upd s.objs h _) h none) v.objs
        rw [e1]
        exact hI
    · exact same (by simp only [step, if_neg h0])
  | clear h =>
    obtain ⟨l', hw⟩ := hp
    obtain ⟨l, hv⟩ := hc.getSome ⟨l', hw⟩
    obtain ⟨y, hy, hy1, hy2, hy3⟩ := hI.find hv
    have hvals := values_spec (H := s.heap) hy2 hy3
    simp only [step, hy, clear, hvals, bind, Except.bind, if_true] at h1
    simp only [step, hy, clear, hvals, bind, Except.bind]
    rw [if_neg (by decide), runDrops_eq]
    rw [runDrops_eq] at h1
    simp only [Except.ok.injEq, Prod.mk.injEq] at h1
    obtain ⟨rfl, rfl⟩ := h1
    rcases dropping_cases (E := E) (bomb := bomb) l with e | e | e
    · rw [e]
      refine ⟨_, _, rfl, fun _ => ?_⟩
      rw [e] at h3
      exact ⟨_, h3 (by simp), next_covers hc (.clear h) .ok⟩
    · rw [e]
      exact ⟨_, _, rfl, fun _ => ⟨v.objs, hI, hc.put_right hv (Nat.zero_le _)⟩⟩
    · rw [e]
      exact ⟨_, _, rfl, fun h => (h rfl).elim⟩
  | _ => exact same rfl

theorem runs_fits (hE : E.Valid) (h : Runs false E bomb s w) : Fits E s w := by
  induction h with
  | init => exact ⟨[], Inv.init E, Covers.refl _⟩
  | step _ hp hs ha ih =>
    obtain ⟨out, s', h1, h2⟩ := fits_step (bomb := bomb) hE ih hp
    rw [hs] at h1
    cases h1
    exact h2 ha

end Musli.Sys
