import Verif.Model.Zero.Sneaky
/-!
# What the derive sees and what is compiled
-/
namespace Musli.Zero.Sneaky
open Musli

set_option linter.unusedSectionVars false

theorem inj_of_nodup_map {α β : Type} {f : α → β} {l : List α} (h : (l.map f).Nodup) : ∀ {a b : α}, a ∈ l → b ∈ l → f a = f b → a = b := by
  induction l with
  | nil => intro a b ha; cases ha
  | cons x l ih =>
    intro a b ha hb e
    rw [List.map_cons, List.nodup_cons] at h
    rcases List.mem_cons.1 ha with ea | ha' <;> rcases List.mem_cons.1 hb with eb | hb'
    · rw [ea, eb]
    · exact absurd (by rw [← ea, e]; exact List.mem_map_of_mem hb') h.1
    · exact absurd (by rw [← eb, ← e]; exact List.mem_map_of_mem ha') h.1
    · exact ih h.2 ha' hb' e

theorem nodup_of_nodup_map {α β : Type} {f : α → β} {l : List α} (h : (l.map f).Nodup) : l.Nodup := by
  induction l with
  | nil => exact List.nodup_nil
  | cons x l ih =>
    rw [List.map_cons, List.nodup_cons] at h
    exact List.nodup_cons.2 ⟨fun hx => h.1 (List.mem_map_of_mem hx), ih h.2⟩

theorem lookup_mem {l : List (Member × Nat)} {m : Member} {t : Nat} (h : l.lookup m = some t) : (m, t) ∈ l := by
  induction l with
  | nil => cases h
  | cons p l ih =>
    obtain ⟨a, b⟩ := p
    rw [List.lookup_cons] at h
    split at h
    · next e =>
      cases h
      rw [beq_iff_eq] at e
      rw [e]; exact List.mem_cons_self
    · exact List.mem_cons_of_mem _ (ih h)

/-- What follows from the expression. -/
theorem literalOk_spec {l : List (Member × Option Nat)} {c : Compiled} (h : literalOk l c = true) :
    (∀ p ∈ c.fields, p.1 ∈ l.map (·.1)) ∧ (∀ m t, (m, some t) ∈ l → (m, t) ∈ c.fields) := by
  simp only [literalOk, Bool.and_eq_true, List.all_eq_true, List.contains_iff_mem] at h
  obtain ⟨⟨-, h1⟩, h2⟩ := h
  refine ⟨h1, fun m t hm => ?_⟩
  have := h2 _ hm
  simp only at this
  split at this
  · cases this
  · next ty hl =>
    rw [beq_iff_eq] at this
    subst this
    exact lookup_mem hl

/-- All fields which are not ignored are in the expression, if it compiles. -/
theorem literal_all {transparent : Bool} {s : Seen} {c : Compiled} (hs : (s.fields.map (·.member)).Nodup)
    (hl : literalOk (literal transparent s) c = true) (hc : ∀ f ∈ s.fields, f.member ∈ c.fields.map (·.1)) (f : Field) (hf : f ∈ s.fields)
    (hi : f.ignored = false) : (f.member, some f.ty) ∈ literal transparent s := by
  have hk : f ∈ s.fields.filter fun f => !f.ignored := List.mem_filter.2 ⟨hf, by simp [hi]⟩
  have hin : f.member ∈ (literal transparent s).map (·.1) := by
    obtain ⟨p, hp, e⟩ := List.mem_map.1 (hc f hf)
    rw [← e]; exact (literalOk_spec hl).1 p hp
  have huniq : ∀ g ∈ s.fields, g.member = f.member → g = f := by
    intro g hg e
    exact inj_of_nodup_map hs hg hf e
  obtain ⟨p, hp, e⟩ := List.mem_map.1 hin
  have key : (∃ g ∈ s.fields, g.ignored = false ∧ p = (g.member, some g.ty)) ∨ ∃ g ∈ s.fields, g.ignored = true ∧ p = (g.member, none) := by
    unfold literal at hp
    dsimp only at hp
    split at hp
    · next g rest hg =>
      rcases List.mem_cons.1 hp with rfl | hp
      · have : g ∈ s.fields.filter fun f => !f.ignored := by rw [hg]; exact List.mem_cons_self
        obtain ⟨h1, h2⟩ := List.mem_filter.1 this
        exact .inl ⟨g, h1, by simpa using h2, rfl⟩
      · obtain ⟨g, hg, rfl⟩ := List.mem_map.1 hp
        obtain ⟨h1, h2⟩ := List.mem_filter.1 hg
        exact .inr ⟨g, h1, h2, rfl⟩
    · rcases List.mem_append.1 hp with hp | hp
      · obtain ⟨g, hg, rfl⟩ := List.mem_map.1 hp
        obtain ⟨h1, h2⟩ := List.mem_filter.1 hg
        exact .inl ⟨g, h1, by simpa using h2, rfl⟩
      · obtain ⟨g, hg, rfl⟩ := List.mem_map.1 hp
        obtain ⟨h1, h2⟩ := List.mem_filter.1 hg
        exact .inr ⟨g, h1, h2, rfl⟩
  rcases key with ⟨g, hg, _, rfl⟩ | ⟨g, hg, h, rfl⟩
  · rw [← huniq g hg e]; exact hp
  · rw [huniq g hg e, hi] at h; cases h

/-- In a transparent struct there is then one field which is not ignored. -/
theorem validated_eq {transparent : Bool} {s : Seen} {c : Compiled} (hs : (s.fields.map (·.member)).Nodup)
    (hl : literalOk (literal transparent s) c = true) (hc : ∀ f ∈ s.fields, f.member ∈ c.fields.map (·.1)) :
    validated transparent s = s.types := by
  unfold validated
  split
  · next t ts ht =>
    cases ts with
    | nil => exact ht.symm
    | cons t' ts =>
      exfalso
      -- two fields which are not ignored
      unfold Seen.types at ht
      match hk : s.fields.filter fun f => !f.ignored, ht with
      | [], ht => simp [hk] at ht
      | [_], ht => simp [hk] at ht
      | f :: g :: rest, _ =>
        have hg : g ∈ s.fields.filter fun f => !f.ignored := by rw [hk]; simp
        obtain ⟨h1, h2⟩ := List.mem_filter.1 hg
        have hgl := literal_all hs hl hc g h1 (by simpa using h2)
        unfold literal at hgl
        rw [hk] at hgl
        simp only at hgl
        have hne : g ≠ f := by
          have hn : (s.fields.filter fun f => !f.ignored).Nodup := (nodup_of_nodup_map hs).filter _
          rw [hk] at hn
          intro e
          subst e
          exact (List.nodup_cons.1 hn).1 (by simp)
        rcases List.mem_cons.1 hgl with e | e
        · have hf : f ∈ s.fields := (List.mem_filter.1 (by rw [hk]; simp : f ∈ s.fields.filter fun f => !f.ignored)).1
          exact hne (inj_of_nodup_map hs h1 hf (Prod.mk.inj e).1)
        · obtain ⟨x, _, hx⟩ := List.mem_map.1 e
          have := (Prod.mk.inj hx).2
          cases this
  · rfl

theorem membersOk_nodup {shape : Shape} {ms : List Member} (h : membersOk shape ms) : ms.Nodup := by
  cases shape with
  | named => exact h
  | unit => rw [show ms = [] from h]; exact List.nodup_nil
  | tuple =>
    rw [show ms = _ from h]
    exact List.nodup_range.map Member.index (fun a b hab e => hab (by injection e))

/-- The pattern makes sure that the members are the same. -/
theorem pattern_members {s : Seen} {c : Compiled} (hs : membersOk s.shape (s.fields.map (·.member)))
    (hc : membersOk c.shape (c.fields.map (·.1))) (h : patternOk s c = true) (m : Member) :
    m ∈ s.fields.map (·.member) ↔ m ∈ c.fields.map (·.1) := by
  unfold patternOk at h
  rw [Bool.and_eq_true, decide_eq_true_eq] at h
  obtain ⟨he, h⟩ := h
  rw [← he] at hc
  match hsh : s.shape with
  | .named =>
    rw [hsh] at h
    simp only [Bool.and_eq_true, List.all_eq_true, List.contains_iff_mem] at h
    exact ⟨h.1.2 m, h.2 m⟩
  | .tuple =>
    rw [hsh] at h hs hc
    have h' : s.fields.length = c.fields.length := by simpa using h
    rw [show s.fields.map (·.member) = _ from hs, show c.fields.map (·.1) = _ from hc, List.length_map, List.length_map, h']
  | .unit =>
    rw [hsh] at hs hc
    rw [show s.fields.map (·.member) = _ from hs, show c.fields.map (·.1) = _ from hc]

/-- In a tuple they are in the same order. -/
theorem pattern_tuple {s : Seen} {c : Compiled} (hs : membersOk s.shape (s.fields.map (·.member)))
    (hc : membersOk c.shape (c.fields.map (·.1))) (h : patternOk s c = true) (hn : s.shape ≠ .named) :
    s.fields.map (·.member) = c.fields.map (·.1) := by
  unfold patternOk at h
  rw [Bool.and_eq_true, decide_eq_true_eq] at h
  obtain ⟨he, h⟩ := h
  rw [← he] at hc
  match hsh : s.shape with
  | .named => exact absurd hsh hn
  | .tuple =>
    rw [hsh] at h hs hc
    have h' : s.fields.length = c.fields.length := by simpa using h
    rw [show s.fields.map (·.member) = _ from hs, show c.fields.map (·.1) = _ from hc, List.length_map, List.length_map, h']
  | .unit =>
    rw [hsh] at hs hc
    rw [show s.fields.map (·.member) = _ from hs, show c.fields.map (·.1) = _ from hc]

theorem body_types {T : Types} {transparent : Bool} {s : Seen} {c : Compiled} (hs : membersOk s.shape (s.fields.map (·.member)))
    (hc : membersOk c.shape (c.fields.map (·.1))) (h : bodyOk T transparent false s c = true) :
    s.shape = c.shape ∧ (∀ m, m ∈ s.fields.map (·.member) ↔ m ∈ c.fields.map (·.1)) ∧
    (∀ f ∈ s.fields, f.ignored = false → (f.member, f.ty) ∈ c.fields ∧ T.zeroCopy f.ty = true) ∧
    (∀ f ∈ s.fields, f.ignored = true → T.zeroSized f.ty = true) ∧ validated transparent s = s.types := by
  unfold bodyOk at h
  simp only [Bool.and_eq_true, Bool.false_or] at h
  obtain ⟨⟨⟨hp, hl⟩, hz⟩, hi⟩ := h
  have hm := pattern_members hs hc hp
  have hnd := membersOk_nodup hs
  have hin : ∀ f ∈ s.fields, f.member ∈ c.fields.map (·.1) := fun f hf => (hm _).1 (List.mem_map_of_mem hf)
  refine ⟨?_, hm, fun f hf hf' => ⟨?_, ?_⟩, fun f hf hf' => ?_, validated_eq hnd hl hin⟩
  · unfold patternOk at hp
    rw [Bool.and_eq_true, decide_eq_true_eq] at hp
    exact hp.1
  · exact (literalOk_spec hl).2 _ _ (literal_all hnd hl hin f hf hf')
  · exact List.all_eq_true.1 hz _ (List.mem_map_of_mem (List.mem_filter.2 ⟨hf, by simp [hf']⟩))
  · exact List.all_eq_true.1 hi _ (List.mem_filter.2 ⟨hf, hf'⟩)

/-- If the members are in the same order and the types of ignored fields are the same, the fields are the same. -/
theorem fields_eq {fs : List Field} {cs : List (Member × Nat)} (hn : (cs.map (·.1)).Nodup) (ho : fs.map (·.member) = cs.map (·.1))
    (h : ∀ f ∈ fs, (f.member, f.ty) ∈ cs) : cs = fs.map fun f => (f.member, f.ty) := by
  apply List.ext_getElem
  · have := congrArg List.length ho
    simpa using this.symm
  · intro i h1 h2
    have h3 : i < fs.length := by simpa using h2
    have e : (fs.map (·.member))[i]'(by simpa using h3) = (cs.map (·.1))[i]'(by simpa using h1) := by simp only [ho]
    rw [List.getElem_map, List.getElem_map] at e
    rw [List.getElem_map]
    exact inj_of_nodup_map hn (List.getElem_mem h1) (h _ (List.getElem_mem h3)) e.symm

/-- Leaving out ignored fields leaves out what is zero-sized. -/
theorem types_filter (z : Nat → Bool) (fs : List Field) (h : ∀ f ∈ fs, f.ignored = true → z f.ty = true) :
    ((fs.filter fun f => !f.ignored).map (·.ty)).filter (fun t => !z t) = (fs.map (·.ty)).filter fun t => !z t := by
  induction fs with
  | nil => rfl
  | cons f fs ih =>
    have ih := ih fun g hg => h g (List.mem_cons_of_mem _ hg)
    cases hi : f.ignored with
    | false => simp only [List.filter_cons, hi, Bool.not_false, if_true, List.map_cons, ih]
    | true =>
      have hz := h f List.mem_cons_self hi
      simp [List.filter_cons, hi, hz, ih]

end Musli.Zero.Sneaky
