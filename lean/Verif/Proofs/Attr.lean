import Verif.Spec.Attr
/-!
# Attributes of the derives
-/
set_option linter.unusedSectionVars false
namespace Musli.Attr

theorem named_single (s : String) : Mode.named [s] =
    if s = "Binary" then .binary else if s = "Text" then .text else .custom [s] := by
  by_cases h : s = "Binary"
  · subst h; rfl
  · by_cases h' : s = "Text"
    · subst h'; rfl
    · rw [if_neg h, if_neg h']
      unfold Mode.named
      split
      · rename_i e; cases e; exact absurd rfl h
      · rename_i e; cases e; exact absurd rfl h'
      · rfl

theorem parseMode_mode (p : Path) : (parseMode p).mode = Mode.named p := by
  match p with
  | [] => rfl
  | [s] =>
    rw [named_single]
    unfold parseMode
    by_cases h : s = "Binary"
    · simp [h, ModeIdent.mode]
    · by_cases h' : s = "Text"
      · simp [h', ModeIdent.mode]
      · simp [h, h', ModeIdent.mode]
  | a :: b :: l =>
    have e : parseMode (a :: b :: l) = ⟨a :: b :: l, .custom⟩ := rfl
    rw [e]
    unfold Mode.named
    split
    · rename_i e; cases e
    · rename_i e; cases e
    · rfl

theorem mode_kind (m : ModeIdent) : m.mode.kind = m.kind := by
  unfold ModeIdent.mode
  cases h : m.kind <;> rfl

theorem parseMode_kind (p : Path) : (parseMode p).kind = (Mode.named p).kind := by
  rw [← parseMode_mode, mode_kind]

theorem parseMode_path (p : Path) : (parseMode p).path = p := by
  unfold parseMode
  split
  · split
    · rfl
    · split <;> rfl
  · rfl

theorem parsePathMode_eq (s : String) :
    parsePathMode s = if s = "Binary" ∨ s = "Text" then some (parseMode [s]) else none := by
  unfold parsePathMode parseMode
  by_cases h : s = "Binary"
  · simp [h]
  · by_cases h' : s = "Text"
    · simp [h']
    · simp [h, h']

section
variable {K M V : Type} [DecidableEq K] [DecidableEq M]

/-- What is left of a list of elements: up to the first that is wrong. -/
theorem parse_ok : ∀ (a : List (Meta K M V)) (p : Parsed K M V), (∀ m ∈ a, ¬ m.wrong) →
    (parse a p).failed = p.failed ∧
    (parse a p).sets = p.sets ++ a.filterMap (fun m => match m with | .set k v => some (k, v) | _ => none) ∧
    (parse a p).adds = p.adds ++ a.filterMap (fun m => match m with | .add k v => some (k, v) | _ => none) ∧
    (parse a p).only = ((a.filterMap Meta.only?).getLast?).or p.only ∧
    ∃ ps : List Path, a.filterMap Meta.mode? = ps.map Mode.named ∧
      (parse a p).mode = (ps.getLast?.map parseMode).or p.mode := by
  intro a
  induction a with
  | nil => intro p _; exact ⟨rfl, by simp [parse], by simp [parse], by simp [parse], [], rfl, by simp [parse]⟩
  | cons m a ih =>
    intro p h
    have ha : ∀ m ∈ a, ¬ m.wrong := fun x hx => h x (by simp [hx])
    have mode : ∀ q : Path, (∃ ps : List Path, a.filterMap Meta.mode? = ps.map Mode.named ∧
          (parse a { p with mode := some (parseMode q) }).mode =
            (ps.getLast?.map parseMode).or (some (parseMode q))) →
        ∃ ps : List Path, Mode.named q :: a.filterMap Meta.mode? = ps.map Mode.named ∧
          (parse a { p with mode := some (parseMode q) }).mode = (ps.getLast?.map parseMode).or p.mode := by
      rintro q ⟨ps, h1, h2⟩
      refine ⟨q :: ps, by rw [h1]; rfl, ?_⟩
      rw [h2]
      cases ps with
      | nil => rfl
      | cons x ps => rw [List.getLast?_cons_cons, List.getLast?_eq_some_getLast (by simp)]; rfl
    cases m with
    | mode q =>
      obtain ⟨h1, h2, h3, h4, h5⟩ := ih { p with mode := some (parseMode q) } ha
      exact ⟨h1, h2, h3, h4, mode q h5⟩
    | word s =>
      have hs : s = "Binary" ∨ s = "Text" := by
        have := h (.word s) (by simp)
        simp only [Meta.wrong] at this
        by_cases h1 : s = "Binary"
        · exact .inl h1
        · by_cases h2 : s = "Text"
          · exact .inr h2
          · exact absurd ⟨h1, h2⟩ this
      have e : parse (.word s :: a) p = parse a { p with mode := some (parseMode [s]) } := by
        rw [parse, parsePathMode_eq, if_pos hs]
      rw [e]
      obtain ⟨h1, h2, h3, h4, h5⟩ := ih { p with mode := some (parseMode [s]) } ha
      exact ⟨h1, h2, h3, h4, mode [s] h5⟩
    | encodeOnly =>
      obtain ⟨h1, h2, h3, h4, h5⟩ := ih { p with only := some .encode } ha
      refine ⟨h1, h2, h3, ?_, h5⟩
      show (parse a { p with only := some .encode }).only = ((Only.encode :: a.filterMap Meta.only?).getLast?).or p.only
      rw [h4]
      cases a.filterMap Meta.only? with
      | nil => rfl
      | cons x l => rw [List.getLast?_cons_cons, List.getLast?_eq_some_getLast (by simp)]; rfl
    | decodeOnly =>
      obtain ⟨h1, h2, h3, h4, h5⟩ := ih { p with only := some .decode } ha
      refine ⟨h1, h2, h3, ?_, h5⟩
      show (parse a { p with only := some .decode }).only = ((Only.decode :: a.filterMap Meta.only?).getLast?).or p.only
      rw [h4]
      cases a.filterMap Meta.only? with
      | nil => rfl
      | cons x l => rw [List.getLast?_cons_cons, List.getLast?_eq_some_getLast (by simp)]; rfl
    | set k v =>
      obtain ⟨h1, h2, h3, h4, h5⟩ := ih { p with sets := p.sets ++ [(k, v)] } ha
      refine ⟨h1, ?_, h3, h4, h5⟩
      rw [parse, h2]
      simp
    | add k v =>
      obtain ⟨h1, h2, h3, h4, h5⟩ := ih { p with adds := p.adds ++ [(k, v)] } ha
      refine ⟨h1, h2, ?_, h4, h5⟩
      rw [parse, h3]
      simp
    | bad => exact absurd trivial (h .bad (by simp))

theorem parse_wrong : ∀ (a : List (Meta K M V)) (p : Parsed K M V), (∃ m ∈ a, m.wrong) →
    (parse a p).failed = true := by
  intro a
  induction a with
  | nil => rintro p ⟨m, hm, _⟩; cases hm
  | cons x a ih =>
    rintro p ⟨m, hm, hw⟩
    have tail : (¬ x.wrong) → ∃ m ∈ a, m.wrong := by
      intro hx
      rcases List.mem_cons.1 hm with rfl | h
      · exact absurd hw hx
      · exact ⟨m, h, hw⟩
    cases x with
    | mode q => exact ih _ (tail (fun h => h))
    | encodeOnly => exact ih _ (tail (fun h => h))
    | decodeOnly => exact ih _ (tail (fun h => h))
    | set k v => exact ih _ (tail (fun h => h))
    | add k v => exact ih _ (tail (fun h => h))
    | bad => rfl
    | word s =>
      rw [parse, parsePathMode_eq]
      by_cases hs : s = "Binary" ∨ s = "Text"
      · rw [if_pos hs]
        exact ih _ (tail fun h => by
          rcases hs with e | e
          · exact h.1 e
          · exact h.2 e)
      · rw [if_neg hs]

theorem get_set {α : Type} (x : OneOf α) (o o' : Option Only) (a : α) :
    (x.set o a).get o' = if o' = o then a else x.get o' := by
  cases o with
  | none => cases o' with
    | none => rfl
    | some d => cases d <;> rfl
  | some c => cases c <;> (cases o' with
    | none => rfl
    | some d => cases d <;> rfl)

/-- The values for one attribute. -/
def valuesOf (k : K) (l : List (K × V)) : List V := l.filterMap fun x => if x.1 = k then some x.2 else none

theorem valuesOf_cons (k : K) (x : K × V) (l : List (K × V)) :
    valuesOf k (x :: l) = if x.1 = k then x.2 :: valuesOf k l else valuesOf k l := by
  unfold valuesOf
  by_cases h : x.1 = k
  · simp [h]
  · simp [h]

theorem mergeSingles_multiple (only : Option Only) : ∀ (l : List (K × V)) (s : Layer K M V × Nat),
    (l.foldl (mergeSingle only) s).1.multiple = s.1.multiple := by
  intro l
  induction l with
  | nil => intro s; rfl
  | cons x l ih =>
    intro s
    rw [List.foldl_cons, ih]
    unfold mergeSingle
    split <;> rfl

theorem mergeSingles_get (only : Option Only) : ∀ (l : List (K × V)) (s : Layer K M V × Nat) (o : Option Only)
    (k : K), ((l.foldl (mergeSingle only) s).1.single k).get o =
      if o = only then ((s.1.single k).get o).or (valuesOf k l).head? else (s.1.single k).get o := by
  intro l
  induction l with
  | nil => intro s o k; simp [valuesOf]
  | cons x l ih =>
    intro s o k
    rw [List.foldl_cons, ih, valuesOf_cons]
    have key : ((mergeSingle only s x).1.single k).get o =
        if o = only ∧ x.1 = k then ((s.1.single k).get o).or (some x.2) else (s.1.single k).get o := by
      unfold mergeSingle
      cases h : (s.1.single x.1).get only with
      | some y =>
        dsimp only
        split
        · rename_i e
          rw [e.1, ← e.2, h]; rfl
        · rfl
      | none =>
        dsimp only
        by_cases hk : k = x.1
        · subst hk
          rw [if_pos rfl, get_set]
          by_cases ho : o = only
          · subst ho; rw [if_pos rfl, if_pos ⟨rfl, rfl⟩, h]; rfl
          · rw [if_neg ho, if_neg (fun e => ho e.1)]
        · rw [if_neg hk, if_neg (fun e => hk e.2.symm)]
    rw [key]
    by_cases ho : o = only
    · subst ho
      rw [if_pos rfl, if_pos rfl]
      by_cases hk : x.1 = k
      · rw [if_pos ⟨rfl, hk⟩, if_pos hk]
        cases (s.1.single k).get o <;> rfl
      · rw [if_neg (fun e => hk e.2), if_neg hk]
    · rw [if_neg ho, if_neg ho, if_neg (fun e => ho e.1)]

theorem mergeSingle_le (only : Option Only) (s : Layer K M V × Nat) (x : K × V) :
    s.2 ≤ (mergeSingle only s x).2 := by
  unfold mergeSingle
  split
  · exact Nat.le_succ _
  · exact Nat.le_refl _

theorem mergeSingles_le (only : Option Only) : ∀ (l : List (K × V)) (s : Layer K M V × Nat),
    s.2 ≤ (l.foldl (mergeSingle only) s).2 := by
  intro l
  induction l with
  | nil => intro s; exact Nat.le_refl _
  | cons x l ih => intro s; exact Nat.le_trans (mergeSingle_le only s x) (ih _)

theorem mergeSingles_errors (only : Option Only) : ∀ (l : List (K × V)) (s : Layer K M V × Nat),
    (l.foldl (mergeSingle only) s).2 = 0 ↔ s.2 = 0 ∧ ∀ k,
      ((s.1.single k).get only).toList.length + (valuesOf k l).length ≤ 1 := by
  intro l
  induction l with
  | nil =>
    intro s
    refine ⟨fun h => ⟨h, fun k => ?_⟩, fun h => h.1⟩
    cases (s.1.single k).get only <;> simp [valuesOf]
  | cons x l ih =>
    intro s
    rw [List.foldl_cons, ih]
    have hget := mergeSingles_get only [x] s
    simp only [List.foldl_cons, List.foldl_nil] at hget
    cases h : (s.1.single x.1).get only with
    | some y =>
      have e : (mergeSingle only s x).2 = s.2 + 1 := by unfold mergeSingle; rw [h]
      rw [e]
      constructor
      · rintro ⟨h, _⟩; omega
      · rintro ⟨_, h'⟩
        have := h' x.1
        rw [h, valuesOf_cons, if_pos rfl, Option.toList_some, List.length_cons, List.length_cons] at this
        omega
    | none =>
      have e : (mergeSingle only s x).2 = s.2 := by unfold mergeSingle; rw [h]
      rw [e]
      refine and_congr_right fun _ => forall_congr' fun k => ?_
      rw [hget only k, if_pos rfl, valuesOf_cons, valuesOf_cons]
      by_cases hk : x.1 = k
      · subst hk
        rw [h, if_pos rfl, if_pos rfl]
        simp only [List.head?_cons, Option.none_or, Option.toList_some, Option.toList_none,
          List.length_cons, List.length_nil]
        omega
      · rw [if_neg hk, if_neg hk]
        have : (valuesOf k ([] : List (K × V))).head? = none := rfl
        rw [this, Option.or_none]

theorem mergeMultiples_single (only : Option Only) : ∀ (l : List (M × V)) (s : Layer K M V),
    (l.foldl (mergeMultiple only) s).single = s.single := by
  intro l
  induction l with
  | nil => intro s; rfl
  | cons x l ih => intro s; rw [List.foldl_cons, ih]; rfl

theorem mergeMultiples_get (only : Option Only) : ∀ (l : List (M × V)) (s : Layer K M V) (o : Option Only)
    (k : M), ((l.foldl (mergeMultiple only) s).multiple k).get o =
      if o = only then (s.multiple k).get o ++ valuesOf k l else (s.multiple k).get o := by
  intro l
  induction l with
  | nil => intro s o k; simp [valuesOf]
  | cons x l ih =>
    intro s o k
    rw [List.foldl_cons, ih, valuesOf_cons]
    have key : ((mergeMultiple only s x).multiple k).get o =
        if o = only ∧ x.1 = k then (s.multiple k).get o ++ [x.2] else (s.multiple k).get o := by
      unfold mergeMultiple
      dsimp only
      by_cases hk : k = x.1
      · subst hk
        rw [if_pos rfl, get_set]
        by_cases ho : o = only
        · subst ho; rw [if_pos rfl, if_pos ⟨rfl, rfl⟩]
        · rw [if_neg ho, if_neg (fun e => ho e.1)]
      · rw [if_neg hk, if_neg (fun e => hk e.2.symm)]
    rw [key]
    by_cases ho : o = only
    · subst ho
      rw [if_pos rfl, if_pos rfl]
      by_cases hk : x.1 = k
      · rw [if_pos ⟨rfl, hk⟩, if_pos hk]; simp
      · rw [if_neg (fun e => hk e.2), if_neg hk]
    · rw [if_neg ho, if_neg ho, if_neg (fun e => ho e.1)]

/-- The layer for a kind of modes, or for all modes. -/
def Attr.at (a : Attr K M V) : Option Kind → Layer K M V
  | none => a.root
  | some k => a.modes k

/-- The kind of the mode of an attribute. -/
def kindOf (a : List (Meta K M V)) : Option Kind := (modeOf a).map Mode.kind

theorem valuesOf_sets (k : K) (a : List (Meta K M V)) :
    valuesOf k (a.filterMap (fun m => match m with | .set k v => some (k, v) | _ => none)) =
      a.filterMap (Meta.one? k) := by
  rw [valuesOf, List.filterMap_filterMap]
  congr 1
  funext m
  cases m <;> rfl

theorem valuesOf_adds (k : M) (a : List (Meta K M V)) :
    valuesOf k (a.filterMap (fun m => match m with | .add k v => some (k, v) | _ => none)) =
      a.filterMap (Meta.many? k) := by
  rw [valuesOf, List.filterMap_filterMap]
  congr 1
  funext m
  cases m <;> rfl

theorem merge_single (only : Option Only) (new : Parsed K M V) (s : Layer K M V × Nat) (o : Option Only) (k : K) :
    ((merge only new s).1.single k).get o =
      if o = only then ((s.1.single k).get o).or (valuesOf k new.sets).head? else (s.1.single k).get o := by
  unfold merge
  dsimp only
  rw [mergeMultiples_single, mergeSingles_get]

theorem merge_multiple (only : Option Only) (new : Parsed K M V) (s : Layer K M V × Nat) (o : Option Only)
    (k : M) : ((merge only new s).1.multiple k).get o =
      if o = only then (s.1.multiple k).get o ++ valuesOf k new.adds else (s.1.multiple k).get o := by
  unfold merge
  dsimp only
  rw [mergeMultiples_get, mergeSingles_multiple]

theorem merge_errors (only : Option Only) (new : Parsed K M V) (s : Layer K M V × Nat) :
    (merge only new s).2 = 0 ↔ s.2 = 0 ∧ ∀ k,
      ((s.1.single k).get only).toList.length + (valuesOf k new.sets).length ≤ 1 :=
  mergeSingles_errors only new.sets s

/-- The mode the parser finds. -/
theorem parse_mode (a : List (Meta K M V)) (h : ∀ m ∈ a, ¬ m.wrong) :
    (parse a {}).mode.map ModeIdent.mode = modeOf a ∧ (parse a {}).mode.map ModeIdent.kind = kindOf a := by
  obtain ⟨_, _, _, _, ps, h1, h2⟩ := parse_ok a {} h
  have e : (parse a {}).mode.map ModeIdent.mode = modeOf a := by
    rw [h2, Option.or_none, modeOf, h1, List.getLast?_map, Option.map_map]
    congr 1
    funext q
    exact parseMode_mode q
  refine ⟨e, ?_⟩
  rw [kindOf, ← e, Option.map_map]
  congr 1
  funext m
  exact (mode_kind m).symm

/-- The context after parsing. -/
def ctxtOf (cx : Ctxt) (a : List (Meta K M V)) : Ctxt :=
  if (parse a {}).failed then { cx with errors := cx.errors + 1 } else cx

theorem attrStep_none (s : Ctxt × Attr K M V) (a : List (Meta K M V)) (h : (parse a {}).mode = none) :
    attrStep s a =
      ({ ctxtOf s.1 a with errors := (merge (parse a {}).only (parse a {}) (s.2.root, (ctxtOf s.1 a).errors)).2 },
        { s.2 with root := (merge (parse a {}).only (parse a {}) (s.2.root, (ctxtOf s.1 a).errors)).1 }) := by
  unfold attrStep
  dsimp only
  rw [h]
  rfl

theorem attrStep_some (s : Ctxt × Attr K M V) (a : List (Meta K M V)) (m : ModeIdent)
    (h : (parse a {}).mode = some m) :
    attrStep s a =
      ({ (ctxtOf s.1 a).register m with
          errors := (merge (parse a {}).only (parse a {}) (s.2.modes m.kind, (ctxtOf s.1 a).errors)).2 },
        { s.2 with modes := fun k => if k = m.kind then
          (merge (parse a {}).only (parse a {}) (s.2.modes m.kind, (ctxtOf s.1 a).errors)).1 else s.2.modes k }) := by
  unfold attrStep
  dsimp only
  rw [h]
  rfl

theorem attrStep_modes (s : Ctxt × Attr K M V) (a : List (Meta K M V)) (κ : Kind) :
    (attrStep s a).1.modes κ =
      if (parse a {}).mode.map ModeIdent.kind = some κ then (parse a {}).mode else s.1.modes κ := by
  have e : (ctxtOf s.1 a).modes = s.1.modes := by
    unfold ctxtOf
    split <;> rfl
  cases h : (parse a {}).mode with
  | none =>
    rw [attrStep_none s a h]
    dsimp only
    rw [e]; rfl
  | some m =>
    rw [attrStep_some s a m h]
    dsimp only [Ctxt.register]
    rw [e]
    by_cases hk : κ = m.kind
    · subst hk; rw [if_pos rfl]; simp
    · rw [if_neg hk, if_neg]
      intro h'
      exact hk (Option.some.inj h').symm

theorem attrStep_single (s : Ctxt × Attr K M V) (a : List (Meta K M V)) (h : ∀ m ∈ a, ¬ m.wrong)
    (κ : Option Kind) (o : Option Only) (k : K) :
    (((attrStep s a).2.at κ).single k).get o =
      if kindOf a = κ ∧ onlyOf a = o then (((s.2.at κ).single k).get o).or (a.filterMap (Meta.one? k)).head?
      else ((s.2.at κ).single k).get o := by
  obtain ⟨_, h2, _, h4, _⟩ := parse_ok a {} h
  have hk := (parse_mode a h).2
  have ho : (parse a {}).only = onlyOf a := by rw [h4, Option.or_none]; rfl
  have hs : valuesOf k (parse a {}).sets = a.filterMap (Meta.one? k) := by rw [h2]; exact valuesOf_sets k a
  cases hm : (parse a {}).mode with
  | none =>
    rw [attrStep_none s a hm]
    rw [hm] at hk
    dsimp only
    cases κ with
    | none =>
      show ((merge (parse a {}).only (parse a {}) _).1.single k).get o = _
      rw [merge_single, hs, ho, ← hk]
      by_cases e : o = onlyOf a
      · rw [if_pos e, if_pos ⟨rfl, e.symm⟩]; rfl
      · rw [if_neg e, if_neg (fun x => e x.2.symm)]; rfl
    | some κ =>
      rw [if_neg]
      · rfl
      · rintro ⟨e, _⟩; rw [← hk] at e; cases e
  | some m =>
    rw [attrStep_some s a m hm]
    rw [hm] at hk
    dsimp only
    cases κ with
    | none =>
      rw [if_neg]
      · rfl
      · rintro ⟨e, _⟩; rw [← hk] at e; cases e
    | some κ =>
      show (Layer.single (if κ = m.kind then (merge (parse a {}).only (parse a {}) _).1 else s.2.modes κ) k).get o = _
      by_cases e' : κ = m.kind
      · subst e'
        rw [if_pos rfl, merge_single, hs, ho, ← hk]
        by_cases e : o = onlyOf a
        · rw [if_pos e, if_pos ⟨rfl, e.symm⟩]; rfl
        · rw [if_neg e, if_neg (fun x => e x.2.symm)]; rfl
      · rw [if_neg e', if_neg]
        · rfl
        · rintro ⟨e, _⟩; rw [← hk] at e; exact e' (Option.some.inj e).symm

theorem attrStep_multiple (s : Ctxt × Attr K M V) (a : List (Meta K M V)) (h : ∀ m ∈ a, ¬ m.wrong)
    (κ : Option Kind) (o : Option Only) (k : M) :
    (((attrStep s a).2.at κ).multiple k).get o =
      if kindOf a = κ ∧ onlyOf a = o then ((s.2.at κ).multiple k).get o ++ a.filterMap (Meta.many? k)
      else ((s.2.at κ).multiple k).get o := by
  obtain ⟨_, _, h3, h4, _⟩ := parse_ok a {} h
  have hk := (parse_mode a h).2
  have ho : (parse a {}).only = onlyOf a := by rw [h4, Option.or_none]; rfl
  have hs : valuesOf k (parse a {}).adds = a.filterMap (Meta.many? k) := by rw [h3]; exact valuesOf_adds k a
  cases hm : (parse a {}).mode with
  | none =>
    rw [attrStep_none s a hm]
    rw [hm] at hk
    dsimp only
    cases κ with
    | none =>
      show ((merge (parse a {}).only (parse a {}) _).1.multiple k).get o = _
      rw [merge_multiple, hs, ho, ← hk]
      by_cases e : o = onlyOf a
      · rw [if_pos e, if_pos ⟨rfl, e.symm⟩]; rfl
      · rw [if_neg e, if_neg (fun x => e x.2.symm)]; rfl
    | some κ =>
      rw [if_neg]
      · rfl
      · rintro ⟨e, _⟩; rw [← hk] at e; cases e
  | some m =>
    rw [attrStep_some s a m hm]
    rw [hm] at hk
    dsimp only
    cases κ with
    | none =>
      rw [if_neg]
      · rfl
      · rintro ⟨e, _⟩; rw [← hk] at e; cases e
    | some κ =>
      show (Layer.multiple (if κ = m.kind then (merge (parse a {}).only (parse a {}) _).1 else s.2.modes κ) k).get o = _
      by_cases e' : κ = m.kind
      · subst e'
        rw [if_pos rfl, merge_multiple, hs, ho, ← hk]
        by_cases e : o = onlyOf a
        · rw [if_pos e, if_pos ⟨rfl, e.symm⟩]; rfl
        · rw [if_neg e, if_neg (fun x => e x.2.symm)]; rfl
      · rw [if_neg e', if_neg]
        · rfl
        · rintro ⟨e, _⟩; rw [← hk] at e; exact e' (Option.some.inj e).symm

theorem attrStep_le (s : Ctxt × Attr K M V) (a : List (Meta K M V)) :
    s.1.errors + (if (parse a {}).failed then 1 else 0) ≤ (attrStep s a).1.errors := by
  have e : (ctxtOf s.1 a).errors = s.1.errors + (if (parse a {}).failed then 1 else 0) := by
    unfold ctxtOf
    split <;> rfl
  cases hm : (parse a {}).mode with
  | none =>
    rw [attrStep_none s a hm]
    dsimp only
    rw [← e]
    exact mergeSingles_le (parse a {}).only (parse a {}).sets (s.2.root, _)
  | some m =>
    rw [attrStep_some s a m hm]
    dsimp only [Ctxt.register]
    rw [← e]
    exact mergeSingles_le (parse a {}).only (parse a {}).sets (s.2.modes m.kind, _)

theorem attrStep_errors (s : Ctxt × Attr K M V) (a : List (Meta K M V)) :
    (attrStep s a).1.errors = 0 ↔ s.1.errors = 0 ∧ (∀ m ∈ a, ¬ m.wrong) ∧ ∀ k,
      (((s.2.at (kindOf a)).single k).get (onlyOf a)).toList.length + (a.filterMap (Meta.one? k)).length ≤ 1 := by
  by_cases h : ∀ m ∈ a, ¬ m.wrong
  · obtain ⟨h1, h2, _, h4, _⟩ := parse_ok a {} h
    have hk := (parse_mode a h).2
    have ho : (parse a {}).only = onlyOf a := by rw [h4, Option.or_none]; rfl
    have hs : ∀ k, valuesOf k (parse a {}).sets = a.filterMap (Meta.one? k) := by
      intro k; rw [h2]; exact valuesOf_sets k a
    have hf : (parse a {}).failed = false := h1
    have hx : ctxtOf s.1 a = s.1 := by unfold ctxtOf; rw [hf]; rfl
    cases hm : (parse a {}).mode with
    | none =>
      rw [attrStep_none s a hm]
      rw [hm] at hk
      dsimp only
      rw [merge_errors, ho, ← hk, hx]
      simp only [hs]
      constructor
      · rintro ⟨a, b⟩; exact ⟨a, h, b⟩
      · rintro ⟨a, _, b⟩; exact ⟨a, b⟩
    | some m =>
      rw [attrStep_some s a m hm]
      rw [hm] at hk
      dsimp only
      rw [merge_errors, ho, ← hk, hx]
      simp only [hs]
      constructor
      · rintro ⟨a, b⟩; exact ⟨a, h, b⟩
      · rintro ⟨a, _, b⟩; exact ⟨a, b⟩
  · have hw : ∃ m ∈ a, m.wrong := by
      refine Classical.byContradiction fun hn => h fun m hm hw => hn ⟨m, hm, hw⟩
    have := attrStep_le s a
    rw [parse_wrong a {} hw, if_pos rfl] at this
    constructor
    · intro e; omega
    · rintro ⟨_, e, _⟩; exact absurd e h

/-- `given`, by kind. -/
def givenK (as : List (List (Meta K M V))) (κ : Option Kind) (o : Option Only) (k : K) : List V :=
  as.flatMap fun a => if kindOf a = κ ∧ onlyOf a = o then a.filterMap (Meta.one? k) else []

/-- `added`, by kind. -/
def addedK (as : List (List (Meta K M V))) (κ : Option Kind) (o : Option Only) (k : M) : List V :=
  as.flatMap fun a => if kindOf a = κ ∧ onlyOf a = o then a.filterMap (Meta.many? k) else []

theorem fold_single : ∀ (as : List (List (Meta K M V))) (s : Ctxt × Attr K M V),
    (∀ a ∈ as, ∀ m ∈ a, ¬ m.wrong) → ∀ (κ : Option Kind) (o : Option Only) (k : K),
    (((as.foldl attrStep s).2.at κ).single k).get o =
      (((s.2.at κ).single k).get o).or (givenK as κ o k).head? := by
  intro as
  induction as with
  | nil => intro s _ κ o k; simp [givenK]
  | cons a as ih =>
    intro s h κ o k
    rw [List.foldl_cons, ih _ (fun b hb => h b (by simp [hb])), attrStep_single s a (h a (by simp))]
    have e : givenK (a :: as) κ o k =
        (if kindOf a = κ ∧ onlyOf a = o then a.filterMap (Meta.one? k) else []) ++ givenK as κ o k := rfl
    rw [e]
    by_cases hc : kindOf a = κ ∧ onlyOf a = o
    · rw [if_pos hc, if_pos hc, Option.or_assoc, List.head?_append]
    · rw [if_neg hc, if_neg hc]; rfl

theorem fold_multiple : ∀ (as : List (List (Meta K M V))) (s : Ctxt × Attr K M V),
    (∀ a ∈ as, ∀ m ∈ a, ¬ m.wrong) → ∀ (κ : Option Kind) (o : Option Only) (k : M),
    (((as.foldl attrStep s).2.at κ).multiple k).get o =
      ((s.2.at κ).multiple k).get o ++ addedK as κ o k := by
  intro as
  induction as with
  | nil => intro s _ κ o k; simp [addedK]
  | cons a as ih =>
    intro s h κ o k
    rw [List.foldl_cons, ih _ (fun b hb => h b (by simp [hb])), attrStep_multiple s a (h a (by simp))]
    have e : addedK (a :: as) κ o k =
        (if kindOf a = κ ∧ onlyOf a = o then a.filterMap (Meta.many? k) else []) ++ addedK as κ o k := rfl
    rw [e]
    by_cases hc : kindOf a = κ ∧ onlyOf a = o
    · rw [if_pos hc, if_pos hc, List.append_assoc]
    · rw [if_neg hc, if_neg hc]; rfl

theorem fold_errors : ∀ (as : List (List (Meta K M V))) (s : Ctxt × Attr K M V),
    (as.foldl attrStep s).1.errors = 0 ↔ s.1.errors = 0 ∧ (∀ a ∈ as, ∀ m ∈ a, ¬ m.wrong) ∧
      ∀ κ o k, (givenK as κ o k = [] ∨
        (((s.2.at κ).single k).get o).toList.length + (givenK as κ o k).length ≤ 1) := by
  intro as
  induction as with
  | nil =>
    intro s
    refine ⟨fun h => ⟨h, by simp, fun κ o k => .inl rfl⟩, fun h => h.1⟩
  | cons a as ih =>
    intro s
    rw [List.foldl_cons, ih, attrStep_errors]
    have e : ∀ κ o k, givenK (a :: as) κ o k =
        (if kindOf a = κ ∧ onlyOf a = o then a.filterMap (Meta.one? k) else []) ++ givenK as κ o k :=
      fun _ _ _ => rfl
    by_cases hw : ∀ m ∈ a, ¬ m.wrong
    · have hg := attrStep_single s a hw
      constructor
      · rintro ⟨⟨h1, _, h2⟩, h3, h4⟩
        refine ⟨h1, ?_, ?_⟩
        · intro b hb
          rcases List.mem_cons.1 hb with rfl | hb
          · exact hw
          · exact h3 b hb
        · intro κ o k
          have h4' := h4 κ o k
          rw [hg] at h4'
          rw [e]
          by_cases hc : kindOf a = κ ∧ onlyOf a = o
          · rw [if_pos hc] at h4' ⊢
            have h2' := h2 k
            rw [hc.1, hc.2] at h2'
            rcases h4' with h4' | h4'
            · rw [h4', List.append_nil]; exact .inr h2'
            · right
              rw [List.length_append]
              cases hx : ((s.2.at κ).single k).get o with
              | some x =>
                rw [hx] at h2' h4'
                simp only [Option.toList_some, List.length_cons, List.length_nil, Option.some_or] at h2' h4' ⊢
                omega
              | none =>
                rw [hx] at h2' h4'
                cases hl : a.filterMap (Meta.one? k) with
                | nil =>
                  rw [hl] at h4'
                  simp only [Option.toList_none, List.length_nil, Option.none_or, List.head?_nil] at h4' ⊢
                  omega
                | cons y l =>
                  rw [hl] at h4' h2'
                  simp only [Option.toList_none, Option.toList_some, List.length_cons, List.length_nil,
                    Option.none_or, List.head?_cons] at h2' h4' ⊢
                  omega
          · rw [if_neg hc] at h4' ⊢
            rw [List.nil_append]
            exact h4'
      · rintro ⟨h1, h3, h4⟩
        refine ⟨⟨h1, hw, ?_⟩, fun b hb => h3 b (by simp [hb]), ?_⟩
        · intro k
          have h4' := h4 (kindOf a) (onlyOf a) k
          rw [e, if_pos ⟨rfl, rfl⟩] at h4'
          rcases h4' with h4' | h4'
          · rw [(List.append_eq_nil_iff.1 h4').1]
            cases ((s.2.at (kindOf a)).single k).get (onlyOf a) <;> simp
          · rw [List.length_append] at h4'; omega
        · intro κ o k
          have h4' := h4 κ o k
          rw [hg]
          rw [e] at h4'
          by_cases hc : kindOf a = κ ∧ onlyOf a = o
          · rw [if_pos hc] at h4' ⊢
            rcases h4' with h4' | h4'
            · exact .inl (List.append_eq_nil_iff.1 h4').2
            · rw [List.length_append] at h4'
              cases hg' : givenK as κ o k with
              | nil => exact .inl rfl
              | cons y l =>
                right
                rw [hg', List.length_cons] at h4'
                have : (a.filterMap (Meta.one? k)) = [] := List.length_eq_zero_iff.1 (by omega)
                rw [this, List.head?_nil, Option.or_none, List.length_cons]
                omega
          · rw [if_neg hc] at h4' ⊢
            exact h4'
    · constructor
      · rintro ⟨⟨_, h, _⟩, _⟩; exact absurd h hw
      · rintro ⟨_, h, _⟩; exact absurd (h a (by simp)) hw

/-- The modes which are registered have the kind under which they are. -/
def Ctxt.Ok (cx : Ctxt) : Prop := ∀ κ m, cx.modes κ = some m → m.kind = κ

theorem attrStep_ok (s : Ctxt × Attr K M V) (a : List (Meta K M V)) (h : s.1.Ok) : (attrStep s a).1.Ok := by
  intro κ m hm
  rw [attrStep_modes] at hm
  split at hm
  · rename_i e
    rw [hm] at e
    exact Option.some.inj e
  · exact h κ m hm

theorem attrStep_named (s : Ctxt × Attr K M V) (a : List (Meta K M V)) (h : ∀ m ∈ a, ¬ m.wrong) (κ : Kind) :
    ((attrStep s a).1.modes κ).map ModeIdent.mode =
      (((modeOf a).toList.filter (fun m => m.kind = κ)).getLast?).or ((s.1.modes κ).map ModeIdent.mode) := by
  rw [attrStep_modes, (parse_mode a h).2]
  have h1 := (parse_mode a h).1
  unfold kindOf
  cases hm : modeOf a with
  | none => simp
  | some m =>
    rw [hm] at h1
    by_cases hk : m.kind = κ
    · simp [hk, h1]
    · simp [hk]

theorem fold_named : ∀ (as : List (List (Meta K M V))) (s : Ctxt × Attr K M V),
    (∀ a ∈ as, ∀ m ∈ a, ¬ m.wrong) → ∀ κ, ((as.foldl attrStep s).1.modes κ).map ModeIdent.mode =
      (((as.filterMap modeOf).filter (fun m => m.kind = κ)).getLast?).or ((s.1.modes κ).map ModeIdent.mode) := by
  intro as
  induction as with
  | nil => intro s _ κ; simp
  | cons a as ih =>
    intro s h κ
    rw [List.foldl_cons, ih _ (fun b hb => h b (by simp [hb])), attrStep_named s a (h a (by simp)),
      ← Option.or_assoc]
    congr 1
    have e : (a :: as).filterMap modeOf = (modeOf a).toList ++ as.filterMap modeOf := by
      rw [List.filterMap_cons]
      cases modeOf a <;> rfl
    rw [e, List.filter_append, List.getLast?_append]

theorem fold_ok : ∀ (as : List (List (Meta K M V))) (s : Ctxt × Attr K M V), s.1.Ok →
    (as.foldl attrStep s).1.Ok := by
  intro as
  induction as with
  | nil => intro s h; exact h
  | cons a as ih => intro s h; exact ih _ (attrStep_ok s a h)

theorem expand_ok : ∀ (items : List (List (List (Meta K M V)))) (cx : Ctxt), cx.Ok → (expand cx items).1.Ok := by
  intro items
  induction items with
  | nil => intro cx h; exact h
  | cons as items ih => intro cx h; exact ih _ (fold_ok as _ h)

theorem expand_errors : ∀ (items : List (List (List (Meta K M V)))) (cx : Ctxt),
    (expand cx items).1.errors = 0 ↔ cx.errors = 0 ∧ ∀ as ∈ items,
      (∀ a ∈ as, ∀ m ∈ a, ¬ m.wrong) ∧ ∀ κ o k, (givenK as κ o k).length ≤ 1 := by
  intro items
  induction items with
  | nil => intro cx; exact ⟨fun h => ⟨h, by simp⟩, fun h => h.1⟩
  | cons as items ih =>
    intro cx
    have e : (expand cx (as :: items)).1 = (expand (itemAttrs cx as).1 items).1 := rfl
    rw [e, ih]
    unfold itemAttrs
    rw [fold_errors]
    have he : ∀ κ o (k : K), (((Attr.at ({} : Attr K M V) κ).single k).get o) = none := by
      intro κ o k
      cases κ <;> cases o <;> rename_i x <;> (try cases x) <;> rfl
    constructor
    · rintro ⟨⟨h1, h2, h3⟩, h4⟩
      refine ⟨h1, fun bs hb => ?_⟩
      rcases List.mem_cons.1 hb with rfl | hb
      · refine ⟨h2, fun κ o k => ?_⟩
        rcases h3 κ o k with h | h
        · rw [h]; exact Nat.zero_le _
        · omega
      · exact h4 bs hb
    · rintro ⟨h1, h2⟩
      refine ⟨⟨h1, (h2 as (by simp)).1, fun κ o k => .inr ?_⟩, fun bs hb => h2 bs (by simp [hb])⟩
      show (((Attr.at ({} : Attr K M V) κ).single k).get o).toList.length + _ ≤ 1
      rw [he]
      simpa using (h2 as (by simp)).2 κ o k

theorem expand_named : ∀ (items : List (List (List (Meta K M V)))) (cx : Ctxt),
    (∀ as ∈ items, ∀ a ∈ as, ∀ m ∈ a, ¬ m.wrong) → ∀ κ, ((expand cx items).1.modes κ).map ModeIdent.mode =
      (((items.flatten.filterMap modeOf).filter (fun m => m.kind = κ)).getLast?).or
        ((cx.modes κ).map ModeIdent.mode) := by
  intro items
  induction items with
  | nil => intro cx _ κ; simp [expand]
  | cons as items ih =>
    intro cx h κ
    have e : (expand cx (as :: items)).1 = (expand (itemAttrs cx as).1 items).1 := rfl
    rw [e, ih _ (fun b hb => h b (by simp [hb]))]
    unfold itemAttrs
    rw [fold_named as _ (h as (by simp)), ← Option.or_assoc]
    congr 1
    rw [List.flatten_cons, List.filterMap_append, List.filter_append, List.getLast?_append]

/-- The attributes of an item are those its own attributes give. -/
theorem expand_get : ∀ (items : List (List (List (Meta K M V)))) (cx : Ctxt),
    ∀ (i : Nat) at', (expand cx items).2[i]? = some at' → ∃ as cx', items[i]? = some as ∧ at' = (itemAttrs cx' as).2 := by
  intro items
  induction items with
  | nil => intro cx i at' h; cases h
  | cons as items ih =>
    intro cx i at' h
    cases i with
    | zero => exact ⟨as, cx, rfl, (Option.some.inj h).symm⟩
    | succ i => exact ih _ i at' h

theorem layer_one (l : Layer K M V) (only : Only) (k : K) :
    l.one only k = ((l.single k).get (some only)).or ((l.single k).get none) := by
  unfold Layer.one
  cases only
  · show (if (l.single k).encode.isSome then (l.single k).encode else (l.single k).any) =
      (l.single k).encode.or (l.single k).any
    cases (l.single k).encode <;> rfl
  · show (if (l.single k).decode.isSome then (l.single k).decode else (l.single k).any) =
      (l.single k).decode.or (l.single k).any
    cases (l.single k).decode <;> rfl

/-- A list which is not empty. -/
def nonEmpty {α : Type} (l : List α) : Option (List α) := if l.isEmpty then none else some l

theorem layer_many (l : Layer K M V) (only : Only) (k : M) :
    l.many only k = (nonEmpty ((l.multiple k).get (some only))).or (nonEmpty ((l.multiple k).get none)) := by
  unfold Layer.many
  cases only
  · show (if (l.multiple k).encode.isEmpty then nonEmpty (l.multiple k).any else some (l.multiple k).encode) =
      (nonEmpty (l.multiple k).encode).or (nonEmpty (l.multiple k).any)
    cases h : (l.multiple k).encode <;> rfl
  · show (if (l.multiple k).decode.isEmpty then nonEmpty (l.multiple k).any else some (l.multiple k).decode) =
      (nonEmpty (l.multiple k).decode).or (nonEmpty (l.multiple k).any)
    cases h : (l.multiple k).decode <;> rfl

theorem byMode_or {α : Type} (a : Attr K M V) (kind : Kind) (access : Layer K M V → Option α) :
    byMode a kind access = (access (a.at (some kind))).or (access (a.at none)) := by
  unfold byMode
  show (match access (a.at (some kind)) with | some x => some x | none => access (a.at none)) = _
  cases access (a.at (some kind)) <;> rfl

theorem firstOf_head {α : Type} (a b c d : List α) :
    (firstOf [a, b, c, d]).head? = (a.head?.or b.head?).or (c.head?.or d.head?) := by
  cases a <;> cases b <;> cases c <;> cases d <;> rfl

theorem firstOf_many {α : Type} (a b c d : List α) :
    firstOf [a, b, c, d] =
      (((nonEmpty a).or (nonEmpty b)).or ((nonEmpty c).or (nonEmpty d))).getD [] := by
  cases a <;> cases b <;> cases c <;> cases d <;> rfl

theorem item_one (cx : Ctxt) (as : List (List (Meta K M V))) (h : ∀ a ∈ as, ∀ m ∈ a, ¬ m.wrong)
    (kind : Kind) (only : Only) (k : K) :
    (itemAttrs cx as).2.one kind only k =
      (firstOf [givenK as (some kind) (some only) k, givenK as (some kind) none k,
        givenK as none (some only) k, givenK as none none k]).head? := by
  unfold Attr.one itemAttrs
  rw [byMode_or, layer_one, layer_one, firstOf_head]
  simp only [fold_single as _ h]
  have he : ∀ κ o, (((Attr.at ({} : Attr K M V) κ).single k).get o) = none := by
    intro κ o
    cases κ <;> cases o <;> rename_i x <;> (try cases x) <;> rfl
  simp only [he, Option.none_or]

theorem item_many (cx : Ctxt) (as : List (List (Meta K M V))) (h : ∀ a ∈ as, ∀ m ∈ a, ¬ m.wrong)
    (kind : Kind) (only : Only) (k : M) :
    (itemAttrs cx as).2.many kind only k =
      firstOf [addedK as (some kind) (some only) k, addedK as (some kind) none k,
        addedK as none (some only) k, addedK as none none k] := by
  unfold Attr.many itemAttrs
  rw [byMode_or, layer_many, layer_many, firstOf_many]
  simp only [fold_multiple as _ h]
  have he : ∀ κ o, (((Attr.at ({} : Attr K M V) κ).multiple k).get o) = [] := by
    intro κ o
    cases κ <;> cases o <;> rename_i x <;> (try cases x) <;> rfl
  simp only [he, List.nil_append]

theorem mode_eq_of_kind {m n : Mode} (h : m.kind = n.kind) (hc : ∀ p q, m = .custom p → n = .custom q → p = q) :
    m = n := by
  cases m <;> cases n <;> first | rfl | (cases h; done) | skip
  rw [hc _ _ rfl rfl]

/-- When one custom mode is named only, a kind is a mode. -/
theorem kind_iff {all : List (List (Meta K M V))} (hone : OneCustom all) {mode : Mode}
    (hn : ∀ p, mode = .custom p → Named all mode) {a : List (Meta K M V)} (ha : a ∈ all) :
    kindOf a = some mode.kind ↔ modeOf a = some mode := by
  unfold kindOf
  constructor
  · intro h
    cases hm : modeOf a with
    | none => rw [hm] at h; cases h
    | some m =>
      rw [hm] at h
      rw [mode_eq_of_kind (Option.some.inj h)]
      intro p q e1 e2
      obtain ⟨b, hb, hb'⟩ := hn q e2
      exact hone a ha b hb p q (by rw [hm, e1]) (by rw [hb', e2])
  · intro h; rw [h]; rfl

theorem kind_none (a : List (Meta K M V)) : kindOf a = none ↔ modeOf a = none := by
  unfold kindOf
  cases modeOf a <;> simp

theorem givenK_none (as : List (List (Meta K M V))) (o : Option Only) (k : K) :
    givenK as none o k = given as none o k := by
  unfold givenK given
  simp only [kind_none]

theorem addedK_none (as : List (List (Meta K M V))) (o : Option Only) (k : M) :
    addedK as none o k = added as none o k := by
  unfold addedK added
  simp only [kind_none]

theorem flatMap_congr_mem {α β : Type} {l : List α} {f g : α → List β} (h : ∀ x ∈ l, f x = g x) :
    l.flatMap f = l.flatMap g := by
  induction l with
  | nil => rfl
  | cons x l ih =>
    rw [List.flatMap_cons, List.flatMap_cons, h x (by simp), ih fun y hy => h y (by simp [hy])]

theorem givenK_some {all as : List (List (Meta K M V))} (hone : OneCustom all) {mode : Mode}
    (hn : ∀ p, mode = .custom p → Named all mode) (hsub : ∀ a ∈ as, a ∈ all) (o : Option Only) (k : K) :
    givenK as (some mode.kind) o k = given as (some mode) o k :=
  flatMap_congr_mem fun a ha => by simp only [kind_iff hone hn (hsub a ha)]

theorem addedK_some {all as : List (List (Meta K M V))} (hone : OneCustom all) {mode : Mode}
    (hn : ∀ p, mode = .custom p → Named all mode) (hsub : ∀ a ∈ as, a ∈ all) (o : Option Only) (k : M) :
    addedK as (some mode.kind) o k = added as (some mode) o k :=
  flatMap_congr_mem fun a ha => by simp only [kind_iff hone hn (hsub a ha)]

theorem given_le (as : List (List (Meta K M V))) (mode : Option Mode) (o : Option Only) (k : K) :
    (given as mode o k).length ≤ (givenK as (mode.map Mode.kind) o k).length := by
  induction as with
  | nil => exact Nat.le_refl _
  | cons a as ih =>
    have e1 : given (a :: as) mode o k =
        (if modeOf a = mode ∧ onlyOf a = o then a.filterMap (Meta.one? k) else []) ++ given as mode o k := rfl
    have e2 : givenK (a :: as) (mode.map Mode.kind) o k =
        (if kindOf a = mode.map Mode.kind ∧ onlyOf a = o then a.filterMap (Meta.one? k) else []) ++
          givenK as (mode.map Mode.kind) o k := rfl
    rw [e1, e2, List.length_append, List.length_append]
    by_cases h : modeOf a = mode ∧ onlyOf a = o
    · have h' : kindOf a = mode.map Mode.kind ∧ onlyOf a = o := ⟨by rw [kindOf, h.1], h.2⟩
      rw [if_pos h, if_pos h']
      omega
    · rw [if_neg h]
      simp only [List.length_nil]
      omega

/-- What is given for a kind is given for a mode, when one custom mode is named only. -/
theorem givenK_mode {as : List (List (Meta K M V))} (hone : OneCustom as) (κ : Option Kind) (o : Option Only)
    (k : K) : givenK as κ o k = [] ∨ ∃ mode, givenK as κ o k = given as mode o k := by
  cases κ with
  | none => exact .inr ⟨none, givenK_none as o k⟩
  | some κ =>
    by_cases hn : ∃ a ∈ as, kindOf a = some κ
    · obtain ⟨a, ha, hk⟩ := hn
      cases hm : modeOf a with
      | none => rw [kindOf, hm] at hk; cases hk
      | some m =>
        rw [kindOf, hm] at hk
        have hk : m.kind = κ := Option.some.inj hk
        subst hk
        exact .inr ⟨some m, givenK_some hone (fun p _ => ⟨a, ha, hm⟩) (fun a h => h) o k⟩
    · left
      unfold givenK
      rw [List.flatMap_eq_nil_iff]
      intro a ha
      rw [if_neg (fun e => hn ⟨a, ha, e.1⟩)]

/-- All modes which there are implementations for. -/
theorem mem_builds (cx : Ctxt) (hok : cx.Ok) (mode : Mode) :
    mode ∈ (builds cx).map ModeIdent.mode ↔
      (cx.modes mode.kind).map ModeIdent.mode = some mode ∨
        (cx.modes mode.kind = none ∧ (mode = .binary ∨ mode = .text)) := by
  have hmem : ∀ m, m ∈ [Kind.binary, .text, .custom].filterMap cx.modes ↔ cx.modes m.kind = some m := by
    intro m
    rw [List.mem_filterMap]
    constructor
    · rintro ⟨κ, _, h⟩; rw [hok κ m h]; exact h
    · intro h; exact ⟨m.kind, by cases m.kind <;> simp, h⟩
  have hall : ∀ κ, (([Kind.binary, .text, .custom].filterMap cx.modes).all fun m => m.kind ≠ κ) = true ↔
      cx.modes κ = none := by
    intro κ
    rw [List.all_eq_true]
    constructor
    · intro h
      cases hc : cx.modes κ with
      | none => rfl
      | some m =>
        have hk := hok κ m hc
        have := h m ((hmem m).2 (by rw [hk]; exact hc))
        simp [hk] at this
    · intro h m hm
      have := (hmem m).1 hm
      have hne : m.kind ≠ κ := by
        intro e; rw [e, h] at this; cases this
      simp [hne]
  unfold builds
  dsimp only
  rw [List.map_append, List.mem_append, List.mem_map, List.mem_map]
  constructor
  · rintro (⟨m, hm, rfl⟩ | ⟨m, hm, rfl⟩)
    · left
      rw [mode_kind, (hmem m).1 hm]; rfl
    · right
      rw [List.mem_filter] at hm
      rw [mode_kind]
      refine ⟨(hall m.kind).1 hm.2, ?_⟩
      have := hm.1
      simp only [List.mem_cons, List.not_mem_nil, or_false] at this
      rcases this with rfl | rfl
      · exact .inl rfl
      · exact .inr rfl
  · rintro (h | ⟨h, rfl | rfl⟩)
    · left
      cases hc : cx.modes mode.kind with
      | none => rw [hc] at h; cases h
      | some m =>
        rw [hc] at h
        refine ⟨m, (hmem m).2 ?_, Option.some.inj h⟩
        rw [hok _ m hc]; exact hc
    · right
      refine ⟨⟨["Binary"], .binary⟩, List.mem_filter.2 ⟨by simp, (hall _).2 h⟩, rfl⟩
    · right
      refine ⟨⟨["Text"], .text⟩, List.mem_filter.2 ⟨by simp, (hall _).2 h⟩, rfl⟩

/-- There is at most one implementation of a kind. -/
theorem builds_nodup (cx : Ctxt) (hok : cx.Ok) : ((builds cx).map ModeIdent.kind).Nodup := by
  have hb := hok .binary
  have ht := hok .text
  have hc := hok .custom
  unfold builds
  cases h1 : cx.modes .binary with
  | none => cases h2 : cx.modes .text with
    | none => cases h3 : cx.modes .custom with
      | none => simp [h1, h2, h3]
      | some c => simp [h1, h2, h3, hc c h3]
    | some t => cases h3 : cx.modes .custom with
      | none => simp [h1, h2, h3, ht t h2]
      | some c => simp [h1, h2, h3, ht t h2, hc c h3]
  | some b => cases h2 : cx.modes .text with
    | none => cases h3 : cx.modes .custom with
      | none => simp [h1, h2, h3, hb b h1]
      | some c => simp [h1, h2, h3, hb b h1, hc c h3]
    | some t => cases h3 : cx.modes .custom with
      | none => simp [h1, h2, h3, hb b h1, ht t h2]
      | some c => simp [h1, h2, h3, hb b h1, ht t h2, hc c h3]

end
end Musli.Attr
