import Verif.Spec.SkipField
import Verif.Proofs.RoundTrip
import Verif.Proofs.Evolution
import Verif.Proofs.Tagged
import Verif.Proofs.Json.Decode
/-!
# Skipped fields are not there
-/
set_option linter.unusedSectionVars false
namespace Musli

section
variable (env : Env)

theorem allCount_eq : ∀ (fs : AllFields) (v : fs.Val), fs.count env v = fs.unskipped.count env (fs.visible v)
  | .nil, _ => rfl
  | .field n d s t fs, v => by
    show (if fieldPresent env s t v.1 then 1 else 0) + fs.count env v.2 = _
    rw [allCount_eq fs v.2]
    rfl
  | .skipped i t fs, v => allCount_eq fs v.2

theorem allFinish_eq : ∀ (fs : AllFields) (p : fs.unskipped.Partial) (v : fs.Val),
    fs.finish env p = .ok v ↔ fs.unskipped.finish env p = .ok (fs.visible v) ∧ fs.Fresh env v
  | .nil, _, _ => by simp [AllFields.finish, AllFields.unskipped, Fields.finish, AllFields.Fresh]; rfl
  | .field n d s t fs, p, v => by
    have ih := allFinish_eq fs p.2 v.2
    simp only [AllFields.finish, AllFields.unskipped, Fields.finish, AllFields.Fresh, AllFields.visible]
    cases hv : fieldValue env d t p.1 with
    | error e => simp
    | ok x =>
      dsimp only
      constructor
      · intro h
        cases hw : fs.finish env p.2 with
        | error e => rw [hw] at h; cases h
        | ok w =>
          rw [hw] at h
          cases h
          obtain ⟨h1, h2⟩ := ih.mp hw
          rw [h1]
          exact ⟨rfl, h2⟩
      · rintro ⟨h, hf⟩
        cases hw : fs.unskipped.finish env p.2 with
        | error e => rw [hw] at h; cases h
        | ok w =>
          rw [hw] at h
          simp only [Except.ok.injEq] at h
          obtain ⟨rfl, rfl⟩ := Prod.mk.inj h
          rw [ih.mpr ⟨hw, hf⟩]
          rfl
  | .skipped i t fs, p, v => by
    have ih := allFinish_eq fs p v.2
    simp only [AllFields.finish, AllFields.Fresh]
    show _ ↔ Fields.finish env fs.unskipped p = .ok (fs.visible v.2) ∧ _
    cases hd : env.dflt i t with
    | none =>
      have e : fieldDefault env (some i) t = .error .missing := by unfold fieldDefault; simp [hd]
      rw [e]
      simp
    | some x =>
      have e : fieldDefault env (some i) t = .ok x := by unfold fieldDefault; simp [hd]
      rw [e]
      dsimp only
      constructor
      · intro h
        cases hw : fs.finish env p with
        | error e => rw [hw] at h; cases h
        | ok w =>
          rw [hw] at h
          cases h
          obtain ⟨h1, h2⟩ := ih.mp hw
          exact ⟨h1, rfl, h2⟩
      · rintro ⟨h, h2, hf⟩
        rw [ih.mpr ⟨h, hf⟩]
        cases h2
        rfl

/-- The initial values fill up the visible part. -/
theorem exists_fresh : ∀ (fs : AllFields), fs.Inits env → ∀ (w : fs.unskipped.Val), ∃ v, fs.visible v = w ∧ fs.Fresh env v
  | .nil, _, w => ⟨(), rfl, trivial⟩
  | .field n d s t fs, h, w => by
    obtain ⟨v, h1, h2⟩ := exists_fresh fs h w.2
    exact ⟨(w.1, v), by show (w.1, fs.visible v) = w; rw [h1]; rfl, h2⟩
  | .skipped i t fs, h, w => by
    obtain ⟨v, h1, h2⟩ := exists_fresh fs h.2 w
    obtain ⟨x, hx⟩ := Option.isSome_iff_exists.mp h.1
    exact ⟨(x, v), h1, hx, h2⟩

/-- And in one way. -/
theorem fresh_unique : ∀ (fs : AllFields) (v w : fs.Val), fs.visible v = fs.visible w → fs.Fresh env v → fs.Fresh env w →
    v = w
  | .nil, _, _, _, _, _ => rfl
  | .field n d s t fs, v, w, h, hv, hw => by
    obtain ⟨h1, h2⟩ := Prod.mk.inj (show (v.1, fs.visible v.2) = (w.1, fs.visible w.2) from h)
    exact Prod.ext h1 (fresh_unique fs v.2 w.2 h2 hv hw)
  | .skipped i t fs, v, w, h, hv, hw => by
    have h1 : v.1 = w.1 := by
      exact Option.some.inj (hv.1.symm.trans hw.1)
    exact Prod.ext h1 (fresh_unique fs v.2 w.2 h hv.2 hw.2)

end

section
variable [Host] (o : Options) (env : Env)

theorem allEncFields_eq (m : Mode) : ∀ (fs : AllFields) (v : fs.Val),
    fs.encFields o env m v = encFields o env fs.unskipped m (fs.visible v)
  | .nil, _ => by simp only [AllFields.encFields, AllFields.unskipped, encFields]
  | .field n d s t fs, v => by
    simp only [AllFields.encFields, AllFields.unskipped, encFields]
    rw [allEncFields_eq m fs v.2]
    rfl
  | .skipped i t fs, v => by
    simp only [AllFields.encFields]
    exact allEncFields_eq m fs v.2

theorem allEncode_eq (m : Mode) (nt : NameTy) (fs : AllFields) (v : fs.Val) :
    fs.encode o env m v = encode o env m (.strct nt fs.unskipped) (fs.visible v) := by
  unfold AllFields.encode Musli.encode
  simp only [encD]
  rw [allCount_eq, allEncFields_eq]

theorem allDecode_iff (m : Mode) (nt : NameTy) (fs : AllFields) (s r : Bytes) (v : fs.Val) :
    fs.decode o env nt m s = .ok (v, r) ↔
      decode o env m (.strct nt fs.unskipped) s = .ok (fs.visible v, r) ∧ fs.Fresh env v := by
  have hF := m.lawful o
  unfold AllFields.decode Musli.decode
  simp only [decD]
  constructor
  · intro h
    obtain ⟨c, s1, h1, h⟩ := Dec.bind_eq_ok.mp h
    obtain ⟨p, s2, h2, h⟩ := Dec.bind_eq_ok.mp h
    obtain ⟨v', s3, h3, h⟩ := Dec.bind_eq_ok.mp h
    obtain ⟨_, s4, h4, h⟩ := Dec.bind_eq_ok.mp h
    cases h
    cases hf : fs.finish env p with
    | error e => rw [hf] at h3; cases h3
    | ok w =>
      rw [hf] at h3
      cases h3
      obtain ⟨h5, h6⟩ := (allFinish_eq env fs p _).mp hf
      rw [Dec.bind_ok h1, Dec.bind_ok h2, h5, Dec.bind_ok (ofExcept_ok rfl _), Dec.bind_ok h4]
      exact ⟨rfl, h6⟩
  · rintro ⟨h, hfr⟩
    obtain ⟨c, s1, h1, h⟩ := Dec.bind_eq_ok.mp h
    obtain ⟨p, s2, h2, h⟩ := Dec.bind_eq_ok.mp h
    obtain ⟨v', s3, h3, h⟩ := Dec.bind_eq_ok.mp h
    obtain ⟨_, s4, h4, h⟩ := Dec.bind_eq_ok.mp h
    cases h
    cases hf : fs.unskipped.finish env p with
    | error e => rw [hf] at h3; cases h3
    | ok w =>
      rw [hf] at h3
      cases h3
      rw [Dec.bind_ok h1, Dec.bind_ok h2, (allFinish_eq env fs p v).mpr ⟨hf, hfr⟩, Dec.bind_ok (ofExcept_ok rfl _),
        Dec.bind_ok h4]
      rfl


/-- With the transparent attribute. -/
theorem allEncTransparent_eq (m : Mode) : ∀ (fs : AllFields) (v : fs.Val) (n : Name) (d s : Option Nat) (t : Ty)
    (h : fs.unskipped = .cons n d s t .nil),
    fs.encTransparent o env m v = encode o env m (.transparent t) (h ▸ fs.visible v : (Fields.cons n d s t .nil).Val).1
  | .nil, _, _, _, _, _, h => by cases h
  | .field n d s t fs, v, n', d', s', t', h => by
    have h' : (Fields.cons n d s t fs.unskipped) = .cons n' d' s' t' .nil := h
    injection h' with h1 h2 h3 h4 h5
    subst h1 h2 h3 h4
    have : ∀ (g : Fields) (w : g.Val) (e : Fields.cons n d s t g = .cons n d s t .nil),
        (e ▸ (v.1, w) : (Fields.cons n d s t .nil).Val).1 = v.1 := by
      intro g w e
      have hg : g = .nil := by injection e
      subst hg
      rfl
    unfold Musli.encode
    simp only [AllFields.encTransparent, encD]
    exact congrArg _ (this _ (fs.visible v.2) h).symm
  | .skipped i t fs, v, n', d', s', t', h => allEncTransparent_eq m fs v.2 n' d' s' t' h

theorem initAll_iff : ∀ (fs : AllFields) (h : fs.unskipped = .nil) (s r : Bytes) (v : fs.Val),
    fs.initAll env s = .ok (v, r) ↔ r = s ∧ fs.Fresh env v
  | .nil, _, s, r, v => by
    show Except.ok ((), s) = Except.ok ((), r) ↔ _ ∧ True
    constructor
    · intro e; cases e; exact ⟨rfl, trivial⟩
    · rintro ⟨rfl, _⟩; rfl
  | .field _ _ _ _ _, h, _, _, _ => by cases h
  | .skipped i t fs, h, s, r, v => by
    have ih := initAll_iff fs h s r v.2
    simp only [AllFields.initAll, AllFields.Fresh]
    constructor
    · intro e
      obtain ⟨x, s1, h1, e⟩ := Dec.bind_eq_ok.mp e
      obtain ⟨w, s2, h2, e⟩ := Dec.bind_eq_ok.mp e
      cases e
      cases hd : env.dflt i t with
      | none =>
        have e : fieldDefault env (some i) t = .error .missing := by unfold fieldDefault; simp [hd]
        rw [e] at h1; cases h1
      | some y =>
        have e : fieldDefault env (some i) t = .ok y := by unfold fieldDefault; simp [hd]
        rw [e] at h1
        cases h1
        obtain ⟨h3, h4⟩ := ih.mp h2
        exact ⟨h3, rfl, h4⟩
    · rintro ⟨rfl, hd, hf⟩
      have e : fieldDefault env (some i) t = .ok v.1 := by unfold fieldDefault; simp [hd]
      rw [e, Dec.bind_ok (ofExcept_ok rfl _), Dec.bind_ok (ih.mpr ⟨rfl, hf⟩)]
      rfl

theorem allDecTransparent_iff (m : Mode) : ∀ (fs : AllFields) (s r : Bytes) (v : fs.Val) (n : Name) (d k : Option Nat)
    (t : Ty) (h : fs.unskipped = .cons n d k t .nil),
    fs.decTransparent o env m s = .ok (v, r) ↔
      decode o env m (.transparent t) s = .ok ((h ▸ fs.visible v : (Fields.cons n d k t .nil).Val).1, r) ∧ fs.Fresh env v
  | .nil, _, _, _, _, _, _, _, h => by cases h
  | .field n d k t fs, s, r, v, n', d', k', t', h => by
    have h' : (Fields.cons n d k t fs.unskipped) = .cons n' d' k' t' .nil := h
    injection h' with h1 h2 h3 h4 h5
    subst h1 h2 h3 h4
    have key : ∀ (g : Fields) (w : g.Val) (e : Fields.cons n d k t g = .cons n d k t .nil),
        (e ▸ (v.1, w) : (Fields.cons n d k t .nil).Val).1 = v.1 := by
      intro g w e
      have hg : g = .nil := by injection e
      subst hg
      rfl
    have e : (h ▸ AllFields.visible (.field n d k t fs) v : (Fields.cons n d k t .nil).Val).1 = v.1 :=
      key _ (fs.visible v.2) h
    rw [e]
    unfold Musli.decode
    simp only [AllFields.decTransparent, decD, AllFields.Fresh]
    constructor
    · intro e
      obtain ⟨x, s1, h1, e⟩ := Dec.bind_eq_ok.mp e
      obtain ⟨w, s2, h2, e⟩ := Dec.bind_eq_ok.mp e
      cases e
      obtain ⟨rfl, hf⟩ := (initAll_iff env fs h5 _ _ _).mp h2
      exact ⟨h1, hf⟩
    · rintro ⟨h1, hf⟩
      rw [Dec.bind_ok h1, Dec.bind_ok ((initAll_iff env fs h5 _ _ _).mpr ⟨rfl, hf⟩)]
      rfl
  | .skipped i t fs, s, r, v, n', d', k', t', h => by
    have ih := allDecTransparent_iff m fs s r v.2 n' d' k' t' h
    simp only [AllFields.decTransparent, AllFields.Fresh]
    constructor
    · intro e
      obtain ⟨x, s1, h1, e⟩ := Dec.bind_eq_ok.mp e
      obtain ⟨w, s2, h2, e⟩ := Dec.bind_eq_ok.mp e
      cases e
      cases hd : env.dflt i t with
      | none =>
        have e : fieldDefault env (some i) t = .error .missing := by unfold fieldDefault; simp [hd]
        rw [e] at h1; cases h1
      | some y =>
        have e : fieldDefault env (some i) t = .ok y := by unfold fieldDefault; simp [hd]
        rw [e] at h1
        cases h1
        obtain ⟨h3, h4⟩ := ih.mp h2
        exact ⟨h3, rfl, h4⟩
    · rintro ⟨h1, hd, hf⟩
      have e : fieldDefault env (some i) t = .ok v.1 := by unfold fieldDefault; simp [hd]
      rw [e, Dec.bind_ok (ofExcept_ok rfl _), Dec.bind_ok (ih.mpr ⟨h1, hf⟩)]
      rfl

end

namespace Json
variable (full : Bool) (env : Env)

theorem encAllJ_eq : ∀ (fs : AllFields) (first : Bool) (v : fs.Val),
    encAllJ env fs first v = encFieldsJ env fs.unskipped first (fs.visible v)
  | .nil, _, _ => by simp only [encAllJ, AllFields.unskipped, encFieldsJ]
  | .field n d s t fs, first, v => by
    simp only [encAllJ, AllFields.unskipped, encFieldsJ]
    rw [encAllJ_eq fs false v.2, encAllJ_eq fs first v.2]
    rfl
  | .skipped i t fs, first, v => by
    simp only [encAllJ]
    exact encAllJ_eq fs first v.2

theorem encodeAll_eq (nt : NameTy) (fs : AllFields) (v : fs.Val) :
    encodeAll env fs v = encode env (.strct nt fs.unskipped) (fs.visible v) := by
  unfold encodeAll encode
  simp only [encJ]
  rw [encAllJ_eq]

theorem decodeAllJ_iff (nt : NameTy) (fs : AllFields) (s r : Bytes) (v : fs.Val) :
    decodeAllJ full env nt fs s = .ok (v, r) ↔
      decJ full env (.strct nt fs.unskipped) s = .ok (fs.visible v, r) ∧ fs.Fresh env v := by
  unfold decodeAllJ
  simp only [decJ]
  constructor
  · intro h
    obtain ⟨p, s1, h1, h⟩ := P.bind_eq_ok.mp h
    cases hf : fs.finish env p with
    | error e => rw [hf] at h; cases h
    | ok w =>
      rw [hf] at h
      cases h
      obtain ⟨h5, h6⟩ := (allFinish_eq env fs p _).mp hf
      rw [P.bind_ok h1, h5]
      exact ⟨rfl, h6⟩
  · rintro ⟨h, hfr⟩
    obtain ⟨p, s1, h1, h⟩ := P.bind_eq_ok.mp h
    cases hf : fs.unskipped.finish env p with
    | error e => rw [hf] at h; cases h
    | ok w =>
      rw [hf] at h
      cases h
      rw [P.bind_ok h1, (allFinish_eq env fs p v).mpr ⟨hf, hfr⟩]
      rfl

end Json
end Musli
