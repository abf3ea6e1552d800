import Verif.Model.TaggedFixed
import Verif.Props.Tagged
/-!
# C75 with a correction

`Props/Tagged.lean` refutes C75, for the decoder is not advanced. If it were, the property would hold.
-/
namespace Musli
open Json.Spec

section
variable [Host] (o : Options) (env : Env)

theorem payload_decode {m : Mode} : ∀ (vs : Variants),
    vs.bodiesOk (Opt.isNativeFixed o) (hostOrder o) m false = true → vs.envOk env →
    ∀ (v : vs.Val) (bs rest : Bytes), encBody o env vs m v = .ok bs →
    decode o env m (vs.payload v).1 (bs ++ rest) = .ok ((vs.payload v).2, rest)
  | .nil, _, _, v, _, _, _ => nomatch v
  | .cons n t vs, h, henv, .inl x, bs, rest, he => by
    simp only [Variants.bodiesOk, Bool.and_eq_true] at h
    simp only [Variants.envOk] at henv
    exact rtD o env t m false h.1 henv.1 x bs rest he (by simp)
  | .cons n t vs, h, henv, .inr x, bs, rest, he => by
    simp only [Variants.bodiesOk, Bool.and_eq_true] at h
    simp only [Variants.envOk] at henv
    exact payload_decode vs h.2 henv.2 x bs rest he

/-- **C75.** With the correction, an untagged enum is decoded as the first variant that accepts the input, and exactly the input of that
variant is consumed. -/
theorem C75_corrected (m : Mode) : ∀ (vs : Variants) (v : vs.Val) (s s' : Bytes),
    decUntaggedC o env vs m s = .ok (v, s') ↔
      decode o env m (vs.payload v).1 s = .ok ((vs.payload v).2, s') ∧
      ∀ t ∈ vs.earlier v, ∃ e, decode o env m t s = .error e
  | .nil, v, _, _ => nomatch v
  | .cons n t vs, v, s, s' => by
    have heq : decUntaggedC o env (.cons n t vs) m s = (match decD o env t m s with
        | .ok (x, s') => .ok (.inl x, s')
        | .error _ =>
          if vs.isNil then .error .unknown
          else
            match decUntaggedC o env vs m s with
            | .ok (x, s') => .ok (.inr x, s')
            | .error e => .error e) := rfl
    rw [heq]
    cases v with
    | inl x =>
      show _ ↔ decD o env t m s = .ok (x, s') ∧ ∀ u ∈ ([] : List Ty), _
      cases h : decD o env t m s with
      | ok r =>
        obtain ⟨y, s2⟩ := r
        dsimp only
        constructor
        · intro h; cases h; exact ⟨rfl, by simp⟩
        · rintro ⟨h, -⟩; cases h; rfl
      | error e =>
        dsimp only
        constructor
        · intro h
          split at h
          · cases h
          · split at h <;> cases h
        · rintro ⟨h, -⟩; cases h
    | inr x =>
      have ih := C75_corrected m vs x s s'
      show _ ↔ decode o env m (vs.payload x).1 s = .ok ((vs.payload x).2, s') ∧ ∀ u ∈ t :: vs.earlier x, _
      have hnil : vs.isNil = false := by
        cases vs with
        | nil => exact nomatch x
        | cons _ _ _ => rfl
      have hd : decode o env m t s = decD o env t m s := rfl
      simp only [List.mem_cons, forall_eq_or_imp, hd]
      cases h : decD o env t m s with
      | ok r =>
        obtain ⟨y, s2⟩ := r
        dsimp only
        constructor
        · intro h; cases h
        · rintro ⟨-, ⟨e, he⟩, -⟩; cases he
      | error e =>
        dsimp only
        rw [hnil, if_neg (by simp)]
        constructor
        · intro hu
          split at hu
          · next y s2 hy =>
            cases hu
            have := ih.1 hy
            exact ⟨this.1, ⟨e, rfl⟩, this.2⟩
          · cases hu
        · rintro ⟨h1, -, h2⟩
          rw [ih.2 ⟨h1, h2⟩]

/-- **C75**, the full statement, with the correction: what was encoded is decoded and consumed, unless it can be decoded as an earlier
variant. -/
theorem C75_corrected_roundtrip (m : Mode) (vs : Variants) (v : vs.Val) (bs rest : Bytes)
    (hok : vs.bodiesOk (Opt.isNativeFixed o) (hostOrder o) m false = true) (henv : vs.envOk env)
    (he : encBody o env vs m v = .ok bs) (hearlier : ∀ t ∈ vs.earlier v, ∃ e, decode o env m t (bs ++ rest) = .error e) :
    decUntaggedC o env vs m (bs ++ rest) = .ok (v, rest) := by
  refine (C75_corrected o env m vs v _ _).2 ⟨?_, hearlier⟩
  clear hearlier
  exact payload_decode o env vs hok henv v bs rest he

/-- **C75.** A sequence is then decoded as it was encoded, and not as copies of its first element. -/
theorem C75_corrected_sequence (m : Mode) (vs : Variants)
    (hok : vs.bodiesOk (Opt.isNativeFixed o) (hostOrder o) m false = true) (henv : vs.envOk env) :
    ∀ (l : List (vs.Val × Bytes)) (rest : Bytes), (∀ p ∈ l, encBody o env vs m p.1 = .ok p.2 ∧
      ∀ rest t, t ∈ vs.earlier p.1 → ∃ e, decode o env m t (p.2 ++ rest) = .error e) →
      decN (decUntaggedC o env vs m) l.length ((l.map (·.2)).flatten ++ rest) = .ok (l.map (·.1), rest)
  | [], _, _ => rfl
  | p :: l, rest, h => by
    obtain ⟨h1, h2⟩ := h p (by simp)
    have hp := C75_corrected_roundtrip o env m vs p.1 p.2 ((l.map (·.2)).flatten ++ rest) hok henv h1 (fun t => h2 _ t)
    have hl := C75_corrected_sequence m vs hok henv l rest fun q hq => h q (by simp [hq])
    show (decUntaggedC o env vs m >>= _) _ = _
    rw [List.map_cons, List.flatten_cons, List.append_assoc, Dec.bind_ok hp, Dec.bind_ok hl]
    rfl

end

section
variable (full : Bool) (env : Env)

/-- **C75.** JSON, with the correction. -/
theorem C75_corrected_json : ∀ (vs : Variants) (v : vs.Val) (s s' : Bytes),
    Json.decUntaggedCJ env full vs s = .ok (v, s') ↔
      Json.decode full env (vs.payload v).1 s = .ok ((vs.payload v).2, s') ∧
      ∀ t ∈ vs.earlier v, ∃ e, Json.decode full env t s = .error e
  | .nil, v, _, _ => nomatch v
  | .cons n t vs, v, s, s' => by
    have heq : Json.decUntaggedCJ env full (.cons n t vs) s = (match Json.decJ full env t s with
        | .ok (x, s') => .ok (.inl x, s')
        | .error (_, s') =>
          if vs.isNil then .error (.unknown, s')
          else
            match Json.decUntaggedCJ env full vs s with
            | .ok (x, s') => .ok (.inr x, s')
            | .error e => .error e) := rfl
    rw [heq]
    cases v with
    | inl x =>
      show _ ↔ Json.decJ full env t s = .ok (x, s') ∧ ∀ u ∈ ([] : List Ty), _
      cases h : Json.decJ full env t s with
      | ok r =>
        obtain ⟨y, s2⟩ := r
        dsimp only
        constructor
        · intro h; cases h; exact ⟨rfl, by simp⟩
        · rintro ⟨h, -⟩; cases h; rfl
      | error e =>
        dsimp only
        constructor
        · intro h
          split at h
          · cases h
          · split at h <;> cases h
        · rintro ⟨h, -⟩; cases h
    | inr x =>
      have ih := C75_corrected_json vs x s s'
      show _ ↔ Json.decode full env (vs.payload x).1 s = .ok ((vs.payload x).2, s') ∧ ∀ u ∈ t :: vs.earlier x, _
      have hnil : vs.isNil = false := by
        cases vs with
        | nil => exact nomatch x
        | cons _ _ _ => rfl
      have hd : Json.decode full env t s = Json.decJ full env t s := rfl
      simp only [List.mem_cons, forall_eq_or_imp, hd]
      cases h : Json.decJ full env t s with
      | ok r =>
        obtain ⟨y, s2⟩ := r
        dsimp only
        constructor
        · intro h; cases h
        · rintro ⟨-, ⟨e, he⟩, -⟩; cases he
      | error e =>
        dsimp only
        rw [hnil, if_neg (by simp)]
        constructor
        · intro hu
          split at hu
          · next y s2 hy =>
            cases hu
            have := ih.1 hy
            exact ⟨this.1, ⟨e, rfl⟩, this.2⟩
          · cases hu
        · rintro ⟨h1, -, h2⟩
          rw [ih.2 ⟨h1, h2⟩]

end

section
open Sample
attribute [local instance] Sample.host

-- `C75_violated`, and the sequence which does not end
example : decUntaggedC varOpts env numOrText .descriptive [0x4D, 5, 1, 2] = .ok (.inl 5#8, [1, 2]) := rfl

example : decN (decUntaggedC varOpts env numOrText .descriptive) 2 [0x4D, 5, 0xC2, 0x68, 0x69] =
    .ok ([.inl 5#8, .inr (.inl ⟨utf8% "hi", by decide⟩)], []) := rfl

example : (Json.elems (Json.decUntaggedCJ env true numOrText) 50 false (utf8% "5,\"hi\"]")).isOk = true := by decide +kernel

end
end Musli
