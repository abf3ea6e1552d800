import Verif.Proofs.Calls
import Verif.Proofs.Json.WellFormed
/-!
# Calls write the JSON they say
-/
set_option linter.unusedSectionVars false
set_option linter.unusedSimpArgs false
namespace Musli.Json
open Musli Spec

theorem sepAll_append {α} (f : α → Enc) : ∀ (first : Bool) (l l' : List α),
    sepAll f first (l ++ l') = sepAll f first l +> sepAll f (first && l.isEmpty) l'
  | first, [], l' => by cases first <;> exact (ok_nil_seq _).symm
  | first, a :: l, l' => by
    have ih := sepAll_append f false l l'
    simp only [Bool.false_and] at ih
    simp only [List.cons_append, sepAll, ih, List.isEmpty_cons, Bool.and_false, seq_assoc]

theorem bytes_sepAll : ∀ (b : Bytes) (x : Byte),
    sepAll (fun b : Byte => encPrim (.uint .w8) b) true (x :: b) = .ok (bytesBody (x :: b))
  | [], x => by simp [sepAll, bytesBody, encPrim, fmtInt, Enc.seq]; rfl
  | y :: b, x => by
    have ih := bytes_sepAll b y
    simp only [sepAll, if_true, ok_nil_seq] at ih
    simp only [sepAll, if_true, ok_nil_seq, Bool.false_eq_true, if_false]
    rw [ih]
    simp [bytesBody, encPrim, fmtInt, Enc.seq]
    rfl

theorem encBytes_sepAll (b : Bytes) :
    brackets (sepAll (fun b : Byte => encPrim (.uint .w8) b) true b) = encBytes b := by
  cases b with
  | nil => rfl
  | cons x b => rw [bytes_sepAll]; simp [brackets, encBytes, Enc.seq]

theorem braces_brackets (k e : Enc) :
    (.ok [0x7B#8] +> k +> .ok [0x3A#8] +> .ok [0x5B#8] +> e +> .ok [0x5D#8, 0x7D#8]) =
      braces (k +> .ok [0x3A#8] +> brackets e) := by
  cases k <;> cases e <;> simp [braces, brackets, Enc.seq]

theorem braces_braces (k e : Enc) :
    (.ok [0x7B#8] +> k +> .ok [0x3A#8] +> .ok [0x7B#8] +> e +> .ok [0x7D#8, 0x7D#8]) =
      braces (k +> .ok [0x3A#8] +> braces e) := by
  cases k <;> cases e <;> simp [braces, Enc.seq]

theorem key_name {n : Name} {c : Call} (h : SaysName n c) : keyRun c = encNameK n := by
  cases h <;> simp [keyRun, encKey, encNameK, encPrimKey, fmtInt]

theorem val_name (env : Env) {n : Name} {c : Call} (h : SaysName n c) : run env c = encNameV n := by
  cases h <;> simp [run, encJ, encNameV, encPrim, fmtInt]

theorem tag_key {n : Name} {t : Ty} {v : t.Val} (h : TagOf n t v) : encKey t v = encNameK n := by
  cases h <;> simp [encKey, encNameK, encPrimKey, fmtInt]

section
variable (env : Env)

theorem key_variant : ∀ {vs : Variants} {v : vs.Val} {c : Call}, SaysVariant env vs v c →
    keyRun c = .error .unsupported
  | _, _, _, .here _ _ _ => rfl
  | _, _, _, .sequence _ _ _ => rfl
  | _, _, _, .map _ _ _ => rfl
  | _, _, _, .there h => key_variant h

theorem key_says : ∀ {t : Ty} {v : t.Val} {c : Call}, Says env t v c → keyRun c = encKey t v
  | _, _, _, .value => rfl
  | _, _, _, .direct => rfl
  | _, _, _, .vectored _ _ => rfl
  | _, _, _, .empty => rfl
  | _, _, _, .none => rfl
  | _, _, _, .some _ => rfl
  | _, _, _, .slice => rfl
  | _, _, _, .sliceArray => rfl
  | _, _, _, .slices _ _ => rfl
  | _, _, _, .vec _ _ => rfl
  | _, _, _, .array _ => rfl
  | _, _, _, .set _ _ => rfl
  | _, _, _, .tuple _ _ => rfl
  | _, _, _, .map _ _ => rfl
  | _, _, _, .entries _ _ => rfl
  | _, _, _, .ok _ _ => rfl
  | _, _, _, .err _ _ => rfl
  | _, _, _, .boxed h => by rw [key_says h, encKey]
  | _, _, _, .wrapping h => by rw [key_says h, encKey]
  | _, _, _, .transparent h => by rw [key_says h, encKey]
  | _, _, _, .unitStruct => rfl
  | _, _, _, .strct _ => rfl
  | _, _, _, .strctEntries _ => rfl
  | _, _, _, .packed _ => rfl
  | _, _, _, .unitEnum h => by rw [key_name h, encKey]
  | _, _, _, .enm h => by rw [key_variant env h]; rfl

mutual

theorem run_says : ∀ {t : Ty} {v : t.Val} {c : Call}, Says env t v c → run env c = encJ env t v
  | _, _, _, .value => by rw [run]
  | _, _, _, .direct => by rw [run]
  | _, _, _, .vectored hp hl => by rw [run, hp, encBytes_sepAll, encJ]
  | _, _, _, .empty => by rw [run, encJ]
  | _, _, _, .none => by rw [run, encJ]
  | _, _, _, .some h => by rw [run, run_says h, encJ]
  | _, _, _, .slice => by rw [run, encJ]
  | _, _, _, .sliceArray => by rw [run, encJ]
  | _, _, _, .slices hl hn => by rw [run, encJ, hl]
  | _, _, _, .vec h hn => by rw [run, runItems_says h, encJ]
  | _, _, _, .array h => by rw [run, runItems_says h, encJ]
  | _, _, _, .set h hn => by rw [run, runItems_says h, encJ]
  | _, _, _, .tuple h hn => by rw [run, runTys_says h, encJ]
  | _, _, _, .map h hn => by rw [run, runMap_says h, encJ]
  | _, _, _, .entries h hn => by rw [run, runMap_says h, encJ]
  | _, _, _, .ok hn h => by rw [run, key_name hn, run_says h, encJ]
  | _, _, _, .err hn h => by rw [run, key_name hn, run_says h, encJ]
  | _, _, _, .boxed h => by rw [run_says h, encJ]
  | _, _, _, .wrapping h => by rw [run_says h, encJ]
  | _, _, _, .transparent h => by rw [run_says h, encJ]
  | _, _, _, .unitStruct => by rw [run, runCalls, encJ]
  | _, _, _, .strct h => by rw [run, runFields_says h, encJ]
  | _, _, _, .strctEntries h => by rw [run, runFields_says h, encJ]
  | _, _, _, .packed h => by rw [run, runPack_says h, encJ]
  | _, _, _, .unitEnum h => by rw [val_name env h, encJ]
  | _, _, _, .enm h => by rw [runVariant_says h, encJ]

theorem runItems_says : ∀ {t : Ty} {l : List t.Val} {items : Items}, SaysItems env t l items →
    ∀ {first}, runItems env first items = sepAll (encJ env t) first l
  | _, _, _, .done, first => by rw [runItems, sepAll]
  | _, _, _, .push h hr, first => by rw [runItems, run_says h, runItems_says hr, sepAll]
  | _, _, _, .slice hr, first => by rw [runItems, runItems_says hr, sepAll_append]
  | _, _, _, .slices hr, first => by rw [runItems, runItems_says hr, sepAll_append]

theorem runTys_says : ∀ {ts : Tys} {v : ts.Val} {items : Items}, SaysTys env ts v items →
    ∀ {first}, runItems env first items = encTysJ env ts first v
  | _, _, _, .done, first => by rw [runItems, encTysJ]
  | _, _, _, .push h hr, first => by rw [runItems, run_says h, runTys_says hr, encTysJ]

theorem runMap_says : ∀ {k t : Ty} {l : List (k.Val × t.Val)} {es : Calls}, SaysMap env k t l es →
    ∀ {first}, runCalls env first es =
      sepAll (fun x => encKey k x.1 +> .ok [0x3A#8] +> encJ env t x.2) first l
  | _, _, _, _, .done, first => by rw [runCalls, sepAll]
  | _, _, _, _, .entry hk h hr, first => by
    rw [runCalls, key_says env hk, run_says h, runMap_says hr, sepAll, seq_assoc, seq_assoc]

theorem runFields_says : ∀ {fs : Fields} {v : fs.Val} {n : Nat} {es : Calls}, SaysFields env fs v n es →
    ∀ {first}, runCalls env first es = encFieldsJ env fs first v
  | _, _, _, _, .done, first => by rw [runCalls, encFieldsJ]
  | _, _, _, _, .entry hp hn h hr, first => by
    rw [runCalls, key_name hn, run_says h, runFields_says hr, encFieldsJ, if_pos hp]
  | _, _, _, _, .skip hp hr, first => by
    rw [runFields_says hr, encFieldsJ, if_neg (by rw [hp]; decide)]

theorem runPack_says : ∀ {fs : Fields} {v : fs.Val} {items : Items}, SaysPack env fs v items →
    ∀ {first}, runItems env first items = encPackJ env fs first v
  | _, _, _, .done, first => by rw [runItems, encPackJ]
  | _, _, _, .push hp h hr, first => by
    rw [runItems, run_says h, runPack_says hr, encPackJ, if_pos hp]
  | _, _, _, .skip hp hr, first => by
    rw [runPack_says hr, encPackJ, if_neg (by rw [hp]; decide)]

theorem runVariant_says : ∀ {vs : Variants} {v : vs.Val} {c : Call}, SaysVariant env vs v c →
    run env c = braces (encVariantsJ env vs v)
  | _, _, _, .here _ hn h => by rw [run, key_name hn, run_says h, encVariantsJ]
  | _, _, _, .sequence _ hn h => by
    have := run_says h
    rw [run] at this
    rw [run, braces_brackets, tag_key hn, this, encVariantsJ]
  | _, _, _, .map _ hn h => by
    have := run_says h
    rw [run] at this
    rw [run, braces_braces, tag_key hn, this, encVariantsJ]
  | _, _, _, .there h => by rw [runVariant_says h]; simp only [encVariantsJ]

end

/-! ## Hints are ignored -/

theorem keyRun_forget (c : Call) : keyRun c.forget = keyRun c := by
  cases c <;> rfl

mutual

theorem run_forget : ∀ (c : Call), run env c.forget = run env c
  | .value _ _ => by simp only [Call.forget]
  | .direct _ _ => by simp only [Call.forget]
  | .vectored _ _ => by simp only [Call.forget, run]
  | .empty => by simp only [Call.forget]
  | .none => by simp only [Call.forget]
  | .some c => by simp only [Call.forget, run, run_forget c]
  | .slice _ _ => by simp only [Call.forget]
  | .slices _ _ _ => by simp only [Call.forget, run]
  | .sequence _ items => by simp only [Call.forget, run, runItems_forget items]
  | .map _ es => by simp only [Call.forget, run, runCalls_forget es]
  | .entries _ es => by simp only [Call.forget, run, runCalls_forget es]
  | .variant tag data => by simp only [Call.forget, run, keyRun_forget, run_forget data]
  | .sequenceVariant _ _ _ items => by simp only [Call.forget, run, runItems_forget items]
  | .mapVariant _ _ _ es => by simp only [Call.forget, run, runCalls_forget es]
  | .pack items => by simp only [Call.forget, run, runItems_forget items]

theorem runItems_forget : ∀ (items : Items) (first : Bool),
    runItems env first items.forget = runItems env first items
  | .done, _ => by simp only [Items.forget]
  | .push c rest, _ => by simp only [Items.forget, runItems, run_forget c, runItems_forget rest]
  | .slice _ _ rest, _ => by simp only [Items.forget, runItems, runItems_forget rest]
  | .slices _ _ rest, _ => by simp only [Items.forget, runItems, runItems_forget rest]

theorem runCalls_forget : ∀ (es : Calls) (first : Bool),
    runCalls env first es.forget = runCalls env first es
  | .done, _ => by simp only [Calls.forget]
  | .entry key value rest, _ => by
    simp only [Calls.forget, runCalls, keyRun_forget, run_forget value, runCalls_forget rest]

end

/-! ## The text is JSON -/

theorem keyRun_str {c : Call} {x : Bytes} (h : keyRun c = .ok x) : ∃ cs, StrText cs x := by
  cases c with
  | value t v => exact keyText_str t (encKey_text t v x h)
  | direct t v => exact keyText_str t (encKey_text t v x h)
  | _ => cases h

theorem sepAll_then {α} {f : α → Enc} {q : Bytes → Prop} {k : Bool → Enc}
    (hk : ∀ first e, k first = .ok e → AfterAll q first e) : ∀ (l : List α), (∀ a ∈ l, ∀ x, f a = .ok x → q x) →
    ∀ (first : Bool) (s : Bytes), (sepAll f first l +> k (first && l.isEmpty)) = .ok s → AfterAll q first s
  | [], _, first, s, h => by
    rw [sepAll, ok_nil_seq] at h
    cases first <;> exact hk _ _ h
  | a :: l, hp, first, s, h => by
    rw [sepAll, List.isEmpty_cons, Bool.and_false, seq_assoc, seq_assoc] at h
    obtain ⟨c, y, hc, hy, rfl⟩ := Enc.seq_eq_ok.mp h
    obtain ⟨x, r, hx, hr, rfl⟩ := Enc.seq_eq_ok.mp hy
    exact afterAll_cons hc (hp a (by simp) x hx)
      (sepAll_then hk l (fun b hb => hp b (by simp [hb])) false r hr)

mutual

theorem run_isValue : ∀ (c : Call) (s : Bytes), run env c = .ok s → IsValue s
  | .value t v, s, h => by rw [run] at h; exact encJ_isValue env t v s h
  | .direct t v, s, h => by rw [run] at h; exact encJ_isValue env t v s h
  | .vectored _ parts, s, h => by
    rw [run, encBytes_sepAll] at h
    exact encJ_isValue env .bytes parts.flatten s (by rw [encJ]; exact h)
  | .empty, s, h => by rw [run] at h; cases h; exact Text.null
  | .none, s, h => by rw [run] at h; cases h; exact Text.null
  | .some c, s, h => by rw [run] at h; exact run_isValue c s h
  | .slice t l, s, h => by
    rw [run] at h; exact encJ_isValue env (.vec t) l s (by rw [encJ]; exact h)
  | .slices t _ ls, s, h => by
    rw [run] at h; exact encJ_isValue env (.vec t) ls.flatten s (by rw [encJ]; exact h)
  | .sequence _ items, s, h => by
    rw [run] at h; exact brackets_isValue h fun e he => runItems_all items true e he
  | .map _ es, s, h => by
    rw [run] at h; exact braces_isValue h fun e he => runCalls_all es true e he
  | .entries _ es, s, h => by
    rw [run] at h; exact braces_isValue h fun e he => runCalls_all es true e he
  | .variant tag data, s, h => by
    rw [run] at h
    exact braces_isValue h fun e he => member_one he (fun x hx => keyRun_str hx)
      (fun x hx => run_isValue data x hx)
  | .sequenceVariant t tag _ items, s, h => by
    rw [run, braces_brackets] at h
    exact braces_isValue h fun e he => member_one he (fun x hx => keyText_str t (encKey_text t tag x hx))
      (fun x hx => brackets_isValue hx fun e he => runItems_all items true e he)
  | .mapVariant t tag _ es, s, h => by
    rw [run, braces_braces] at h
    exact braces_isValue h fun e he => member_one he (fun x hx => keyText_str t (encKey_text t tag x hx))
      (fun x hx => braces_isValue hx fun e he => runCalls_all es true e he)
  | .pack items, s, h => by
    rw [run] at h; exact brackets_isValue h fun e he => runItems_all items true e he

theorem runItems_all : ∀ (items : Items) (first : Bool) (s : Bytes), runItems env first items = .ok s →
    AfterAll IsValue first s
  | .done, first, s, h => by rw [runItems] at h; cases h; exact afterAll_nil first
  | .push c rest, first, s, h => by
    rw [runItems] at h
    obtain ⟨a, y, ha, hy, rfl⟩ := Enc.seq_eq_ok.mp h
    obtain ⟨x, r, hx, hr, rfl⟩ := Enc.seq_eq_ok.mp hy
    exact afterAll_cons ha (run_isValue c x hx) (runItems_all rest false r hr)
  | .slice t l rest, first, s, h => by
    rw [runItems] at h
    exact sepAll_then (k := fun b => runItems env b rest) (runItems_all rest) l
      (fun a _ x hx => encJ_isValue env t a x hx) first s h
  | .slices t ls rest, first, s, h => by
    rw [runItems] at h
    exact sepAll_then (k := fun b => runItems env b rest) (runItems_all rest) ls.flatten
      (fun a _ x hx => encJ_isValue env t a x hx) first s h

theorem runCalls_all : ∀ (es : Calls) (first : Bool) (s : Bytes), runCalls env first es = .ok s →
    AfterAll IsMember first s
  | .done, first, s, h => by rw [runCalls] at h; cases h; exact afterAll_nil first
  | .entry key value rest, first, s, h => by
    rw [runCalls] at h
    obtain ⟨a, y, ha, hy, rfl⟩ := Enc.seq_eq_ok.mp h
    rw [← seq_assoc, ← seq_assoc, seq_assoc (keyRun key)] at hy
    obtain ⟨x, r, hx, hr, rfl⟩ := Enc.seq_eq_ok.mp hy
    exact afterAll_cons ha (member_enc hx (fun x hx => keyRun_str hx) (fun x hx => run_isValue value x hx))
      (runCalls_all rest false r hr)

end
end
end Musli.Json
