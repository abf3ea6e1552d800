import Verif.Proofs.Calls
import Verif.Proofs.Skip
/-!
# What honest calls write can be skipped, and slices are pushes
-/
set_option linter.unusedSectionVars false
set_option linter.unusedSimpArgs false
namespace Musli

section
variable [Host] (o : Options) (env : Env) {step : Dec Nat} {us : Bool} {m : Mode}

theorem or_split {us a b c d : Bool} (h : (us = true ∨ (a && b) = true) ∧ (c && d) = true) :
    ((us = true ∨ a = true) ∧ c = true) ∧ ((us = true ∨ b = true) ∧ d = true) := by
  cases us <;> cases a <;> cases b <;> cases c <;> cases d <;> simp_all

theorem skips_via (hF : (m.fmt o).Skippable step us) (t : Ty)
    (h : (us = true ∨ t.noUsize = true) ∧ t.counted = true)
    (v : t.Val) (bs : Bytes) (he : viaE o env t m v = .ok bs) : Skips step 1 bs := by
  rw [viaE_off o env hF.native] at he
  exact skipsD o env hF t h.1 h.2 v bs he

theorem skips_slice (hF : (m.fmt o).Skippable step us) (t : Ty)
    (h : (us = true ∨ t.noUsize = true) ∧ t.counted = true)
    (l : List t.Val) (bs : Bytes) (he : sliceBody o env t m l = .ok bs) : Skips step l.length bs := by
  rw [sliceBody_off o env hF.native] at he
  have := Skips.all 1 (skipsD o env hF t h.1 h.2) l bs he
  rwa [Nat.one_mul] at this

mutual

theorem skips_call (hF : (m.fmt o).Skippable step us) : ∀ (c : Call), c.honest →
    (us = true ∨ c.types Ty.noUsize = true) ∧ c.types Ty.counted = true → ∀ bs, c.run o env m = .ok bs → Skips step 1 bs
  | .value t v, _, h, bs, he => by
    rw [Call.run] at he; rw [Call.types, Call.types] at h; exact skips_via o env hF t h v bs he
  | .direct t v, _, h, bs, he => by
    rw [Call.run] at he; rw [Call.types, Call.types] at h; exact skipsD o env hF t h.1 h.2 v bs he
  | .vectored len parts, hh, _, bs, he => by
    rw [Call.honest] at hh
    rw [Call.run, hh, bytesHeader_eq] at he
    exact (hF.bytes _ bs he).leaf
  | .empty, _, _, bs, he => by rw [Call.run] at he; exact (hF.unit bs he).leaf
  | .none, _, _, bs, he => by rw [Call.run] at he; exact (hF.none bs he).leaf
  | .some c, hh, h, bs, he => by
    rw [Call.honest] at hh; rw [Call.types, Call.types] at h; rw [Call.run] at he
    obtain ⟨a, b, ha, hb, rfl⟩ := Enc.seq_eq_ok.mp he
    exact (hF.some a ha).skips (skips_call hF c hh h b hb)
  | .slice t l, _, h, bs, he => by
    rw [Call.types, Call.types] at h; rw [Call.run] at he
    obtain ⟨a, b, ha, hb, rfl⟩ := Enc.seq_eq_ok.mp he
    rw [sliceLen_off o hF.native] at ha
    exact (hF.seq _ a ha).skips (skips_slice o env hF t h l b hb)
  | .slices t len ls, hh, h, bs, he => by
    rw [Call.honest] at hh; rw [Call.types, Call.types] at h; rw [Call.run, hh] at he
    obtain ⟨a, b, ha, hb, rfl⟩ := Enc.seq_eq_ok.mp he
    rw [sliceLen_off o hF.native] at ha
    exact (hF.seq _ a ha).skips (skips_slice o env hF t h _ b hb)
  | .sequence hint items, hh, h, bs, he => by
    rw [Call.honest] at hh; rw [Call.types, Call.types] at h; rw [Call.run, hh.1, require] at he
    obtain ⟨a, b, ha, hb, rfl⟩ := Enc.seq_eq_ok.mp he
    exact (hF.seq _ a ha).skips (skips_items hF items hh.2 h b hb)
  | .map hint es, hh, h, bs, he => by
    rw [Call.honest] at hh; rw [Call.types, Call.types] at h; rw [Call.run, hh.1, require] at he
    obtain ⟨a, b, ha, hb, rfl⟩ := Enc.seq_eq_ok.mp he
    exact (hF.map _ a ha).skips (skips_calls hF es hh.2 h b hb)
  | .entries hint es, hh, h, bs, he => by
    rw [Call.honest] at hh; rw [Call.types, Call.types] at h; rw [Call.run, hh.1, require] at he
    obtain ⟨a, b, ha, hb, rfl⟩ := Enc.seq_eq_ok.mp he
    exact (hF.map _ a ha).skips (skips_calls hF es hh.2 h b hb)
  | .variant tag data, hh, h, bs, he => by
    rw [Call.honest] at hh; rw [Call.types, Call.types] at h; rw [Call.run] at he
    obtain ⟨a, bc, ha, hbc, rfl⟩ := Enc.seq_eq_ok.mp he
    obtain ⟨b, c, hb, hc, rfl⟩ := Enc.seq_eq_ok.mp hbc
    exact (hF.variant a ha).skips ((skips_call hF tag hh.1 (or_split h).1 b hb).append
      (skips_call hF data hh.2 (or_split h).2 c hc))
  | .sequenceVariant t tag hint items, hh, h, bs, he => by
    rw [Call.honest] at hh; rw [Call.types, Call.types] at h; rw [Call.run, hh.1, require] at he
    obtain ⟨a, bc, ha, hbc, rfl⟩ := Enc.seq_eq_ok.mp he
    obtain ⟨b, cd, hb, hcd, rfl⟩ := Enc.seq_eq_ok.mp hbc
    obtain ⟨c, d, hc, hd, rfl⟩ := Enc.seq_eq_ok.mp hcd
    exact (hF.variant a ha).skips ((skips_via o env hF t (or_split h).1 tag b hb).append
      ((hF.seq _ c hc).skips (skips_items hF items hh.2 (or_split h).2 d hd)))
  | .mapVariant t tag hint es, hh, h, bs, he => by
    rw [Call.honest] at hh; rw [Call.types, Call.types] at h; rw [Call.run, hh.1, require] at he
    obtain ⟨a, bc, ha, hbc, rfl⟩ := Enc.seq_eq_ok.mp he
    obtain ⟨b, cd, hb, hcd, rfl⟩ := Enc.seq_eq_ok.mp hbc
    obtain ⟨c, d, hc, hd, rfl⟩ := Enc.seq_eq_ok.mp hcd
    exact (hF.variant a ha).skips ((skips_via o env hF t (or_split h).1 tag b hb).append
      ((hF.map _ c hc).skips (skips_calls hF es hh.2 (or_split h).2 d hd)))
  | .pack items, _, _, bs, he => by
    rw [Call.run] at he
    cases hr : items.run o env .packed with
    | error e => rw [hr] at he; cases he
    | ok b => rw [hr] at he; exact (hF.pack b bs he).leaf

theorem skips_items (hF : (m.fmt o).Skippable step us) : ∀ (items : Items), items.honest →
    (us = true ∨ items.types Ty.noUsize = true) ∧ items.types Ty.counted = true → ∀ bs, items.run o env m = .ok bs →
    Skips step items.count bs
  | .done, _, _, bs, he => by rw [Items.run] at he; cases he; exact Skips.nil
  | .push c rest, hh, h, bs, he => by
    rw [Items.honest] at hh; rw [Items.types, Items.types] at h; rw [Items.run] at he
    obtain ⟨a, b, ha, hb, rfl⟩ := Enc.seq_eq_ok.mp he
    rw [Items.count, Nat.add_comm]
    exact (skips_call hF c hh.1 (or_split h).1 a ha).append (skips_items hF rest hh.2 (or_split h).2 b hb)
  | .slice t l rest, hh, h, bs, he => by
    rw [Items.honest] at hh; rw [Items.types, Items.types] at h; rw [Items.run] at he
    obtain ⟨a, b, ha, hb, rfl⟩ := Enc.seq_eq_ok.mp he
    rw [Items.count]
    exact (skips_slice o env hF t (or_split h).1 l a ha).append (skips_items hF rest hh (or_split h).2 b hb)
  | .slices t ls rest, hh, h, bs, he => by
    rw [Items.honest] at hh; rw [Items.types, Items.types] at h; rw [Items.run] at he
    obtain ⟨a, b, ha, hb, rfl⟩ := Enc.seq_eq_ok.mp he
    rw [Items.count]
    exact (skips_slice o env hF t (or_split h).1 _ a ha).append (skips_items hF rest hh (or_split h).2 b hb)

theorem skips_calls (hF : (m.fmt o).Skippable step us) : ∀ (es : Calls), es.honest →
    (us = true ∨ es.types Ty.noUsize = true) ∧ es.types Ty.counted = true → ∀ bs, es.run o env m = .ok bs →
    Skips step (2 * es.count) bs
  | .done, _, _, bs, he => by rw [Calls.run] at he; cases he; exact Skips.nil
  | .entry key value rest, hh, h, bs, he => by
    rw [Calls.honest] at hh; rw [Calls.types, Calls.types] at h; rw [Calls.run] at he
    obtain ⟨a, bc, ha, hbc, rfl⟩ := Enc.seq_eq_ok.mp he
    obtain ⟨b, c, hb, hc, rfl⟩ := Enc.seq_eq_ok.mp hbc
    rw [Calls.count, show 2 * (rest.count + 1) = 1 + (1 + 2 * rest.count) by omega]
    exact (skips_call hF key hh.1 (or_split (or_split h).1).1 a ha).append
      ((skips_call hF value hh.2.1 (or_split (or_split h).1).2 b hb).append
        (skips_calls hF rest hh.2.2 (or_split h).2 c hc))

end

/-! ## Slices are pushes -/

/-- `push` for each value. -/
def Items.pushAll (t : Ty) : List t.Val → Items → Items
  | [], rest => rest
  | v :: l, rest => .push (.value t v) (Items.pushAll t l rest)

theorem sliceBody_push (t : Ty) (m : Mode) : ∀ (l : List t.Val),
    sliceBody o env t m l = Enc.all (viaE o env t m) l := by
  intro l
  unfold sliceBody
  split
  · rename_i h
    have : viaE o env t m = fun v => .ok (t.rawE v) := funext fun v => by rw [viaE, fastE, if_pos h]
    rw [this]
    exact (all_ok _ l).symm
  · rfl

theorem run_pushAll (t : Ty) (m : Mode) (rest : Items) : ∀ (l : List t.Val),
    (Items.pushAll t l rest).run o env m = Enc.all (viaE o env t m) l +> rest.run o env m
  | [] => by rw [Items.pushAll]; exact (ok_nil_seq _).symm
  | v :: l => by
    rw [Items.pushAll, Items.run, run_pushAll t m rest l, Call.run, ← seq_assoc]; rfl

end
end Musli
