import Verif.Spec.IoWrite
import Verif.Proofs.Writer
/-!
# Writing to a device which may fail
-/
namespace Musli.Io
open Wr

/-- What is known after writing `b`: either all of it was accepted, and no reply was a failure; or a proper
prefix was accepted, and the last reply used was the only failure. -/
def After (b : Bytes) (d : Dev) (ok : Bool) (d' : Dev) : Prop :=
  (ok = true ∧ d'.got = d.got ++ b ∧ ∃ used, d.replies = used ++ d'.replies ∧ ∀ r ∈ used, ¬r.Fails) ∨
  (ok = false ∧ ∃ p, p <+: b ∧ p ≠ b ∧ d'.got = d.got ++ p ∧
    ∃ used bad, d.replies = used ++ bad :: d'.replies ∧ bad.Fails ∧ ∀ r ∈ used, ¬r.Fails)

theorem After.trans {a b : Bytes} {d d' d'' : Dev} {ok : Bool} (h : After a d true d')
    (h' : After b d' ok d'') : After (a ++ b) d ok d'' := by
  rcases h with ⟨_, hg, used, hu, hf⟩ | ⟨h, _⟩
  · rcases h' with ⟨ho, hg', used', hu', hf'⟩ | ⟨ho, p, hp, hne, hg', used', bad, hu', hb, hf'⟩
    · refine .inl ⟨ho, by rw [hg', hg, List.append_assoc], used ++ used', by rw [hu, hu', List.append_assoc], ?_⟩
      intro r hr
      rcases List.mem_append.mp hr with hr | hr
      · exact hf r hr
      · exact hf' r hr
    · refine .inr ⟨ho, a ++ p, ?_, ?_, by rw [hg', hg, List.append_assoc], used ++ used', bad,
        by rw [hu, hu', List.append_assoc], hb, ?_⟩
      · exact (List.prefix_append_right_inj a).mpr hp
      · intro h; exact hne (List.append_cancel_left h)
      · intro r hr
        rcases List.mem_append.mp hr with hr | hr
        · exact hf r hr
        · exact hf' r hr
  · cases h

theorem After.weaken {a b : Bytes} {d d' : Dev} (h : After a d false d') : After (a ++ b) d false d' := by
  rcases h with ⟨h, _⟩ | ⟨ho, p, hp, hne, hg, hu⟩
  · cases h
  · refine .inr ⟨ho, p, hp.trans (List.prefix_append _ _), ?_, hg, hu⟩
    rintro rfl
    apply hne
    obtain ⟨t, ht⟩ := hp
    have := congrArg List.length ht
    simp only [List.length_append] at this
    have hb : b = [] := by rw [← List.length_eq_zero_iff]; omega
    rw [hb, List.append_nil]

theorem After.skip {b : Bytes} {d d' : Dev} {ok : Bool} {r : Reply} (hr : ¬r.Fails)
    (h : After b d ok d') : After b { d with replies := r :: d.replies } ok d' := by
  rcases h with ⟨ho, hg, used, hu, hf⟩ | ⟨ho, p, hp, hne, hg, used, bad, hu, hb, hf⟩
  · refine .inl ⟨ho, hg, r :: used, by simp [hu], ?_⟩
    intro x hx
    rcases List.mem_cons.mp hx with rfl | hx
    · exact hr
    · exact hf x hx
  · refine .inr ⟨ho, p, hp, hne, hg, r :: used, bad, by simp [hu], hb, ?_⟩
    intro x hx
    rcases List.mem_cons.mp hx with rfl | hx
    · exact hr
    · exact hf x hx

theorem After.fail {b : Bytes} {rs : List Reply} {got : Bytes} {r : Reply} (hr : r.Fails) (hb : b ≠ []) :
    After b ⟨r :: rs, got⟩ false ⟨rs, got⟩ :=
  .inr ⟨rfl, [], List.nil_prefix, fun h => hb h.symm, by simp, [], r, rfl, hr, fun _ h => nomatch h⟩

theorem After.nil {d : Dev} : After [] d true d :=
  .inl ⟨rfl, by simp, [], rfl, fun _ h => nomatch h⟩

theorem writeAll_after (b : Bytes) (rs : List Reply) (got : Bytes) :
    After b ⟨rs, got⟩ (writeAll b rs got).1 (writeAll b rs got).2 := by
  induction rs generalizing b got with
  | nil =>
    unfold writeAll
    split
    · rename_i h; subst h; exact .nil
    · exact .inl ⟨rfl, rfl, [], rfl, fun _ h => nomatch h⟩
  | cons r rs ih =>
    unfold writeAll
    split
    · rename_i h; subst h; exact .nil
    rename_i hb
    cases r with
    | accept n =>
      dsimp only
      split
      · rename_i h; subst h; exact .fail rfl hb
      · rename_i h
        have h1 : After (b.take n) ⟨.accept n :: rs, got⟩ true ⟨rs, got ++ b.take n⟩ :=
          .inl ⟨rfl, rfl, [.accept n], rfl, by
            intro r hr
            rw [List.mem_singleton.mp hr]
            exact h⟩
        have := h1.trans (ih (b.drop n) (got ++ b.take n))
        rwa [List.take_append_drop] at this
    | interrupted => exact After.skip (r := .interrupted) (fun h => h) (ih b got)
    | error => exact .fail trivial hb

theorem wrapStep_eq (op : Op) (st : St Dev) : wrapStep op st = wrapBytes op.payload st := by
  cases op <;> rfl

theorem runAll_after (ops : List Op) (st : St Dev) :
    After (payload ops) st.wr (runAll wrapStep ops st).1 (runAll wrapStep ops st).2.wr ∧
    ((runAll wrapStep ops st).1 = true →
      (runAll wrapStep ops st).2.mark = st.mark + (payload ops).length) := by
  induction ops generalizing st with
  | nil => exact ⟨.nil, fun _ => rfl⟩
  | cons op ops ih =>
    rw [payload_cons]
    have ha := writeAll_after op.payload st.wr.replies st.wr.got
    unfold runAll
    rw [wrapStep_eq, wrapBytes]
    cases hw : writeAll op.payload st.wr.replies st.wr.got with
    | mk ok d =>
      rw [hw] at ha
      cases ok with
      | false => exact ⟨ha.weaken, fun h => nomatch h⟩
      | true =>
        obtain ⟨h1, h2⟩ := ih ⟨d, st.mark + op.payload.length⟩
        refine ⟨ha.trans h1, fun h => ?_⟩
        have := h2 h
        dsimp only at this ⊢
        rw [this, List.length_append]; omega

/-! ## Buffered -/

/-- What has been written to the device and to the buffer. -/
def Buf.all (b : Buf) : Bytes := b.dev.got ++ b.buf

/-- Some replies were used, and some bytes accepted. -/
def Calm (d d' : Dev) : Prop := (∃ used, d.replies = used ++ d'.replies) ∧ ∃ q, d'.got = d.got ++ q

theorem Calm.refl (d : Dev) : Calm d d := ⟨⟨[], rfl⟩, [], by simp⟩

theorem Calm.trans {a b c : Dev} : Calm a b → Calm b c → Calm a c := by
  rintro ⟨⟨u, hu⟩, p, hp⟩ ⟨⟨v, hv⟩, q, hq⟩
  exact ⟨⟨u ++ v, by rw [hu, hv, List.append_assoc]⟩, p ++ q, by rw [hq, hp, List.append_assoc]⟩

theorem Calm.noFail {a b : Dev} (h : Calm a b) (hn : ∀ r ∈ a.replies, ¬r.Fails) :
    ∀ r ∈ b.replies, ¬r.Fails := by
  obtain ⟨⟨u, hu⟩, _⟩ := h
  intro r hr
  exact hn r (by rw [hu]; exact List.mem_append_right _ hr)

theorem After.calm {b d ok d'} (h : After b d ok d') : Calm d d' := by
  rcases h with ⟨_, hg, u, hu, _⟩ | ⟨_, _, _, _, hg, u, bad, hu, _⟩
  · exact ⟨⟨u, hu⟩, _, hg⟩
  · exact ⟨⟨u ++ [bad], by rw [hu]; simp⟩, _, hg⟩

theorem After.noFail {b d ok d'} (h : After b d ok d') (hn : ∀ r ∈ d.replies, ¬r.Fails) : ok = true := by
  rcases h with ⟨h, _⟩ | ⟨_, _, _, _, _, u, bad, hu, hb, _⟩
  · exact h
  · exact absurd hb (hn bad (by rw [hu]; simp))

theorem flush_spec (b : Buf) :
    b.flush.2.all = b.all ∧ b.flush.2.cap = b.cap ∧ Calm b.dev b.flush.2.dev ∧
    (b.flush.1 = true → b.flush.2.buf = []) ∧
    (∃ p, p <+: b.buf ∧ b.flush.2.dev.got = b.dev.got ++ p) ∧
    ((∀ r ∈ b.dev.replies, ¬r.Fails) → b.flush.1 = true) := by
  have ha := writeAll_after b.buf b.dev.replies b.dev.got
  unfold Buf.flush
  cases hw : writeAll b.buf b.dev.replies b.dev.got with
  | mk ok d =>
    rw [hw] at ha
    dsimp only at ha ⊢
    refine ⟨?_, rfl, ha.calm, ?_, ?_, fun hn => ha.noFail hn⟩
    · unfold Buf.all
      dsimp only
      rcases ha with ⟨_, hg, _⟩ | ⟨_, p, ⟨t, ht⟩, _, hg, _⟩
      · rw [hg]; simp
      · rw [hg, ← ht]; simp
    · intro ho
      rcases ha with ⟨_, hg, _⟩ | ⟨h, _⟩
      · rw [hg]; simp
      · rw [ho] at h; cases h
    · rcases ha with ⟨_, hg, _⟩ | ⟨_, p, hp, _, hg, _⟩
      · exact ⟨b.buf, List.prefix_rfl, hg⟩
      · exact ⟨p, hp, hg⟩

theorem bufWriteAll_spec (s : Bytes) (b : Buf) (hc : b.buf.length ≤ b.cap) :
    (b.writeAll s).2.cap = b.cap ∧ (b.writeAll s).2.buf.length ≤ b.cap ∧
    Calm b.dev (b.writeAll s).2.dev ∧
    ((b.writeAll s).1 = true → (b.writeAll s).2.all = b.all ++ s) ∧
    (∃ p, p <+: s ∧ (b.writeAll s).2.all = b.all ++ p) ∧
    ((∀ r ∈ b.dev.replies, ¬r.Fails) → (b.writeAll s).1 = true) := by
  unfold Buf.writeAll
  split
  · refine ⟨rfl, ?_, Calm.refl _, fun _ => by simp [Buf.all], ⟨s, List.prefix_rfl, by simp [Buf.all]⟩,
      fun _ => rfl⟩
    dsimp only; rw [List.length_append]; omega
  rename_i hfit
  have key : ∀ (b' : Buf), b'.all = b.all → b'.cap = b.cap → Calm b.dev b'.dev →
      b'.buf.length + s.length ≤ b.cap → (s.length ≥ b.cap → b'.buf = []) →
      let r := (if s.length ≥ b'.cap then
          match Io.writeAll s b'.dev.replies b'.dev.got with
          | (ok, d) => (ok, { b' with dev := d })
        else (true, { b' with buf := b'.buf ++ s }) : Bool × Buf)
      r.2.cap = b.cap ∧ r.2.buf.length ≤ b.cap ∧ Calm b.dev r.2.dev ∧
      (r.1 = true → r.2.all = b.all ++ s) ∧ (∃ p, p <+: s ∧ r.2.all = b.all ++ p) ∧
      ((∀ r ∈ b.dev.replies, ¬r.Fails) → r.1 = true) := by
    intro b' hall hcap hcalm hlen hemp
    dsimp only
    split
    · rename_i hge
      rw [hcap] at hge
      have hb := hemp hge
      have ha := writeAll_after s b'.dev.replies b'.dev.got
      cases hw : Io.writeAll s b'.dev.replies b'.dev.got with
      | mk ok d =>
        rw [hw] at ha
        dsimp only at ha ⊢
        refine ⟨hcap, by rw [hb]; simp, hcalm.trans ha.calm, ?_, ?_, fun hn => ha.noFail (hcalm.noFail hn)⟩
        · intro ho
          rcases ha with ⟨_, hg, _⟩ | ⟨h, _⟩
          · rw [← hall]; unfold Buf.all; dsimp only; rw [hg, hb]; simp
          · rw [ho] at h; cases h
        · rcases ha with ⟨_, hg, _⟩ | ⟨_, p, hp, _, hg, _⟩
          · exact ⟨s, List.prefix_rfl, by rw [← hall]; unfold Buf.all; dsimp only; rw [hg, hb]; simp⟩
          · exact ⟨p, hp, by rw [← hall]; unfold Buf.all; dsimp only; rw [hg, hb]; simp⟩
    · refine ⟨hcap, ?_, hcalm, fun _ => ?_, ⟨s, List.prefix_rfl, ?_⟩, fun _ => rfl⟩
      · dsimp only; rw [List.length_append]; exact hlen
      all_goals rw [← hall]; unfold Buf.all; dsimp only; rw [List.append_assoc]
  by_cases hgt : b.buf.length + s.length > b.cap
  · rw [if_pos hgt]
    obtain ⟨h1, h2, h3, h4, h5, h6⟩ := flush_spec b
    cases hf : b.flush with
    | mk ok b' =>
      rw [hf] at h1 h2 h3 h4 h5 h6
      dsimp only at h1 h2 h3 h4 h5 h6
      cases ok with
      | false =>
        refine ⟨h2, ?_, h3, (fun h => nomatch h), ⟨[], List.nil_prefix, by simpa using h1⟩, ?_⟩
        · dsimp only
          obtain ⟨p, hp, hg⟩ := h5
          have := congrArg List.length h1
          unfold Buf.all at this
          rw [hg] at this
          simp only [List.length_append] at this
          omega
        · intro hn; exact h6 hn
      | true =>
        have hb := h4 rfl
        by_cases hs : s.length ≤ b.cap
        · exact key b' h1 h2 h3 (by rw [hb]; simpa using hs) (fun _ => hb)
        · -- longer than the buffer: written directly
          have hge : s.length ≥ b'.cap := by omega
          dsimp only
          rw [if_pos hge]
          have ha := writeAll_after s b'.dev.replies b'.dev.got
          cases hw : Io.writeAll s b'.dev.replies b'.dev.got with
          | mk ok d =>
            rw [hw] at ha
            dsimp only at ha ⊢
            refine ⟨h2, by rw [hb]; simp, h3.trans ha.calm, ?_, ?_, fun hn => ha.noFail (h3.noFail hn)⟩
            · intro ho
              rcases ha with ⟨_, hg, _⟩ | ⟨h, _⟩
              · rw [← h1]; unfold Buf.all; dsimp only; rw [hg, hb]; simp
              · rw [ho] at h; cases h
            · rcases ha with ⟨_, hg, _⟩ | ⟨_, p, hp, _, hg, _⟩
              · exact ⟨s, List.prefix_rfl, by rw [← h1]; unfold Buf.all; dsimp only; rw [hg, hb]; simp⟩
              · exact ⟨p, hp, by rw [← h1]; unfold Buf.all; dsimp only; rw [hg, hb]; simp⟩
  · rw [if_neg hgt]
    exact key b rfl rfl (Calm.refl _) (by omega) (fun h => by
      rw [← List.length_eq_zero_iff]; omega)

theorem bufStep_eq (op : Op) (st : St Buf) : bufStep op st = bufBytes op.payload st := by
  cases op <;> rfl

theorem buf_run (ops : List Op) (st : St Buf) (hc : st.wr.buf.length ≤ st.wr.cap) :
    Calm st.wr.dev (runAll bufStep ops st).2.wr.dev ∧
    ((runAll bufStep ops st).1 = true → (runAll bufStep ops st).2.wr.all = st.wr.all ++ payload ops) ∧
    (∃ p, p <+: payload ops ∧ (runAll bufStep ops st).2.wr.all = st.wr.all ++ p) ∧
    ((∀ r ∈ st.wr.dev.replies, ¬r.Fails) → (runAll bufStep ops st).1 = true) := by
  induction ops generalizing st with
  | nil => exact ⟨Calm.refl _, fun _ => by simp [runAll, payload],
      ⟨[], List.nil_prefix, by simp [runAll]⟩, fun _ => rfl⟩
  | cons op ops ih =>
    rw [payload_cons]
    obtain ⟨h1, h2, h3, h4, h5, h6⟩ := bufWriteAll_spec op.payload st.wr hc
    unfold runAll
    rw [bufStep_eq, bufBytes]
    cases hw : st.wr.writeAll op.payload with
    | mk ok b =>
      rw [hw] at h1 h2 h3 h4 h5 h6
      dsimp only at h1 h2 h3 h4 h5 h6
      cases ok with
      | false =>
        obtain ⟨p, hp, hg⟩ := h5
        exact ⟨h3, (fun h => nomatch h), ⟨p, hp.trans (List.prefix_append _ _), hg⟩, h6⟩
      | true =>
        obtain ⟨i1, i2, ⟨p, hp, i3⟩, i4⟩ := ih ⟨b, st.mark + op.payload.length⟩ (by rw [h1]; exact h2)
        dsimp only at i1 i2 i3 i4 ⊢
        rw [h4 rfl] at i2 i3
        refine ⟨h3.trans i1, fun h => by rw [i2 h, List.append_assoc],
          ⟨op.payload ++ p, (List.prefix_append_right_inj _).mpr hp, by rw [i3, List.append_assoc]⟩,
          fun hn => i4 (h3.noFail hn)⟩

theorem toBufWriter_spec (cap : Nat) (d : Dev) (ops : List Op) :
    (∃ p, p <+: payload ops ∧ (toBufWriter cap d ops).2.got = d.got ++ p) ∧
    ((∀ r ∈ d.replies, ¬r.Fails) →
      (toBufWriter cap d ops).1 = true ∧ (toBufWriter cap d ops).2.got = d.got ++ payload ops) := by
  obtain ⟨h1, h2, ⟨p, hp, h3⟩, h4⟩ := buf_run ops ⟨⟨cap, [], d⟩, 0⟩ (Nat.zero_le _)
  dsimp only at h1 h2 h3 h4
  unfold toBufWriter
  cases hr : runAll bufStep ops ⟨⟨cap, [], d⟩, 0⟩ with
  | mk ok st =>
    rw [hr] at h1 h2 h3 h4
    dsimp only at h1 h2 h3 h4 ⊢
    obtain ⟨f1, _, f3, f4, _, f6⟩ := flush_spec st.wr
    have hd : (⟨cap, [], d⟩ : Buf).all = d.got := by simp [Buf.all]
    rw [hd] at h2 h3
    constructor
    · -- the device has a prefix of what was written in total
      obtain ⟨_, x, hx⟩ := h1.trans f3
      refine ⟨x, ?_, hx⟩
      have : d.got ++ (x ++ st.wr.flush.2.buf) = d.got ++ p := by
        rw [← h3, ← f1, ← List.append_assoc, ← hx]; rfl
      exact List.IsPrefix.trans ⟨_, List.append_cancel_left this⟩ hp
    · intro hn
      refine ⟨h4 hn, ?_⟩
      have hb := f4 (f6 (h1.noFail hn))
      have : st.wr.flush.2.all = st.wr.flush.2.dev.got := by unfold Buf.all; rw [hb]; simp
      rw [← this, f1, h2 (h4 hn)]

end Musli.Io
