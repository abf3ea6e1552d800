import Verif.Proofs.IoWrite
/-!
# C101: writing to a `std::io::Write`
-/
namespace Musli.Io
open Wr

/-- **C101.** If `to_writer` succeeds, the device has received exactly the encoding, in order and once, after
what it had received before, however it divided and interrupted the writes; and none of its replies was a
failure. The context has advanced by the length of the encoding. -/
theorem C101_success (d : Dev) (ops : List Op) (h : (toWriter d ops).1 = true) :
    (toWriter d ops).2.wr.got = d.got ++ payload ops ∧
    (toWriter d ops).2.mark = (payload ops).length ∧
    ∃ used, d.replies = used ++ (toWriter d ops).2.wr.replies ∧ ∀ r ∈ used, ¬r.Fails := by
  obtain ⟨h1, h2⟩ := runAll_after ops ⟨d, 0⟩
  have hm := h2 h
  rcases h1 with ⟨_, hg, hu⟩ | ⟨h', _⟩
  · exact ⟨hg, by rw [Nat.zero_add] at hm; exact hm, hu⟩
  · exact absurd (h.symm.trans h') (by decide)

/-- **C101.** If it fails, the device has received a proper prefix of the encoding, the last of its replies
was a failure, no other was, and nothing was written after it. -/
theorem C101_failure (d : Dev) (ops : List Op) (h : (toWriter d ops).1 = false) :
    ∃ p, p <+: payload ops ∧ p ≠ payload ops ∧ (toWriter d ops).2.wr.got = d.got ++ p ∧
      ∃ used bad, d.replies = used ++ bad :: (toWriter d ops).2.wr.replies ∧ bad.Fails ∧
        ∀ r ∈ used, ¬r.Fails := by
  obtain ⟨h1, _⟩ := runAll_after ops ⟨d, 0⟩
  rcases h1 with ⟨h', _⟩ | ⟨_, h1⟩
  · exact absurd (h.symm.trans h') (by decide)
  · exact h1

/-- **C101.** So it only fails if the device does. -/
theorem C101_no_spurious_failure (d : Dev) (ops : List Op) (h : ∀ r ∈ d.replies, ¬r.Fails) :
    (toWriter d ops).1 = true :=
  (runAll_after ops ⟨d, 0⟩).1.noFail h

/-- **C101.** And the result does not depend on how the encoder divides the encoding into writes, if the
device does not fail. -/
theorem C101_independent_of_writes (d : Dev) (ops ops' : List Op) (h : ∀ r ∈ d.replies, ¬r.Fails)
    (hp : payload ops = payload ops') :
    (toWriter d ops).2.wr.got = (toWriter d ops').2.wr.got := by
  rw [(C101_success d ops (C101_no_spurious_failure d ops h)).1,
    (C101_success d ops' (C101_no_spurious_failure d ops' h)).1, hp]

example : toWriter ⟨[.accept 1, .interrupted, .accept 9, .accept 2], [7]⟩ [.bytes [1, 2, 3], .byte 4, .bytes []] =
    (true, ⟨⟨[], [7, 1, 2, 3, 4]⟩, 4⟩) := by decide

example : toWriter ⟨[.accept 1, .accept 1, .error, .accept 9], []⟩ [.bytes [1, 2, 3], .byte 4] =
    (false, ⟨⟨[.accept 9], [1, 2]⟩, 0⟩) := by decide

example : (toWriter ⟨[.accept 0], []⟩ [.byte 4]).1 = false := by decide

/-- **C101.** Through a `BufWriter` which is passed by value, so that it is dropped at the end: the device
receives a prefix of the encoding in any case, and all of it if it does not fail; then the result is success. -/
theorem C101_buffered (cap : Nat) (d : Dev) (ops : List Op) :
    (∃ p, p <+: payload ops ∧ (toBufWriter cap d ops).2.got = d.got ++ p) ∧
    ((∀ r ∈ d.replies, ¬r.Fails) →
      (toBufWriter cap d ops).1 = true ∧ (toBufWriter cap d ops).2.got = d.got ++ payload ops) :=
  toBufWriter_spec cap d ops

/-- But success does not mean that the device has received everything then: `finish` does not flush
(`wrap.rs:56-61`), and errors are lost when the `BufWriter` is dropped. A caller has to pass `&mut BufWriter`
and to flush it. -/
theorem C101_buffered_success_loses :
    toBufWriter 8 ⟨[.accept 1, .error], []⟩ [.bytes [1, 2, 3], .byte 4] = (true, ⟨[], [1]⟩) := by decide

end Musli.Io
