import Verif.Spec.NarReads
import Verif.Props.Cmd

/-!
# What `Read` returns on any stream (C93)
-/

namespace Verif.Props
open Verif.GoLib Verif.Spec Verif.Wire Verif.Nar

theorem reads_readsOf (ks : List Nat) (r : Reader) :
    (r.reads ks).1 = readsOf r.st.stream.term r.st.rem (r.st.stream.data.take r.st.rem) ks := by
  induction ks generalizing r with
  | nil => unfold readsOf; rfl
  | cons k ks ih =>
    unfold Reader.reads
    simp only []
    rw [ih]
    by_cases h0 : r.st.rem = 0
    · have e : r.read k = (.err .eof, r) := by unfold Reader.read; rw [if_pos h0]
      rw [e, h0, readsOf]
    · obtain ⟨n, hn⟩ : ∃ n, r.st.rem = n + 1 := ⟨r.st.rem - 1, by omega⟩
      cases hd : r.st.stream.data with
      | nil =>
        cases k with
        | zero =>
          have e : r.read 0 = (.ok [], r) := by
            unfold Reader.read
            rw [if_neg h0]
            simp
          rw [e]
          simp only [hn, hd, List.take_nil, readsOf]
        | succ k =>
          have e : r.read (k + 1) = (.err r.st.stream.term, r) := by
            unfold Reader.read
            rw [if_neg h0]
            simp [hd]
          rw [e]
          simp only [hn, hd, List.take_nil, readsOf]
      | cons x d =>
        have e : r.read k = (.ok ((x :: d).take (min k r.st.rem)),
            { r with st := ⟨⟨(x :: d).drop ((x :: d).take (min k r.st.rem)).length, r.st.stream.term⟩,
              r.st.rem - ((x :: d).take (min k r.st.rem)).length, r.st.len⟩ }) := by
          unfold Reader.read
          rw [if_neg h0]
          simp only [hd]
          rw [if_neg]
          rintro ⟨h1, h2⟩
          rw [List.take_eq_nil_iff] at h1
          rcases h1 with h1 | h1
          · omega
          · cases h1
        rw [e]
        simp only []
        have e2 : (x :: d).take (n + 1) = x :: d.take n := rfl
        have hl : (x :: d.take n).length = min (n + 1) (x :: d).length := by
          rw [← e2, List.length_take]
        have hl2 : ((x :: d).take (min k r.st.rem)).length = min k (x :: d.take n).length := by
          rw [List.length_take, hl, hn]; omega
        rw [hn, e2, readsOf]
        rw [← hn, hl2, ← e2]
        rw [hn]
        congr 1
        · rw [List.take_take]
        · congr 1
          rw [← List.drop_take]
          apply List.ext_getElem?
          intro i
          simp only [List.getElem?_drop, List.getElem?_take]
          rw [List.length_take]
          simp only [List.length_cons]
          by_cases hk : k ≤ min (n + 1) (d.length + 1)
          · rw [Nat.min_eq_left hk]
          · rw [Nat.min_eq_right (by omega)]
            have e3 : ∀ j, d.length + 1 ≤ j → (x :: d)[j]? = none := fun j hj => List.getElem?_eq_none (by simpa using hj)
            split <;> split <;> first | rfl | omega | (rw [e3 _ (by omega), e3 _ (by omega)]) | (rw [e3 _ (by omega)])

/-- C93, exactly: after any calls and a `Next` that returned a header, what `Read` calls with any buffer sizes return,
whatever the stream is: the announced bytes as far as the archive has them, then `io.EOF`; if the archive ends
before, the error of the underlying reader (which is `io.EOF`, too, for a truncated file). -/
theorem C93_exact (s s' : Stream) (r r1 : Reader) (hnew : newReader s = (.ok r, s')) (ops : List ROp)
    (h : Header) (hn : (r.run ops).2.next = (.ok h, r1)) (ks : List Nat) :
    0 ≤ h.size ∧ (r1.reads ks).1 = readsOf s.term h.size.toNat (r1.st.stream.data.take h.size.toNat) ks := by
  have hr := rinv_run (rinv_new hnew) ops
  obtain ⟨_, _, st, k, hres, _, rfl⟩ := next_ok hn
  obtain ⟨n, hok, _⟩ := resume_ok hr _ hres
  have hc := hok.1.content.1
  have htm := hok.1.term
  refine ⟨by omega, ?_⟩
  rw [reads_readsOf]
  simp only [] at *
  rw [htm, ← hc, Int.toNat_natCast]

set_option maxRecDepth 20000 in
example := C93_exact _ _ _ _ (newReader_nar' sampleTree .eof) [.next] ⟨b!"/a.txt", b!"regular", [], 12, false⟩ (by rfl) [5, 0, 9]

example : readsOf .io 12 b!"hello" [3, 0, 9, 0, 1, 4] =
    [.ok b!"hel", .ok [], .ok b!"lo", .ok [], .err .io, .err .io] := by decide +kernel
example : readsOf .io 5 b!"hello" [3, 0, 9, 0, 1] =
    [.ok b!"hel", .ok [], .ok b!"lo", .err .eof, .err .eof] := by decide +kernel

end Verif.Props
