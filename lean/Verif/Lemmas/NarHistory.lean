import Verif.Spec.NarCalls
import Verif.Lemmas.NarSound

namespace Verif.Nar
open Verif.GoLib Verif.Spec Verif.Wire

@[simp] theorem hdrsOf_nil : hdrsOf [] = [] := rfl
@[simp] theorem hdrsOf_ok (h : Header) (os : List ROut) : hdrsOf (.next (.ok h) :: os) = h :: hdrsOf os := rfl
@[simp] theorem hdrsOf_err (e : Err) (os : List ROut) : hdrsOf (.next (.err e) :: os) = hdrsOf os := rfl
@[simp] theorem hdrsOf_panic (os : List ROut) : hdrsOf (.next .panic :: os) = hdrsOf os := rfl
@[simp] theorem hdrsOf_block (os : List ROut) : hdrsOf (.next .block :: os) = hdrsOf os := rfl
@[simp] theorem hdrsOf_read (x : Res Bytes) (os : List ROut) : hdrsOf (.read x :: os) = hdrsOf os := rfl
@[simp] theorem hdrsOf_close (x : Call Unit) (os : List ROut) : hdrsOf (.close x :: os) = hdrsOf os := rfl

theorem receive_yield (r : Reader) (h : Header) (s : RState) (k) :
    r.receive (.yield h s k) = if pathIsLexicographicallyOrdered r.prev h.path then
      (.ok h, { r with st := s, phase := .waiting k, prev := h.path })
      else (.err (.msg "received header in the wrong order"),
        { r with st := s, phase := .waiting k, err := some (.msg "received header in the wrong order") }) := rfl

/-- A `Next` that returned a header. -/
theorem next_ok {r r' : Reader} {h : Header} (hn : r.next = (.ok h, r')) :
    r.err = none ∧ r.closed = false ∧ ∃ s k, r.resume = some (.yield h s k) ∧
      pathIsLexicographicallyOrdered r.prev h.path = true ∧
      r' = { r with st := s, phase := .waiting k, prev := h.path } := by
  rcases next_cases r with ⟨e, _, h1⟩ | ⟨_, _, h1⟩ | ⟨_, _, _, h1⟩ | ⟨he, hc, st, hs, h1⟩
  · rw [h1] at hn; simp at hn
  · rw [h1] at hn; simp at hn
  · rw [h1] at hn; simp at hn
  · rw [h1] at hn
    refine ⟨he, hc, ?_⟩
    cases st with
    | done res s =>
      rcases res with _ | e | _ <;> simp [Reader.receive] at hn
    | yield h' s k =>
      rw [receive_yield] at hn
      split at hn
      · rename_i ho
        simp only [Prod.mk.injEq, Call.ok.injEq] at hn
        obtain ⟨rfl, rfl⟩ := hn
        exact ⟨s, k, hs, ho, rfl⟩
      · simp at hn

/-- A `Next` that returned an error. -/
theorem next_err {r r' : Reader} {e : Err} (hn : r.next = (.err e, r')) :
    r'.err = some e ∧ (r.err = some e ∧ r' = r ∨ r.err = none) := by
  rcases next_cases r with ⟨e', he, h1⟩ | ⟨_, _, h1⟩ | ⟨_, _, _, h1⟩ | ⟨he, hc, st, hs, h1⟩
  · rw [h1] at hn
    simp only [Prod.mk.injEq, Call.err.injEq] at hn
    obtain ⟨rfl, rfl⟩ := hn
    exact ⟨he, .inl ⟨he, rfl⟩⟩
  · rw [h1] at hn; simp at hn
  · rw [h1] at hn; simp at hn
  · rw [h1] at hn
    refine ⟨?_, .inr he⟩
    cases st with
    | done res s =>
      rcases res with _ | e' | _ <;> simp [Reader.receive] at hn
      · obtain ⟨rfl, rfl⟩ := hn; rfl
      · obtain ⟨rfl, rfl⟩ := hn; rfl
    | yield h' s k =>
      rw [receive_yield] at hn
      split at hn
      · simp at hn
      · simp at hn
        obtain ⟨rfl, rfl⟩ := hn; rfl

theorem next_stuck {r : Reader} (h : ∀ hd, r.next.1 ≠ .ok hd) (h2 : ∀ e, r.next.1 ≠ .err e)
    (hp : ∀ st, r.resume = some st → r.err = none → r.closed = false → st ≠ .done .panic (Step.state st)) :
    r.next.2 = r := by
  rcases next_cases r with ⟨e', he, h1⟩ | ⟨_, _, h1⟩ | ⟨_, _, _, h1⟩ | ⟨he, hc, st, hs, h1⟩
  · rw [h1]
  · rw [h1]
  · rw [h1]
  · exfalso
    rw [h1] at h h2
    have := hp st hs he hc
    cases st with
    | done res s =>
      rcases res with _ | e' | _
      · exact h2 .eof rfl
      · exact h2 e' rfl
      · exact this rfl
    | yield h' s k =>
      rw [receive_yield] at h h2
      split at h
      · exact h h' rfl
      · rename_i ho
        rw [if_neg ho] at h2
        exact h2 _ rfl

theorem next_not_panic {t : Err} {r : Reader} (h : RInv t r) (hs : r.closed = false) :
    r.next.1 ≠ .panic ∧ (r.next.1 ≠ .block) := by
  rcases next_cases r with ⟨e', he, h1⟩ | ⟨_, h0, h1⟩ | ⟨he, hc, hp, h1⟩ | ⟨he, hc, st, hst, h1⟩
  · rw [h1]; simp
  · rw [h0] at hs; simp at hs
  · rcases h.finished hp with h | h
    · exact absurd he h
    · rw [h] at hs; simp at hs
  · rw [h1]
    obtain ⟨n, hok, _⟩ := resume_ok h st hst
    cases st with
    | done res s =>
      rcases res with _ | e' | _
      · simp [Reader.receive]
      · simp [Reader.receive]
      · exact absurd rfl hok.noPanic
    | yield h' s k => rw [receive_yield]; split <;> simp

theorem rinv_op {t : Err} {r : Reader} (h : RInv t r) (o : ROp) : RInv t (r.op o).2 := by
  cases o with
  | next => exact rinv_next h
  | read k => exact rinv_read h k
  | close => exact rinv_close h

theorem rinv_run {t : Err} {r : Reader} (h : RInv t r) (os : List ROp) : RInv t (r.run os).2 := by
  induction os generalizing r with
  | nil => exact h
  | cons o os ih => exact ih (rinv_op h o)

theorem run_append (r : Reader) (a b : List ROp) :
    r.run (a ++ b) = ((r.run a).1 ++ ((r.run a).2.run b).1, ((r.run a).2.run b).2) := by
  induction a generalizing r with
  | nil => rfl
  | cons o a ih =>
    simp only [List.cons_append, Reader.run]
    rw [ih]

/-- Facts about every header returned. -/
theorem run_hdrOk {t : Err} {r : Reader} (h : RInv t r) (os : List ROp) :
    ∀ hd ∈ hdrsOf (r.run os).1, ∃ n s, HdrOk t n hd s := by
  induction os generalizing r with
  | nil => simp [Reader.run]
  | cons o os ih =>
    intro hd hmem
    simp only [Reader.run] at hmem
    cases o with
    | read k => exact ih (rinv_read h k) hd (by simpa [Reader.op] using hmem)
    | close => exact ih (rinv_close h) hd (by simpa [Reader.op] using hmem)
    | next =>
      simp only [Reader.op] at hmem
      rcases hn : r.next with ⟨c, r'⟩
      rw [hn] at hmem
      have hr' : RInv t r' := by have := rinv_next h; rw [hn] at this; exact this
      cases c with
      | ok h0 =>
        simp only [hdrsOf_ok, List.mem_cons] at hmem
        rcases hmem with rfl | hmem
        · obtain ⟨_, _, s, k, hs, _, _⟩ := next_ok hn
          obtain ⟨n, hok, _⟩ := resume_ok h _ hs
          exact ⟨n, s, hok.1⟩
        · exact ih hr' hd hmem
      | err e => exact ih hr' hd (by simpa using hmem)
      | panic => exact ih hr' hd (by simpa using hmem)
      | block => exact ih hr' hd (by simpa using hmem)

/-! ### after an error -/

theorem op_err {r : Reader} {e : Err} (he : r.err = some e) (o : ROp) :
    (r.op o).2.err = some e ∧ (o = .next → r.op o = (.next (.err e), r)) := by
  cases o with
  | read k =>
    obtain ⟨s', _, e'⟩ := read_consume r k
    exact ⟨by simp only [Reader.op]; rw [e']; exact he, by simp⟩
  | close =>
    refine ⟨?_, by simp⟩
    simp only [Reader.op]
    unfold Reader.close
    split
    · exact he
    · split
      · exact he
      · split <;> exact he
  | next =>
    have : r.next = (.err e, r) := by unfold Reader.next; rw [he]
    exact ⟨by simp only [Reader.op, this]; exact he, fun _ => by simp only [Reader.op, this]⟩

theorem run_err_hdrs {r : Reader} {e : Err} (he : r.err = some e) (os : List ROp) :
    hdrsOf (r.run os).1 = [] := by
  induction os generalizing r with
  | nil => rfl
  | cons o os ih =>
    have := op_err he o
    simp only [Reader.run]
    cases o with
    | read k => simp only [Reader.op, hdrsOf_read]; exact ih this.1
    | close => simp only [Reader.op, hdrsOf_close]; exact ih this.1
    | next => rw [this.2 rfl, hdrsOf_err]; exact ih he

/-! ### order -/

/-- The goroutine's future headers are sorted after `c`, and so is the previous path. -/
structure SInv (c : List Bytes) (r : Reader) : Prop where
  good : ∀ x ∈ c, Good x
  prev : r.prev = absPath c ∨ (r.prev = [] ∧ c = [])
  start : r.phase = .start → c = []
  waiting : ∀ k, r.phase = .waiting k → ∀ s', Sorted (fun _ => True) c (k true s')

theorem sinv_new {s s' : Stream} {r : Reader} (h : newReader s = (.ok r, s')) : SInv [] r := by
  obtain ⟨h1, h2, h3, h4, h5, h6⟩ := newReader_facts h
  exact ⟨by simp, .inr ⟨h4, rfl⟩, fun _ => rfl, fun k hk => by rw [h2] at hk; simp at hk⟩

theorem sinv_resume {c : List Bytes} {r : Reader} (h : SInv c r) {st} (hs : r.resume = some st) :
    Sorted (fun _ => True) c st := by
  unfold Reader.resume at hs
  cases hp : r.phase with
  | start =>
    rw [hp] at hs
    simp only [Option.some.injEq] at hs
    subst hs
    have := h.start hp
    subst this
    exact ((sorted_parse _).1 [] [] r.st (by simp) (by simp) (fun _ => List.le_refl _)).mono
      (fun _ _ => trivial)
  | waiting k =>
    rw [hp] at hs
    simp only [Option.some.injEq] at hs
    subst hs
    exact h.waiting k hp _
  | finished => rw [hp] at hs; simp at hs
  | stuck => rw [hp] at hs; simp at hs

theorem abs_le_of_head {p : Bytes} (h : p.head? = some 47) : absPath [] ≤ p := by
  cases p with
  | nil => simp at h
  | cons a p =>
    simp at h; subst h
    show [47] ≤ 47 :: p
    rw [List.cons_le_cons_iff]
    exact .inr ⟨rfl, by simp⟩

theorem run_sorted {t : Err} {c : List Bytes} {r : Reader} (hi : RInv t r) (h : SInv c r)
    (os : List ROp) :
    (hdrsOf (r.run os).1).Pairwise (fun a b => cleanComps a.path ≤ cleanComps b.path) ∧
    ∀ hd ∈ hdrsOf (r.run os).1, c ≤ cleanComps hd.path := by
  induction os generalizing r c with
  | nil => simp [Reader.run]
  | cons o os ih =>
    simp only [Reader.run]
    cases o with
    | read k =>
      obtain ⟨s', hc, e⟩ := read_consume r k
      have h' : SInv c (r.read k).2 := by
        rw [e]; exact ⟨h.good, h.prev, h.start, h.waiting⟩
      simpa [Reader.op] using ih (rinv_read hi k) h'
    | close =>
      have h' : SInv c r.close.2 := by
        unfold Reader.close
        split
        · exact h
        · split
          · exact h
          · cases hp : r.phase with
            | start => exact ⟨h.good, h.prev, by simp, by simp⟩
            | waiting k => exact ⟨h.good, h.prev, by simp, by simp⟩
            | finished => exact ⟨h.good, h.prev, by simp, by simp⟩
            | stuck => exact ⟨h.good, h.prev, by simp, by simp⟩
      simpa [Reader.op] using ih (rinv_close hi) h'
    | next =>
      simp only [Reader.op]
      rcases hn : r.next with ⟨res, r'⟩
      have hr' : RInv t r' := by have := rinv_next hi; rw [hn] at this; exact this
      cases res with
      | ok h0 =>
        obtain ⟨_, _, s, k, hs, ho, e⟩ := next_ok hn
        have hsort := sinv_resume h hs
        have ho' : pathIsLexicographicallyOrdered (absPath c) h0.path = true := by
          rcases h.prev with hp | ⟨hp, rfl⟩
          · rw [← hp]; exact ho
          · obtain ⟨n, hok, _⟩ := resume_ok hi _ hs
            obtain ⟨cs, _, hcs⟩ := hok.1.path
            rw [ordered_iff]
            exact .inl (abs_le_of_head (by rw [hcs]; rfl))
        obtain ⟨d, hd1, hd2, hd3, hd4⟩ := hsort ho'
        have h' : SInv d r' := by
          rw [e]
          exact ⟨hd1, .inl hd2, by simp, by intro k' hk'; cases hk'; exact hd4⟩
        obtain ⟨i1, i2⟩ := ih hr' h'
        have ed : cleanComps h0.path = d := by rw [hd2, cleanComps_absPath hd1]
        simp only [hdrsOf_ok, List.pairwise_cons, List.mem_cons]
        refine ⟨⟨fun b hb => by rw [ed]; exact i2 b hb, i1⟩, ?_⟩
        rintro b (rfl | hb)
        · rw [ed]; exact hd3
        · exact List.le_trans hd3 (i2 b hb)
      | err e =>
        simp [run_err_hdrs (next_err hn).1 os]
      | panic =>
        have hr2 : r' = r ∨ r.closed = false := by
          rcases next_cases r with ⟨e', he, h1⟩ | ⟨_, _, h1⟩ | ⟨_, _, _, h1⟩ | ⟨he, hc, st, hs, h1⟩
          · rw [h1] at hn; simp at hn
          · rw [h1] at hn; simp at hn; exact .inl hn.symm
          · rw [h1] at hn; simp at hn
          · exact .inr hc
        rcases hr2 with rfl | hc
        · simpa using ih hr' h
        · exact absurd (by rw [hn]) (next_not_panic hi hc).1
      | block =>
        have hr2 : r' = r ∨ r.closed = false := by
          rcases next_cases r with ⟨e', he, h1⟩ | ⟨_, _, h1⟩ | ⟨_, _, _, h1⟩ | ⟨he, hc, st, hs, h1⟩
          · rw [h1] at hn; simp at hn
          · rw [h1] at hn; simp at hn
          · rw [h1] at hn; simp at hn; exact .inl hn.symm
          · exact .inr hc
        rcases hr2 with rfl | hc
        · simpa using ih hr' h
        · exact absurd (by rw [hn]) (next_not_panic hi hc).2

/-! ### what was consumed when `io.EOF` comes -/

/-- `acc`: headers and contents so far of an archive that started with `d0`. -/
structure PInv (R : List (Header × Bytes) → Bytes → Prop) (C : List (Header × Bytes) → Prop) (d0 : Stream) (acc : List (Header × Bytes))
    (r : Reader) : Prop where
  start : r.phase = .start → acc = [] ∧ r.st.stream = d0 ∧ r.st.rem = 0
  waiting : ∀ k, r.phase = .waiting k → ∃ s0, Consume s0 r.st ∧
    ∀ s', Consume s0 s' → Parses R C acc (k true s')

/-- what the entries are at a regular end -/
def RelR (d0 : Stream) (es : List (Header × Bytes)) (d' : Bytes) : Prop :=
  ∃ es', es = es'.map hc ∧ RelNode b!"/" d0.data es' d'

/-- what the entries are when the data ended -/
def CutC (d0 : Stream) (es : List (Header × Bytes)) : Prop :=
  ∃ xs, es = xs.map hs ∧ CutNode b!"/" d0.data xs

theorem run_eof {t : Err} {r : Reader} {acc : List (Header × Bytes)} {d0 : Stream} (hi : RInv t r)
    (h : PInv (RelR d0) (CutC d0) d0 acc r)
    (os : List ROp) (hno : ∀ e, ROut.next (.err e) ∉ (r.run os).1) (hcl : ROp.close ∉ os)
    (hc0 : r.closed = false) (r'' : Reader)
    (hlast : (r.run os).2.next = (.err .eof, r'')) (herr : r.err = none) :
    (r''.st.stream.data = [] ∧ t = .eof ∧ ∃ xs, CutNode b!"/" d0.data xs ∧
      acc.map Prod.fst ++ hdrsOf (r.run os).1 = xs.map hdrSeen) ∨
    ∃ es, RelNode b!"/" d0.data es r''.st.stream.data ∧
      acc.map Prod.fst ++ hdrsOf (r.run os).1 = es.map hdrOf := by
  induction os generalizing r acc with
  | nil =>
    simp only [Reader.run] at hlast
    rcases next_cases r with ⟨e', he, h1⟩ | ⟨_, _, h1⟩ | ⟨_, _, _, h1⟩ | ⟨he, hc, st, hs, h1⟩
    · rw [herr] at he; simp at he
    · rw [h1] at hlast; simp at hlast
    · rw [h1] at hlast; simp at hlast
    · rw [h1] at hlast
      have hp : Parses (RelR d0) (CutC d0) acc st := by
        unfold Reader.resume at hs
        cases hp : r.phase with
        | start =>
          rw [hp] at hs
          simp only [Option.some.injEq] at hs
          subst hs
          obtain ⟨rfl, e2, _⟩ := h.start hp
          refine ((sound_parse _).1 b!"/" r.st []).mono ?_ ?_
          · rintro es d ⟨es', rfl, hr⟩
            rw [e2] at hr
            exact ⟨es', by simp, hr⟩
          · rintro es ⟨es', rfl, hr⟩
            rw [e2] at hr
            exact ⟨es', by simp, hr⟩
        | waiting k =>
          rw [hp] at hs
          simp only [Option.some.injEq] at hs
          subst hs
          obtain ⟨s0, hcons, hk⟩ := h.waiting k hp
          exact hk _ hcons
        | finished => rw [hp] at hs; simp at hs
        | stuck => rw [hp] at hs; simp at hs
      cases st with
      | done res s =>
        rcases res with _ | e' | _
        · simp [Reader.receive] at hlast
          subst hlast
          obtain ⟨es', e1, e2⟩ := hp
          refine .inr ⟨es', e2, ?_⟩
          simp only [Reader.run, hdrsOf_nil, List.append_nil, e1, List.map_map]
          rfl
        · simp [Reader.receive] at hlast
          obtain ⟨rfl, rfl⟩ := hlast
          obtain ⟨n, hok, _⟩ := resume_ok hi _ hs
          obtain ⟨hp1, hp2, xs, e1, e2⟩ := hp
          refine .inl ⟨hp1, by rw [← hok.term]; exact hp2, xs, e2, ?_⟩
          simp only [Reader.run, hdrsOf_nil, List.append_nil, e1, List.map_map]
          rfl
        · simp [Reader.receive] at hlast
      | yield h' s k =>
        rw [receive_yield] at hlast
        split at hlast <;> simp at hlast
  | cons o os ih =>
    simp only [Reader.run] at hno hlast ⊢
    cases o with
    | close => simp at hcl
    | read k =>
      obtain ⟨s', hc, e⟩ := read_consume r k
      have h' : PInv (RelR d0) (CutC d0) d0 acc (r.read k).2 := by
        rw [e]
        refine ⟨?_, ?_⟩
        · intro hp
          obtain ⟨h1, h2, h3⟩ := h.start hp
          have := consume_rem_zero hc h3
          subst this
          exact ⟨h1, h2, h3⟩
        · intro k hk
          obtain ⟨s0, hc1, hk1⟩ := h.waiting k hk
          exact ⟨s0, hc1.trans hc, hk1⟩
      have := ih (r := (r.read k).2) (acc := acc) (rinv_read hi k) h' (fun e he => hno e (by simp only [Reader.op]; exact List.mem_cons_of_mem _ he))
        (fun hm => hcl (List.mem_cons_of_mem _ hm)) (by rw [e]; exact hc0) hlast (by rw [e]; exact herr)
      simpa [Reader.op] using this
    | next =>
      rcases hn : r.next with ⟨res, r'⟩
      have hr' : RInv t r' := by have := rinv_next hi; rw [hn] at this; exact this
      simp only [Reader.op, hn] at hno hlast ⊢
      cases res with
      | err e => exact absurd (List.mem_cons_self) (hno e)
      | panic => exact absurd (by rw [hn]) (next_not_panic hi hc0).1
      | block => exact absurd (by rw [hn]) (next_not_panic hi hc0).2
      | ok h0 =>
        obtain ⟨he, hc, s, k, hs, ho, e⟩ := next_ok hn
        have hp : Parses (RelR d0) (CutC d0) acc
            (.yield h0 s k : Step RState Header Bool Unit) := by
          unfold Reader.resume at hs
          cases hp : r.phase with
          | start =>
            rw [hp] at hs
            simp only [Option.some.injEq] at hs
            rw [← hs]
            obtain ⟨rfl, e2, _⟩ := h.start hp
            refine ((sound_parse _).1 b!"/" r.st []).mono ?_ ?_
            · rintro es d ⟨es', rfl, hr⟩
              rw [e2] at hr
              exact ⟨es', by simp, hr⟩
            · rintro es ⟨es', rfl, hr⟩
              rw [e2] at hr
              exact ⟨es', by simp, hr⟩
          | waiting k =>
            rw [hp] at hs
            simp only [Option.some.injEq] at hs
            rw [← hs]
            obtain ⟨s0, hcons, hk⟩ := h.waiting k hp
            exact hk _ hcons
          | finished => rw [hp] at hs; simp at hs
          | stuck => rw [hp] at hs; simp at hs
        have h' : PInv (RelR d0) (CutC d0) d0
            (acc ++ [(h0, s.stream.data.take s.rem)]) r' := by
          rw [e]
          refine ⟨by simp, ?_⟩
          intro k' hk'
          cases hk'
          exact ⟨s, Consume.refl s, hp⟩
        have := ih hr' h' (fun e he => hno e (List.mem_cons_of_mem _ he))
          (fun hm => hcl (List.mem_cons_of_mem _ hm)) (by rw [e]; exact hc) hlast (by rw [e]; exact he)
        simpa using this

end Verif.Nar

namespace Verif.Nar
open Verif.GoLib Verif.Spec Verif.Wire

/-! ### siblings -/

theorem last_slash {x y l n : Bytes} (hl : (47 : UInt8) ∉ l) (hn : (47 : UInt8) ∉ n)
    (h : x ++ 47 :: l = y ++ 47 :: n) : x = y ∧ l = n := by
  rcases List.append_eq_append_iff.1 h with ⟨z, h1, h2⟩ | ⟨z, h1, h2⟩
  · cases z with
    | nil => simp at h1 h2; exact ⟨h1.symm, h2⟩
    | cons a z =>
      simp at h2
      exact absurd (by rw [h2.2]; simp) hl
  · cases z with
    | nil => simp at h1 h2; exact ⟨h1, h2.symm⟩
    | cons a z =>
      simp at h2
      exact absurd (by rw [h2.2]; simp) hn

theorem absPre_inj {a b : List Bytes} (ha : ∀ x ∈ a, Good x) (hb : ∀ x ∈ b, Good x)
    (h : absPre a = absPre b) : a = b := by
  unfold absPre at h
  split at h
  · rename_i e
    split at h
    · rename_i e'; rw [e, e']
    · simp [absPath] at h
  · split at h
    · simp [absPath] at h
    · exact absPath_inj ha hb (List.append_cancel_right h)

/-- The path of an entry of a directory determines the components. -/
theorem child_comps {c : List Bytes} (hc : ∀ x ∈ c, Good x) {d n : Bytes} (hn : n ≠ [])
    (hs : (47 : UInt8) ∉ n) (h : absPath c = childPath d n) :
    ∃ c', c = c' ++ [n] ∧ absPre c' = (if d = b!"/" then b!"/" else d ++ b!"/") := by
  have hpre : ∀ cs, ∃ x, absPre cs = x ++ [47] := by
    intro cs; unfold absPre; split
    · exact ⟨[], rfl⟩
    · exact ⟨_, rfl⟩
  have hd : ∃ y, (if d = b!"/" then b!"/" else d ++ b!"/") = y ++ [47] ∧ childPath d n = y ++ 47 :: n := by
    unfold childPath; split
    · exact ⟨[], rfl, by simp⟩
    · exact ⟨d, rfl, by simp⟩
  obtain ⟨y, hy1, hy2⟩ := hd
  rw [hy2] at h
  rcases List.eq_nil_or_concat c with rfl | ⟨c', l, rfl⟩
  · have : (absPath [] : Bytes) = [] ++ 47 :: [] := rfl
    rw [this] at h
    exact absurd (last_slash (by simp) hs h).2.symm hn
  · rw [List.concat_eq_append] at h hc ⊢
    rw [absPath_append _ _ (by simp)] at h
    obtain ⟨x, hx⟩ := hpre c'
    rw [hx] at h
    have hl : (47 : UInt8) ∉ l := (hc l (by simp)).2.2.2
    have h' : x ++ 47 :: l = y ++ 47 :: n := by
      rw [← h]; simp [join]
    obtain ⟨rfl, rfl⟩ := last_slash hl hs h'
    exact ⟨c', rfl, by rw [hx, hy1]⟩

theorem siblings_le {a b : List Bytes} (ha : ∀ x ∈ a, Good x) (hb : ∀ x ∈ b, Good x)
    (h : a ≤ b) {d n m : Bytes} (hn : n ≠ []) (hns : (47 : UInt8) ∉ n) (hm : m ≠ [])
    (hms : (47 : UInt8) ∉ m) (h1 : absPath a = childPath d n) (h2 : absPath b = childPath d m) :
    n ≤ m := by
  obtain ⟨a', rfl, ea⟩ := child_comps ha hn hns h1
  obtain ⟨b', rfl, eb⟩ := child_comps hb hm hms h2
  have e := absPre_inj (fun x hx => ha x (List.mem_append_left _ hx))
    (fun x hx => hb x (List.mem_append_left _ hx)) (ea.trans eb.symm)
  subst e
  by_cases hle : n ≤ m
  · exact hle
  · have hlt := List.not_le.1 hle
    have h3 : ([m] : List Bytes) < [n] := by rw [List.cons_lt_cons_iff]; exact .inl hlt
    exact absurd h (List.not_le.2 (List.append_left_lt h3))

/-! ### content read or not -/

/-- Same reader up to content read. -/
structure Same (t : Err) (r1 r2 : Reader) : Prop where
  inv1 : RInv t r1
  inv2 : RInv t r2
  err : r1.err = r2.err
  closed : r1.closed = r2.closed
  prev : r1.prev = r2.prev
  phase : r1.phase = r2.phase
  st : r1.phase = .start → r1.st = r2.st
  wait : ∀ k, r1.phase = .waiting k → ∃ s0, Consume s0 r1.st ∧ Consume s0 r2.st ∧
    (∀ s', Consume s0 s' → k true s' = k true s0)

theorem same_refl {t : Err} {r : Reader} (h : RInv t r) : Same t r r := by
  refine ⟨h, h, rfl, rfl, rfl, rfl, fun _ => rfl, ?_⟩
  intro k hk
  obtain ⟨s0, n, h1, _, h3, _⟩ := h.waiting k hk
  exact ⟨s0, h1, h1, h3⟩

theorem same_read {t : Err} {r1 r2 : Reader} (h : Same t r1 r2) (k : Nat) :
    Same t (r1.read k).2 r2 := by
  have hi := rinv_read h.inv1 k
  obtain ⟨s', hc, e⟩ := read_consume r1 k
  rw [e] at hi ⊢
  refine ⟨hi, h.inv2, h.err, h.closed, h.prev, h.phase, ?_, ?_⟩
  · intro hp
    have := h.inv1.start hp
    simp only []
    rw [consume_rem_zero hc this]
    exact h.st hp
  · intro k hk
    obtain ⟨s0, h1, h2, h3⟩ := h.wait k hk
    exact ⟨s0, h1.trans hc, h2, h3⟩

theorem same_resume {t : Err} {r1 r2 : Reader} (h : Same t r1 r2) : r1.resume = r2.resume := by
  unfold Reader.resume
  rw [← h.phase]
  cases hp : r1.phase with
  | start => simp only [h.st hp]
  | waiting k =>
    obtain ⟨s0, h1, h2, h3⟩ := h.wait k hp
    simp only [h3 _ h1, h3 _ h2]
  | finished => rfl
  | stuck => rfl

theorem receive_same (r1 r2 : Reader) (he : r1.err = r2.err) (hc : r1.closed = r2.closed)
    (hp : r1.prev = r2.prev) (st : Step RState Header Bool Unit) : r1.receive st = r2.receive st := by
  cases st with
  | done res s =>
    rcases res with _ | e | _ <;> simp [Reader.receive, he, hc, hp]
  | yield h s k => rw [receive_yield, receive_yield, he, hc, hp]

theorem same_next {t : Err} {r1 r2 : Reader} (h : Same t r1 r2) :
    r1.next.1 = r2.next.1 ∧ Same t r1.next.2 r2.next.2 := by
  have hr := same_resume h
  have hrec := receive_same r1 r2 h.err h.closed h.prev
  rcases next_cases r1 with ⟨e, he, h1⟩ | ⟨he, hc, h1⟩ | ⟨he, hc, hp, h1⟩ | ⟨he, hc, st, hs, h1⟩
  · have h2 : r2.next = (.err e, r2) := by unfold Reader.next; rw [← h.err, he]
    rw [h1, h2]; exact ⟨rfl, h⟩
  · have h2 : r2.next = (.panic, r2) := by
      unfold Reader.next; rw [← h.err, he]; simp only []; rw [← h.closed, if_pos hc]
    rw [h1, h2]; exact ⟨rfl, h⟩
  · have h2 : r2.next = (.block, r2) := by
      unfold Reader.next
      rw [← h.err, he]
      simp only []
      rw [← h.closed, if_neg (by simp [hc]), ← hr]
      unfold Reader.resume
      rcases hp with hp | hp <;> rw [hp]
    rw [h1, h2]; exact ⟨rfl, h⟩
  · have h2 : r2.next = r2.receive st := by
      unfold Reader.next
      rw [← h.err, he]
      simp only []
      rw [← h.closed, if_neg (by simp [hc]), ← hr, hs]
    have h3 : r1.next = r2.next := by rw [h1, h2, hrec]
    refine ⟨by rw [h3], ?_⟩
    rw [← h3]
    exact same_refl (rinv_next h.inv1)

theorem same_close {t : Err} {r1 r2 : Reader} (h : Same t r1 r2) :
    r1.close.1 = r2.close.1 ∧ Same t r1.close.2 r2.close.2 := by
  have i1 := rinv_close h.inv1
  have i2 := rinv_close h.inv2
  have key : r1.close.1 = r2.close.1 ∧ r1.close.2.err = r2.close.2.err ∧
      r1.close.2.closed = r2.close.2.closed ∧ r1.close.2.prev = r2.close.2.prev ∧
      r1.close.2.phase = r2.close.2.phase ∧ (r1.close.2 = r1 ∧ r2.close.2 = r2 ∨
        (r1.close.2.phase = .finished ∨ r1.close.2.phase = .stuck)) := by
    unfold Reader.close
    rw [← h.err, ← h.closed, ← h.phase]
    by_cases h0 : r1.err = some .eof
    · rw [if_pos h0, if_pos h0]
      exact ⟨rfl, h.err, h.closed, h.prev, h.phase, .inl ⟨rfl, rfl⟩⟩
    · rw [if_neg h0, if_neg h0]
      by_cases h1 : r1.closed = true
      · rw [if_pos h1, if_pos h1]
        exact ⟨rfl, h.err, h.closed, h.prev, h.phase, .inl ⟨rfl, rfl⟩⟩
      · rw [if_neg h1, if_neg h1]
        cases hp : r1.phase with
        | start => exact ⟨rfl, rfl, rfl, h.prev, rfl, .inr (.inl rfl)⟩
        | waiting k => exact ⟨rfl, rfl, rfl, h.prev, rfl, .inr (.inr rfl)⟩
        | finished => exact ⟨rfl, rfl, rfl, h.prev, rfl, .inr (.inl rfl)⟩
        | stuck => exact ⟨rfl, rfl, rfl, h.prev, rfl, .inr (.inr rfl)⟩
  obtain ⟨k1, k2, k3, k4, k5, k6⟩ := key
  refine ⟨k1, ⟨i1, i2, k2, k3, k4, k5, ?_, ?_⟩⟩
  · intro hs
    rcases k6 with ⟨a, b⟩ | a | a
    · rw [a, b]; rw [a] at hs; exact h.st hs
    · rw [a] at hs; simp at hs
    · rw [a] at hs; simp at hs
  · intro k hk
    rcases k6 with ⟨a, b⟩ | a | a
    · rw [a, b]; rw [a] at hk; exact h.wait k hk
    · rw [a] at hk; simp at hk
    · rw [a] at hk; simp at hk

theorem run_filter {t : Err} {r1 r2 : Reader} (h : Same t r1 r2) (os : List ROp) :
    (r1.run os).1.filter ROut.notRead = (r2.run (os.filter ROp.notRead)).1.filter ROut.notRead := by
  induction os generalizing r1 r2 with
  | nil => rfl
  | cons o os ih =>
    cases o with
    | read k =>
      have := ih (same_read h k)
      simpa [Reader.run, Reader.op, ROut.notRead, ROp.notRead] using this
    | next =>
      obtain ⟨e, h'⟩ := same_next h
      have := ih h'
      simp only [Reader.run, Reader.op, List.filter_cons, ROut.notRead, ROp.notRead, if_true]
      rw [this, e]
    | close =>
      obtain ⟨e, h'⟩ := same_close h
      have := ih h'
      simp only [Reader.run, Reader.op, List.filter_cons, ROut.notRead, ROp.notRead, if_true]
      rw [this, e]

end Verif.Nar
