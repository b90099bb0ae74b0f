import Verif.Lemmas.NarPrefix2
import Verif.Props.Cmd

/-!
# C122: an archive that is cut off, or whose end has not arrived yet

`s` delivers a beginning of what `s'` delivers and then reports any error; what comes after that point in `s'` is arbitrary.
-/

namespace Verif.Props
open Verif.Nar Verif.GoLib Verif.Spec Verif.Wire Verif.Cmd

theorem preR_hdrs {t t' : Err} (ops : List ROp) (hops : .close ∉ ops) {r r' : Reader} (h : PreR t t' r r') :
    hdrsOf (r.run ops).1 <+: hdrsOf (r'.run ops).1 := by
  induction ops generalizing r r' with
  | nil => exact List.nil_prefix
  | cons o ops ih =>
    have hops' : .close ∉ ops := fun hc => hops (List.mem_cons_of_mem _ hc)
    cases o with
    | close => exact absurd (List.mem_cons_self) hops
    | read k =>
      simp only [Reader.run, Reader.op, hdrsOf_read]
      exact ih hops' (preR_read (preR_read' h k) k)
    | next =>
      simp only [Reader.run, Reader.op]
      rcases hn : r.next with ⟨x, r1⟩
      cases x with
      | ok hd =>
        obtain ⟨r1', hn', h', _⟩ := preR_next h hn
        rw [hn']
        simp only [hdrsOf_ok]
        exact List.cons_prefix_cons.2 ⟨rfl, ih hops' h'⟩
      | err e =>
        have he := (next_err hn).1
        simp only [hdrsOf_err]
        rw [run_err_hdrs he]
        exact List.nil_prefix
      | panic =>
        exfalso
        obtain ⟨q, q', hq, _, hu⟩ := h
        exact (next_not_panic hq.inv1 (hq.closed.trans hu.closed)).1 (by rw [hn])
      | block =>
        exfalso
        obtain ⟨q, q', hq, _, hu⟩ := h
        exact (next_not_panic hq.inv1 (hq.closed.trans hu.closed)).2 (by rw [hn])

theorem preR_run {t t' : Err} : ∀ (ops ops' : List ROp), .close ∉ ops → .close ∉ ops' → ops.count .next = ops'.count .next →
    ∀ {r r' : Reader}, PreR t t' r r' → PreR t t' (r.run ops).2 (r'.run ops').2 ∨ (r.run ops).2.err ≠ none
  | .read k :: ops, ops', h1, h2, hc, r, r', h => by
    simp only [Reader.run, Reader.op]
    exact preR_run ops ops' (fun h => h1 (List.mem_cons_of_mem _ h)) h2 (by simpa using hc) (preR_read h k)
  | ops, .read k :: ops', h1, h2, hc, r, r', h => by
    have e : (r'.run (.read k :: ops')).2 = ((r'.read k).2.run ops').2 := rfl
    rw [e]
    exact preR_run ops ops' h1 (fun h => h2 (List.mem_cons_of_mem _ h)) (by simpa using hc) (preR_read' h k)
  | .close :: _, _, h1, _, _, _, _, _ => absurd List.mem_cons_self h1
  | _, .close :: _, _, h2, _, _, _, _ => absurd List.mem_cons_self h2
  | [], [], _, _, _, _, _, h => .inl h
  | [], .next :: _, _, _, hc, _, _, _ => by simp at hc
  | .next :: _, [], _, _, hc, _, _, _ => by simp at hc
  | .next :: ops, .next :: ops', h1, h2, hc, r, r', h => by
    simp only [Reader.run, Reader.op]
    rcases hn : r.next with ⟨x, r1⟩
    by_cases hx : ∃ hd, x = .ok hd
    · obtain ⟨hd, rfl⟩ := hx
      obtain ⟨r1', hn', h', _⟩ := preR_next h hn
      rw [hn']
      exact preR_run ops ops' (fun h => h1 (List.mem_cons_of_mem _ h)) (fun h => h2 (List.mem_cons_of_mem _ h))
        (by simpa using hc) h'
    · right
      have he := preR_end h hn (fun hd e => hx ⟨hd, e⟩)
      obtain ⟨e, he⟩ := Option.ne_none_iff_exists'.1 he
      have : ∀ (ops : List ROp) (r : Reader), r.err = some e → (r.run ops).2.err = some e := by
        intro ops
        induction ops with
        | nil => exact fun r h => h
        | cons o ops ih => exact fun r h => ih _ (op_err h o).1
      rw [this ops r1 he]
      simp
termination_by ops ops' => ops.length + ops'.length

theorem reads_all (r : Reader) : delivered (r.reads [r.st.rem]).1 = r.st.stream.data.take r.st.rem := by
  simp only [Reader.reads, Reader.read]
  by_cases h0 : r.st.rem = 0
  · rw [if_pos h0, h0]; simp [delivered]
  · rw [if_neg h0, Nat.min_self]
    by_cases hd : r.st.stream.data.take r.st.rem = []
    · rw [if_pos ⟨hd, h0⟩, hd]; rfl
    · rw [if_neg (fun h => hd h.1)]
      simp [delivered]

theorem reads_prefix {r r' : Reader} (h : SR r.st r'.st) (ks : List Nat) :
    delivered (r.reads ks).1 <+: delivered (r'.reads [r'.st.rem]).1 := by
  rw [reads_all]
  obtain ⟨i1, i2, i3, i4, i5⟩ := reads_facts ks r
  refine List.prefix_take_iff.2 ⟨i1.trans h.1, ?_⟩
  rw [← h.2.1]
  omega

/-- After a `Next` that returned a header, as much is to be read as the header announces. -/
theorem next_rem {s s' : Stream} {r r1 : Reader} (hnew : newReader s = (.ok r, s')) (ops : List ROp) {h : Header}
    (hn : (r.run ops).2.next = (.ok h, r1)) : h.size.toNat = r1.st.rem := by
  have hr := rinv_run (rinv_new hnew) ops
  obtain ⟨_, _, st, k, hres, _, rfl⟩ := next_ok hn
  obtain ⟨n, hok, _⟩ := resume_ok hr _ hres
  have hc := hok.1.content.1
  simp only [] at hc ⊢
  omega

/-- C122: the reader of a beginning of an archive can be created only if that of the archive can, and whatever calls of `Next`
and `Read` are made, the headers it returns are a beginning of those returned for the archive. -/
theorem C122_headers (s s1 s' : Stream) (r : Reader) (hnew : newReader s = (.ok r, s1)) (hp : s.data <+: s'.data) :
    ∃ r' s1', newReader s' = (.ok r', s1') ∧ ∀ ops : List ROp, .close ∉ ops →
      hdrsOf (r.run ops).1 <+: hdrsOf (r'.run ops).1 := by
  obtain ⟨r', s1', h', hr⟩ := preR_new hnew hp
  exact ⟨r', s1', h', fun ops hops => preR_hdrs ops hops hr⟩

/-- C122: if a call of `Next` returns a header on the beginning, the same call of `Next` (after as many others, with any `Read`s
in between) returns that header on the archive, and what can be read after it on the beginning is a beginning of what
can be read on the archive. -/
theorem C122_contents (s s1 s' s1' : Stream) (r r' : Reader) (hnew : newReader s = (.ok r, s1)) (hp : s.data <+: s'.data)
    (hnew' : newReader s' = (.ok r', s1')) (ops ops' : List ROp) (hops : .close ∉ ops) (hops' : .close ∉ ops')
    (hc : ops.count .next = ops'.count .next) (h : Header) (r1 : Reader) (hn : (r.run ops).2.next = (.ok h, r1)) :
    ∃ r1', (r'.run ops').2.next = (.ok h, r1') ∧
      ∀ ks, delivered (r1.reads ks).1 <+: delivered (r1'.reads [h.size.toNat]).1 := by
  obtain ⟨r'', s1'', h', hr⟩ := preR_new hnew hp
  rw [hnew'] at h'
  simp only [Prod.mk.injEq, Res.ok.injEq] at h'
  obtain ⟨rfl, rfl⟩ := h'
  rcases preR_run ops ops' hops hops' hc hr with hr' | he
  · obtain ⟨r1', hn', _, hsr⟩ := preR_next hr' hn
    refine ⟨r1', hn', fun ks => ?_⟩
    rw [next_rem hnew' ops' hn']
    exact reads_prefix hsr ks
  · exact absurd (next_ok hn).1 he

theorem at_read {es : List Entry} {r : Reader} (h : At es r) (hi : ∃ t, RInv t r) (k : Nat) : At es (r.read k).2 := by
  obtain ⟨t, hi⟩ := hi
  obtain ⟨h1, h2, ⟨st, h3, h4⟩, h5, h6⟩ := h
  have hs := same_resume (same_read (same_refl hi) k)
  obtain ⟨s', _, e⟩ := read_consume r k
  rw [e] at hs ⊢
  exact ⟨h1, h2, ⟨st, by rw [hs]; exact h3, h4⟩, h5, h6⟩

/-- The headers of a complete archive: at most those of the tree. -/
theorem at_hdrs (ops : List ROp) (hops : .close ∉ ops) {es : List Entry} {r : Reader} (h : At es r) {t : Err} (hi : RInv t r) :
    hdrsOf (r.run ops).1 <+: es.map hdrOf := by
  induction ops generalizing r es with
  | nil => exact List.nil_prefix
  | cons o ops ih =>
    have hops' : .close ∉ ops := fun hc => hops (List.mem_cons_of_mem _ hc)
    cases o with
    | close => exact absurd (List.mem_cons_self) hops
    | read k =>
      simp only [Reader.run, Reader.op, hdrsOf_read]
      exact ih hops' (at_read h ⟨t, hi⟩ k) (rinv_read hi k)
    | next =>
      simp only [Reader.run, Reader.op]
      cases es with
      | nil =>
        obtain ⟨r1, hr⟩ := at_end h
        rw [hr]
        simp only [hdrsOf_err]
        rw [run_err_hdrs (next_err hr).1]
        exact List.nil_prefix
      | cons e es =>
        obtain ⟨r1, tail, hr, h1, h2, h3⟩ := at_next h
        have hi' := rinv_next hi
        rw [hr] at hi' ⊢
        simp only [hdrsOf_ok, List.map_cons]
        exact List.cons_prefix_cons.2 ⟨rfl, ih hops' h1 hi'⟩

theorem at_run : ∀ (ops : List ROp), .close ∉ ops → ∀ {es : List Entry} {r r1 : Reader} {h : Header}, At es r → ∀ {t : Err}, RInv t r →
    (r.run ops).2.next = (.ok h, r1) →
    ∃ e tail, es[ops.count .next]? = some e ∧ h = hdrOf e ∧ r1.st.stream.data = e.contents ++ tail ∧ r1.st.rem = e.contents.length
  | [], _, es, r, r1, h, ha, t, hi, hn => by
    cases es with
    | nil =>
      obtain ⟨r2, hr⟩ := at_end ha
      rw [Reader.run, hr] at hn
      cases hn
    | cons e es =>
      obtain ⟨r2, tail, hr, h1, h2, h3⟩ := at_next ha
      rw [Reader.run, hr] at hn
      simp only [Prod.mk.injEq, Call.ok.injEq] at hn
      obtain ⟨rfl, rfl⟩ := hn
      exact ⟨e, tail, by simp, rfl, h2, h3⟩
  | .close :: _, hops, _, _, _, _, _, _, _, _ => absurd List.mem_cons_self hops
  | .read k :: ops, hops, es, r, r1, h, ha, t, hi, hn => by
    have hops' : .close ∉ ops := fun hc => hops (List.mem_cons_of_mem _ hc)
    simpa using at_run ops hops' (at_read ha ⟨t, hi⟩ k) (rinv_read hi k) hn
  | .next :: ops, hops, es, r, r1, h, ha, t, hi, hn => by
    have hops' : .close ∉ ops := fun hc => hops (List.mem_cons_of_mem _ hc)
    simp only [Reader.run, Reader.op] at hn
    cases es with
    | nil =>
      obtain ⟨r2, hr⟩ := at_end ha
      rw [hr] at hn
      have := run_err_hdrs (next_err hr).1 (ops ++ [.next])
      rw [run_append] at this
      simp only [Reader.run, Reader.op] at this
      rw [hn] at this
      simp [hdrsOf] at this
    | cons e es =>
      obtain ⟨r2, tail, hr, h1, h2, h3⟩ := at_next ha
      have hi' := rinv_next hi
      rw [hr] at hi' hn
      obtain ⟨e', tail', g1, g2⟩ := at_run ops hops' h1 hi' hn
      exact ⟨e', tail', by simpa using g1, g2⟩

/-- C122 for the archive of a file tree, cut off anywhere (or followed by anything): the headers returned are the first
entries of the tree; each `Next` that succeeds returns the entry of that number, and what is read after it is a beginning
of that entry's contents. -/
theorem C122_truncated (t : Tree) (ht : t.All NameRd NodeRd) (rest : Bytes) (n : Nat) (e : Err) (r : Reader) (s1 : Stream)
    (hnew : newReader ⟨(t.nar ++ rest).take n, e⟩ = (.ok r, s1)) (ops : List ROp) (hops : .close ∉ ops) :
    hdrsOf (r.run ops).1 <+: (t.entriesAt b!"/").map hdrOf ∧
    ∀ h r1, (r.run ops).2.next = (.ok h, r1) → ∃ en, (t.entriesAt b!"/")[ops.count .next]? = some en ∧ h = hdrOf en ∧
      ∀ ks, delivered (r1.reads ks).1 <+: en.contents := by
  have hp : (⟨(t.nar ++ rest).take n, e⟩ : Stream).data <+: (⟨t.nar ++ rest, .eof⟩ : Stream).data := List.take_prefix _ _
  have hfull := newReader_nar t rest .eof
  have hat := at_new t ht rest .eof
  have hi := rinv_new hfull
  constructor
  · obtain ⟨r', s1', h', hh⟩ := C122_headers _ _ _ _ hnew hp
    rw [hfull] at h'
    simp only [Prod.mk.injEq, Res.ok.injEq] at h'
    obtain ⟨rfl, _⟩ := h'
    exact (hh ops hops).trans (at_hdrs ops hops hat hi)
  · intro h r1 hn
    obtain ⟨r1', hn', hd⟩ := C122_contents _ _ _ _ _ _ hnew hp hfull ops ops hops hops rfl h r1 hn
    obtain ⟨en, tail, g1, g2, g3, g4⟩ := at_run ops hops hat hi hn'
    refine ⟨en, g1, g2, fun ks => ?_⟩
    have := hd ks
    rw [next_rem hfull ops hn', reads_all, g3, g4, List.take_left' rfl] at this
    exact this

theorem lsLoop_prefix {t t' : Err} (path : Bytes) (recursive : Bool) (fuel : Nat) : ∀ {fuel' : Nat}, fuel ≤ fuel' →
    ∀ {r r' : Reader}, PreR t t' r r' → (lsLoop path recursive fuel r).1 <+: (lsLoop path recursive fuel' r').1 := by
  induction fuel with
  | zero => intro fuel' _ r r' _; simp only [lsLoop]; exact List.nil_prefix
  | succ fuel ih =>
    intro fuel' hle r r' h
    obtain ⟨g, rfl⟩ : ∃ g, fuel' = g + 1 := ⟨fuel' - 1, by omega⟩
    unfold lsLoop
    rcases hn : r.next with ⟨x, r1⟩
    cases x with
    | ok hd =>
      obtain ⟨r1', hn', h', _⟩ := preR_next h hn
      have ih := ih (show fuel ≤ g by omega) h'
      rw [hn']
      simp only []
      split
      · exact (List.prefix_append_right_inj _).2 ih
      · split
        · exact List.nil_prefix
        · exact ih
    | err e => exact List.nil_prefix
    | panic => exact List.nil_prefix
    | block => exact List.nil_prefix

/-- C122: what `gonix nar ls` prints for a beginning of an archive is a beginning of what it prints for the archive. -/
theorem C122_ls (s s' : Stream) (hp : s.data <+: s'.data) (path : Bytes) (recursive : Bool) :
    (lsRun s path recursive).1 <+: (lsRun s' path recursive).1 := by
  unfold lsRun
  rcases hn : newReader s with ⟨x, s1⟩
  cases x with
  | err e => exact List.nil_prefix
  | panic => exact List.nil_prefix
  | ok r =>
    obtain ⟨r', s1', h', hr⟩ := preR_new hn hp
    rw [h']
    exact lsLoop_prefix path recursive _ (by have := hp.length_le; omega) hr

theorem catLoop_prefix {t t' : Err} (path : Bytes) (fuel : Nat) : ∀ {fuel' : Nat}, fuel ≤ fuel' →
    ∀ {r r' : Reader}, PreR t t' r r' → (catLoop path fuel r).1 <+: (catLoop path fuel' r').1 := by
  induction fuel with
  | zero => intro fuel' _ r r' _; simp only [catLoop]; exact List.nil_prefix
  | succ fuel ih =>
    intro fuel' hle r r' h
    obtain ⟨g, rfl⟩ : ∃ g, fuel' = g + 1 := ⟨fuel' - 1, by omega⟩
    unfold catLoop
    rcases hn : r.next with ⟨x, r1⟩
    cases x with
    | ok hd =>
      obtain ⟨r1', hn', h', hsr⟩ := preR_next h hn
      have ih := ih (show fuel ≤ g by omega) h'
      have hrem : r1.st.rem < hd.size.toNat + 1 := by
        obtain ⟨q, q', hq, _, _⟩ := h
        obtain ⟨_, _, st, k, hres, _, rfl⟩ := next_ok hn
        obtain ⟨n, hok, _⟩ := resume_ok hq.inv1 _ hres
        have hc := hok.1.content.1
        simp only [] at hc ⊢
        omega
      rw [hn']
      simp only []
      split
      · split
        · exact List.nil_prefix
        · rw [copyAll_eq _ _ hrem, copyAll_eq _ _ (by rw [← hsr.2.1]; exact hrem)]
          simp only []
          rw [← hsr.2.1]
          obtain ⟨z, hz⟩ := hsr.1
          rw [← hz]
          exact List.prefix_take_iff.2 ⟨(List.take_prefix _ _).trans (List.prefix_append _ _), by simp; omega⟩
      · exact ih
    | err e => exact List.nil_prefix
    | panic => exact List.nil_prefix
    | block => exact List.nil_prefix

/-- C122: what `gonix nar cat` prints for a beginning of an archive is a beginning of what it prints for the archive. -/
theorem C122_cat (s s' : Stream) (hp : s.data <+: s'.data) (path : Bytes) :
    (catRun s path).1 <+: (catRun s' path).1 := by
  unfold catRun
  rcases hn : newReader s with ⟨x, s1⟩
  cases x with
  | err e => exact List.nil_prefix
  | panic => exact List.nil_prefix
  | ok r =>
    obtain ⟨r', s1', h', hr⟩ := preR_new hn hp
    rw [h']
    exact catLoop_prefix path _ (by have := hp.length_le; omega) hr

theorem next_not_fuel {t : Err} {r : Reader} (h : RInv t r) (ht : t ≠ outOfFuel) (he : r.err = none) :
    r.next.1 ≠ .err outOfFuel := by
  rcases next_cases r with ⟨e', he', h1⟩ | ⟨_, h0, h1⟩ | ⟨_, hc, hp, h1⟩ | ⟨_, hc', st, hst, h1⟩
  · rw [he] at he'; cases he'
  · rw [h1]; simp
  · rw [h1]; simp
  · rw [h1]
    obtain ⟨n, hok, _⟩ := resume_ok h st hst
    cases st with
    | done res s0 =>
      rcases res with _ | e' | _
      · simp [Reader.receive, outOfFuel]
      · have := hok.noFuel ht
        simpa [Reader.receive] using this
      · simp [Reader.receive]
    | yield y s k =>
      rw [receive_yield]
      split <;> simp [outOfFuel]

theorem err_stays {e : Err} (ops : List ROp) : ∀ r : Reader, r.err = some e → (r.run ops).2.err = some e := by
  induction ops with
  | nil => exact fun r h => h
  | cons o ops ih => exact fun r h => ih _ (op_err h o).1

theorem left_le (ops : List ROp) (hops : .close ∉ ops) : ∀ r : Reader, ShrInv r → (r.run ops).2.st.left ≤ r.st.left := by
  induction ops with
  | nil => exact fun r _ => Nat.le_refl _
  | cons o ops ih =>
    intro r hr
    have ih := ih (fun h => hops (List.mem_cons_of_mem _ h))
    cases o with
    | close => exact absurd List.mem_cons_self hops
    | read k => exact Nat.le_trans (ih _ (shrInv_read hr k).1) (shrInv_read hr k).2
    | next => exact Nat.le_trans (ih _ (shrInv_next hr).1) (shrInv_next hr).2.1

theorem postR_run {z : Bytes} {t t' : Err} (ht : t ≠ outOfFuel) : ∀ (ops ops' : List ROp), .close ∉ ops → .close ∉ ops' →
    ops.count .next = ops'.count .next → ∀ {r r' : Reader}, PostR z t t' r r' → ShrInv r' → (r'.run ops').2.err = none →
    z.length ≤ (r'.run ops').2.st.left → PostR z t t' (r.run ops).2 (r'.run ops').2
  | .read k :: ops, ops', h1, h2, hc, r, r', h, hs, he, hz =>
    postR_run ht ops ops' (fun h => h1 (List.mem_cons_of_mem _ h)) h2 (by simpa using hc) (postR_read h k) hs he hz
  | ops, .read k :: ops', h1, h2, hc, r, r', h, hs, he, hz => by
    have e : (r'.run (.read k :: ops')).2 = ((r'.read k).2.run ops').2 := rfl
    rw [e] at he hz ⊢
    exact postR_run ht ops ops' h1 (fun h => h2 (List.mem_cons_of_mem _ h)) (by simpa using hc) (postR_read' h k)
      (shrInv_read hs k).1 he hz
  | .close :: _, _, h1, _, _, _, _, _, _, _, _ => absurd List.mem_cons_self h1
  | _, .close :: _, _, h2, _, _, _, _, _, _, _ => absurd List.mem_cons_self h2
  | [], [], _, _, _, _, _, h, _, _, _ => h
  | [], .next :: _, _, _, hc, _, _, _, _, _, _ => by simp at hc
  | .next :: _, [], _, _, hc, _, _, _, _, _, _ => by simp at hc
  | .next :: ops, .next :: ops', h1, h2, hc, r, r', h, hs, he, hz => by
    have hc2 : .close ∉ ops' := fun h => h2 (List.mem_cons_of_mem _ h)
    have e1 : (r'.run (.next :: ops')).2 = (r'.next.2.run ops').2 := rfl
    have e2 : (r.run (.next :: ops)).2 = (r.next.2.run ops).2 := rfl
    rw [e1] at he hz ⊢
    rw [e2]
    obtain ⟨q, q', hq, hq', hu⟩ := id h
    have herr : r.err = none := hq.err.trans hu.err
    have hcl' : r'.closed = false := hq'.closed.trans hu.closed'
    have hf := next_not_fuel hq.inv1 ht herr
    have hs1 := shrInv_next hs
    have hl := left_le ops' hc2 _ hs1.1
    rcases hn : r'.next with ⟨x, r1'⟩
    rw [hn] at he hz hs1 hl
    cases x with
    | ok hd =>
      obtain ⟨r1, hn', h', _⟩ := postR_next h hn (by simp only [] at hl hz; omega) hf
      rw [hn']
      exact postR_run ht ops ops' (fun h => h1 (List.mem_cons_of_mem _ h)) hc2 (by simpa using hc) h' hs1.1 he hz
    | err e => rw [err_stays ops' _ (next_err hn).1] at he; cases he
    | panic => exact absurd (by rw [hn]) (next_not_panic hq'.inv1 hcl').1
    | block => exact absurd (by rw [hn]) (next_not_panic hq'.inv1 hcl').2
termination_by ops ops' => ops.length + ops'.length

theorem shrInv_run (ops : List ROp) (hops : .close ∉ ops) : ∀ r : Reader, ShrInv r → ShrInv (r.run ops).2 := by
  induction ops with
  | nil => exact fun r h => h
  | cons o ops ih =>
    intro r hr
    have ih := ih (fun h => hops (List.mem_cons_of_mem _ h))
    cases o with
    | close => exact absurd List.mem_cons_self hops
    | read k => exact ih _ (shrInv_read hr k).1
    | next => exact ih _ (shrInv_next hr).1

/-- C122, nothing that has arrived is lost: if a call of `Next` returns a header on the archive and the end `z` has not been touched
by then, the same call (after as many others, with any `Read`s in between) returns that header on the archive without that
end, whatever error that reports; and if the contents do not reach into the end, all of them can be read. -/
theorem C122_progress (s s' s1' : Stream) (z : Bytes) (hz0 : z ≠ []) (hp : s'.data = s.data ++ z) (hterm : s.term ≠ outOfFuel) (r' : Reader)
    (hnew' : newReader s' = (.ok r', s1')) (ops ops' : List ROp) (hops : .close ∉ ops) (hops' : .close ∉ ops')
    (hc : ops.count .next = ops'.count .next) (h : Header) (r1' : Reader) (hn : (r'.run ops').2.next = (.ok h, r1'))
    (hz : z.length ≤ r1'.st.stream.data.length) :
    ∃ r s1 r1, newReader s = (.ok r, s1) ∧ (r.run ops).2.next = (.ok h, r1) ∧
      (h.size.toNat + z.length ≤ r1'.st.stream.data.length →
        delivered (r1.reads [h.size.toNat]).1 = delivered (r1'.reads [h.size.toNat]).1 ∧
        (delivered (r1.reads [h.size.toNat]).1).length = h.size.toNat) := by
  have hsr := shrInv_new hnew'
  have hsr2 := shrInv_run ops' hops' r' hsr
  have hl1 := (shrInv_next hsr2).2.1
  rw [hn] at hl1
  have hl2 := left_le ops' hops' r' hsr
  obtain ⟨f1, _, _, _, _, _⟩ := newReader_facts hnew'
  have hz1 : z.length ≤ s1'.data.length := by
    rw [f1] at hl2
    exact Nat.le_trans hz (Nat.le_trans hl1 hl2)
  obtain ⟨r, s1, hnew, hu⟩ := postU_new hz0 hnew' hp hz1
  have hR : PostR z s.term s'.term r r' := ⟨r, r', same_refl (rinv_new hnew), same_refl (rinv_new hnew'), hu⟩
  have hR2 := postR_run hterm ops ops' hops hops' hc hR hsr (next_ok hn).1 (Nat.le_trans hz hl1)
  obtain ⟨q, q', hq, hq', hu2⟩ := id hR2
  obtain ⟨r1, hn1, _, hsz⟩ := postR_next hR2 hn hz (next_not_fuel hq.inv1 hterm (hq.err.trans hu2.err))
  refine ⟨r, s1, r1, hnew, hn1, ?_⟩
  intro hfit
  have e1 := next_rem hnew ops hn1
  have e2 := next_rem hnew' ops' hn
  have hl : r1'.st.stream.data.length = r1.st.stream.data.length + z.length := by rw [hsz.1, List.length_append]
  have g1 := reads_all r1
  have g2 := reads_all r1'
  rw [← e1] at g1
  rw [← e2] at g2
  rw [g1, g2, hsz.1, List.take_append_of_le_length (by omega)]
  exact ⟨rfl, by rw [List.length_take]; omega⟩

example : ∃ r s1, newReader ⟨sampleTree.nar.take 237, .eof⟩ = (.ok r, s1) ∧
    hdrsOf (r.run [.next, .next, .read 3, .next]).1 = [⟨b!"/", b!"directory", [], 0, false⟩, ⟨b!"/a.txt", b!"regular", [], 12, false⟩] ∧
    (catRun ⟨sampleTree.nar.take 237, .eof⟩ b!"/a.txt").1 = b!"hello" ∧
    (catRun ⟨sampleTree.nar, .eof⟩ b!"/a.txt").1 = b!"hello, world" ∧
    (lsRun ⟨sampleTree.nar.take 237, .io⟩ b!"/" true).1 = b!"-r-xr-xr-x /\n-r--r--r-- /a.txt (12 bytes)\n" := by
  refine ⟨⟨⟨⟨(sampleTree.node ++ []).take 213, .eof⟩, 0, 0⟩, .start, none, [], false⟩, ⟨(sampleTree.node ++ []).take 213, .eof⟩,
    ?_, by decide +kernel, by decide +kernel, by decide +kernel, by decide +kernel⟩
  unfold newReader Tree.nar
  have e1 : (str b!"nix-archive-1" ++ sampleTree.node).take 237 = str b!"nix-archive-1" ++ sampleTree.node.take 213 := by
    decide +kernel
  have := expectString_str b!"nix-archive-1" (sampleTree.node.take 213) .eof (by simp)
  unfold narVersionMagic1
  rw [e1, this, List.append_nil]

theorem pair_fst {α β : Type} {x : α × β} {a : α} (h : x.1 = a) : ∃ b, x = (a, b) ∧ b = x.2 := ⟨x.2, by rw [← h], rfl⟩

example : ∃ r' s1' r1', newReader ⟨sampleTree.nar, .eof⟩ = (.ok r', s1') ∧
    (r'.run [.next]).2.next = (.ok ⟨b!"/a.txt", b!"regular", [], 12, false⟩, r1') ∧
    (sampleTree.nar.drop 248).length ≤ r1'.st.stream.data.length ∧
    12 + (sampleTree.nar.drop 248).length ≤ r1'.st.stream.data.length ∧
    (catRun ⟨sampleTree.nar.take 248, .io⟩ b!"/a.txt").1 = b!"hello, world" := by
  have h : ((Reader.run ⟨⟨⟨sampleTree.node, .eof⟩, 0, 0⟩, .start, none, [], false⟩ [.next]).2.next).1 =
      .ok ⟨b!"/a.txt", b!"regular", [], 12, false⟩ := by decide +kernel
  obtain ⟨r1', e1, e2⟩ := pair_fst h
  refine ⟨_, _, r1', newReader_nar' _ _, e1, ?_, ?_, by decide +kernel⟩
  · rw [e2]; decide +kernel
  · rw [e2]; decide +kernel

end Verif.Props
