import Verif.Props.NarPrefix
import Verif.Props.NarWriter
import Verif.Lemmas.NarComplete

/-!
# C146: a NAR is written and read in step

What a `nar.Writer` has written at any moment of a session is what a reader needs to see everything that was said so far.
-/

namespace Verif.Nar
open Verif.GoLib Verif.Spec Verif.Wire Verif.Props

section
variable {β : Type}

/-- The entries of a directory that is not finished. -/
theorem runs_entries_then (ents : Entries) (hall : ents.All NameRd NodeRd) (fuel : Nat) (cs : List Bytes)
    (hcs : ∀ c ∈ cs, Good c) (rest : Bytes) (t : Err) (r l : Nat)
    (hfuel : (ents.nodes ++ rest).length < fuel) (es : List Entry)
    (Q : Step RState Header Bool β → Prop)
    (f : Unit → RState → Step RState Header Bool β)
    (hf : ∀ fuel r l, rest.length < fuel →
      Runs Q es (((parseEntries fuel (absPath cs)).run ⟨⟨rest, t⟩, r, l⟩).bind f)) :
    Runs Q (ents.entriesAt (absPath cs) ++ es)
      (((parseEntries fuel (absPath cs)).run ⟨⟨ents.nodes ++ rest, t⟩, r, l⟩).bind f) := by
  match ents with
  | .nil =>
    simp only [Entries.nodes, Entries.entriesAt, List.nil_append] at hfuel ⊢
    exact hf fuel r l hfuel
  | .cons n tr ents =>
    obtain ⟨fuel, rfl⟩ : ∃ k, fuel = k + 1 := ⟨fuel - 1, by omega⟩
    simp only [Entries.nodes, Entries.entriesAt, parseEntries, List.append_assoc]
    simp only [Entries.All] at hall
    obtain ⟨⟨hn1, hn2, hn3⟩, ht, hrest⟩ := hall
    have hp1 := str_pos b!"entry"
    have hlen1 : (tr.node ++ (str b!")" ++ (ents.nodes ++ rest))).length < fuel := by
      simp only [Entries.nodes, List.length_append] at hfuel ⊢; omega
    have hlen2 : (ents.nodes ++ rest).length < fuel := by
      simp only [Entries.nodes, List.length_append] at hfuel ⊢; omega
    rw [Coro.run_bind, Step.bind_assoc, rd_tok _ _ _ _ _ _ (by simp [tokenLenMax]) (by simp [tokenLenMax])]
    rw [if_pos rfl]
    rw [Coro.run_bind, Step.bind_assoc, rd_expect _ _ _ _ _ (by simp)]
    rw [Coro.run_bind, Step.bind_assoc, rd_expect _ _ _ _ _ (by simp)]
    rw [Coro.run_bind, Step.bind_assoc, rd_tok _ _ _ _ _ _ (by simpa [nameLenMax] using hn3) (by simp [nameLenMax])]
    have hv : isValidNodeName n = true := (isValidNodeName_iff n).2 ⟨hn1.2.2.2.1, hn1.2.2.2.2⟩
    rw [if_neg (by simp [hv])]
    rw [Coro.run_bind, Step.bind_assoc, rd_expect _ _ _ _ _ (by simp)]
    rw [Coro.run_bind, Step.bind_assoc, pathJoin_good hcs (nameOk_good hn1), ← absPath_snoc cs n hcs]
    refine runs_node tr ht fuel (cs ++ [n]) (good_snoc hcs (nameOk_good hn1)) _ t r l hlen1 _ Q _ ?_
    intro r' l'
    rw [Coro.run_bind, Step.bind_assoc, rd_expect _ _ _ _ _ (by simp)]
    rw [if_neg hn2]
    exact runs_entries_then ents hrest fuel cs hcs rest t r' l' hlen2 es Q f hf

/-- A reader that gets what was written before a node: it returns what was said before, and then reads the node. -/
theorem ctx_runs {cs S out l plug} (h : Ctx cs S out l plug) (hl : ∀ x ∈ l, HeaderRd x.1) (hcs : ∀ c ∈ cs, c.length ≤ 255) :
    ∃ out' E, out = str b!"nix-archive-1" ++ out' ∧ E.map said = l ∧
      ∀ (t : Err) (rest : Bytes) (Q : Step RState Header Bool β → Prop) (es : List Entry),
        (∀ fuel r l f, rest.length < fuel → Runs Q es (((parseNode fuel (absPath cs)).run ⟨⟨rest, t⟩, r, l⟩).bind f)) →
        ∀ fuel r l f, (out' ++ rest).length < fuel →
          Runs Q (E ++ es) (((parseNode fuel (absPath [])).run ⟨⟨out' ++ rest, t⟩, r, l⟩).bind f) := by
  induction h with
  | root => exact ⟨[], [], by simp, rfl, fun t rest Q es hf fuel r l f hlt => by simpa using hf fuel r l f hlt⟩
  | @child cs S out l plug hdr n es hc hpath htyp hn h1 h2 h3 ih =>
    obtain ⟨out', E, e1, e2, hE⟩ := ih (fun x hx => hl x (List.mem_append_left _ hx))
      (fun c hcm => hcs c (List.mem_append_left _ hcm))
    have hgood : ∀ c ∈ cs, Good c := fun c hcm => (hc.good c hcm).good
    have hrd : (Tree.directory es).All NameRd NodeRd := by
      refine tree_rd _ ?_ cs hgood ?_ ?_
      · simp only [Tree.All]; exact ⟨trivial, h2, h1⟩
      · intro e he
        exact (hl (said e) (List.mem_append_right _ (List.mem_map_of_mem he))).2
      · intro e he
        exact (hl (said e) (List.mem_append_right _ (List.mem_map_of_mem he))).1
    simp only [Tree.All] at hrd
    refine ⟨out' ++ (Tree.directory es).openPart ++ entryBytes n, E ++ (Tree.directory es).entriesAt (absPath cs),
      by rw [e1]; simp, by rw [List.map_append, e2], ?_⟩
    intro t rest Q es' hf fuel r l f hfuel
    simp only [List.append_assoc] at hfuel ⊢
    refine hE t _ Q _ ?_ fuel r l f hfuel
    intro fuel r l f hlt
    obtain ⟨fuel, rfl⟩ : ∃ k, fuel = k + 1 := ⟨fuel - 1, by omega⟩
    simp only [Tree.openPart, Tree.entriesAt, parseNode, List.append_assoc, List.cons_append]
    have hlen : (es.nodes ++ (entryBytes n ++ rest)).length < fuel := by
      simp only [Tree.openPart, List.length_append] at hlt ⊢
      have := str_pos b!"("
      omega
    rw [Coro.run_bind, Step.bind_assoc, rd_expect _ _ _ _ _ (by simp)]
    rw [Coro.run_bind, Step.bind_assoc, rd_expect _ _ _ _ _ (by simp)]
    rw [Coro.run_bind, Step.bind_assoc, rd_tok _ _ _ _ _ _ (by simp [tokenLenMax]) (by simp [tokenLenMax])]
    have e : ¬ (b!"directory" = b!"regular") := by decide
    have e' : ¬ (b!"directory" = b!"symlink") := by decide
    rw [if_neg e, if_neg e', if_pos rfl]
    refine ⟨es.nodes ++ (entryBytes n ++ rest), t, 0, _, ?_, rfl, ?_⟩
    · simp only [entryBytes, List.append_assoc]
      exact str_append_ne _ _ _
    intro s' hcons
    obtain ⟨j, hj1, hj2, rfl⟩ := hcons
    simp only [List.length_nil, Nat.le_zero] at hj1
    subst hj1
    refine runs_entries_then es hrd.2.2 fuel cs hgood _ t 0 0 hlen es' Q f ?_
    intro fuel r l hlt
    obtain ⟨fuel, rfl⟩ : ∃ k, fuel = k + 1 := ⟨fuel - 1, by omega⟩
    have hlen' : rest.length < fuel := by
      simp only [entryBytes, List.length_append] at hlt
      have := str_pos b!"entry"
      omega
    simp only [entryBytes, parseEntries, List.append_assoc]
    rw [Coro.run_bind, Step.bind_assoc, rd_tok _ _ _ _ _ _ (by simp [tokenLenMax]) (by simp [tokenLenMax])]
    rw [if_pos rfl]
    rw [Coro.run_bind, Step.bind_assoc, rd_expect _ _ _ _ _ (by simp)]
    rw [Coro.run_bind, Step.bind_assoc, rd_expect _ _ _ _ _ (by simp)]
    rw [Coro.run_bind, Step.bind_assoc,
      rd_tok _ _ _ _ _ _ (by simpa [nameLenMax] using hcs n (by simp)) (by simp [nameLenMax])]
    have hv : isValidNodeName n = true := (isValidNodeName_iff n).2 ⟨hn.1.2.2.2.1, hn.1.2.2.2.2⟩
    rw [if_neg (by simp [hv])]
    rw [Coro.run_bind, Step.bind_assoc, rd_expect _ _ _ _ _ (by simp)]
    rw [Coro.run_bind, Step.bind_assoc, pathJoin_good hgood hn.good]
    exact hf fuel r l _ hlen'

/-- The node that is being written: the header comes, with what there is of the contents. -/
theorem leaf_runs {h : Header} {c : Bytes} (hk : KnownType h.typ) (hs : 0 ≤ h.size ∧ h.size < 2 ^ 63)
    (hv : h.validate = .ok ()) (ht : h.linkTarget.length ≤ 4095) (hc : h.typ ≠ b!"regular" → c = []) (t : Err) (fuel r l : Nat)
    (f : Unit → RState → Step RState Header Bool β) (hlt : (hdrBytes h ++ c).length < fuel) :
    ∃ l' k, ((parseNode fuel h.path).run ⟨⟨hdrBytes h ++ c, t⟩, r, l⟩).bind f = .yield h ⟨⟨c, t⟩, h.size.toNat, l'⟩ k := by
  obtain ⟨fuel, rfl⟩ : ∃ k, fuel = k + 1 := ⟨fuel - 1, by omega⟩
  have hv := (C34_validate_iff h).1.1 hv
  rcases h with ⟨p, typ, target, size, exec⟩
  simp only [hdrBytes, parseNode, List.append_assoc] at *
  rw [Coro.run_bind, Step.bind_assoc, rd_expect _ _ _ _ _ (by simp)]
  rw [Coro.run_bind, Step.bind_assoc, rd_expect _ _ _ _ _ (by simp)]
  have htl : typ.length ≤ tokenLenMax := by rcases hk with rfl | rfl | rfl <;> decide
  rw [Coro.run_bind, Step.bind_assoc, rd_tok _ _ _ _ _ _ htl (by simp [tokenLenMax])]
  rcases hk with rfl | rfl | rfl
  · rw [if_pos rfl, if_pos rfl]
    have h1 : target = [] := hv.noTarget (.inl rfl)
    subst h1
    obtain ⟨n, rfl⟩ : ∃ n : Nat, size = n := ⟨size.toNat, by omega⟩
    have hn : toUint64 (n : Int) = n := by unfold toUint64; omega
    have key : ∀ (r l : Nat) (f : Unit → RState → Step RState Header Bool β),
        ∃ l' k, ((parseContents p exec b!"contents").run ⟨⟨putUint64 (toUint64 n) ++ c, t⟩, r, l⟩).bind f =
          .yield ⟨p, b!"regular", [], n, exec⟩ ⟨⟨c, t⟩, n, l'⟩ k := by
      intro r l f
      unfold parseContents
      rw [if_neg (by simp), Coro.run_bind, Step.bind_assoc, hn]
      rw [rd_bind r l _ (readUint64_append _ _ t n (isLE64_put _ (by omega)))]
      have h1 : ¬ n > 2 ^ 63 - 1 := by omega
      rw [if_neg h1]
      exact ⟨n, _, rfl⟩
    unfold parseRegular
    rw [Coro.run_bind, Step.bind_assoc]
    cases exec with
    | false =>
      simp only [Bool.false_eq_true, if_false, List.nil_append, List.append_assoc]
      rw [rd_tok _ _ _ _ _ _ (by simp) (by simp)]
      have e : ¬ (b!"contents" = b!"executable") := by decide
      rw [if_neg e]
      exact key r l f
    | true =>
      simp only [if_true, List.append_assoc]
      rw [rd_tok _ _ _ _ _ _ (by simp) (by simp)]
      rw [if_pos rfl, Coro.run_bind, Step.bind_assoc, rd_bind r l _ (readPlaceholder_str _ t)]
      rw [Coro.run_bind, Step.bind_assoc, rd_tok _ _ _ _ _ _ (by simp [tokenLenMax]) (by simp [tokenLenMax])]
      exact key r l f
  · have hc := hc (by decide)
    subst hc
    have h1 : size = 0 := hv.noSize (.inr rfl)
    have h2 : exec = false := hv.noExec (.inr rfl)
    subst h1 h2
    have e : ¬ (b!"symlink" = b!"regular") := by decide
    rw [if_neg e, if_pos rfl, if_neg e, if_pos rfl]
    unfold parseSymlink
    simp only [List.append_assoc]
    rw [Coro.run_bind, Step.bind_assoc, rd_expect _ _ _ _ _ (by simp)]
    rw [Coro.run_bind, Step.bind_assoc, rd_tok _ _ _ _ _ _ (by simpa [pathLenMax] using ht) (by simp [pathLenMax])]
    exact ⟨0, _, rfl⟩
  · have hc := hc (by decide)
    subst hc
    have h1 : size = 0 := hv.noSize (.inl rfl)
    have h2 : exec = false := hv.noExec (.inl rfl)
    have h3 : target = [] := hv.noTarget (.inr rfl)
    subst h1 h2 h3
    have e : ¬ (b!"directory" = b!"regular") := by decide
    have e' : ¬ (b!"directory" = b!"symlink") := by decide
    rw [if_neg e, if_neg e', if_neg e, if_neg e', if_pos rfl]
    exact ⟨0, _, rfl⟩

end

/-! ### the writer, call by call -/

/-- After calls that all succeeded, the writer is at the last header. -/
theorem session_running (ops : List WOp) : ∀ {cs h0 c l} {w : Writer}, Running cs h0 c l w →
    (∀ h, .header h ∈ ops → HeaderWr h) → (∀ p, .write p ∈ ops → p.length < 2 ^ 63) →
    NoRepeat (h0.path :: (written ops).map (·.1.path)) → .close ∉ ops →
    (∀ o ∈ (w.run ops).1, o.good = true) →
    ∃ cs' h' c' l', Running cs' h' c' l' (w.run ops).2 ∧ l' ++ [(h', c')] = l ++ (h0, c ++ leadWrites ops) :: written ops := by
  induction ops with
  | nil =>
    intro cs h0 c l w hr _ _ _ _ _
    exact ⟨cs, h0, c, l, hr, by simp [leadWrites, written]⟩
  | cons o ops ih =>
    intro cs h0 c l w hr hh hwr hnr hcl hg
    have hg1 : WOut.good (w.op o).1 = true := hg _ (by simp [Writer.run])
    have hg2 : ∀ o' ∈ ((w.op o).2.run ops).1, o'.good = true := by
      intro o' ho'; exact hg o' (by simp [Writer.run, ho'])
    have hh' : ∀ h, .header h ∈ ops → HeaderWr h := fun h hm => hh h (List.mem_cons_of_mem _ hm)
    have hwr' : ∀ p, .write p ∈ ops → p.length < 2 ^ 63 := fun h hm => hwr h (List.mem_cons_of_mem _ hm)
    have hcl' : .close ∉ ops := fun h => hcl (List.mem_cons_of_mem _ h)
    cases o with
    | header h =>
      have hr' := running_header hr (hh h (by simp)) hnr.1 hg1
      obtain ⟨cs', h', c', l', h1, h2⟩ := ih hr' hh' hwr' hnr.2 hcl' hg2
      exact ⟨cs', h', c', l', h1, by simp [leadWrites, written, h2]⟩
    | write p =>
      have hr' := running_write hr p (hwr p (by simp)) hg1
      obtain ⟨cs', h', c', l', h1, h2⟩ := ih hr' hh' hwr' hnr hcl' hg2
      exact ⟨cs', h', c', l', h1, by simp [leadWrites, written, h2]⟩
    | close => simp at hcl

theorem fresh_running {h : Header} (hwr : HeaderWr h) (hg1 : WOut.good (freshWriter.op (.header h)).1 = true) :
    Running [] h [] [] (freshWriter.op (.header h)).2 := by
  obtain ⟨hv, hcl, stack, st, he, hw'⟩ := writeHeader_good hg1
  have hroot : h.path = b!"/" ∧ stack = [h] ∧
      st = ⟨⟨str b!"nix-archive-1" ++ hdrBytes h, none⟩, some (cwOf h)⟩ := by
    have he' : (if h.path ≠ b!"/" then M.fail (.msg "first header always needs to have a / as path")
        else do emitStart h; pure [h] : M WState (List Header))
        ⟨⟨str b!"nix-archive-1", none⟩, none⟩ = (.ok stack, st) := he
    by_cases hp : h.path = b!"/"
    · rw [if_neg (by simpa using hp), M.bind_ok (emitStart_ok h hwr.known _ _)] at he'
      simp at he'
      exact ⟨hp, he'.1.symm, he'.2.symm⟩
    · rw [if_pos hp] at he'
      simp at he'
  obtain ⟨h1, h2, h3⟩ := hroot
  simp only [Writer.op]
  rw [hw']
  subst h2 h3
  exact ⟨⟨[], _, _, Ctx.root, cur_start h _, rfl⟩, rfl, h1, hwr, hv⟩

theorem next_prev {r r1 : Reader} {h : Header} (hn : r.next = (.ok h, r1)) : r1.prev = h.path := by
  unfold Reader.next at hn
  split at hn
  · simp at hn
  · split at hn
    · simp at hn
    · split at hn
      · simp at hn
      · rename_i st _
        unfold Reader.receive at hn
        split at hn
        · split at hn
          · simp only [Prod.mk.injEq, Call.ok.injEq] at hn
            obtain ⟨rfl, rfl⟩ := hn
            rfl
          · simp at hn
        · simp at hn
        · simp at hn
        · simp at hn

/-- The reader remembers the path of the last header. -/
theorem session_prev (plan : List (List Nat)) (r : Reader) (l : List Header)
    (hl : (r.session plan).1.map (·.1) = l.map .ok) :
    (r.session plan).2.prev = (l.map (·.path)).getLastD r.prev := by
  induction plan generalizing r l with
  | nil => cases l <;> simp_all [Reader.session]
  | cons ks plan ih =>
    unfold Reader.session at hl ⊢
    rcases hn : r.next with ⟨x, r1⟩
    rw [hn] at hl
    simp only [] at hl ⊢
    cases l with
    | nil => simp at hl
    | cons h l =>
      simp only [List.map_cons, List.cons.injEq] at hl
      obtain ⟨rfl, hl⟩ := hl
      rw [ih _ l hl]
      obtain ⟨s', _, e⟩ := reads_consume r1 ks
      have hp : (r1.reads ks).2.prev = h.path := by rw [e, ← next_prev hn]
      rw [hp]
      simp only [List.map_cons, List.getLastD_cons]

/-- What `Read` calls get if less is there than announced. -/
theorem reads_short (ks : List Nat) (r : Reader) (h : r.st.stream.data.length ≤ r.st.rem) :
    delivered (r.reads ks).1 = r.st.stream.data.take ks.sum := by
  induction ks generalizing r with
  | nil => simp [Reader.reads, delivered]
  | cons k ks ih =>
    simp only [Reader.reads]
    by_cases h0 : r.st.rem = 0
    · have hd : r.st.stream.data = [] := List.length_eq_zero_iff.1 (by omega)
      have e : r.read k = (.err .eof, r) := by unfold Reader.read; rw [if_pos h0]
      rw [e]
      simp only [delivered]
      rw [ih r h, hd]
      simp
    · by_cases h1 : r.st.stream.data.take (min k r.st.rem) = [] ∧ k ≠ 0
      · have hd : r.st.stream.data = [] := by
          rcases List.take_eq_nil_iff.1 h1.1 with h | h
          · omega
          · exact h
        have e : r.read k = (.err r.st.stream.term, r) := by unfold Reader.read; rw [if_neg h0]; simp only []; rw [if_pos h1]
        rw [e]
        simp only [delivered]
        rw [ih r h, hd]
        simp
      · have e : r.read k = (.ok (r.st.stream.data.take (min k r.st.rem)),
            { r with st := ⟨⟨r.st.stream.data.drop (r.st.stream.data.take (min k r.st.rem)).length, r.st.stream.term⟩,
              r.st.rem - (r.st.stream.data.take (min k r.st.rem)).length, r.st.len⟩ }) := by
          unfold Reader.read; rw [if_neg h0]; simp only []; rw [if_neg h1]
        rw [e]
        simp only [delivered]
        rw [ih _ (by simp; omega)]
        simp only []
        have hk : r.st.stream.data.take (min k r.st.rem) = r.st.stream.data.take k := by
          rw [List.take_eq_take_iff]; omega
        rw [hk, List.length_take, List.sum_cons, List.take_add]
        congr 2
        by_cases hle : k ≤ r.st.stream.data.length
        · rw [Nat.min_eq_left hle]
        · rw [Nat.min_eq_right (by omega), List.drop_length, List.drop_of_length_le (by omega)]

end Verif.Nar

namespace Verif.Props
open Verif.GoLib Verif.Spec Verif.Wire Verif.Nar

/-- C146: what reached the sink after some calls stays there: further calls, whatever they are and whatever they return,
only append. -/
theorem C146_appends (w : Writer) (s : Sink) (hnew : newWriter ⟨[], none⟩ = (.ok w, s)) (a b : List WOp) :
    (w.run a).2.st.sink.out <+: (w.run (a ++ b)).2.st.sink.out := by
  have hw : w.st.sink.budget = none := by rw [newWriter_ok hnew]; rfl
  rw [(run_append' w a b).2]
  have key : ∀ (ops : List WOp) (w : Writer), w.st.sink.budget = none →
      (w.run ops).2.st.sink.budget = none ∧ w.st.sink.out <+: (w.run ops).2.st.sink.out := by
    intro ops
    induction ops with
    | nil => intro w hw; exact ⟨hw, List.prefix_rfl⟩
    | cons o ops ih =>
      intro w hw
      obtain ⟨h1, h2⟩ := op_mono w o hw
      obtain ⟨h3, h4⟩ := ih _ h1
      exact ⟨h3, h2.trans h4⟩
  exact (key b _ (key a w hw).1).2

theorem mem_written {x : Header × Bytes} : ∀ {l : List WOp}, x ∈ written l → .header x.1 ∈ l := by
  intro l
  induction l with
  | nil => simp [written]
  | cons o l ih =>
    intro hx
    cases o with
    | header h =>
      simp only [written, List.mem_cons] at hx
      rcases hx with rfl | hx
      · simp
      · exact List.mem_cons_of_mem _ (ih hx)
    | write p => exact List.mem_cons_of_mem _ (ih hx)
    | close => exact List.mem_cons_of_mem _ (ih hx)

/-- C146: stop a session of a `nar.Writer` after any call, with all calls successful so far (the last header being `h`, after
which `c` was written, and `l` what came before), and give what is in the sink to a reader, over a stream that ends there
with whatever error. The reader returns everything that was said: the headers before, each with its contents; then `h`,
and reading gives all of `c`. Nothing is held back by the writer, and the reader wants nothing that comes later. Whatever
is called on the reader, it returns no header that was not said. -/
theorem C146_in_step (w : Writer) (s : Sink) (hnew : newWriter ⟨[], none⟩ = (.ok w, s))
    (ops : List WOp) (hh : ∀ h, .header h ∈ ops → HeaderWr h) (hlim : ∀ h, .header h ∈ ops → HeaderRd h)
    (hw : ∀ p, .write p ∈ ops → p.length < 2 ^ 63)
    (hd : NoRepeat ((written ops).map (·.1.path))) (hcl : .close ∉ ops)
    (hg : ∀ o ∈ (w.run ops).1, o.good = true)
    (l : List (Header × Bytes)) (h : Header) (c : Bytes) (hsaid : written ops = l ++ [(h, c)])
    (e : Err) (plan : List (List Nat)) (hplan : plan.length = l.length) :
    ∃ r s', newReader ⟨(w.run ops).2.st.sink.out, e⟩ = (.ok r, s') ∧
      (r.session plan).1 = List.zipWith (fun hc ks => (.ok hc.1, readResults hc.2 ks)) l plan ∧
      (∃ r1, (r.session plan).2.next = (.ok h, r1) ∧ ∀ ks, delivered (r1.reads ks).1 = c.take ks.sum) ∧
      ∀ rops : List ROp, .close ∉ rops → hdrsOf (r.run rops).1 <+: (written ops).map (·.1) := by
  have hfresh := newWriter_ok hnew
  subst hfresh
  cases ops with
  | nil => simp [written] at hsaid
  | cons o ops =>
    have hg1 : WOut.good (freshWriter.op o).1 = true := hg _ (by simp [Writer.run])
    have hg2 : ∀ o' ∈ ((freshWriter.op o).2.run ops).1, o'.good = true := by
      intro o' ho'; exact hg o' (by simp [Writer.run, ho'])
    cases o with
    | close => simp at hcl
    | write p => simp [Writer.op, Writer.write, freshWriter, WOut.good] at hg1
    | header h00 =>
      obtain ⟨cs', h', c', l', hr, hl'⟩ := session_running ops (fresh_running (hh h00 (by simp)) hg1)
        (fun h hm => hh h (List.mem_cons_of_mem _ hm)) (fun h hm => hw h (List.mem_cons_of_mem _ hm)) hd
        (fun h => hcl (List.mem_cons_of_mem _ h)) hg2
      have hl2 : l' ++ [(h', c')] = l ++ [(h, c)] := by
        rw [← hsaid, hl']; simp [written]
      obtain ⟨rfl, hx⟩ := snoc_inj hl2
      simp only [Prod.mk.injEq] at hx
      obtain ⟨rfl, rfl⟩ := hx
      obtain ⟨S, out, plug, hctx, hcur, hph⟩ := hr.ctx
      have hmem : ∀ x ∈ l' ++ [(h', c')], HeaderRd x.1 := by
        intro x hx
        rw [← hsaid] at hx
        exact hlim _ (mem_written hx)
      have hrdh : HeaderRd h' := hmem (h', c') (by simp)
      have hgood : ∀ c ∈ cs', Good c := fun c hc => (hctx.good c hc).good
      have hcs : ∀ c ∈ cs', c.length ≤ 255 := by
        intro c hc
        refine (hrdh.2 c ?_).2
        rw [hr.path, cleanComps_absPath hgood]; exact hc
      obtain ⟨out', E, e1, e2, hE⟩ := ctx_runs (β := Unit) hctx (fun x hx => hmem x (List.mem_append_left _ hx)) hcs
      have hother : h'.typ ≠ b!"regular" → c' = [] := fun hx => (hcur.other hx).2
      -- the order of the entries, from the archive that is finished with zeros
      obtain ⟨z, hz⟩ : ∃ z : Bytes, Complete h' (c' ++ z) ∧ (h'.typ ≠ b!"regular" → c' ++ z = []) := by
        by_cases hreg : h'.typ = b!"regular"
        · refine ⟨List.replicate (toUint64 h'.size - c'.length) 0, fun _ => ?_, fun hx => absurd hreg hx⟩
          have := (hcur.reg hreg).2
          simp; omega
        · exact ⟨[], fun hx => absurd hx hreg, fun hx => by simp [hother hx]⟩
      obtain ⟨p1, p2, p3⟩ := hctx.plug (leafTree h' (c' ++ z)) (leafTree_all hr.wr hr.valid hz.1)
      have hle : ((leafTree h' (c' ++ z)).entriesAt (absPath cs')).map said = [(h', c' ++ z)] :=
        leafTree_entries hr.wr.known hr.valid hr.wr.size hz.1 hz.2 (absPath cs') hr.path
      rw [hle] at p3
      obtain ⟨q1, q2⟩ := tree_paths (P := NameWr) (fun n hn => hn.good) _ p1 [] (by simp)
      have hpw : ((l' ++ [(h', c' ++ z)]).map (·.1.path)).Pairwise
          fun a b => pathIsLexicographicallyOrdered a b = true := by
        rw [← p3, List.map_map, List.pairwise_map]
        have q2' : ((plug (leafTree h' (c' ++ z))).entriesAt b!"/").Pairwise
          (fun a b => cleanComps a.path < cleanComps b.path) := q2
        refine q2'.imp_of_mem ?_
        intro a b ha hb hab
        obtain ⟨ds, a1, g1⟩ := q1 a ha
        obtain ⟨ds', a2, g2⟩ := q1 b hb
        simp only [Function.comp, said, hdrOf]
        rw [a1, a2] at hab ⊢
        rw [cleanComps_absPath g1, cleanComps_absPath g2] at hab
        exact ordered_abs g1 g2 (List.le_of_lt hab)
      have hEp : E.map (·.path) = l'.map (·.1.path) := by
        rw [← e2, List.map_map]; rfl
      rw [List.map_append, List.pairwise_append] at hpw
      obtain ⟨hpw1, _, hpw2⟩ := hpw
      rw [← hEp] at hpw1 hpw2
      -- the reader
      have hsink : ((freshWriter.run (.header h00 :: ops)).2.st.sink.out) =
          str b!"nix-archive-1" ++ (out' ++ (hdrBytes h' ++ c')) := by
        have : ((freshWriter.op (.header h00)).2.run ops).2.st.sink.out = out ++ hdrBytes h' ++ c' := by
          rw [hcur.sink]
        simp only [Writer.run]
        rw [this, e1]; simp
      have hnr : newReader ⟨(freshWriter.run (.header h00 :: ops)).2.st.sink.out, e⟩ =
          (.ok ⟨⟨⟨out' ++ (hdrBytes h' ++ c'), e⟩, 0, 0⟩, .start, none, [], false⟩, ⟨out' ++ (hdrBytes h' ++ c'), e⟩) := by
        rw [hsink]
        have := expectString_str b!"nix-archive-1" (out' ++ (hdrBytes h' ++ c')) e (by simp)
        unfold newReader
        simp only [narVersionMagic1, this]
      have hQ : ∀ fuel r l f, (hdrBytes h' ++ c').length < fuel →
          Runs (fun st : Step RState Header Bool Unit => ∃ l' k, st = .yield h' ⟨⟨c', e⟩, h'.size.toNat, l'⟩ k) []
            (((parseNode fuel (absPath cs')).run ⟨⟨hdrBytes h' ++ c', e⟩, r, l⟩).bind f) := by
        intro fuel r l f hlt
        rw [← hr.path]
        exact leaf_runs hr.wr.known hr.wr.size hr.valid hrdh.1 hother e fuel r l f hlt
      have hruns := hE e (hdrBytes h' ++ c') _ [] hQ ((out' ++ (hdrBytes h' ++ c')).length + 1) 0 0
        (fun a s => .done (.ok a) s) (Nat.lt_succ_self _)
      have hbind : ∀ st : Step RState Header Bool Unit, st.bind (fun a s => .done (.ok a) s) = st := by
        intro st
        induction st with
        | done r s => rcases r with _ | _ | _ <;> rfl
        | yield y s k ih => simp only [Step.bind_yield]; congr 1; funext i s'; exact ih i s'
      rw [hbind, List.append_nil] at hruns
      have hlenE : E.length = l'.length := by rw [← e2]; simp
      obtain ⟨g1, g2, g3, st', g4, g5⟩ := session_spec E plan
        ⟨⟨⟨out' ++ (hdrBytes h' ++ c'), e⟩, 0, 0⟩, .start, none, [], false⟩ _ rfl rfl rfl hruns
        (by intro e' _; simp [pathIsLexicographicallyOrdered, strLe])
        (List.pairwise_map.1 hpw1) (by omega)
      have hlast : ∀ (r : Reader) s', newReader ⟨(freshWriter.run (.header h00 :: ops)).2.st.sink.out, e⟩ = (.ok r, s') →
          ∀ rops : List ROp, .close ∉ rops → hdrsOf (r.run rops).1 <+: (written (.header h00 :: ops)).map (·.1) := by
        intro r s' hnew rops hro
        have hpre : (freshWriter.run (.header h00 :: ops)).2.st.sink.out <+: (plug (leafTree h' (c' ++ z))).nar := by
          have : ((freshWriter.op (.header h00)).2.run ops).2.st.sink.out = out ++ hdrBytes h' ++ c' := by
            rw [hcur.sink]
          simp only [Writer.run]
          rw [this, p2, Tree.node_eq, leafTree_open hr.wr.known hz.1 hz.2]
          exact ⟨z ++ pad (c' ++ z).length ++ str b!")" ++ closes S, by simp⟩
        obtain ⟨x, hx⟩ := hpre
        have hm : ∀ en ∈ (plug (leafTree h' (c' ++ z))).entriesAt b!"/", HeaderRd (hdrOf en) := by
          intro en hen
          have : said en ∈ l' ++ [(h', c' ++ z)] := by rw [← p3]; exact List.mem_map_of_mem hen
          rcases List.mem_append.1 this with h1 | h1
          · exact hmem (said en) (List.mem_append_left _ h1)
          · simp only [said, List.mem_singleton, Prod.mk.injEq] at h1
            rw [h1.1]; exact hrdh
        have hrd : (plug (leafTree h' (c' ++ z))).All NameRd NodeRd :=
          tree_rd _ p1 [] (by simp) (fun en hen => (hm en hen).2) (fun en hen => (hm en hen).1)
        have := (C122_truncated _ hrd [] (freshWriter.run (.header h00 :: ops)).2.st.sink.out.length e r s' (by
          rw [List.append_nil, ← hx, List.take_left' rfl]; exact hnew) rops hro).1
        have hmap : ((plug (leafTree h' (c' ++ z))).entriesAt b!"/").map hdrOf =
            (written (.header h00 :: ops)).map (·.1) := by
          have := congrArg (List.map Prod.fst) p3
          rw [List.map_map] at this
          rw [hsaid]
          simpa [Function.comp_def, said] using this
        rw [hmap] at this
        exact this
      refine ⟨_, _, hnr, ?_, ?_, hlast _ _ hnr⟩
      · rw [g1, ← e2, List.zipWith_map_left]; rfl
      · have hprev : pathIsLexicographicallyOrdered (Reader.session
            ⟨⟨⟨out' ++ (hdrBytes h' ++ c'), e⟩, 0, 0⟩, .start, none, [], false⟩ plan).2.prev h'.path = true := by
          rw [session_prev plan _ (E.map hdrOf) (by
            rw [g1, List.map_zipWith]
            have : ∀ (E : List Entry) (plan : List (List Nat)), E.length = plan.length →
                List.zipWith (fun (x : Entry) (_ : List Nat) => (.ok (hdrOf x) : Call Header)) E plan =
                  (E.map hdrOf).map .ok := by
              intro E
              induction E with
              | nil => simp
              | cons x E ih =>
                intro plan hp
                cases plan with
                | nil => simp at hp
                | cons k plan => simp [ih plan (by simpa using hp)]
            exact this E plan (by omega))]
          have hlast : ∀ (l : List Bytes), (∀ a ∈ l, pathIsLexicographicallyOrdered a h'.path = true) →
              pathIsLexicographicallyOrdered (l.getLastD []) h'.path = true := by
            intro l hl
            cases l with
            | nil => simp [pathIsLexicographicallyOrdered, strLe]
            | cons a l =>
              refine hl _ ?_
              rw [List.getLastD_cons]
              exact List.getLastD_mem_cons
          refine hlast _ ?_
          intro a ha
          refine hpw2 a ?_ h'.path (by simp)
          rw [List.map_map] at ha
          exact ha
        have hdone : Runs (fun st : Step RState Header Bool Unit => ∃ l' k, st = .yield h' ⟨⟨c', e⟩, h'.size.toNat, l'⟩ k) []
            st' := by
          rw [List.drop_of_length_le (by omega)] at g5
          exact g5
        obtain ⟨l2, k, rfl⟩ := hdone
        have hnx : ∃ r1, (Reader.session ⟨⟨⟨out' ++ (hdrBytes h' ++ c'), e⟩, 0, 0⟩, .start, none, [], false⟩ plan).2.next =
            (.ok h', r1) ∧ r1.st = ⟨⟨c', e⟩, h'.size.toNat, l2⟩ := by
          refine ⟨{ (Reader.session ⟨⟨⟨out' ++ (hdrBytes h' ++ c'), e⟩, 0, 0⟩, .start, none, [], false⟩ plan).2 with
            st := ⟨⟨c', e⟩, h'.size.toNat, l2⟩, phase := .waiting k, prev := h'.path }, ?_, rfl⟩
          unfold Reader.next
          rw [g2]
          simp only []
          rw [if_neg (by simp [g3]), g4]
          simp only [Reader.receive]
          rw [if_pos hprev]
        obtain ⟨r1, hr1, hst⟩ := hnx
        refine ⟨r1, hr1, fun ks => ?_⟩
        · rw [reads_short ks r1, hst]
          rw [hst]
          simp only []
          by_cases hreg : h'.typ = b!"regular"
          · have := (hcur.reg hreg).2
            have hs := hr.wr.size
            unfold toUint64 at this
            omega
          · rw [hother hreg]; simp

/-- A session that stops in the middle of a file. -/
def halfOps : List WOp :=
  [.header ⟨b!"/", b!"directory", [], 0, false⟩, .header ⟨b!"/a", b!"directory", [], 0, false⟩,
    .header ⟨b!"/a/b", b!"symlink", b!"../c", 0, false⟩, .header ⟨b!"/c", b!"regular", [], 5, true⟩, .write b!"he"]

theorem halfOps_ok : (∀ h, .header h ∈ halfOps → HeaderWr h) ∧ (∀ h, .header h ∈ halfOps → HeaderRd h) ∧
    (∀ p, .write p ∈ halfOps → p.length < 2 ^ 63) ∧ NoRepeat ((written halfOps).map (·.1.path)) ∧
    .close ∉ halfOps ∧ (∀ o ∈ (freshWriter.run halfOps).1, o.good = true) := by
  refine ⟨?_, ?_, ?_, by decide +kernel, by simp [halfOps], by decide +kernel⟩
  · intro h hm
    simp only [halfOps, List.mem_cons, WOp.header.injEq, reduceCtorEq, List.not_mem_nil, or_false] at hm
    rcases hm with rfl | rfl | rfl | rfl <;> exact ⟨by decide, by decide, by decide⟩
  · intro h hm
    simp only [halfOps, List.mem_cons, WOp.header.injEq, reduceCtorEq, List.not_mem_nil, or_false] at hm
    rcases hm with rfl | rfl | rfl | rfl <;> exact ⟨by decide, by decide⟩
  · intro p hm
    simp only [halfOps, List.mem_cons, WOp.write.injEq, reduceCtorEq, false_or, List.not_mem_nil, or_false] at hm
    rcases hm with rfl <;> decide

/-- The theorem for it: the reader gets `/`, `/a`, `/a/b` and `/c`, and the two bytes of `/c` that were written. -/
example : ∃ r s', newReader ⟨(freshWriter.run halfOps).2.st.sink.out, .msg "gone"⟩ = (.ok r, s') ∧
    ∃ r1, (r.session [[], [], []]).2.next = (.ok ⟨b!"/c", b!"regular", [], 5, true⟩, r1) ∧
      ∀ ks, delivered (r1.reads ks).1 = (b!"he").take ks.sum := by
  obtain ⟨h1, h2, h3, h4, h5, h6⟩ := halfOps_ok
  obtain ⟨r, s', g1, _, g2, _⟩ := C146_in_step freshWriter _ newWriter_fresh halfOps h1 h2 h3 h4 h5 h6
    [(⟨b!"/", b!"directory", [], 0, false⟩, []), (⟨b!"/a", b!"directory", [], 0, false⟩, []),
      (⟨b!"/a/b", b!"symlink", b!"../c", 0, false⟩, [])] ⟨b!"/c", b!"regular", [], 5, true⟩ b!"he" rfl
    (.msg "gone") [[], [], []] rfl
  exact ⟨r, s', g1, g2⟩

end Verif.Props
