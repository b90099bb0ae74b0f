import Verif.Props.NarWriter

/-!
# C101: exactly which histories a NAR writer accepts
-/

namespace Verif.Props
open Verif.Nar Verif.GoLib Verif.Spec Verif.Wire

/-! ### a history as headers with the pieces written after each -/

/-- the calls for headers with pieces -/
def groupOps (gs : List (Header × List Bytes)) : List WOp :=
  gs.flatMap fun g => .header g.1 :: g.2.map .write

theorem ops_split (ops : List WOp) (hc : .close ∉ ops) :
    ∃ (ps : List Bytes) (gs : List (Header × List Bytes)), ops = ps.map .write ++ groupOps gs := by
  induction ops with
  | nil => exact ⟨[], [], rfl⟩
  | cons o ops ih =>
    obtain ⟨ps, gs, e⟩ := ih (fun h => hc (List.mem_cons_of_mem _ h))
    cases o with
    | close => simp at hc
    | write p => exact ⟨p :: ps, gs, by rw [e]; rfl⟩
    | header h => exact ⟨[], (h, ps) :: gs, by rw [e]; simp [groupOps]⟩

theorem leadWrites_map (ps : List Bytes) (os : List WOp) : leadWrites (ps.map .write ++ os) = ps.flatten ++ leadWrites os := by
  induction ps with
  | nil => rfl
  | cons p ps ih =>
    simp only [List.map_cons, List.cons_append, leadWrites, ih, List.flatten_cons, List.append_assoc]

theorem leadWrites_group (gs : List (Header × List Bytes)) : leadWrites (groupOps gs) = [] := by
  cases gs with
  | nil => rfl
  | cons g gs => rfl

theorem written_map (ps : List Bytes) (os : List WOp) : written (ps.map .write ++ os) = written os := by
  induction ps with
  | nil => rfl
  | cons p ps ih => simpa [written] using ih

theorem written_group (gs : List (Header × List Bytes)) :
    written (groupOps gs) = gs.map fun g => (g.1, g.2.flatten) := by
  induction gs with
  | nil => rfl
  | cons g gs ih =>
    have e : groupOps (g :: gs) = .header g.1 :: (g.2.map .write ++ groupOps gs) := by simp [groupOps]
    rw [e]
    simp only [written, leadWrites_map, leadWrites_group, written_map, ih, List.append_nil, List.map_cons]

/-! ### `Close` succeeds once -/

theorem closed_op {w : Writer} (h : w.closed = true) (o : WOp) : (w.op o).2.closed = true := by
  cases o with
  | close => simp only [Writer.op, Writer.close, h]; simp [h]
  | write p =>
    simp only [Writer.op, Writer.write]
    split
    · exact h
    · split
      · exact h
      · exact h
  | header hd =>
    simp only [Writer.op, Writer.writeHeader]
    split
    · exact h
    · exact h
    · simp [h]

theorem close_closes (w : Writer) : w.close.2.closed = true := by
  unfold Writer.close
  split
  · rename_i h; exact h
  · split <;> rfl

theorem run_close_twice (ops : List WOp) (w : Writer) (h : w.closed = true) :
    ∃ o ∈ (w.run (ops ++ [.close])).1, o.good = false := by
  induction ops generalizing w with
  | nil => exact ⟨_, by simp [Writer.run, Writer.op, Writer.close, h]; rfl, rfl⟩
  | cons o ops ih =>
    obtain ⟨x, hx, hg⟩ := ih _ (closed_op h o)
    exact ⟨x, by simp [Writer.run, hx], hg⟩

theorem no_close (ops : List WOp) (w : Writer) (hg : ∀ o ∈ (w.run (ops ++ [.close])).1, o.good = true) :
    .close ∉ ops := by
  induction ops generalizing w with
  | nil => simp
  | cons o ops ih =>
    intro hm
    rcases List.mem_cons.1 hm with h | h
    · subst h
      obtain ⟨x, hx, hb⟩ := run_close_twice ops w.close.2 (close_closes w)
      have := hg x (by simp only [List.cons_append, Writer.run]; exact List.mem_cons_of_mem _ hx)
      rw [this] at hb
      simp at hb
    · exact ih (w.op o).2 (fun x hx => hg x (by simp only [List.cons_append, Writer.run]; exact List.mem_cons_of_mem _ hx)) h

/-- C101: for headers with clean paths, one of the three types and a size that is not negative, none
repeating the path of the one before: all calls of a history followed by `Close` succeed if and only if
the history starts with a header, has no other `Close`, and its headers with the data written after each
are exactly the entries of a tree (names usable and not like `..foo`, entries strictly sorted, targets
not empty) in canonical order. -/
theorem C101_accepts_iff (w : Writer) (s : Sink) (hnew : newWriter ⟨[], none⟩ = (.ok w, s))
    (ops : List WOp) (hh : ∀ h, .header h ∈ ops → HeaderWr h)
    (hw : ∀ p, .write p ∈ ops → p.length < 2 ^ 63)
    (hd : NoRepeat ((written ops).map (·.1.path))) :
    (∀ o ∈ (w.run (ops ++ [.close])).1, o.good = true) ↔
    (∃ h os, ops = .header h :: os) ∧ .close ∉ ops ∧
      ∃ t : Tree, t.All NameWr NodeWr ∧ (t.entriesAt b!"/").map said = written ops := by
  constructor
  · intro hg
    refine ⟨?_, no_close ops w hg, ?_⟩
    · have := newWriter_ok hnew
      subst this
      cases ops with
      | nil =>
        have := hg (.unit (.err (.msg "unexpected Close()"))) (by decide)
        simp [WOut.good] at this
      | cons o ops =>
        have hg1 : WOut.good (freshWriter.op o).1 = true := hg _ (by simp [Writer.run])
        cases o with
        | close => simp [Writer.op, Writer.close, freshWriter, emitClose, WOut.good] at hg1
        | write p => simp [Writer.op, Writer.write, freshWriter, WOut.good] at hg1
        | header h => exact ⟨h, ops, rfl⟩
    · obtain ⟨t, t1, _, t3⟩ := C22_valid_nar_partial w s hnew ops hh hw hd hg
      exact ⟨t, t1, t3⟩
  · rintro ⟨⟨h, os, e0⟩, hc, t, t1, t3⟩
    obtain ⟨ps, gs, e⟩ := ops_split ops hc
    have hps : ps = [] := by
      cases ps with
      | nil => rfl
      | cons p ps => rw [e0] at e; simp at e
    subst hps
    simp only [List.map_nil, List.nil_append] at e
    subst e
    rw [written_group] at t3
    have hlen : (t.entriesAt b!"/").length = gs.length := by simpa using congrArg List.length t3
    have key : ∀ (es : List Entry) (gs : List (Header × List Bytes)), es.length = gs.length →
        es.map said = gs.map (fun g => (g.1, g.2.flatten)) →
        ∃ xs : List (Entry × List Bytes), xs.map (·.1) = es ∧ (∀ x ∈ xs, x.2.flatten = x.1.contents) ∧
          writeOps xs = groupOps gs := by
      intro es
      induction es with
      | nil =>
        intro gs hl _
        cases gs with
        | nil => exact ⟨[], rfl, by simp, rfl⟩
        | cons g gs => simp at hl
      | cons x es ih =>
        intro gs hl hm
        cases gs with
        | nil => simp at hl
        | cons g gs =>
          simp only [List.map_cons, List.cons.injEq] at hm
          obtain ⟨xs, h1, h2, h3⟩ := ih gs (by simpa using hl) hm.2
          have hx := hm.1
          simp only [said, Prod.mk.injEq] at hx
          refine ⟨(x, g.2) :: xs, by simp [h1], ?_, ?_⟩
          · intro y hy
            rcases List.mem_cons.1 hy with rfl | hy
            · exact hx.2.symm
            · exact h2 y hy
          · have e1 : writeOps ((x, g.2) :: xs) = .header (hdrOf x) :: (g.2.map .write ++ writeOps xs) := by
              simp [writeOps]
            have e2 : groupOps (g :: gs) = .header g.1 :: (g.2.map .write ++ groupOps gs) := by simp [groupOps]
            rw [e1, e2, h3, hx.1]
    obtain ⟨xs, h1, h2, h3⟩ := key _ gs hlen t3
    rw [← h3]
    exact (C21_writes_nar_partial t t1 xs h1 h2 w s hnew).1

example : ∃ w s, newWriter ⟨[], none⟩ = (.ok w, s) ∧ (∀ h, .header h ∈ sampleOps → HeaderWr h) ∧
    (∀ p, .write p ∈ sampleOps → p.length < 2 ^ 63) ∧ NoRepeat ((written sampleOps).map (·.1.path)) :=
  ⟨_, _, newWriter_fresh, sampleOps_ok.1, sampleOps_ok.2.1, sampleOps_ok.2.2.1⟩

end Verif.Props
