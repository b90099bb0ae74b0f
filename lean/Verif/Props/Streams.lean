import Verif.Model.Streams
import Verif.Props.Out
import Verif.Props.Cmd
import Verif.Props.Derivation

/-!
# C139: where the commands print
-/

namespace Verif.Props
open Verif.GoLib Verif.Wire Verif.Nar Verif.Out Verif.Spec

/-- What arrived at `w` is a beginning of `t`; the result is success and it is all of `t`, or an error, and the writer has failed. -/
def Delivered {D : Dev} (t : Bytes) (r : Res Unit) (w : GSink D) : Prop :=
  w.out <+: t ∧ (r = .ok () ∧ w.out = t ∨ (∃ e, r = .err e) ∧ ∃ st p, (D.write st p).1.2 ≠ none)

theorem writeAll_delivered {D : Dev} (hD : ∀ st p, (D.write st p).1.2 = none → (D.write st p).1.1 = p.length) (t : Bytes) (w : GSink D) (hw : w.out = []) :
    Delivered t (Out.writeAll t w).1 (Out.writeAll t w).2 := by
  unfold Delivered Out.writeAll GSink.write
  rcases hd : D.write w.st t with ⟨⟨n, _ | e⟩, st'⟩
  · have hn := hD w.st t (by rw [hd])
    rw [hd] at hn
    have hn' : n = t.length := hn
    simp only [hw, List.nil_append, hn', List.take_length]
    exact ⟨List.prefix_rfl, .inl ⟨trivial, trivial⟩⟩
  · simp only [hw, List.nil_append]
    exact ⟨List.take_prefix _ _, .inr ⟨⟨e, rfl⟩, w.st, t, by rw [hd]; simp⟩⟩

theorem writeDrv_delivered {D : Dev} (hD : ∀ st p, (D.write st p).1.2 = none → (D.write st p).1.1 = p.length) (d : Derivation.Derivation) (w : GSink D)
    (hw : w.out = []) : ∃ t, Derivation.aterm d false [] = .ok t ∧ Delivered t (writeDrv d w).1 (writeDrv d w).2 := by
  obtain ⟨st, o⟩ := w
  cases hw
  obtain ⟨cs, h1, h2⟩ := Derivation.write_chunks d
  have ha : Derivation.aterm d false [] = .ok cs.flatten := by
    unfold Derivation.aterm
    rw [h1]; rfl
  have hw : d.write ⟨[], none⟩ = (.ok (), ⟨cs.flatten, none⟩) := by
    unfold Derivation.Derivation.write
    rw [h1]
    show Derivation.writeChunks cs _ = _
    rw [Derivation.writeChunks_none]; rfl
  refine ⟨_, ha, ?_⟩
  have h125 := C125_derivation hD st d
  rw [hw] at h125
  unfold Delivered
  rcases h125 with ⟨k1, k2⟩ | ⟨k1, k2, k3⟩
  · exact ⟨by rw [k2]; exact List.prefix_rfl, .inl ⟨k1, k2⟩⟩
  · exact ⟨k2, .inr ⟨k1, k3⟩⟩

/-- C139: `gonix drv show` prints on the standard output only; what arrives is always a beginning of the text of C92 and C108, success means that all of it arrived,
and otherwise there is an error: its own, or that of the standard output. -/
theorem C139_show {D : Dev} (hD : ∀ st p, (D.write st p).1.2 = none → (D.write st p).1.1 = p.length) (short : Bool) (format : Bytes)
    (got : Res Derivation.Derivation) (x : Streams.Std D) (hx : x.out.out = []) :
    (Streams.showRun short format got x).2.err = x.err ∧
    (∀ t, Cmd.showDrv short format got = .ok t → (Streams.showRun short format got x).2.out.out <+: t ∧
      ((Streams.showRun short format got x).1 = .ok () ∧ (Streams.showRun short format got x).2.out.out = t ∨
        (∃ e, (Streams.showRun short format got x).1 = .err e) ∧ ∃ st p, (D.write st p).1.2 ≠ none)) ∧
    (∀ e, Cmd.showDrv short format got = .err e → (Streams.showRun short format got x).1 = .err e ∧ (Streams.showRun short format got x).2.out = x.out) ∧
    (Cmd.showDrv short format got = .panic → (Streams.showRun short format got x).1 = .panic) := by
  rcases got with d | e | _
  · by_cases h1 : format = b!"json"
    · simp only [Streams.showRun, Cmd.showDrv, if_pos h1]
      refine ⟨trivial, ?_, fun e h => (nomatch h), fun h => (nomatch h)⟩
      intro t ht
      cases ht
      exact writeAll_delivered hD _ x.out hx
    · by_cases h2 : format = b!"json-pretty"
      · simp only [Streams.showRun, Cmd.showDrv, if_neg h1, if_pos h2]
        refine ⟨trivial, ?_, fun e h => (nomatch h), fun h => (nomatch h)⟩
        intro t ht
        cases ht
        exact writeAll_delivered hD _ x.out hx
      · by_cases h3 : format = b!"aterm"
        · obtain ⟨t, k1, k2⟩ := writeDrv_delivered hD d x.out hx
          simp only [Streams.showRun, Cmd.showDrv, if_neg h1, if_neg h2, if_pos h3, k1]
          refine ⟨trivial, ?_, fun e h => (nomatch h), fun h => (nomatch h)⟩
          intro t' ht
          cases ht
          exact k2
        · simp only [Streams.showRun, Cmd.showDrv, if_neg h1, if_neg h2, if_neg h3]
          refine ⟨trivial, fun t h => (nomatch h), ?_, fun h => (nomatch h)⟩
          intro e h
          cases h
          exact ⟨rfl, trivial⟩
  · refine ⟨rfl, fun t h => (nomatch h), ?_, fun h => (nomatch h)⟩
    intro e' h
    cases h
    exact ⟨rfl, rfl⟩
  · exact ⟨rfl, fun t h => (nomatch h), fun e h => (nomatch h), fun _ => rfl⟩

/-- C139: `gonix nar cat` and `gonix nar dump-path` print on the standard output only (what arrives there is C125). -/
theorem C139_cat_dump {D : Dev} (x : Streams.Std D) :
    (∀ s path, (Streams.catRun s path x).2.err = x.err ∧ (Streams.catRun s path x).1 = (catRun s path x.out).1 ∧
      (Streams.catRun s path x).2.out = (catRun s path x.out).2) ∧
    (∀ path root, (Streams.dumpRun path root x).2.err = x.err ∧ (Streams.dumpRun path root x).1 = (dumpCmd path root x.out).1 ∧
      (Streams.dumpRun path root x).2.out = (dumpCmd path root x.out).2) :=
  ⟨fun _ _ => ⟨rfl, rfl, rfl⟩, fun _ _ => ⟨rfl, rfl, rfl⟩⟩

/-- C139: `gonix nar ls` never prints anything on the standard output; the listing goes to the standard error, and what it returns does not depend on whether
it arrived there. -/
theorem C139_ls {D : Dev} (s : Stream) (path : Bytes) (recursive : Bool) (x : Streams.Std D) :
    (Streams.lsRun s path recursive x).2.out = x.out ∧ (Streams.lsRun s path recursive x).1 = (Cmd.lsRun s path recursive).2 ∧
    ((∀ st p, (D.write st p).1.1 = p.length) → (Streams.lsRun s path recursive x).2.err.out = x.err.out ++ (Cmd.lsRun s path recursive).1) := by
  have hloop : ∀ (fuel : Nat) (r : Reader) (x : Streams.Std D),
      (Streams.lsLoop path recursive fuel r x).2.out = x.out ∧ (Streams.lsLoop path recursive fuel r x).1 = (Cmd.lsLoop path recursive fuel r).2 ∧
      ((∀ st p, (D.write st p).1.1 = p.length) →
        (Streams.lsLoop path recursive fuel r x).2.err.out = x.err.out ++ (Cmd.lsLoop path recursive fuel r).1) := by
    intro fuel
    induction fuel with
    | zero => intro r x; exact ⟨rfl, rfl, fun _ => by simp [Streams.lsLoop, Cmd.lsLoop]⟩
    | succ fuel ih =>
      intro r x
      unfold Streams.lsLoop Cmd.lsLoop
      rcases r.next with ⟨h | e | _ | _, r'⟩
      · simp only
        split
        · obtain ⟨i1, i2, i3⟩ := ih r' (if recursive || !contains (h.path.drop path.length) b!"/" then Streams.print (Cmd.headerLineString h) x else x)
          refine ⟨?_, i2, fun hD => ?_⟩
          · rw [i1]; split <;> rfl
          · rw [i3 hD, ← List.append_assoc]
            congr 1
            split
            · have : (Streams.print (Cmd.headerLineString h) x).err.out = x.err.out ++ (Cmd.headerLineString h).take (D.write x.err.st (Cmd.headerLineString h)).1.1 := rfl
              rw [this, hD, List.take_length]
            · rw [List.append_nil]
        · split
          · exact ⟨rfl, rfl, fun _ => by simp⟩
          · exact ih r' x
      · exact ⟨rfl, rfl, fun _ => by simp⟩
      · exact ⟨rfl, rfl, fun _ => by simp⟩
      · exact ⟨rfl, rfl, fun _ => by simp⟩
  unfold Streams.lsRun Cmd.lsRun
  rcases newReader s with ⟨r | e | _, s'⟩
  · exact hloop _ r x
  · exact ⟨rfl, rfl, fun _ => by simp⟩
  · exact ⟨rfl, rfl, fun _ => by simp⟩

/-- The kernel's null device, and a closed one. -/
def closedDev : Dev := ⟨Unit, fun _ _ => ((0, some .io), ())⟩

/-- C139 is false for `nar ls`: whatever the streams are, nothing is printed on the standard output for an archive that has entries; and if the standard error is
closed, nothing is printed at all, and the command succeeds. -/
theorem C139_refuted : ∃ (s : Stream) (path : Bytes), (Cmd.lsRun s path true).1 ≠ [] ∧
    (∀ (D : Dev) (x : Streams.Std D), (Streams.lsRun s path true x).1 = .ok () ∧ (Streams.lsRun s path true x).2.out = x.out) ∧
    ∀ x : Streams.Std closedDev, (Streams.lsRun s path true x).1 = .ok () ∧ (Streams.lsRun s path true x).2.err.out = x.err.out := by
  have hok : (Cmd.lsRun ⟨sampleTree.nar, .eof⟩ b!"/" true).2 = .ok () := by decide +kernel
  refine ⟨⟨sampleTree.nar, .eof⟩, b!"/", by decide +kernel, ?_, ?_⟩
  · intro D x
    obtain ⟨h1, h2, _⟩ := C139_ls ⟨sampleTree.nar, .eof⟩ b!"/" true x
    exact ⟨h2.trans hok, h1⟩
  · intro x
    refine ⟨(C139_ls ⟨sampleTree.nar, .eof⟩ b!"/" true x).2.1.trans hok, ?_⟩
    have hloop : ∀ (fuel : Nat) (r : Reader) (x : Streams.Std closedDev), (Streams.lsLoop b!"/" true fuel r x).2.err.out = x.err.out := by
      intro fuel
      induction fuel with
      | zero => intro r x; rfl
      | succ fuel ih =>
        intro r x
        unfold Streams.lsLoop
        rcases r.next with ⟨h | e | _ | _, r'⟩
        · simp only
          split
          · rw [ih, if_pos (by simp)]
            show x.err.out ++ (Cmd.headerLineString h).take 0 = x.err.out
            simp
          · split
            · rfl
            · exact ih r' x
        · rfl
        · rfl
        · rfl
    have hrun : ∀ s, (Streams.lsRun s b!"/" true x).2.err.out = x.err.out := by
      intro s
      unfold Streams.lsRun
      rcases newReader s with ⟨r | e | _, s'⟩
      · exact hloop _ r x
      · rfl
      · rfl
    exact hrun _

/-- The standard output fails for `gonix drv show`; and it does not. -/
example : ∃ t, Cmd.showDrv true b!"json" (.ok sampleDrv) = .ok t ∧ t ≠ [] ∧
    (Streams.showRun (D := closedDev) true b!"json" (.ok sampleDrv) ⟨⟨(), []⟩, ⟨(), []⟩⟩).1 = .err .io ∧
    (Streams.showRun (D := ⟨Unit, fun _ p => ((p.length, none), ())⟩) true b!"json" (.ok sampleDrv) ⟨⟨(), []⟩, ⟨(), []⟩⟩).2.out.out = t :=
  ⟨_, rfl, by simp, rfl, by
    show [] ++ List.take _ _ = _
    rw [List.nil_append, List.take_length]⟩

end Verif.Props
