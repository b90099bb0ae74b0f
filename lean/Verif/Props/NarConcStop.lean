import Verif.Spec.NarWriterCalls
import Verif.Props.NarConcW

/-!
# The goroutine of a `nar.Writer` ends (C130)
-/

namespace Verif.Props
open Verif.Nar Verif.Conc Verif.GoLib Verif.Wire Verif.Spec

theorem stopped_cons {o : WOp} {r : WOut} {ops : List WOp} {rs : List WOut} :
    Stopped (o :: ops) (r :: rs) ↔ Stops o r ∨ Stopped ops rs := by
  simp [Stopped]

theorem op_ended (w : Writer) (o : WOp) (hinv : w.closed = true → w.phase = .ended) (hb : (w.op o).1.ends = none) :
    ((w.op o).2.phase = .ended ↔ w.phase = .ended ∨ Stops o (w.op o).1) ∧
    ((w.op o).2.closed = true → (w.op o).2.phase = .ended) := by
  cases o with
  | write p =>
    simp only [Writer.op, Stops, or_false, contentWrite_eq, true_and]
    exact hinv
  | close =>
    simp only [Writer.op, Stops, or_true, iff_true, Writer.close]
    cases hc : w.closed with
    | true =>
      simp only [if_true]
      exact ⟨hinv hc, fun _ => hinv hc⟩
    | false =>
      simp only [Bool.false_eq_true, if_false]
      split <;> exact ⟨rfl, fun _ => rfl⟩
  | header h =>
    simp only [Writer.op, Writer.writeHeader] at hb ⊢
    cases hv : h.validate with
    | err e => simp only [Stops, hv]; exact ⟨by simp, hinv⟩
    | panic => rw [hv] at hb; cases hb
    | ok u =>
      rw [hv] at hb
      simp only at hb ⊢
      cases hc : w.closed with
      | true => rw [hc] at hb; cases hb
      | false =>
        rw [hc] at hb
        simp only [Bool.false_eq_true, if_false] at hb ⊢
        by_cases hp : w.phase = .ended
        · rw [if_pos hp] at hb; cases hb
        · rw [if_neg hp] at hb ⊢
          split
          · simp [Stops, hp, hc]
          · simp [Stops, hv]
          · rename_i he
            rw [he] at hb; cases hb

theorem run_ended (w : Writer) (ops : List WOp) (hinv : w.closed = true → w.phase = .ended)
    (hfin : (seen WOut.ends (w.run ops).1).2 = .finished) :
    ((w.run ops).2.phase = .ended ↔ w.phase = .ended ∨ Stopped ops (seen WOut.ends (w.run ops).1).1) := by
  induction ops generalizing w with
  | nil => simp [Writer.run, Stopped]
  | cons o ops ih =>
    rw [run_consW] at hfin ⊢
    simp only [seen] at hfin ⊢
    cases hb : (w.op o).1.ends with
    | some e =>
      rw [hb] at hfin
      simp only at hfin
      subst hfin
      exfalso
      generalize (w.op o).1 = r at hb
      cases r with
      | unit r => cases r <;> cases hb
      | write r => cases r <;> cases hb
    | none =>
      rw [hb] at hfin
      obtain ⟨h1, h2⟩ := op_ended w o hinv hb
      simp only at hfin ⊢
      rw [ih _ h2 hfin, h1, stopped_cons, or_assoc]

theorem seen_length (os : List WOut) (h : (seen WOut.ends os).2 = .finished) : (seen WOut.ends os).1.length = os.length := by
  induction os with
  | nil => rfl
  | cons o os ih =>
    simp only [seen] at h ⊢
    cases hb : o.ends with
    | some e =>
      rw [hb] at h
      simp only at h
      subst h
      exfalso
      cases o with
      | unit r => cases r <;> cases hb
      | write r => cases r <;> cases hb
    | none =>
      rw [hb] at h
      simp only at h ⊢
      rw [List.length_cons, List.length_cons, ih h]

theorem run_length (w : Writer) (ops : List WOp) : (w.run ops).1.length = ops.length := by
  induction ops generalizing w with
  | nil => rfl
  | cons o ops ih => rw [run_consW, List.length_cons, List.length_cons, ih]

/-- What the goroutine is doing when the caller has finished. -/
theorem wi_stop {L : List WOut × Ending} {F : Writer} {x : Conf WChan WVal WState WOut} (h : WI L F x) (hm : x.main = .stop) :
    (F.phase = .ended ∧ (x.go = .stop ∨ (x.go = .close .errors .stop ∧ x.closed .errors = false))) ∨
    (F.phase ≠ .ended ∧ x.closed .headers = false ∧ ∃ k, x.go = .recv [.headers] k) := by
  cases h with
  | boundary w ops m _ hg hmain hsee =>
    cases ops with
    | nil =>
      have hF : F = w := hsee.2
      subst hF
      have hl := hg.live
      have hh := hg.headers
      generalize x.go = g at hl
      cases hl with
      | waiting kp hk he hc => exact .inr ⟨hk.1, by rw [hh, hc], _, rfl⟩
      | tail hp he => exact .inl ⟨hp, .inr ⟨rfl, he⟩⟩
      | gone hp he => exact .inl ⟨hp, .inl rfl⟩
    | cons o ops =>
      rw [hm] at hmain
      cases o with
      | header hd =>
        cases hv : hd.validate with
        | ok u => rw [writerMain_header_ok hv] at hmain; cases hmain
        | err e => rw [writerMain_header_err hv] at hmain; cases hmain
        | panic => rw [writerMain_header_panic hv] at hmain; cases hmain
      | write p => cases hmain
      | close =>
        cases hc : w.closed with
        | true => rw [hc, writerMain_closed] at hmain; cases hmain
        | false => rw [hc, writerMain_close] at hmain; cases hmain
  | pending w ops m o _ _ hmain _ => rw [hm] at hmain; cases hmain
  | inHeader w h ops m p _ _ _ _ _ hmain _ _ _ => rw [hm] at hmain; cases hmain
  | inClose w ops m _ _ _ hmain _ _ => rw [hm] at hmain; cases hmain
  | dead hmain _ => rw [hm] at hmain; cases hmain

theorem wi_blocked {L : List WOut × Ending} {F : Writer} {x : Conf WChan WVal WState WOut} (h : WI L F x) (hf : x.Final)
    (hb : x.ending = .blocked) : x.go = .stop := by
  have ham : alive x.main = true := by
    cases ha : alive x.main with
    | true => rfl
    | false => rw [ending_crash (alive_crash ha)] at hb; cases hb
  have hag : alive x.go = true := by
    cases ha : alive x.go with
    | true => rfl
    | false => rw [ending_goCrash (alive_crash ha)] at hb; cases hb
  cases h with
  | boundary w ops m hm hg hmain hsee =>
    cases ops with
    | nil => rw [ending_stop hmain hag] at hb; cases hb
    | cons o ops =>
      have hno := final_main hf ham hag none
      rw [hmain] at hno
      cases o with
      | header hd =>
        cases hv : hd.validate with
        | ok u =>
          rw [writerMain_header_ok hv] at hno
          simp only [localStep] at hno
          have hcl : x.closed .headers = false := by
            cases hc : x.closed .headers with
            | false => rfl
            | true => rw [hc] at hno; cases hno
          have hh := final_mainToGo hf ham hag
          rw [hmain, writerMain_header_ok hv] at hh
          have h1 := final_go hf ham hag none
          have hl := hg.live
          generalize hq : x.go = q at hl hh h1
          cases hl with
          | waiting kp _ _ _ => simp [handOver, waitW, hcl] at hh
          | tail _ he => simp [localStep, he] at h1
          | gone _ _ => rfl
        | err e => rw [writerMain_header_err hv] at hno; cases hno
        | panic => rw [hmain, writerMain_header_panic hv] at ham; cases ham
      | write p => cases hno
      | close =>
        cases hc : w.closed with
        | true => rw [hc, writerMain_closed] at hno; cases hno
        | false =>
          rw [hc, writerMain_close] at hno
          simp [localStep, hg.headers, hc] at hno
  | pending w ops m o hm hg hmain hsee =>
    have hno := final_main hf ham hag none
    rw [hmain] at hno
    cases hno
  | inHeader w hd ops m p hm hv hc hp hcl hmain hgo hput hsee =>
    have h1 := final_go hf ham hag none
    have h2 := final_goToMain hf ham hag
    rw [hgo] at h1
    rw [hgo, hmain] at h2
    cases p with
    | ret y =>
      obtain ⟨e, hr, hy⟩ | ⟨hr, hy⟩ := putsAs_done hput
      · rw [goW_report hy] at h2; simp [wTail, handOver, hcl] at h2
      · rw [hgo, hy] at hag; cases hag
    | act f k => cases h1
    | yield u k => simp [goW, handOver, hcl] at h2
  | inClose w ops m hc hh hd hmain hcls hsee =>
    exfalso
    have h1 := final_go hf ham hag none
    have h1' := final_go hf ham hag (some .headers)
    have h2 := final_goToMain hf ham hag
    have h3 := final_main hf ham hag (some .errors)
    rw [hmain] at h2 h3
    generalize hq : x.go = q at hcls h1 h1' h2 hag
    cases hcls with
    | waiting _ _ _ => simp [waitW, localStep, hh] at h1'
    | running p hp he =>
      cases p with
      | ret y =>
        obtain ⟨hr, hy⟩ | ⟨e, hr, hy⟩ | ⟨hr, hy⟩ := closesAs_done hp
        · rw [hy] at h1; simp [goW, localStep, he] at h1
        · rw [goW_report hy] at h2; simp [wTail, handOver, he] at h2
        · rw [hy] at hag; cases hag
      | act f k => cases h1
      | yield u k => exact closesAs_yield hp
    | tail _ he => simp [localStep, he] at h1
    | gone _ he => simp [localStep, he] at h3
  | dead hmain _ => rw [ending_crash hmain] at hb; cases hb

theorem wi_reach {s s' : Sink} {w : Writer} (hw : newWriter s = (.ok w, s')) {ops : List WOp} {fuel : Nat} (hf : 2 * ops.length ≤ fuel)
    {x : Conf WChan WVal WState WOut} (hx : Reach (writerInit fuel w.st ops) x) : WI (seen WOut.ends (w.run ops).1) (w.run ops).2 x := by
  have hw' : w = ⟨w.st, .start, false⟩ := by
    unfold newWriter at hw
    split at hw <;> cases hw
    rfl
  have hinit : WI (seen WOut.ends (w.run ops).1) (w.run ops).2 (writerInit fuel w.st ops) := by
    refine .boundary w ops ops.length (Nat.le_refl _) ⟨by rw [hw']; rfl, rfl, rfl, ?_⟩ (by rw [hw']; rfl) ⟨rfl, rfl⟩
    show LiveW w _ _ (writerGo fuel)
    rw [writerGo_eq]
    exact .waiting _ (by rw [hw']; exact waits_start _ _ hf) rfl (by rw [hw'])
  induction hx with
  | refl => exact hinit
  | step l _ hs ih => exact wi_step ih hs

/-- C130: the goroutine of a `Writer`, when the calls have returned and nothing moves any more. It has ended if and only if `Close` was called
or a `WriteHeader` of a valid header returned an error; otherwise it waits for a header for ever. -/
theorem C130_exact (s s' : Sink) (w : Writer) (hw : newWriter s = (.ok w, s')) (ops : List WOp) (fuel : Nat) (hf : 2 * ops.length ≤ fuel)
    (x : Conf WChan WVal WState WOut) (hx : Reach (writerInit fuel w.st ops) x) (hfin : x.Final) (hm : x.main = .stop) :
    (x.go = .stop ↔ Stopped ops x.log) ∧ (¬ Stopped ops x.log → x.closed .headers = false ∧ ∃ k, x.go = .recv [.headers] k) := by
  have hwi := wi_reach hw hf hx
  have hw' : w = ⟨w.st, .start, false⟩ := by
    unfold newWriter at hw
    split at hw <;> cases hw
    rfl
  obtain ⟨hL, _⟩ := (wi_facts hwi).2.2.2 hm
  have hph := run_ended w ops (by rw [hw']; intro h; cases h) (by rw [← hL])
  rw [← hL] at hph
  have hst : w.phase ≠ .ended := by rw [hw']; intro h; cases h
  have hph' : (w.run ops).2.phase = .ended ↔ Stopped ops x.log := by simpa [hst] using hph
  rcases wi_stop hwi hm with ⟨hp, hg⟩ | ⟨hp, hc, k, hg⟩
  · have hs := hph'.1 hp
    refine ⟨⟨fun _ => hs, fun _ => ?_⟩, fun h => absurd hs h⟩
    rcases hg with hg | ⟨hg, he⟩
    · exact hg
    · have hno := final_go hfin (by rw [hm]; rfl) (by rw [hg]; rfl) none
      rw [hg] at hno
      simp [localStep, he] at hno
  · have hs : ¬ Stopped ops x.log := fun h => hp (hph'.2 h)
    exact ⟨⟨fun h => absurd (h.symm.trans hg) nofun, fun h => absurd h hs⟩, fun _ => ⟨hc, k, hg⟩⟩

/-- C130: a program that calls `Close`, whatever its calls return, leaves no goroutine behind; and one whose `WriteHeader` blocks (C36) has
none either. -/
theorem C130_close (s s' : Sink) (w : Writer) (hw : newWriter s = (.ok w, s')) (ops : List WOp) (fuel : Nat) (hf : 2 * ops.length ≤ fuel)
    (x : Conf WChan WVal WState WOut) (hx : Reach (writerInit fuel w.st ops) x) (hfin : x.Final) :
    (x.ending = .finished → .close ∈ ops → x.main = .stop ∧ x.go = .stop) ∧ (x.ending = .blocked → x.go = .stop) := by
  refine ⟨fun he hc => ?_, wi_blocked (wi_reach hw hf hx) hfin⟩
  have hm : x.main = .stop := by
    revert he
    unfold Conf.ending
    split <;> simp_all
  refine ⟨hm, (C130_exact s s' w hw ops fuel hf x hx hfin hm).1.2 ?_⟩
  have hlen : x.log.length = ops.length := by
    have hL := ((wi_facts (wi_reach hw hf hx)).2.2.2 hm).1
    have h2 : (seen WOut.ends (w.run ops).1).2 = .finished := by rw [← hL]
    rw [← run_length w ops, ← seen_length _ h2, ← hL]
  obtain ⟨i, hi, he⟩ := List.getElem_of_mem hc
  exact ⟨(.close, x.log[i]'(by omega)), by
    rw [← he]
    rw [List.mem_iff_getElem]
    exact ⟨i, by rw [List.length_zip]; omega, by simp⟩, trivial⟩

/-- The theorems have instances: a complete session; one that is closed in the middle of a file; an error without `Close`; and one that
forgets `Close`, whose goroutine waits for ever. -/
example : ∃ w s', newWriter ⟨[], none⟩ = (.ok w, s') ∧
    (∃ x, Reach (writerInit 10 w.st dirOps) x ∧ x.ending = .finished ∧ x.go = .stop) ∧
    (∃ x, Reach (writerInit 10 w.st [.header ⟨b!"/", typeRegular, [], 12, false⟩, .write b!"hello", .close]) x ∧ x.ending = .finished ∧
      Stopped [.header ⟨b!"/", typeRegular, [], 12, false⟩, .write b!"hello", .close] x.log) ∧
    (∃ x, Reach (writerInit 10 w.st [.header ⟨b!"/a", typeRegular, [], 0, false⟩]) x ∧ x.ending = .finished ∧
      Stopped [.header ⟨b!"/a", typeRegular, [], 0, false⟩] x.log) ∧
    (∃ x, Reach (writerInit 10 w.st [.header ⟨b!"/", typeDirectory, [], 0, false⟩]) x ∧ x.ending = .finished ∧
      ¬ Stopped [.header ⟨b!"/", typeDirectory, [], 0, false⟩] x.log) := by
  refine ⟨⟨⟨⟨str narVersionMagic1, none⟩, none⟩, .start, false⟩, ⟨str narVersionMagic1, none⟩, by decide +kernel, ?_, ?_, ?_, ?_⟩
  · refine ⟨(writerInit 10 _ dirOps).auto someSchedule 200, reach_auto .., by decide +kernel, ?_⟩
    rfl
  · refine ⟨(writerInit 10 _ _).auto someSchedule 200, reach_auto .., by decide +kernel, ?_⟩
    have hl : ((writerInit 10 ⟨⟨str narVersionMagic1, none⟩, none⟩ [.header ⟨b!"/", typeRegular, [], 12, false⟩, .write b!"hello", .close]).auto
        someSchedule 200).log = [.unit (.ok ()), .write (.ok (5, none)), .unit (.err (.msg "wrote other number of bytes than expected"))] := by
      decide +kernel
    rw [hl]
    exact ⟨_, .tail _ (.tail _ (.head _)), trivial⟩
  · refine ⟨(writerInit 10 _ _).auto someSchedule 200, reach_auto .., by decide +kernel, ?_⟩
    have hl : ((writerInit 10 ⟨⟨str narVersionMagic1, none⟩, none⟩ [.header ⟨b!"/a", typeRegular, [], 0, false⟩]).auto
        someSchedule 200).log = [.unit (.err (.msg "first header always needs to have a / as path"))] := by
      decide +kernel
    rw [hl]
    exact ⟨_, .head _, by show Header.validate _ = _; decide +kernel⟩
  · refine ⟨(writerInit 10 _ _).auto someSchedule 200, reach_auto .., by decide +kernel, ?_⟩
    have hl : ((writerInit 10 ⟨⟨str narVersionMagic1, none⟩, none⟩ [.header ⟨b!"/", typeDirectory, [], 0, false⟩]).auto
        someSchedule 200).log = [.unit (.ok ())] := by
      decide +kernel
    rw [hl]
    rintro ⟨x, hx, hs⟩
    simp at hx
    subst hx
    exact hs

end Verif.Props
