import Verif.Spec.NarMany
import Verif.Props.NarRefs
import Verif.Props.NarReader
import Verif.Props.Pipeline

/-!
# C135: archives one after another
-/

namespace Verif.Props
open Verif.GoLib Verif.Wire Verif.Nar Verif.Spec

/-- C135: any number of archives in one stream are read one after another by as many readers; each returns exactly the entries and contents of
its tree, whatever part of the contents is read, and the stream is left exactly after the last one. -/
theorem C135_read (tps : List (Tree × List (List Nat))) (ht : ∀ x ∈ tps, x.1.All NameRd NodeRd ∧ x.2.length = (x.1.entriesAt b!"/").length)
    (rest : Bytes) (e : Err) :
    readArchives (tps.map (·.2)) ⟨(tps.flatMap fun x => x.1.nar) ++ rest, e⟩ = some (tps.map fun x => returned x.1 x.2, ⟨rest, e⟩) := by
  induction tps with
  | nil => rfl
  | cons x tps ih =>
    obtain ⟨t, plan⟩ := x
    obtain ⟨h1, h2⟩ := ht _ (.head _)
    obtain ⟨r, s', hn, hs, r'', hx, hst⟩ := C23_read_back_partial t h1 ((tps.flatMap fun x => x.1.nar) ++ rest) e plan h2
    have ih := ih fun x hx => ht x (.tail _ hx)
    simp only [List.map_cons, List.flatMap_cons, readArchives, List.append_assoc]
    rw [hn]
    simp only [hx, hst, ih, hs, Option.map_some]
    rfl

/-- C135: if the dumps succeed, the buffer holds the archives of the (filtered) trees, one after another, after what was there before. -/
theorem C135_dump (l : List (Option Filter × Bytes × FNode)) (hok : ∀ x ∈ l, x.2.2.Ok NameOk) (buf : Bytes)
    (h : ∀ r ∈ (dumpAll l buf).1, r = .ok ()) :
    ∃ ts : List Tree, l.map (fun x => x.2.2.prune (keeps x.1) x.2.1 b!"/") = ts.map some ∧
      (dumpAll l buf).2 = buf ++ ts.flatMap Tree.nar := by
  induction l generalizing buf with
  | nil => exact ⟨[], rfl, by simp [dumpAll]⟩
  | cons x l ih =>
    obtain ⟨filter, path, root⟩ := x
    obtain ⟨f1, f2⟩ := C127_fold (D := bufDev) (fun st p => st ++ p) (fun _ _ => rfl) (fun st => List.append_nil st)
      (fun st a b => List.append_assoc st a b) buf filter path root
    simp only [dumpAll] at h ⊢
    have h0 := h _ (.head _)
    rw [f1] at h0
    obtain ⟨t, hp, ho⟩ := (C35_exact filter path root (hok _ (.head _))).2 h0
    rw [f2, ho]
    rw [f2, ho] at h
    obtain ⟨ts, i1, i2⟩ := ih (fun x hx => hok x (.tail _ hx)) _ (fun r hr => h r (.tail _ hr))
    refine ⟨t :: ts, by simp [hp, i1], ?_⟩
    rw [i2, List.flatMap_cons, List.append_assoc]

/-- C135: dumping any number of trees to one stream and reading them back. -/
theorem C135_round_trip (l : List (Option Filter × Bytes × FNode)) (hok : ∀ x ∈ l, x.2.2.Ok NameOk)
    (h : ∀ r ∈ (dumpAll l []).1, r = .ok ()) (rest : Bytes) (e : Err) (plans : List (List (List Nat))) (ts : List Tree)
    (hts : l.map (fun x => x.2.2.prune (keeps x.1) x.2.1 b!"/") = ts.map some)
    (hrd : ∀ t ∈ ts, t.All NameRd NodeRd) (hpl : plans.map List.length = ts.map fun t => (t.entriesAt b!"/").length) :
    readArchives plans ⟨(dumpAll l []).2 ++ rest, e⟩ = some (List.zipWith returned ts plans, ⟨rest, e⟩) := by
  obtain ⟨ts', h1, h2⟩ := C135_dump l hok [] h
  rw [hts] at h1
  have : ts' = ts := by
    have := congrArg (List.filterMap id) h1
    simpa [List.filterMap_map, Function.comp_def] using this.symm
  subst this
  have hlen : ts'.length = plans.length := by
    have := congrArg List.length hpl
    simpa using this.symm
  have := C135_read (ts'.zip plans) (fun x hx => ⟨hrd _ (List.of_mem_zip hx).1, ?_⟩) rest e
  · rw [List.map_snd_zip (by omega)] at this
    rw [h2, List.nil_append]
    have e1 : ((ts'.zip plans).flatMap fun x => x.1.nar) = ts'.flatMap Tree.nar := by
      rw [← List.map_fst_zip (l₁ := ts') (l₂ := plans) (by omega), List.flatMap_map, List.map_fst_zip (by omega)]
    rw [e1] at this
    rw [this]
    congr 2
    rw [← List.map_uncurry_zip_eq_zipWith]
    rfl
  · obtain ⟨i, hi, he⟩ := List.mem_iff_getElem.1 hx
    have hi' := hi
    rw [List.length_zip] at hi'
    have h1 : plans[i]'(by omega) = x.2 := by rw [← he]; simp
    have h2 : ts'[i]'(by omega) = x.1 := by rw [← he]; simp
    have := congrArg (fun l : List Nat => l[i]?) hpl
    simp only [List.getElem?_map, List.getElem?_eq_getElem (show i < plans.length by omega), List.getElem?_eq_getElem (show i < ts'.length by omega),
      Option.map_some, Option.some.injEq, h1, h2] at this
    exact this

/-- Two trees, of which the first file is read partially and the second not at all. -/
example : ∃ ts : List Tree, ts = [refTree, .regular false b!"hello"] ∧
    (∀ r ∈ (dumpAll (ts.map fun t => (none, b!"/x", onDisk t)) []).1, r = .ok ()) ∧
    ts.map (fun t => (onDisk t).prune (keeps none) b!"/x" b!"/") = ts.map some ∧
    ([[[], [], [5], []], [[]]].map List.length = ts.map fun t => (t.entriesAt b!"/").length) ∧
    (∀ t ∈ ts, t.All NameRd NodeRd) := by
  refine ⟨_, rfl, ?_, ?_, ?_, ?_⟩
  · decide +kernel
  · rfl
  · decide +kernel
  · simp only [List.mem_cons, List.not_mem_nil, or_false, forall_eq_or_imp, forall_eq, refTree, Tree.All, Entries.All, Entries.names]
    unfold NameRd NodeRd NameOk
    decide

end Verif.Props
