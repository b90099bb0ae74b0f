import Verif.Props.NarDumpFs
import Verif.Spec.NarDumpFilter

/-!
# Dumping with a filter that has a state (C152)
-/

namespace Verif.Props
open Verif Verif.Nar Verif.GoLib Verif.Spec Verif.Wire

mutual
theorem dumpAsk_sees {S : Type} {fs : FileSys S} (hs : fs.Sane) (filter : Option (Asker S)) (path : Bytes) (fuel : Nat)
    (cs : List Bytes) (hcs : ∀ c ∈ cs, Good c) (s s' : S) (w w' : Writer) (c : Call Unit)
    (h : dumpAsk fs filter path fuel (absPath cs) s w = (c, w', s')) (hc : c ≠ .block ∨ Enough fs fuel cs.length) :
    (c = .ok () ∧ w' = w ∧ SeenAsked fs (ask filter) path s (absPath cs) none s') ∨
    ∃ node : FNode, node.Ok NameOk ∧ dumpNode none path node (absPath cs) w = (c, w') ∧
      (c = .ok () → ∃ t, node.prune (keeps none) path (absPath cs) = some t ∧ SeenAsked fs (ask filter) path s (absPath cs) (some t) s') := by
  match fuel with
  | 0 =>
    simp only [dumpAsk, Prod.mk.injEq] at h
    rcases hc with hc | ⟨L, _, h0, _⟩
    · exact absurd h.1.symm hc
    · omega
  | fuel + 1 =>
    unfold dumpAsk at h
    simp only at h
    rcases hl : fs.lstat (pathJoin path (absPath cs)) s with ⟨k, s1⟩
    rw [hl] at h
    rcases k with e | k
    · simp only [Prod.mk.injEq] at h
      obtain ⟨rfl, rfl, rfl⟩ := h
      exact .inr ⟨.bad e, by simp [FNode.Ok], by simp [dumpNode], nofun⟩
    · cases k with
      | other =>
        simp only [Prod.mk.injEq] at h
        obtain ⟨rfl, rfl, rfl⟩ := h
        exact .inr ⟨.bad (.msg "unknown type"), by simp [FNode.Ok], by simp [dumpNode], nofun⟩
      | symlink =>
        rcases hk : ask filter (pathJoin path (absPath cs)) typeSymlink s1 with ⟨b, s2⟩
        simp only [hk] at h
        cases b with
        | false =>
          simp only [Prod.mk.injEq] at h
          obtain ⟨rfl, rfl, rfl⟩ := h
          exact .inl ⟨rfl, rfl, .rejected hl rfl hk⟩
        | true =>
          simp only at h
          rcases hr : fs.readlink (pathJoin path (absPath cs)) s2 with ⟨t, s3⟩
          rw [hr] at h
          rcases t with e | t
          · simp only [Prod.mk.injEq] at h
            obtain ⟨rfl, rfl, rfl⟩ := h
            exact .inr ⟨.brokenLink e, by simp [FNode.Ok], by simp [dumpNode, rejects], nofun⟩
          · simp only [Prod.mk.injEq] at h
            obtain ⟨rfl, rfl, rfl⟩ := h
            exact .inr ⟨.symlink t, by simpa [FNode.Ok] using hs.target _ _ _ _ hr, by simp [dumpNode, rejects],
              fun _ => ⟨.symlink t, by simp [FNode.prune, keeps], .link hl hk hr⟩⟩
      | regular x size =>
        rcases hk : ask filter (pathJoin path (absPath cs)) typeRegular s1 with ⟨b, s2⟩
        simp only [hk] at h
        cases b with
        | false =>
          simp only [Prod.mk.injEq] at h
          obtain ⟨rfl, rfl, rfl⟩ := h
          exact .inl ⟨rfl, rfl, .rejected hl rfl hk⟩
        | true =>
          simp only at h
          right
          rcases hr : fs.read (pathJoin path (absPath cs)) s2 with ⟨⟨ps, fl⟩, s3⟩
          have hsz := hs.size (pathJoin path (absPath cs)) s2
          rw [hr] at hsz
          rcases hx : w.writeHeader ⟨absPath cs, typeRegular, [], size, x⟩ with ⟨r, w1⟩
          rw [hx] at h
          have hd : dumpNode none path (.regular x size ps fl) (absPath cs) w = (c, w') ∧ (c = .ok () → s3 = s') := by
            unfold dumpNode
            rw [rejects_keeps, show keeps none (pathJoin path (absPath cs)) typeRegular = true from rfl, hx]
            rcases r with _ | e | _ | _ <;> simp only [hr, Prod.mk.injEq] at h <;> obtain ⟨h1, h2, h3⟩ := h
            · subst h1 h2 h3
              exact ⟨rfl, fun _ => rfl⟩
            · subst h1 h2; exact ⟨rfl, nofun⟩
            · subst h1 h2; exact ⟨rfl, nofun⟩
            · subst h1 h2; exact ⟨rfl, nofun⟩
          have hok : (FNode.regular x size ps fl).Ok NameOk := by simpa [FNode.Ok] using hsz
          refine ⟨.regular x size ps fl, hok, hd.1, fun e => ?_⟩
          subst e
          obtain ⟨e1, e2⟩ := dumpable_of_ok none path _ cs hcs hok _ _ hd.1 rfl
          subst e1 e2
          rw [← hd.2 rfl]
          exact ⟨_, by simp [FNode.prune, keeps], .file hl hk hr⟩
      | directory =>
        rcases hk : ask filter (pathJoin path (absPath cs)) typeDirectory s1 with ⟨b, s2⟩
        simp only [hk] at h
        cases b with
        | false =>
          simp only [Prod.mk.injEq] at h
          obtain ⟨rfl, rfl, rfl⟩ := h
          exact .inl ⟨rfl, rfl, .rejected hl rfl hk⟩
        | true =>
          simp only at h
          right
          have hbad : ∀ e, (FNode.brokenDirectory e).Ok NameOk := fun e => by simp [FNode.Ok]
          rcases hx : w.writeHeader ⟨absPath cs, typeDirectory, [], 0, false⟩ with ⟨r, w1⟩
          rw [hx] at h
          rcases r with _ | e | _ | _
          · simp only at h
            rcases hr : fs.readDir (pathJoin path (absPath cs)) s2 with ⟨ns, s3⟩
            rw [hr] at h
            rcases ns with e | ns
            · simp only [Prod.mk.injEq] at h
              obtain ⟨rfl, rfl, rfl⟩ := h
              exact ⟨.brokenDirectory e, hbad e, by simp [dumpNode, rejects, hx, andThen], nofun⟩
            · simp only at h
              obtain ⟨hsort, hnames⟩ := hs.names _ _ _ _ hr
              have hc' : c ≠ .block ∨ Enough fs fuel (cs.length + 1) := by
                rcases hc with hc | ⟨L, h1, h2, h3⟩
                · exact .inl hc
                · refine .inr ⟨L, h1, ?_, by omega⟩
                  rcases Nat.eq_zero_or_pos fuel with h0 | h0
                  · subst h0
                    have := pathJoin_length path hcs
                    obtain ⟨e, s9, h9⟩ := h1 (pathJoin path (absPath cs)) s (by omega)
                    rw [hl] at h9; cases h9
                  · exact h0
              obtain ⟨es, e1, e2, e3, e4⟩ := askNames_sees hs filter path fuel cs hcs ns hnames s3 s' w1 w' c h hc'
              exact ⟨.directory es, by unfold FNode.Ok; exact ⟨hsort.sublist e1, e2⟩,
                by simp [dumpNode, rejects, hx, andThen, e3],
                fun e => ⟨_, by simp [FNode.prune, keeps], .directory hl hk hr (e4 e)⟩⟩
          · simp only [Prod.mk.injEq] at h
            obtain ⟨rfl, rfl, rfl⟩ := h
            exact ⟨.brokenDirectory .io, hbad _, by simp [dumpNode, rejects, hx, andThen], nofun⟩
          · simp only [Prod.mk.injEq] at h
            obtain ⟨rfl, rfl, rfl⟩ := h
            exact ⟨.brokenDirectory .io, hbad _, by simp [dumpNode, rejects, hx, andThen], nofun⟩
          · simp only [Prod.mk.injEq] at h
            obtain ⟨rfl, rfl, rfl⟩ := h
            exact ⟨.brokenDirectory .io, hbad _, by simp [dumpNode, rejects, hx, andThen], nofun⟩
termination_by (fuel, 0)
theorem askNames_sees {S : Type} {fs : FileSys S} (hs : fs.Sane) (filter : Option (Asker S)) (path : Bytes) (fuel : Nat)
    (cs : List Bytes) (hcs : ∀ c ∈ cs, Good c) (ns : List Bytes) (hns : ∀ n ∈ ns, NameOk n) (s s' : S) (w w' : Writer) (c : Call Unit)
    (h : dumpNames (dumpAsk fs filter path fuel) (absPath cs) ns s w = (c, w', s')) (hc : c ≠ .block ∨ Enough fs fuel (cs.length + 1)) :
    ∃ es : FEntries, es.names.Sublist ns ∧ es.Ok NameOk ∧ dumpEntries none path es (absPath cs) w = (c, w') ∧
      (c = .ok () → EntriesAsked fs (ask filter) path s (absPath cs) ns (es.prune (keeps none) path (absPath cs)) s') := by
  match ns with
  | [] =>
    simp only [dumpNames, Prod.mk.injEq] at h
    obtain ⟨rfl, rfl, rfl⟩ := h
    exact ⟨.nil, by simp [FEntries.names], by simp [FEntries.Ok], by simp [dumpEntries], fun _ => by simp only [FEntries.prune]; exact .nil⟩
  | n :: ns =>
    have hn : NameOk n := hns n (by simp)
    have hg := nameOk_good hn
    have hcs' : ∀ c ∈ cs ++ [n], Good c := by
      intro x hx
      rcases List.mem_append.1 hx with hx | hx
      · exact hcs x hx
      · rw [List.mem_singleton.1 hx]; exact hg
    have hns' : ∀ x ∈ ns, NameOk x := fun x hx => hns x (List.mem_cons_of_mem _ hx)
    unfold dumpNames at h
    rw [pathJoin_good hcs hg] at h
    rcases hx : dumpAsk fs filter path fuel (absPath (cs ++ [n])) s w with ⟨r, w1, s1⟩
    rw [hx] at h
    have hlen : (cs ++ [n]).length = cs.length + 1 := by simp
    rcases r with _ | e | _ | _
    · simp only at h
      obtain ⟨es, e1, e2, e3, e4⟩ := askNames_sees hs filter path fuel cs hcs ns hns' s1 s' w1 w' c h hc
      rcases dumpAsk_sees hs filter path fuel (cs ++ [n]) hcs' s s1 w w1 _ hx (.inl (by simp)) with ⟨_, rfl, o3⟩ | ⟨node, o1, o2, o3⟩
      · rw [absPath_snoc cs n hcs] at o3
        exact ⟨es, .cons _ e1, e2, e3, fun e => .left o3 (e4 e)⟩
      · refine ⟨.cons n node es, by simpa [FEntries.names] using e1, by unfold FEntries.Ok; exact ⟨hn, o1, e2⟩, ?_, fun e => ?_⟩
        · unfold dumpEntries
          rw [pathJoin_good hcs hg, o2]
          exact e3
        · obtain ⟨t, ht, o3⟩ := o3 rfl
          rw [absPath_snoc cs n hcs] at o3 ht
          simp only [FEntries.prune, ht]
          exact .kept o3 (e4 e)
    all_goals
      simp only [Prod.mk.injEq] at h
      obtain ⟨rfl, rfl, rfl⟩ := h
      rcases dumpAsk_sees hs filter path fuel (cs ++ [n]) hcs' s s1 w w1 _ hx
        (by rw [hlen]; exact hc) with ⟨o, _⟩ | ⟨node, o1, o2, o3⟩
      · cases o
      · refine ⟨.cons n node (unseen ns), by simp [FEntries.names, unseen_names],
          by unfold FEntries.Ok; exact ⟨hn, o1, unseen_ok ns hns'⟩, ?_, nofun⟩
        unfold dumpEntries
        rw [pathJoin_good hcs hg, o2]
        rfl
termination_by (fuel, ns.length + 1)
end

mutual
theorem asked_dump {S : Type} {fs : FileSys S} (hs : fs.Sane) {filter : Option (Asker S)} {path : Bytes} {s s' : S} {sub : Bytes} {o : Option Tree}
    (h : SeenAsked fs (ask filter) path s sub o s') (cs : List Bytes) (hcs : ∀ c ∈ cs, Good c) (hsub : sub = absPath cs) :
    (o = none ∧ ∀ fuel' w, 0 < fuel' → dumpAsk fs filter path fuel' sub s w = (.ok (), w, s')) ∨
    ∃ (fuel : Nat) (node : FNode) (t : Tree), o = some t ∧ node.Ok NameOk ∧ node.Dumpable (keeps none) path sub ∧
      node.prune (keeps none) path sub = some t ∧
      ∀ fuel', fuel ≤ fuel' → ∀ w w', dumpNode none path node sub w = (.ok (), w') →
        dumpAsk fs filter path fuel' sub s w = (.ok (), w', s') := by
  match h with
  | .rejected (k := k) hl ht hk =>
    left
    refine ⟨rfl, fun fuel' w hf => ?_⟩
    obtain ⟨f, rfl⟩ : ∃ f, fuel' = f + 1 := ⟨fuel' - 1, by omega⟩
    unfold dumpAsk
    simp only [hl]
    cases k <;> simp only [Kind.typeName, Option.some.injEq, reduceCtorEq] at ht <;> subst ht <;>
      simp only [typeRegular, typeSymlink, typeDirectory, hk]
  | .file (s2 := s2) (x := x) (pieces := ps) hl hk hr =>
    have hsz := hs.size (pathJoin path sub) s2
    rw [hr] at hsz
    refine .inr ⟨1, .regular x ps.flatten.length ps none, _, rfl, by simpa [FNode.Ok] using hsz, fun _ => ⟨rfl, rfl⟩, by simp [FNode.prune, keeps], ?_⟩
    intro fuel' hf w w' hd
    obtain ⟨f, rfl⟩ : ∃ f, fuel' = f + 1 := ⟨fuel' - 1, by omega⟩
    have hk' : ask filter (pathJoin path sub) typeRegular _ = _ := hk
    simp only [dumpNode, rejects, Bool.false_eq_true, if_false] at hd
    simp only [dumpAsk, hl, hk']
    rcases hx : w.writeHeader ⟨sub, typeRegular, [], ps.flatten.length, x⟩ with ⟨r, w1⟩
    rw [hx] at hd
    rcases r with _ | e | _ | _ <;> simp only [andThen, Prod.mk.injEq, reduceCtorEq, false_and] at hd
    simp only [hr]
    unfold andThen
    rw [hd]
  | .link (t := t) hl hk hr =>
    refine .inr ⟨1, .symlink t, _, rfl, by simpa [FNode.Ok] using hs.target _ _ _ _ hr, by simp [FNode.Dumpable], by simp [FNode.prune, keeps], ?_⟩
    intro fuel' hf w w' hd
    obtain ⟨f, rfl⟩ : ∃ f, fuel' = f + 1 := ⟨fuel' - 1, by omega⟩
    have hk' : ask filter (pathJoin path sub) typeSymlink _ = _ := hk
    simp only [dumpNode, rejects, Bool.false_eq_true, if_false] at hd
    simp [dumpAsk, hl, hk', hr, hd]
  | .directory (names := ns) hl hk hr he =>
    obtain ⟨hsort, hnames⟩ := hs.names _ _ _ _ hr
    obtain ⟨fuel, es, e1, e2, e3, e4, e5⟩ := asked_names hs he cs hcs hsub hnames
    refine .inr ⟨fuel + 1, .directory es, _, rfl, by unfold FNode.Ok; exact ⟨hsort.sublist e1, e2⟩, fun _ => e3, by simp [FNode.prune, keeps]; exact e4, ?_⟩
    intro fuel' hf w w' hd
    obtain ⟨f, rfl⟩ : ∃ f, fuel' = f + 1 := ⟨fuel' - 1, by omega⟩
    have hk' : ask filter (pathJoin path sub) typeDirectory _ = _ := hk
    simp only [dumpNode, rejects, Bool.false_eq_true, if_false] at hd
    simp only [dumpAsk, hl, hk']
    rcases hx : w.writeHeader ⟨sub, typeDirectory, [], 0, false⟩ with ⟨r, w1⟩
    rw [hx] at hd
    rcases r with _ | e | _ | _ <;> simp only [andThen, Prod.mk.injEq, reduceCtorEq, false_and] at hd
    simp only [hr]
    exact e5 f (by omega) w1 w' hd
theorem asked_names {S : Type} {fs : FileSys S} (hs : fs.Sane) {filter : Option (Asker S)} {path : Bytes} {s s' : S} {sub : Bytes}
    {ns : List Bytes} {ts : Entries}
    (h : EntriesAsked fs (ask filter) path s sub ns ts s') (cs : List Bytes) (hcs : ∀ c ∈ cs, Good c) (hsub : sub = absPath cs)
    (hns : ∀ n ∈ ns, NameOk n) :
    ∃ (fuel : Nat) (es : FEntries), es.names.Sublist ns ∧ es.Ok NameOk ∧ es.Dumpable (keeps none) path sub ∧
      es.prune (keeps none) path sub = ts ∧
      ∀ fuel', fuel ≤ fuel' → ∀ w w', dumpEntries none path es sub w = (.ok (), w') →
        dumpNames (dumpAsk fs filter path fuel') sub ns s w = (.ok (), w', s') := by
  match h with
  | .nil =>
    refine ⟨0, .nil, by simp [FEntries.names], by simp [FEntries.Ok], by simp [FEntries.Dumpable], by simp [FEntries.prune], ?_⟩
    intro fuel' _ w w' hd
    simp only [dumpEntries, Prod.mk.injEq, true_and] at hd
    simp [dumpNames, hd]
  | .kept (n := n) (ns := ns) (t := t) h1 h2 =>
    have hn : NameOk n := hns n (by simp)
    have hg := nameOk_good hn
    have hcs' : ∀ c ∈ cs ++ [n], Good c := by
      intro x hx
      rcases List.mem_append.1 hx with hx | hx
      · exact hcs x hx
      · rw [List.mem_singleton.1 hx]; exact hg
    have hch : childPath sub n = absPath (cs ++ [n]) := by rw [hsub, absPath_snoc cs n hcs]
    have hjoin : pathJoin sub n = childPath sub n := by rw [hch, hsub, pathJoin_good hcs hg]
    obtain ⟨f2, es, b1, b2, b3, b4, b5⟩ := asked_names hs h2 cs hcs hsub fun x hx => hns x (List.mem_cons_of_mem _ hx)
    rcases asked_dump hs h1 (cs ++ [n]) hcs' hch with ⟨a, _⟩ | ⟨f1, node, t', a0, a1, a2, a3, a4⟩
    · cases a
    · cases a0
      refine ⟨max f1 f2, .cons n node es, by simpa [FEntries.names] using b1, by unfold FEntries.Ok; exact ⟨hn, a1, b2⟩,
        by unfold FEntries.Dumpable; exact ⟨a2, b3⟩, by simp [FEntries.prune, a3, b4], ?_⟩
      intro fuel' hf w w' hd
      simp only [dumpEntries, hjoin] at hd
      rcases hx : dumpNode none path node (childPath sub n) w with ⟨r, w1⟩
      rw [hx] at hd
      rcases r with _ | e | _ | _ <;> simp only [andThen, Prod.mk.injEq, reduceCtorEq, false_and] at hd
      simp only [dumpNames, hjoin, a4 fuel' (by omega) w w1 hx]
      exact b5 fuel' (by omega) w1 w' hd
  | .left (n := n) (ns := ns) h1 h2 =>
    have hn : NameOk n := hns n (by simp)
    have hg := nameOk_good hn
    have hcs' : ∀ c ∈ cs ++ [n], Good c := by
      intro x hx
      rcases List.mem_append.1 hx with hx | hx
      · exact hcs x hx
      · rw [List.mem_singleton.1 hx]; exact hg
    have hch : childPath sub n = absPath (cs ++ [n]) := by rw [hsub, absPath_snoc cs n hcs]
    have hjoin : pathJoin sub n = childPath sub n := by rw [hch, hsub, pathJoin_good hcs hg]
    obtain ⟨f2, es, b1, b2, b3, b4, b5⟩ := asked_names hs h2 cs hcs hsub fun x hx => hns x (List.mem_cons_of_mem _ hx)
    rcases asked_dump hs h1 (cs ++ [n]) hcs' hch with ⟨_, a⟩ | ⟨f1, node, t', a0, _⟩
    · refine ⟨f2 + 1, es, .cons _ b1, b2, b3, b4, ?_⟩
      intro fuel' hf w w' hd
      simp only [dumpNames, hjoin, a fuel' w (by omega)]
      exact b5 fuel' (by omega) w w' hd
    · cases a0
end

/-- A dump that has come back did what it does on a file system that contains what it has seen and was not rejected; or the root was rejected. -/
theorem dumpPathAsk_sees {S : Type} {fs : FileSys S} (hs : fs.Sane) (fuel : Nat) (filter : Option (Asker S)) (path : Bytes) (s : S) (out : Sink)
    (hc : (dumpPathAsk fs fuel filter path s out).1 ≠ .block ∨ Enough fs fuel 0) :
    ∃ (flt : Option Filter) (node : FNode), node.Ok NameOk ∧
      ((dumpPathAsk fs fuel filter path s out).1, (dumpPathAsk fs fuel filter path s out).2.1) = dumpPathFilter flt path node out ∧
      ((dumpPathAsk fs fuel filter path s out).1 = .ok () →
        SeenAsked fs (ask filter) path s b!"/" (node.prune (keeps flt) path b!"/") (dumpPathAsk fs fuel filter path s out).2.2) := by
  unfold dumpPathAsk dumpPathFilter at *
  rcases hn : newWriter out with ⟨w | e | _, o1⟩
  · rw [hn] at hc
    simp only at hc ⊢
    rcases hx : dumpAsk fs filter path fuel b!"/" s w with ⟨r, w1, s1⟩
    rw [hx] at hc
    have hE : r ≠ .block ∨ Enough fs fuel ([] : List Bytes).length := by
      rcases hc with hc | hc
      · left; rintro rfl; exact hc rfl
      · exact .inr hc
    rcases dumpAsk_sees hs filter path fuel [] (by simp) s s1 w w1 r hx hE with ⟨rfl, rfl, h3⟩ | ⟨node, h1, h2, h3⟩
    · refine ⟨some fun _ _ => false, .brokenDirectory .io, by simp [FNode.Ok], ?_, fun _ => ?_⟩
      · simp [dumpNode, rejects, andThen]
      · simp only [FNode.prune]; exact h3
    · have h2' : dumpNode none path node b!"/" w = (r, w1) := h2
      refine ⟨none, node, h1, ?_, ?_⟩
      · rw [h2']
        rcases r with _ | e | _ | _ <;> rfl
      · rcases r with _ | e | _ | _
        · intro _
          obtain ⟨t, ht, h3⟩ := h3 rfl
          rw [show node.prune (keeps none) path b!"/" = some t from ht]
          exact h3
        all_goals exact nofun
  · exact ⟨none, .bad .io, by simp [FNode.Ok], rfl, nofun⟩
  · exact ⟨none, .bad .io, by simp [FNode.Ok], rfl, nofun⟩

/-- C152, soundness: whatever the filter does, and however its answers change, if `DumpPathFilter` returns nil, every node that is not below a rejected
directory was looked at once and the filter was asked about it once, and what was written is the NAR serialisation of what it took. -/
theorem C152_sound {S : Type} {fs : FileSys S} (hs : fs.Sane) (fuel : Nat) (filter : Option (Asker S)) (path : Bytes) (s : S)
    (h : (dumpPathAsk fs fuel filter path s ⟨[], none⟩).1 = .ok ()) :
    ∃ t, SeenAsked fs (ask filter) path s b!"/" (some t) (dumpPathAsk fs fuel filter path s ⟨[], none⟩).2.2 ∧
      (dumpPathAsk fs fuel filter path s ⟨[], none⟩).2.1.out = t.nar := by
  obtain ⟨flt, node, h1, h2, h3⟩ := dumpPathAsk_sees hs fuel filter path s ⟨[], none⟩ (.inl (by rw [h]; simp))
  have hok : (dumpPathFilter flt path node ⟨[], none⟩).1 = .ok () := by rw [← h2]; exact h
  obtain ⟨t, e1, e2⟩ := (C35_exact flt path node h1).2 hok
  refine ⟨t, by rw [← e1]; exact h3 h, ?_⟩
  rw [← e2, ← h2]

/-- C152, completeness: if what the filter takes can be written (no names like `..foo`, C21), the call returns nil. -/
theorem C152_complete {S : Type} {fs : FileSys S} (hs : fs.Sane) (filter : Option (Asker S)) (path : Bytes) (s s' : S) (t : Tree)
    (h : SeenAsked fs (ask filter) path s b!"/" (some t) s') (ht : t.All NameWr NodeWr) :
    ∃ fuel, ∀ fuel', fuel ≤ fuel' →
      (dumpPathAsk fs fuel' filter path s ⟨[], none⟩).1 = .ok () ∧
      (dumpPathAsk fs fuel' filter path s ⟨[], none⟩).2.1.out = t.nar ∧
      (dumpPathAsk fs fuel' filter path s ⟨[], none⟩).2.2 = s' := by
  rcases asked_dump hs h [] (by simp) rfl with ⟨o, _⟩ | ⟨fuel, node, t', e, h1, h2, h3, h4⟩
  · cases o
  cases e
  refine ⟨fuel, fun fuel' hf => ?_⟩
  obtain ⟨g1, g2⟩ := dump_good h1 h2 h3 ht
  unfold dumpPathFilter at g1 g2
  unfold dumpPathAsk
  rcases hn : newWriter ⟨[], none⟩ with ⟨w | e | _, o1⟩
  · rw [hn] at g1 g2
    simp only at g1 g2 ⊢
    rcases hx : dumpNode none path node b!"/" w with ⟨r, w1⟩
    rw [hx] at g1 g2
    rcases r with _ | e | _ | _ <;> simp only [andThen, reduceCtorEq] at g1 g2
    rw [h4 fuel' hf w w1 hx]
    exact ⟨g1, g2, rfl⟩
  · rw [hn] at g1; simp at g1
  · rw [hn] at g1; simp at g1

/-- C152: the call never panics by itself; and if paths cannot be longer than `L` bytes, it returns, whatever the file system and the filter do. -/
theorem C152_returns {S : Type} {fs : FileSys S} (hs : fs.Sane) (fuel : Nat) (filter : Option (Asker S)) (path : Bytes) (s : S) (out : Sink) :
    (dumpPathAsk fs fuel filter path s out).1 ≠ .panic ∧
    ∀ L, (∀ p s, L < p.length → ∃ e s', fs.lstat p s = (.error e, s')) → L + 2 ≤ fuel →
      (dumpPathAsk fs fuel filter path s out).1 ≠ .block := by
  constructor
  · intro h
    obtain ⟨flt, node, _, h2, _⟩ := dumpPathAsk_sees hs fuel filter path s out (.inl (by rw [h]; simp))
    exact (C132_dump flt path node out).1 (by rw [← h2]; exact h)
  · intro L hL hf h
    obtain ⟨flt, node, _, h2, _⟩ := dumpPathAsk_sees hs fuel filter path s out (.inr ⟨L, hL, by omega, by omega⟩)
    exact (C132_dump flt path node out).2.1 (by rw [← h2]; exact h)

/-! ## A filter that only depends on its arguments -/

theorem dumpAsk_pure {S : Type} (fs : FileSys S) (keep : Filter) (path : Bytes) : ∀ (fuel : Nat) (sub : Bytes) (s : S) (w : Writer),
    dumpAsk fs (some fun p ty s => (keep p ty, s)) path fuel sub s w = dumpFs fs (some keep) path fuel sub s w := by
  intro fuel
  induction fuel with
  | zero => intros; rfl
  | succ fuel ih =>
    intro sub s w
    have e : dumpAsk fs (some fun p ty s => (keep p ty, s)) path fuel = dumpFs fs (some keep) path fuel := by
      funext sub s w; exact ih sub s w
    unfold dumpAsk dumpFs
    simp only [e, ask, rejects]
    rcases hl : fs.lstat (pathJoin path sub) s with ⟨k, s1⟩
    rcases k with e | k
    · rfl
    · cases k with
      | other => rfl
      | symlink => rcases Bool.eq_false_or_eq_true (keep (pathJoin path sub) typeSymlink) with hk | hk <;> simp [hk] <;> rfl
      | directory => rcases Bool.eq_false_or_eq_true (keep (pathJoin path sub) typeDirectory) with hk | hk <;> simp [hk] <;> rfl
      | regular x size => rcases Bool.eq_false_or_eq_true (keep (pathJoin path sub) typeRegular) with hk | hk <;> simp [hk] <;> rfl

/-- C152: for a filter that only depends on its arguments this is the dump of C144. -/
theorem C152_pure {S : Type} (fs : FileSys S) (fuel : Nat) (keep : Filter) (path : Bytes) (s : S) (out : Sink) :
    dumpPathAsk fs fuel (some fun p ty s => (keep p ty, s)) path s out = dumpPathFilterFs fs fuel (some keep) path s out := by
  unfold dumpPathAsk dumpPathFilterFs
  simp only [dumpAsk_pure]
  rfl

theorem dumpAsk_none {S : Type} (fs : FileSys S) (path : Bytes) : ∀ (fuel : Nat) (sub : Bytes) (s : S) (w : Writer),
    dumpAsk fs none path fuel sub s w = dumpFs fs none path fuel sub s w := by
  intro fuel
  induction fuel with
  | zero => intros; rfl
  | succ fuel ih =>
    intro sub s w
    have e : dumpAsk fs none path fuel = dumpFs fs none path fuel := by
      funext sub s w; exact ih sub s w
    unfold dumpAsk dumpFs
    simp only [e, ask, rejects]
    rcases hl : fs.lstat (pathJoin path sub) s with ⟨k, s1⟩
    rcases k with e | k
    · rfl
    · cases k <;> rfl

/-- C152: without a filter everything is taken: this is the dump of C144 without one. -/
theorem C152_none {S : Type} (fs : FileSys S) (fuel : Nat) (path : Bytes) (s : S) (out : Sink) :
    dumpPathAsk fs fuel none path s out = dumpPathFilterFs fs fuel none path s out := by
  unfold dumpPathAsk dumpPathFilterFs
  simp only [dumpAsk_none]
  rfl

/-! ## A file system that does not change -/

mutual
theorem visit_seen {S F : Type} {fs : FileSys S} {s : S} (f : Bytes → Bytes → F → Bool × F) (path : Bytes) (t : Tree) (cs : List Bytes)
    (hcs : ∀ c ∈ cs, Good c) (ht : t.All NameOk fun _ => True) (h : Tree.HeldAt fs s t (pathJoin path (absPath cs))) (st : F) :
    SeenAsked (fs.beside F) (Asker.beside S f) path (s, st) (absPath cs) (visit f t (pathJoin path (absPath cs)) st).1
      (s, (visit f t (pathJoin path (absPath cs)) st).2) := by
  match t with
  | .regular x c =>
    simp only [Tree.HeldAt] at h
    obtain ⟨h1, ps, h2, rfl⟩ := h
    unfold visit
    have hl : (fs.beside F).lstat (pathJoin path (absPath cs)) (s, st) = (.ok (.regular x ps.flatten.length), s, st) := by
      simp [FileSys.beside, h1]
    rcases hk : f (pathJoin path (absPath cs)) b!"regular" st with ⟨b, st1⟩
    have ha : Asker.beside S f (pathJoin path (absPath cs)) b!"regular" (s, st) = (b, s, st1) := by simp [Asker.beside, hk]
    cases b with
    | false => exact .rejected hl rfl ha
    | true => exact .file hl ha (by simp [FileSys.beside, h2])
  | .symlink t =>
    simp only [Tree.HeldAt] at h
    unfold visit
    have hl : (fs.beside F).lstat (pathJoin path (absPath cs)) (s, st) = (.ok .symlink, s, st) := by
      simp [FileSys.beside, h.1]
    rcases hk : f (pathJoin path (absPath cs)) b!"symlink" st with ⟨b, st1⟩
    have ha : Asker.beside S f (pathJoin path (absPath cs)) b!"symlink" (s, st) = (b, s, st1) := by simp [Asker.beside, hk]
    cases b with
    | false => exact .rejected hl rfl ha
    | true => exact .link hl ha (by simp [FileSys.beside, h.2])
  | .directory es =>
    simp only [Tree.HeldAt] at h
    simp only [Tree.All] at ht
    unfold visit
    have hl : (fs.beside F).lstat (pathJoin path (absPath cs)) (s, st) = (.ok .directory, s, st) := by
      simp [FileSys.beside, h.1]
    rcases hk : f (pathJoin path (absPath cs)) b!"directory" st with ⟨b, st1⟩
    have ha : Asker.beside S f (pathJoin path (absPath cs)) b!"directory" (s, st) = (b, s, st1) := by simp [Asker.beside, hk]
    cases b with
    | false => exact .rejected hl rfl ha
    | true => exact .directory hl ha (by simp [FileSys.beside, h.2.1]) (visit_entries f path es cs hcs ht.2.2 h.2.2 st1)
theorem visit_entries {S F : Type} {fs : FileSys S} {s : S} (f : Bytes → Bytes → F → Bool × F) (path : Bytes) (es : Entries) (cs : List Bytes)
    (hcs : ∀ c ∈ cs, Good c) (ht : es.All NameOk fun _ => True) (h : Entries.HeldAt fs s es (pathJoin path (absPath cs))) (st : F) :
    EntriesAsked (fs.beside F) (Asker.beside S f) path (s, st) (absPath cs) es.names (visitEntries f es (pathJoin path (absPath cs)) st).1
      (s, (visitEntries f es (pathJoin path (absPath cs)) st).2) := by
  match es with
  | .nil => unfold visitEntries; exact .nil
  | .cons n t es =>
    simp only [Entries.HeldAt] at h
    simp only [Entries.All] at ht
    have hg := nameOk_good ht.1
    have hcs' : ∀ c ∈ cs ++ [n], Good c := by
      intro x hx
      rcases List.mem_append.1 hx with hx | hx
      · exact hcs x hx
      · rw [List.mem_singleton.1 hx]; exact hg
    have h1 := visit_seen f path t (cs ++ [n]) hcs' ht.2.1 (by rw [pathJoin_child path hcs hg]; exact h.1) st
    rw [pathJoin_child path hcs hg, absPath_snoc cs n hcs] at h1
    unfold visitEntries
    rcases hv : visit f t (osChild (pathJoin path (absPath cs)) n) st with ⟨o, st1⟩
    rw [hv] at h1
    have h2 := visit_entries f path es cs hcs ht.2.2 h.2 st1
    cases o with
    | some t' => exact .kept h1 h2
    | none => exact .left h1 h2
end

theorem beside_sane {S F : Type} {fs : FileSys S} (hs : fs.Sane) : (fs.beside F).Sane := by
  refine ⟨?_, ?_, ?_⟩
  · intro p s ns s' h
    simp only [FileSys.beside, Prod.mk.injEq] at h
    exact hs.names p s.1 ns (fs.readDir p s.1).2 (by rw [← h.1])
  · intro p s t s' h
    simp only [FileSys.beside, Prod.mk.injEq] at h
    exact hs.target p s.1 t (fs.readlink p s.1).2 (by rw [← h.1])
  · intro p s; exact hs.size p s.1

/-- C152, static: if the file system has the tree `t` at `path` and does not change, and the filter keeps a state of its own, the call writes what the filter
takes when it is asked about the nodes of `t` in order, and leaves it in the state it then is in. -/
theorem C152_static {S F : Type} {fs : FileSys S} (hs : fs.Sane) (f : Bytes → Bytes → F → Bool × F) (path : Bytes) (s : S) (st : F) (t t' : Tree)
    (ht : t.All NameOk fun _ => True) (hp : path ≠ []) (h : Tree.HeldAt fs s t (clean path))
    (hf : (visit f t (clean path) st).1 = some t') (hw : t'.All NameWr NodeWr) :
    ∃ fuel, ∀ fuel', fuel ≤ fuel' →
      (dumpPathAsk (fs.beside F) fuel' (some (Asker.beside S f)) path (s, st) ⟨[], none⟩).1 = .ok () ∧
      (dumpPathAsk (fs.beside F) fuel' (some (Asker.beside S f)) path (s, st) ⟨[], none⟩).2.1.out = t'.nar ∧
      (dumpPathAsk (fs.beside F) fuel' (some (Asker.beside S f)) path (s, st) ⟨[], none⟩).2.2 = (s, (visit f t (clean path) st).2) := by
  have e : pathJoin path (absPath []) = clean path := by
    have := root_path path
    rw [if_neg hp] at this
    exact this
  have := visit_seen f path t [] (by simp) ht (by rw [e]; exact h) st
  rw [e, hf] at this
  exact C152_complete (beside_sane hs) (some (Asker.beside S f)) path (s, st) _ t' this hw

mutual
theorem visit_recorder (keep : Bytes → Bytes → Bool) (t : Tree) (p : Bytes) (l : List (Bytes × Bytes)) :
    visit (recorder keep) t p l = (filtered keep t p, l ++ asked keep t p) := by
  match t with
  | .regular x c =>
    unfold visit filtered asked
    simp only [recorder]
    cases keep p b!"regular" <;> rfl
  | .symlink t =>
    unfold visit filtered asked
    simp only [recorder]
    cases keep p b!"symlink" <;> rfl
  | .directory es =>
    unfold visit filtered asked
    simp only [recorder]
    cases keep p b!"directory" with
    | false => rfl
    | true =>
      have := visitEntries_recorder keep es p (l ++ [(p, b!"directory")])
      simp [this]
theorem visitEntries_recorder (keep : Bytes → Bytes → Bool) (es : Entries) (p : Bytes) (l : List (Bytes × Bytes)) :
    visitEntries (recorder keep) es p l = (filteredEntries keep es p, l ++ askedEntries keep es p) := by
  match es with
  | .nil => simp [visitEntries, filteredEntries, askedEntries]
  | .cons n t es =>
    unfold visitEntries filteredEntries askedEntries
    rw [visit_recorder keep t]
    have := visitEntries_recorder keep es p (l ++ asked keep t (osChild p n))
    cases filtered keep t (osChild p n) <;> simp [this]
end

/-- C152, calls of the filter: a filter that only depends on its arguments is asked about every node that is not below a rejected directory exactly once,
with the path and the type of the node, a directory before its entries, these in order. -/
theorem C152_asked {S : Type} {fs : FileSys S} (hs : fs.Sane) (keep : Bytes → Bytes → Bool) (path : Bytes) (s : S) (t t' : Tree)
    (ht : t.All NameOk fun _ => True) (hp : path ≠ []) (h : Tree.HeldAt fs s t (clean path))
    (hf : filtered keep t (clean path) = some t') (hw : t'.All NameWr NodeWr) :
    ∃ fuel, ∀ fuel', fuel ≤ fuel' →
      (dumpPathAsk (fs.beside _) fuel' (some (Asker.beside S (recorder keep))) path (s, []) ⟨[], none⟩).1 = .ok () ∧
      (dumpPathAsk (fs.beside _) fuel' (some (Asker.beside S (recorder keep))) path (s, []) ⟨[], none⟩).2.1.out = t'.nar ∧
      (dumpPathAsk (fs.beside _) fuel' (some (Asker.beside S (recorder keep))) path (s, []) ⟨[], none⟩).2.2 = (s, asked keep t (clean path)) := by
  have e := visit_recorder keep t (clean path) []
  have := C152_static hs (recorder keep) path s [] t t' ht hp h (by rw [e]; exact hf) hw
  rw [e] at this
  simpa using this

/-- The filter that takes the first `n` nodes. -/
def firstFew (_ _ : Bytes) (n : Nat) : Bool × Nat := (n != 0, n - 1)

example : (dumpPathAsk (still.beside Nat) 9 (some (Asker.beside Unit firstFew)) b!"x/../../d/" ((), 2) ⟨[], none⟩).1 = .ok () ∧
    (dumpPathAsk (still.beside Nat) 9 (some (Asker.beside Unit firstFew)) b!"x/../../d/" ((), 2) ⟨[], none⟩).2.1.out =
      (Tree.directory (.cons b!"a" (.regular false b!"hi") .nil)).nar ∧
    (dumpPathAsk (still.beside Nat) 9 (some (Asker.beside Unit firstFew)) b!"x/../../d/" ((), 2) ⟨[], none⟩).2.2 = ((), 0) ∧
    (dumpPathAsk (still.beside Nat) 9 (some (Asker.beside Unit firstFew)) b!"../d" ((), 0) ⟨[], none⟩).1 ≠ .ok () ∧
    asked (fun p _ => p != b!"../d/s") stillTree b!"../d" =
      [(b!"../d", b!"directory"), (b!"../d/a", b!"regular"), (b!"../d/s", b!"directory")] := by
  decide +kernel

example : (visit firstFew stillTree b!"../d" 2).1 = some (.directory (.cons b!"a" (.regular false b!"hi") .nil)) ∧
    filtered (fun p _ => p != b!"../d/s") stillTree b!"../d" = some (.directory (.cons b!"a" (.regular false b!"hi") .nil)) :=
  ⟨rfl, rfl⟩

/-- A filter that looks at the state of the file system: from the fifth on it takes nothing. -/
example : (dumpPathAsk changing 9 (some fun _ _ n => (n < 5, n + 1)) b!"/d" 0 ⟨[], none⟩).1 = .ok () ∧
    (dumpPathAsk changing 9 (some fun _ _ n => (n < 5, n + 1)) b!"/d" 0 ⟨[], none⟩).2.1.out =
      (Tree.directory (.cons b!"a" (.symlink b!"a") .nil)).nar ∧
    (dumpPathAsk changing 9 (some fun _ _ n => (n < 5, n + 1)) b!"/d" 0 ⟨[], none⟩).2.2 = 8 := by
  decide +kernel

end Verif.Props
